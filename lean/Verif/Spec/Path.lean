import Mathlib.Data.List.Basic
import Mathlib.Algebra.Order.Ring.Rat
import Mathlib.Algebra.Order.Field.Basic

/-!
# Specification of pixel paths

Independent of the model. Points are lists of integer coordinates.
-/

namespace Verif.Spec

/-- Sum of two points. -/
def addPt (x c : List Int) : List Int := List.zipWith (fun a b => a + b) x c

/-- Reflection of a point: coordinate `i` is multiplied by `s i` (1 or -1). -/
def reflectPt (s x : List Int) : List Int := List.zipWith (fun a b => a * b) s x

/-- Permutation of the axes: coordinate `i` of the result is coordinate `σ i` of the point. -/
def permutePt (σ : List Nat) (x : List Int) : List Int := σ.map fun i => x.getD i 0

/-- The largest displacement along an axis. -/
def chebyshev (xa xb : List Int) : Nat := ((xa.zip xb).map fun p => (p.2 - p.1).natAbs).foldr max 0

/-- The sum of the displacements. -/
def manhattan (xa xb : List Int) : Nat := ((xa.zip xb).map fun p => (p.2 - p.1).natAbs).sum

/-- `r` is `k / n` of the way from `a` to `b`, rounded to the nearest integer, with ties rounded away
from `a`. -/
def Rounded (a b : Int) (n k : Nat) (r : Int) : Prop :=
  (a ≤ b → a ≤ r ∧ -(n : Int) < 2 * n * (r - a) - 2 * k * (b - a) ∧
    2 * n * (r - a) - 2 * k * (b - a) ≤ n) ∧
  (b ≤ a → r ≤ a ∧ -(n : Int) < 2 * n * (a - r) - 2 * k * (a - b) ∧
    2 * n * (a - r) - 2 * k * (a - b) ≤ n)

/-- At `k / n` of the way from `a` to `b` the line is midway between two integers:
`k (b - a) / n` is an integer and a half. -/
def Midway (a b : Int) (n k : Nat) : Prop := ∃ m : Int, 2 * (k * (b - a)) = (2 * m + 1) * n

/-- `y` is between `a` and `b`. -/
def Between (a b y : Int) : Prop := min a b ≤ y ∧ y ≤ max a b

/-- `y` is in the box spanned by `a` and `b`. -/
def InSpan (a b y : List Int) : Prop :=
  y.length = a.length ∧ ∀ i < a.length, Between (a.getD i 0) (b.getD i 0) (y.getD i 0)

/-- `y` is `x` or `x` moved by one towards `b`. -/
def TowardsOrStay (b x y : Int) : Prop := y = x ∨ (x < b ∧ y = x + 1) ∨ (b < x ∧ y = x - 1)

/-- From `x` to `y` at least one coordinate moves, each by at most one, and towards `b`. -/
def StepTowards (b x y : List Int) : Prop :=
  y ≠ x ∧ y.length = x.length ∧ ∀ i < b.length, TowardsOrStay (b.getD i 0) (x.getD i 0) (y.getD i 0)

/-- From `x` to `y` exactly one coordinate moves, by one, towards `b`. -/
def UnitStep (b x y : List Int) : Prop :=
  ∃ i < b.length, (x.getD i 0 < b.getD i 0 ∧ y = x.set i (x.getD i 0 + 1)) ∨
    (b.getD i 0 < x.getD i 0 ∧ y = x.set i (x.getD i 0 - 1))

/-- The segment from the origin to `v` meets the closed unit cube around `y`. -/
def Meets (v y : List Int) : Prop :=
  ∃ t : ℚ, 0 ≤ t ∧ t ≤ 1 ∧ List.Forall₂ (fun (a c : Int) => |(c : ℚ) - t * a| ≤ 1 / 2) v y

/-- At least the fraction `e` of the segment from the origin to `v` lies in the closed unit cube around `y`. -/
def Stays (e : ℚ) (v y : List Int) : Prop :=
  ∃ a b : ℚ, 0 ≤ a ∧ b ≤ 1 ∧ e ≤ b - a ∧
    ∀ t, a ≤ t → t ≤ b → List.Forall₂ (fun (a c : Int) => |(c : ℚ) - t * a| ≤ 1 / 2) v y

/-- The segment from the origin to `v` meets the open unit cube around `y`. -/
def Crosses (v y : List Int) : Prop :=
  ∃ t : ℚ, 0 ≤ t ∧ t ≤ 1 ∧ List.Forall₂ (fun (a c : Int) => |(c : ℚ) - t * a| < 1 / 2) v y

/-- The straight line through `x0` and `x1`, extended to both sides, passes through the inside of the pixel of
the origin (axes along which `x0` and `x1` agree are disregarded). -/
def ThroughOrigin (x0 x1 : List Int) : Prop :=
  ∃ l : ℚ, ∀ i < x0.length, x0.getD i 0 ≠ x1.getD i 0 →
    |(x0.getD i 0 : ℚ) + l * (x1.getD i 0 - x0.getD i 0)| < 1 / 2

end Verif.Spec
