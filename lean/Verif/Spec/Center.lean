import Verif.Spec.Ensemble
import Mathlib.Analysis.SpecialFunctions.Trigonometric.Basic

/-!
# Specification of centres in a periodic box

A weighted position on a circle of circumference `L` is a unit vector times its weight. The centre is the
direction of the sum of these vectors.
-/

namespace Verif.Spec

/-- Sum of the first components of the vectors of the pairs (weight, position). -/
noncomputable def cosSum (L : ℝ) (ps : List (ℝ × ℝ)) : ℝ :=
  (ps.map fun p => p.1 * Real.cos (2 * Real.pi * p.2 / L)).sum

/-- Sum of the second components. -/
noncomputable def sinSum (L : ℝ) (ps : List (ℝ × ℝ)) : ℝ :=
  (ps.map fun p => p.1 * Real.sin (2 * Real.pi * p.2 / L)).sum

/-- The vectors do not cancel: there is a direction. -/
def HasDirection (L : ℝ) (ps : List (ℝ × ℝ)) : Prop := ¬ (cosSum L ps = 0 ∧ sinSum L ps = 0)

/-- `c` in `[0, L]` is the direction of the sum of the vectors. -/
def IsCircularMean (L : ℝ) (ps : List (ℝ × ℝ)) (c : ℝ) : Prop :=
  0 ≤ c ∧ c ≤ L ∧ ∃ ρ > 0, cosSum L ps = ρ * Real.cos (2 * Real.pi * c / L) ∧
    sinSum L ps = ρ * Real.sin (2 * Real.pi * c / L)

/-- Equal modulo `L`. -/
def SameMod (L a b : ℝ) : Prop := ∃ k : ℤ, a = b + k * L

/-- Every position has the same weight. -/
def unweighted (l : List ℝ) : List (ℝ × ℝ) := l.map fun x => (1, x)

/-- The `j`-th coordinates of a list of positions. -/
def column {n : Nat} (ps : List (Fin n → ℝ)) (j : Fin n) : List ℝ := ps.map fun p => p j

/-- The pixel as a position. -/
def coords (n : Nat) (x : List Int) : Fin n → ℝ := fun j => ((x.getD j 0 : Int) : ℝ)

/-- The list has every pixel with this label once, in some order. -/
def Enumerates (labels : Nd Int) (name : Int) (l : List (List Int)) : Prop :=
  l.Nodup ∧ ∀ x, x ∈ l ↔ InBox labels.shape x ∧ val labels x = name

/-- The same in a box of size `L` if periodic; equal otherwise. -/
def SameIn (periodic : Bool) (L a b : ℝ) : Prop := if periodic then SameMod L a b else a = b

/-- The sizes of the box of an image. -/
def box (n : Nat) (shape : List Nat) : Fin n → ℝ := fun j => ((shape.getD j 0 : Nat) : ℝ)

end Verif.Spec
