import Verif.Spec.Ensemble
import Mathlib.Analysis.SpecialFunctions.Pow.Real

/-! # Specification of `dummy_circles` -/

namespace Verif.Spec

/-- A circle: row and column of the centre, radius. -/
structure Circle where
  row : Int
  col : Int
  r : Int
deriving DecidableEq

/-- The circles given by three lists. -/
def circlesOf (row col r : List Int) : List Circle :=
  List.zipWith (fun a p => ⟨a, p.1, p.2⟩) row (List.zip col r)

/-- The displacement is at a distance, rounded up, of less than `r`. -/
def InDisc (r di dj : Int) : Prop := ⌈Real.sqrt ((di : ℝ) ^ 2 + (dj : ℝ) ^ 2)⌉ < r

/-- The pixel of a point of the plane. -/
def pixelOf (periodic : Bool) (shape : List Nat) (x : List Int) : List Int :=
  if periodic then wrap shape x else x

/-- The pixel is covered by one of the circles. -/
def Covered (periodic : Bool) (shape : List Nat) (circles : List Circle) (x : List Int) : Prop :=
  ∃ c ∈ circles, ∃ di dj, InDisc c.r di dj ∧ pixelOf periodic shape [c.row + di, c.col + dj] = x

end Verif.Spec
