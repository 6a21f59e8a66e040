import Verif.Spec.Ensemble
import Verif.Model.Structure
import Mathlib.Analysis.SpecialFunctions.Trigonometric.Basic

/-!
# Specification of the power spectrum of an image

Independent of the model.
-/

namespace Verif.Spec

open Structure

/-- The phase at `x` of the wave that has `q` periods in the image: `2 π (q₁ x₁ / n₁ + q₂ x₂ / n₂ + …)`. -/
noncomputable def phase : List Nat → List Int → List Int → ℝ
  | n :: shape, q :: qs, x :: xs => 2 * Real.pi * (q * x / n) + phase shape qs xs
  | _, _, _ => 0

/-- The power `|f̂(q)|² / N` of an image of `N` pixels at the wave that has `q` periods in the image. -/
noncomputable def spectralPower (f : Nd ℝ) (q : List Int) : ℝ :=
  (((pixels f.shape).map fun x => val f x * Real.cos (phase f.shape q x)).sum ^ 2 +
    ((pixels f.shape).map fun x => val f x * Real.sin (phase f.shape q x)).sum ^ 2) / f.shape.prod

/-- The sample of `Structure` in one dimension. -/
def asVec (n : Nat) (f : Nd ℝ) : Vec ℝ := ⟨n, fun j => val f [(j : Int)]⟩

/-- The sample of `Structure` in two dimensions. -/
def asMat (m n : Nat) (f : Nd ℝ) : Mat ℝ := ⟨m, n, fun i j => val f [(i : Int), (j : Int)]⟩

end Verif.Spec
