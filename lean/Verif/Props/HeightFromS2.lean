import Verif.Props.Weighted

/-! # The height-height correlation from two-point correlations, with masks and without periodicity (C40) -/

set_option linter.unusedSectionVars false

namespace Verif.Props

open Verif Outcome Spec Ens

variable {roi : List Nat} {periodic : Bool} {f : Nd ℝ} {fmask : Nd Int}

/-- **C40**: with any mask, periodic or not, the square of heightheight is `S2(f^2, 1) + S2(1, f^2) - 2 S2(f, f)` (with
the mask for both images). -/
theorem C40_from_S2 (L : Legal periodic f.shape roi) (hfm : fmask.shape = f.shape) (bf : IsMask fmask) (pow05 : ℝ → ℝ)
    (dbg : Bool) :
    ∃ r a b c, Api.heightheightMask Real.sqrt dbg roi f fmask periodic = ok r ∧
      Api.S2Mask pow05 dbg roi (f.map fun v => v ^ 2) (f.map fun _ => 1) fmask fmask periodic = ok a ∧
      Api.S2Mask pow05 dbg roi (f.map fun _ => 1) (f.map fun v => v ^ 2) fmask fmask periodic = ok b ∧
      Api.S2Mask pow05 dbg roi f f fmask fmask periodic = ok c ∧ r.shape = roi ∧
      ∀ i, InBox roi i → val r i ^ 2 = val a i + val b i - 2 * val c i := by
  obtain ⟨r, h1, h2, h3⟩ := C40_code L hfm bf dbg
  obtain ⟨a, a1, -, a3⟩ := C34_code (f := f.map fun v => v ^ 2) (g := f.map fun _ => 1) L rfl hfm hfm bf bf pow05 dbg
  obtain ⟨b, b1, -, b3⟩ := C34_code (f := f.map fun _ => 1) (g := f.map fun v => v ^ 2) L rfl hfm hfm bf bf pow05 dbg
  obtain ⟨c, c1, -, c3⟩ := C34_code (f := f) (g := f) L rfl hfm hfm bf bf pow05 dbg
  refine ⟨r, a, b, c, h1, a1, b1, c1, h2, fun i hi => ?_⟩
  have v1 : ∀ (φ : ℝ → ℝ) x, val (f.map φ) x = φ (val f x) := fun _ _ => rfl
  have s1 : ∀ φ : ℝ → ℝ, (f.map φ).shape = f.shape := fun _ => rfl
  simp only [h3 i hi, a3 i hi, b3 i hi, c3 i hi, v1, s1]
  rw [Real.sq_sqrt (average_nonneg fun _ _ => sq_nonneg _)]
  simp only [average_eq_div]
  rw [← add_div, ← total_add, mul_div_assoc', ← total_mul, ← sub_div]
  congr 1
  rw [eq_sub_iff_add_eq, ← total_add]
  refine total_congr fun p _ => ?_
  ring

/-- An image that is not periodic with a masked pixel. -/
example : Legal false [5] [3] ∧ IsMask (mk [0, 0, 0, 0, 1]) :=
  ⟨⟨by decide, by decide, rfl, by unfold Fits; decide⟩, mk_isMask (by decide)⟩

end Verif.Props
