import Verif.Lemmas.CollapsedStored
import Verif.Props.Collapsed

/-!
# The collapsed weighted correlation, W2c, for any region of interest (C48)

`slot roi d`: the place at which the value of displacement `d` is stored. It is the place of `d` in the
result, but for the `drift` of three-dimensional regions of interest.
-/

set_option linter.unusedSectionVars false

namespace Verif.Props

open Verif Outcome Spec Ens

variable {K : Type} [Field K] [LinearOrder K] [IsStrictOrderedRing K]
variable {roi : List Nat} {periodic : Bool} {f : Nd K} {fmask clusters centers : Nd Int}

/-- What W2c computes, for every region of interest. If everything that is stored has its place in the
result, each element is the average of the values that are stored there. -/
theorem C48_code (L : Legal periodic f.shape roi) (hfm : fmask.shape = f.shape)
    (hcl : clusters.shape = f.shape) (hce : centers.shape = f.shape) (bf : IsMask fmask) {junk : ℚ}
    {fuel : Nat} {mode : Path.Mode} (hm : Enough fuel roi mode) {paths : List (List (List Int))}
    (hp : ArePaths junk fuel mode roi paths) (hw : Within periodic fmask clusters centers roi paths)
    (pow05 : K → K) (dbg : Bool) :
    ∃ r, Api.W2cMask pow05 dbg junk fuel roi clusters centers f fmask mode periodic = ok r ∧ r.shape = roi ∧
      ∀ i, InBox roi i → val r i =
        averageOf (samplesWhere periodic f fmask clusters centers paths fun d => slot roi d = flat roi i) := by
  obtain ⟨P, hP⟩ := choose_paths junk L.rank hm
  rw [paths_unique L.rank hP] at hp
  subst hp
  obtain ⟨r, h1, h2, h3⟩ := once (K := K) pow05 L.rank L.pos
    ((W2c_if (K := K) (variance := true) L.rank L.pos L.same hfm hcl hce bf L.fits hP).1 hw) dbg
  refine ⟨r, h1, h2, fun i hi => ?_⟩
  rw [h3 i hi, ← averageOf_eq]
  simp only [move_ctr (inbox_length hi)]
  rfl

/-- Otherwise memory is accessed out of bounds. -/
theorem C48_outside (L : Legal periodic f.shape roi) (hfm : fmask.shape = f.shape)
    (hcl : clusters.shape = f.shape) (hce : centers.shape = f.shape) (bf : IsMask fmask) {junk : ℚ}
    {fuel : Nat} {mode : Path.Mode} (hm : Enough fuel roi mode) {paths : List (List (List Int))}
    (hp : ArePaths junk fuel mode roi paths) (hw : ¬ Within periodic fmask clusters centers roi paths)
    (pow05 : K → K) (dbg : Bool) :
    Api.W2cMask pow05 dbg junk fuel roi clusters centers f fmask mode periodic = ub := by
  obtain ⟨P, hP⟩ := choose_paths junk L.rank hm
  rw [paths_unique L.rank hP] at hp
  subst hp
  have h := (W2c_if (K := K) (variance := true) L.rank L.pos L.same hfm hcl hce bf L.fits hP).2 hw dbg
    (fresh K roi periodic true .unset) good_fresh (Or.inr rfl)
  rw [Api.W2cMask, make_ok dbg L.rank L.pos, ok_bind, h]
  rfl

/-- The paths of a ROI of 1 x 1 x 3 pixels, and of one of 1 x 1 x 5. -/
theorem paths113 : ArePaths 0 0 .bresenham [1, 1, 3] [[[0, 0, 0], [0, 0, -1]], [[0, 0, 0], [0, 0, 1]]] := by
  have he : edge [1, 1, 3] = [[0, 0, -1], [0, 0, 1]] := by decide
  unfold ArePaths
  rw [he]
  exact .cons ⟨by rfl, by decide⟩ (.cons ⟨by rfl, by decide⟩ .nil)

theorem paths115 : ArePaths 0 0 .bresenham [1, 1, 5]
    [[[0, 0, 0], [0, 0, -1], [0, 0, -2]], [[0, 0, 0], [0, 0, 1], [0, 0, 2]]] := by
  have he : edge [1, 1, 5] = [[0, 0, -2], [0, 0, 2]] := by decide
  unfold ArePaths
  rw [he]
  exact .cons ⟨by rfl, by decide⟩ (.cons ⟨by rfl, by decide⟩ .nil)

/-- The hypotheses of `C48_code` are met by a ROI of 1 x 1 x 3 pixels, those of `C48_outside` by one of
1 x 1 x 5. -/
example : Legal false [1, 1, 3] [1, 1, 3] ∧ IsMask (Nd.ofList [1, 1, 3] [0, 0, 0]) ∧
    Enough 0 [1, 1, 3] .bresenham ∧ drift [1, 1, 3] = -1 ∧
    Within false (Nd.ofList [1, 1, 3] [0, 0, 0]) (Nd.ofList [1, 1, 3] [0, 1, 0]) (Nd.ofList [1, 1, 3] [0, 1, 0])
      [1, 1, 3] [[[0, 0, 0], [0, 0, -1]], [[0, 0, 0], [0, 0, 1]]] := by
  refine ⟨⟨by decide, by decide, rfl, fun h => by cases h⟩, ?_, fun h => absurd rfl h, rfl, ?_⟩
  · unfold IsMask
    decide
  · unfold Within
    decide +kernel

example : Legal false [1, 1, 5] [1, 1, 5] ∧ drift [1, 1, 5] = -2 ∧
    ¬ Within false (Nd.ofList [1, 1, 5] [0, 0, 0, 0, 0]) (Nd.ofList [1, 1, 5] [0, 0, 1, 0, 0])
      (Nd.ofList [1, 1, 5] [0, 0, 1, 0, 0]) [1, 1, 5]
      [[[0, 0, 0], [0, 0, -1], [0, 0, -2]], [[0, 0, 0], [0, 0, 1], [0, 0, 2]]] := by
  refine ⟨⟨by decide, by decide, rfl, fun h => by cases h⟩, rfl, ?_⟩
  unfold Within
  decide +kernel

/-- Also without an access out of bounds the values can be misplaced: a ROI of 1 x 1 x 3 pixels, with a
cluster of one pixel between pixels of value one. The value at displacement zero is one, but the result is
zero there. It is one at the first pixel instead. -/
theorem C48_shift_violated : ∃ (f : Nd ℚ) (fmask clusters centers : Nd Int) (roi : List Nat)
    (paths : List (List (List Int))) (r : Nd ℚ) (i j : List Int),
    Legal false f.shape roi ∧ fmask.shape = f.shape ∧ clusters.shape = f.shape ∧ centers.shape = f.shape ∧
    IsMask fmask ∧ InBox roi i ∧ InBox roi j ∧ ArePaths 0 0 .bresenham roi paths ∧
    Api.W2cMask id true (0 : ℚ) 0 roi clusters centers f fmask .bresenham false = ok r ∧
    val r i = 0 ∧ averageOf (samples false f fmask clusters centers (outside false clusters centers) paths
      (displacement roi i)) = 1 ∧
    val r j = 1 ∧ samples false f fmask clusters centers (outside false clusters centers) paths
      (displacement roi j) = [] := by
  have L : Legal false (Nd.ofList [1, 1, 3] [(1 : ℚ), 0, 1]).shape [1, 1, 3] :=
    ⟨by decide, by decide, rfl, fun h => by cases h⟩
  have b1 : IsMask (Nd.ofList [1, 1, 3] [0, 0, 0]) := by unfold IsMask; decide
  have hi : InBox [1, 1, 3] [0, 0, 1] := by simp [InBox]
  have hj : InBox [1, 1, 3] [0, 0, 0] := by simp [InBox]
  obtain ⟨r, h1, -, h3⟩ := C48_code (f := Nd.ofList [1, 1, 3] [(1 : ℚ), 0, 1])
    (fmask := Nd.ofList [1, 1, 3] [0, 0, 0]) (clusters := Nd.ofList [1, 1, 3] [0, 1, 0])
    (centers := Nd.ofList [1, 1, 3] [0, 1, 0]) L rfl rfl rfl b1 (fun h => absurd rfl h) paths113
    (by unfold Within; decide +kernel) id true
  refine ⟨_, _, _, _, [1, 1, 3], _, r, [0, 0, 1], [0, 0, 0], L, rfl, rfl, rfl, b1, hi, hj, paths113, h1, ?_, ?_, ?_, ?_⟩
  · rw [h3 _ hi]
    decide +kernel
  · decide +kernel
  · rw [h3 _ hj]
    decide +kernel
  · decide +kernel

end Verif.Props
