import Verif.Props.Moments
import Verif.Props.Weighted

/-!
# The variance of the height-height correlation (C66)
-/

set_option linter.unusedSectionVars false

namespace Verif.Props

open Verif Outcome Spec Ens

section K

variable {K : Type} [Field K] [LinearOrder K] [IsStrictOrderedRing K]

/-- The squared height differences of all unmasked pairs of pixels at displacement `d`, in all images. -/
def squaredDifferences (periodic : Bool) (images : List (Nd K × Nd Int)) (d : List Int) : List K :=
  images.flatMap fun a => (pairs periodic a.1.shape (fun x y => val a.2 x = 0 ∧ val a.2 y = 0) d).map
    fun p => (val a.1 p.2 - val a.1 p.1) ^ 2

/-- An image and its mask that can be added to an ensemble; if the ensemble is periodic without masked
pixels. -/
structure LegalPair (periodic : Bool) (roi : List Nat) (a : Nd K × Nd Int) : Prop where
  legal : Legal periodic a.1.shape roi
  shape : a.2.shape = a.1.shape
  mask : IsMask a.2
  unmasked : periodic = false ∨ ∀ x ∈ pixels a.1.shape, val a.2 x = 0

theorem heightheight_sums {periodic variance : Bool} {roi : List Nat} {a : Nd K × Nd Int}
    (h : LegalPair periodic roi a) {i : List Int} (hi : InBox roi i) :
    ((pixels a.1.shape).map fun x =>
        let w : K := if val a.2 x = 0 then
          1 - ((maskAt periodic a.2 (move x (displacement roi i)) : Int) : K) else 0
        ((ext periodic a.1 (move x (displacement roi i)) - val a.1 x) ^ 2 * w,
          (if variance then (ext periodic a.1 (move x (displacement roi i)) - val a.1 x) ^ 4 * w
            else 0), w)).sum =
      ((squaredDifferences periodic [a] (displacement roi i)).sum,
        (if variance then ((squaredDifferences periodic [a] (displacement roi i)).map
          fun v => v ^ 2).sum else 0),
        ((squaredDifferences periodic [a] (displacement roi i)).length : K)) := by
  obtain ⟨f, m⟩ := a
  obtain ⟨L, hs, bm, hu⟩ := h
  simp only at L hs bm hu ⊢
  have hd : (displacement roi i).length = f.shape.length := by
    rw [displacement_length (inbox_length hi), L.same]
  have e0 : pairs periodic f.shape (fun x y => val m x = 0 ∧ val m y = 0) (displacement roi i) =
      pairs periodic f.shape (fun x y => val m x = 0 ∧ Seen periodic m (displacement roi i) x y)
        (displacement roi i) := pairs_congr fun x _ ht => by rw [seen_iff hu ht]
  have key : ∀ φ : K → K, ((pairs periodic f.shape
      (fun x y => val m x = 0 ∧ val m y = 0) (displacement roi i)).map
        fun p => φ (val f p.2 - val f p.1)).sum =
      ((pixels f.shape).map fun x =>
        φ (ext periodic f (move x (displacement roi i)) - val f x) * (if val m x = 0 then
          1 - ((maskAt periodic m (move x (displacement roi i)) : Int) : K) else 0)).sum := by
    intro φ
    have := total_pairs (K := K) periodic f.shape
      (fun x y => val m x = 0 ∧ Seen periodic m (displacement roi i) x y) (displacement roi i)
      fun x y => φ (val f y - val f x)
    rw [← e0] at this
    unfold total at this
    rw [this]
    refine congrArg List.sum (List.map_congr_left fun x hx => ?_)
    rw [mem_pixels] at hx
    rw [mask_weight bm (by rw [hs]; exact hx) (by rw [hs]; exact hd), hs]
    by_cases ht : target periodic f.shape x (displacement roi i) ∈ pixels f.shape
    · rw [ext_target ht]
      by_cases a : val m x = 0 <;> simp [ht, a]
    · simp [ht]
  have k1 := key fun v => v ^ 2
  have k2 := key fun v => v ^ 4
  have k3 := key fun _ => 1
  simp only [one_mul, List.map_const', List.sum_replicate, nsmul_eq_mul, mul_one] at k3
  simp only [sum_prod, List.map_map, Function.comp_def, squaredDifferences, List.flatMap_cons,
    List.flatMap_nil, List.append_nil, List.length_map, k1, ← pow_mul]
  rw [k3]
  cases variance with
  | true => simp [k2]
  | false => simp

theorem heightheight_run {periodic variance : Bool} {roi : List Nat}
    {images : List (Nd K × Nd Int)} (hr : roi.length ≤ 3) (h0 : 0 ∉ roi) (hne : images ≠ [])
    (hl : ∀ a ∈ images, LegalPair periodic roi a) (dbg : Bool) (pow05 : K → K) :
    ∃ E r v, (do
        let E ← make K dbg roi periodic variance
        forM images E fun E a => heightheight dbg E a.1 a.2) = ok E ∧
      result pow05 E = ok r ∧ varianceResult pow05 E = ok v ∧ r.shape = roi ∧ v.shape = roi ∧
      ∀ i, InBox roi i →
        let data := squaredDifferences periodic images (displacement roi i)
        val r i = pow05 (data.sum / norm1 (data.length : K)) ∧
        val v i = pow05 (varianceOf data.sum (if variance then (data.map fun v => v ^ 2).sum else 0)
          (data.length : K)) := by
  obtain ⟨δ, e1, e2⟩ := effects_run (K := K) (call := fun a dbg E => heightheight dbg E a.1 a.2)
    fun a ha => HH_effect (K := K) (variance := variance) hr h0 (hl a ha).legal.same (hl a ha).shape
      (hl a ha).mask (hl a ha).legal.fits
  rw [make_ok dbg hr h0]
  simp only [ok_bind]
  have e3 := e1 dbg (fresh K roi periodic variance .unset) good_fresh (Or.inr rfl)
  rw [if_neg hne] at e3
  refine ⟨_, ⟨roi, fun k => pow05 (δ.1 k / norm1 (δ.2.2 k))⟩,
    ⟨roi, fun k => pow05 (varianceOf (δ.1 k) (δ.2.1 k) (δ.2.2 k))⟩, e3, ?_, ?_, rfl, rfl,
    fun i hi => ?_⟩
  · simp [result, Ensemble.plus, fresh, Nd.fill, Nd.map₂, Nd.map, Nd.reshape]
  · simp [varianceResult, Ensemble.plus, fresh, Nd.fill, Nd.map₂, Nd.map, Nd.reshape]
  have e4 := e2 i hi
  have hsum : ∀ l : List (Nd K × Nd Int), (∀ a ∈ l, LegalPair periodic roi a) → (l.map fun a =>
      ((pixels a.1.shape).map fun x =>
        let w : K := if val a.2 x = 0 then
          1 - ((maskAt periodic a.2 (move x (displacement roi i)) : Int) : K) else 0
        ((ext periodic a.1 (move x (displacement roi i)) - val a.1 x) ^ 2 * w,
          (if variance then (ext periodic a.1 (move x (displacement roi i)) - val a.1 x) ^ 4 * w
            else 0), w)).sum).sum =
      ((squaredDifferences periodic l (displacement roi i)).sum,
        (if variance then ((squaredDifferences periodic l (displacement roi i)).map
          fun v => v ^ 2).sum else 0),
        ((squaredDifferences periodic l (displacement roi i)).length : K)) := by
    intro l hl
    induction l with
    | nil => cases variance <;> simp [squaredDifferences] <;> rfl
    | cons a l ih =>
      rw [List.map_cons, List.sum_cons, ih fun b hb => hl b (List.mem_cons_of_mem _ hb),
        heightheight_sums (hl a (by simp)) hi]
      cases variance <;> simp [squaredDifferences, List.flatMap_cons]
  rw [hsum images hl] at e4
  simp only [Delta.at, Prod.mk.injEq] at e4
  obtain ⟨a1, a2, a3⟩ := e4
  constructor
  · show pow05 (δ.1 (flat roi i).toNat / norm1 (δ.2.2 (flat roi i).toNat)) = _
    rw [a1, a3]
  · show pow05 (varianceOf (δ.1 (flat roi i).toNat) (δ.2.1 (flat roi i).toNat)
      (δ.2.2 (flat roi i).toNat)) = _
    rw [a1, a2, a3]

end K

/-- After any sequence of images `result` is the root of the mean and `variance` the root of the unbiased
sample variance of the squared differences of the unmasked pairs of pixels, if the ensemble was
constructed with `variance = true`. Missing: `variance = false`, the default in Python
(`C66_violated`), and masked pixels of periodic images (`C40_violated`). -/
theorem C66_partial {roi : List Nat} (hr : roi.length ≤ 3) (h0 : 0 ∉ roi) {periodic : Bool}
    {images : List (Nd ℝ × Nd Int)} (hne : images ≠ [])
    (hl : ∀ a ∈ images, LegalPair periodic roi a) (dbg : Bool) :
    ∃ E r v, (do
        let E ← make ℝ dbg roi periodic true
        forM images E fun E a => heightheight dbg E a.1 a.2) = ok E ∧
      result Real.sqrt E = ok r ∧ varianceResult Real.sqrt E = ok v ∧ r.shape = roi ∧ v.shape = roi ∧
      ∀ i, InBox roi i →
        let data := squaredDifferences periodic images (displacement roi i)
        (data ≠ [] → val r i = Real.sqrt (arithmeticMean data)) ∧
        (2 ≤ data.length → val v i = Real.sqrt (sampleVariance data)) := by
  obtain ⟨E, r, v, h1, h2, h3, h4, h5, h6⟩ :=
    heightheight_run (variance := true) hr h0 hne hl dbg Real.sqrt
  refine ⟨E, r, v, h1, h2, h3, h4, h5, fun i hi => ⟨fun hd => ?_, fun hd => ?_⟩⟩
  · have hn : ¬ (((squaredDifferences periodic images (displacement roi i)).length : ℝ) ≤ 0) := by
      rw [not_le]
      exact_mod_cast List.length_pos_iff.2 hd
    rw [(h6 i hi).1, norm1, if_neg hn, arithmeticMean]
  · rw [(h6 i hi).2, if_pos rfl, variance_formula hd]

/-- With `variance = false` `variance` does not raise: it returns, whatever the images, the root of a
number that is not positive. -/
theorem C66_negative_violated {roi : List Nat} (hr : roi.length ≤ 3) (h0 : 0 ∉ roi) {periodic : Bool}
    {images : List (Nd ℝ × Nd Int)} (hne : images ≠ [])
    (hl : ∀ a ∈ images, LegalPair periodic roi a) (dbg : Bool) (pow05 : ℝ → ℝ) :
    ∃ E v, (do
        let E ← make ℝ dbg roi periodic false
        forM images E fun E a => heightheight dbg E a.1 a.2) = ok E ∧
      varianceResult pow05 E = ok v ∧ v.shape = roi ∧
      ∀ i, InBox roi i →
        let data := squaredDifferences periodic images (displacement roi i)
        2 ≤ data.length → ∃ z : ℝ, val v i = pow05 z ∧ z ≤ 0 ∧ (arithmeticMean data ≠ 0 → z < 0) := by
  obtain ⟨E, r, v, h1, h2, h3, h4, h5, h6⟩ :=
    heightheight_run (variance := false) hr h0 hne hl dbg pow05
  refine ⟨E, v, h1, h3, h5, fun i hi => ?_⟩
  intro data hd
  have hn : (1 : ℝ) < (data.length : ℝ) := by exact_mod_cast (by omega : 1 < data.length)
  have hz : varianceOf data.sum 0 (data.length : ℝ) =
      -(arithmeticMean data ^ 2 * ((data.length : ℝ) / ((data.length : ℝ) - 1))) := by
    rw [varianceOf, norm1, if_neg (by linarith), arithmeticMean]
    ring
  have hq : 0 < (data.length : ℝ) / ((data.length : ℝ) - 1) :=
    div_pos (by linarith) (by linarith)
  refine ⟨varianceOf data.sum 0 (data.length : ℝ), by simpa using (h6 i hi).2, ?_, fun hm => ?_⟩
  · rw [hz]
    have := mul_nonneg (sq_nonneg (arithmeticMean data)) hq.le
    linarith
  · rw [hz]
    have := mul_pos (pow_pos (abs_pos.2 hm) 2) hq
    rw [sq_abs] at this
    linarith

private def stairs : Nd ℝ := Nd.ofList [3] [0, 1, 3]

private theorem stairs_legal : LegalPair false [3] (stairs, mk [0, 0, 0]) :=
  ⟨⟨by decide, by decide, rfl, fun h => by simp at h⟩, rfl, mk_isMask (by decide), Or.inl rfl⟩

private theorem stairs_data :
    squaredDifferences false [(stairs, mk [0, 0, 0])] (displacement [3] [2]) = [1, 4] := by
  have e : pairs false [3] (fun x y => val (mk [0, 0, 0]) x = 0 ∧ val (mk [0, 0, 0]) y = 0)
      (displacement [3] [2]) = [([0], [1]), ([1], [2])] := by decide +kernel
  have hs : stairs.shape = [3] := rfl
  have v0 : val stairs [0] = 0 := rfl
  have v1 : val stairs [1] = 1 := rfl
  have v2 : val stairs [2] = 3 := rfl
  simp only [squaredDifferences, List.flatMap_cons, List.flatMap_nil, hs, e, List.map_cons,
    List.map_nil, v0, v1, v2, List.append_nil]
  norm_num

/-- The hypotheses of `C66_partial` can be met, with two pairs at displacement 1. -/
example : (∀ a ∈ [(stairs, mk [0, 0, 0])], LegalPair false [3] a) ∧
    2 ≤ (squaredDifferences false [(stairs, mk [0, 0, 0])] (displacement [3] [2])).length := by
  rw [stairs_data]
  exact ⟨fun a ha => by rw [List.mem_singleton.1 ha]; exact stairs_legal, by simp⟩

/-- With `variance = false` the value of `variance` is not the root of the sample variance. -/
theorem C66_violated : ∃ (roi : List Nat) (images : List (Nd ℝ × Nd Int)) (E : Ensemble ℝ) (v : Nd ℝ)
    (i : List Int), (∀ a ∈ images, LegalPair false roi a) ∧ InBox roi i ∧
    2 ≤ (squaredDifferences false images (displacement roi i)).length ∧
    (do
      let E ← make ℝ true roi false false
      forM images E fun E a => heightheight true E a.1 a.2) = ok E ∧
    varianceResult Real.sqrt E = ok v ∧
    val v i ≠ Real.sqrt (sampleVariance (squaredDifferences false images (displacement roi i))) := by
  have hl : ∀ a ∈ [(stairs, mk [0, 0, 0])], LegalPair false [3] a := fun a ha => by
    rw [List.mem_singleton.1 ha]; exact stairs_legal
  have hi : InBox [3] [2] := by simp [InBox]
  obtain ⟨E, v, h1, h2, h3, h4⟩ := C66_negative_violated (roi := [3]) (by decide) (by decide)
    (by simp) hl true Real.sqrt
  have h5 := h4 [2] hi
  simp only [stairs_data] at h5
  obtain ⟨z, hz, hz0, -⟩ := h5 (by simp)
  refine ⟨[3], _, E, v, [2], hl, hi, by rw [stairs_data]; simp, h1, h2, ?_⟩
  rw [hz, Real.sqrt_eq_zero_of_nonpos hz0, stairs_data]
  refine ne_of_lt (Real.sqrt_pos.2 ?_)
  norm_num [sampleVariance, arithmeticMean]

end Verif.Props
