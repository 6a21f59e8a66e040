import Verif.Props.Correlation
import Mathlib.Tactic.NormNum

/-!
# Weighted correlation and height-height correlation (C39, C40)
-/

set_option linter.unusedSectionVars false

namespace Verif.Props

open Verif Outcome Spec Ens

variable {K : Type} [Field K] [LinearOrder K] [IsStrictOrderedRing K]
variable {roi : List Nat} {periodic : Bool} {w f : Nd K} {fmask : Nd Int}

/-! ### C39 -/

/-- What W2 computes, in all cases: the weighted sum is divided by the sum of weights only if that is
positive. -/
theorem C39_code (L : Legal periodic w.shape roi) (hf : f.shape = w.shape)
    (hfm : fmask.shape = w.shape) (bf : IsMask fmask) (pow05 : K → K) (dbg : Bool) :
    ∃ r, Api.W2Mask pow05 dbg roi w f fmask periodic = ok r ∧ r.shape = roi ∧
      ∀ i, InBox roi i → let d := displacement roi i
        let l := pairs periodic w.shape (Seen periodic fmask d) d
        val r i = (total l fun x y => val w x * val f y) /
          (if total l (fun x _ => val w x) ≤ 0 then 1 else total l fun x _ => val w x) :=
  W2_value L hf hfm bf pow05 dbg

/-- W2 is the weighted average of `f(x + d)` with weights `w(x)` over the pairs for which `x + d` is not
masked, if the sum of the weights is positive; it is zero if all these weights are zero.
Missing: periodic images with masked pixels (`C39_violated`), a negative sum of weights
(`C39_negative`). -/
theorem C39_partial (L : Legal periodic w.shape roi) (hf : f.shape = w.shape)
    (hfm : fmask.shape = w.shape) (bf : IsMask fmask)
    (h : periodic = false ∨ ∀ x ∈ pixels w.shape, val fmask x = 0) (pow05 : K → K) (dbg : Bool) :
    ∃ r, Api.W2Mask pow05 dbg roi w f fmask periodic = ok r ∧ r.shape = roi ∧
      ∀ i, InBox roi i →
        let l := pairs periodic w.shape (fun _ y => val fmask y = 0) (displacement roi i)
        (0 < total l (fun x _ => val w x) →
          val r i = (total l fun x y => val w x * val f y) / total l fun x _ => val w x) ∧
        ((∀ p ∈ l, val w p.1 = 0) → val r i = 0) := by
  obtain ⟨r, h1, h2, h3⟩ := W2_value L hf hfm bf pow05 dbg
  refine ⟨r, h1, h2, fun i hi => ?_⟩
  have e : pairs periodic w.shape (Seen periodic fmask (displacement roi i)) (displacement roi i) =
      pairs periodic w.shape (fun _ y => val fmask y = 0) (displacement roi i) :=
    pairs_congr fun x _ ht => seen_iff h ht
  have h4 := h3 i hi
  simp only [e] at h4
  refine ⟨fun hp => ?_, fun hz => ?_⟩
  · rw [h4, norm1, if_neg (not_le.2 hp)]
  · rw [h4, total_congr (ψ := fun _ _ => 0) fun p hp => by rw [hz p hp, zero_mul], total_const]
    simp

/-- With nonnegative weights the result is between the bounds of the image, whatever the mask. -/
theorem C39_range (L : Legal periodic w.shape roi) (hf : f.shape = w.shape)
    (hfm : fmask.shape = w.shape) (bf : IsMask fmask) (hw : ∀ x ∈ pixels w.shape, 0 ≤ val w x)
    {lo hi : K} (hb : ∀ x ∈ pixels w.shape, lo ≤ val f x ∧ val f x ≤ hi) (pow05 : K → K) (dbg : Bool) :
    ∃ r, Api.W2Mask pow05 dbg roi w f fmask periodic = ok r ∧ r.shape = roi ∧
      ∀ i, InBox roi i → let d := displacement roi i
        0 < total (pairs periodic w.shape (Seen periodic fmask d) d) (fun x _ => val w x) →
          lo ≤ val r i ∧ val r i ≤ hi := by
  obtain ⟨r, h1, h2, h3⟩ := W2_value L hf hfm bf pow05 dbg
  refine ⟨r, h1, h2, fun i hi' hp => ?_⟩
  rw [h3 i hi', norm1, if_neg (not_le.2 hp)]
  constructor
  · rw [le_div_iff₀ hp, ← total_mul]
    refine total_le fun p hp => ?_
    obtain ⟨m1, m2, m3, -⟩ := mem_pairs.1 hp
    rw [mul_comm]
    exact mul_le_mul_of_nonneg_left (hb _ m3).1 (hw _ m1)
  · rw [div_le_iff₀ hp, ← total_mul]
    refine total_le fun p hp => ?_
    obtain ⟨m1, m2, m3, -⟩ := mem_pairs.1 hp
    rw [mul_comm hi]
    exact mul_le_mul_of_nonneg_left (hb _ m3).2 (hw _ m1)

/-- With weights one the result is, at every displacement, the mean of a periodic image. -/
theorem C39_ones (L : Legal true w.shape roi) (hf : f.shape = w.shape)
    (hw : ∀ x ∈ pixels w.shape, val w x = 1) (h0 : 0 ∉ w.shape) (pow05 : K → K) (dbg : Bool) :
    ∃ r, Api.W2 pow05 dbg roi w f true = ok r ∧ r.shape = roi ∧
      ∀ i, InBox roi i → val r i = meanOf f := by
  obtain ⟨r, h1, h2, h3⟩ := C39_unmasked L hf pow05 dbg
  refine ⟨r, h1, h2, fun i hi => ?_⟩
  have hd : (displacement roi i).length = w.shape.length := by
    rw [displacement_length (inbox_length hi), L.same]
  have hn : 0 < (w.shape.prod : K) := by
    exact_mod_cast Nat.pos_of_ne_zero fun h => h0 (List.prod_eq_zero_iff.1 h)
  have hl : ((pairs true w.shape (fun _ _ => True) (displacement roi i)).length : K) = w.shape.prod := by
    rw [length_pairs, List.map_congr_left (g := fun _ => (1 : K)) fun x hx =>
      if_pos ⟨target_mem (mem_pixels.1 hx) hd, trivial⟩]
    simp [pixels_length]
  have e1 : total (pairs true w.shape (fun _ _ => True) (displacement roi i)) (fun x _ => val w x) =
      w.shape.prod := by
    rw [total_congr (ψ := fun _ _ => 1), total_const, mul_one, hl]
    intro p hp
    exact hw _ (mem_pairs.1 hp).1
  have e2 : total (pairs true w.shape (fun _ _ => True) (displacement roi i)) (fun x y => val w x * val f y) =
      ((pixels f.shape).map (val f)).sum := by
    rw [total_pairs, hf, ← sum_shift hd (val f)]
    congr 1
    refine List.map_congr_left fun x hx => ?_
    rw [if_pos ⟨target_mem (mem_pixels.1 hx) hd, trivial⟩, hw x hx, one_mul]
    rfl
  rw [h3 i hi]
  simp only [e1, e2, if_neg (not_le.2 hn), meanOf, hf]

/-- W2 is the ratio of two S2, for nonnegative weights, whatever the mask of `f`. -/
theorem C39_ratio {one : Nd K} (L : Legal periodic w.shape roi) (hf : f.shape = w.shape)
    (hfm : fmask.shape = w.shape) (bf : IsMask fmask) (hw : ∀ x ∈ pixels w.shape, 0 ≤ val w x)
    (ho : one.shape = w.shape) (ho1 : ∀ x ∈ pixels w.shape, val one x = 1) (pow05 : K → K) (dbg : Bool) :
    ∃ r s t, Api.W2Mask pow05 dbg roi w f fmask periodic = ok r ∧
      Api.S2Mask pow05 dbg roi w f (noMask w) fmask periodic = ok s ∧
      Api.S2Mask pow05 dbg roi w one (noMask w) fmask periodic = ok t ∧
      ∀ i, InBox roi i → 0 ≤ val t i ∧ (val t i ≠ 0 → val r i = val s i / val t i) := by
  obtain ⟨r, r1, r2, r3⟩ := W2_value L hf hfm bf pow05 dbg
  obtain ⟨s, s1, s2, s3⟩ := S2_value L hf (fmask := noMask w) rfl hfm (noMask_isMask w) bf pow05 dbg
  obtain ⟨t, t1, t2, t3⟩ := S2_value L ho (fmask := noMask w) rfl hfm (noMask_isMask w) bf pow05 dbg
  refine ⟨r, s, t, r1, s1, t1, fun i hi => ?_⟩
  have e : pairs periodic w.shape (fun x y => val (noMask w) x = 0 ∧
      Seen periodic fmask (displacement roi i) x y) (displacement roi i) =
      pairs periodic w.shape (Seen periodic fmask (displacement roi i)) (displacement roi i) :=
    pairs_congr fun x _ ht => by simp [val_noMask]
  have r4 := r3 i hi
  have s4 := s3 i hi
  have t4 := t3 i hi
  simp only [e] at s4 t4
  rw [r4, s4, t4]
  generalize hl : pairs periodic w.shape (Seen periodic fmask (displacement roi i))
    (displacement roi i) = l
  have e1 : average l (fun x y => val w x * val one y) = total l (fun x _ => val w x) / (l.length : K) := by
    rw [average_eq_div, total_congr (ψ := fun x _ => val w x)]
    intro p hp
    rw [← hl] at hp
    rw [ho1 _ (mem_pairs.1 hp).2.2.1, mul_one]
  have hn : 0 ≤ total l fun x _ => val w x := by
    refine total_nonneg fun p hp => ?_
    rw [← hl] at hp
    exact hw _ (mem_pairs.1 hp).1
  rw [e1, average_eq_div]
  refine ⟨div_nonneg hn (Nat.cast_nonneg _), fun hne => ?_⟩
  have hl0 : (l.length : K) ≠ 0 := fun h => hne (by rw [h, div_zero])
  have ht0 : total l (fun x _ => val w x) ≠ 0 := fun h => hne (by rw [h, zero_div])
  rw [norm1, if_neg (fun h => ht0 (le_antisymm h hn))]
  field_simp

/-- Weights with a positive sum over the pairs. -/
example : 0 < total (pairs false (im [1, 0, 2]).shape (fun _ _ => True) [1]) (fun x _ => val (im [1, 0, 2]) x) := by
  decide +kernel

/-- Masked pixels reached through the boundary are averaged. -/
theorem C39_violated : ∃ (w f : Nd ℚ) (fmask : Nd Int) (roi : List Nat) (r : Nd ℚ) (i : List Int),
    Legal true w.shape roi ∧ IsMask fmask ∧ f.shape = w.shape ∧ fmask.shape = w.shape ∧ InBox roi i ∧
    Api.W2Mask id true roi w f fmask true = ok r ∧
    let l := pairs true w.shape (fun _ y => val fmask y = 0) (displacement roi i)
    0 < total l (fun x _ => val w x) ∧
    val r i ≠ (total l fun x y => val w x * val f y) / total l fun x _ => val w x := by
  have L : Legal true (im [1, 1]).shape [3] := ⟨by decide, by decide, rfl, fun _ => by simp [im, Nd.ofList]⟩
  have b2 : IsMask (mk [1, 0]) := mk_isMask (by decide)
  have hi : InBox [3] [2] := by simp [InBox]
  obtain ⟨r, h1, h2, h3⟩ := C39_code (w := im [1, 1]) (f := im [5, 1]) L rfl rfl b2 id true
  refine ⟨im [1, 1], im [5, 1], mk [1, 0], [3], r, [2], L, b2, rfl, rfl, hi, h1, by decide +kernel, ?_⟩
  rw [h3 [2] hi]
  decide +kernel

/-- A negative sum of weights: the weighted sum is not normalised (an image of ones gives -2). -/
theorem C39_negative : ∃ (w f : Nd ℚ) (roi : List Nat) (r : Nd ℚ) (i : List Int),
    Legal true w.shape roi ∧ f.shape = w.shape ∧ InBox roi i ∧ Api.W2 id true roi w f true = ok r ∧
    (∀ x ∈ pixels f.shape, val f x = 1) ∧
    let l := pairs true w.shape (fun _ _ => True) (displacement roi i)
    (total l fun x y => val w x * val f y) / (total l fun x _ => val w x) = 1 ∧ val r i = -2 := by
  have L : Legal true (im [-1, -1]).shape [1] := ⟨by decide, by decide, rfl, fun _ => by simp [im, Nd.ofList]⟩
  have hi : InBox [1] [0] := by simp [InBox]
  obtain ⟨r, h1, h2, h3⟩ := C39_unmasked (f := im [-1, -1]) (g := im [1, 1]) L rfl id true
  refine ⟨im [-1, -1], im [1, 1], [1], r, [0], L, rfl, hi, h1, by decide +kernel, by decide +kernel, ?_⟩
  rw [h3 [0] hi]
  decide +kernel

/-! ### C40: real images, `pow(x, 0.5)` is the square root -/

section heightheight

variable {f f' : Nd ℝ}

/-- What heightheight computes, in all cases. -/
theorem C40_code (L : Legal periodic f.shape roi) (hfm : fmask.shape = f.shape)
    (bf : IsMask fmask) (dbg : Bool) :
    ∃ r, Api.heightheightMask Real.sqrt dbg roi f fmask periodic = ok r ∧ r.shape = roi ∧
      ∀ i, InBox roi i → let d := displacement roi i
        val r i = Real.sqrt (average (pairs periodic f.shape
          (fun x y => val fmask x = 0 ∧ Seen periodic fmask d x y) d)
          fun x y => (val f y - val f x) ^ 2) :=
  HH_value L hfm bf Real.sqrt dbg

/-- heightheight is the root of the average of `(f(x + d) - f(x))^2` over the unmasked pairs. Missing:
periodic images with masked pixels (`C40_violated`). -/
theorem C40_partial (L : Legal periodic f.shape roi) (hfm : fmask.shape = f.shape)
    (bf : IsMask fmask) (h : periodic = false ∨ ∀ x ∈ pixels f.shape, val fmask x = 0) (dbg : Bool) :
    ∃ r, Api.heightheightMask Real.sqrt dbg roi f fmask periodic = ok r ∧ r.shape = roi ∧
      ∀ i, InBox roi i → val r i =
        Real.sqrt (average (pairs periodic f.shape (fun x y => val fmask x = 0 ∧ val fmask y = 0)
          (displacement roi i)) fun x y => (val f y - val f x) ^ 2) := by
  obtain ⟨r, h1, h2, h3⟩ := C40_code L hfm bf dbg
  refine ⟨r, h1, h2, fun i hi => ?_⟩
  rw [h3 i hi]
  refine congrArg (fun l => Real.sqrt (average l _)) (pairs_congr fun x _ ht => ?_)
  rw [seen_iff h ht]

/-- The result is nonnegative, and zero at displacement zero, whatever the mask. -/
theorem C40_zero (L : Legal periodic f.shape roi) (hfm : fmask.shape = f.shape)
    (bf : IsMask fmask) (dbg : Bool) :
    ∃ r, Api.heightheightMask Real.sqrt dbg roi f fmask periodic = ok r ∧ r.shape = roi ∧
      ∀ i, InBox roi i → 0 ≤ val r i ∧ (IsZero (displacement roi i) → val r i = 0) := by
  obtain ⟨r, h1, h2, h3⟩ := C40_code L hfm bf dbg
  refine ⟨r, h1, h2, fun i hi => ?_⟩
  have hd : (displacement roi i).length = f.shape.length := by
    rw [displacement_length (inbox_length hi), L.same]
  rw [h3 i hi]
  refine ⟨Real.sqrt_nonneg _, fun hz => ?_⟩
  rw [average_congr (ψ := fun _ _ => 0), average_eq_div, total_const]
  · simp
  · intro p hp
    obtain ⟨m1, m2, -⟩ := mem_pairs.1 hp
    rw [m2, target_zero m1 hd hz]
    simp

/-- The result is symmetric, periodic or not. -/
theorem C40_symmetric (L : Legal periodic f.shape roi) (hfm : fmask.shape = f.shape)
    (bf : IsMask fmask) (h : periodic = false ∨ ∀ x ∈ pixels f.shape, val fmask x = 0) (dbg : Bool) :
    ∃ r, Api.heightheightMask Real.sqrt dbg roi f fmask periodic = ok r ∧ r.shape = roi ∧
      ∀ i j, InBox roi i → InBox roi j →
        displacement roi j = (displacement roi i).map (fun a => -a) → val r i = val r j := by
  obtain ⟨r, h1, h2, h3⟩ := C40_partial L hfm bf h dbg
  refine ⟨r, h1, h2, fun i j hi hj hz => ?_⟩
  have hd : (displacement roi i).length = f.shape.length := by
    rw [displacement_length (inbox_length hi), L.same]
  rw [h3 i hi, h3 j hj, hz]
  have e := average_swap (K := ℝ) (periodic := periodic) hd
    (adm := fun x y => val fmask x = 0 ∧ val fmask y = 0) fun x y => (val f y - val f x) ^ 2
  have e' : pairs periodic f.shape (fun x y => val fmask x = 0 ∧ val fmask y = 0)
      ((displacement roi i).map fun a => -a) =
      pairs periodic f.shape (fun x y => val fmask y = 0 ∧ val fmask x = 0) (neg (displacement roi i)) :=
    pairs_congr fun x _ _ => and_comm
  rw [e', e]
  congr 1
  refine average_congr fun p _ => ?_
  ring

/-- A constant added to the image does not change the result, a factor scales it, whatever the mask. -/
theorem C40_affine (L : Legal periodic f.shape roi) (hfm : fmask.shape = f.shape) (bf : IsMask fmask)
    (hf' : f'.shape = f.shape) (a c : ℝ) (ha : ∀ x ∈ pixels f.shape, val f' x = a * val f x + c)
    (dbg : Bool) :
    ∃ r r', Api.heightheightMask Real.sqrt dbg roi f fmask periodic = ok r ∧
      Api.heightheightMask Real.sqrt dbg roi f' fmask periodic = ok r' ∧ r.shape = roi ∧ r'.shape = roi ∧
      ∀ i, InBox roi i → val r' i = |a| * val r i := by
  obtain ⟨r, h1, h2, h3⟩ := C40_code L hfm bf dbg
  obtain ⟨r', h1', h2', h3'⟩ := C40_code (f := f') (hf' ▸ L) (hfm.trans hf'.symm) bf dbg
  refine ⟨r, r', h1, h1', h2, h2', fun i hi => ?_⟩
  rw [h3 i hi, h3' i hi, hf']
  rw [average_congr (φ := fun x y => (val f' y - val f' x) ^ 2)
    (ψ := fun x y => a ^ 2 * (val f y - val f x) ^ 2)]
  · rw [average_eq_div, total_mul, average_eq_div, mul_div_assoc,
      Real.sqrt_mul (sq_nonneg a), Real.sqrt_sq_eq_abs]
  · intro p hp
    obtain ⟨m1, -, m3, -⟩ := mem_pairs.1 hp
    rw [ha _ m1, ha _ m3]
    ring

/-- Periodic, without mask: the square of the result is `2 <f^2> - 2 S2`. -/
theorem C40_square (L : Legal true f.shape roi) (dbg : Bool) :
    ∃ r s, Api.heightheight Real.sqrt dbg roi f true = ok r ∧ Api.S2 Real.sqrt dbg roi f f true = ok s ∧
      r.shape = roi ∧ s.shape = roi ∧
      ∀ i, InBox roi i → val r i ^ 2 =
        2 * (((pixels f.shape).map fun x => val f x ^ 2).sum / (f.shape.prod : ℝ)) - 2 * val s i := by
  obtain ⟨r, h1, h2, h3⟩ := C40_unmasked L Real.sqrt dbg
  obtain ⟨s, s1, s2, s3⟩ := C34_unmasked (g := f) L rfl Real.sqrt dbg
  refine ⟨r, s, h1, s1, h2, s2, fun i hi => ?_⟩
  have hd : (displacement roi i).length = f.shape.length := by
    rw [displacement_length (inbox_length hi), L.same]
  rw [h3 i hi, s3 i hi, Real.sq_sqrt (average_nonneg fun p _ => sq_nonneg _),
    average_periodic hd (fun _ _ => trivial), average_periodic hd (fun _ _ => trivial)]
  have e1 := sum_shift hd fun x => val f x ^ 2
  have e2 : ∀ l : List (List Int), (l.map fun x =>
      (val f (wrap f.shape (move x (displacement roi i))) - val f x) ^ 2).sum =
      (l.map fun x => val f (wrap f.shape (move x (displacement roi i))) ^ 2).sum +
      (l.map fun x => val f x ^ 2).sum -
      2 * (l.map fun x => val f x * val f (wrap f.shape (move x (displacement roi i)))).sum := by
    intro l
    induction l with
    | nil => simp
    | cons a l ih =>
      simp only [List.map_cons, List.sum_cons, ih]
      ring
  rw [e2, e1]
  ring

/-- Masked pixels reached through the boundary are averaged. -/
theorem C40_violated : ∃ (f : Nd ℝ) (fmask : Nd Int) (roi : List Nat) (r : Nd ℝ) (i : List Int),
    Legal true f.shape roi ∧ IsMask fmask ∧ fmask.shape = f.shape ∧ InBox roi i ∧
    Api.heightheightMask Real.sqrt true roi f fmask true = ok r ∧
    val r i ≠ Real.sqrt (average (pairs true f.shape (fun x y => val fmask x = 0 ∧ val fmask y = 0)
      (displacement roi i)) fun x y => (val f y - val f x) ^ 2) := by
  let f : Nd ℝ := Nd.ofList [2] [5, 1]
  have hf : f.shape = [2] := rfl
  have L : Legal true f.shape [3] := ⟨by decide, by decide, rfl, fun _ => by simp [hf]⟩
  have b2 : IsMask (mk [1, 0]) := mk_isMask (by decide)
  have hi : InBox [3] [2] := by simp [InBox]
  obtain ⟨r, h1, h2, h3⟩ := C40_code (f := f) L (fmask := mk [1, 0]) rfl b2 true
  refine ⟨f, mk [1, 0], [3], r, [2], L, b2, rfl, hi, h1, ?_⟩
  rw [h3 [2] hi]
  have e1 : pairs true [2] (fun x y => val (mk [1, 0]) x = 0 ∧
      Seen true (mk [1, 0]) (displacement [3] [2]) x y) (displacement [3] [2]) = [([1], [0])] := by
    decide +kernel
  have e2 : pairs true [2] (fun x y => val (mk [1, 0]) x = 0 ∧ val (mk [1, 0]) y = 0)
      (displacement [3] [2]) = [] := by
    decide +kernel
  have v0 : val f [0] = 5 := rfl
  have v1 : val f [1] = 1 := rfl
  simp only [hf, e1, e2]
  rw [average_eq_div, average_eq_div]
  simp only [total, List.map_cons, List.map_nil, List.sum_cons, List.sum_nil, v0, v1]
  have h16 : (0 : ℝ) < Real.sqrt (((5 - 1) ^ 2 + 0) / (1 : Nat)) := Real.sqrt_pos.2 (by norm_num)
  have h0 : Real.sqrt (0 / ((0 : Nat) : ℝ)) = 0 := by simp
  exact fun h => absurd (h.trans h0) h16.ne'

/-- A real image in one dimension, periodic, and a ROI of three pixels. -/
example : Legal true (Nd.ofList [3] [(1 : ℝ), 2, 4]).shape [3] :=
  ⟨by decide, by decide, rfl, fun _ => by simp [Nd.ofList]⟩

end heightheight

end Verif.Props
