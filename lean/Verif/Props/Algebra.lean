import Verif.Props.Weighted
import Verif.Props.Lineal
import Verif.Props.Collapsed

/-!
# Relations between the statistics of different images (C68, C69)
-/

set_option linter.unusedSectionVars false

namespace Verif.Props

open Verif Outcome Spec Ens

variable {K : Type} [Field K] [LinearOrder K] [IsStrictOrderedRing K]
variable {roi : List Nat} {periodic : Bool} {f g h f' g' w w' : Nd K} {fmask gmask : Nd Int}

/-! ### C68 -/

/-- Exchanging the images (and their masks) reverses the displacement. -/
theorem C68_swap_partial (L : Legal periodic f.shape roi) (hg : g.shape = f.shape)
    (hfm : fmask.shape = f.shape) (hgm : gmask.shape = f.shape) (bf : IsMask fmask) (bg : IsMask gmask)
    (hf : periodic = false ∨ ∀ x ∈ pixels f.shape, val fmask x = 0)
    (hgz : periodic = false ∨ ∀ x ∈ pixels f.shape, val gmask x = 0) (pow05 : K → K) (dbg : Bool) :
    ∃ r s, Api.S2Mask pow05 dbg roi f g fmask gmask periodic = ok r ∧
      Api.S2Mask pow05 dbg roi g f gmask fmask periodic = ok s ∧ r.shape = roi ∧ s.shape = roi ∧
      ∀ i j, InBox roi i → InBox roi j →
        displacement roi j = (displacement roi i).map (fun a => -a) → val r i = val s j := by
  obtain ⟨r, h1, h2, h3⟩ := C34_partial L hg hfm hgm bf bg hgz pow05 dbg
  obtain ⟨s, s1, s2, s3⟩ := C34_partial (f := g) (g := f) (hg ▸ L) hg.symm (hgm.trans hg.symm)
    (hfm.trans hg.symm) bg bf (by rw [hg]; exact hf) pow05 dbg
  refine ⟨r, s, h1, s1, h2, s2, fun i j hi hj hz => ?_⟩
  have hd : (displacement roi i).length = f.shape.length := by
    rw [displacement_length (inbox_length hi), L.same]
  rw [h3 i hi, s3 j hj, hz, hg]
  have := average_swap (K := K) (periodic := periodic) hd
    (adm := fun x y => val fmask x = 0 ∧ val gmask y = 0) fun x y => val g x * val f y
  unfold neg at this
  have e : pairs periodic f.shape (fun x y => val fmask y = 0 ∧ val gmask x = 0)
        ((displacement roi i).map fun a => -a) =
      pairs periodic f.shape (fun x y => val gmask x = 0 ∧ val fmask y = 0)
        ((displacement roi i).map fun a => -a) := pairs_congr fun x _ _ => and_comm
  rw [e] at this
  rw [this]
  exact average_congr fun p _ => mul_comm _ _

/-- With masked pixels in a periodic image this is false: the mask of the second image is ignored for pixels
that are reached through the boundary (compare `C34_violated`), that of the first image is not. -/
theorem C68_swap_violated : ∃ (f g : Nd ℚ) (fmask gmask : Nd Int) (roi : List Nat) (r s : Nd ℚ) (i j : List Int),
    Legal true f.shape roi ∧ IsMask fmask ∧ IsMask gmask ∧ g.shape = f.shape ∧ fmask.shape = f.shape ∧
    gmask.shape = f.shape ∧ InBox roi i ∧ InBox roi j ∧
    displacement roi j = (displacement roi i).map (fun a => -a) ∧
    Api.S2Mask id true roi f g fmask gmask true = ok r ∧ Api.S2Mask id true roi g f gmask fmask true = ok s ∧
    val r i = 3 ∧ val s j = 1 := by
  have L : Legal true (im [1, 1]).shape [3] := ⟨by decide, by decide, rfl, fun _ => by simp [im, Nd.ofList]⟩
  have b1 : IsMask (mk [0, 0]) := mk_isMask (by decide)
  have b2 : IsMask (mk [1, 0]) := mk_isMask (by decide)
  have hi : InBox [3] [2] := by simp [InBox]
  have hj : InBox [3] [0] := by simp [InBox]
  obtain ⟨r, h1, -, h3⟩ := C34_code (f := im [1, 1]) (g := im [5, 1]) L rfl rfl rfl b1 b2 id true
  obtain ⟨s, s1, -, s3⟩ := C34_code (f := im [5, 1]) (g := im [1, 1]) L rfl rfl rfl b2 b1 id true
  refine ⟨im [1, 1], im [5, 1], mk [0, 0], mk [1, 0], [3], r, s, [2], [0], L, b1, b2, rfl, rfl, rfl, hi, hj,
    by decide, h1, s1, ?_, ?_⟩
  · rw [h3 [2] hi]; decide +kernel
  · rw [s3 [0] hj]; decide +kernel

/-- S2 is linear in the first image. -/
theorem C68_S2_linear_left (L : Legal periodic f.shape roi) (hf' : f'.shape = f.shape) (hh : h.shape = f.shape)
    (hg : g.shape = f.shape) (hfm : fmask.shape = f.shape) (hgm : gmask.shape = f.shape) (bf : IsMask fmask)
    (bg : IsMask gmask) (a b : K) (hlin : ∀ x ∈ pixels f.shape, val h x = a * val f x + b * val f' x)
    (pow05 : K → K) (dbg : Bool) :
    ∃ r r' s, Api.S2Mask pow05 dbg roi f g fmask gmask periodic = ok r ∧
      Api.S2Mask pow05 dbg roi f' g fmask gmask periodic = ok r' ∧
      Api.S2Mask pow05 dbg roi h g fmask gmask periodic = ok s ∧
      r.shape = roi ∧ r'.shape = roi ∧ s.shape = roi ∧
      ∀ i, InBox roi i → val s i = a * val r i + b * val r' i := by
  obtain ⟨r, h1, h2, h3⟩ := S2_value L hg hfm hgm bf bg pow05 dbg
  obtain ⟨r', h1', h2', h3'⟩ := S2_value (f := f') (g := g) (hf' ▸ L) (hg.trans hf'.symm) (hfm.trans hf'.symm)
    (hgm.trans hf'.symm) bf bg pow05 dbg
  obtain ⟨s, s1, s2, s3⟩ := S2_value (f := h) (g := g) (hh ▸ L) (hg.trans hh.symm) (hfm.trans hh.symm)
    (hgm.trans hh.symm) bf bg pow05 dbg
  refine ⟨r, r', s, h1, h1', s1, h2, h2', s2, fun i hi => ?_⟩
  rw [h3 i hi, h3' i hi, s3 i hi, hf', hh, average_eq_div, average_eq_div, average_eq_div,
    mul_div_assoc', mul_div_assoc', ← add_div, ← total_mul, ← total_mul, ← total_add]
  congr 1
  refine total_congr fun p hp => ?_
  rw [hlin p.1 (mem_pairs.1 hp).1]
  ring

/-- S2 is linear in the second image. -/
theorem C68_S2_linear_right (L : Legal periodic f.shape roi) (hg : g.shape = f.shape) (hg' : g'.shape = f.shape)
    (hh : h.shape = f.shape) (hfm : fmask.shape = f.shape) (hgm : gmask.shape = f.shape) (bf : IsMask fmask)
    (bg : IsMask gmask) (a b : K) (hlin : ∀ x ∈ pixels f.shape, val h x = a * val g x + b * val g' x)
    (pow05 : K → K) (dbg : Bool) :
    ∃ r r' s, Api.S2Mask pow05 dbg roi f g fmask gmask periodic = ok r ∧
      Api.S2Mask pow05 dbg roi f g' fmask gmask periodic = ok r' ∧
      Api.S2Mask pow05 dbg roi f h fmask gmask periodic = ok s ∧
      r.shape = roi ∧ r'.shape = roi ∧ s.shape = roi ∧
      ∀ i, InBox roi i → val s i = a * val r i + b * val r' i := by
  obtain ⟨r, h1, h2, h3⟩ := S2_value L hg hfm hgm bf bg pow05 dbg
  obtain ⟨r', h1', h2', h3'⟩ := S2_value L hg' hfm hgm bf bg pow05 dbg
  obtain ⟨s, s1, s2, s3⟩ := S2_value L hh hfm hgm bf bg pow05 dbg
  refine ⟨r, r', s, h1, h1', s1, h2, h2', s2, fun i hi => ?_⟩
  rw [h3 i hi, h3' i hi, s3 i hi, average_eq_div, average_eq_div, average_eq_div,
    mul_div_assoc', mul_div_assoc', ← add_div, ← total_mul, ← total_mul, ← total_add]
  congr 1
  refine total_congr fun p hp => ?_
  rw [hlin p.2 (mem_pairs.1 hp).2.2.1]
  ring

/-- W2 is linear in the image. -/
theorem C68_W2_linear (L : Legal periodic w.shape roi) (hf : f.shape = w.shape) (hf' : f'.shape = w.shape)
    (hh : h.shape = w.shape) (hfm : fmask.shape = w.shape) (bf : IsMask fmask)
    (a b : K) (hlin : ∀ x ∈ pixels w.shape, val h x = a * val f x + b * val f' x)
    (pow05 : K → K) (dbg : Bool) :
    ∃ r r' s, Api.W2Mask pow05 dbg roi w f fmask periodic = ok r ∧
      Api.W2Mask pow05 dbg roi w f' fmask periodic = ok r' ∧
      Api.W2Mask pow05 dbg roi w h fmask periodic = ok s ∧
      r.shape = roi ∧ r'.shape = roi ∧ s.shape = roi ∧
      ∀ i, InBox roi i → val s i = a * val r i + b * val r' i := by
  obtain ⟨r, h1, h2, h3⟩ := W2_value L hf hfm bf pow05 dbg
  obtain ⟨r', h1', h2', h3'⟩ := W2_value L hf' hfm bf pow05 dbg
  obtain ⟨s, s1, s2, s3⟩ := W2_value L hh hfm bf pow05 dbg
  refine ⟨r, r', s, h1, h1', s1, h2, h2', s2, fun i hi => ?_⟩
  rw [h3 i hi, h3' i hi, s3 i hi, mul_div_assoc', mul_div_assoc', ← add_div, ← total_mul, ← total_mul, ← total_add]
  congr 1
  refine total_congr fun p hp => ?_
  rw [hlin p.2 (mem_pairs.1 hp).2.2.1]
  ring

/-- Only the ratio of the weights matters in W2: nonnegative weights can be scaled. -/
theorem C68_W2_scale (L : Legal periodic w.shape roi) (hw' : w'.shape = w.shape) (hf : f.shape = w.shape)
    (hfm : fmask.shape = w.shape) (bf : IsMask fmask) (hw : ∀ x ∈ pixels w.shape, 0 ≤ val w x)
    {a : K} (ha : 0 < a) (hlin : ∀ x ∈ pixels w.shape, val w' x = a * val w x) (pow05 : K → K) (dbg : Bool) :
    ∃ r r', Api.W2Mask pow05 dbg roi w f fmask periodic = ok r ∧
      Api.W2Mask pow05 dbg roi w' f fmask periodic = ok r' ∧ r.shape = roi ∧ r'.shape = roi ∧
      ∀ i, InBox roi i → val r' i = val r i := by
  obtain ⟨r, h1, h2, h3⟩ := W2_value L hf hfm bf pow05 dbg
  obtain ⟨r', h1', h2', h3'⟩ := W2_value (f := w') (g := f) (hw' ▸ L) (hf.trans hw'.symm) (hfm.trans hw'.symm) bf
    pow05 dbg
  refine ⟨r, r', h1, h1', h2, h2', fun i hi => ?_⟩
  rw [h3 i hi, h3' i hi, hw']
  set l := pairs periodic w.shape (Seen periodic fmask (displacement roi i)) (displacement roi i)
  have hl : ∀ p ∈ l, p.1 ∈ pixels w.shape := fun p hp => (mem_pairs.1 hp).1
  have e1 : total l (fun x y => val w' x * val f y) = a * total l fun x y => val w x * val f y := by
    rw [← total_mul]
    exact total_congr fun p hp => by rw [hlin p.1 (hl p hp)]; ring
  have e2 : total l (fun x _ => val w' x) = a * total l fun x _ => val w x := by
    rw [← total_mul]
    exact total_congr fun p hp => by rw [hlin p.1 (hl p hp)]
  rw [e1, e2]
  have h0 : 0 ≤ total l fun x _ => val w x := total_nonneg fun p hp => hw p.1 (hl p hp)
  rcases h0.lt_or_eq with hp | hp
  · have hp' : 0 < a * total l fun x _ => val w x := mul_pos ha hp
    rw [norm1, norm1, if_neg (not_le.2 hp), if_neg (not_le.2 hp'), mul_div_mul_left _ _ ha.ne']
  · -- all weights are zero
    have hz : ∀ (q : List (List Int × List Int)), (∀ p ∈ q, 0 ≤ val w p.1) → total q (fun x _ => val w x) = 0 →
        total q (fun x y => val w x * val f y) = 0 := by
      intro q
      induction q with
      | nil => intros; rfl
      | cons p q ih =>
        intro hq ht
        simp only [total, List.map_cons, List.sum_cons] at ht ih ⊢
        have a1 := hq p (by simp)
        have a2 : 0 ≤ (q.map fun p => val w p.1).sum :=
          List.sum_nonneg (by
            intro v hv
            obtain ⟨c, hc, rfl⟩ := List.mem_map.1 hv
            exact hq c (by simp [hc]))
        have a3 : val w p.1 = 0 := by linarith
        have a4 : (q.map fun p => val w p.1).sum = 0 := by linarith
        rw [a3, ih (fun c hc => hq c (by simp [hc])) a4]
        simp
    rw [hz l (fun p hp => hw p.1 (hl p hp)) hp.symm]
    simp

/-- C2 depends on the labels as names only: renaming them injectively, zero to zero, changes nothing. -/
theorem C68_C2_rename (L : Legal periodic f.shape roi) (hf' : f'.shape = f.shape) (hg : g.shape = f.shape)
    (hg' : g'.shape = f.shape) (hfm : fmask.shape = f.shape) (hgm : gmask.shape = f.shape) (bf : IsMask fmask)
    (bg : IsMask gmask) {φ : K → K} (hφ : Function.Injective φ) (h0 : φ 0 = 0)
    (ef : ∀ x ∈ pixels f.shape, val f' x = φ (val f x)) (eg : ∀ x ∈ pixels f.shape, val g' x = φ (val g x))
    (pow05 : K → K) (dbg : Bool) :
    ∃ r r', Api.C2Mask pow05 dbg roi f g fmask gmask periodic = ok r ∧
      Api.C2Mask pow05 dbg roi f' g' fmask gmask periodic = ok r' ∧ r.shape = roi ∧ r'.shape = roi ∧
      ∀ i, InBox roi i → val r' i = val r i := by
  obtain ⟨r, h1, h2, h3⟩ := C2_value L hg hfm hgm bf bg pow05 dbg
  obtain ⟨r', h1', h2', h3'⟩ := C2_value (f := f') (g := g') (hf' ▸ L) (hg'.trans hf'.symm) (hfm.trans hf'.symm)
    (hgm.trans hf'.symm) bf bg pow05 dbg
  refine ⟨r, r', h1, h1', h2, h2', fun i hi => ?_⟩
  rw [h3 i hi, h3' i hi, hf']
  refine average_congr fun p hp => ?_
  obtain ⟨m1, -, m2, -⟩ := mem_pairs.1 hp
  have hz : φ (val f p.1) = 0 ↔ val f p.1 = 0 := by
    constructor
    · intro e
      exact hφ (e.trans h0.symm)
    · intro e
      rw [e, h0]
  simp only [ef _ m1, eg _ m2, Ne, hz, hφ.eq_iff]

/-- A sum of two images, and a scaled and renamed image, meet the hypotheses. -/
example : (∀ x ∈ pixels [3], val (im [5, 7, 9]) x = 2 * val (im [1, 2, 3]) x + 3 * val (im [1, 1, 1]) x) ∧
    Legal true (im [1, 2, 3]).shape [3] ∧ Function.Injective (fun a : ℚ => 2 * a) := by
  refine ⟨by decide +kernel, ⟨by decide, by decide, rfl, fun _ => .cons (by decide) .nil⟩, fun a b e => ?_⟩
  simpa using e

/-! ### C69 -/

theorem takeWhile_mono {α : Type} {p q : α → Bool} (h : ∀ a, p a = true → q a = true) :
    ∀ l : List α, (l.takeWhile p).Sublist (l.takeWhile q)
  | [] => .slnil
  | a :: l => by
    by_cases ha : p a = true
    · rw [List.takeWhile_cons_of_pos ha, List.takeWhile_cons_of_pos (h a ha)]
      exact (takeWhile_mono h l).cons_cons a
    · rw [List.takeWhile_cons_of_neg ha]
      exact List.nil_sublist _

/-- L grows with the set of nonzero pixels. -/
theorem C69_monotone (L : Legal periodic f.shape roi) (hg : g.shape = f.shape)
    (hfg : ∀ x ∈ pixels f.shape, val f x ≠ 0 → val g x ≠ 0) (junk : ℚ) {fuel : Nat}
    {mode : Path.Mode} (hm : Enough fuel roi mode) (pow05 : K → K) (dbg : Bool) :
    ∃ r s, Api.L pow05 dbg junk fuel roi f periodic mode = ok r ∧
      Api.L pow05 dbg junk fuel roi g periodic mode = ok s ∧ r.shape = roi ∧ s.shape = roi ∧
      ∀ i, InBox roi i → val r i ≤ val s i := by
  obtain ⟨P, hP⟩ := choose_paths junk L.rank hm
  obtain ⟨r, h1, h2, h3⟩ := L_value L hP pow05 dbg
  obtain ⟨s, s1, s2, s3⟩ := L_value (f := g) (hg ▸ L) hP pow05 dbg
  refine ⟨r, s, h1, s1, h2, s2, fun i hi => ?_⟩
  have a := h3 i hi
  have b := s3 i hi
  simp only at a b
  rw [a, b, hg]
  have : (0 : K) < norm1 ((visits ((edge roi).map P) (displacement roi i) : K) * ((pixels f.shape).length : K)) := by
    rw [norm1]
    split
    · exact zero_lt_one
    · rename_i h; exact not_le.1 h
  refine div_le_div_of_nonneg_right ?_ this.le
  have key : reached periodic f ((edge roi).map P) (displacement roi i) ≤
      reached periodic g ((edge roi).map P) (displacement roi i) := by
    unfold reached
    rw [hg]
    refine List.sum_le_sum fun p _ => List.sum_le_sum fun x _ => ?_
    refine List.Sublist.count_le _ (takeWhile_mono (fun e he => ?_) _)
    simp only [decide_eq_true_eq] at he ⊢
    unfold Lit at he ⊢
    rw [hg]
    exact ⟨he.1, hfg _ he.1 he.2⟩
  exact_mod_cast key

/-- L depends on the image only through which pixels are nonzero. -/
theorem C69_pattern (L : Legal periodic f.shape roi) (hg : g.shape = f.shape)
    (hfg : ∀ x ∈ pixels f.shape, val f x = 0 ↔ val g x = 0) (junk : ℚ) {fuel : Nat}
    {mode : Path.Mode} (hm : Enough fuel roi mode) (pow05 : K → K) (dbg : Bool) :
    ∃ r s, Api.L pow05 dbg junk fuel roi f periodic mode = ok r ∧
      Api.L pow05 dbg junk fuel roi g periodic mode = ok s ∧ r.shape = roi ∧ s.shape = roi ∧
      ∀ i, InBox roi i → val r i = val s i := by
  obtain ⟨r, s, h1, h2, h3, h4, h5⟩ := C69_monotone L hg (fun x hx h e => h ((hfg x hx).2 e)) junk hm pow05 dbg
  obtain ⟨s', r', h1', h2', -, -, h5'⟩ := C69_monotone (f := g) (g := f) (hg ▸ L) hg.symm
    (fun x hx h e => h ((hfg x (hg ▸ hx)).1 e)) junk hm pow05 dbg
  rw [h2] at h1'
  rw [h1] at h2'
  cases h1'
  cases h2'
  exact ⟨r, s, h1, h2, h3, h4, fun i hi => le_antisymm (h5 i hi) (h5' i hi)⟩

/-- Adding a nonzero pixel to an image. -/
example : ∀ x ∈ pixels [4], val (im [0, 2, 0, 1]) x ≠ 0 → val (im [3, 1, 0, 1]) x ≠ 0 := by decide +kernel

/-! ### C37 for L -/

/-- Following a path in a shifted periodic image. -/
theorem lit_shifted {s x e : List Int} (h : Shifted s f f') (hx : x ∈ pixels f.shape)
    (he : e.length = f.shape.length) : Lit true f' (wrap f.shape (move x s)) e ↔ Lit true f x e := by
  obtain ⟨e1, e2, e3⟩ := h
  have hb := mem_pixels.1 hx
  have el := inbox_length hb
  have t1 : target true f'.shape (wrap f.shape (move x s)) e = wrap f.shape (move (wrap f.shape (move x e)) s) := by
    rw [e1]
    simp only [target, if_true]
    rw [shift_shift el e2 he, move_comm (d := s), ← shift_shift el he e2]
  have m1 : wrap f.shape (move x e) ∈ pixels f.shape := mem_pixels.2 (shift_inbox hb he)
  have m2 : wrap f.shape (move (wrap f.shape (move x e)) s) ∈ pixels f.shape :=
    mem_pixels.2 (shift_inbox (mem_pixels.1 m1) e2)
  unfold Lit
  rw [t1, e1, e3 _ m1]
  simp only [target, if_true]
  simp only [m1, m2, true_and]

theorem takeWhile_congr' {α : Type} {p q : α → Bool} : ∀ {l : List α}, (∀ a ∈ l, p a = q a) →
    l.takeWhile p = l.takeWhile q
  | [], _ => rfl
  | a :: l, h => by
    have ha := h a (by simp)
    have ih := takeWhile_congr' (l := l) fun b hb => h b (by simp [hb])
    simp only [List.takeWhile_cons, ha, ih]

/-- L does not change if a periodic image is shifted. -/
theorem C37_L {s : List Int} (L : Legal true f.shape roi) (hs : Shifted s f f') (junk : ℚ) {fuel : Nat}
    {mode : Path.Mode} (hm : Enough fuel roi mode) (pow05 : K → K) (dbg : Bool) :
    ∃ r r', Api.L pow05 dbg junk fuel roi f true mode = ok r ∧
      Api.L pow05 dbg junk fuel roi f' true mode = ok r' ∧ r.shape = roi ∧ r'.shape = roi ∧
      ∀ i, InBox roi i → val r i = val r' i := by
  obtain ⟨P, hP⟩ := choose_paths junk L.rank hm
  obtain ⟨r, h1, h2, h3⟩ := L_value L hP pow05 dbg
  obtain ⟨r', h1', h2', h3'⟩ := L_value (f := f') (hs.1 ▸ L) hP pow05 dbg
  refine ⟨r, r', h1, h1', h2, h2', fun i hi => ?_⟩
  have a := h3 i hi
  have b := h3' i hi
  simp only at a b
  rw [a, b, hs.1]
  congr 2
  unfold reached
  rw [List.map_map, List.map_map, hs.1]
  refine congrArg List.sum (List.map_congr_left fun e he => ?_)
  simp only [Function.comp]
  rw [← ((shift_perm hs.2.1).map fun x => ((P e).takeWhile fun c => Lit true f' x c).count
    (displacement roi i)).sum_eq, List.map_map]
  refine congrArg List.sum (List.map_congr_left fun x hx => ?_)
  simp only [Function.comp]
  refine congrArg (List.count _) (takeWhile_congr' fun c hc => ?_)
  have := lit_shifted hs hx (e := c) (by rw [((hP e he).mem c hc).1, L.same])
  simp only [decide_eq_decide]
  exact this.symm

/-! ### C37 for W2c -/

/-- `a'` is the array `a`, shifted periodically by `s`. -/
def ShiftedArray {α : Type} (s : List Int) (a a' : Nd α) : Prop :=
  a'.shape = a.shape ∧ s.length = a.shape.length ∧
    ∀ x ∈ pixels a.shape, val a' (wrap a.shape (move x s)) = val a x

theorem valueAt_shifted {α : Type} [Zero α] {a a' : Nd α} {s x e : List Int} (h : ShiftedArray s a a')
    (hx : x ∈ pixels a.shape) (he : e.length = a.shape.length) :
    valueAt true a' (wrap a.shape (move x s)) e = valueAt true a x e := by
  obtain ⟨e1, e2, e3⟩ := h
  have hb := mem_pixels.1 hx
  have el := inbox_length hb
  have t1 : target true a'.shape (wrap a.shape (move x s)) e = wrap a.shape (move (wrap a.shape (move x e)) s) := by
    rw [e1]
    simp only [target, if_true]
    rw [shift_shift el e2 he, move_comm (d := s), ← shift_shift el he e2]
  have m1 : wrap a.shape (move x e) ∈ pixels a.shape := mem_pixels.2 (shift_inbox hb he)
  have m2 : wrap a.shape (move (wrap a.shape (move x e)) s) ∈ pixels a.shape :=
    mem_pixels.2 (shift_inbox (mem_pixels.1 m1) e2)
  unfold valueAt
  rw [t1, e1, e3 _ m1, if_pos m2, if_pos (by simpa only [target, if_true] using m1)]
  simp only [target, if_true]

theorem flatMap_perm {α β : Type} {l : List α} {φ ψ : α → List β} (h : ∀ a ∈ l, (φ a).Perm (ψ a)) :
    (l.flatMap φ).Perm (l.flatMap ψ) := by
  induction l with
  | nil => exact .refl _
  | cons a l ih =>
    rw [List.flatMap_cons, List.flatMap_cons]
    exact (h a (by simp)).append (ih fun b hb => h b (by simp [hb]))

/-- W2c does not change if the image, the mask, the clusters and the centres are shifted. -/
theorem C37_W2c {s : List Int} {fmask' clusters centers clusters' centers' : Nd Int}
    (L : Legal true f.shape roi) (h3 : FlatOrEqual roi)
    (hfm : fmask.shape = f.shape) (hcl : clusters.shape = f.shape) (hce : centers.shape = f.shape)
    (bf : IsMask fmask) (bf' : IsMask fmask') (sf : ShiftedArray s f f') (sm : ShiftedArray s fmask fmask')
    (sc : ShiftedArray s clusters clusters') (se : ShiftedArray s centers centers') (junk : ℚ)
    {fuel : Nat} {mode : Path.Mode} (hm : Enough fuel roi mode) (pow05 : K → K) (dbg : Bool) :
    ∃ r r', Api.W2cMask pow05 dbg junk fuel roi clusters centers f fmask mode true = ok r ∧
      Api.W2cMask pow05 dbg junk fuel roi clusters' centers' f' fmask' mode true = ok r' ∧
      r.shape = roi ∧ r'.shape = roi ∧ ∀ i, InBox roi i → val r i = val r' i := by
  obtain ⟨P, hP⟩ := choose_paths junk L.rank hm
  have hp := (paths_unique L.rank hP).2 rfl
  obtain ⟨r, h1, h2, k⟩ := C47_code L h3 hfm hcl hce bf hm hp pow05 dbg
  obtain ⟨r', h1', h2', k'⟩ := C47_code (f := f') (fmask := fmask') (clusters := clusters') (centers := centers')
    (sf.1 ▸ L) h3 (by rw [sm.1, sf.1, hfm]) (by rw [sc.1, sf.1, hcl]) (by rw [se.1, sf.1, hce]) bf' hm hp pow05 dbg
  refine ⟨r, r', h1, h1', h2, h2', fun i hi => ?_⟩
  rw [k i hi, k' i hi]
  have hperm : (samples true f' fmask' clusters' centers' (fun _ p => p.tail) ((edge roi).map P) (displacement roi i)).Perm
      (samples true f fmask clusters centers (fun _ p => p.tail) ((edge roi).map P) (displacement roi i)) := by
    unfold samples
    refine flatMap_perm fun p hp => ?_
    obtain ⟨c, hc, rfl⟩ := List.mem_map.1 hp
    have q1 := (((shift_perm sf.2.1).symm.filter fun x => decide (IsCentre clusters' centers' x)).flatMap_right
      fun x => (((P c).zip (P c).tail).filter fun ab => decide (ab.1 = displacement roi i ∧
        valueAt true fmask' x ab.2 = 0)).map fun ab => valueAt true f' x ab.2)
    rw [sf.1]
    refine q1.trans ?_
    rw [List.filter_map, List.flatMap_map]
    have e1 : (pixels f.shape).filter ((fun x => decide (IsCentre clusters' centers' x)) ∘
        fun x => wrap f.shape (move x s)) = (pixels f.shape).filter fun x => decide (IsCentre clusters centers x) := by
      refine List.filter_congr fun x hx => ?_
      have v1 := sc.2.2 x (by rw [hcl]; exact hx)
      have v2 := se.2.2 x (by rw [hce]; exact hx)
      rw [hcl] at v1
      rw [hce] at v2
      simp only [Function.comp, IsCentre, v1, v2]
    rw [e1]
    refine flatMap_perm fun x hx => ?_
    have hx' := List.mem_of_mem_filter hx
    have hmem : ∀ ab ∈ (P c).zip (P c).tail, ab.2.length = f.shape.length := by
      intro ab hab
      have := (List.of_mem_zip hab).2
      rw [((hP c hc).mem ab.2 (List.mem_of_mem_tail this)).1, L.same]
    have e2 : ((P c).zip (P c).tail).filter (fun ab => decide (ab.1 = displacement roi i ∧
        valueAt true fmask' (wrap f.shape (move x s)) ab.2 = 0)) =
        ((P c).zip (P c).tail).filter (fun ab => decide (ab.1 = displacement roi i ∧
        valueAt true fmask x ab.2 = 0)) := by
      refine List.filter_congr fun ab hab => ?_
      have := valueAt_shifted sm (x := x) (e := ab.2) (by rw [hfm]; exact hx') (by rw [hfm]; exact hmem ab hab)
      rw [hfm] at this
      rw [this]
    rw [e2]
    refine List.Perm.of_eq (List.map_congr_left fun ab hab => ?_)
    exact valueAt_shifted sf hx' (hmem ab (List.mem_of_mem_filter hab))
  unfold averageOf
  rw [hperm.length_eq, hperm.sum_eq]

/-- A shifted image with two clusters. -/
example : ShiftedArray [1] (mk [1, 1, 0, 2]) (mk [2, 1, 1, 0]) ∧ ShiftedArray [1] (mk [1, 0, 0, 2]) (mk [2, 1, 0, 0]) :=
  ⟨⟨rfl, rfl, by decide +kernel⟩, ⟨rfl, rfl, by decide +kernel⟩⟩

end Verif.Props
