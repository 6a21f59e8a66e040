import Verif.Props.Correlation
import Verif.Props.Invariance

/-!
# Correlations of images that are arranged differently (C82)

The value of a correlation at a displacement depends neither on the orientation of the images, nor on the
size of the region of interest, nor on axes of size one.
-/

set_option linter.unusedSectionVars false

namespace Verif.Props

open Verif Outcome Spec Ens

variable {K : Type} [Field K] [LinearOrder K] [IsStrictOrderedRing K]
variable {roi roi' shape shape' : List Nat} {periodic : Bool} {f g f' g' : Nd K}
  {fmask gmask fmask' gmask' : Nd Int} {τ δ : List Int → List Int}

/-- `τ` maps the pixels of an image of shape `shape` one-to-one to those of an image of shape `shape'`,
and `δ` maps displacements, such that the pixel at displacement `d` of `x` is mapped to the pixel at
displacement `δ d` of `τ x`, and one leaves the image iff the other does. -/
structure Motion (periodic : Bool) (shape shape' : List Nat) (τ δ : List Int → List Int) : Prop where
  map : ∀ x, InBox shape x → InBox shape' (τ x)
  inj : ∀ x y, InBox shape x → InBox shape y → τ x = τ y → x = y
  surj : ∀ y, InBox shape' y → ∃ x, InBox shape x ∧ τ x = y
  leaves : ∀ x d, InBox shape x → d.length = shape.length →
    (InBox shape' (move (τ x) (δ d)) ↔ InBox shape (move x d))
  target : ∀ x d, InBox shape x → d.length = shape.length →
    target periodic shape' (τ x) (δ d) = τ (target periodic shape x d)

/-- The array `a'` holds at `τ x` what `a` holds at `x`. -/
def Moved {α : Type} (shape shape' : List Nat) (τ : List Int → List Int) (a a' : Nd α) : Prop :=
  a.shape = shape ∧ a'.shape = shape' ∧ ∀ x, InBox shape x → val a' (τ x) = val a x

theorem Motion.perm (M : Motion periodic shape shape' τ δ) : ((pixels shape).map τ).Perm (pixels shape') := by
  rw [List.perm_ext_iff_of_nodup _ (pixels_nodup shape')]
  · intro y
    simp only [List.mem_map, mem_pixels]
    constructor
    · rintro ⟨x, hx, rfl⟩
      exact M.map x hx
    · exact M.surj y
  · exact List.Nodup.map_on (fun x hx y hy e => M.inj x y (mem_pixels.1 hx) (mem_pixels.1 hy) e) (pixels_nodup shape)

theorem Motion.inside (M : Motion periodic shape shape' τ δ) {x d : List Int} (hx : InBox shape x)
    (hd : d.length = shape.length) :
    Spec.target periodic shape' (τ x) (δ d) ∈ pixels shape' ↔ Spec.target periodic shape x d ∈ pixels shape := by
  cases periodic with
  | false =>
    simp only [mem_pixels]
    exact M.leaves x d hx hd
  | true =>
    have h := target_mem hx hd
    simp only [h, iff_true, M.target x d hx hd, mem_pixels]
    exact M.map _ (mem_pixels.1 h)

variable {adm adm' : List Int → List Int → Prop} [∀ x y, Decidable (adm x y)] [∀ x y, Decidable (adm' x y)]

theorem total_moved (M : Motion periodic shape shape' τ δ) {d : List Int} (hd : d.length = shape.length)
    {φ φ' : List Int → List Int → K}
    (ha : ∀ x y, InBox shape x → InBox shape y → y = target periodic shape x d → (adm' (τ x) (τ y) ↔ adm x y))
    (hφ : ∀ x y, InBox shape x → InBox shape y → φ' (τ x) (τ y) = φ x y) :
    total (pairs periodic shape' adm' (δ d)) φ' = total (pairs periodic shape adm d) φ := by
  rw [total_pairs, total_pairs, ← (M.perm.map _).sum_eq, List.map_map]
  congr 1
  refine List.map_congr_left fun x hx => ?_
  have hx := mem_pixels.1 hx
  have h := M.inside hx hd
  simp only [Function.comp]
  by_cases ht : target periodic shape x d ∈ pixels shape
  · have ht' := mem_pixels.1 ht
    have e := M.target x d hx hd
    have h' := h.2 ht
    rw [e] at h' ⊢
    simp only [ht, h', true_and, ha x _ hx ht' rfl, hφ x _ hx ht']
  · rw [if_neg fun q => ht (h.1 q.1), if_neg fun q => ht q.1]

theorem average_moved (M : Motion periodic shape shape' τ δ) {d : List Int} (hd : d.length = shape.length)
    {φ φ' : List Int → List Int → K}
    (ha : ∀ x y, InBox shape x → InBox shape y → y = target periodic shape x d → (adm' (τ x) (τ y) ↔ adm x y))
    (hφ : ∀ x y, InBox shape x → InBox shape y → φ' (τ x) (τ y) = φ x y) :
    average (pairs periodic shape' adm' (δ d)) φ' = average (pairs periodic shape adm d) φ := by
  rw [average_eq_div, average_eq_div, total_moved M hd ha hφ, length_eq_total (K := K), length_eq_total (K := K),
    total_moved M hd ha (φ := fun _ _ => (1 : K)) (fun _ _ _ _ => rfl)]

theorem seen_moved (M : Motion periodic shape shape' τ δ) {m m' : Nd Int} (hm : Moved shape shape' τ m m')
    {x y d : List Int} (hx : InBox shape x) (hy : InBox shape y) (hd : d.length = shape.length) :
    Seen periodic m' (δ d) (τ x) (τ y) ↔ Seen periodic m d x y := by
  unfold Seen
  have h : move (τ x) (δ d) ∈ pixels m'.shape ↔ move x d ∈ pixels m.shape := by
    rw [hm.1, hm.2.1, mem_pixels, mem_pixels, M.leaves x d hx hd]
  by_cases ht : periodic = true ∧ move x d ∉ pixels m.shape
  · rw [if_pos ht, if_pos ⟨ht.1, fun q => ht.2 (h.1 q)⟩]
  · rw [if_neg ht, if_neg fun q => ht ⟨q.1, fun q' => q.2 (h.2 q')⟩, hm.2.2 y hy]

theorem displacement_len {i : List Int} (L : Legal periodic shape roi) (hi : InBox roi i) :
    (displacement roi i).length = shape.length := by
  rw [displacement_length (inbox_length hi), L.same]

/-- S2 of moved images at the moved displacement is S2 of the images at the displacement. -/
theorem C82_S2 (M : Motion periodic shape shape' τ δ) (L : Legal periodic shape roi)
    (L' : Legal periodic shape' roi') (hf : Moved shape shape' τ f f') (hg : Moved shape shape' τ g g')
    (pow05 : K → K) (dbg : Bool) :
    ∃ r r', Api.S2 pow05 dbg roi f g periodic = ok r ∧ Api.S2 pow05 dbg roi' f' g' periodic = ok r' ∧
      ∀ i i', InBox roi i → InBox roi' i' → displacement roi' i' = δ (displacement roi i) →
        val r' i' = val r i := by
  obtain ⟨r, h1, -, h3⟩ := C34_unmasked (f := f) (hf.1.symm ▸ L) (hg.1.trans hf.1.symm) pow05 dbg
  obtain ⟨r', h1', -, h3'⟩ := C34_unmasked (f := f') (hf.2.1.symm ▸ L') (hg.2.1.trans hf.2.1.symm) pow05 dbg
  refine ⟨r, r', h1, h1', fun i i' hi hi' e => ?_⟩
  rw [h3 i hi, h3' i' hi', e, hf.1, hf.2.1]
  refine average_moved M (displacement_len L hi) (fun _ _ _ _ _ => Iff.rfl) fun x y hx hy => ?_
  rw [hf.2.2 x hx, hg.2.2 y hy]

/-- The same with masks. -/
theorem C82_S2Mask (M : Motion periodic shape shape' τ δ) (L : Legal periodic shape roi)
    (L' : Legal periodic shape' roi') (hf : Moved shape shape' τ f f') (hg : Moved shape shape' τ g g')
    (hfm : Moved shape shape' τ fmask fmask') (hgm : Moved shape shape' τ gmask gmask')
    (bf : IsMask fmask) (bg : IsMask gmask) (bf' : IsMask fmask') (bg' : IsMask gmask')
    (pow05 : K → K) (dbg : Bool) :
    ∃ r r', Api.S2Mask pow05 dbg roi f g fmask gmask periodic = ok r ∧
      Api.S2Mask pow05 dbg roi' f' g' fmask' gmask' periodic = ok r' ∧
      ∀ i i', InBox roi i → InBox roi' i' → displacement roi' i' = δ (displacement roi i) →
        val r' i' = val r i := by
  obtain ⟨r, h1, -, h3⟩ := C34_code (f := f) (hf.1.symm ▸ L) (hg.1.trans hf.1.symm) (hfm.1.trans hf.1.symm)
    (hgm.1.trans hf.1.symm) bf bg pow05 dbg
  obtain ⟨r', h1', -, h3'⟩ := C34_code (f := f') (hf.2.1.symm ▸ L') (hg.2.1.trans hf.2.1.symm)
    (hfm.2.1.trans hf.2.1.symm) (hgm.2.1.trans hf.2.1.symm) bf' bg' pow05 dbg
  refine ⟨r, r', h1, h1', fun i i' hi hi' e => ?_⟩
  have hd := displacement_len L hi
  rw [h3 i hi, h3' i' hi']
  simp only [e, hf.1, hf.2.1]
  refine average_moved M hd (fun x y hx hy _ => ?_) fun x y hx hy => ?_
  · rw [hfm.2.2 x hx, seen_moved M hgm hx hy hd]
  · rw [hf.2.2 x hx, hg.2.2 y hy]

/-- C2 of moved images at the moved displacement is C2 of the images at the displacement. -/
theorem C82_C2 (M : Motion periodic shape shape' τ δ) (L : Legal periodic shape roi)
    (L' : Legal periodic shape' roi') (hf : Moved shape shape' τ f f') (hg : Moved shape shape' τ g g')
    (pow05 : K → K) (dbg : Bool) :
    ∃ r r', Api.C2 pow05 dbg roi f g periodic = ok r ∧ Api.C2 pow05 dbg roi' f' g' periodic = ok r' ∧
      ∀ i i', InBox roi i → InBox roi' i' → displacement roi' i' = δ (displacement roi i) →
        val r' i' = val r i := by
  obtain ⟨r, h1, -, h3⟩ := C38_unmasked (f := f) (hf.1.symm ▸ L) (hg.1.trans hf.1.symm) pow05 dbg
  obtain ⟨r', h1', -, h3'⟩ := C38_unmasked (f := f') (hf.2.1.symm ▸ L') (hg.2.1.trans hf.2.1.symm) pow05 dbg
  refine ⟨r, r', h1, h1', fun i i' hi hi' e => ?_⟩
  rw [h3 i hi, h3' i' hi', e, hf.1, hf.2.1]
  refine average_moved M (displacement_len L hi) (fun _ _ _ _ _ => Iff.rfl) fun x y hx hy => ?_
  rw [hf.2.2 x hx, hg.2.2 y hy]

/-- The same with masks. -/
theorem C82_C2Mask (M : Motion periodic shape shape' τ δ) (L : Legal periodic shape roi)
    (L' : Legal periodic shape' roi') (hf : Moved shape shape' τ f f') (hg : Moved shape shape' τ g g')
    (hfm : Moved shape shape' τ fmask fmask') (hgm : Moved shape shape' τ gmask gmask')
    (bf : IsMask fmask) (bg : IsMask gmask) (bf' : IsMask fmask') (bg' : IsMask gmask')
    (pow05 : K → K) (dbg : Bool) :
    ∃ r r', Api.C2Mask pow05 dbg roi f g fmask gmask periodic = ok r ∧
      Api.C2Mask pow05 dbg roi' f' g' fmask' gmask' periodic = ok r' ∧
      ∀ i i', InBox roi i → InBox roi' i' → displacement roi' i' = δ (displacement roi i) →
        val r' i' = val r i := by
  obtain ⟨r, h1, -, h3⟩ := C38_code (f := f) (hf.1.symm ▸ L) (hg.1.trans hf.1.symm) (hfm.1.trans hf.1.symm)
    (hgm.1.trans hf.1.symm) bf bg pow05 dbg
  obtain ⟨r', h1', -, h3'⟩ := C38_code (f := f') (hf.2.1.symm ▸ L') (hg.2.1.trans hf.2.1.symm)
    (hfm.2.1.trans hf.2.1.symm) (hgm.2.1.trans hf.2.1.symm) bf' bg' pow05 dbg
  refine ⟨r, r', h1, h1', fun i i' hi hi' e => ?_⟩
  have hd := displacement_len L hi
  rw [h3 i hi, h3' i' hi']
  simp only [e, hf.1, hf.2.1]
  refine average_moved M hd (fun x y hx hy _ => ?_) fun x y hx hy => ?_
  · rw [hfm.2.2 x hx, seen_moved M hgm hx hy hd]
  · rw [hf.2.2 x hx, hg.2.2 y hy]

/-- W2 of moved weights `f` and image `g` at the moved displacement is W2 at the displacement. -/
theorem C82_W2 (M : Motion periodic shape shape' τ δ) (L : Legal periodic shape roi)
    (L' : Legal periodic shape' roi') (hf : Moved shape shape' τ f f') (hg : Moved shape shape' τ g g')
    (pow05 : K → K) (dbg : Bool) :
    ∃ r r', Api.W2 pow05 dbg roi f g periodic = ok r ∧ Api.W2 pow05 dbg roi' f' g' periodic = ok r' ∧
      ∀ i i', InBox roi i → InBox roi' i' → displacement roi' i' = δ (displacement roi i) →
        val r' i' = val r i := by
  obtain ⟨r, h1, -, h3⟩ := C39_unmasked (f := f) (hf.1.symm ▸ L) (hg.1.trans hf.1.symm) pow05 dbg
  obtain ⟨r', h1', -, h3'⟩ := C39_unmasked (f := f') (hf.2.1.symm ▸ L') (hg.2.1.trans hf.2.1.symm) pow05 dbg
  refine ⟨r, r', h1, h1', fun i i' hi hi' e => ?_⟩
  have hd := displacement_len L hi
  rw [h3 i hi, h3' i' hi']
  simp only [e, hf.1, hf.2.1]
  rw [total_moved (φ := fun x y => val f x * val g y) M hd (fun _ _ _ _ _ => Iff.rfl) (fun x y hx hy => by
      rw [hf.2.2 x hx, hg.2.2 y hy]),
    total_moved (φ := fun x _ => val f x) M hd (fun _ _ _ _ _ => Iff.rfl) (fun x y hx hy => by rw [hf.2.2 x hx])]

/-- The same with a mask. -/
theorem C82_W2Mask (M : Motion periodic shape shape' τ δ) (L : Legal periodic shape roi)
    (L' : Legal periodic shape' roi') (hf : Moved shape shape' τ f f') (hg : Moved shape shape' τ g g')
    (hgm : Moved shape shape' τ gmask gmask') (bg : IsMask gmask) (bg' : IsMask gmask')
    (pow05 : K → K) (dbg : Bool) :
    ∃ r r', Api.W2Mask pow05 dbg roi f g gmask periodic = ok r ∧
      Api.W2Mask pow05 dbg roi' f' g' gmask' periodic = ok r' ∧
      ∀ i i', InBox roi i → InBox roi' i' → displacement roi' i' = δ (displacement roi i) →
        val r' i' = val r i := by
  obtain ⟨r, h1, -, h3⟩ := W2_value (f := f) (hf.1.symm ▸ L) (hg.1.trans hf.1.symm)
    (hgm.1.trans hf.1.symm) bg pow05 dbg
  obtain ⟨r', h1', -, h3'⟩ := W2_value (f := f') (hf.2.1.symm ▸ L') (hg.2.1.trans hf.2.1.symm)
    (hgm.2.1.trans hf.2.1.symm) bg' pow05 dbg
  refine ⟨r, r', h1, h1', fun i i' hi hi' e => ?_⟩
  have hd := displacement_len L hi
  rw [h3 i hi, h3' i' hi']
  simp only [e, hf.1, hf.2.1]
  rw [total_moved (φ := fun x y => val f x * val g y) M hd (fun x y hx hy _ => seen_moved M hgm hx hy hd)
      (fun x y hx hy => by rw [hf.2.2 x hx, hg.2.2 y hy]),
    total_moved (φ := fun x _ => val f x) M hd (fun x y hx hy _ => seen_moved M hgm hx hy hd)
      (fun x y hx hy => by rw [hf.2.2 x hx])]

/-- The height-height correlation of a moved image at the moved displacement is that of the image at the
displacement. -/
theorem C82_heightheight (M : Motion periodic shape shape' τ δ) (L : Legal periodic shape roi)
    (L' : Legal periodic shape' roi') (hf : Moved shape shape' τ f f') (pow05 : K → K) (dbg : Bool) :
    ∃ r r', Api.heightheight pow05 dbg roi f periodic = ok r ∧
      Api.heightheight pow05 dbg roi' f' periodic = ok r' ∧
      ∀ i i', InBox roi i → InBox roi' i' → displacement roi' i' = δ (displacement roi i) →
        val r' i' = val r i := by
  obtain ⟨r, h1, -, h3⟩ := C40_unmasked (f := f) (hf.1.symm ▸ L) pow05 dbg
  obtain ⟨r', h1', -, h3'⟩ := C40_unmasked (f := f') (hf.2.1.symm ▸ L') pow05 dbg
  refine ⟨r, r', h1, h1', fun i i' hi hi' e => ?_⟩
  rw [h3 i hi, h3' i' hi', e, hf.1, hf.2.1]
  congr 1
  refine average_moved M (displacement_len L hi) (fun _ _ _ _ _ => Iff.rfl) fun x y hx hy => ?_
  rw [hf.2.2 x hx, hf.2.2 y hy]

/-- The same with a mask. -/
theorem C82_heightheightMask (M : Motion periodic shape shape' τ δ) (L : Legal periodic shape roi)
    (L' : Legal periodic shape' roi') (hf : Moved shape shape' τ f f')
    (hfm : Moved shape shape' τ fmask fmask') (bf : IsMask fmask) (bf' : IsMask fmask')
    (pow05 : K → K) (dbg : Bool) :
    ∃ r r', Api.heightheightMask pow05 dbg roi f fmask periodic = ok r ∧
      Api.heightheightMask pow05 dbg roi' f' fmask' periodic = ok r' ∧
      ∀ i i', InBox roi i → InBox roi' i' → displacement roi' i' = δ (displacement roi i) →
        val r' i' = val r i := by
  obtain ⟨r, h1, -, h3⟩ := HH_value (f := f) (hf.1.symm ▸ L) (hfm.1.trans hf.1.symm) bf pow05 dbg
  obtain ⟨r', h1', -, h3'⟩ := HH_value (f := f') (hf.2.1.symm ▸ L') (hfm.2.1.trans hf.2.1.symm) bf' pow05 dbg
  refine ⟨r, r', h1, h1', fun i i' hi hi' e => ?_⟩
  have hd := displacement_len L hi
  rw [h3 i hi, h3' i' hi']
  simp only [e, hf.1, hf.2.1]
  congr 1
  refine average_moved M hd (fun x y hx hy _ => ?_) fun x y hx hy => ?_
  · rw [hfm.2.2 x hx, seen_moved M hfm hx hy hd]
  · rw [hf.2.2 x hx, hf.2.2 y hy]

/-! #### the motions -/

/-- The image itself: the value at a displacement does not depend on the size of the region of interest. -/
theorem C82_same : Motion periodic shape shape (fun x => x) (fun d => d) where
  map _ h := h
  inj _ _ _ _ h := h
  surj y h := ⟨y, h, rfl⟩
  leaves _ _ _ _ := Iff.rfl
  target _ _ _ _ := rfl

theorem mirror_move : ∀ {s : List Nat} {r : List Bool} {x d : List Int}, r.length = s.length →
    x.length = s.length → d.length = s.length →
    move (mirror s r x) (mirrorStep r d) = mirror s r (move x d)
  | [], [], [], [], _, _, _ => rfl
  | n :: s, b :: r, i :: x, k :: d, h1, h2, h3 => by
    have ih := mirror_move (s := s) (r := r) (x := x) (d := d) (by simpa using h1) (by simpa using h2)
      (by simpa using h3)
    simp only [mirror, mirrorStep, move, List.zipWith_cons_cons] at ih ⊢
    rw [ih]
    congr 1
    cases b
    · simp
    · simp; omega

theorem mirror_inbox_iff : ∀ {s : List Nat} {r : List Bool} {x : List Int}, r.length = s.length →
    x.length = s.length → (InBox s (mirror s r x) ↔ InBox s x)
  | [], [], [], _, _ => Iff.rfl
  | n :: s, b :: r, i :: x, h1, h2 => by
    have ih := mirror_inbox_iff (s := s) (r := r) (x := x) (by simpa using h1) (by simpa using h2)
    unfold InBox at ih ⊢
    simp only [mirror, List.forall₂_cons, ih]
    refine and_congr_left fun _ => ?_
    cases b
    · simp
    · simp; omega

theorem mirror_wrap : ∀ {s : List Nat} {r : List Bool} {x : List Int}, 0 ∉ s → r.length = s.length →
    x.length = s.length → wrap s (mirror s r x) = mirror s r (wrap s x)
  | [], [], [], _, _, _ => rfl
  | n :: s, b :: r, i :: x, h0, h1, h2 => by
    have hn : 0 < n := by
      rcases Nat.eq_zero_or_pos n with h | h
      · exact absurd (h ▸ List.mem_cons_self) h0
      · exact h
    have ih := mirror_wrap (s := s) (r := r) (x := x) (fun h => h0 (List.mem_cons_of_mem _ h))
      (by simpa using h1) (by simpa using h2)
    simp only [wrap, mirror, List.zipWith_cons_cons] at ih ⊢
    rw [ih]
    congr 1
    cases b
    · simp
    · simp only [if_true]
      have e := Int.emod_add_mul_ediv i n
      have a := Int.emod_nonneg i (b := (n : Int)) (by omega)
      have c := Int.emod_lt_of_pos i (b := (n : Int)) (by omega)
      have : (n : Int) - 1 - i = (n - 1 - i % n) + n * (-(i / n)) := by
        rw [mul_neg]; omega
      rw [this, Int.add_mul_emod_self_left]
      exact Int.emod_eq_of_lt (by omega) (by omega)

/-- Reflection of the axes for which `r` is true. -/
theorem C82_reflect {r : List Bool} (hr : r.length = shape.length) :
    Motion periodic shape shape (mirror shape r) (mirrorStep r) where
  map x h := mirror_inbox hr h
  inj x y hx hy h := by rw [← mirror_mirror hr hx, ← mirror_mirror hr hy, h]
  surj y h := ⟨_, mirror_inbox hr h, mirror_mirror hr h⟩
  leaves x d hx hd := by
    have hl := inbox_length hx
    rw [mirror_move hr hl hd, mirror_inbox_iff hr (by rw [move_length (by omega), hl])]
  target x d hx hd := by
    have hl := inbox_length hx
    unfold target
    rw [mirror_move hr hl hd]
    cases periodic
    · rfl
    · simp only [if_true]
      exact mirror_wrap (fun h0 => by have := inbox_pos hx; simp_all) hr (by rw [move_length (by omega), hl])

theorem axes_move {σ : List Nat} {x d : List Int} (hσ : σ.Perm (List.range x.length)) (hd : d.length = x.length) :
    move (axes σ x) (axes σ d) = axes σ (move x d) := by
  apply List.ext_getElem
  · simp [move, axes]
  · intro k h1 h2
    have hk : k < σ.length := by simpa [axes] using h2
    have h := perm_lt hσ hk
    simp [move, axes, List.getD, h, hd]

theorem axes_wrap {σ : List Nat} {s : List Nat} {x : List Int} (hσ : σ.Perm (List.range s.length))
    (hx : x.length = s.length) : wrap (axes σ s) (axes σ x) = axes σ (wrap s x) := by
  apply List.ext_getElem
  · simp [wrap, axes]
  · intro k h1 h2
    have hk : k < σ.length := by simpa [axes] using h2
    have h := perm_lt hσ hk
    simp [wrap, axes, List.getD, h, hx]

/-- A permutation of the axes. -/
theorem C82_axes {σ : List Nat} (hσ : σ.Perm (List.range shape.length)) :
    Motion periodic shape (axes σ shape) (axes σ) (axes σ) := by
  have S := axes_symmetry (periodic := periodic) hσ
  have hl : σ.length = shape.length := by simpa using hσ.length_eq
  have hi' : (inverse σ).Perm (List.range (axes σ shape).length) := by
    rw [axes_length, hl]; exact inverse_perm hσ
  refine ⟨S.map, ?_, fun y hy => ⟨_, S.map' y hy, S.inv' y hy⟩, ?_, ?_⟩
  · intro x y hx hy h
    rw [← S.inv x hx, ← S.inv y hy, h]
  · intro x d hx hd
    have hx' := inbox_length hx
    have hm : (move x d).length = shape.length := by rw [move_length (by omega), hx']
    rw [axes_move (by rwa [hx']) (by omega)]
    constructor
    · intro h
      have := axes_inbox hi' h
      rwa [axes_inverse hσ, axes_inverse (by rwa [hm])] at this
    · exact axes_inbox hσ
  · intro x d hx hd
    have hx' := inbox_length hx
    have hm : (move x d).length = shape.length := by rw [move_length (by omega), hx']
    unfold target
    rw [axes_move (by rwa [hx']) (by omega)]
    cases periodic
    · rfl
    · exact axes_wrap hσ hm

/-- Insertion of `a` as axis `k`. -/
def insertAxis {α : Type*} (k : Nat) (a : α) (x : List α) : List α := x.take k ++ a :: x.drop k

theorem insertAxis_succ {α : Type*} (k : Nat) (a b : α) (x : List α) :
    insertAxis (k + 1) a (b :: x) = b :: insertAxis k a x := rfl

theorem insert_inbox : ∀ {k : Nat} {s : List Nat} {x : List Int}, k ≤ s.length → x.length = s.length →
    (InBox (insertAxis k 1 s) (insertAxis k 0 x) ↔ InBox s x)
  | 0, s, x, _, _ => by
    unfold InBox
    simp [insertAxis]
  | k + 1, n :: s, i :: x, h1, h2 => by
    have ih := insert_inbox (k := k) (s := s) (x := x) (by simpa using h1) (by simpa using h2)
    unfold InBox at ih ⊢
    rw [insertAxis_succ, insertAxis_succ, List.forall₂_cons, List.forall₂_cons, ih]

theorem insert_move : ∀ {k : Nat} {x d : List Int}, k ≤ x.length → d.length = x.length →
    move (insertAxis k 0 x) (insertAxis k 0 d) = insertAxis k 0 (move x d)
  | 0, x, d, _, _ => by simp [insertAxis, move]
  | k + 1, i :: x, j :: d, h1, h2 => by
    have ih := insert_move (k := k) (x := x) (d := d) (by simpa using h1) (by simpa using h2)
    rw [insertAxis_succ, insertAxis_succ]
    simp only [move, List.zipWith_cons_cons, insertAxis_succ] at ih ⊢
    rw [ih]

theorem insert_wrap : ∀ {k : Nat} {s : List Nat} {x : List Int}, k ≤ s.length → x.length = s.length →
    wrap (insertAxis k 1 s) (insertAxis k 0 x) = insertAxis k 0 (wrap s x)
  | 0, s, x, _, _ => by simp [insertAxis, wrap]
  | k + 1, n :: s, i :: x, h1, h2 => by
    have ih := insert_wrap (k := k) (s := s) (x := x) (by simpa using h1) (by simpa using h2)
    rw [insertAxis_succ, insertAxis_succ]
    simp only [wrap, List.zipWith_cons_cons, insertAxis_succ] at ih ⊢
    rw [ih]

theorem insert_inj {k : Nat} {x y : List Int} (h : insertAxis k 0 x = insertAxis k 0 y)
    (hl : x.length = y.length) : x = y := by
  have := List.append_inj h (by simp [hl])
  rw [← List.take_append_drop k x, ← List.take_append_drop k y, this.1, (List.cons.inj this.2).2]

theorem insert_surj : ∀ {k : Nat} {s : List Nat} {y : List Int}, k ≤ s.length → InBox (insertAxis k 1 s) y →
    ∃ x, x.length = s.length ∧ insertAxis k 0 x = y
  | 0, s, y, _, h => by
    unfold InBox at h
    simp only [insertAxis, List.take_zero, List.nil_append, List.drop_zero] at h
    obtain _ | ⟨h1, h2⟩ := h
    rename_i i x
    have : i = 0 := by omega
    exact ⟨x, (List.Forall₂.length_eq h2).symm, by simp [insertAxis, this]⟩
  | k + 1, n :: s, y, hk, h => by
    unfold InBox at h
    rw [insertAxis_succ] at h
    obtain _ | ⟨h1, h2⟩ := h
    rename_i i z
    obtain ⟨x, h3, h4⟩ := insert_surj (k := k) (s := s) (by simpa using hk) h2
    exact ⟨i :: x, by simp [h3], by rw [insertAxis_succ, h4]⟩

/-- An axis of size one is inserted (or, from right to left, removed): the displacement along it is zero. -/
theorem C82_squeeze {k : Nat} (hk : k ≤ shape.length) :
    Motion periodic shape (insertAxis k 1 shape) (insertAxis k 0) (insertAxis k 0) where
  map x h := (insert_inbox hk (inbox_length h)).2 h
  inj x y hx hy h := insert_inj h (by rw [inbox_length hx, inbox_length hy])
  surj y h := by
    obtain ⟨x, h1, h2⟩ := insert_surj hk h
    exact ⟨x, (insert_inbox hk h1).1 (h2 ▸ h), h2⟩
  leaves x d hx hd := by
    have hl := inbox_length hx
    rw [insert_move (by omega) (by omega), insert_inbox hk (by rw [move_length (by omega), hl])]
  target x d hx hd := by
    have hl := inbox_length hx
    unfold target
    rw [insert_move (by omega) (by omega)]
    cases periodic
    · rfl
    · exact insert_wrap hk (by rw [move_length (by omega), hl])

/-- Two motions after each other. -/
theorem Motion.trans {shape'' : List Nat} {τ' δ' : List Int → List Int} (M : Motion periodic shape shape' τ δ)
    (M' : Motion periodic shape' shape'' τ' δ') (hδ : ∀ d, d.length = shape.length → (δ d).length = shape'.length) :
    Motion periodic shape shape'' (fun x => τ' (τ x)) (fun d => δ' (δ d)) where
  map x h := M'.map _ (M.map x h)
  inj x y hx hy h := M.inj x y hx hy (M'.inj _ _ (M.map x hx) (M.map y hy) h)
  surj z hz := by
    obtain ⟨y, h1, h2⟩ := M'.surj z hz
    obtain ⟨x, h3, h4⟩ := M.surj y h1
    exact ⟨x, h3, by rw [h4, h2]⟩
  leaves x d hx hd := by rw [M'.leaves _ _ (M.map x hx) (hδ d hd), M.leaves x d hx hd]
  target x d hx hd := by rw [M'.target _ _ (M.map x hx) (hδ d hd), M.target x d hx hd]

/-! #### clusters -/

/-- Removal of axis `k`. -/
def removeAxis {α : Type*} (k : Nat) (x : List α) : List α := x.eraseIdx k

theorem remove_insert {α : Type*} {k : Nat} {a : α} {x : List α} (hk : k ≤ x.length) :
    removeAxis k (insertAxis k a x) = x := by
  unfold removeAxis insertAxis
  rw [List.eraseIdx_append_of_length_le (by simp)]
  simp [hk]

theorem insert_shifted : ∀ {k : Nat} {s : List Nat} {x d y : List Int} {e : Int}, k ≤ s.length →
    x.length = s.length → d.length = s.length → y.length = s.length →
    (Spec.Shifted periodic (insertAxis k 1 s) (insertAxis k 0 x) (insertAxis k e d) (insertAxis k 0 y) ↔
      (periodic = true ∨ e = 0) ∧ Spec.Shifted periodic s x d y)
  | 0, s, x, d, y, e, _, _, _, _ => by
    simp only [insertAxis, List.take_zero, List.nil_append, List.drop_zero, Spec.Shifted]
    refine and_congr_left fun _ => ?_
    cases periodic
    · simp [eq_comm]
    · simp
  | k + 1, n :: s, i :: x, j :: d, l :: y, e, h1, h2, h3, h4 => by
    have ih := insert_shifted (k := k) (s := s) (x := x) (d := d) (y := y) (e := e) (by simpa using h1)
      (by simpa using h2) (by simpa using h3) (by simpa using h4)
    simp only [insertAxis_succ, Spec.Shifted, ih]
    tauto

theorem shifted_zero : ∀ {s : List Nat} {x d y : List Int}, InBox s x → InBox s y →
    (d.map Int.natAbs).sum = 0 → Spec.Shifted periodic s x d y → x = y
  | [], [], [], [], _, _, _, _ => rfl
  | n :: s, i :: x, k :: d, j :: y, .cons h1 h2, .cons h3 h4, h0, h => by
    simp only [List.map_cons, List.sum_cons] at h0
    have hk : k = 0 := by omega
    obtain ⟨h5, h6⟩ := h
    rw [shifted_zero h2 h4 (by omega) h6]
    congr 1
    subst hk
    cases periodic
    · simp only [Bool.false_eq_true, if_false] at h5; omega
    · simp only [if_true] at h5
      obtain ⟨c, hc⟩ := h5
      have : c = 0 := by
        by_contra hne
        rcases lt_or_gt_of_ne hne with hlt | hgt
        · have := mul_le_mul_of_nonneg_left (show c ≤ -1 by omega) (show (0 : Int) ≤ n by omega)
          omega
        · have := mul_le_mul_of_nonneg_left (show 1 ≤ c by omega) (show (0 : Int) ≤ n by omega)
          omega
      subst this
      omega

theorem insert_abs {k : Nat} {e : Int} {d : List Int} :
    ((insertAxis k e d).map Int.natAbs).sum = e.natAbs + (d.map Int.natAbs).sum := by
  unfold insertAxis
  conv_rhs => rw [← List.take_append_drop k d]
  simp only [List.map_append, List.map_cons, List.sum_append, List.sum_cons]
  omega

theorem insertAxis_length {α : Type*} {k : Nat} {a : α} {x : List α} :
    (insertAxis k a x).length = x.length + 1 := by
  unfold insertAxis
  simp only [List.length_append, List.length_take, List.length_cons, List.length_drop]
  omega

theorem exists_insert {α : Type*} : ∀ {k n : Nat} {x : List α}, k ≤ n → x.length = n + 1 →
    ∃ a y, y.length = n ∧ x = insertAxis k a y
  | 0, n, a :: x, _, hx => ⟨a, x, by simpa using hx, rfl⟩
  | k + 1, n + 1, b :: x, hk, hx => by
    obtain ⟨a, y, h1, h2⟩ := exists_insert (k := k) (n := n) (x := x) (by omega) (by simpa using hx)
    exact ⟨a, b :: y, by simp [h1], by rw [insertAxis_succ, h2]⟩

theorem squeeze_symmetry {k : Nat} (hk : k ≤ shape.length) :
    Symmetry periodic shape (insertAxis k 1 shape) (insertAxis k 0) (removeAxis k) := by
  have hi : ∀ y, InBox (insertAxis k 1 shape) y → insertAxis k 0 (removeAxis k y) = y ∧
      InBox shape (removeAxis k y) := by
    intro y hy
    obtain ⟨x, h1, h2⟩ := insert_surj hk hy
    subst h2
    rw [remove_insert (by omega)]
    exact ⟨rfl, (insert_inbox hk h1).1 hy⟩
  refine ⟨fun x h => (insert_inbox hk (inbox_length h)).2 h, fun y hy => (hi y hy).2,
    fun x h => remove_insert (by rw [inbox_length h]; exact hk), fun y hy => (hi y hy).1, ?_, ?_⟩
  · intro x y d hx hy hd hl h _
    refine ⟨insertAxis k 0 d, ?_, ?_, ?_⟩
    · unfold FaceStep at hd ⊢
      rw [insert_abs, hd]
      rfl
    · rw [insertAxis_length, insertAxis_length, hl]
    · exact (insert_shifted hk (inbox_length hx) hl (inbox_length hy)).2 ⟨Or.inr rfl, h⟩
  · intro x' y' d' hx hy hd hl h hne
    obtain ⟨x, x1, rfl⟩ := insert_surj hk hx
    obtain ⟨y, y1, rfl⟩ := insert_surj hk hy
    rw [insertAxis_length] at hl
    obtain ⟨e, d, d1, rfl⟩ := exists_insert hk hl
    obtain ⟨h1, h2⟩ := (insert_shifted hk x1 d1 y1).1 h
    rw [remove_insert (by omega), remove_insert (by omega)]
    unfold FaceStep at hd
    rw [insert_abs] at hd
    by_cases he : e = 0
    · exact ⟨d, by unfold FaceStep; rw [← hd, he]; simp, d1, h2⟩
    · refine absurd ?_ hne
      rw [shifted_zero ((insert_inbox hk x1).1 hx) ((insert_inbox hk y1).1 hy) (by omega) h2]

/-- Clusters do not depend on axes of size one: those of an image with such an axis are those of the image
without it. -/
theorem C71_squeeze {k : Nat} (hk : k ≤ shape.length) {f g labels labels' : List Int} {dbg dbg' : Bool}
    (hn : 1 ≤ shape.length) (hn' : shape.length ≤ 2) (hsmall : shape.prod < 2 ^ 62)
    (hf : f.length = shape.prod) (hg : g.length = shape.prod)
    (hfg : ∀ x, InBox shape x → entry (insertAxis k 1 shape) g (insertAxis k 0 x) = entry shape f x)
    (e : Cluster.clusters dbg shape f periodic = ok labels)
    (e' : Cluster.clusters dbg' (insertAxis k 1 shape) g periodic = ok labels')
    {x y : List Int} (hx : InBox shape x) (hy : InBox shape y) :
    entry (insertAxis k 1 shape) labels' (insertAxis k 0 x) = entry (insertAxis k 1 shape) labels' (insertAxis k 0 y) ↔
      entry shape labels x = entry shape labels y := by
  have hp : (insertAxis k 1 shape).prod = shape.prod := by
    unfold insertAxis
    conv_rhs => rw [← List.take_append_drop k shape]
    simp
  exact C71_symmetry (squeeze_symmetry hk) hn (by omega) hsmall (by rw [insertAxis_length]; omega)
    (by rw [insertAxis_length]; omega) (by omega) hf (by omega) (fun x hx => by rw [hfg x hx]) e e' hx hy

/-- A row of pixels as a column. -/
example : insertAxis 1 1 [4] = [4, 1] ∧
    (∀ x ∈ pixels [4], entry [4, 1] [7, 0, 5, 5] (insertAxis 1 0 x) = entry [4] [7, 0, 5, 5] x) ∧
    (Cluster.clusters true [4] [7, 0, 5, 5] true).get? = some [1, 0, 1, 1] ∧
    (Cluster.clusters true [4, 1] [7, 0, 5, 5] true).get? = some [1, 0, 1, 1] := by decide +kernel

/-! #### concrete cases -/

/-- A small two-dimensional image. -/
abbrev im2 (n m : Nat) (l : List ℚ) : Nd ℚ := Nd.ofList [n, m] l

/-- The transpose of an image, a larger region of interest: displacement `(0, 1)` becomes `(1, 0)`. -/
example : [1, 0].Perm (List.range [2, 3].length) ∧ axes [1, 0] [2, 3] = [3, 2] ∧
    Moved [2, 3] [3, 2] (axes [1, 0]) (im2 2 3 [1, 2, 3, 4, 5, 6]) (im2 3 2 [1, 4, 2, 5, 3, 6]) ∧
    Legal true [2, 3] [1, 3] ∧ Legal true [3, 2] [5, 3] ∧ InBox [1, 3] [0, 2] ∧ InBox [5, 3] [3, 1] ∧
    displacement [5, 3] [3, 1] = axes [1, 0] (displacement [1, 3] [0, 2]) ∧
    ((Api.S2 id true [1, 3] (im2 2 3 [1, 2, 3, 4, 5, 6]) (im2 2 3 [1, 2, 3, 4, 5, 6]) true).map
      fun r => val r [0, 2]) = ok (85 / 6) ∧
    ((Api.S2 id true [5, 3] (im2 3 2 [1, 4, 2, 5, 3, 6]) (im2 3 2 [1, 4, 2, 5, 3, 6]) true).map
      fun r => val r [3, 1]) = ok (85 / 6) := by
  refine ⟨by decide, by decide, ⟨rfl, rfl, ?_⟩, ⟨by decide, by decide, by decide, by unfold Fits; decide⟩,
    ⟨by decide, by decide, by decide, by unfold Fits; decide⟩, by unfold InBox; decide, by unfold InBox; decide,
    by decide, by decide +kernel, by decide +kernel⟩
  have : ∀ x ∈ pixels [2, 3], val (im2 3 2 [1, 4, 2, 5, 3, 6]) (axes [1, 0] x) =
      val (im2 2 3 [1, 2, 3, 4, 5, 6]) x := by decide +kernel
  exact fun x hx => this x (mem_pixels.2 hx)

/-- The columns reversed: displacement `1` becomes `-1`; masks. -/
example : Moved [4] [4] (mirror [4] [true]) (im [1, 2, 3, 5]) (im [5, 3, 2, 1]) ∧
    Moved [4] [4] (mirror [4] [true]) (mk [0, 1, 0, 0]) (mk [0, 0, 1, 0]) ∧
    displacement [3] [0] = mirrorStep [true] (displacement [3] [2]) ∧
    ((Api.S2Mask id true [3] (im [1, 2, 3, 5]) (im [1, 2, 3, 5]) (mk [0, 1, 0, 0]) (mk [0, 1, 0, 0]) false).map
      fun r => val r [2]) = ok 15 ∧
    ((Api.S2Mask id true [3] (im [5, 3, 2, 1]) (im [5, 3, 2, 1]) (mk [0, 0, 1, 0]) (mk [0, 0, 1, 0]) false).map
      fun r => val r [0]) = ok 15 := by
  refine ⟨⟨rfl, rfl, ?_⟩, ⟨rfl, rfl, ?_⟩, by decide, by decide +kernel, by decide +kernel⟩
  · have : ∀ x ∈ pixels [4], val (im [5, 3, 2, 1]) (mirror [4] [true] x) = val (im [1, 2, 3, 5]) x := by
      decide +kernel
    exact fun x hx => this x (mem_pixels.2 hx)
  · have : ∀ x ∈ pixels [4], val (mk [0, 0, 1, 0]) (mirror [4] [true] x) = val (mk [0, 1, 0, 0]) x := by
      decide +kernel
    exact fun x hx => this x (mem_pixels.2 hx)

/-- One-dimensional images as columns. -/
example : insertAxis 1 1 [3] = [3, 1] ∧
    Moved [3] [3, 1] (insertAxis 1 0) (im [1, 2, 3]) (im2 3 1 [1, 2, 3]) ∧
    displacement [3, 1] [2, 0] = insertAxis 1 0 (displacement [3] [2]) := by
  refine ⟨rfl, ⟨rfl, rfl, ?_⟩, by decide⟩
  have : ∀ x ∈ pixels [3], val (im2 3 1 [1, 2, 3]) (insertAxis 1 0 x) = val (im [1, 2, 3]) x := by decide +kernel
  exact fun x hx => this x (mem_pixels.2 hx)

end Verif.Props
