import Verif.Lemmas.FloatWalk
import Verif.Lemmas.FloatError
import Verif.Lemmas.Float
import Verif.Props.Hierarchy
import Verif.Props.History

/-!
# Statistics in `double` (C73, C74)

`Fl rnd` is the type of numbers of which every operation is rounded by `rnd` (`Verif.Model.Float`), `rnd64` the
rounding of IEEE 754 `double`. The images hold integers: labels, or the zeros and ones of a binary image. All
theorems hold for any rounding that is exact on the integers up to `2 ^ 53`.
-/

set_option linter.unusedSectionVars false

namespace Verif.Props

open Verif Outcome Spec Ens

/-- The elements of an image, of absolute value at most `A`. -/
structure IntImage (shape : List Nat) (A : ℤ) (f : List Int) : Prop where
  length : f.length = shape.prod
  bound : ∀ v ∈ f, |v| ≤ A

/-- The elements of a mask: zeros and ones. -/
structure BitImage (shape : List Nat) (m : List Int) : Prop where
  length : m.length = shape.prod
  bit : ∀ v ∈ m, v = 0 ∨ v = 1

theorem getD_mem {f : List Int} (k : Nat) : f.getD k 0 ∈ f ∨ f.getD k 0 = 0 := by
  by_cases h : k < f.length
  · rw [getD_of_lt h]; exact Or.inl (List.getElem_mem h)
  · right; simp [List.getD_eq_getElem?_getD, List.getElem?_eq_none (Nat.le_of_not_lt h)]

theorem BitImage.bits {shape : List Nat} {m : List Int} (h : BitImage shape m) : Bits (ofInts Int shape m) := by
  intro k
  rcases getD_mem (f := m) k with hk | hk
  · exact h.bit _ hk
  · exact Or.inl hk

theorem BitImage.isMask {shape : List Nat} {m : List Int} (h : BitImage shape m) : IsMask (ofInts Int shape m) :=
  fun k _ => h.bits k

theorem rnd64_exact : ExactInts rnd64 := fun _ h => rnd64_int h

variable {rnd : ℚ → ℚ}

theorem IntImage.same (hr : ExactInts rnd) {shape : List Nat} {A : ℤ} {f : List Int} (h : IntImage shape A f)
    (hA : 0 ≤ A) (hb : shape.prod ≠ 0 → A ≤ 2 ^ 53) : SameNd A (ofInts (Fl rnd) shape f) (ofInts ℚ shape f) := by
  refine ⟨rfl, fun k => ?_⟩
  rcases getD_mem (f := f) k with hk | hk
  · have h0 : shape.prod ≠ 0 := by
      rw [← h.length]
      intro h0
      rw [List.length_eq_zero_iff.1 h0] at hk
      cases hk
    exact same_int hr (h.bound _ hk) (hb h0)
  · show Same A ((f.getD k 0 : Int) : Fl rnd) ((f.getD k 0 : Int) : ℚ)
    rw [hk]
    have e : ((0 : Int) : Fl rnd) = 0 := by
      ext
      have := hr 0 (by norm_num)
      exact this.trans (by norm_num; rfl)
    rw [e, Int.cast_zero]
    exact same_zero hA

/-- One call of a measure. -/
theorem one_rounding {roi : List Nat} {periodic : Bool} {st : Stat}
    {call : Bool → Ensemble (Fl rnd) → Outcome (Ensemble (Fl rnd))} {call' : Bool → Ensemble ℚ → Outcome (Ensemble ℚ)}
    {φ : List Int → ℚ × ℚ × ℚ} {c : ℤ} {r' : Nd ℚ} (pow05 : Fl rnd → Fl rnd) (hr : roi.length ≤ 3) (h0 : 0 ∉ roi)
    (hE : Effect roi periodic true st call' φ) (dbg : Bool)
    (hs : ∀ E E', SameEns 0 E E' → Both (SameEns c) (call dbg E) (call' dbg E'))
    (e : (do
      let E ← make ℚ dbg roi periodic true
      let E ← call' dbg E
      result id E) = ok r') (es : r'.shape = roi) :
    ∃ r, (do
      let E ← make (Fl rnd) dbg roi periodic true
      let E ← call dbg E
      result pow05 E) = ok r ∧ r.shape = roi ∧
      ∀ i, val r i = if st = .heightheight then pow05 ⟨rnd (val r' i)⟩ else ⟨rnd (val r' i)⟩ := by
  have hm := make_same (rnd := rnd) dbg roi periodic true
  rw [make_ok dbg hr h0] at hm e
  cases e1 : make (Fl rnd) dbg roi periodic true with
  | ok E =>
    rw [e1] at hm
    have hcall := hs _ _ hm
    rw [ok_bind] at e
    obtain ⟨δ, h1, -⟩ := hE
    rw [h1 dbg _ good_fresh (Or.inr rfl)] at hcall e
    rw [ok_bind] at e ⊢
    cases e2 : call dbg E with
    | ok E1 =>
      rw [e2] at hcall
      have hres := result_same hcall pow05
      rw [e] at hres
      rw [ok_bind]
      cases e3 : result pow05 E1 with
      | ok r =>
        rw [e3] at hres
        obtain ⟨k1, k2⟩ := hres
        refine ⟨r, rfl, k1.trans es, fun i => ?_⟩
        unfold val
        rw [k1]
        exact k2 _
      | throws => rw [e3] at hres; exact hres.elim
      | ub => rw [e3] at hres; exact hres.elim
      | diverge => rw [e3] at hres; exact hres.elim
    | throws => rw [e2] at hcall; exact hcall.elim
    | ub => rw [e2] at hcall; exact hcall.elim
    | diverge => rw [e2] at hcall; exact hcall.elim
  | throws => rw [e1] at hm; exact hm.elim
  | ub => rw [e1] at hm; exact hm.elim
  | diverge => rw [e1] at hm; exact hm.elim

variable {roi shape : List Nat} {periodic : Bool} {A B : ℤ} {f g mf mg : List Int}

theorem small_of {A B : ℤ} (hA : 1 ≤ A) (hB : 1 ≤ B) {n : Nat} (h : A * B * n ≤ 2 ^ 53) (hn : n ≠ 0) :
    A ≤ 2 ^ 53 ∧ B ≤ 2 ^ 53 := by
  have hn : (1 : ℤ) ≤ n := by omega
  have h1 : A * B ≤ A * B * n := le_mul_of_one_le_right (by positivity) hn
  have h2 : A ≤ A * B := le_mul_of_one_le_right (by omega) hB
  have h3 : B ≤ A * B := le_mul_of_one_le_left (by omega) hA
  exact ⟨by omega, by omega⟩

/-- S2 of integer images, computed in `double`, is the exact average over the pairs of pixels, rounded once. -/
theorem C73_S2 (hr : ExactInts rnd) (L : Legal periodic shape roi) (hf : IntImage shape A f) (hg : IntImage shape B g)
    (hmf : BitImage shape mf) (hmg : BitImage shape mg) (hA : 1 ≤ A) (hB : 1 ≤ B) (hbig : A * B * shape.prod ≤ 2 ^ 53)
    (pow05 : Fl rnd → Fl rnd) (dbg : Bool) :
    ∃ r, Api.S2Mask pow05 dbg roi (ofInts (Fl rnd) shape f) (ofInts (Fl rnd) shape g) (ofInts Int shape mf)
        (ofInts Int shape mg) periodic = ok r ∧ r.shape = roi ∧
      ∀ i, InBox roi i → let d := displacement roi i
        (val r i).val = rnd (average (pairs periodic shape
          (fun x y => val (ofInts Int shape mf) x = 0 ∧ Seen periodic (ofInts Int shape mg) d x y) d)
          fun x y => val (ofInts ℚ shape f) x * val (ofInts ℚ shape g) y) := by
  have hs := small_of hA hB hbig
  have sf := hf.same hr (by omega) fun h => (hs h).1
  have sg := hg.same hr (by omega) fun h => (hs h).2
  obtain ⟨r', e1, e2, e3⟩ := S2_value (f := ofInts ℚ shape f) (g := ofInts ℚ shape g) L rfl
    (fmask := ofInts Int shape mf) (gmask := ofInts Int shape mg) rfl rfl hmf.isMask hmg.isMask id dbg
  have hAB : 1 ≤ A * B := by nlinarith
  obtain ⟨r, k1, k2, k3⟩ := one_rounding (rnd := rnd)
    (call := fun dbg E => Ens.S2 dbg E (ofInts (Fl rnd) shape f) (ofInts (Fl rnd) shape g) (ofInts Int shape mf)
      (ofInts Int shape mg)) pow05 L.rank L.pos
    (S2_effect (f := ofInts ℚ shape f) (g := ofInts ℚ shape g) (variance := true) L.rank L.pos L.same rfl rfl rfl hmf.isMask hmg.isMask L.fits) dbg
    (c := 0 + shape.prod * (A * B))
    (fun E E' h => S2_same hr dbg h sf sg hmg.bits hAB le_rfl (by rw [zero_add, mul_comm]; exact hbig)) e1 e2
  refine ⟨r, k1, k2, fun i hi => ?_⟩
  have := k3 i
  rw [if_neg (by decide), e3 i hi] at this
  exact congrArg Fl.val this

/-- C2 of labels, computed in `double`, is the exact probability, rounded once. -/
theorem C73_C2 (hr : ExactInts rnd) (L : Legal periodic shape roi) (hf : IntImage shape (2 ^ 53) f)
    (hg : IntImage shape (2 ^ 53) g) (hmf : BitImage shape mf) (hmg : BitImage shape mg)
    (hbig : shape.prod ≤ 2 ^ 53) (pow05 : Fl rnd → Fl rnd) (dbg : Bool) :
    ∃ r, Api.C2Mask pow05 dbg roi (ofInts (Fl rnd) shape f) (ofInts (Fl rnd) shape g) (ofInts Int shape mf)
        (ofInts Int shape mg) periodic = ok r ∧ r.shape = roi ∧
      ∀ i, InBox roi i → let d := displacement roi i
        (val r i).val = rnd (average (pairs periodic shape
          (fun x y => val (ofInts Int shape mf) x = 0 ∧ Seen periodic (ofInts Int shape mg) d x y) d)
          fun x y => if val (ofInts Int shape f) x ≠ 0 ∧ val (ofInts Int shape f) x = val (ofInts Int shape g) y
            then 1 else 0) := by
  have sf := hf.same hr (by norm_num) fun _ => le_rfl
  have sg := hg.same hr (by norm_num) fun _ => le_rfl
  obtain ⟨r', e1, e2, e3⟩ := C2_value (f := ofInts ℚ shape f) (g := ofInts ℚ shape g) L rfl
    (fmask := ofInts Int shape mf) (gmask := ofInts Int shape mg) rfl rfl hmf.isMask hmg.isMask id dbg
  obtain ⟨r, k1, k2, k3⟩ := one_rounding (rnd := rnd)
    (call := fun dbg E => Ens.C2 dbg E (ofInts (Fl rnd) shape f) (ofInts (Fl rnd) shape g) (ofInts Int shape mf)
      (ofInts Int shape mg)) pow05 L.rank L.pos
    (C2_effect (f := ofInts ℚ shape f) (g := ofInts ℚ shape g) (variance := true) L.rank L.pos L.same rfl rfl rfl hmf.isMask hmg.isMask L.fits) dbg
    (c := 0 + shape.prod * 1)
    (fun E E' h => C2_same hr dbg h sf sg hmg.bits (by
      rw [zero_add, mul_one]; exact_mod_cast hbig)) e1 e2
  refine ⟨r, k1, k2, fun i hi => ?_⟩
  have := k3 i
  rw [if_neg (by decide), e3 i hi] at this
  refine (congrArg Fl.val this).trans ?_
  show rnd _ = rnd _
  congr 2
  funext x y
  refine if_congr ?_ rfl rfl
  simp only [ofInts, val, Int.cast_inj, ne_eq, Int.cast_id, Int.cast_eq_zero]

/-- W2 of integer images, computed in `double`, is the exact weighted average, rounded once. -/
theorem C73_W2 (hr : ExactInts rnd) (L : Legal periodic shape roi) (hf : IntImage shape A f) (hg : IntImage shape B g)
    (hmg : BitImage shape mg) (hA : 1 ≤ A) (hB : 1 ≤ B) (hbig : A * B * shape.prod ≤ 2 ^ 53)
    (pow05 : Fl rnd → Fl rnd) (dbg : Bool) :
    ∃ r, Api.W2Mask pow05 dbg roi (ofInts (Fl rnd) shape f) (ofInts (Fl rnd) shape g) (ofInts Int shape mg) periodic =
        ok r ∧ r.shape = roi ∧
      ∀ i, InBox roi i → let d := displacement roi i
        let l := pairs periodic shape (Seen periodic (ofInts Int shape mg) d) d
        (val r i).val = rnd ((total l fun x y => val (ofInts ℚ shape f) x * val (ofInts ℚ shape g) y) /
          norm1 (total l fun x _ => val (ofInts ℚ shape f) x)) := by
  have hs := small_of hA hB hbig
  have sf := hf.same hr (by omega) fun h => (hs h).1
  have sg := hg.same hr (by omega) fun h => (hs h).2
  obtain ⟨r', e1, e2, e3⟩ := W2_value (f := ofInts ℚ shape f) (g := ofInts ℚ shape g) L rfl
    (gmask := ofInts Int shape mg) rfl hmg.isMask id dbg
  have hAB : A ≤ A * B := le_mul_of_one_le_right (by omega) hB
  obtain ⟨r, k1, k2, k3⟩ := one_rounding (rnd := rnd)
    (call := fun dbg E => Ens.W2 dbg E (ofInts (Fl rnd) shape f) (ofInts (Fl rnd) shape g)
      (ofInts Int shape mg)) pow05 L.rank L.pos
    (W2_effect (f := ofInts ℚ shape f) (g := ofInts ℚ shape g) (variance := true) L.rank L.pos L.same rfl rfl hmg.isMask L.fits) dbg
    (c := 0 + shape.prod * (A * B))
    (fun E E' h => W2_same hr dbg h sf sg hmg.bits hAB le_rfl (by rw [zero_add, mul_comm]; exact hbig)) e1 e2
  refine ⟨r, k1, k2, fun i hi => ?_⟩
  have := k3 i
  rw [if_neg (by decide), e3 i hi] at this
  exact congrArg Fl.val this

/-- The height-height correlation of integer heights, computed in `double`, is the square root (as `pow(x, 0.5)`
computes it) of the exact mean square of the differences, rounded once. -/
theorem C73_heightheight (hr : ExactInts rnd) (L : Legal periodic shape roi) (hf : IntImage shape A f)
    (hmf : BitImage shape mf) (hA : 1 ≤ A) (hbig : (2 * A) ^ 4 * shape.prod ≤ 2 ^ 53)
    (pow05 : Fl rnd → Fl rnd) (dbg : Bool) :
    ∃ r, Api.heightheightMask pow05 dbg roi (ofInts (Fl rnd) shape f) (ofInts Int shape mf) periodic = ok r ∧
      r.shape = roi ∧
      ∀ i, InBox roi i → let d := displacement roi i
        val r i = pow05 ⟨rnd (average (pairs periodic shape
          (fun x y => val (ofInts Int shape mf) x = 0 ∧ Seen periodic (ofInts Int shape mf) d x y) d)
          fun x y => (val (ofInts ℚ shape f) y - val (ofInts ℚ shape f) x) ^ 2)⟩ := by
  have h4 : A ≤ (2 * A) ^ 4 := by
    have := le_self_pow₀ (show (1 : ℤ) ≤ 2 * A by omega) (show 4 ≠ 0 by decide)
    omega
  have sf := hf.same hr (by omega) fun h => by
    have hn : (1 : ℤ) ≤ shape.prod := by omega
    have h1 : (2 * A) ^ 4 ≤ (2 * A) ^ 4 * shape.prod := le_mul_of_one_le_right (by positivity) hn
    omega
  obtain ⟨r', e1, e2, e3⟩ := HH_value (f := ofInts ℚ shape f) L
    (fmask := ofInts Int shape mf) rfl hmf.isMask id dbg
  obtain ⟨r, k1, k2, k3⟩ := one_rounding (rnd := rnd)
    (call := fun dbg E => Ens.heightheight dbg E (ofInts (Fl rnd) shape f) (ofInts Int shape mf)) pow05 L.rank L.pos
    (HH_effect (f := ofInts ℚ shape f) (variance := true) L.rank L.pos L.same rfl hmf.isMask L.fits) dbg
    (c := 0 + shape.prod * (2 * A) ^ 4)
    (fun E E' h => HH_same hr dbg h sf hmf.bits (by omega) le_rfl (by rw [zero_add, mul_comm]; exact hbig)) e1 e2
  refine ⟨r, k1, k2, fun i hi => ?_⟩
  have := k3 i
  rw [if_pos rfl, e3 i hi] at this
  exact this

/-! ### `double` -/

/-- In `double`, S2 of integer images has a relative error of at most `2 ^ -53`. -/
theorem C73_error (L : Legal periodic shape roi) (hf : IntImage shape A f) (hg : IntImage shape B g)
    (hmf : BitImage shape mf) (hmg : BitImage shape mg) (hA : 1 ≤ A) (hB : 1 ≤ B) (hbig : A * B * shape.prod ≤ 2 ^ 53)
    (pow05 : Fl rnd64 → Fl rnd64) (dbg : Bool) :
    ∃ r, Api.S2Mask pow05 dbg roi (ofInts (Fl rnd64) shape f) (ofInts (Fl rnd64) shape g) (ofInts Int shape mf)
        (ofInts Int shape mg) periodic = ok r ∧ r.shape = roi ∧
      ∀ i, InBox roi i → let d := displacement roi i
        let exact := average (pairs periodic shape
          (fun x y => val (ofInts Int shape mf) x = 0 ∧ Seen periodic (ofInts Int shape mg) d x y) d)
          fun x y => val (ofInts ℚ shape f) x * val (ofInts ℚ shape g) y
        |(val r i).val - exact| ≤ |exact| / 2 ^ 53 := by
  obtain ⟨r, h1, h2, h3⟩ := C73_S2 rnd64_exact L hf hg hmf hmg hA hB hbig pow05 dbg
  refine ⟨r, h1, h2, fun i hi => ?_⟩
  have := h3 i hi
  simp only at this ⊢
  rw [this]
  exact rnd64_error _

theorem BitImage.int {m : List Int} (h : BitImage shape m) : IntImage shape 1 m :=
  ⟨h.length, fun v hv => by rcases h.bit v hv with e | e <;> rw [e] <;> norm_num⟩

theorem BitImage.binary {m : List Int} (h : BitImage shape m) : IsBinary (ofInts ℚ shape m) := by
  intro x _
  show ((m.getD _ 0 : Int) : ℚ) = 0 ∨ ((m.getD _ 0 : Int) : ℚ) = 1
  rcases getD_mem (f := m) (flat (ofInts ℚ shape m).shape x).toNat with hk | hk
  · rcases h.bit _ hk with e | e <;> rw [e] <;> simp
  · rw [hk]; simp

/-- In `double`, S2 of binary images is between 0 and 1, whatever the masks. -/
theorem C73_range (L : Legal periodic shape roi) (hf : BitImage shape f) (hg : BitImage shape g)
    (hmf : BitImage shape mf) (hmg : BitImage shape mg) (hbig : shape.prod ≤ 2 ^ 53)
    (pow05 : Fl rnd64 → Fl rnd64) (dbg : Bool) :
    ∃ r, Api.S2Mask pow05 dbg roi (ofInts (Fl rnd64) shape f) (ofInts (Fl rnd64) shape g) (ofInts Int shape mf)
        (ofInts Int shape mg) periodic = ok r ∧ r.shape = roi ∧
      ∀ i, InBox roi i → 0 ≤ (val r i).val ∧ (val r i).val ≤ 1 := by
  obtain ⟨r, h1, h2, h3⟩ := C73_S2 rnd64_exact L hf.int hg.int hmf hmg le_rfl le_rfl
    (by rw [one_mul, one_mul]; exact_mod_cast hbig) pow05 dbg
  obtain ⟨r', e1, -, e3⟩ := S2_value (f := ofInts ℚ shape f) (g := ofInts ℚ shape g) L rfl
    (fmask := ofInts Int shape mf) (gmask := ofInts Int shape mg) rfl rfl hmf.isMask hmg.isMask id dbg
  obtain ⟨r'', k1, -, k3⟩ := C36_range (f := ofInts ℚ shape f) (g := ofInts ℚ shape g) L rfl
    (fmask := ofInts Int shape mf) (gmask := ofInts Int shape mg) rfl rfl hmf.isMask hmg.isMask hf.binary hg.binary
    id dbg
  rw [e1] at k1
  cases k1
  refine ⟨r, h1, h2, fun i hi => ?_⟩
  have a := h3 i hi
  have b := e3 i hi
  have c := k3 i hi
  simp only at a b
  rw [b] at c
  rw [a]
  exact ⟨rnd64_nonneg c.1, rnd64_le_one c.1 c.2⟩

/-- In `double`, C2 of labels is at most S2 of the binary image if labelled pixels are nonzero, whatever the mask. -/
theorem C73_order (L : Legal periodic shape roi) (hf : BitImage shape f) (hg : IntImage shape (2 ^ 53) g)
    (hlab : ∀ k, g.getD k 0 ≠ 0 → f.getD k 0 ≠ 0) (hm : BitImage shape mf) (hbig : shape.prod ≤ 2 ^ 53)
    (pow05 : Fl rnd64 → Fl rnd64) (dbg : Bool) :
    ∃ c s, Api.C2Mask pow05 dbg roi (ofInts (Fl rnd64) shape g) (ofInts (Fl rnd64) shape g) (ofInts Int shape mf)
        (ofInts Int shape mf) periodic = ok c ∧
      Api.S2Mask pow05 dbg roi (ofInts (Fl rnd64) shape f) (ofInts (Fl rnd64) shape f) (ofInts Int shape mf)
        (ofInts Int shape mf) periodic = ok s ∧ c.shape = roi ∧ s.shape = roi ∧
      ∀ i, InBox roi i → (val c i).val ≤ (val s i).val := by
  obtain ⟨s, s1, s2, s3⟩ := C73_S2 rnd64_exact L hf.int hf.int hm hm le_rfl le_rfl
    (by rw [one_mul, one_mul]; exact_mod_cast hbig) pow05 dbg
  obtain ⟨c, c1, c2, c3⟩ := C73_C2 rnd64_exact L hg hg hm hm hbig pow05 dbg
  refine ⟨c, s, c1, s1, c2, s2, fun i hi => ?_⟩
  have a := c3 i hi
  have b := s3 i hi
  simp only at a b
  rw [a, b]
  refine rnd64_mono (average_nonneg fun p _ => by split <;> norm_num) ?_
  rw [average_eq_div, average_eq_div]
  refine div_le_div_of_nonneg_right (total_le fun p hp => ?_) (Nat.cast_nonneg _)
  obtain ⟨hx, -, hy, -⟩ := mem_pairs.1 hp
  have b1 := hf.binary p.1 hx
  have b2 := hf.binary p.2 hy
  have hne : ∀ x, val (ofInts Int shape g) x ≠ 0 → val (ofInts ℚ shape f) x ≠ 0 := by
    intro x h
    simp only [val, ofInts, Int.cast_id] at h ⊢
    exact_mod_cast hlab _ h
  split
  · rename_i h
    have a1 := hne _ h.1
    have a2 := hne _ (h.2 ▸ h.1)
    rcases b1 with e | e
    · exact absurd e a1
    · rcases b2 with e' | e'
      · exact absurd e' a2
      · rw [e, e']; norm_num
  · rcases b1 with e | e <;> rcases b2 with e' | e' <;> simp [e, e']

/-- A periodic image of shape (3, 4), with labels and a mask, meets the hypotheses. -/
example : Legal true [3, 4] [3, 3] ∧ IntImage [3, 4] 7 [1, 0, 0, 2, 2, 0, 7, 0, 0, 1, 1, 1] ∧
    BitImage [3, 4] [0, 0, 0, 0, 1, 0, 0, 0, 0, 0, 0, 1] ∧ (7 : ℤ) * 7 * ([3, 4] : List Nat).prod ≤ 2 ^ 53 :=
  ⟨⟨by decide, by decide, rfl, fun _ => .cons (by decide) (.cons (by decide) .nil)⟩, ⟨rfl, by decide⟩, ⟨rfl, by decide⟩,
    by decide⟩

/-- The rounding is needed: a third of the pixels. -/
example : rnd64 (1 / 3) = 6004799503160661 / 18014398509481984 := by decide +kernel

/-! ### Any history of an ensemble -/

/-- The elements are at most `A`. (Beyond its size, an array has no elements in the code; in the model they are
to be bounded as well, say zero.) -/
def Within (A : ℤ) (f : Nd Int) : Prop := ∀ k, |f.get k| ≤ A

/-- Integer images, converted to the type of the values of an ensemble. -/
def Realisation.cast (K : Type) [IntCast K] : Realisation Int → Realisation K
  | .mean f m => .mean (f.map Int.cast) m
  | .S2 f g m => .S2 (f.map Int.cast) (g.map Int.cast) m
  | .C2 f g m => .C2 (f.map Int.cast) (g.map Int.cast) m
  | .W2 w f m => .W2 (w.map Int.cast) (f.map Int.cast) m
  | .W2c clusters centers f m mode => .W2c clusters centers (f.map Int.cast) m mode
  | .heightheight f m => .heightheight (f.map Int.cast) m
  | .L f mode => .L (f.map Int.cast) mode

/-- The images hold integers of at most `A`, the masks zeros and ones. -/
def Realisation.Within (A : ℤ) : Realisation Int → Prop
  | .mean f m => Props.Within A f ∧ ∀ m' ∈ m, Bits m'
  | .S2 f g m => Props.Within A f ∧ Props.Within A g ∧ ∀ m' ∈ m, Bits m'.2
  | .C2 f g m => Props.Within A f ∧ Props.Within A g ∧ ∀ m' ∈ m, Bits m'.2
  | .W2 w f m => Props.Within A w ∧ Props.Within A f ∧ ∀ m' ∈ m, Bits m'
  | .W2c _ _ f _ _ => Props.Within A f
  | .heightheight f m => Props.Within A f ∧ ∀ m' ∈ m, Bits m'
  | .L f _ => Props.Within A f

/-- An upper bound of what a realisation adds to any of the accumulators. -/
def Realisation.load (roi : List Nat) (A : ℤ) : Realisation Int → ℤ
  | .mean f _ => f.shape.prod * A ^ 2
  | .S2 f _ _ => f.shape.prod * A ^ 2
  | .C2 f _ _ => f.shape.prod
  | .W2 w _ _ => w.shape.prod * A ^ 2
  | .W2c _ _ f _ _ => (edge roi).length * (f.shape.prod * ((max 1 roi.sum + 1 : Nat) * A))
  | .heightheight f _ => f.shape.prod * (2 * A) ^ 4
  | .L f _ => (edge roi).length * (f.shape.prod * (max 1 roi.sum + 1 : Nat))

theorem Within.same (hr : ExactInts rnd) {f : Nd Int} (h : Within A f) (hA : A ≤ 2 ^ 53) :
    SameNd A (f.map (Int.cast : Int → Fl rnd)) (f.map (Int.cast : Int → ℚ)) :=
  ⟨rfl, fun k => same_int hr (h k) hA⟩

theorem bits_noMask {K : Type} (f : Nd K) : Bits (noMask f) := fun _ => Or.inl rfl

theorem stamp_rows {junk : ℚ} {fuel : Nat} {mode : Path.Mode} {E : Ensemble ℚ} {variance : Bool} (hr : roi.length ≤ 3)
    (h0 : 0 ∉ roi) (hm : Enough fuel roi mode) (hE : Good roi periodic variance E) :
    (stamps E.shape E.pad).length = (edge roi).length ∧ ∀ s ∈ stamps E.shape E.pad, ∀ rows,
      Path.path junk fuel [0, 0, 0] s mode = ok rows → rows.length ≤ max 1 roi.sum + 1 := by
  rw [hE.shape, hE.pad, stamps_eq hr h0]
  refine ⟨by simp, fun s hs rows hrows => ?_⟩
  obtain ⟨P, hP⟩ := choose_paths junk hr hm
  obtain ⟨s', hs', rfl⟩ := List.mem_map.1 hs
  have := (hP s' hs').path
  rw [this] at hrows
  cases hrows
  rw [List.length_map]
  exact (hP s' hs').short

theorem Realisation.same (hr : ExactInts rnd) (hroi : roi.length ≤ 3) (h0 : 0 ∉ roi) (hA : 1 ≤ A) (hA2 : A ^ 2 ≤ 2 ^ 53)
    {variance : Bool} {junk : ℚ} {fuel : Nat} {r : Realisation Int} (hL : r.Legal fuel periodic roi)
    (hW : r.Within A) (dbg : Bool) {c : ℤ} {E : Ensemble (Fl rnd)} {E' : Ensemble ℚ} (h : SameEns c E E')
    (hE : Good roi periodic variance E') (hc : c + r.load roi A ≤ 2 ^ 53) :
    Both (SameEns (c + r.load roi A)) ((r.cast (Fl rnd)).call junk fuel dbg E) ((r.cast ℚ).call junk fuel dbg E') := by
  have hAA : A ≤ A ^ 2 := le_self_pow₀ hA (by decide)
  have hA53 : A ≤ 2 ^ 53 := hAA.trans hA2
  have hsq : A * A ≤ A ^ 2 := by rw [pow_two]
  match r, hL, hW, hc with
  | .mean f none, _, hW, hc => exact mean_same hr dbg h (hW.1.same hr hA53) hA hA2 hc
  | .mean f (some m), hL, hW, hc =>
    exact meanMask_same hr dbg h (hW.1.same hr hA53) hA hA2 (hL.2 m rfl).1 (hW.2 m rfl) hc
  | .S2 f g none, _, hW, hc =>
    exact S2_same hr dbg h (hW.1.same hr hA53) (hW.2.1.same hr hA53) (bits_noMask _) (hA.trans hAA) hsq hc
  | .S2 f g (some m), _, hW, hc =>
    exact S2_same hr dbg h (hW.1.same hr hA53) (hW.2.1.same hr hA53) (hW.2.2 m rfl) (hA.trans hAA) hsq hc
  | .C2 f g none, _, hW, hc =>
    have hc' : c + f.shape.prod * 1 ≤ 2 ^ 53 := by rw [mul_one]; exact hc
    refine (C2_same hr dbg h (hW.1.same hr hA53) (hW.2.1.same hr hA53) (bits_noMask _) hc').mono fun _ _ h => ?_
    rw [mul_one] at h; exact h
  | .C2 f g (some m), _, hW, hc =>
    have hc' : c + f.shape.prod * 1 ≤ 2 ^ 53 := by rw [mul_one]; exact hc
    refine (C2_same hr dbg h (hW.1.same hr hA53) (hW.2.1.same hr hA53) (hW.2.2 m rfl) hc').mono fun _ _ h => ?_
    rw [mul_one] at h; exact h
  | .W2 f g none, _, hW, hc =>
    exact W2_same hr dbg h (hW.1.same hr hA53) (hW.2.1.same hr hA53) (bits_noMask _) hAA hsq hc
  | .W2 f g (some m), _, hW, hc =>
    exact W2_same hr dbg h (hW.1.same hr hA53) (hW.2.1.same hr hA53) (hW.2.2 m rfl) hAA hsq hc
  | .W2c cl ce f none mode, hL, hW, hc =>
    obtain ⟨e, hp⟩ := stamp_rows (junk := junk) hroi h0 hL.2.2.2.2.2 hE
    have := W2c_same (clusters := cl) (centers := ce) (fmask := noMask f) hr dbg h (hW.same hr hA53) hA hp
      (by rw [e]; exact hc)
    rw [e] at this
    exact this
  | .W2c cl ce f (some m) mode, hL, hW, hc =>
    obtain ⟨e, hp⟩ := stamp_rows (junk := junk) hroi h0 hL.2.2.2.2.2 hE
    have := W2c_same (clusters := cl) (centers := ce) (fmask := m) hr dbg h (hW.same hr hA53) hA hp
      (by rw [e]; exact hc)
    rw [e] at this
    exact this
  | .heightheight f none, _, hW, hc =>
    have h4 := le_self_pow₀ (show (1 : ℤ) ≤ 2 * A by omega) (show 4 ≠ 0 by decide)
    exact HH_same hr dbg h (hW.1.same hr hA53) (bits_noMask _) (by omega) le_rfl hc
  | .heightheight f (some m), _, hW, hc =>
    have h4 := le_self_pow₀ (show (1 : ℤ) ≤ 2 * A by omega) (show 4 ≠ 0 by decide)
    exact HH_same hr dbg h (hW.1.same hr hA53) (hW.2 m rfl) (by omega) le_rfl hc
  | .L f mode, hL, hW, hc =>
    obtain ⟨e, hp⟩ := stamp_rows (junk := junk) hroi h0 hL.2 hE
    have := L_same hr dbg h (hW.same hr hA53) hp (by rw [e]; exact hc)
    rw [e] at this
    exact this

theorem Realisation.legal_cast {K : Type} [IntCast K] {fuel : Nat} {r : Realisation Int}
    (h : r.Legal fuel periodic roi) : (r.cast K).Legal fuel periodic roi := by
  cases r <;> exact h

theorem Realisation.stat_cast {K : Type} [IntCast K] (r : Realisation Int) : (r.cast K).stat = r.stat := by
  cases r <;> rfl

theorem Realisation.load_nonneg (hA : 1 ≤ A) (r : Realisation Int) : 0 ≤ r.load roi A := by
  have : 0 ≤ A := by omega
  cases r <;> unfold Realisation.load <;> positivity

variable {P : Type} [Zero P] [One P] [Add P] [Sub P] [Neg P] [Mul P] [Div P] [NatCast P] [IntCast P] [DecidableEq P]
  [LT P] [DecidableLT P]

theorem histories_same (hr : ExactInts rnd) (hroi : roi.length ≤ 3) (h0 : 0 ∉ roi) (hA : 1 ≤ A) (hA2 : A ^ 2 ≤ 2 ^ 53)
    {variance : Bool} {junk : ℚ} {fuel : Nat} {st : Stat} (dbg : Bool) {junk' : P}
    (hcall : ∀ E : Ensemble (Fl rnd), E.shape = Nd.shape3 roi → E.pad = padWidth (Nd.shape3 roi) →
      ∀ r : Realisation (Fl rnd), r.call junk' fuel dbg E = r.call junk fuel dbg E) :
    ∀ {l : List (Realisation Int)}, (∀ r ∈ l, r.Legal fuel periodic roi ∧ r.stat = st ∧ r.Within A) →
    ∀ {c : ℤ} {E : Ensemble (Fl rnd)} {E' : Ensemble ℚ}, SameEns c E E' → Good roi periodic variance E' →
      (E'.stat = st ∨ E'.stat = .unset) → c + (l.map (Realisation.load roi A)).sum ≤ 2 ^ 53 →
      ∃ F F', forM (l.map (Realisation.cast (Fl rnd))) E (fun E r => r.call junk' fuel dbg E) = ok F ∧
        forM (l.map (Realisation.cast ℚ)) E' (fun E r => r.call junk fuel dbg E) = ok F' ∧
        SameEns (c + (l.map (Realisation.load roi A)).sum) F F' ∧ Good roi periodic variance F' ∧
        (l ≠ [] → F'.stat = st)
  | [], _, c, E, E', h, hg, _, _ => ⟨E, E', rfl, rfl, by simpa using h, hg, fun h => absurd rfl h⟩
  | r :: l, hl, c, E, E', h, hg, hst, hc => by
    obtain ⟨hL, hs, hW⟩ := hl r (by simp)
    have hpos : ∀ l : List (Realisation Int), 0 ≤ (l.map (Realisation.load roi A)).sum := by
      intro l
      refine List.sum_nonneg fun v hv => ?_
      obtain ⟨r, -, rfl⟩ := List.mem_map.1 hv
      exact r.load_nonneg hA
    have hl0 := hpos l
    rw [List.map_cons, List.sum_cons, ← add_assoc] at hc
    have hb := Realisation.same (junk := junk) hr hroi h0 hA hA2 hL hW dbg h hg (by omega)
    obtain ⟨φ, δ, hδ, -⟩ := Realisation.effect (K := ℚ) (junk := junk) (variance := variance) hroi h0
      (Realisation.legal_cast (K := ℚ) hL)
    rw [Realisation.stat_cast, hs] at hδ
    have e' := hδ dbg E' hg hst
    simp only at e'
    rw [e'] at hb
    cases e : (r.cast (Fl rnd)).call junk fuel dbg E with
    | ok E1 =>
      rw [e] at hb
      obtain ⟨F, F', k1, k2, k3, k4, k5⟩ := histories_same hr hroi h0 hA hA2 dbg hcall
        (fun r hr => hl r (List.mem_cons_of_mem _ hr)) hb
        (show Good roi periodic variance _ from
          ⟨hg.periodic, hg.variance, hg.first, hg.second, hg.norm, hg.shapeOrig, hg.shape, hg.pad⟩) (Or.inl rfl) hc
      refine ⟨F, F', ?_, ?_, ?_, k4, fun _ => ?_⟩
      · rw [List.map_cons, forM, hcall E (h.shape.trans hg.shape) (h.pad.trans hg.pad), e]; exact k1
      · rw [List.map_cons, forM, e']; exact k2
      · rw [List.map_cons, List.sum_cons, ← add_assoc]; exact k3
      · by_cases hn : l = []
        · subst hn
          simp only [List.map_nil, forM] at k2
          cases k2
          rfl
        · exact k5 hn
    | throws => rw [e] at hb; exact hb.elim
    | ub => rw [e] at hb; exact hb.elim
    | diverge => rw [e] at hb; exact hb.elim

theorem history_double (hr : ExactInts rnd) (hroi : roi.length ≤ 3) (h0 : 0 ∉ roi) (hA : 1 ≤ A) (hA2 : A ^ 2 ≤ 2 ^ 53)
    {variance : Bool} {junk : ℚ} {junk' : P} {fuel : Nat} {st : Stat} {l : List (Realisation Int)}
    (hl : ∀ r ∈ l, r.Legal fuel periodic roi ∧ r.stat = st ∧ r.Within A) (hne : l ≠ [])
    (hbig : (l.map (Realisation.load roi A)).sum ≤ 2 ^ 53) (pow05 : Fl rnd → Fl rnd) (dbg : Bool)
    (hcall : ∀ E : Ensemble (Fl rnd), E.shape = Nd.shape3 roi → E.pad = padWidth (Nd.shape3 roi) →
      ∀ r : Realisation (Fl rnd), r.call junk' fuel dbg E = r.call junk fuel dbg E) :
    ∃ E E', history dbg junk' fuel roi periodic variance (l.map (Realisation.cast (Fl rnd))) = ok E ∧
      history dbg junk fuel roi periodic variance (l.map (Realisation.cast ℚ)) = ok E' ∧
      (∀ i, (val (dataFirst E) i).val = val (dataFirst E') i ∧ (val (dataSecond E) i).val = val (dataSecond E') i ∧
        (val (dataNorm E) i).val = val (dataNorm E') i) ∧
      ∃ r r', result pow05 E = ok r ∧ result id E' = ok r' ∧ r.shape = roi ∧ r'.shape = roi ∧
        ∀ i, val r i = if st = .heightheight then pow05 ⟨rnd (val r' i)⟩ else ⟨rnd (val r' i)⟩ := by
  have hm := make_same (rnd := rnd) dbg roi periodic variance
  unfold history
  rw [make_ok dbg hroi h0] at hm
  rw [make_ok (K := ℚ) dbg hroi h0]
  cases e1 : make (Fl rnd) dbg roi periodic variance with
  | ok E0 =>
    rw [e1] at hm
    obtain ⟨E, E', k1, k2, k3, k4, k5⟩ := histories_same (junk := junk) hr hroi h0 hA hA2 dbg hcall hl hm good_fresh
      (Or.inr rfl) (by rw [zero_add]; exact hbig)
    refine ⟨E, E', ?_, ?_, fun i => ?_, ?_⟩
    · rw [ok_bind]; exact k1
    · rw [ok_bind]; exact k2
    · unfold dataFirst dataSecond dataNorm val Nd.reshape
      dsimp only
      rw [k3.shapeOrig]
      have : ∀ {c : ℤ} {a : Fl rnd} {b : ℚ}, Same c a b → a.val = b := by
        rintro c a b ⟨n, rfl, rfl, -⟩
        rfl
      exact ⟨this (k3.first.2 _), this (k3.second.2 _), this (k3.norm.2 _)⟩
    · have hres := result_same k3 pow05
      rw [result_good k4 id, k5 hne] at hres
      rw [result_good k4 id]
      cases e3 : result pow05 E with
      | ok r =>
        rw [e3] at hres
        obtain ⟨m1, m2⟩ := hres
        refine ⟨r, _, rfl, rfl, m1, rfl, fun i => ?_⟩
        unfold val
        rw [m1, m2, k5 hne]
      | throws => rw [e3] at hres; exact hres.elim
      | ub => rw [e3] at hres; exact hres.elim
      | diverge => rw [e3] at hres; exact hres.elim
  | throws => rw [e1] at hm; exact hm.elim
  | ub => rw [e1] at hm; exact hm.elim
  | diverge => rw [e1] at hm; exact hm.elim

/-- Any history of realisations of one statistic, with integer images, has in `double` the same moments and norm as
in exact arithmetic, and the exact result, rounded once (before the square root of `heightheight`). -/
theorem C73_history (hr : ExactInts rnd) (hroi : roi.length ≤ 3) (h0 : 0 ∉ roi) (hA : 1 ≤ A) (hA2 : A ^ 2 ≤ 2 ^ 53)
    {variance : Bool} {junk : ℚ} {fuel : Nat} {st : Stat} {l : List (Realisation Int)}
    (hl : ∀ r ∈ l, r.Legal fuel periodic roi ∧ r.stat = st ∧ r.Within A) (hne : l ≠ [])
    (hbig : (l.map (Realisation.load roi A)).sum ≤ 2 ^ 53) (pow05 : Fl rnd → Fl rnd) (dbg : Bool) :
    ∃ E E', history dbg junk fuel roi periodic variance (l.map (Realisation.cast (Fl rnd))) = ok E ∧
      history dbg junk fuel roi periodic variance (l.map (Realisation.cast ℚ)) = ok E' ∧
      (∀ i, (val (dataFirst E) i).val = val (dataFirst E') i ∧ (val (dataSecond E) i).val = val (dataSecond E') i ∧
        (val (dataNorm E) i).val = val (dataNorm E') i) ∧
      ∃ r r', result pow05 E = ok r ∧ result id E' = ok r' ∧ r.shape = roi ∧ r'.shape = roi ∧
        ∀ i, val r i = if st = .heightheight then pow05 ⟨rnd (val r' i)⟩ else ⟨rnd (val r' i)⟩ :=
  history_double hr hroi h0 hA hA2 hl hne hbig pow05 dbg fun _ _ _ _ => rfl

/-- Three realisations of the lineal-path function, and one of a mean. -/
example : (∀ r ∈ [Realisation.L (ofInts Int [3] [1, 0, 1]) .bresenham, .L (ofInts Int [4] [1, 1, 1, 0]) .full],
      r.Legal 10 false [3] ∧ r.stat = .L ∧ r.Within 1) ∧
    ((([Realisation.L (ofInts Int [3] [1, 0, 1]) .bresenham, .L (ofInts Int [4] [1, 1, 1, 0]) .full]).map
      (Realisation.load [3] 1)).sum ≤ 2 ^ 53) := by
  refine ⟨?_, by decide +kernel⟩
  intro r hr
  simp only [List.mem_cons, List.not_mem_nil, or_false] at hr
  have hbit : ∀ f : List Int, (∀ v ∈ f, v = 0 ∨ v = 1) → ∀ s, Within 1 (ofInts Int s f) := by
    intro f h s k
    show |f.getD k 0| ≤ 1
    rcases getD_mem (f := f) k with e | e
    · rcases h _ e with e | e <;> rw [e] <;> norm_num
    · rw [e]; norm_num
  rcases hr with rfl | rfl
  · exact ⟨⟨⟨by decide, by decide, rfl, by simp [Fits]⟩, fun h => absurd rfl h⟩, rfl, hbit _ (by decide) _⟩
  · exact ⟨⟨⟨by decide, by decide, rfl, by simp [Fits]⟩, fun _ => by decide⟩, rfl, hbit _ (by decide) _⟩

/-! ### Mean and variance -/

/-- The images, as integers and in the type of the values of an ensemble. -/
def meanCalls (K : Type) [IntCast K] (images : List (Nd Int × Option (Nd Int))) : List (Realisation K) :=
  images.map fun a => .mean (a.1.map Int.cast) a.2

/-- The values of all unmasked pixels. -/
def meanData (images : List (Nd Int × Option (Nd Int))) : List ℚ :=
  images.flatMap fun a => unmaskedValues (a.1.map Int.cast) a.2

/-- The number of pixels. -/
def pixelCount (images : List (Nd Int × Option (Nd Int))) : ℤ := (images.map fun a => (a.1.shape.prod : ℤ)).sum

/-- An image of integers of at most `A`, with or without a mask. -/
structure MeanImage (A : ℤ) (a : Nd Int × Option (Nd Int)) : Prop where
  within : Within A a.1
  shape : ∀ m, a.2 = some m → m.shape = a.1.shape
  mask : ∀ m, a.2 = some m → Bits m

theorem mean_double {images : List (Nd Int × Option (Nd Int))} (hr : ExactInts rnd) (hroi : roi.length ≤ 3)
    (h1 : ∀ n ∈ roi, n = 1) (hne : images ≠ []) (himg : ∀ a ∈ images, MeanImage A a)
    (hA : 1 ≤ A) (hbig : A ^ 2 * pixelCount images ≤ 2 ^ 53) (hA2 : A ^ 2 ≤ 2 ^ 53) {variance : Bool} (dbg : Bool)
    (junk : ℚ) (fuel : Nat) :
    ∃ (E : Ensemble (Fl rnd)) (E' : Ensemble ℚ),
      history dbg junk fuel roi periodic variance (meanCalls (Fl rnd) images) = ok E ∧
      SameEns (2 ^ 53) E E' ∧ Good roi periodic variance E' ∧ E'.stat = .mean ∧
      ∀ i, InBox roi i → E'.first.get (flat roi i).toNat = (meanData images).sum ∧
        E'.second.get (flat roi i).toNat = ((meanData images).map fun v => v ^ 2).sum ∧
        E'.norm.get (flat roi i).toNat = ((meanData images).length : ℚ) := by
  have h0 : 0 ∉ roi := fun h => absurd (h1 0 h) (by decide)
  obtain ⟨F', e1, hg, hst, e2⟩ := mean_moments (K := ℚ) (images := images.map fun a => (a.1.map Int.cast, a.2)) hroi h1
    (by simpa using hne) (by
      intro b hb m hm
      obtain ⟨a, ha, rfl⟩ := List.mem_map.1 hb
      exact ⟨(himg a ha).shape m hm, fun k _ => (himg a ha).mask m hm k⟩) periodic variance dbg
  have hm := make_same (rnd := rnd) dbg roi periodic variance
  rw [make_ok dbg hroi h0] at hm
  rw [make_ok (K := ℚ) dbg hroi h0, ok_bind] at e1
  unfold history
  cases e3 : make (Fl rnd) dbg roi periodic variance with
  | ok E0 =>
    rw [e3] at hm
    have hload : ((images.map fun a => Realisation.mean a.1 a.2).map (Realisation.load roi A)).sum =
        A ^ 2 * pixelCount images := by
      unfold pixelCount
      clear himg hne hbig e1 e2
      induction images with
      | nil => simp
      | cons a l ih =>
        rw [List.map_cons, List.map_cons, List.sum_cons, ih, List.map_cons, List.sum_cons]
        unfold Realisation.load
        ring
    obtain ⟨E, E', k1, k2, k3, k4, k5⟩ := histories_same (junk := junk) (junk' := junk) (fuel := fuel) (st := .mean) hr hroi h0 hA hA2 dbg
      (fun _ _ _ _ => rfl)
      (l := images.map fun a => Realisation.mean a.1 a.2) (by
        intro r hr
        obtain ⟨a, ha, rfl⟩ := List.mem_map.1 hr
        have h := himg a ha
        exact ⟨⟨h1, fun m hm => ⟨h.shape m hm, fun k _ => h.mask m hm k⟩⟩, rfl, h.within, fun m hm => h.mask m hm⟩)
      hm good_fresh (Or.inr rfl) (by rw [zero_add, hload]; exact hbig)
    rw [List.map_map] at k1 k2
    have hforM : ∀ (l : List (Nd Int × Option (Nd Int))) (E : Ensemble ℚ),
        forM (l.map (Realisation.cast ℚ ∘ fun a => Realisation.mean a.1 a.2)) E (fun E r => r.call junk fuel dbg E) =
        forM (l.map fun a => ((a.1.map Int.cast : Nd ℚ), a.2)) E (addMean dbg) := by
      intro l
      induction l with
      | nil => intro E; rfl
      | cons a l ih =>
        intro E
        have : ((Realisation.cast ℚ ∘ fun a => Realisation.mean a.1 a.2) a).call junk fuel dbg E =
            addMean dbg E ((a.1.map Int.cast : Nd ℚ), a.2) := by
          obtain ⟨f, m⟩ := a
          cases m <;> rfl
        rw [List.map_cons, List.map_cons, forM, forM, this]
        congr 1
        funext E
        exact ih E
    rw [hforM, e1] at k2
    cases k2
    refine ⟨E, F', ?_, k3.mono (by rw [zero_add, hload]; exact hbig), hg, hst, fun i hi => ?_⟩
    · rw [ok_bind]
      exact k1
    · have := e2 i hi
      simp only [List.flatMap_map] at this
      exact this
  | throws => rw [e3] at hm; exact hm.elim
  | ub => rw [e3] at hm; exact hm.elim
  | diverge => rw [e3] at hm; exact hm.elim

/-- After any sequence of integer images, `result` in `double` is the exact mean of the unmasked pixels, rounded
once. -/
theorem C73_mean {images : List (Nd Int × Option (Nd Int))} (hr : ExactInts rnd) (hroi : roi.length ≤ 3)
    (h1 : ∀ n ∈ roi, n = 1) (hne : meanData images ≠ []) (himg : ∀ a ∈ images, MeanImage A a)
    (hA : 1 ≤ A) (hbig : A ^ 2 * pixelCount images ≤ 2 ^ 53) (hA2 : A ^ 2 ≤ 2 ^ 53) {variance : Bool} (dbg : Bool)
    (junk : ℚ) (fuel : Nat) (pow05 : Fl rnd → Fl rnd) :
    ∃ E r, history dbg junk fuel roi periodic variance (meanCalls (Fl rnd) images) = ok E ∧
      result pow05 E = ok r ∧ r.shape = roi ∧
      ∀ i, InBox roi i → (val r i).val = rnd (arithmeticMean (meanData images)) := by
  have hne' : images ≠ [] := by rintro rfl; exact hne rfl
  obtain ⟨E, E', e1, e2, e3, e4, e5⟩ := mean_double (periodic := periodic) (variance := variance) hr hroi h1 hne' himg hA
    hbig hA2 dbg junk fuel
  have hres := result_same e2 pow05
  rw [result_good e3 id, e4] at hres
  cases e6 : result pow05 E with
  | ok r =>
    rw [e6] at hres
    obtain ⟨m1, m2⟩ := hres
    refine ⟨E, r, e1, e6, m1, fun i hi => ?_⟩
    unfold val
    rw [m1, m2, if_neg (by decide)]
    obtain ⟨a1, -, a3⟩ := e5 i hi
    have hn : ¬ (((meanData images).length : ℚ) ≤ 0) := by
      rw [not_le]
      exact_mod_cast List.length_pos_iff.2 hne
    simp only [a1, a3, norm1, if_neg hn, arithmeticMean]
    rfl
  | throws => rw [e6] at hres; exact hres.elim
  | ub => rw [e6] at hres; exact hres.elim
  | diverge => rw [e6] at hres; exact hres.elim

theorem sampleVariance_nonneg {l : List ℚ} (h : 2 ≤ l.length) : 0 ≤ sampleVariance l := by
  unfold sampleVariance
  have hn : (1 : ℚ) < (l.length : ℚ) := by exact_mod_cast (by omega : 1 < l.length)
  refine div_nonneg (List.sum_nonneg fun v hv => ?_) (by linarith)
  obtain ⟨x, -, rfl⟩ := List.mem_map.1 hv
  exact sq_nonneg _

/-- In `double`, the error of `variance` is at most `2 ^ -50` times the sum of the squares of the unmasked pixels
divided by their number minus one. -/
theorem C74_error_partial {images : List (Nd Int × Option (Nd Int))} (hroi : roi.length ≤ 3)
    (h1 : ∀ n ∈ roi, n = 1) (hne : 2 ≤ (meanData images).length) (himg : ∀ a ∈ images, MeanImage A a)
    (hA : 1 ≤ A) (hbig : A ^ 2 * pixelCount images ≤ 2 ^ 53) (hA2 : A ^ 2 ≤ 2 ^ 53) {variance : Bool} (dbg : Bool)
    (junk : ℚ) (fuel : Nat) (pow05 : Fl rnd64 → Fl rnd64) :
    ∃ E v, history dbg junk fuel roi periodic variance (meanCalls (Fl rnd64) images) = ok E ∧
      varianceResult pow05 E = ok v ∧ v.shape = roi ∧
      ∀ i, InBox roi i → |(val v i).val - sampleVariance (meanData images)| ≤
        ((meanData images).map fun x => x ^ 2).sum / ((meanData images).length - 1) / 2 ^ 50 := by
  have hne' : images ≠ [] := by
    rintro rfl
    simp [meanData] at hne
  obtain ⟨E, E', e1, e2, e3, e4, e5⟩ := mean_double (periodic := periodic) (variance := variance) rnd64_exact hroi h1
    hne' himg hA hbig hA2 dbg junk fuel
  have s1 : E.first.shape = Nd.shape3 roi := e2.first.1.trans e3.first
  have s2 : E.second.shape = Nd.shape3 roi := e2.second.1.trans e3.second
  have s3 : E.norm.shape = Nd.shape3 roi := e2.norm.1.trans e3.norm
  refine ⟨E, ⟨roi, fun k => varianceOf (E.first.get k) (E.second.get k) (E.norm.get k)⟩, e1, ?_, rfl, fun i hi => ?_⟩
  · simp [varianceResult, e2.stat, e4, s1, s2, s3, e2.shapeOrig, e3.shapeOrig, Nd.map₂, Nd.reshape]
  obtain ⟨a1, a2, a3⟩ := e5 i hi
  obtain ⟨a, p1, p2, -⟩ := e2.first.2 (flat roi i).toNat
  obtain ⟨b, q1, q2, -⟩ := e2.second.2 (flat roi i).toNat
  obtain ⟨n, r1, r2, r3⟩ := e2.norm.2 (flat roi i).toNat
  show |(varianceOf (E.first.get (flat roi i).toNat) (E.second.get (flat roi i).toNat)
    (E.norm.get (flat roi i).toNat)).val - _| ≤ _
  rw [← variance_formula hne, ← a1, ← a2, ← a3, p1, p2, q1, q2, r1, r2]
  have hn : n = ((meanData images).length : ℤ) := by
    have := r2.symm.trans a3
    exact_mod_cast this
  subst hn
  have hs : (a : ℚ) ^ 2 ≤ ((meanData images).length : ℚ) * b := by
    have hv := sampleVariance_nonneg hne
    rw [← variance_formula hne, ← a1, ← a2, ← a3, p2, q2, a3] at hv
    have hn0 : (0 : ℚ) < (meanData images).length := by exact_mod_cast (by omega : 0 < (meanData images).length)
    have hn1 : (0 : ℚ) < ((meanData images).length : ℚ) - 1 := by
      have : (1 : ℚ) < (meanData images).length := by exact_mod_cast (by omega : 1 < (meanData images).length)
      linarith
    unfold varianceOf norm1 at hv
    simp only [if_neg (not_le.2 hn0)] at hv
    have h4 := mul_nonneg hv hn1.le
    rw [div_mul_cancel₀ _ hn1.ne'] at h4
    have h5 := nonneg_of_mul_nonneg_left h4 hn0
    rw [sub_nonneg, div_pow, div_le_div_iff₀ (by positivity) hn0, pow_two ((meanData images).length : ℚ), ← mul_assoc] at h5
    have h6 := le_of_mul_le_mul_right h5 hn0
    linarith
  have := varianceOf_error (n := (meanData images).length) hne (by
    rw [abs_of_nonneg (by omega)] at r3
    exact_mod_cast r3) hs
  push_cast at this ⊢
  exact this

/-- Two images of different shapes, one with a mask, meet the hypotheses. -/
example : (∀ a ∈ [(ofInts Int [5] [3, 1, 4, 1, 5], none),
      (ofInts Int [2, 2] [9, 2, 6, 5], some (ofInts Int [2, 2] [0, 1, 0, 0]))], MeanImage 9 a) ∧
    2 ≤ (meanData [(ofInts Int [5] [3, 1, 4, 1, 5], none),
      (ofInts Int [2, 2] [9, 2, 6, 5], some (ofInts Int [2, 2] [0, 1, 0, 0]))]).length ∧
    (9 : ℤ) ^ 2 * pixelCount [(ofInts Int [5] [3, 1, 4, 1, 5], none),
      (ofInts Int [2, 2] [9, 2, 6, 5], some (ofInts Int [2, 2] [0, 1, 0, 0]))] ≤ 2 ^ 53 := by
  have hw : ∀ f : List Int, (∀ v ∈ f, |v| ≤ 9) → ∀ s, Within 9 (ofInts Int s f) := by
    intro f h s k
    show |f.getD k 0| ≤ 9
    rcases getD_mem (f := f) k with e | e
    · exact h _ e
    · rw [e]; norm_num
  refine ⟨?_, by decide +kernel, by decide +kernel⟩
  intro a ha
  simp only [List.mem_cons, List.not_mem_nil, or_false] at ha
  rcases ha with rfl | rfl
  · exact ⟨hw _ (by decide) _, by simp, by simp⟩
  · refine ⟨hw _ (by decide) _, ?_, ?_⟩
    · rintro m ⟨⟩
      rfl
    · rintro m ⟨⟩
      exact (BitImage.bits (shape := [2, 2]) ⟨rfl, by decide⟩)

theorem meanData_int {images : List (Nd Int × Option (Nd Int))} (himg : ∀ a ∈ images, MeanImage A a) :
    ∀ x ∈ meanData images, ∃ c : ℤ, x = c ∧ |c| ≤ A := by
  intro x hx
  obtain ⟨a, ha, hx⟩ := List.mem_flatMap.1 hx
  have hw := (himg a ha).within
  obtain ⟨f, m⟩ := a
  cases m with
  | none =>
    obtain ⟨y, -, rfl⟩ := List.mem_map.1 hx
    exact ⟨_, rfl, hw _⟩
  | some m =>
    obtain ⟨y, -, rfl⟩ := List.mem_map.1 hx
    exact ⟨_, rfl, hw _⟩

/-- `variance` in `double`, from the exact moments of the unmasked pixels. -/
theorem variance_double {images : List (Nd Int × Option (Nd Int))} (hroi : roi.length ≤ 3)
    (h1 : ∀ n ∈ roi, n = 1) (hne : 2 ≤ (meanData images).length) (himg : ∀ a ∈ images, MeanImage A a)
    (hA : 1 ≤ A) (hbig : A ^ 2 * pixelCount images ≤ 2 ^ 53) (hA2 : A ^ 2 ≤ 2 ^ 53) {variance : Bool} (dbg : Bool)
    (junk : ℚ) (fuel : Nat) (pow05 : Fl rnd64 → Fl rnd64) :
    ∃ E v, history dbg junk fuel roi periodic variance (meanCalls (Fl rnd64) images) = ok E ∧
      varianceResult pow05 E = ok v ∧ v.shape = roi ∧
      ∀ i, InBox roi i → ∃ a b : ℤ, (a : ℚ) = (meanData images).sum ∧
        (b : ℚ) = ((meanData images).map fun x => x ^ 2).sum ∧ |a| ≤ 2 ^ 53 ∧ |b| ≤ 2 ^ 53 ∧
        (meanData images).length ≤ 2 ^ 53 ∧
        val v i = varianceOf (⟨a⟩ : Fl rnd64) ⟨b⟩ ⟨((meanData images).length : ℚ)⟩ := by
  have hne' : images ≠ [] := by
    rintro rfl
    simp [meanData] at hne
  obtain ⟨E, E', e1, e2, e3, e4, e5⟩ := mean_double (periodic := periodic) (variance := variance) rnd64_exact hroi h1
    hne' himg hA hbig hA2 dbg junk fuel
  have s1 : E.first.shape = Nd.shape3 roi := e2.first.1.trans e3.first
  have s2 : E.second.shape = Nd.shape3 roi := e2.second.1.trans e3.second
  have s3 : E.norm.shape = Nd.shape3 roi := e2.norm.1.trans e3.norm
  refine ⟨E, ⟨roi, fun k => varianceOf (E.first.get k) (E.second.get k) (E.norm.get k)⟩, e1, ?_, rfl, fun i hi => ?_⟩
  · simp [varianceResult, e2.stat, e4, s1, s2, s3, e2.shapeOrig, e3.shapeOrig, Nd.map₂, Nd.reshape]
  obtain ⟨a1, a2, a3⟩ := e5 i hi
  obtain ⟨a, p1, p2, p3⟩ := e2.first.2 (flat roi i).toNat
  obtain ⟨b, q1, q2, q3⟩ := e2.second.2 (flat roi i).toNat
  obtain ⟨n, r1, r2, r3⟩ := e2.norm.2 (flat roi i).toNat
  have hn : n = ((meanData images).length : ℤ) := by
    have := r2.symm.trans a3
    exact_mod_cast this
  subst hn
  refine ⟨a, b, by rw [← p2, a1], by rw [← q2, a2], p3, q3, ?_, ?_⟩
  · rw [abs_of_nonneg (by omega)] at r3
    exact_mod_cast r3
  · show varianceOf (E.first.get (flat roi i).toNat) (E.second.get (flat roi i).toNat)
      (E.norm.get (flat roi i).toNat) = _
    rw [p1, q1, r1]
    rfl

/-- If all unmasked pixels are equal, `variance` in `double` is zero. -/
theorem C74_constant {images : List (Nd Int × Option (Nd Int))} (hroi : roi.length ≤ 3)
    (h1 : ∀ n ∈ roi, n = 1) (hne : 2 ≤ (meanData images).length) (himg : ∀ a ∈ images, MeanImage A a)
    (hA : 1 ≤ A) (hbig : A ^ 2 * pixelCount images ≤ 2 ^ 53) (hA2 : A ^ 2 ≤ 2 ^ 53) {variance : Bool} (dbg : Bool)
    (junk : ℚ) (fuel : Nat) (pow05 : Fl rnd64 → Fl rnd64) {c : ℤ} (hc : |c| ≤ A) (hall : ∀ x ∈ meanData images, x = c) :
    ∃ E v, history dbg junk fuel roi periodic variance (meanCalls (Fl rnd64) images) = ok E ∧
      varianceResult pow05 E = ok v ∧ v.shape = roi ∧ ∀ i, InBox roi i → (val v i).val = 0 := by
  obtain ⟨E, v, e1, e2, e3, e4⟩ := variance_double (periodic := periodic) (variance := variance) hroi h1 hne himg hA hbig
    hA2 dbg junk fuel pow05
  refine ⟨E, v, e1, e2, e3, fun i hi => ?_⟩
  obtain ⟨a, b, ha, hb, -, -, hn, hv⟩ := e4 i hi
  have hrep : meanData images = List.replicate (meanData images).length (c : ℚ) :=
    List.eq_replicate_of_mem hall
  rw [hv]
  generalize (meanData images).length = n at *
  rw [hrep] at ha hb
  rw [List.sum_replicate, nsmul_eq_mul] at ha
  rw [List.map_replicate, List.sum_replicate, nsmul_eq_mul] at hb
  have hn0 : (0 : ℚ) < n := by exact_mod_cast (by omega : 0 < n)
  have n1 : norm1 (⟨n⟩ : Fl rnd64) = ⟨n⟩ := if_neg fun h => absurd (show (n : ℚ) ≤ 0 from h) (not_le.2 hn0)
  have hA3 : A ≤ 2 ^ 53 := by nlinarith
  have hc2 : |c ^ 2| ≤ 2 ^ 53 := by
    rw [abs_pow]
    exact (pow_le_pow_left₀ (abs_nonneg c) hc 2).trans hA2
  have r1 : rnd64 (c : ℚ) = c := rnd64_int (hc.trans hA3)
  have r2 : rnd64 ((c : ℚ) ^ 2) = (c : ℚ) ^ 2 := by exact_mod_cast rnd64_int hc2
  have r0 : rnd64 0 = 0 := by exact_mod_cast rnd64_int (n := 0) (by norm_num)
  unfold varianceOf
  simp only [n1]
  show rnd64 (rnd64 (rnd64 (rnd64 ((b : ℚ) / n) - rnd64 (rnd64 ((a : ℚ) / n) ^ 2)) * n) / rnd64 ((n : ℚ) - 1)) = 0
  rw [ha, hb, mul_div_cancel_left₀ _ hn0.ne', mul_div_cancel_left₀ _ hn0.ne', r1, r2, sub_self, r0, zero_mul, r0,
    zero_div, r0]

/-- For binary images, `variance` in `double` is not negative. -/
theorem C74_binary {images : List (Nd Int × Option (Nd Int))} (hroi : roi.length ≤ 3)
    (h1 : ∀ n ∈ roi, n = 1) (hne : 2 ≤ (meanData images).length) (himg : ∀ a ∈ images, MeanImage 1 a)
    (hbig : pixelCount images ≤ 2 ^ 53) {variance : Bool} (dbg : Bool)
    (junk : ℚ) (fuel : Nat) (pow05 : Fl rnd64 → Fl rnd64) (hall : ∀ x ∈ meanData images, x = 0 ∨ x = 1) :
    ∃ E v, history dbg junk fuel roi periodic variance (meanCalls (Fl rnd64) images) = ok E ∧
      varianceResult pow05 E = ok v ∧ v.shape = roi ∧ ∀ i, InBox roi i → 0 ≤ (val v i).val := by
  obtain ⟨E, v, e1, e2, e3, e4⟩ := variance_double (periodic := periodic) (variance := variance) hroi h1 hne himg (le_refl 1)
    (by rw [one_pow, one_mul]; exact hbig) (by norm_num) dbg junk fuel pow05
  refine ⟨E, v, e1, e2, e3, fun i hi => ?_⟩
  obtain ⟨a, b, ha, hb, -, -, hn, hv⟩ := e4 i hi
  have hsq : ((meanData images).map fun x => x ^ 2) = meanData images := by
    conv_rhs => rw [← List.map_id (meanData images)]
    refine List.map_congr_left fun x hx => ?_
    rcases hall x hx with rfl | rfl <;> norm_num
  have h0 : 0 ≤ (meanData images).sum := List.sum_nonneg fun x hx => by rcases hall x hx with rfl | rfl <;> norm_num
  have hle : (meanData images).sum ≤ (meanData images).length := by
    have := List.sum_le_card_nsmul (meanData images) (1 : ℚ) fun x hx => by
      rcases hall x hx with rfl | rfl <;> norm_num
    simpa using this
  rw [hsq, ← ha] at hb
  rw [← ha] at h0 hle
  rw [hv, hb]
  generalize (meanData images).length = n at *
  have hn0 : (0 : ℚ) < n := by exact_mod_cast (by omega : 0 < n)
  have n1 : norm1 (⟨n⟩ : Fl rnd64) = ⟨n⟩ := if_neg fun h => absurd (show (n : ℚ) ≤ 0 from h) (not_le.2 hn0)
  have hm : (0 : ℚ) ≤ n - 1 := by
    have : (2 : ℚ) ≤ n := by exact_mod_cast hne
    linarith
  unfold varianceOf
  simp only [n1]
  show 0 ≤ rnd64 (rnd64 (rnd64 (rnd64 ((a : ℚ) / n) - rnd64 (rnd64 ((a : ℚ) / n) ^ 2)) * n) / rnd64 ((n : ℚ) - 1))
  have p0 : 0 ≤ rnd64 ((a : ℚ) / n) := rnd64_nonneg (div_nonneg h0 hn0.le)
  have p1 : rnd64 ((a : ℚ) / n) ≤ 1 := rnd64_le_one (div_nonneg h0 hn0.le) ((div_le_one hn0).2 hle)
  have p2 : rnd64 (rnd64 ((a : ℚ) / n) ^ 2) ≤ rnd64 (rnd64 ((a : ℚ) / n)) := rnd64_mono (sq_nonneg _) (by nlinarith)
  rw [rnd64_idem (div_nonneg h0 hn0.le)] at p2
  exact rnd64_nonneg (div_nonneg (rnd64_nonneg (mul_nonneg (rnd64_nonneg (sub_nonneg.2 p2)) hn0.le)) (rnd64_nonneg hm))

/-- If the number of unmasked pixels times the sum of their squares is at most `2 ^ 50`, `variance` in `double` is not
negative. *Missing:* larger sums, see `C74_violated`. -/
theorem C74_nonneg_partial {images : List (Nd Int × Option (Nd Int))} (hroi : roi.length ≤ 3)
    (h1 : ∀ n ∈ roi, n = 1) (hne : 2 ≤ (meanData images).length) (himg : ∀ a ∈ images, MeanImage A a)
    (hA : 1 ≤ A) (hbig : A ^ 2 * pixelCount images ≤ 2 ^ 53) (hA2 : A ^ 2 ≤ 2 ^ 53) {variance : Bool} (dbg : Bool)
    (junk : ℚ) (fuel : Nat) (pow05 : Fl rnd64 → Fl rnd64)
    (hsmall : ((meanData images).length : ℚ) * ((meanData images).map fun x => x ^ 2).sum ≤ 2 ^ 50) :
    ∃ E v, history dbg junk fuel roi periodic variance (meanCalls (Fl rnd64) images) = ok E ∧
      varianceResult pow05 E = ok v ∧ v.shape = roi ∧ ∀ i, InBox roi i → 0 ≤ (val v i).val := by
  by_cases hzero : sampleVariance (meanData images) = 0
  · have hn1 : (0 : ℚ) < (meanData images).length - 1 := by
      have : (2 : ℚ) ≤ (meanData images).length := by exact_mod_cast hne
      linarith
    have hall : ∀ x ∈ meanData images, x = arithmeticMean (meanData images) := by
      intro x hx
      unfold sampleVariance at hzero
      rw [div_eq_zero_iff, or_iff_left hn1.ne'] at hzero
      have hle := List.single_le_sum (l := (meanData images).map fun v => (v - arithmeticMean (meanData images)) ^ 2)
        (by intro y hy; obtain ⟨z, -, rfl⟩ := List.mem_map.1 hy; exact sq_nonneg _) _ (List.mem_map_of_mem hx)
      rw [hzero] at hle
      have := pow_eq_zero_iff (two_ne_zero) |>.1 (le_antisymm hle (sq_nonneg _))
      linarith
    obtain ⟨y, hy⟩ := List.exists_mem_of_length_pos (by omega : 0 < (meanData images).length)
    obtain ⟨c, hc, hcA⟩ := meanData_int himg y hy
    obtain ⟨E, v, e1, e2, e3, e4⟩ := C74_constant (periodic := periodic) (variance := variance) hroi h1 hne himg hA hbig hA2
      dbg junk fuel pow05 hcA fun x hx => by rw [hall x hx, ← hall y hy, hc]
    exact ⟨E, v, e1, e2, e3, fun i hi => (e4 i hi).ge⟩
  obtain ⟨E, v, e1, e2, e3, e4⟩ := variance_double (periodic := periodic) (variance := variance) hroi h1 hne himg hA hbig
    hA2 dbg junk fuel pow05
  refine ⟨E, v, e1, e2, e3, fun i hi => ?_⟩
  obtain ⟨a, b, ha, hb, h3, h4, hn, hv⟩ := e4 i hi
  rw [hv]
  have hs := lt_of_le_of_ne (sampleVariance_nonneg hne) (Ne.symm hzero)
  rw [← variance_formula hne, ← ha, ← hb] at hs
  rw [← hb] at hsmall
  clear hzero e4
  generalize (meanData images).length = n at *
  have hn0 : (0 : ℚ) < n := by exact_mod_cast (by omega : 0 < n)
  have hn1 : (0 : ℚ) < (n : ℚ) - 1 := by
    have : (2 : ℚ) ≤ n := by exact_mod_cast hne
    linarith
  have n1 : norm1 (n : ℚ) = n := if_neg (not_le.2 hn0)
  unfold varianceOf at hs
  simp only [n1] at hs
  have hlt : (a : ℚ) ^ 2 < n * b := by
    have h5 := mul_pos hs hn1
    rw [div_mul_cancel₀ _ hn1.ne'] at h5
    have h6 := mul_pos h5 hn0
    have : ((b : ℚ) / n - (a / n) ^ 2) * n * n = n * b - a ^ 2 := by field_simp
    rw [this] at h6
    linarith
  have herr := varianceOf_error (a := a) (b := b) hne hn hlt.le
  have hstep : (a : ℚ) ^ 2 + 1 ≤ n * b := by exact_mod_cast hlt
  have hval : varianceOf (a : ℚ) b n = (n * b - a ^ 2) / (n * (n - 1)) := by
    unfold varianceOf
    simp only [n1]
    field_simp
  have hge : (b : ℚ) / (n - 1) / 2 ^ 50 ≤ varianceOf (a : ℚ) b n := by
    rw [hval, div_div, div_le_div_iff₀ (by positivity) (by positivity)]
    have k1 : (n : ℚ) * b ≤ (n * b - a ^ 2) * 2 ^ 50 := by nlinarith
    have := mul_le_mul_of_nonneg_right k1 hn1.le
    nlinarith
  have := (abs_le.1 herr).1
  linarith

/-- A binary image, a constant image with a mask, and a grey-scale image meet the hypotheses. -/
example : (∀ x ∈ meanData [(ofInts Int [5] [0, 1, 1, 0, 1], none)], x = 0 ∨ x = 1) ∧
    (∀ x ∈ meanData [(ofInts Int [5] [7, 7, 2, 7, 7], some (ofInts Int [5] [0, 0, 1, 0, 0]))], x = (7 : ℤ)) ∧
    ((meanData [(ofInts Int [4] [255, 254, 255, 3], none)]).length : ℚ) *
      ((meanData [(ofInts Int [4] [255, 254, 255, 3], none)]).map fun x => x ^ 2).sum ≤ 2 ^ 50 := by
  decide +kernel

/-- The variance of five pixels, computed in `double`, is negative. -/
theorem C74_violated : ∃ E v,
    history false 0 0 [1] true true (meanCalls (Fl rnd64)
      [(ofInts Int [5] [35468881, 35468881, 35468881, 35468881, 35468882], none)]) = ok E ∧
    varianceResult id E = ok v ∧ (val v [0]).val = -5 / 16 ∧
    sampleVariance (meanData [(ofInts Int [5] [35468881, 35468881, 35468881, 35468881, 35468882], none)]) = 1 / 5 := by
  refine ⟨_, _, rfl, rfl, ?_, ?_⟩ <;> decide +kernel

end Verif.Props
