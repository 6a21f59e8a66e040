import Verif.Model.Clusters32
import Verif.Props.Kernel
import Mathlib.Data.Int.Interval

/-! # The labels of `clusters` are of type `int` (C127) -/

namespace Verif.Props

open Verif Outcome Spec Cluster

theorem narrow_fits {l : Int} (h : 0 ≤ l) : narrow l = l ↔ l < 2 ^ 31 := by
  unfold narrow
  omega

theorem narrow_inj {l m : Int} (hl : 0 ≤ l) (hl' : l < 2 ^ 32) (hm : 0 ≤ m) (hm' : m < 2 ^ 32) :
    narrow l = narrow m ↔ l = m := by
  unfold narrow
  omega

theorem getD_map_narrow (L : List Int) (p : Nat) : (L.map narrow).getD p 0 = narrow (L.getD p 0) := by
  rw [List.getD_eq_getElem?_getD, List.getD_eq_getElem?_getD, List.getElem?_map]
  cases L[p]? <;> rfl

/-- Labels are not negative, and at most the number of clusters. -/
theorem label_nonneg (dbg periodic : Bool) {shape : List Nat} (hn : 1 ≤ shape.length) (hn' : shape.length ≤ 3)
    (hsmall : shape.prod < 2 ^ 62) {f labels : List Int} (hf : f.length = shape.prod)
    (h : clusters dbg shape f periodic = ok labels) :
    labels.length = shape.prod ∧ ∃ k : Nat, k ≤ shape.prod ∧ (∀ p, 0 ≤ labels.getD p 0 ∧ labels.getD p 0 ≤ k) ∧
      ∀ l : Int, 1 ≤ l → l ≤ k → ∃ p < shape.prod, labels.getD p 0 = l := by
  obtain ⟨L, e, hl, -, -, ⟨k, hk⟩, -⟩ := C03_clusters dbg periodic hn hn' hsmall hf
  rw [h] at e
  cases e
  refine ⟨hl, k, ?_, fun p => ?_, fun l h1 h2 => ((hk l).1 ⟨h1, h2⟩).2⟩
  · have : (Finset.Icc (1 : Int) k) ⊆ (Finset.range shape.prod).image fun p => labels.getD p 0 := by
      intro l hl
      obtain ⟨-, p, hp, e⟩ := (hk l).1 (Finset.mem_Icc.1 hl)
      exact Finset.mem_image.2 ⟨p, Finset.mem_range.2 hp, e⟩
    have := (Finset.card_le_card this).trans Finset.card_image_le
    simpa using this
  · by_cases hp : p < shape.prod
    · by_cases h0 : labels.getD p 0 = 0
      · omega
      · have := (hk _).2 ⟨h0, p, hp, rfl⟩
        omega
    · rw [getD_of_ge (by omega)]
      omega

/-- **C127**: with fewer than `2 ^ 31` pixels the conversion to `int` changes no label. -/
theorem C127_exact (dbg periodic : Bool) {shape : List Nat} (hn : 1 ≤ shape.length) (hn' : shape.length ≤ 3)
    (hsmall : shape.prod < 2 ^ 31) {f : List Int} (hf : f.length = shape.prod) :
    clusters32 dbg shape f periodic = clusters dbg shape f periodic := by
  obtain ⟨labels, h, -⟩ := C03_clusters dbg periodic hn hn' (by omega) hf
  obtain ⟨hl, k, hk, hb, -⟩ := label_nonneg dbg periodic hn hn' (by omega) hf h
  unfold clusters32
  rw [h]
  refine congrArg ok (List.ext_getElem (by simp) fun p h1 h2 => ?_)
  have := hb p
  rw [List.getElem_map]
  have e : labels.getD p 0 = labels[p] := by simp [List.getD_eq_getElem?_getD, h2]
  rw [e] at this
  exact (narrow_fits this.1).2 (by omega)

/-- **C127**: for any image (up to `2 ^ 62` pixels): the conversion changes no label exactly if there are fewer than
`2 ^ 31` clusters (their labels are `1` to `k`). Up to `2 ^ 32 - 1` clusters the label still tells the background and the clusters apart. -/
theorem C127_iff (dbg periodic : Bool) {shape : List Nat} (hn : 1 ≤ shape.length) (hn' : shape.length ≤ 3)
    (hsmall : shape.prod < 2 ^ 62) {f : List Int} (hf : f.length = shape.prod) :
    ∃ (labels labels32 : List Int) (k : Nat), clusters dbg shape f periodic = ok labels ∧
      clusters32 dbg shape f periodic = ok labels32 ∧ labels32.length = shape.prod ∧
      (∀ l : Int, 1 ≤ l ∧ l ≤ k ↔ l ≠ 0 ∧ ∃ p < shape.prod, labels.getD p 0 = l) ∧
      (labels32 = labels ↔ k < 2 ^ 31) ∧
      (k < 2 ^ 32 →
        (∀ p < shape.prod, labels32.getD p 0 = 0 ↔ f.getD p 0 = 0) ∧
        (∀ p < shape.prod, ∀ q < shape.prod, f.getD p 0 ≠ 0 → f.getD q 0 ≠ 0 →
          (labels32.getD p 0 = labels32.getD q 0 ↔
            Joined (FaceAdj periodic shape) (fun r => f.getD r 0 ≠ 0) p q))) ∧
      (2 ^ 32 ≤ k → ∃ p < shape.prod, f.getD p 0 ≠ 0 ∧ labels32.getD p 0 = 0) := by
  obtain ⟨labels, h, hlen, hb, hc, ⟨k, hk⟩, -⟩ := C03_clusters dbg periodic hn hn' hsmall hf
  have range : ∀ p, 0 ≤ labels.getD p 0 ∧ labels.getD p 0 ≤ k := by
    intro p
    by_cases hp : p < shape.prod
    · by_cases h0 : labels.getD p 0 = 0
      · omega
      · have := (hk _).2 ⟨h0, p, hp, rfl⟩
        omega
    · rw [getD_of_ge (by omega)]
      omega
  refine ⟨labels, labels.map narrow, k, h, ?_, by simpa using hlen, hk, ⟨fun e => ?_, fun hlt => ?_⟩, fun hlt => ⟨fun p hp => ?_, fun p hp q hq h1 h2 => ?_⟩,
    fun hge => ?_⟩
  · unfold clusters32
    rw [h]
    rfl
  · by_contra hge
    obtain ⟨-, p, hp, ep⟩ := (hk k).1 ⟨by omega, le_refl _⟩
    have e' := getD_map_narrow labels p
    rw [e, ep] at e'
    have := (narrow_fits (l := k) (by omega)).1 e'.symm
    omega
  · refine List.ext_getElem (by simp) fun p h1 h2 => ?_
    have := range p
    rw [List.getElem_map]
    have e : labels.getD p 0 = labels[p] := by simp [List.getD_eq_getElem?_getD, h2]
    rw [e] at this
    exact (narrow_fits this.1).2 (by omega)
  · rw [getD_map_narrow, ← hb p hp]
    have := range p
    have := narrow_inj (l := labels.getD p 0) (m := 0) (by omega) (by omega) (by omega) (by omega)
    rw [← this]
    rfl
  · rw [getD_map_narrow, getD_map_narrow, ← hc p hp q hq h1 h2]
    have := range p
    have := range q
    exact narrow_inj (by omega) (by omega) (by omega) (by omega)
  · obtain ⟨-, p, hp, ep⟩ := (hk (2 ^ 32)).1 ⟨by omega, by exact_mod_cast hge⟩
    refine ⟨p, hp, ?_, ?_⟩
    · rw [ne_eq, ← hb p hp, ep]
      decide
    · rw [getD_map_narrow, ep]
      decide

/-- An image of `2 * n` pixels, of which every second is background. -/
def comb (n : Nat) : List Int := (List.range (2 * n)).map fun i => if i % 2 = 0 then 1 else 0

theorem comb_get (n : Nat) {p : Nat} (hp : p < 2 * n) : (comb n).getD p 0 = if p % 2 = 0 then 1 else 0 := by
  unfold comb
  simp [List.getD_eq_getElem?_getD, hp]

/-- In that image every pixel that is not background is a cluster of its own. -/
theorem comb_joined (n : Nat) {p q : Nat}
    (h : Joined (FaceAdj false [2 * n]) (fun r => (comb n).getD r 0 ≠ 0) p q) : p = q := by
  induction h with
  | refl => rfl
  | @step q r hj ha hr ih =>
    subst ih
    exfalso
    obtain ⟨x, y, d, hd, h1, hx, hy, hs, ex, ey⟩ := ha
    have hp : (comb n).getD p 0 ≠ 0 := by
      cases hj with
      | refl h => exact h
      | step _ _ h => exact h
    obtain ⟨e, rfl⟩ := List.length_eq_one_iff.1 hd
    rcases hx with _ | ⟨ha, _ | _⟩
    rcases hy with _ | ⟨hb, _ | _⟩
    simp [Shifted, flat] at hs h1 ex ey
    rw [comb_get _ (by omega)] at hp hr
    have hp : p % 2 = 0 := by by_contra h; simp [h] at hp
    have hr : r % 2 = 0 := by by_contra h; simp [h] at hr
    omega

/-- **C127**: an image of `2 ^ 33` pixels, of which every second is background, has a pixel that is not background, but whose
label is that of the background. -/
theorem C127_violated (dbg : Bool) :
    ∃ labels, clusters32 dbg [2 ^ 33] (comb (2 ^ 32)) false = ok labels ∧
      ∃ p < 2 ^ 33, (comb (2 ^ 32)).getD p 0 ≠ 0 ∧ labels.getD p 0 = 0 := by
  have len : (comb (2 ^ 32)).length = [2 ^ 33].prod := by
    unfold comb
    rw [List.length_map, List.length_range]
    rfl
  obtain ⟨L, L32, k, h, h32, -, hk, -, -, hge⟩ := C127_iff dbg false (shape := [2 ^ 33]) (by decide) (by decide)
    (by decide) len
  refine ⟨L32, h32, ?_⟩
  have := hge ?_
  · simpa using this
  obtain ⟨L', h', -, hb, hc, -⟩ := C03_clusters dbg false (shape := [2 ^ 33]) (by decide) (by decide) (by decide) len
  rw [h] at h'
  cases h'
  have sub : (Finset.range (2 ^ 32)).image (fun i => L.getD (2 * i) 0) ⊆ Finset.Icc (1 : Int) k := by
    intro l hl
    obtain ⟨i, hi, rfl⟩ := Finset.mem_image.1 hl
    have hi := Finset.mem_range.1 hi
    have hp : 2 * i < [2 ^ 33].prod := by simp; omega
    refine Finset.mem_Icc.2 ((hk _).2 ⟨?_, 2 * i, hp, rfl⟩)
    rw [ne_eq, hb _ hp, comb_get _ (by omega)]
    simp
  have card : ((Finset.range (2 ^ 32)).image (fun i => L.getD (2 * i) 0)).card = 2 ^ 32 := by
    rw [Finset.card_image_of_injOn, Finset.card_range]
    intro i hi j hj e
    have hi := Finset.mem_range.1 hi
    have hj := Finset.mem_range.1 hj
    have hp : 2 * i < [2 ^ 33].prod := by simp; omega
    have hq : 2 * j < [2 ^ 33].prod := by simp; omega
    have := (hc _ hp _ hq (by rw [comb_get _ (by omega)]; simp) (by rw [comb_get _ (by omega)]; simp)).1 e
    have := comb_joined (2 ^ 32) this
    omega
  have := Finset.card_le_card sub
  rw [card] at this
  simpa using this

/-- An image of the size required, with three clusters. -/
example : [1, 0, 1, 0, 1, 0].length = [2, 3].prod ∧ [2, 3].prod < 2 ^ 31 ∧
    (clusters32 true [2, 3] [7, 0, -2, 0, 5, 0] false).get? = some [1, 0, 2, 0, 3, 0] := by
  refine ⟨by decide, by decide, by decide +kernel⟩

end Verif.Props
