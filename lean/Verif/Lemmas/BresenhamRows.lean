import Verif.Lemmas.Bresenham
import Mathlib.Data.List.Chain

/-!
# The rows of a Bresenham path
-/

namespace Verif.Path

open Verif Outcome Spec

/-- Row `k`. -/
def brow (xa xb : List Int) (k : Nat) : List Int :=
  (List.range xa.length).map (at_ xa xb (chebyshev xa xb) k)

theorem brow_length (xa xb : List Int) (k : Nat) : (brow xa xb k).length = xa.length := by simp [brow]

theorem brow_getD {xa xb : List Int} {k i : Nat} (hi : i < xa.length) :
    (brow xa xb k).getD i 0 = at_ xa xb (chebyshev xa xb) k i := by
  simp [brow, List.getD, hi]

theorem delta_le {xa xb : List Int} (hl : xa.length = xb.length) {i : Nat} (hi : i < xa.length) :
    |xb.getD i 0 - xa.getD i 0| ≤ (chebyshev xa xb : Int) := by
  have : (xb.getD i 0 - xa.getD i 0).natAbs ≤ chebyshev xa xb :=
    foldr_max_ge ((mem_delta hl).2 ⟨i, hi, rfl⟩)
  rw [Int.abs_eq_natAbs]
  omega

theorem chebyshev_pos {xa xb : List Int} (hl : xa.length = xb.length) (hne : xa ≠ xb) :
    0 < chebyshev xa xb := by
  by_contra h0
  apply hne
  apply List.ext_getElem hl
  intro i h1 h2
  have := delta_le hl h1
  simp [List.getD, h1, h2] at this
  rw [abs_le] at this
  omega

theorem yk_mono {m n k : Int} (hn : 0 < n) (h0 : 0 ≤ m) (hm : m ≤ n) : yk m n k ≤ yk m n (k + 1) := by
  rw [yk_succ hn h0 hm]; split <;> omega

theorem yk_le {m n : Int} (hn : 0 < n) (h0 : 0 ≤ m) (hm : m ≤ n) : ∀ (r k : Nat), (k : Int) + r = n →
    yk m n k ≤ m
  | 0, k, h => by
    have : (k : Int) = n := by omega
    rw [this, yk_full hn]
  | r + 1, k, h => by
    have h1 := yk_le hn h0 hm r (k + 1) (by omega)
    have h2 := yk_mono (k := k) hn h0 hm
    push_cast at h1
    omega

theorem yk_nonneg {m n : Int} (hn : 0 < n) (h0 : 0 ≤ m) (k : Nat) : 0 ≤ yk m n k := by
  unfold yk
  apply Int.ediv_nonneg
  · have : 0 ≤ 2 * m * (k : Int) := by positivity
    omega
  · omega

theorem brow_zero {xa xb : List Int} (hn : 0 < chebyshev xa xb) : brow xa xb 0 = xa := by
  apply List.ext_getElem (brow_length _ _ _)
  intro i h1 h2
  simp [brow, at_, yk_zero (show (0 : Int) < chebyshev xa xb by omega), h2]

theorem brow_last {xa xb : List Int} (hl : xa.length = xb.length) (hn : 0 < chebyshev xa xb) :
    brow xa xb (chebyshev xa xb) = xb := by
  apply List.ext_getElem (by rw [brow_length, hl])
  intro i h1 h2
  have h3 : i < xa.length := by omega
  simp only [brow, List.getElem_map, List.getElem_range, at_]
  rw [yk_full (show (0 : Int) < chebyshev xa xb by omega), Int.sign_mul_abs]
  simp [List.getD, h2, h3]

theorem brow_inSpan {xa xb : List Int} (hl : xa.length = xb.length) (hn : 0 < chebyshev xa xb)
    {k : Nat} (hk : k ≤ chebyshev xa xb) : InSpan xa xb (brow xa xb k) := by
  refine ⟨brow_length _ _ _, fun i hi => ?_⟩
  rw [brow_getD hi]
  unfold at_ Between
  have hn' : (0 : Int) < chebyshev xa xb := by omega
  have h1 := yk_nonneg hn' (abs_nonneg (xb.getD i 0 - xa.getD i 0)) k
  have h2 := yk_le hn' (abs_nonneg (xb.getD i 0 - xa.getD i 0)) (delta_le hl hi)
    (chebyshev xa xb - k) k (by omega)
  rcases lt_trichotomy (xb.getD i 0 - xa.getD i 0) 0 with h3 | h3 | h3
  · rw [Int.sign_eq_neg_one_of_neg h3]
    rw [abs_of_neg h3] at h1 h2 ⊢
    omega
  · rw [h3]; simp
  · rw [Int.sign_eq_one_of_pos h3]
    rw [abs_of_pos h3] at h1 h2 ⊢
    omega

theorem brow_step {xa xb : List Int} (hl : xa.length = xb.length) (hn : 0 < chebyshev xa xb)
    {k : Nat} (hk : k < chebyshev xa xb) {i : Nat} (hi : i < xa.length) :
    TowardsOrStay (xb.getD i 0) ((brow xa xb k).getD i 0) ((brow xa xb (k + 1)).getD i 0) ∧
    (|xb.getD i 0 - xa.getD i 0| = chebyshev xa xb →
      (brow xa xb (k + 1)).getD i 0 = (brow xa xb k).getD i 0 + (xb.getD i 0 - xa.getD i 0).sign) := by
  rw [brow_getD hi, brow_getD hi]
  unfold at_ TowardsOrStay
  have hn' : (0 : Int) < chebyshev xa xb := by omega
  have h2 := yk_le hn' (abs_nonneg (xb.getD i 0 - xa.getD i 0)) (delta_le hl hi)
    (chebyshev xa xb - (k + 1)) (k + 1) (by omega)
  have h4 := yk_succ (k := k) hn' (abs_nonneg (xb.getD i 0 - xa.getD i 0)) (delta_le hl hi)
  constructor
  · push_cast at h2 ⊢
    rcases lt_trichotomy (xb.getD i 0 - xa.getD i 0) 0 with h3 | h3 | h3
    · rw [Int.sign_eq_neg_one_of_neg h3]
      rw [abs_of_neg h3] at h2 h4 ⊢
      split at h4 <;> omega
    · rw [h3]; simp
    · rw [Int.sign_eq_one_of_pos h3]
      rw [abs_of_pos h3] at h2 h4 ⊢
      split at h4 <;> omega
  · intro he
    rw [he, yk_dom hn', yk_dom hn']
    push_cast
    ring

theorem brow_rounded {xa xb : List Int} (hn : 0 < chebyshev xa xb) (k : Nat) {i : Nat}
    (hi : i < xa.length) :
    Rounded (xa.getD i 0) (xb.getD i 0) (chebyshev xa xb) k ((brow xa xb k).getD i 0) := by
  rw [brow_getD hi]
  unfold at_ Rounded
  have hn' : (0 : Int) < chebyshev xa xb := by omega
  have h1 := yk_nonneg hn' (abs_nonneg (xb.getD i 0 - xa.getD i 0)) k
  obtain ⟨h5, h6⟩ := yk_bounds (m := |xb.getD i 0 - xa.getD i 0|) (k := k) hn'
  rcases lt_trichotomy (xb.getD i 0 - xa.getD i 0) 0 with h3 | h3 | h3
  · rw [Int.sign_eq_neg_one_of_neg h3]
    rw [abs_of_neg h3] at h1 h5 h6 ⊢
    set y := yk (-(xb.getD i 0 - xa.getD i 0)) (chebyshev xa xb) k
    refine ⟨by omega, fun _ => ⟨by omega, ?_, ?_⟩⟩ <;> ring_nf at h5 h6 ⊢ <;> omega
  · have e : xb.getD i 0 = xa.getD i 0 := by omega
    rw [e]; simp; omega
  · rw [Int.sign_eq_one_of_pos h3]
    rw [abs_of_pos h3] at h1 h5 h6 ⊢
    set y := yk (xb.getD i 0 - xa.getD i 0) (chebyshev xa xb) k
    refine ⟨fun _ => ⟨by omega, ?_, ?_⟩, by omega⟩ <;> ring_nf at h5 h6 ⊢ <;> omega

theorem rounded_unique {a b : Int} {n k : Nat} {r r' : Int} (hn : 0 < n) (h : Rounded a b n k r)
    (h' : Rounded a b n k r') : r = r' := by
  have hn' : (0 : Int) < n := by omega
  rcases le_total a b with hab | hab
  · obtain ⟨-, h1, h2⟩ := h.1 hab
    obtain ⟨-, h3, h4⟩ := h'.1 hab
    by_contra hne
    rcases lt_or_gt_of_ne hne with hlt | hlt
    · have : (n : Int) * (r + 1) ≤ n * r' := Int.mul_le_mul_of_nonneg_left (by omega) hn'.le
      ring_nf at h1 h2 h3 h4 this; omega
    · have : (n : Int) * (r' + 1) ≤ n * r := Int.mul_le_mul_of_nonneg_left (by omega) hn'.le
      ring_nf at h1 h2 h3 h4 this; omega
  · obtain ⟨-, h1, h2⟩ := h.2 hab
    obtain ⟨-, h3, h4⟩ := h'.2 hab
    by_contra hne
    rcases lt_or_gt_of_ne hne with hlt | hlt
    · have : (n : Int) * (r + 1) ≤ n * r' := Int.mul_le_mul_of_nonneg_left (by omega) hn'.le
      ring_nf at h1 h2 h3 h4 this; omega
    · have : (n : Int) * (r' + 1) ≤ n * r := Int.mul_le_mul_of_nonneg_left (by omega) hn'.le
      ring_nf at h1 h2 h3 h4 this; omega

/-- The largest displacement is determined by the set of displacements. -/
theorem chebyshev_congr {xa xb ya yb : List Int} (hx : xa.length = xb.length)
    (hy : ya.length = yb.length) 
    (h1 : ∀ i < xa.length, ∃ j < ya.length,
      (xb.getD i 0 - xa.getD i 0).natAbs = (yb.getD j 0 - ya.getD j 0).natAbs)
    (h2 : ∀ j < ya.length, ∃ i < xa.length,
      (xb.getD i 0 - xa.getD i 0).natAbs = (yb.getD j 0 - ya.getD j 0).natAbs) :
    chebyshev xa xb = chebyshev ya yb := by
  have key : ∀ (l l' : List Nat), (∀ m ∈ l, m ∈ l') → l.foldr max 0 ≤ l'.foldr max 0 := by
    intro l l' h
    by_cases h0 : l = []
    · rw [h0]; simp
    · exact foldr_max_ge (h _ (foldr_max_mem h0))
  apply le_antisymm
  · apply key
    intro m hm
    obtain ⟨i, hi, rfl⟩ := (mem_delta hx).1 hm
    obtain ⟨j, hj, e⟩ := h1 i hi
    exact (mem_delta hy).2 ⟨j, hj, e⟩
  · apply key
    intro m hm
    obtain ⟨j, hj, rfl⟩ := (mem_delta hy).1 hm
    obtain ⟨i, hi, e⟩ := h2 j hj
    exact (mem_delta hx).2 ⟨i, hi, e.symm⟩

end Verif.Path
