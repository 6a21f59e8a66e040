import Verif.Model.Path
import Verif.Spec.Path
import Mathlib.Tactic.Ring
import Mathlib.Tactic.Linarith
import Mathlib.Tactic.IntervalCases

/-!
# The loop of `bresenham`
-/

namespace Verif.Path

open Verif Outcome Spec

/-- Number of steps made along an axis of displacement `m` (absolute value) after `k` of `n` steps. -/
def yk (m n k : Int) : Int := (2 * m * k + n) / (2 * n)

theorem yk_bounds {m n k : Int} (hn : 0 < n) :
    2 * n * yk m n k ≤ 2 * m * k + n ∧ 2 * m * k + n < 2 * n * yk m n k + 2 * n := by
  unfold yk
  have h1 := Int.mul_ediv_add_emod (2 * m * k + n) (2 * n)
  have h2 := Int.emod_nonneg (2 * m * k + n) (show 2 * n ≠ 0 by omega)
  have h3 := Int.emod_lt_of_pos (2 * m * k + n) (show 0 < 2 * n by omega)
  constructor <;> omega

theorem eq_of_mul_bounds {n a b c : Int} (hn : 0 < n) (h1 : n * a ≤ c) (h2 : c < n * a + n)
    (h3 : n * b ≤ c) (h4 : c < n * b + n) : a = b := by
  by_contra hne
  rcases lt_or_gt_of_ne hne with h | h
  · have : n * (a + 1) ≤ n * b := Int.mul_le_mul_of_nonneg_left (by omega) hn.le
    rw [mul_add, mul_one] at this
    omega
  · have : n * (b + 1) ≤ n * a := Int.mul_le_mul_of_nonneg_left (by omega) hn.le
    rw [mul_add, mul_one] at this
    omega

theorem yk_zero {m n : Int} (hn : 0 < n) : yk m n 0 = 0 := by
  obtain ⟨h1, h2⟩ := yk_bounds (m := m) (k := 0) hn
  refine eq_of_mul_bounds (n := 2 * n) (c := 2 * m * 0 + n) (by omega) h1 h2 ?_ ?_ <;> simp <;> omega

/-- The error term decides whether to step. -/
theorem yk_succ {m n k : Int} (hn : 0 < n) (h0 : 0 ≤ m) (hm : m ≤ n) :
    yk m n (k + 1) = if 2 * m * (k + 1) - n - 2 * n * yk m n k ≥ 0 then yk m n k + 1 else yk m n k := by
  obtain ⟨h1, h2⟩ := yk_bounds (m := m) (k := k) hn
  obtain ⟨h3, h4⟩ := yk_bounds (m := m) (k := k + 1) hn
  have e : 2 * m * (k + 1) = 2 * m * k + 2 * m := by ring
  split
  · next h =>
    refine eq_of_mul_bounds (n := 2 * n) (by omega) h3 h4 ?_ ?_
    · have e2 : 2 * n * (yk m n k + 1) = 2 * n * yk m n k + 2 * n := by ring
      omega
    · have e2 : 2 * n * (yk m n k + 1) = 2 * n * yk m n k + 2 * n := by ring
      omega
  · next h =>
    refine eq_of_mul_bounds (n := 2 * n) (by omega) h3 h4 ?_ ?_ <;> omega

theorem yk_dom {n k : Int} (hn : 0 < n) : yk n n k = k := by
  obtain ⟨h1, h2⟩ := yk_bounds (m := n) (k := k) hn
  refine eq_of_mul_bounds (n := 2 * n) (c := 2 * n * k + n) (by omega) h1 h2 ?_ ?_ <;> omega

theorem yk_full {m n : Int} (hn : 0 < n) : yk m n n = m := by
  obtain ⟨h1, h2⟩ := yk_bounds (m := m) (k := n) hn
  have e : 2 * m * n = 2 * n * m := by ring
  refine eq_of_mul_bounds (n := 2 * n) (c := 2 * m * n + n) (by omega) h1 h2 ?_ ?_ <;> rw [e] <;> omega

/-- The body of the loop, elementwise. -/
theorem bStep_spec {a s : Nat → Int} {j : Nat} (hj : j < 3) (st : (Nat → Int) × (Nat → Int)) :
    (bStep a s j st).1 j = st.1 j + s j ∧
    ∀ i < 3, i ≠ j →
      (bStep a s j st).1 i = (if st.2 i ≥ 0 then st.1 i + s i else st.1 i) ∧
      (bStep a s j st).2 i = (if st.2 i ≥ 0 then st.2 i - a j else st.2 i) + a i := by
  obtain ⟨x, d⟩ := st
  interval_cases j
  · simp only [bStep, show others 0 = [1, 2] from rfl, List.foldl_cons, List.foldl_nil, bCheck]
    refine ⟨?_, fun i hi hne => ?_⟩
    · by_cases h1 : d 1 ≥ 0 <;> by_cases h2 : d 2 ≥ 0 <;> simp [h1, h2, upd]
    · have : i = 1 ∨ i = 2 := by omega
      rcases this with rfl | rfl <;> by_cases h1 : d 1 ≥ 0 <;> by_cases h2 : d 2 ≥ 0 <;>
        simp [h1, h2, upd]
  · simp only [bStep, show others 1 = [0, 2] from rfl, List.foldl_cons, List.foldl_nil, bCheck]
    refine ⟨?_, fun i hi hne => ?_⟩
    · by_cases h1 : d 0 ≥ 0 <;> by_cases h2 : d 2 ≥ 0 <;> simp [h1, h2, upd]
    · have : i = 0 ∨ i = 2 := by omega
      rcases this with rfl | rfl <;> by_cases h1 : d 0 ≥ 0 <;> by_cases h2 : d 2 ≥ 0 <;>
        simp [h1, h2, upd]
  · simp only [bStep, show others 2 = [0, 1] from rfl, List.foldl_cons, List.foldl_nil, bCheck]
    refine ⟨?_, fun i hi hne => ?_⟩
    · by_cases h1 : d 0 ≥ 0 <;> by_cases h2 : d 1 ≥ 0 <;> simp [h1, h2, upd]
    · have : i = 0 ∨ i = 1 := by omega
      rcases this with rfl | rfl <;> by_cases h1 : d 0 ≥ 0 <;> by_cases h2 : d 1 ≥ 0 <;>
        simp [h1, h2, upd]

/-- Position after `k` of `n` steps. -/
def at_ (xa xb : List Int) (n : Int) (k : Int) (i : Nat) : Int :=
  xa.getD i 0 + (xb.getD i 0 - xa.getD i 0).sign * yk |xb.getD i 0 - xa.getD i 0| n k

theorem SIGN_eq (a : Int) : SIGN a = a.sign := by
  unfold SIGN
  split
  · next h => exact (Int.sign_eq_neg_one_of_neg h).symm
  · split
    · next h => exact (Int.sign_eq_one_of_pos h).symm
    · have : a = 0 := by omega
      subst this; rfl

theorem bLoop_ok {xa xb : List Int} {a s : Nat → Int} {j : Nat} {n : Nat} (hx : xa.length ≤ 3)
    (hl : xa.length ≤ xb.length) (hj : j < xa.length) (hn : 0 < n)
    (ha : ∀ i < xa.length, a i = 2 * |xb.getD i 0 - xa.getD i 0|)
    (hs : ∀ i < xa.length, s i = (xb.getD i 0 - xa.getD i 0).sign)
    (hm : ∀ i < xa.length, |xb.getD i 0 - xa.getD i 0| ≤ (n : Int))
    (hjn : |xb.getD j 0 - xa.getD j 0| = (n : Int)) :
    ∀ (r k fuel : Nat) (st : (Nat → Int) × (Nat → Int)) (ret : List (List Int)),
      k + r = n → r < fuel →
      (∀ i < xa.length, st.1 i = at_ xa xb n k i) →
      (∀ i < xa.length, i ≠ j → st.2 i = 2 * |xb.getD i 0 - xa.getD i 0| * ((k : Int) + 1) - n -
        2 * n * yk |xb.getD i 0 - xa.getD i 0| n k) →
      bLoop xa.length xb a s j fuel st ret =
        ok (ret ++ (List.range' k (r + 1)).map fun k : Nat =>
          (List.range xa.length).map (at_ xa xb n k)) := by
  have hn' : (0 : Int) < n := by omega
  have hbj : xb[j]? = some (xb.getD j 0) := by
    have : j < xb.length := by omega
    simp [List.getD, this]
  have hrow : ∀ (k : Nat) (st : (Nat → Int) × (Nat → Int)),
      (∀ i < xa.length, st.1 i = at_ xa xb n k i) →
      (List.range xa.length).map st.1 = (List.range xa.length).map (at_ xa xb n k) := by
    intro k st h
    apply List.map_congr_left
    intro i hi
    exact h i (List.mem_range.1 hi)
  -- the position along the dominant axis
  have hdom : ∀ k : Nat, at_ xa xb n k j = xa.getD j 0 + (xb.getD j 0 - xa.getD j 0).sign * k := by
    intro k
    unfold at_
    rw [hjn, yk_dom hn']
  have hend : xb.getD j 0 = xa.getD j 0 + (xb.getD j 0 - xa.getD j 0).sign * n := by
    rw [← hjn, Int.sign_mul_abs]
    ring
  have hsgn : (xb.getD j 0 - xa.getD j 0).sign ≠ 0 := by
    intro h0
    rw [Int.sign_eq_zero_iff_zero] at h0
    rw [h0] at hjn
    simp at hjn
    omega
  intro r
  induction r with
  | zero =>
    intro k fuel st ret hk hf hst _
    obtain ⟨fuel, rfl⟩ : ∃ f, fuel = f + 1 := ⟨fuel - 1, by omega⟩
    unfold bLoop
    rw [hbj]
    simp only
    have hkn : k = n := by omega
    subst hkn
    rw [if_pos (by rw [hst j hj, hdom, ← hend]), hrow k st hst]
    rfl
  | succ r ih =>
    intro k fuel st ret hk hf hst hd
    obtain ⟨fuel, rfl⟩ : ∃ f, fuel = f + 1 := ⟨fuel - 1, by omega⟩
    unfold bLoop
    rw [hbj]
    simp only
    rw [if_neg, hrow k st hst]
    · rw [ih (k + 1) fuel (bStep a s j st) _ (by omega) (by omega)]
      · rw [List.range'_succ (s := k) (n := r + 1)]
        simp
      · intro i hi
        obtain ⟨h1, h2⟩ := bStep_spec (a := a) (s := s) (show j < 3 by omega) st
        by_cases hij : i = j
        · subst hij
          rw [h1, hst i hi, hdom, hdom, hs i hi]
          push_cast
          ring
        · rw [(h2 i (by omega) hij).1, hst i hi, hd i hi hij, hs i hi]
          unfold at_
          push_cast
          rw [yk_succ hn' (abs_nonneg _) (hm i hi)]
          split <;> ring
      · intro i hi hij
        obtain ⟨h1, h2⟩ := bStep_spec (a := a) (s := s) (show j < 3 by omega) st
        rw [(h2 i (by omega) hij).2, hd i hi hij, ha i hi, ha j hj, hjn]
        push_cast
        rw [yk_succ hn' (abs_nonneg _) (hm i hi)]
        split <;> ring
    · rw [hst j hj, hdom]
      intro he
      have he' : (xb.getD j 0 - xa.getD j 0).sign * k = (xb.getD j 0 - xa.getD j 0).sign * n := by
        linarith
      have := Int.eq_of_mul_eq_mul_left hsgn he'
      omega

/-- The dominant axis has the largest value. -/
theorem dominant_spec (a : Nat → Int) : dominant a < 3 ∧ ∀ i < 3, a i ≤ a (dominant a) := by
  unfold dominant
  split
  · next h =>
    rw [ge_iff_le, max_le_iff] at h
    refine ⟨by omega, fun i hi => ?_⟩
    interval_cases i <;> omega
  · split
    · next h1 h =>
      rw [ge_iff_le, max_le_iff] at h
      refine ⟨by omega, fun i hi => ?_⟩
      interval_cases i <;> omega
    · split
      · next h2 h1 h =>
        rw [ge_iff_le, max_le_iff] at h
        refine ⟨by omega, fun i hi => ?_⟩
        interval_cases i <;> omega
      · next h0 h1 h2 =>
        rw [ge_iff_le, max_le_iff] at h0 h1 h2
        omega

theorem foldr_max_ge : ∀ {l : List Nat} {x : Nat}, x ∈ l → x ≤ l.foldr max 0
  | a :: l, x, h => by
    rw [List.foldr_cons]
    rcases List.mem_cons.1 h with rfl | h
    · exact le_max_left _ _
    · exact (foldr_max_ge h).trans (le_max_right _ _)

theorem foldr_max_mem : ∀ {l : List Nat}, l ≠ [] → l.foldr max 0 ∈ l
  | [a], _ => by simp
  | a :: b :: l, _ => by
    rw [List.foldr_cons]
    have := foldr_max_mem (l := b :: l) (by simp)
    rcases max_choice a ((b :: l).foldr max 0) with h | h
    · rw [h]; simp
    · rw [h]; exact List.mem_cons_of_mem _ this

theorem foldr_max_le_sum : ∀ (l : List Nat), l.foldr max 0 ≤ l.sum
  | [] => by simp
  | a :: l => by
    have := foldr_max_le_sum l
    simp only [List.foldr_cons, List.sum_cons]
    omega

theorem mem_delta {xa xb : List Int} {m : Nat} (hl : xa.length = xb.length) :
    m ∈ ((xa.zip xb).map fun p => (p.2 - p.1).natAbs) ↔
      ∃ i < xa.length, m = (xb.getD i 0 - xa.getD i 0).natAbs := by
  rw [List.mem_map]
  constructor
  · rintro ⟨⟨u, w⟩, h, rfl⟩
    obtain ⟨i, hi, e⟩ := List.mem_iff_getElem.1 h
    rw [List.length_zip] at hi
    rw [List.getElem_zip] at e
    cases e
    refine ⟨i, by omega, ?_⟩
    have h1 : i < xa.length := by omega
    have h2 : i < xb.length := by omega
    simp [List.getD, h1, h2]
  · rintro ⟨i, hi, rfl⟩
    have h2 : i < xb.length := by omega
    refine ⟨(xa[i], xb[i]), ?_, by simp [List.getD, hi, h2]⟩
    rw [← List.getElem_zip (h := by rw [List.length_zip]; omega)]
    exact List.getElem_mem _

/-- Closed form of the path. -/
theorem bresenham_ok {xa xb : List Int} (hx : xa.length ≤ 3) (hl : xa.length = xb.length)
    (h0 : xa ≠ xb ∨ xa.length = 3) :
    bresenham xa xb = ok ((List.range (chebyshev xa xb + 1)).map fun k : Nat =>
      (List.range xa.length).map (at_ xa xb (chebyshev xa xb) k)) := by
  set n := chebyshev xa xb with hndef
  unfold bresenham
  rw [if_neg (by omega)]
  simp only
  set a : Nat → Int := fun i => if i < xa.length then 2 * |xb.getD i 0 - xa.getD i 0| else 1 with ha
  set s : Nat → Int := fun i => if i < xa.length then SIGN (xb.getD i 0 - xa.getD i 0) else 0 with hs
  obtain ⟨hj3, hmax⟩ := dominant_spec a
  set j := dominant a with hjdef
  rw [if_neg (by omega)]
  have hm : ∀ i < xa.length, (xb.getD i 0 - xa.getD i 0).natAbs ≤ n :=
    fun i hi => foldr_max_ge ((mem_delta hl).2 ⟨i, hi, rfl⟩)
  have hai : ∀ i < xa.length, a i = 2 * |xb.getD i 0 - xa.getD i 0| := fun i hi => by
    rw [ha]; simp [hi]
  by_cases hn : n = 0
  · -- coinciding points, three dimensions
    have heq : xa = xb := by
      apply List.ext_getElem hl
      intro i h1 h2
      have := hm i h1
      simp [List.getD, h1, h2] at this
      omega
    have hlen : xa.length = 3 := h0.resolve_left (fun h => h heq)
    rw [hn]
    unfold bLoop
    subst heq
    have hj : j < xa.length := by omega
    rw [List.getElem?_eq_getElem hj]
    simp only
    rw [if_pos (by simp [hj, List.getD])]
    simp only [List.nil_append, Nat.zero_add, List.range_one, List.map_cons, List.map_nil]
    congr 2
    apply List.map_congr_left
    intro i hi
    have hi' := List.mem_range.1 hi
    simp [at_, hi']
  · -- distinct points
    have hne : ((xa.zip xb).map fun p => (p.2 - p.1).natAbs) ≠ [] := by
      intro h
      apply hn
      rw [hndef, chebyshev, h]
      rfl
    obtain ⟨i0, hi0, hn0⟩ := (mem_delta hl).1 (foldr_max_mem hne)
    have hn0' : n = (xb.getD i0 0 - xa.getD i0 0).natAbs := hn0
    have h1 := hmax i0 (by omega)
    rw [hai i0 hi0] at h1
    have h2 : |xb.getD i0 0 - xa.getD i0 0| = (n : Int) := by rw [hn0']; exact Int.abs_eq_natAbs _
    have hj : j < xa.length := by
      by_contra hge
      have : a j = 1 := by rw [ha]; simp [hge]
      omega
    have hjn : |xb.getD j 0 - xa.getD j 0| = (n : Int) := by
      have h3 := hai j hj
      have h4 := hm j hj
      have h5 := Int.abs_eq_natAbs (xb.getD j 0 - xa.getD j 0)
      omega
    rw [bLoop_ok (n := n) (k := 0) (r := n) hx (by omega) hj (by omega) hai
      (fun i hi => by rw [hs]; simp [hi, SIGN_eq]) (fun i hi => by
        have := hm i hi
        rw [Int.abs_eq_natAbs]; omega) hjn]
    · simp [List.range_eq_range']
    · omega
    · have := foldr_max_le_sum ((xa.zip xb).map fun p => (p.2 - p.1).natAbs)
      have : n ≤ ((xa.zip xb).map fun p => (p.2 - p.1).natAbs).sum := this
      omega
    · intro i hi
      simp [hi, at_, yk_zero (show (0 : Int) < n by omega)]
    · intro i hi hij
      have hcast : ((0 : Nat) : Int) = 0 := rfl
      rw [hcast, yk_zero (show (0 : Int) < n by omega)]
      have hd : ((others j).foldl (fun d i => upd d i (a i - a j / 2)) fun _ => 0) i =
          a i - a j / 2 := by
        have hi3 : i < 3 := by omega
        clear_value j
        interval_cases j <;> interval_cases i <;> simp [others, upd] at hij ⊢
      simp only
      rw [hd, hai i hi, hai j hj, hjn]
      have : 2 * (n : Int) / 2 = n := by omega
      rw [this]
      ring

end Verif.Path
