import Verif.Spec.Structure
import Mathlib.Analysis.SpecialFunctions.Complex.Circle
import Mathlib.Algebra.BigOperators.Field
import Mathlib.Tactic.Ring
import Mathlib.Tactic.Linarith
import Mathlib.Tactic.FieldSimp
import Mathlib.Tactic.Positivity

/-! # The structure factor: frequencies and slices -/

namespace Verif.Structure

open Verif Outcome Spec Finset

/-! ### Fourier components -/

theorem exp_int (z : Int) : Complex.exp (-(2 * Real.pi * Complex.I * z)) = 1 := by
  rw [Complex.exp_eq_one_iff]
  exact ⟨-z, by push_cast; ring⟩

theorem exp_shift {n : Nat} (hn : 0 < n) (q : Int) (j : Nat) :
    Complex.exp (-(2 * Real.pi * Complex.I * (((q + n) * j : Int) : ℂ) / n)) =
    Complex.exp (-(2 * Real.pi * Complex.I * ((q * j : Int) : ℂ) / n)) := by
  have hn' : (n : ℂ) ≠ 0 := by exact_mod_cast hn.ne'
  have : -(2 * Real.pi * Complex.I * (((q + n) * j : Int) : ℂ) / n) =
      -(2 * Real.pi * Complex.I * ((q * j : Int) : ℂ) / n) + -(2 * Real.pi * Complex.I * ((j : Int) : ℂ)) := by
    push_cast
    field_simp
    ring
  rw [this, Complex.exp_add, exp_int, mul_one]

theorem exp_conj (n : Nat) (q : Int) (j : Nat) :
    Complex.exp (-(2 * Real.pi * Complex.I * ((-q * j : Int) : ℂ) / n)) =
    (starRingEnd ℂ) (Complex.exp (-(2 * Real.pi * Complex.I * ((q * j : Int) : ℂ) / n))) := by
  rw [← Complex.exp_conj]
  congr 1
  simp only [map_neg, map_div₀, map_mul, Complex.conj_I, Complex.conj_ofReal, map_natCast, map_intCast]
  have : (starRingEnd ℂ) 2 = 2 := Complex.conj_ofNat 2
  rw [this]
  push_cast
  ring

theorem fourier_add {u : Vec ℝ} (hn : 0 < u.size) (q : Int) : fourier u (q + u.size) = fourier u q := by
  unfold fourier
  refine Finset.sum_congr rfl fun j _ => ?_
  rw [exp_shift hn]

theorem fourier_conj (u : Vec ℝ) (q : Int) : fourier u (-q) = (starRingEnd ℂ) (fourier u q) := by
  unfold fourier
  rw [map_sum]
  refine Finset.sum_congr rfl fun j _ => ?_
  rw [map_mul, Complex.conj_ofReal, exp_conj]

theorem fft_get (u : Vec ℝ) (k : Nat) : (fft u).get k = fourier u k := by
  unfold fft fourier
  dsimp only
  refine Finset.sum_congr rfl fun j _ => ?_
  congr 4
  push_cast
  ring

theorem fourier2_add0 {u : Mat ℝ} (hn : 0 < u.rows) (p q : Int) : fourier2 u (p + u.rows) q = fourier2 u p q := by
  unfold fourier2
  refine Finset.sum_congr rfl fun i _ => Finset.sum_congr rfl fun j _ => ?_
  rw [exp_shift hn]

theorem fourier2_add1 {u : Mat ℝ} (hn : 0 < u.cols) (p q : Int) : fourier2 u p (q + u.cols) = fourier2 u p q := by
  unfold fourier2
  refine Finset.sum_congr rfl fun i _ => Finset.sum_congr rfl fun j _ => ?_
  rw [exp_shift hn]

theorem fft2_get (u : Mat ℝ) (k l : Nat) : (fft2 u).get k l = fourier2 u k l := by
  unfold fft2 fourier2
  dsimp only
  refine Finset.sum_congr rfl fun i _ => Finset.sum_congr rfl fun j _ => ?_
  congr 5
  · push_cast
    ring
  · push_cast
    ring

/-! ### Slices -/

theorem stop_facts {n : Nat} (h : 0 < n) : stop n + start n = n + 1 ∧ 1 ≤ stop n ∧ stop n ≤ n ∧ start n ≤ n + 1 ∧
    2 * stop n ≤ n + 1 ∧ n ≤ 2 * stop n ∧ stop n ≤ start n ∧ 1 ≤ start n := by
  unfold start stop
  split <;> omega

/-- The product of opposite frequencies, as stored. -/
noncomputable def prod (cast : ℝ → ℝ) (u : Vec ℝ) (k : Nat) : ℝ :=
  cast (fourier u (freq u.size k) * fourier u (-freq u.size k)).re

theorem fourier_freq {u : Vec ℝ} (hn : 0 < u.size) (k : Nat) : fourier u (freq u.size k) = fourier u k := by
  unfold freq
  split
  · rfl
  · rw [← fourier_add hn, Int.sub_add_cancel]

theorem fourier_freq_neg {u : Vec ℝ} (hn : 0 < u.size) {k : Nat} (hk : k ≤ u.size) :
    fourier u (-freq u.size k) = fourier u ((u.size - k : Nat) : Int) := by
  unfold freq
  split
  · rw [← fourier_add hn]
    congr 1
    omega
  · congr 1
    omega

theorem sample_ok (cast : ℝ → ℝ) (junk : Nat → ℝ) {u : Vec ℝ} (hn : 0 < u.size) :
    ∃ x, sample cast junk u = ok x ∧ x.size = u.size ∧
      ∀ k, Paired u.size k → x.get k = prod cast u k / u.size := by
  obtain ⟨f1, f2, f3, f4, f5, f6, f7, f8⟩ := stop_facts hn
  have z : (fft u).size = u.size := rfl
  unfold sample
  rw [if_neg hn.ne']
  simp only [assign, times, slice, flip, real, z]
  rw [if_pos (by omega)]
  simp only [ok_bind]
  rw [if_pos (by omega)]
  simp only [ok_bind]
  rw [if_pos trivial]
  simp only [ok_bind]
  rw [if_pos (by omega)]
  refine ⟨_, rfl, rfl, fun k hk => ?_⟩
  obtain ⟨k1, k2⟩ := hk
  dsimp only
  congr 1
  unfold prod
  rw [fourier_freq hn, fourier_freq_neg hn k1.le]
  simp only [fft_get]
  by_cases c1 : start u.size ≤ k ∧ k < min u.size u.size
  · rw [if_pos c1, if_pos (by omega)]
    congr 2
    rw [mul_comm]
    congr 2
    · omega
    · omega
  · rw [if_neg c1]
    by_cases c2 : 1 ≤ k ∧ k < min (stop u.size) u.size
    · rw [if_pos c2]
      congr 2
      congr 2
      · omega
      · omega
    · rw [if_neg c2, if_pos (by omega)]
      have : k = 0 := by omega
      subst this
      have := fourier_add hn 0
      rw [Int.zero_add] at this
      simp only [Nat.sub_zero] at this ⊢
      rw [this]
      rfl

theorem fourier2_freq {u : Mat ℝ} (hm : 0 < u.rows) (hn : 0 < u.cols) (k l : Nat) :
    fourier2 u (freq u.rows k) (freq u.cols l) = fourier2 u k l := by
  have h1 : ∀ q, fourier2 u (freq u.rows k) q = fourier2 u k q := by
    intro q
    unfold freq
    split
    · rfl
    · rw [← fourier2_add0 hm, Int.sub_add_cancel]
  have h2 : ∀ p, fourier2 u p (freq u.cols l) = fourier2 u p l := by
    intro q
    unfold freq
    split
    · rfl
    · rw [← fourier2_add1 hn, Int.sub_add_cancel]
  rw [h1, h2]

theorem fourier2_freq_neg {u : Mat ℝ} (hm : 0 < u.rows) (hn : 0 < u.cols) {k l : Nat} (hk : k ≤ u.rows)
    (hl : l ≤ u.cols) :
    fourier2 u (-freq u.rows k) (-freq u.cols l) =
      fourier2 u ((u.rows - k : Nat) : Int) ((u.cols - l : Nat) : Int) := by
  have h1 : ∀ q, fourier2 u (-freq u.rows k) q = fourier2 u ((u.rows - k : Nat) : Int) q := by
    intro q
    unfold freq
    split
    · rw [← fourier2_add0 hm]
      congr 1
      omega
    · congr 1
      omega
  have h2 : ∀ p, fourier2 u p (-freq u.cols l) = fourier2 u p ((u.cols - l : Nat) : Int) := by
    intro q
    unfold freq
    split
    · rw [← fourier2_add1 hn]
      congr 1
      omega
    · congr 1
      omega
  rw [h1, h2]

theorem fourier2_rows {u : Mat ℝ} (hm : 0 < u.rows) (q : Int) : fourier2 u u.rows q = fourier2 u 0 q := by
  have := fourier2_add0 hm 0 q
  rwa [Int.zero_add] at this

theorem fourier2_cols {u : Mat ℝ} (hn : 0 < u.cols) (p : Int) : fourier2 u p u.cols = fourier2 u p 0 := by
  have := fourier2_add1 hn p 0
  rwa [Int.zero_add] at this

/-- The product of opposite frequencies, as stored. -/
noncomputable def prod2 (cast : ℝ → ℝ) (u : Mat ℝ) (k l : Nat) : ℝ :=
  cast (fourier2 u (freq u.rows k) (freq u.cols l) * fourier2 u (-freq u.rows k) (-freq u.cols l)).re

set_option linter.unusedTactic false in
set_option linter.unreachableTactic false in
theorem sample2_ok (cast : ℝ → ℝ) (junk : Nat → Nat → ℝ) {u : Mat ℝ} (hm : 0 < u.rows) (hn : 0 < u.cols) :
    ∃ x, sample2 cast junk u = ok x ∧ x.rows = u.rows ∧ x.cols = u.cols ∧
      (∀ k l, (k < stop u.rows ∧ l < stop u.cols) ∨
          (start u.rows ≤ k ∧ k < u.rows ∧ start u.cols ≤ l ∧ l < u.cols) →
        x.get k l = prod2 cast u k l / ((u.rows * u.cols : Nat) : ℝ)) ∧
      (∀ k l, 1 ≤ k → k < stop u.rows → start u.cols ≤ l → l < u.cols →
        x.get k l = cast (fourier2 u k ((l - start u.cols + 1 : Nat) : Int) *
          fourier2 u k ((u.cols - 1 - (l - start u.cols) : Nat) : Int)).re / ((u.rows * u.cols : Nat) : ℝ)) ∧
      (∀ l, start u.cols ≤ l → l < u.cols → x.get 0 l = junk 0 l / ((u.rows * u.cols : Nat) : ℝ)) := by
  obtain ⟨f1, f2, f3, f4, f5, f6, f7, f8⟩ := stop_facts hm
  obtain ⟨g1, g2, g3, g4, g5, g6, g7, g8⟩ := stop_facts hn
  have z1 : (fft2 u).rows = u.rows := rfl
  have z2 : (fft2 u).cols = u.cols := rfl
  unfold sample2
  rw [if_neg (by omega)]
  simp only [assign2, times2, slice2, flip0, flip1, flip01, real2, z1, z2]
  rw [if_pos ⟨by first | trivial | omega, by first | trivial | omega⟩]
  simp only [ok_bind]
  rw [if_pos ⟨by first | trivial | omega, by first | trivial | omega⟩]
  simp only [ok_bind]
  rw [if_pos ⟨by first | trivial | omega, by first | trivial | omega⟩]
  simp only [ok_bind]
  rw [if_pos ⟨by first | trivial | omega, by first | trivial | omega⟩]
  simp only [ok_bind]
  rw [if_pos ⟨by first | trivial | omega, by first | trivial | omega⟩]
  simp only [ok_bind]
  rw [if_pos ⟨by first | trivial | omega, by first | trivial | omega⟩]
  simp only [ok_bind]
  rw [if_pos ⟨by first | trivial | omega, by first | trivial | omega⟩]
  simp only [ok_bind]
  rw [if_pos ⟨by first | trivial | omega, by first | trivial | omega⟩]
  simp only [ok_bind]
  rw [if_pos ⟨by first | trivial | omega, by first | trivial | omega⟩]
  simp only [ok_bind]
  rw [if_pos ⟨by first | trivial | omega, by first | trivial | omega⟩]
  simp only [ok_bind]
  rw [if_pos ⟨by first | trivial | omega, by first | trivial | omega⟩]
  simp only [ok_bind]
  rw [if_pos ⟨by first | trivial | omega, by first | trivial | omega⟩]
  refine ⟨_, rfl, rfl, rfl, fun k l hkl => ?_, fun k l k1 k2 l1 l2 => ?_, fun l l1 l2 => ?_⟩
  · dsimp only
    congr 1
    unfold prod2
    rw [fourier2_freq hm hn, fourier2_freq_neg hm hn (by omega) (by omega)]
    simp only [fft2_get]
    rw [if_neg (by omega), if_neg (by omega)]
    rcases hkl with ⟨hk, hl⟩ | ⟨hk, hk', hl, hl'⟩
    · rw [if_neg (by omega)]
      by_cases k0 : k = 0
      · subst k0
        rw [if_neg (by omega), if_neg (by omega)]
        by_cases l0 : l = 0
        · subst l0
          rw [if_neg (by omega), if_pos (by omega)]
          simp only [Nat.sub_zero]
          rw [fourier2_rows hm, fourier2_cols hn]
          rfl
        · rw [if_pos (by omega)]
          simp only [Nat.sub_zero]
          rw [fourier2_rows hm]
          congr 2
          congr 2
          · omega
          · omega
      · by_cases l0 : l = 0
        · subst l0
          rw [if_neg (by omega), if_pos (by omega)]
          simp only [Nat.sub_zero]
          rw [fourier2_cols hn]
          congr 2
          congr 2
          · omega
          · omega
        · rw [if_pos (by omega)]
          congr 2
          congr 2
          · omega
          · omega
          · omega
          · omega
    · rw [if_pos (by omega), if_pos (by omega)]
      congr 2
      rw [mul_comm]
      congr 2
      · omega
      · omega
      · omega
      · omega
  · dsimp only
    congr 1
    simp only [fft2_get]
    rw [if_neg (by omega), if_pos (by omega)]
    congr 2
    congr 2
    · omega
    · omega
    · omega
    · omega
  · dsimp only
    congr 1
    rw [if_neg (by omega), if_neg (by omega), if_neg (by omega), if_neg (by omega), if_neg (by omega),
      if_neg (by omega), if_neg (by omega)]

/-! ### Histories of samples -/

theorem run_ok (cast : ℝ → ℝ) {n : Nat} (hn : 0 < n) : ∀ (l : List ((Nat → ℝ) × Vec ℝ)) (st : State),
    st.first.size = n → st.second.size = n → (∀ x ∈ l, x.2.size = n) →
    ∃ st', forM l (some st) (fun st x => (addSample cast st x.1 x.2).map some) = ok (some st') ∧
      st'.first.size = n ∧ st'.second.size = n ∧ st'.norm = st.norm + l.length ∧
      (∀ k, Paired n k → ∀ a b, st.first.get k = some a → st.second.get k = some b →
        st'.first.get k = some (a + (l.map fun x => prod cast x.2 k / n).sum) ∧
        st'.second.get k = some (b + (l.map fun x => (prod cast x.2 k / n) ^ 2).sum)) ∧
      (∀ k, st.first.get k = none → st.second.get k = none → st'.first.get k = none ∧ st'.second.get k = none)
  | [], st, h1, h2, _ => ⟨st, rfl, h1, h2, rfl, fun k _ a b ha hb => by simp [ha, hb], fun k ha hb => ⟨ha, hb⟩⟩
  | x :: l, st, h1, h2, h => by
    have hx := h x List.mem_cons_self
    obtain ⟨y, e, hy, hv⟩ := sample_ok cast x.1 (u := x.2) (by omega)
    rw [hx] at hy hv
    have ea : addSample cast (some st) x.1 x.2 = ok ⟨⟨st.first.size, fun k => plus (st.first.get k) (some (y.get k))⟩,
      ⟨st.second.size, fun k => plus (st.second.get k) (some (y.get k ^ 2))⟩, st.norm + 1⟩ := by
      unfold addSample
      rw [e]
      simp only [ok_bind, Option.getD_some]
      rw [if_neg (by omega)]
    obtain ⟨st', e', i1, i2, i3, i4, i5⟩ := run_ok cast hn l ⟨⟨st.first.size, fun k => plus (st.first.get k) (some (y.get k))⟩,
      ⟨st.second.size, fun k => plus (st.second.get k) (some (y.get k ^ 2))⟩, st.norm + 1⟩ h1 h2
      fun z hz => h z (List.mem_cons_of_mem _ hz)
    refine ⟨st', ?_, i1, i2, ?_, fun k hk a b ha hb => ?_, fun k ha hb => ?_⟩
    · rw [forM, ea]
      exact e'
    · rw [i3, List.length_cons]
      dsimp only
      omega
    · have := i4 k hk (a + y.get k) (b + y.get k ^ 2) (by simp [plus, ha]) (by simp [plus, hb])
      rw [hv k hk] at this
      simp only [List.map_cons, List.sum_cons, ← add_assoc]
      exact this
    · exact i5 k (by simp [plus, ha]) (by simp [plus, hb])

theorem addSamples_ok (cast : ℝ → ℝ) {n : Nat} (hn : 0 < n) {l : List ((Nat → ℝ) × Vec ℝ)} (hl : l ≠ [])
    (h : ∀ x ∈ l, x.2.size = n) :
    ∃ st, addSamples cast l = ok (some st) ∧ st.first.size = n ∧ st.second.size = n ∧ st.norm = l.length ∧
      (∀ k, Paired n k →
        st.first.get k = some (l.map fun x => prod cast x.2 k / n).sum ∧
        st.second.get k = some (l.map fun x => (prod cast x.2 k / n) ^ 2).sum) ∧
      (∀ k, k < n → ¬ Paired n k → st.first.get k = none ∧ st.second.get k = none) := by
  obtain ⟨st, e, i1, i2, i3, i4, i5⟩ := run_ok cast hn l (allocate n) rfl rfl h
  refine ⟨st, ?_, i1, i2, ?_, fun k hk => ?_, fun k hk hp => ?_⟩
  · cases l with
    | nil => exact (hl rfl).elim
    | cons x l =>
      have hx := h x List.mem_cons_self
      obtain ⟨y, ey, hy, -⟩ := sample_ok cast x.1 (u := x.2) (by omega)
      rw [← e]
      unfold addSamples
      rw [forM, forM]
      congr 2
      unfold addSample
      rw [ey]
      simp only [ok_bind, Option.getD_some, Option.getD_none, hy, hx]
  · rw [i3]
    show 0 + l.length = _
    omega
  · have h0 : (allocate n).first.get k = some 0 := by
      unfold allocate
      obtain ⟨k1, k2⟩ := hk
      exact if_neg (by omega)
    have := i4 k hk 0 0 h0 h0
    rw [zero_add, zero_add] at this
    exact this
  · have h0 : (allocate n).first.get k = none := by
      unfold allocate
      unfold Paired at hp
      exact if_pos (by omega)
    exact i5 k h0 h0

/-- The frequencies at which the two-dimensional samples are right. -/
def Region (m n k l : Nat) : Prop :=
  (k < stop m ∧ l < stop n) ∨ (start m ≤ k ∧ k < m ∧ start n ≤ l ∧ l < n)

theorem run2_ok (cast : ℝ → ℝ) {m n : Nat} (hm : 0 < m) (hn : 0 < n) :
    ∀ (l : List ((Nat → Nat → ℝ) × Mat ℝ)) (st : State2),
    st.first.rows = m → st.first.cols = n → (∀ x ∈ l, x.2.rows = m ∧ x.2.cols = n) →
    ∃ st', forM l (some st) (fun st x => (addSample2 cast st x.1 x.2).map some) = ok (some st') ∧
      st'.first.rows = m ∧ st'.first.cols = n ∧ st'.norm = st.norm + l.length ∧
      (∀ i j, Region m n i j → ∀ a, st.first.get i j = some a →
        st'.first.get i j = some (a + (l.map fun x => prod2 cast x.2 i j / ((m * n : Nat) : ℝ)).sum)) ∧
      (∀ i j, st.first.get i j = none → st'.first.get i j = none)
  | [], st, h1, h2, _ => ⟨st, rfl, h1, h2, rfl, fun i j _ a ha => by simp [ha], fun i j ha => ha⟩
  | x :: l, st, h1, h2, h => by
    obtain ⟨hx1, hx2⟩ := h x List.mem_cons_self
    obtain ⟨y, e, hy1, hy2, hv, -⟩ := sample2_ok cast x.1 (u := x.2) (by omega) (by omega)
    rw [hx1] at hy1 hv
    rw [hx2] at hy2 hv
    have ea : addSample2 cast (some st) x.1 x.2 =
        ok ⟨⟨st.first.rows, st.first.cols, fun i j => plus (st.first.get i j) (some (y.get i j))⟩,
      ⟨st.second.rows, st.second.cols, fun i j => plus (st.second.get i j) (some (y.get i j ^ 2))⟩,
        st.norm + 1⟩ := by
      unfold addSample2
      rw [e]
      simp only [ok_bind]
      rw [if_neg (by omega)]
    obtain ⟨st', e', i1, i2, i3, i4, i5⟩ := run2_ok cast hm hn l
      ⟨⟨st.first.rows, st.first.cols, fun i j => plus (st.first.get i j) (some (y.get i j))⟩,
      ⟨st.second.rows, st.second.cols, fun i j => plus (st.second.get i j) (some (y.get i j ^ 2))⟩,
        st.norm + 1⟩ h1 h2
      fun z hz => h z (List.mem_cons_of_mem _ hz)
    refine ⟨st', ?_, i1, i2, ?_, fun i j hk a ha => ?_, fun i j ha => ?_⟩
    · rw [forM, ea]
      exact e'
    · rw [i3, List.length_cons]
      dsimp only
      omega
    · have := i4 i j hk (a + y.get i j) (by simp [plus, ha])
      rw [hv i j hk] at this
      simp only [List.map_cons, List.sum_cons, ← add_assoc]
      exact this
    · exact i5 i j (by simp [plus, ha])

theorem addSamples2_ok (cast : ℝ → ℝ) {m n : Nat} (hm : 0 < m) (hn : 0 < n) (hp : m % 2 = n % 2)
    {l : List ((Nat → Nat → ℝ) × Mat ℝ)} (hl : l ≠ []) (h : ∀ x ∈ l, x.2.rows = m ∧ x.2.cols = n) :
    ∃ st, addSamples2 cast l = ok (some st) ∧ st.first.rows = m ∧ st.first.cols = n ∧ st.norm = l.length ∧
      (∀ i j, Region m n i j →
        st.first.get i j = some (l.map fun x => prod2 cast x.2 i j / ((m * n : Nat) : ℝ)).sum) ∧
      (∀ i j, i < m → j < n → 2 * i = m ∨ 2 * j = n → st.first.get i j = none) := by
  obtain ⟨st0, e0, r0, c0, n0, g0⟩ : ∃ st0, allocate2 m n = ok st0 ∧ st0.first.rows = m ∧ st0.first.cols = n ∧
      st0.norm = 0 ∧ ∀ i j, st0.first.get i j =
        if m % 2 = 0 ∧ (i = m / 2 ∨ j = n / 2) then none else some 0 := by
    unfold allocate2
    rw [if_neg (by omega)]
    exact ⟨_, rfl, rfl, rfl, rfl, fun i j => rfl⟩
  obtain ⟨st, e, i1, i2, i3, i4, i5⟩ := run2_ok cast hm hn l st0 r0 c0 h
  refine ⟨st, ?_, i1, i2, ?_, fun i j hk => ?_, fun i j hi hj hij => ?_⟩
  · cases l with
    | nil => exact (hl rfl).elim
    | cons x l =>
      obtain ⟨hx1, hx2⟩ := h x List.mem_cons_self
      obtain ⟨y, ey, hy1, hy2, -⟩ := sample2_ok cast x.1 (u := x.2) (by omega) (by omega)
      rw [← e]
      unfold addSamples2
      rw [forM, forM]
      congr 2
      unfold addSample2
      rw [ey]
      simp only [ok_bind, hy1, hy2, hx1, hx2, e0]
  · rw [i3, n0]
    omega
  · have h0 : st0.first.get i j = some 0 := by
      rw [g0]
      obtain ⟨f1, f2, f3, f4, f5, f6, f7, f8⟩ := stop_facts hm
      obtain ⟨g1, g2, g3, g4, g5, g6, g7, g8⟩ := stop_facts hn
      refine if_neg ?_
      rintro ⟨hm0, hc⟩
      unfold Region at hk
      have e1 : stop m = m / 2 := by unfold stop; rw [if_pos hm0]
      have e2 : stop n = n / 2 := by unfold stop; rw [if_pos (by omega)]
      omega
    have := i4 i j hk 0 h0
    rw [zero_add] at this
    exact this
  · refine i5 i j ?_
    rw [g0]
    exact if_pos (by omega)

/-! ### Orthogonality -/

theorem exp_pow (n : Nat) (q : Int) (j : Nat) :
    Complex.exp (-(2 * Real.pi * Complex.I * ((q * j : Int) : ℂ) / n)) =
    Complex.exp (-(2 * Real.pi * Complex.I * ((q : Int) : ℂ) / n)) ^ j := by
  rw [← Complex.exp_nat_mul]
  congr 1
  push_cast
  ring

theorem exp_ne_one {n : Nat} (hn : 0 < n) {q : Int} (hq : ¬ (n : Int) ∣ q) :
    Complex.exp (-(2 * Real.pi * Complex.I * ((q : Int) : ℂ) / n)) ≠ 1 := by
  intro h
  rw [Complex.exp_eq_one_iff] at h
  obtain ⟨z, hz⟩ := h
  refine hq ⟨-z, ?_⟩
  have hn' : (n : ℂ) ≠ 0 := by exact_mod_cast hn.ne'
  have hp : (2 * Real.pi * Complex.I : ℂ) ≠ 0 := Complex.two_pi_I_ne_zero
  have : (2 * Real.pi * Complex.I : ℂ) * q = (2 * Real.pi * Complex.I) * (n * -z) := by
    field_simp at hz
    linear_combination (-(2 * Real.pi * Complex.I) : ℂ) * hz
  have := mul_left_cancel₀ hp this
  exact_mod_cast this

theorem char_sum {n : Nat} (hn : 0 < n) (q : Int) :
    ∑ j ∈ range n, Complex.exp (-(2 * Real.pi * Complex.I * ((q * j : Int) : ℂ) / n)) =
      if (n : Int) ∣ q then (n : ℂ) else 0 := by
  simp only [exp_pow n q]
  split
  · rename_i h
    obtain ⟨z, rfl⟩ := h
    have : Complex.exp (-(2 * Real.pi * Complex.I * ((n * z : Int) : ℂ) / n)) = 1 := by
      have hn' : (n : ℂ) ≠ 0 := by exact_mod_cast hn.ne'
      rw [← exp_int z]
      congr 1
      push_cast
      field_simp
    rw [this]
    simp
  · rename_i h
    have h1 := exp_ne_one hn h
    have hg := mul_neg_geom_sum (Complex.exp (-(2 * Real.pi * Complex.I * ((q : Int) : ℂ) / n))) n
    have hone : Complex.exp (-(2 * Real.pi * Complex.I * ((q : Int) : ℂ) / n)) ^ n = 1 := by
      rw [← exp_pow]
      have hn' : (n : ℂ) ≠ 0 := by exact_mod_cast hn.ne'
      rw [← exp_int q]
      congr 1
      push_cast
      field_simp
    rw [hone, sub_self] at hg
    rcases mul_eq_zero.1 hg with h2 | h2
    · exact (h1 (sub_eq_zero.1 h2).symm).elim
    · exact h2

/-- `û(q) û(-q)` is the square of the modulus. -/
theorem fourier_sq (u : Vec ℝ) (q : Int) : fourier u q * fourier u (-q) = (Complex.normSq (fourier u q) : ℂ) := by
  rw [fourier_conj, Complex.mul_conj]

theorem factor_sq (u : Vec ℝ) (q : Int) : factor u q = Complex.normSq (fourier u q) / u.size := by
  unfold factor
  rw [fourier_sq, Complex.ofReal_re]

theorem factor_neg (u : Vec ℝ) (q : Int) : factor u (-q) = factor u q := by
  unfold factor
  rw [neg_neg, mul_comm]

theorem factor_add {u : Vec ℝ} (hn : 0 < u.size) (q : Int) : factor u (q + u.size) = factor u q := by
  rw [factor_sq, factor_sq, fourier_add hn]

/-- Parseval. -/
theorem parseval {u : Vec ℝ} (hn : 0 < u.size) :
    ∑ k ∈ range u.size, factor u k = ∑ j ∈ range u.size, u.get j ^ 2 := by
  have key : (∑ k ∈ range u.size, fourier u k * fourier u (-(k : Int))) =
      ((u.size : ℂ) * ∑ j ∈ range u.size, (u.get j : ℂ) ^ 2) := by
    unfold fourier
    simp only [Finset.sum_mul_sum]
    rw [Finset.sum_comm]
    rw [Finset.mul_sum]
    refine Finset.sum_congr rfl fun j hj => ?_
    rw [Finset.sum_comm]
    have step : ∀ i ∈ range u.size, (∑ k ∈ range u.size,
        (u.get j : ℂ) * Complex.exp (-(2 * Real.pi * Complex.I * (((k : Int) * j : Int) : ℂ) / u.size)) *
        ((u.get i : ℂ) * Complex.exp (-(2 * Real.pi * Complex.I * ((-(k : Int) * i : Int) : ℂ) / u.size)))) =
        if i = j then (u.size : ℂ) * (u.get j : ℂ) ^ 2 else 0 := by
      intro i hi
      have e : ∀ k : Nat, (u.get j : ℂ) * Complex.exp (-(2 * Real.pi * Complex.I * (((k : Int) * j : Int) : ℂ) / u.size)) *
        ((u.get i : ℂ) * Complex.exp (-(2 * Real.pi * Complex.I * ((-(k : Int) * i : Int) : ℂ) / u.size))) =
        (u.get j : ℂ) * (u.get i : ℂ) *
          Complex.exp (-(2 * Real.pi * Complex.I * ((((j : Int) - i) * k : Int) : ℂ) / u.size)) := by
        intro k
        rw [mul_mul_mul_comm, ← Complex.exp_add]
        congr 2
        push_cast
        ring
      simp only [e]
      rw [← Finset.mul_sum, char_sum hn]
      rw [Finset.mem_range] at hi hj
      by_cases hij : i = j
      · subst hij
        simp only [sub_self, dvd_zero, if_true]
        ring
      · rw [if_neg hij, if_neg, mul_zero]
        rintro ⟨z, hz⟩
        have : z = 0 := by
          by_contra hz0
          have h1 : (u.size : Int) ≤ |(j : Int) - i| := by
            rw [hz, abs_mul, abs_of_nonneg (by positivity : (0 : Int) ≤ u.size)]
            have := Int.one_le_abs hz0
            nlinarith
          have h2 : |(j : Int) - i| < u.size := by
            rw [abs_lt]
            constructor <;> omega
          omega
        rw [this] at hz
        omega
    rw [Finset.sum_congr rfl step]
    simp [Finset.mem_range.1 hj]
  have hn' : (u.size : ℝ) ≠ 0 := by exact_mod_cast hn.ne'
  unfold factor
  rw [← Finset.sum_div, div_eq_iff hn']
  have := congrArg Complex.re key
  rw [Complex.re_sum] at this
  rw [this]
  have e : ((u.size : ℂ) * ∑ j ∈ range u.size, (u.get j : ℂ) ^ 2) =
      ((u.size * ∑ j ∈ range u.size, u.get j ^ 2 : ℝ) : ℂ) := by push_cast; rfl
  rw [e, Complex.ofReal_re]
  ring

theorem fourier_congr {u v : Vec ℝ} (h : u.size = v.size) (hv : ∀ j < u.size, u.get j = v.get j) (q : Int) :
    fourier u q = fourier v q := by
  unfold fourier
  rw [← h]
  refine Finset.sum_congr rfl fun j hj => ?_
  rw [hv j (Finset.mem_range.1 hj)]

/-- Shifting the sample by one. -/
theorem fourier_roll_one {u v : Vec ℝ} (h : v.size = u.size) (hv : ∀ j < u.size, v.get j = u.get ((j + 1) % u.size))
    (q : Int) : fourier v q = Complex.exp (2 * Real.pi * Complex.I * q / u.size) * fourier u q := by
  unfold fourier
  rw [h]
  rcases Nat.eq_zero_or_pos u.size with h0 | h0
  · rw [h0]
    simp
  obtain ⟨m, hm⟩ : ∃ m, u.size = m + 1 := ⟨u.size - 1, by omega⟩
  rw [hm] at hv ⊢
  rw [Finset.sum_range_succ, Finset.sum_range_succ' _ m, mul_add, Finset.mul_sum]
  have hm' : ((m + 1 : Nat) : ℂ) ≠ 0 := by exact_mod_cast Nat.succ_ne_zero m
  congr 1
  · refine Finset.sum_congr rfl fun j hj => ?_
    have hj := Finset.mem_range.1 hj
    rw [hv j (by omega), Nat.mod_eq_of_lt (by omega)]
    rw [mul_left_comm, ← Complex.exp_add]
    congr 2
    push_cast
    field_simp
    ring
  · rw [hv m (by omega), Nat.mod_self]
    rw [mul_left_comm, ← Complex.exp_add]
    congr 1
    have e1 := exp_int q
    have : -(2 * Real.pi * Complex.I * ((q * m : Int) : ℂ) / ((m + 1 : Nat) : ℂ)) =
      (2 * Real.pi * Complex.I * q / ((m + 1 : Nat) : ℂ) +
        -(2 * Real.pi * Complex.I * ((q * (0 : Nat) : Int) : ℂ) / ((m + 1 : Nat) : ℂ))) +
        -(2 * Real.pi * Complex.I * q) := by
      push_cast
      push_cast at hm'
      field_simp
      ring
    rw [this, Complex.exp_add, e1, mul_one]

/-- Shifting the sample periodically does not matter. -/
theorem factor_roll (q : Int) : ∀ (t : Nat) {u v : Vec ℝ}, v.size = u.size →
    (∀ j < u.size, v.get j = u.get ((j + t) % u.size)) → factor v q = factor u q
  | 0, u, v, h, hv => by
    unfold factor
    have : ∀ j < v.size, v.get j = u.get j := by
      intro j hj
      rw [hv j (by omega), Nat.add_zero, Nat.mod_eq_of_lt (by omega)]
    rw [fourier_congr h this, fourier_congr h this, h]
  | t + 1, u, v, h, hv => by
    have ih := factor_roll q t (u := u) (v := ⟨u.size, fun j => u.get ((j + t) % u.size)⟩) rfl fun j _ => rfl
    rw [← ih]
    have h1 : ∀ q, fourier v q = Complex.exp (2 * Real.pi * Complex.I * q / u.size) *
        fourier ⟨u.size, fun j => u.get ((j + t) % u.size)⟩ q := by
      intro q
      refine fourier_roll_one (u := ⟨u.size, fun j => u.get ((j + t) % u.size)⟩) h (fun j hj => ?_) q
      dsimp only
      rw [hv j hj, Nat.mod_add_mod]
      congr 2
      omega
    unfold factor
    rw [h1, h1, mul_mul_mul_comm, ← Complex.exp_add, h]
    have : 2 * Real.pi * Complex.I * q / u.size + 2 * Real.pi * Complex.I * ((-q : Int) : ℂ) / u.size = 0 := by
      push_cast
      ring
    rw [this, Complex.exp_zero, one_mul]

/-- A constant changes the component of frequency zero only. -/
theorem factor_const {u v : Vec ℝ} (hn : 0 < u.size) (c : ℝ) (h : v.size = u.size)
    (hv : ∀ j < u.size, v.get j = u.get j + c) {q : Int} (hq : ¬ (u.size : Int) ∣ q) : factor v q = factor u q := by
  have key : ∀ q : Int, ¬ (u.size : Int) ∣ q → fourier v q = fourier u q := by
    intro q hq
    have e : fourier v q = fourier u q + (c : ℂ) * ∑ j ∈ range u.size,
        Complex.exp (-(2 * Real.pi * Complex.I * ((q * j : Int) : ℂ) / u.size)) := by
      unfold fourier
      rw [h, Finset.mul_sum, ← Finset.sum_add_distrib]
      refine Finset.sum_congr rfl fun j hj => ?_
      rw [hv j (Finset.mem_range.1 hj)]
      push_cast
      ring
    rw [e, char_sum hn, if_neg hq, mul_zero, add_zero]
  unfold factor
  rw [key q hq, key (-q) (by rwa [Int.dvd_neg]), h]

theorem factor_scale {u v : Vec ℝ} (c : ℝ) (h : v.size = u.size)
    (hv : ∀ j < u.size, v.get j = c * u.get j) (q : Int) : factor v q = c ^ 2 * factor u q := by
  have key : ∀ q : Int, fourier v q = c * fourier u q := by
    intro q
    unfold fourier
    rw [h, Finset.mul_sum]
    refine Finset.sum_congr rfl fun j hj => ?_
    rw [hv j (Finset.mem_range.1 hj)]
    push_cast
    ring
  rw [factor_sq, factor_sq, key, h, Complex.normSq_mul, Complex.normSq_ofReal]
  ring

/-- One sample of odd sizes. -/
theorem single2_ok {cast : ℝ → ℝ} {junk : Nat → Nat → ℝ} {u x : Mat ℝ} (e : sample2 cast junk u = ok x)
    (h1 : x.rows % 2 = 1) (h2 : x.cols % 2 = 1) :
    ∃ st, addSamples2 cast [(junk, u)] = ok (some st) ∧ ∀ i j, (mean2 st).get i j = some (x.get i j) := by
  refine ⟨⟨⟨x.rows, x.cols, fun k l => plus (some 0) (some (x.get k l))⟩,
    ⟨x.rows, x.cols, fun k l => plus (some 0) (some (x.get k l ^ 2))⟩, 1⟩, ?_, fun i j => ?_⟩
  · unfold addSamples2 addSample2
    simp only [forM, e, ok_bind, allocate2]
    rw [if_neg (by omega)]
    simp [h1, Outcome.bind, Outcome.map]
  · simp [mean2, plus]

theorem forall₂_left {α β : Type} {R : α → β → Prop} {l : List α} {l' : List β} (h : List.Forall₂ R l l') :
    ∀ x ∈ l, ∃ y, R x y := by
  induction h with
  | nil => simp
  | cons hab _ ih =>
    intro x hx
    rcases List.mem_cons.1 hx with rfl | hx
    · exact ⟨_, hab⟩
    · exact ih x hx

end Verif.Structure
