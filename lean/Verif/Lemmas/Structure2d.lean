import Verif.Lemmas.Structure

/-! # All entries of the two-dimensional structure factor -/

namespace Verif.Structure

open Outcome Finset Verif.Spec

/-- The entries of a sample. -/
noncomputable def entry2 (cast : ℝ → ℝ) (junk : Nat → Nat → ℝ) (u : Mat ℝ) (k l : Nat) : ℝ :=
  match sample2 cast junk u with
  | .ok x => x.get k l
  | _ => 0

set_option linter.unusedTactic false in
set_option linter.unreachableTactic false in
theorem sample2_mixed (cast : ℝ → ℝ) (junk : Nat → Nat → ℝ) {u : Mat ℝ} (hm : 0 < u.rows) (hn : 0 < u.cols) :
    (∀ k l, start u.rows ≤ k → k < u.rows → 1 ≤ l → l < stop u.cols →
        entry2 cast junk u k l = cast (fourier2 u ((k - start u.rows + 1 : Nat) : Int) l *
          fourier2 u ((u.rows - 1 - (k - start u.rows) : Nat) : Int) l).re / ((u.rows * u.cols : Nat) : ℝ)) ∧
      (∀ k, start u.rows ≤ k → k < u.rows →
        entry2 cast junk u k 0 = junk k 0 / ((u.rows * u.cols : Nat) : ℝ)) := by
  obtain ⟨f1, f2, f3, f4, f5, f6, f7, f8⟩ := stop_facts hm
  obtain ⟨g1, g2, g3, g4, g5, g6, g7, g8⟩ := stop_facts hn
  have z1 : (fft2 u).rows = u.rows := rfl
  have z2 : (fft2 u).cols = u.cols := rfl
  unfold entry2 sample2
  rw [if_neg (by omega)]
  simp only [assign2, times2, slice2, flip0, flip1, flip01, real2, z1, z2]
  iterate 12
    rw [if_pos ⟨by first | trivial | omega, by first | trivial | omega⟩]
    try simp only [ok_bind]
  refine ⟨fun k l k1 k2 l1 l2 => ?_, fun k k1 k2 => ?_⟩
  · congr 1
    simp only [fft2_get]
    rw [if_pos (by omega)]
    congr 2
    congr 2
    · omega
    · omega
    · omega
    · omega
  · congr 1
    simp only [fft2_get]
    rw [if_neg (by omega), if_neg (by omega), if_neg (by omega), if_neg (by omega), if_neg (by omega),
      if_neg (by omega), if_neg (by omega)]

theorem entry2_eq {cast : ℝ → ℝ} {junk : Nat → Nat → ℝ} {u x : Mat ℝ} (h : sample2 cast junk u = ok x) (k l : Nat) :
    x.get k l = entry2 cast junk u k l := by
  unfold entry2
  rw [h]

theorem run2_all (cast : ℝ → ℝ) {m n : Nat} (hm : 0 < m) (hn : 0 < n) :
    ∀ (l : List ((Nat → Nat → ℝ) × Mat ℝ)) (st : State2),
    st.first.rows = m → st.first.cols = n → (∀ x ∈ l, x.2.rows = m ∧ x.2.cols = n) →
    ∃ st', forM l (some st) (fun st x => (addSample2 cast st x.1 x.2).map some) = ok (some st') ∧
      st'.first.rows = m ∧ st'.first.cols = n ∧ st'.norm = st.norm + l.length ∧
      (∀ i j a, st.first.get i j = some a →
        st'.first.get i j = some (a + (l.map fun x => entry2 cast x.1 x.2 i j).sum)) ∧
      (∀ i j a, st.second.get i j = some a →
        st'.second.get i j = some (a + (l.map fun x => entry2 cast x.1 x.2 i j ^ 2).sum)) ∧
      (∀ i j, st.first.get i j = none → st'.first.get i j = none)
  | [], st, h1, h2, _ => ⟨st, rfl, h1, h2, rfl, fun i j a ha => by simp [ha], fun i j a ha => by simp [ha], fun i j ha => ha⟩
  | x :: l, st, h1, h2, h => by
    obtain ⟨hx1, hx2⟩ := h x List.mem_cons_self
    obtain ⟨y, e, hy1, hy2, -, -⟩ := sample2_ok cast x.1 (u := x.2) (by omega) (by omega)
    rw [hx1] at hy1
    rw [hx2] at hy2
    have ea : addSample2 cast (some st) x.1 x.2 =
        ok ⟨⟨st.first.rows, st.first.cols, fun i j => plus (st.first.get i j) (some (y.get i j))⟩,
      ⟨st.second.rows, st.second.cols, fun i j => plus (st.second.get i j) (some (y.get i j ^ 2))⟩,
        st.norm + 1⟩ := by
      unfold addSample2
      rw [e]
      simp only [ok_bind]
      rw [if_neg (by omega)]
    obtain ⟨st', e', i1, i2, i3, i4, i5, i6⟩ := run2_all cast hm hn l
      ⟨⟨st.first.rows, st.first.cols, fun i j => plus (st.first.get i j) (some (y.get i j))⟩,
      ⟨st.second.rows, st.second.cols, fun i j => plus (st.second.get i j) (some (y.get i j ^ 2))⟩,
        st.norm + 1⟩ h1 h2
      fun z hz => h z (List.mem_cons_of_mem _ hz)
    refine ⟨st', ?_, i1, i2, ?_, fun i j a ha => ?_, fun i j a ha => ?_, fun i j ha => ?_⟩
    · rw [forM, ea]
      exact e'
    · rw [i3, List.length_cons]
      dsimp only
      omega
    · have := i4 i j (a + y.get i j) (by simp [plus, ha])
      rw [entry2_eq e] at this
      simp only [List.map_cons, List.sum_cons, ← add_assoc]
      exact this
    · have := i5 i j (a + y.get i j ^ 2) (by simp [plus, ha])
      rw [entry2_eq e] at this
      simp only [List.map_cons, List.sum_cons, ← add_assoc]
      exact this
    · exact i6 i j (by simp [plus, ha])

theorem addSamples2_all (cast : ℝ → ℝ) {m n : Nat} (hm : 0 < m) (hn : 0 < n) (hp : m % 2 = n % 2)
    {l : List ((Nat → Nat → ℝ) × Mat ℝ)} (hl : l ≠ []) (h : ∀ x ∈ l, x.2.rows = m ∧ x.2.cols = n) :
    ∃ st, addSamples2 cast l = ok (some st) ∧ st.first.rows = m ∧ st.first.cols = n ∧ st.norm = l.length ∧
      (∀ i j, Paired m i → Paired n j →
        st.first.get i j = some (l.map fun x => entry2 cast x.1 x.2 i j).sum ∧
        st.second.get i j = some (l.map fun x => entry2 cast x.1 x.2 i j ^ 2).sum) ∧
      (∀ i j, i < m → j < n → ¬ Paired m i ∨ ¬ Paired n j → st.first.get i j = none) := by
  obtain ⟨st0, e0, r0, c0, n0, g0, g1⟩ : ∃ st0, allocate2 m n = ok st0 ∧ st0.first.rows = m ∧ st0.first.cols = n ∧
      st0.norm = 0 ∧ (∀ i j, st0.first.get i j =
        if m % 2 = 0 ∧ (i = m / 2 ∨ j = n / 2) then none else some 0) ∧ ∀ i j, st0.second.get i j =
        if m % 2 = 0 ∧ (i = m / 2 ∨ j = n / 2) then none else some 0 := by
    unfold allocate2
    rw [if_neg (by omega)]
    exact ⟨_, rfl, rfl, rfl, rfl, fun i j => rfl, fun i j => rfl⟩
  obtain ⟨st, e, i1, i2, i3, i4, i5, i6⟩ := run2_all cast hm hn l st0 r0 c0 h
  refine ⟨st, ?_, i1, i2, ?_, fun i j hi hj => ?_, fun i j hi hj hij => ?_⟩
  · cases l with
    | nil => exact (hl rfl).elim
    | cons x l =>
      obtain ⟨hx1, hx2⟩ := h x List.mem_cons_self
      obtain ⟨y, ey, hy1, hy2, -⟩ := sample2_ok cast x.1 (u := x.2) (by omega) (by omega)
      rw [← e]
      unfold addSamples2
      rw [forM, forM]
      congr 2
      unfold addSample2
      rw [ey]
      simp only [ok_bind, hy1, hy2, hx1, hx2, e0]
  · rw [i3, n0]
    omega
  · unfold Paired at hi hj
    have hno : ¬ (m % 2 = 0 ∧ (i = m / 2 ∨ j = n / 2)) := by omega
    have h1 := i4 i j 0 (by rw [g0, if_neg hno])
    have h2 := i5 i j 0 (by rw [g1, if_neg hno])
    rw [zero_add] at h1 h2
    exact ⟨h1, h2⟩
  · refine i6 i j ?_
    rw [g0]
    unfold Paired at hij
    exact if_pos (by omega)

end Verif.Structure
