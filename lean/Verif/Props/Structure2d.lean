import Verif.Lemmas.Structure2d
import Verif.Props.Structure

/-!
# What `Structure` computes at every frequency in two dimensions (C55)
-/

namespace Verif.Props

open Verif Outcome Finset Verif.Spec Verif.Structure

theorem entry2_stored (junk : Nat → Nat → ℝ) {u : Mat ℝ} (hm : 0 < u.rows) (hn : 0 < u.cols) {i j : Nat}
    (hi : Paired u.rows i) (hj : Paired u.cols j) :
    entry2 id junk u i j = stored2 (junk i j) u (freq u.rows i) (freq u.cols j) := by
  obtain ⟨f1, f2, f3, f4, f5, f6, f7, f8⟩ := stop_facts hm
  obtain ⟨g1, g2, g3, g4, g5, g6, g7, g8⟩ := stop_facts hn
  obtain ⟨x, e, -, -, h1, h2, h3⟩ := sample2_ok id junk hm hn
  obtain ⟨h4, h5⟩ := sample2_mixed id junk hm hn
  have hst : ∀ n : Nat, 0 < n → start n = (n - 1) / 2 + 1 + (if n % 2 = 0 then 1 else 0) ∧
      stop n = (n - 1) / 2 + 1 := by
    intro n hn
    unfold start stop
    split <;> omega
  obtain ⟨sm, tm⟩ := hst _ hm
  obtain ⟨sn, tn⟩ := hst _ hn
  have cases' : ∀ {n k : Nat}, 0 < n → Paired n k →
      (k < stop n ∧ freq n k = k) ∨ (start n ≤ k ∧ k < n ∧ freq n k = (k : Int) - n) := by
    intro n k hn hk
    obtain ⟨s, t⟩ := hst n hn
    unfold Paired at hk
    unfold freq
    split
    · left; split at s <;> omega
    · right; split at s <;> omega
  have hi' := cases' hm hi
  have hj' := cases' hn hj
  have hreg : ∀ {i j : Nat}, ((i < stop u.rows ∧ j < stop u.cols) ∨
      (start u.rows ≤ i ∧ i < u.rows ∧ start u.cols ≤ j ∧ j < u.cols)) →
      entry2 id junk u i j = factor2 u (freq u.rows i) (freq u.cols j) := by
    intro i j h
    rw [← entry2_eq e, h1 i j h]
    rfl
  unfold stored2
  rcases hi' with ⟨a1, a2⟩ | ⟨a1, a2, a3⟩ <;> rcases hj' with ⟨b1, b2⟩ | ⟨b1, b2, b3⟩
  · rw [if_pos (by omega), hreg (Or.inl ⟨a1, b1⟩)]
  · rw [if_neg (by omega)]
    by_cases h0 : i = 0
    · subst h0
      rw [if_pos (by omega), ← entry2_eq e, h3 j b1 b2]
    · rw [if_neg (by omega), if_pos (by omega), ← entry2_eq e, h2 i j (by omega) a1 b1 b2, a2, b3]
      simp only [id]
      have e1 : ((j - start u.cols + 1 : Nat) : Int) = ((u.cols - 1) / 2 : Nat) + 1 + ((j : Int) - u.cols) := by
        split at sn <;> omega
      have e2 : ((u.cols - 1 - (j - start u.cols) : Nat) : Int)
          = -(((u.cols - 1) / 2 : Nat) + 1 + ((j : Int) - u.cols)) + u.cols := by
        split at sn <;> omega
      rw [e1, e2, fourier2_add1 hn]
  · rw [if_neg (by omega)]
    by_cases h0 : j = 0
    · subst h0
      rw [if_pos (by omega), h5 i a1 a2]
    · rw [if_neg (by omega), if_neg (by omega), h4 i j a1 a2 (by omega) b1, b2, a3]
      simp only [id]
      have e1 : ((i - start u.rows + 1 : Nat) : Int) = ((u.rows - 1) / 2 : Nat) + 1 + ((i : Int) - u.rows) := by
        split at sm <;> omega
      have e2 : ((u.rows - 1 - (i - start u.rows) : Nat) : Int)
          = -(((u.rows - 1) / 2 : Nat) + 1 + ((i : Int) - u.rows)) + u.rows := by
        split at sm <;> omega
      rw [e1, e2, fourier2_add0 hm]
  · rw [if_pos (by omega), hreg (Or.inr ⟨a1, a2, b1, b2⟩)]

/-- **C55**, what the code does: the mean and the second moment, at every frequency, in two dimensions. -/
theorem C55_code (m n : Nat) (hm : 0 < m) (hn : 0 < n) (hp : m % 2 = n % 2)
    (l : List ((Nat → Nat → ℝ) × Mat ℝ)) (hl : l ≠ []) (h : ∀ x ∈ l, x.2.rows = m ∧ x.2.cols = n) :
    ∃ st, addSamples2 id l = ok (some st) ∧ (mean2 st).rows = m ∧ (mean2 st).cols = n ∧ st.norm = l.length ∧
      (∀ i j, Paired m i → Paired n j →
        (mean2 st).get i j = some ((l.map fun x => stored2 (x.1 i j) x.2 (freq m i) (freq n j)).sum / l.length) ∧
        st.second.get i j = some (l.map fun x => stored2 (x.1 i j) x.2 (freq m i) (freq n j) ^ 2).sum) ∧
      (∀ i j, i < m → j < n → ¬ Paired m i ∨ ¬ Paired n j → (mean2 st).get i j = none) := by
  obtain ⟨st, e, i1, i2, i3, i4, i5⟩ := addSamples2_all id hm hn hp hl h
  refine ⟨st, e, i1, i2, i3, fun i j hi hj => ?_, fun i j hi hj hs => ?_⟩
  · have hx : ∀ x ∈ l, entry2 id x.1 x.2 i j = stored2 (x.1 i j) x.2 (freq m i) (freq n j) := by
      intro x hx
      obtain ⟨r, c⟩ := h x hx
      rw [← r, ← c]
      exact entry2_stored x.1 (by omega) (by omega) (by rw [r]; exact hi) (by rw [c]; exact hj)
    obtain ⟨k1, k2⟩ := i4 i j hi hj
    constructor
    · simp only [mean2, k1, i3, Option.map_some]
      rw [List.map_congr_left hx]
    · rw [k2, List.map_congr_left fun x hx' => by rw [hx x hx']]
  · simp only [mean2, i5 i j hi hj hs, Option.map_none]

/-- So the variance, too, is that of `û(q) û(-q)` at the frequencies of which both components are non-negative or both
are negative. -/
theorem C55_2d_second_partial (m n : Nat) (hm : 0 < m) (hn : 0 < n) (hp : m % 2 = n % 2)
    (l : List ((Nat → Nat → ℝ) × Mat ℝ)) (hl : l ≠ []) (h : ∀ x ∈ l, x.2.rows = m ∧ x.2.cols = n) :
    ∃ st, addSamples2 id l = ok (some st) ∧ st.norm = l.length ∧ ∀ i j, Paired m i → Paired n j →
      (0 ≤ freq m i ∧ 0 ≤ freq n j) ∨ (freq m i < 0 ∧ freq n j < 0) →
      st.second.get i j = some (l.map fun x => factor2 x.2 (freq m i) (freq n j) ^ 2).sum := by
  obtain ⟨st, e, -, -, i3, i4, -⟩ := C55_code m n hm hn hp l hl h
  refine ⟨st, e, i3, fun i j hi hj hs => ?_⟩
  rw [(i4 i j hi hj).2]
  congr 2
  refine List.map_congr_left fun x _ => ?_
  unfold stored2
  rw [if_pos hs]

/-- Two samples of three by three; the frequencies of four. -/
example : (∀ x ∈ [((fun _ _ => 0 : Nat → Nat → ℝ), unit3), (fun _ _ => 1, unit3)], x.2.rows = 3 ∧ x.2.cols = 3) ∧
    Paired 3 1 ∧ freq 3 1 = 1 ∧ freq 3 2 = -1 ∧ Paired 4 3 ∧ ¬ Paired 4 2 := by
  refine ⟨by simp [unit3], ?_⟩
  unfold Paired
  decide

end Verif.Props
