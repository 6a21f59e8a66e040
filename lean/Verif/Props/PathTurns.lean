import Verif.Lemmas.LineTurns
import Verif.Props.FloatPath

/-!
# Mode full visits exactly the pixels that a point enters by single steps (C56, C75)
-/

namespace Verif.Props

open Verif Verif.Path Outcome Spec

theorem turns_origin (x1 : List Int) {y : List Int} (h : Turns x1 y) : EarlierAll x1 (origin x1.length) y := by
  obtain ⟨-, t, t0, -, k, h⟩ := h
  intro i hi
  have e : (origin x1.length).getD i 0 = 0 := by simp [origin, List.getD, hi]
  have hb : JustBefore 0 (x1.getD i 0) 0 := by
    generalize x1.getD i 0 = a
    refine ⟨1 / (2 * (|(a : ℚ)| + 1)), by positivity, fun s h1 h2 => ?_⟩
    have hs : |s| < 1 / (2 * (|(a : ℚ)| + 1)) := by rw [abs_of_neg h2]; linarith
    rw [lt_div_iff₀ (by positivity)] at hs
    rw [Int.cast_zero, zero_sub, abs_neg, abs_mul]
    have h3 : 0 < |s| := abs_pos.2 h2.ne
    linarith
  rw [e]
  obtain ⟨h1, h2⟩ := h i hi
  by_cases c : i < k
  · exact before_after t0 hb (h1 c)
  · exact before_before t0 hb (h2 (not_lt.1 c))

theorem turns_end (x1 : List Int) {y : List Int} (h : Turns x1 y) : EarlierAll x1 y x1 := by
  obtain ⟨-, t, -, t1, k, h⟩ := h
  intro i hi
  have hb : JustAfter 1 (x1.getD i 0) (x1.getD i 0) := by
    generalize x1.getD i 0 = a
    refine ⟨1 / (2 * (|(a : ℚ)| + 1)), by positivity, fun s h1 h2 => ?_⟩
    have hs : |1 - s| < 1 / (2 * (|(a : ℚ)| + 1)) := by rw [abs_of_neg (by linarith)]; linarith
    rw [lt_div_iff₀ (by positivity)] at hs
    have h3 : 0 < |1 - s| := abs_pos.2 (by linarith)
    rw [show (a : ℚ) - s * a = (1 - s) * a by ring, abs_mul]
    linarith
  obtain ⟨h1, h2⟩ := h i hi
  by_cases c : i < k
  · exact after_after t1 (h1 c) hb
  · exact before_after t1 (h2 (not_lt.1 c)) hb

/-- **C56** (partial), for `full`: the rows are exactly the pixels that a point moving along the segment visits if, each
time that it leaves a pixel, it makes one step after the other, along the first axis first. Missing: components of
more than 707 (`C56_long_violated`). -/
theorem C56_full_exactly_partial (junk : ℚ) {fuel : Nat} {x1 : List Int} (h3 : x1.length ≤ 3)
    (hb : ∀ a ∈ x1, a.natAbs ≤ 707) (hne : manhattan (origin x1.length) x1 ≠ 0)
    (hf : manhattan (origin x1.length) x1 ≤ fuel) :
    ∃ ret, path junk fuel (origin x1.length) x1 .full = ok ret ∧ ∀ y, y ∈ ret ↔ Turns x1 y := by
  have hb' : ∀ a ∈ x1, a.natAbs ≤ 1000000 := fun a ha => (hb a ha).trans (by omega)
  obtain ⟨ret, e, -, hc, -⟩ := C31_full_partial junk h3 hb' hne hf
  obtain ⟨ret', e', hhead, hlast⟩ := C30_origin_partial junk h3 hb' hne hf (Or.inr rfl)
  rw [e] at e'
  cases e'
  have h1 : line (fun tm => fullRows tm []) junk fuel (List.replicate x1.length 0) x1 = ok ret := e
  have ht := line_turns h3 hb junk hne h1
  refine ⟨ret, e, fun y => ⟨ht y, fun hy => ?_⟩⟩
  match ret, hhead with
  | z :: l, hz =>
    have hz' : z = origin x1.length := by simpa using hz
    refine chain_visits hy.1 l z hc (fun x hx => ⟨(ht x hx).1, turns_total (ht x hx) hy⟩) ?_ ?_
    · rw [hz']; exact turns_origin x1 hy
    · intro x hx
      rw [hlast] at hx
      cases hx
      exact turns_end x1 hy

/-- In three dimensions two axes are crossed at once, and the first of them is stepped along first. -/
example : (∀ a ∈ [1, 2, -1], Int.natAbs a ≤ 707) ∧ manhattan (origin 3) [1, 2, -1] = 4 ∧
    path (0 : ℚ) 4 (origin 3) [1, 2, -1] .full = ok [[0, 0, 0], [0, 1, 0], [1, 1, 0], [1, 1, -1], [1, 2, -1]] := by
  decide +kernel

/-- In `double` too `actual` visits exactly the pixels whose interior the segment crosses, and `full` those that are
visited by single steps. -/
theorem C75_exactly {rnd : ℚ → ℚ} (hr : Rounding rnd) (junk : Fl rnd) {fuel : Nat} {x1 : List Int} (h3 : x1.length ≤ 3)
    (hb : ∀ a ∈ x1, a.natAbs ≤ 707) (hne : manhattan (origin x1.length) x1 ≠ 0)
    (hf : manhattan (origin x1.length) x1 ≤ fuel) :
    (∃ ret, path junk fuel (origin x1.length) x1 .actual = ok ret ∧ ∀ y, y ∈ ret ↔ Crosses x1 y) ∧
      ∃ ret, path junk fuel (origin x1.length) x1 .full = ok ret ∧ ∀ y, y ∈ ret ↔ Turns x1 y := by
  rw [C75_path hr junk 0 fuel hb .actual, C75_path hr junk 0 fuel hb .full]
  exact ⟨C56_actual_exactly_partial 0 h3 hb hne hf, C56_full_exactly_partial 0 h3 hb hne hf⟩

example : Rounding rnd64 ∧ (∀ a ∈ ([700, -300, 0] : List Int), a.natAbs ≤ 707) ∧ manhattan (origin 3) [700, -300, 0] = 1000 :=
  ⟨rnd64_rounding, by decide, by decide⟩

end Verif.Props
