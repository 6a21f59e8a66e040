import Verif.Model.Helpers
import Verif.Lemmas.Float

/-!
# Helpers for axes and shapes (C126)
-/

namespace Verif.Props

open Verif Helpers Nd

/-- The rounding of `double` does not matter: one axis is put in front of a line, none in front of others. -/
theorem axis_exact {rank axis : Nat} (h1 : 1 ≤ rank) (h3 : rank ≤ 3) (ha : axis < rank) :
    Helpers.atleast3dAxis rnd64 rank axis = axis + if rank = 1 then 1 else 0 := by
  have cast3 : rnd64 3 = 3 := by exact_mod_cast rnd64_int (n := 3) (by norm_num)
  have key : ∀ m : Nat, m ≤ 2 → Helpers.stdRound (rnd64 (rnd64 (m : ℚ) / rnd64 3)) = if m = 2 then 1 else 0 := by
    intro m hm
    have cm : rnd64 (m : ℚ) = m := by
      have := rnd64_int (n := m) (by rw [abs_of_nonneg (by positivity)]; exact_mod_cast (by omega : m ≤ 2 ^ 53))
      exact_mod_cast this
    rw [cm, cast3]
    have he := abs_le.1 (rnd64_error ((m : ℚ) / 3))
    have hq : |(m : ℚ) / 3| = m / 3 := abs_of_nonneg (by positivity)
    rw [hq] at he
    unfold Helpers.stdRound
    rw [Int.floor_eq_iff]
    obtain rfl | rfl | rfl : m = 0 ∨ m = 1 ∨ m = 2 := by omega
    all_goals
      norm_num at he ⊢
      constructor <;> linarith [he.1, he.2]
  have hn : (3 - (rank : Int)) % 2 ^ 64 = ((3 - rank : Nat) : Int) := by
    rw [Int.emod_eq_of_lt (by omega) (by omega)]
    omega
  have e : Helpers.stdRound ((((3 - (rank : Int)) % 2 ^ 64 : Int) : Fl rnd64) / ((3 : Nat) : Fl rnd64)).val =
      if 3 - rank = 2 then 1 else 0 := by
    rw [hn]
    have := key (3 - rank) (by omega)
    rw [← this]
    show Helpers.stdRound (rnd64 (rnd64 (((3 - rank : Nat) : Int) : ℚ) / rnd64 ((3 : Nat) : ℚ))) = _
    norm_cast
  unfold Helpers.atleast3dAxis
  simp only [e]
  have : (3 - rank = 2) ↔ rank = 1 := by omega
  simp only [this]
  split <;> omega

/-- `atleast_3d_axis` is where the axis is in the array of three dimensions: it has the size of the axis, and all other
axes have size one. -/
theorem C126_axis {s : List Nat} {axis : Nat} (h3 : s.length ≤ 3) (ha : axis < s.length) :
    (shape3 s)[Helpers.atleast3dAxis rnd64 s.length axis]? = s[axis]? ∧
      ∀ k n, (shape3 s)[k]? = some n → (∀ a, a < s.length → k ≠ Helpers.atleast3dAxis rnd64 s.length a) → n = 1 := by
  have e : ∀ a, a < s.length → Helpers.atleast3dAxis rnd64 s.length a = a + if s.length = 1 then 1 else 0 :=
    fun a ha => axis_exact (by omega) h3 ha
  rw [e axis ha]
  match s, h3, ha, e with
  | [p], _, ha, e =>
    obtain rfl : axis = 0 := by simpa using ha
    refine ⟨rfl, fun k n hk hne => ?_⟩
    have := hne 0 (by simp)
    rw [e 0 (by simp)] at this
    match k with
    | 0 => simpa [shape3, eq_comm] using hk
    | 1 => exact absurd rfl this
    | 2 => simpa [shape3, eq_comm] using hk
    | k + 3 => simp [shape3] at hk
  | [p, q], _, ha, e =>
    refine ⟨?_, fun k n hk hne => ?_⟩
    · obtain rfl | rfl : axis = 0 ∨ axis = 1 := by simp at ha; omega
      · rfl
      · rfl
    · match k with
      | 0 => exact absurd (e 0 (by simp)).symm (hne 0 (by simp))
      | 1 => exact absurd (e 1 (by simp)).symm (hne 1 (by simp))
      | 2 => simpa [shape3, eq_comm] using hk
      | k + 3 => simp [shape3] at hk
  | [p, q, r], _, ha, e =>
    refine ⟨by simp [shape3], fun k n hk hne => ?_⟩
    have hk3 : k < 3 := by
      by_contra h
      rw [List.getElem?_eq_none (by simp [shape3]; omega)] at hk
      cases hk
    exact absurd (by rw [e k (by simpa using hk3)]; simp) (hne k (by simpa using hk3))

/-- `atleast_3d_axes` applies it to every axis; without axes to all of them, which are then in order. -/
theorem C126_axes {rank : Nat} (h1 : 1 ≤ rank) (h3 : rank ≤ 3) :
    (∀ axes : List Nat, (∀ a ∈ axes, a < rank) →
      atleast3dAxes rnd64 rank axes = axes.map fun a => a + if rank = 1 then 1 else 0) ∧
    atleast3dAllAxes rnd64 rank = if rank = 1 then [1] else List.range rank := by
  have h : ∀ axes : List Nat, (∀ a ∈ axes, a < rank) →
      atleast3dAxes rnd64 rank axes = axes.map fun a => a + if rank = 1 then 1 else 0 := fun axes ha =>
    List.map_congr_left fun a hm => axis_exact h1 h3 (ha a hm)
  refine ⟨h, ?_⟩
  unfold atleast3dAllAxes
  rw [h _ (by simp)]
  split
  · next e => subst e; rfl
  · simp

/-- The axis that `distance(axis)` uses is the one of the code. -/
theorem C126_used {rank axis : Nat} (h3 : rank ≤ 3) (ha : axis < rank) :
    Ens.atleast3dAxis rank axis = Helpers.atleast3dAxis rnd64 rank axis := by
  rw [axis_exact (by omega) h3 ha]
  unfold Ens.atleast3dAxis
  have : rank ≤ 1 ↔ rank = 1 := by omega
  simp only [this]

/-- `half_shape`: the half of every size, rounded down. -/
theorem C126_half (shape : List Nat) : (halfShape shape).length = shape.length ∧
    ∀ (i n : Nat), shape[i]? = some n → ∃ m, (halfShape shape)[i]? = some m ∧ 2 * m ≤ n ∧ n ≤ 2 * m + 1 := by
  refine ⟨by simp [halfShape], fun i n h => ⟨(n - n % 2) / 2, by simp [halfShape, h], ?_, ?_⟩⟩ <;> omega

/-- `pad_width`: the widths of an axis add up to its size minus one, and the second is the larger one, by at most one. -/
theorem C126_pad {shape : List Nat} (h0 : 0 ∉ shape) : (Ens.padWidth shape).length = shape.length ∧
    ∀ (i n : Nat), shape[i]? = some n → ∃ p, (Ens.padWidth shape)[i]? = some p ∧ p.1 + p.2 + 1 = n ∧
      p.1 ≤ p.2 ∧ p.2 ≤ p.1 + 1 := by
  refine ⟨by simp [Ens.padWidth], fun i n h => ?_⟩
  have hn : n ≠ 0 := by
    rintro rfl
    exact h0 (List.mem_of_getElem? h)
  refine ⟨if n % 2 = 0 then (n / 2 - 1, n / 2) else ((n - 1) / 2, (n - 1) / 2), by simp [Ens.padWidth, h], ?_⟩
  split <;> simp only <;> omega

/-- Two dimensions and a line. -/
example : shape3 [4, 7] = [4, 7, 1] ∧ shape3 [4] = [1, 4, 1] ∧ halfShape [4, 7] = [2, 3] ∧
    Ens.padWidth [4, 7] = [(1, 2), (3, 3)] ∧ 1 < [4, 7].length ∧ [4, 7].length ≤ 3 := by decide

end Verif.Props
