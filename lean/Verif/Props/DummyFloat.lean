import Verif.Model.DummyFloat
import Verif.Props.Dummy
import Verif.Props.CenterFloat

/-! # The random circles in double (C63) -/

namespace Verif.Props

open Outcome Verif Dummy

theorem rnd64_nat {n : Nat} (h : n ≤ 2 ^ 53) : rnd64 (n : ℚ) = n := by
  have := rnd64_int (n := (n : Int)) (by rw [Nat.abs_cast]; exact_mod_cast h)
  exact_mod_cast this

/-- The integer part of a rounded number `x`, with `q ≤ x` and `x` less than `q + 1` by more than its rounding. -/
theorem floor_rnd64 {x : ℚ} {q : Nat} (hq : q ≤ 2 ^ 53) (h1 : (q : ℚ) ≤ x) (h2 : x + x / 2 ^ 53 < q + 1) :
    ⌊rnd64 x⌋ = (q : Int) := by
  have hx : 0 ≤ x := (Nat.cast_nonneg q).trans h1
  rw [Int.floor_eq_iff]
  constructor
  · have := rnd64_monotone h1
    rw [rnd64_nat hq] at this
    exact_mod_cast this
  · have := rnd64_error x
    rw [abs_of_nonneg hx, abs_le] at this
    have h := this.2
    push_cast
    linarith

/-- Division of integers in `double`, followed by dropping the fractional part, is integer division. -/
theorem floor_div64 {a b : Nat} (ha : a < 2 ^ 53) (hb : 0 < b) : ⌊rnd64 ((a : ℚ) / b)⌋ = ((a / b : Nat) : Int) := by
  have hb' : (0 : ℚ) < b := by exact_mod_cast hb
  refine floor_rnd64 ((Nat.div_le_self a b).trans ha.le) ?_ ?_
  · rw [le_div_iff₀ hb']
    exact_mod_cast Nat.div_mul_le_self a b
  · have h1 : a + 1 ≤ (a / b + 1) * b := by
      have := Nat.div_add_mod a b
      have := Nat.mod_lt a hb
      nlinarith
    have h2 : (a : ℚ) + 1 ≤ ((a / b : Nat) + 1) * b := by exact_mod_cast h1
    have h3 : (a : ℚ) < 2 ^ 53 := by exact_mod_cast ha
    rw [← mul_lt_mul_iff_left₀ hb']
    have h4 : ((a : ℚ) / b + a / b / 2 ^ 53) * b = a + a / 2 ^ 53 := by
      field_simp
    rw [h4]
    have h5 : (a : ℚ) / 2 ^ 53 < 1 := by
      rw [div_lt_one (by positivity)]
      exact h3
    linarith

theorem cells_eq {n : Nat} (h : n ≤ 2 ^ 50) : cells rnd64 n = n / 20 := by
  unfold cells
  have hc : rnd64 (5 / 100) = 3602879701896397 / 72057594037927936 := by decide +kernel
  rw [hc, rnd64_nat (h.trans (by norm_num))]
  have hn : (n : ℚ) ≤ 2 ^ 50 := by exact_mod_cast h
  have h0 : (0 : ℚ) ≤ n := Nat.cast_nonneg n
  have hd := Nat.div_add_mod n 20
  have hm := Nat.mod_lt n (show 0 < 20 by norm_num)
  have hd' : (20 : ℚ) * (n / 20 : Nat) + (n % 20 : Nat) = n := by exact_mod_cast hd
  have hm' : ((n % 20 : Nat) : ℚ) ≤ 19 := by exact_mod_cast Nat.lt_succ_iff.1 hm
  have hm0 : (0 : ℚ) ≤ (n % 20 : Nat) := Nat.cast_nonneg _
  have : ⌊rnd64 (3602879701896397 / 72057594037927936 * (n : ℚ))⌋ = ((n / 20 : Nat) : Int) := by
    refine floor_rnd64 ((Nat.div_le_self n 20).trans (h.trans (by norm_num))) ?_ ?_
    · linarith
    · have hn' : (n : ℚ) ≤ 1125899906842624 := hn.trans (by norm_num)
      have e53 : (2 : ℚ) ^ 53 = 9007199254740992 := by norm_num
      rw [e53]
      linarith
  rw [this]
  rfl

theorem corner_eq {i n N : Nat} (h : i * n < 2 ^ 53) (hi : i ≤ 2 ^ 53) (hn : n ≤ 2 ^ 53) (hN : 0 < N) (hN' : N ≤ 2 ^ 53) :
    corner rnd64 i n N = ((i * n / N : Nat) : Int) := by
  unfold corner
  rw [rnd64_nat hi, rnd64_nat hn, rnd64_nat hN', ← Nat.cast_mul, rnd64_nat h.le, floor_div64 h hN]

theorem halfCell_eq {n N : Nat} (hn : n < 2 ^ 53) (hN : 0 < N) (hN' : N ≤ 2 ^ 53) :
    halfCell rnd64 n N = ((n / (2 * N) : Nat) : Int) := by
  unfold halfCell
  rw [rnd64_nat hn.le, rnd64_nat hN', one_div_mul_eq_div, rnd64_half, rnd64_nat hn.le, ← floor_div64 hn (by omega : 0 < 2 * N)]
  congr 2
  push_cast
  field_simp

/-- The constant radius is at most 13: a cell has less than 40 pixels along each axis. -/
theorem radius_le {pi : ℚ} {pow05 : ℚ → ℚ} (hpi : 3 ≤ pi) (hpow : ∀ (x : ℚ) (k : Nat), x ≤ (k : ℚ) ^ 2 → pow05 x ≤ k)
    {m n : Nat} (hm : 20 ≤ m) (hn : 20 ≤ n) (hm' : m ≤ 2 ^ 25) (hn' : n ≤ 2 ^ 25) :
    radius rnd64 pi pow05 m n (m / 20) (n / 20) ≤ 13 := by
  unfold radius
  have hc : rnd64 (3 / 10) = 5404319552844595 / 18014398509481984 := by decide +kernel
  have hmn : m * n ≤ 2 ^ 50 := (Nat.mul_le_mul hm' hn').trans (by norm_num)
  have hN : 0 < m / 20 := Nat.div_pos hm (by omega)
  have hM : 0 < n / 20 := Nat.div_pos hn (by omega)
  have hNM : 0 < m / 20 * (n / 20) := Nat.mul_pos hN hM
  have hk : m / 20 * (n / 20) ≤ m * n := Nat.mul_le_mul (Nat.div_le_self _ _) (Nat.div_le_self _ _)
  have hcell : m * n ≤ 1521 * (m / 20 * (n / 20)) := by
    have h1 : m ≤ 39 * (m / 20) := by omega
    have h2 : n ≤ 39 * (n / 20) := by omega
    calc m * n ≤ 39 * (m / 20) * (39 * (n / 20)) := Nat.mul_le_mul h1 h2
      _ = 1521 * (m / 20 * (n / 20)) := by ring
  rw [hc, rnd64_nat (hmn.trans (by norm_num)), rnd64_nat (hk.trans (hmn.trans (by norm_num)))]
  have h3 : 3 * (m / 20 * (n / 20)) ≤ 2 ^ 53 := by
    have : (2 : Nat) ^ 53 = 8 * 2 ^ 50 := by norm_num
    omega
  generalize m / 20 * (n / 20) = K at *
  generalize m * n = P at *
  have hP0 : (0 : ℚ) ≤ P := Nat.cast_nonneg P
  have hK0 : (0 : ℚ) < K := by exact_mod_cast hNM
  have hPK : (P : ℚ) ≤ 1521 * K := by exact_mod_cast hcell
  have h1 : rnd64 (5404319552844595 / 18014398509481984 * (P : ℚ)) ≤ 31 / 100 * P := by
    have h := rnd64_error (5404319552844595 / 18014398509481984 * (P : ℚ))
    rw [abs_of_nonneg (show (0 : ℚ) ≤ 5404319552844595 / 18014398509481984 * (P : ℚ) by positivity), abs_le] at h
    have e53 : (2 : ℚ) ^ 53 = 9007199254740992 := by norm_num
    rw [e53] at h
    linarith [h.2]
  have h2 : (3 * K : ℚ) ≤ rnd64 (pi * K) := by
    have h : ((3 * K : Nat) : ℚ) ≤ pi * K := by
      push_cast
      exact mul_le_mul_of_nonneg_right hpi hK0.le
    have := rnd64_monotone h
    rw [rnd64_nat h3] at this
    exact_mod_cast this
  have h4 : rnd64 (5404319552844595 / 18014398509481984 * (P : ℚ)) / rnd64 (pi * K) ≤ ((169 : Nat) : ℚ) := by
    rw [div_le_iff₀ (lt_of_lt_of_le (by positivity) h2)]
    push_cast
    linarith
  have h5 := rnd64_monotone h4
  rw [rnd64_nat (by norm_num)] at h5
  have h6 := hpow _ 13 (h5.trans (by norm_num))
  have h7 := (Int.floor_le _).trans h6
  have h8 : ⌊pow05 (rnd64 (rnd64 (5404319552844595 / 18014398509481984 * (P : ℚ)) / rnd64 (pi * K)))⌋ ≤ (13 : Int) := by
    exact_mod_cast h7
  omega

/-- In double the circles are on the grid of `C63_grid_partial`: the centers are the same integers as in exact
arithmetic, for all images of at most `2 ^ 25` pixels along an axis; the radii are not negative and at most 26 pixels.
Of `pow(x, 0.5)` it is used that it does not exceed `k` if `x` does not exceed `k ^ 2`. *Missing:* smaller images, see
`C63_violated`. -/
theorem C63_double_partial (pi : ℚ) (pow05 : ℚ → ℚ) (randint : Int → Nat → Int) (random : Nat → ℚ) (random' : Nat → ℝ)
    (hr : ∀ i, 0 ≤ random i ∧ random i < 1) (hpi : 3 ≤ pi) (hpow : ∀ (x : ℚ) (k : Nat), x ≤ (k : ℚ) ^ 2 → pow05 x ≤ k)
    (m n : Nat) (hm : 20 ≤ m) (hn : 20 ≤ n) (hm' : m ≤ 2 ^ 25) (hn' : n ≤ 2 ^ 25) :
    ∃ row col r r', randomCirclesIn rnd64 pi pow05 randint random m n = ok (row, col, r) ∧
      randomCircles randint random' m n = ok (row, col, r') ∧ r.length = row.length ∧
      ∀ c ∈ r, 0 ≤ c ∧ c ≤ 26 := by
  have hN : 0 < m / 20 := Nat.div_pos hm (by omega)
  have hM : 0 < n / 20 := Nat.div_pos hn (by omega)
  have hNM : ¬ m / 20 * (n / 20) = 0 := (Nat.mul_pos hN hM).ne'
  have small : ∀ {k : Nat}, k ≤ 2 ^ 25 → k ≤ 2 ^ 50 := fun h => h.trans (by norm_num)
  have e : ∀ {i k : Nat}, k ≤ 2 ^ 25 → 20 ≤ k → i < k / 20 →
      corner rnd64 i k (k / 20) = ((i * k / (k / 20) : Nat) : Int) := by
    intro i k hk hk' hi
    have hi' : i < 2 ^ 25 := (hi.trans_le (Nat.div_le_self k 20)).trans_le hk
    refine corner_eq ?_ (hi'.le.trans (by norm_num)) (hk.trans (by norm_num)) (Nat.div_pos hk' (by omega))
      (((Nat.div_le_self k 20).trans hk).trans (by norm_num))
    calc i * k ≤ 2 ^ 25 * 2 ^ 25 := Nat.mul_le_mul hi'.le hk
      _ < 2 ^ 53 := by norm_num
  have eh : ∀ {k : Nat}, k ≤ 2 ^ 25 → 20 ≤ k → halfCell rnd64 k (k / 20) = ((k / (2 * (k / 20)) : Nat) : Int) := by
    intro k hk hk'
    exact halfCell_eq (hk.trans_lt (by norm_num)) (Nat.div_pos hk' (by omega))
      (((Nat.div_le_self k 20).trans hk).trans (by norm_num))
  unfold randomCirclesIn randomCircles
  simp only [cells_eq (small hm'), cells_eq (small hn'), hNM, if_false, eh hm' hm, eh hn' hn]
  refine ⟨_, _, ((List.range (m / 20)).flatMap fun i => (List.range (n / 20)).map fun j => (i, j)).map fun p =>
      ⌊rnd64 (rnd64 (rnd64 (radius rnd64 pi pow05 m n (m / 20) (n / 20)) * 2) *
        random (3 * (p.1 * (n / 20) + p.2) + 2))⌋, _, ?_, rfl, ?_, ?_⟩
  rotate_left
  · rw [List.length_map, List.length_map]
  · intro c hc
    obtain ⟨p, -, rfl⟩ := List.mem_map.1 hc
    have hu := hr (3 * (p.1 * (n / 20) + p.2) + 2)
    generalize random (3 * (p.1 * (n / 20) + p.2) + 2) = u at hu
    have hb := radius_le hpi hpow hm hn hm' hn'
    generalize radius rnd64 pi pow05 m n (m / 20) (n / 20) = R at hb
    have e1 : rnd64 ((R : ℚ) * 2) = ((2 * R : Nat) : ℚ) := by
      rw [mul_comm, ← Nat.cast_ofNat (R := ℚ), ← Nat.cast_mul]
      exact rnd64_nat (by omega)
    rw [rnd64_nat (hb.trans (by norm_num)), e1]
    have h0 : (0 : ℚ) ≤ (2 * R : Nat) := Nat.cast_nonneg _
    constructor
    · exact Int.floor_nonneg.2 (rnd64_nonneg (mul_nonneg h0 hu.1))
    · have h1 : ((2 * R : Nat) : ℚ) * u ≤ (2 * R : Nat) := by nlinarith [hu.2]
      have h2 := rnd64_monotone h1
      rw [rnd64_nat (show 2 * R ≤ 2 ^ 53 by omega)] at h2
      have h3 := (Int.floor_le _).trans h2
      have h4 : ⌊rnd64 (((2 * R : Nat) : ℚ) * u)⌋ ≤ ((2 * R : Nat) : Int) := by exact_mod_cast h3
      omega
  · congr 2
    · refine List.map_congr_left fun p hp => ?_
      obtain ⟨i, hi, hp⟩ := List.mem_flatMap.1 hp
      obtain ⟨j, hj, rfl⟩ := List.mem_map.1 hp
      have hi := List.mem_range.1 hi
      have hj := List.mem_range.1 hj
      rw [e hm' hm hi]
    · congr 1
      refine List.map_congr_left fun p hp => ?_
      obtain ⟨i, hi, hp⟩ := List.mem_flatMap.1 hp
      obtain ⟨j, hj, rfl⟩ := List.mem_map.1 hp
      have hi := List.mem_range.1 hi
      have hj := List.mem_range.1 hj
      rw [e hn' hn hj]

/-- `M_PI`, a generator that always gives one half, and a bound on the root: an image of 45 by 60 pixels. -/
example : (∀ _ : Nat, (0 : ℚ) ≤ 1 / 2 ∧ (1 / 2 : ℚ) < 1) ∧ (3 : ℚ) ≤ 884279719003555 / 281474976710656 ∧
    (∀ (x : ℚ) (k : Nat), x ≤ (k : ℚ) ^ 2 → ((Nat.sqrt ⌈x⌉.toNat : Nat) : ℚ) ≤ k) := by
  refine ⟨fun _ => by norm_num, by norm_num, fun x k h => ?_⟩
  have h1 : ⌈x⌉ ≤ ((k ^ 2 : Nat) : Int) := Int.ceil_le.2 (by exact_mod_cast h)
  have h2 : Nat.sqrt ⌈x⌉.toNat ≤ Nat.sqrt (k ^ 2) := Nat.sqrt_le_sqrt (by omega)
  rw [Nat.sqrt_eq'] at h2
  exact_mod_cast h2

end Verif.Props
