import Verif.Lemmas.Float
import Verif.Model.Ensemble
import Mathlib.Tactic.Ring
import Mathlib.Tactic.Linarith
import Mathlib.Tactic.FieldSimp
import Mathlib.Tactic.Positivity

/-!
# The error of `variance()` in `double`
-/

namespace Verif.Ens

open Verif Outcome

theorem rnd64_factor (x : ℚ) : ∃ e, |e| ≤ 1 / 2 ^ 53 ∧ rnd64 x = x * (1 + e) := by
  by_cases h : x = 0
  · exact ⟨0, by norm_num, by simp [h, rnd64]⟩
  · refine ⟨(rnd64 x - x) / x, ?_, by field_simp; ring⟩
    rw [abs_div, div_le_iff₀ (abs_pos.2 h)]
    have := rnd64_error x
    rw [one_div_mul_eq_div]
    exact this

theorem three_factors {x y z : ℚ} (hx : |x| ≤ 1 / 2 ^ 53) (hy : |y| ≤ 1 / 2 ^ 53) (hz : |z| ≤ 1 / 2 ^ 53) :
    |(1 + x) * (1 + y) * (1 + z) - 1| ≤ 13 / 2 ^ 55 := by
  have h2 : ∀ {a b : ℚ}, |a| ≤ 1 / 2 ^ 53 → |b| ≤ 1 / 2 ^ 53 → |a * b| ≤ 1 / 2 ^ 106 := by
    intro a b ha hb
    rw [abs_mul]
    exact (mul_le_mul ha hb (abs_nonneg _) (by positivity)).trans (by norm_num)
  have a1 := h2 hx hy
  have a2 := h2 hx hz
  have a3 := h2 hy hz
  have a4 : |x * y * z| ≤ 1 / 2 ^ 106 := by
    rw [abs_mul]
    exact (mul_le_mul a1 hz (abs_nonneg _) (by positivity)).trans (by norm_num)
  have e : (1 + x) * (1 + y) * (1 + z) - 1 = x + y + z + x * y + x * z + y * z + x * y * z := by ring
  rw [e]
  rw [abs_le] at *
  constructor <;> norm_num at * <;> linarith

/-- `variance()` in `double`, from exact moments. -/
theorem varianceOf_error {a b : ℤ} {n : ℕ} (hn : 2 ≤ n) (hbig : n ≤ 2 ^ 53) (hs : (a : ℚ) ^ 2 ≤ n * b) :
    |(varianceOf (⟨a⟩ : Fl rnd64) ⟨b⟩ ⟨n⟩).val - varianceOf (a : ℚ) b n| ≤ b / (n - 1) / 2 ^ 50 := by
  have hn0 : (0 : ℚ) < n := by exact_mod_cast (by omega : 0 < n)
  have hn1 : (0 : ℚ) < (n : ℚ) - 1 := by
    have : (1 : ℚ) < n := by exact_mod_cast (by omega : 1 < n)
    linarith
  have e1 : norm1 (⟨n⟩ : Fl rnd64) = ⟨n⟩ := if_neg fun h => absurd (show (n : ℚ) ≤ 0 from h) (not_le.2 hn0)
  have e2 : norm1 (n : ℚ) = n := if_neg (not_le.2 hn0)
  have e3 : rnd64 ((n : ℚ) - 1) = n - 1 := by
    have := rnd64_int (n := (n : ℤ) - 1) (by rw [abs_of_nonneg (by omega)]; norm_num; omega)
    push_cast at this
    exact this
  unfold varianceOf
  simp only [e1, e2]
  change |rnd64 (rnd64 (rnd64 (rnd64 ((b : ℚ) / n) - rnd64 (rnd64 ((a : ℚ) / n) ^ 2)) * n) / rnd64 ((n : ℚ) - 1)) - _| ≤ _
  rw [e3]
  set q : ℚ := (b : ℚ) / n with hq
  set μ : ℚ := (a : ℚ) / n with hμ
  have hd : μ ^ 2 ≤ q := by
    rw [hq, hμ, div_pow, div_le_div_iff₀ (by positivity) hn0]
    nlinarith
  have hb : (b : ℚ) = q * n := by rw [hq]; field_simp
  rw [hb]
  obtain ⟨x1, h1, r1⟩ := rnd64_factor q
  obtain ⟨x2, h2, r2⟩ := rnd64_factor μ
  obtain ⟨x3, h3, r3⟩ := rnd64_factor (rnd64 μ ^ 2)
  rw [r3, r2, r1]
  generalize hD : q * (1 + x1) - (μ * (1 + x2)) ^ 2 * (1 + x3) = D
  obtain ⟨x4, h4, r4⟩ := rnd64_factor D
  rw [r4]
  obtain ⟨x5, h5, r5⟩ := rnd64_factor (D * (1 + x4) * n)
  rw [r5]
  obtain ⟨x6, h6, r6⟩ := rnd64_factor (D * (1 + x4) * n * (1 + x5) / (n - 1))
  rw [r6]
  have hμ0 : 0 ≤ μ ^ 2 := sq_nonneg _
  have hq0 : 0 ≤ q := hμ0.trans hd
  have hDd : |D - (q - μ ^ 2)| ≤ q * (17 / 2 ^ 55) := by
    have k : |(1 + x2) ^ 2 * (1 + x3) - 1| ≤ 13 / 2 ^ 55 := by
      rw [pow_two]
      exact three_factors h2 h2 h3
    have e : D - (q - μ ^ 2) = q * x1 - μ ^ 2 * ((1 + x2) ^ 2 * (1 + x3) - 1) := by rw [← hD]; ring
    rw [e]
    refine (abs_sub _ _).trans ?_
    rw [abs_mul, abs_mul, abs_of_nonneg hq0, abs_of_nonneg hμ0]
    have a1 := mul_le_mul hd k (abs_nonneg _) hq0
    have a2 := mul_le_mul_of_nonneg_left h1 hq0
    linarith
  have k2 : |(1 + x4) * (1 + x5) * (1 + x6) - 1| ≤ 13 / 2 ^ 55 := three_factors h4 h5 h6
  have e : D * (1 + x4) * n * (1 + x5) / (n - 1) * (1 + x6) - (q - μ ^ 2) * n / (n - 1) =
      (D * ((1 + x4) * (1 + x5) * (1 + x6) - 1) + (D - (q - μ ^ 2))) * (n / (n - 1)) := by
    field_simp
    ring
  rw [e, abs_mul, abs_of_nonneg (div_nonneg hn0.le hn1.le)]
  have hD1 : |D| ≤ q * (1 + 17 / 2 ^ 55) := by
    rw [abs_le] at hDd ⊢
    constructor <;> linarith
  have key : |D * ((1 + x4) * (1 + x5) * (1 + x6) - 1) + (D - (q - μ ^ 2))| ≤ q / 2 ^ 50 := by
    refine (abs_add_le _ _).trans ?_
    rw [abs_mul]
    have := mul_le_mul hD1 k2 (abs_nonneg _) (by positivity)
    norm_num at this hDd ⊢
    linarith
  refine (mul_le_mul_of_nonneg_right key (div_nonneg hn0.le hn1.le)).trans (le_of_eq ?_)
  ring
end Verif.Ens
