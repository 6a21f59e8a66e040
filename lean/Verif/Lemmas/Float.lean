import Verif.Model.Float
import Mathlib.Tactic.Linarith
import Mathlib.Tactic.Ring
import Mathlib.Tactic.NormNum
import Mathlib.Tactic.Positivity
import Mathlib.Tactic.FieldSimp

/-! # Rounding to double precision -/

namespace Verif

theorem roundEven_int (n : ℤ) : roundEven n = n := by
  simp [roundEven]

theorem abs_roundEven (x : ℚ) : |(roundEven x : ℚ) - x| ≤ 1 / 2 := by
  have h1 := Int.floor_le x
  have h2 := Int.lt_floor_add_one x
  unfold roundEven
  split_ifs with a b c
  · rw [abs_le]; constructor <;> linarith
  · rw [abs_le]; push_cast; constructor <;> linarith
  · rw [abs_le]; constructor <;> linarith
  · rw [abs_le]; push_cast; constructor <;> linarith

theorem roundEven_le {x : ℚ} {n : ℤ} (h : x ≤ n) : roundEven x ≤ n := by
  have h1 : ⌊x⌋ ≤ n := by
    have := Int.floor_le x
    exact_mod_cast this.trans h
  rcases h1.eq_or_lt with h1 | h1
  · have : x = n := by
      have := Int.floor_le x
      rw [h1] at this
      linarith
    rw [this, roundEven_int]
  · unfold roundEven
    split_ifs <;> omega

theorem le_roundEven {x : ℚ} {n : ℤ} (h : (n : ℚ) ≤ x) : n ≤ roundEven x := by
  have h1 : n ≤ ⌊x⌋ := Int.le_floor.2 h
  unfold roundEven
  split_ifs <;> omega

theorem ulp_pos (x : ℚ) : 0 < ulp x := by unfold ulp; exact zpow_pos (by norm_num) _

/-- The relative error of a rounding is at most `2 ^ -53`. -/
theorem rnd64_error (x : ℚ) : |rnd64 x - x| ≤ |x| / 2 ^ 53 := by
  unfold rnd64
  split_ifs with h
  · simp [h]
  · have hx : 0 < |x| := abs_pos.2 h
    have hu := ulp_pos x
    have h1 : (roundEven (x / ulp x) : ℚ) * ulp x - x = ((roundEven (x / ulp x) : ℚ) - x / ulp x) * ulp x := by
      field_simp
    rw [h1, abs_mul, abs_of_pos hu]
    have h2 := abs_roundEven (x / ulp x)
    have h3 : ulp x = (2 : ℚ) ^ Int.log 2 |x| / 2 ^ 52 := by
      unfold ulp
      rw [zpow_sub₀ (by norm_num)]
      norm_num
    have h4 := Int.zpow_log_le_self (b := 2) (by norm_num) hx
    have h5 : ulp x ≤ |x| / 2 ^ 52 := by
      rw [h3]
      exact div_le_div_of_nonneg_right (by exact_mod_cast h4) (by positivity)
    calc _ ≤ 1 / 2 * ulp x := mul_le_mul_of_nonneg_right h2 hu.le
      _ ≤ 1 / 2 * (|x| / 2 ^ 52) := by linarith
      _ = |x| / 2 ^ 53 := by ring

/-- Integers up to `2 ^ 53` are not rounded. -/
theorem rnd64_int {n : ℤ} (h : |n| ≤ 2 ^ 53) : rnd64 n = n := by
  unfold rnd64
  split_ifs with h0
  · exact h0.symm
  · have hn : n ≠ 0 := by exact_mod_cast h0
    have hx : (0 : ℚ) < |(n : ℚ)| := abs_pos.2 h0
    have hu := ulp_pos (n : ℚ)
    have h1 : (1 : ℚ) ≤ |(n : ℚ)| := by
      have := Int.one_le_abs hn
      exact_mod_cast this
    have hlog : (0 : ℤ) ≤ Int.log 2 |(n : ℚ)| := by
      rw [Int.log_of_one_le_right 2 h1]; positivity
    obtain ⟨e, he⟩ := Int.eq_ofNat_of_zero_le hlog
    have hpow : (2 : ℚ) ^ e ≤ |(n : ℚ)| := by
      have := Int.zpow_log_le_self (b := 2) (by norm_num) hx
      rw [he] at this
      exact_mod_cast this
    -- `n` is a multiple of its ulp
    have key : ∃ m : ℤ, (n : ℚ) / ulp n = m := by
      unfold ulp
      rw [he]
      by_cases h52 : e ≤ 52
      · refine ⟨n * 2 ^ (52 - e), ?_⟩
        have : ((e : ℤ) - 52) = -((52 - e : ℕ) : ℤ) := by omega
        rw [this, zpow_neg, zpow_natCast]
        push_cast
        field_simp
      · -- then `|n| = 2 ^ 53`
        have h53 : (2 : ℤ) ^ 53 ≤ |n| := by
          have : (2 : ℚ) ^ 53 ≤ 2 ^ e := pow_le_pow_right₀ (by norm_num) (by omega)
          have := this.trans hpow
          exact_mod_cast this
        have h54 : e = 53 := by
          by_contra hne
          have : (2 : ℚ) ^ 54 ≤ 2 ^ e := pow_le_pow_right₀ (by norm_num) (by omega)
          have := this.trans hpow
          have h' : (2 : ℤ) ^ 54 ≤ |n| := by exact_mod_cast this
          norm_num at h h'
          omega
        subst h54
        have : |n| = 2 ^ 53 := le_antisymm h h53
        rcases abs_eq (by norm_num : (0 : ℤ) ≤ 2 ^ 53) |>.1 this with e | e
        · exact ⟨2 ^ 52, by rw [e]; norm_num⟩
        · exact ⟨-2 ^ 52, by rw [e]; norm_num⟩
    obtain ⟨m, hm⟩ := key
    rw [hm, roundEven_int, ← hm]
    field_simp

/-- Scaling by two. -/
theorem rnd64_half (x : ℚ) : rnd64 (x / 2) = rnd64 x / 2 := by
  by_cases h : x = 0
  · simp [h, rnd64]
  have h2 : x / 2 ≠ 0 := by simpa using h
  have hx : 0 < |x| := abs_pos.2 h
  have hlog : Int.log 2 |x / 2| = Int.log 2 |x| - 1 := by
    rw [abs_div, abs_of_pos (show (0 : ℚ) < 2 by norm_num)]
    have a1 := Int.zpow_log_le_self (b := 2) (by norm_num) hx
    have a2 := Int.lt_zpow_succ_log_self (b := 2) (by norm_num) |x|
    have hpos : 0 < |x| / 2 := by linarith
    have b1 := Int.zpow_log_le_self (b := 2) (by norm_num) hpos
    have b2 := Int.lt_zpow_succ_log_self (b := 2) (by norm_num) (|x| / 2)
    push_cast at a1 a2 b1 b2
    apply le_antisymm
    · have : (2 : ℚ) ^ (Int.log 2 (|x| / 2) + 1) < 2 ^ (Int.log 2 |x| + 1) := by
        rw [zpow_add₀ (by norm_num), zpow_one]
        linarith
      have := (zpow_lt_zpow_iff_right₀ (by norm_num : (1 : ℚ) < 2)).1 this
      omega
    · have : (2 : ℚ) ^ (Int.log 2 |x|) < 2 ^ (Int.log 2 (|x| / 2) + 1 + 1) := by
        rw [zpow_add₀ (by norm_num) (_ + 1), zpow_one]
        linarith
      have := (zpow_lt_zpow_iff_right₀ (by norm_num : (1 : ℚ) < 2)).1 this
      omega
  have hulp : ulp (x / 2) = ulp x / 2 := by
    unfold ulp
    rw [hlog, show Int.log 2 |x| - 1 - 52 = (Int.log 2 |x| - 52) - 1 by ring, zpow_sub₀ (by norm_num) (_ - 52), zpow_one]
  unfold rnd64
  rw [if_neg h, if_neg h2, hulp, div_div_div_cancel_right₀ (by norm_num)]
  ring

theorem rnd64_nonneg {x : ℚ} (h : 0 ≤ x) : 0 ≤ rnd64 x := by
  unfold rnd64
  split_ifs with h0
  · exact le_refl _
  · have hu := ulp_pos x
    have : (0 : ℤ) ≤ roundEven (x / ulp x) := le_roundEven (by push_cast; positivity)
    have : (0 : ℚ) ≤ roundEven (x / ulp x) := by exact_mod_cast this
    positivity

/-- Powers of two bound the roundings of what they bound. -/
theorem rnd64_le_two_zpow {x : ℚ} {k : ℤ} (h0 : 0 ≤ x) (h : x ≤ 2 ^ k) : rnd64 x ≤ 2 ^ k := by
  unfold rnd64
  split_ifs with hz
  · exact (zpow_pos (by norm_num) _).le
  · have hx : 0 < x := lt_of_le_of_ne h0 (Ne.symm hz)
    have hu := ulp_pos x
    have hl := Int.zpow_log_le_self (b := 2) (R := ℚ) (by norm_num) hx
    have hlk : Int.log 2 |x| ≤ k := by
      rw [abs_of_pos hx]
      have : ((2 : ℕ) : ℚ) ^ Int.log 2 x ≤ ((2 : ℕ) : ℚ) ^ k := hl.trans (by exact_mod_cast h)
      exact (zpow_le_zpow_iff_right₀ (by norm_num)).1 this
    have e : (2 : ℚ) ^ k = ((2 ^ (52 + (k - Int.log 2 |x|)).toNat : ℤ) : ℚ) * ulp x := by
      unfold ulp
      push_cast
      rw [← zpow_natCast, ← zpow_add₀ (by norm_num)]
      congr 1
      omega
    rw [e]
    refine mul_le_mul_of_nonneg_right ?_ hu.le
    have : x / ulp x ≤ ((2 ^ (52 + (k - Int.log 2 |x|)).toNat : ℤ) : ℚ) := by
      rw [div_le_iff₀ hu, ← e]
      exact h
    exact_mod_cast roundEven_le this

theorem rnd64_le_one {x : ℚ} (h0 : 0 ≤ x) (h : x ≤ 1) : rnd64 x ≤ 1 := by
  have := rnd64_le_two_zpow (k := 0) h0 (by simpa using h)
  simpa using this

theorem two_zpow_le_rnd64 {x : ℚ} {k : ℤ} (h : 2 ^ k ≤ x) : 2 ^ k ≤ rnd64 x := by
  have hp : (0 : ℚ) < 2 ^ k := zpow_pos (by norm_num) _
  have hx : 0 < x := hp.trans_le h
  unfold rnd64
  rw [if_neg hx.ne']
  have hu := ulp_pos x
  have hlk : k ≤ Int.log 2 |x| := by
    rw [abs_of_pos hx]
    have h1 := Int.lt_zpow_succ_log_self (b := 2) (by norm_num) x
    have : ((2 : ℕ) : ℚ) ^ k < ((2 : ℕ) : ℚ) ^ (Int.log 2 x + 1) := lt_of_le_of_lt (by exact_mod_cast h) h1
    have := (zpow_lt_zpow_iff_right₀ (by norm_num)).1 this
    omega
  by_cases h52 : Int.log 2 |x| - 52 ≤ k
  · have e : (2 : ℚ) ^ k = ((2 ^ (52 + (k - Int.log 2 |x|)).toNat : ℤ) : ℚ) * ulp x := by
      unfold ulp
      push_cast
      rw [← zpow_natCast, ← zpow_add₀ (by norm_num)]
      congr 1
      omega
    rw [e]
    refine mul_le_mul_of_nonneg_right ?_ hu.le
    have : ((2 ^ (52 + (k - Int.log 2 |x|)).toNat : ℤ) : ℚ) ≤ x / ulp x := by
      rw [le_div_iff₀ hu, ← e]
      exact h
    exact_mod_cast le_roundEven this
  · have h1 : (2 : ℚ) ^ k ≤ ulp x := by
      unfold ulp
      exact zpow_le_zpow_right₀ (by norm_num) (by omega)
    have h2 : (1 : ℤ) ≤ roundEven (x / ulp x) := by
      refine le_roundEven ?_
      rw [le_div_iff₀ hu]
      have h3 : ulp x ≤ 2 ^ Int.log 2 |x| := by
        unfold ulp
        exact zpow_le_zpow_right₀ (by norm_num) (by omega)
      have h4 := Int.zpow_log_le_self (b := 2) (R := ℚ) (by norm_num) hx
      rw [abs_of_pos hx] at h3
      push_cast at h4 ⊢
      linarith
    have h3 : (1 : ℚ) ≤ roundEven (x / ulp x) := by exact_mod_cast h2
    nlinarith

theorem roundEven_mono {x y : ℚ} (h : x ≤ y) : roundEven x ≤ roundEven y := by
  have hf : ⌊x⌋ ≤ ⌊y⌋ := Int.floor_mono h
  rcases hf.eq_or_lt with e | e
  · unfold roundEven
    rw [e]
    split_ifs <;> first | omega | (exfalso; linarith)
  · have h1 : roundEven x ≤ ⌊x⌋ + 1 := by unfold roundEven; split_ifs <;> omega
    have h2 : ⌊y⌋ ≤ roundEven y := by unfold roundEven; split_ifs <;> omega
    omega

/-- Rounding keeps the order (of non-negative numbers). -/
theorem rnd64_mono {x y : ℚ} (h0 : 0 ≤ x) (h : x ≤ y) : rnd64 x ≤ rnd64 y := by
  rcases h0.eq_or_lt with rfl | hx
  · have : rnd64 0 = 0 := by simp [rnd64]
    rw [this]
    exact rnd64_nonneg h
  · have hy : 0 < y := hx.trans_le h
    have hl : Int.log 2 x ≤ Int.log 2 y := Int.log_mono_right hx h
    rcases hl.eq_or_lt with e | e
    · have hu : ulp x = ulp y := by unfold ulp; rw [abs_of_pos hx, abs_of_pos hy, e]
      unfold rnd64
      rw [if_neg hx.ne', if_neg hy.ne', hu]
      refine mul_le_mul_of_nonneg_right ?_ (ulp_pos y).le
      exact_mod_cast roundEven_mono (div_le_div_of_nonneg_right h (ulp_pos y).le)
    · have h1 : rnd64 x ≤ 2 ^ (Int.log 2 x + 1) := by
        refine rnd64_le_two_zpow hx.le ?_
        exact_mod_cast (Int.lt_zpow_succ_log_self (b := 2) (by norm_num) x).le
      have h2 : (2 : ℚ) ^ Int.log 2 y ≤ rnd64 y := by
        refine two_zpow_le_rnd64 ?_
        exact_mod_cast Int.zpow_log_le_self (b := 2) (by norm_num) hy
      have h3 : (2 : ℚ) ^ (Int.log 2 x + 1) ≤ 2 ^ Int.log 2 y := zpow_le_zpow_right₀ (by norm_num) (by omega)
      linarith

theorem rnd64_two_zpow (k : ℤ) : rnd64 ((2 : ℚ) ^ k) = 2 ^ k :=
  le_antisymm (rnd64_le_two_zpow (zpow_pos (by norm_num) k).le le_rfl) (two_zpow_le_rnd64 le_rfl)

/-- A rounded number is not rounded again. -/
theorem rnd64_idem {x : ℚ} (h0 : 0 ≤ x) : rnd64 (rnd64 x) = rnd64 x := by
  rcases h0.eq_or_lt with rfl | hx
  · simp [rnd64]
  have h1 : rnd64 x ≤ 2 ^ (Int.log 2 x + 1) := by
    refine rnd64_le_two_zpow hx.le ?_
    exact_mod_cast (Int.lt_zpow_succ_log_self (b := 2) (by norm_num) x).le
  have h2 : (2 : ℚ) ^ Int.log 2 x ≤ rnd64 x := by
    refine two_zpow_le_rnd64 ?_
    exact_mod_cast Int.zpow_log_le_self (b := 2) (by norm_num) hx
  rcases h1.eq_or_lt with e | e
  · rw [e, rnd64_two_zpow]
  · have hy : 0 < rnd64 x := lt_of_lt_of_le (zpow_pos (by norm_num) _) h2
    have hl : Int.log 2 (rnd64 x) = Int.log 2 x := by
      apply le_antisymm
      · exact Int.lt_add_one_iff.1 ((Int.lt_zpow_iff_log_lt (by norm_num) hy).1 (by exact_mod_cast e))
      · exact (Int.zpow_le_iff_le_log (by norm_num) hy).1 (by exact_mod_cast h2)
    have hu : ulp (rnd64 x) = ulp x := by unfold ulp; rw [abs_of_pos hx, abs_of_pos hy, hl]
    have hm : rnd64 x = roundEven (x / ulp x) * ulp x := by
      unfold rnd64
      rw [if_neg hx.ne']
    have hd : rnd64 x / ulp x = roundEven (x / ulp x) := by
      rw [hm, mul_div_cancel_right₀ _ (ulp_pos x).ne']
    have hy2 : rnd64 (rnd64 x) = roundEven (rnd64 x / ulp (rnd64 x)) * ulp (rnd64 x) := if_neg hy.ne'
    rw [hy2, hu, hd, roundEven_int, ← hm]

end Verif
