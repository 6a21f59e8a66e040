import Verif.Lemmas.Structure
import Mathlib.NumberTheory.Real.Irrational
import Mathlib.Tactic.NormNum

/-!
# Properties of the Python class `Structure`

A sample is a pair: the content of the uninitialised memory that the call gets (arbitrary), and the data.
-/

namespace Verif.Props

open Verif Outcome Spec Structure Finset

/-! ### C55: the mean of `û(q) û(-q)` -/

/-- One dimension: after any samples the mean is that of `û(q) û(-q) / n` at every frequency that has an
opposite one, and `nan` at the frequency that has none. -/
theorem C55_1d (n : Nat) (hn : 0 < n) (l : List ((Nat → ℝ) × Vec ℝ)) (hl : l ≠ []) (h : ∀ x ∈ l, x.2.size = n) :
    ∃ st, addSamples id l = ok (some st) ∧ (Structure.mean st).size = n ∧
      (∀ k, Paired n k → (Structure.mean st).get k = some ((l.map fun x => factor x.2 (freq n k)).sum / l.length)) ∧
      (∀ k, k < n → ¬ Paired n k → (Structure.mean st).get k = none) := by
  obtain ⟨st, e, i1, i2, i3, i4, i5⟩ := addSamples_ok id hn hl h
  refine ⟨st, e, i1, fun k hk => ?_, fun k hk hp => ?_⟩
  · simp only [Structure.mean, (i4 k hk).1, i3, Option.map_some]
    congr 3
    refine List.map_congr_left fun x hx => ?_
    unfold prod factor
    rw [h x hx]
    rfl
  · simp only [Structure.mean, (i5 k hk hp).1, Option.map_none]

/-- Also the second moment (of which the variance is computed) is that of `û(q) û(-q) / n`. -/
theorem C55_second (n : Nat) (hn : 0 < n) (l : List ((Nat → ℝ) × Vec ℝ)) (hl : l ≠ [])
    (h : ∀ x ∈ l, x.2.size = n) :
    ∃ st, addSamples id l = ok (some st) ∧ st.norm = l.length ∧ ∀ k, Paired n k →
      st.first.get k = some (l.map fun x => factor x.2 (freq n k)).sum ∧
      st.second.get k = some (l.map fun x => factor x.2 (freq n k) ^ 2).sum := by
  obtain ⟨st, e, i1, i2, i3, i4, i5⟩ := addSamples_ok id hn hl h
  have hp : ∀ k, ∀ x ∈ l, prod id x.2 k / n = factor x.2 (freq n k) := by
    intro k x hx
    unfold prod factor
    rw [h x hx]
    rfl
  refine ⟨st, e, i3, fun k hk => ⟨?_, ?_⟩⟩
  · rw [(i4 k hk).1]
    congr 2
    exact List.map_congr_left fun x hx => hp k x hx
  · rw [(i4 k hk).2]
    congr 2
    refine List.map_congr_left fun x hx => ?_
    rw [hp k x hx]

/-- Two dimensions: the mean is right at the frequencies of which both components are non-negative, or both
are negative. *Missing:* the other frequencies, see `C55_violated` and `C55_junk_violated`. -/
theorem C55_2d_partial (m n : Nat) (hm : 0 < m) (hn : 0 < n) (hp : m % 2 = n % 2)
    (l : List ((Nat → Nat → ℝ) × Mat ℝ)) (hl : l ≠ []) (h : ∀ x ∈ l, x.2.rows = m ∧ x.2.cols = n) :
    ∃ st, addSamples2 id l = ok (some st) ∧ (mean2 st).rows = m ∧ (mean2 st).cols = n ∧
      (∀ i j, Paired m i → Paired n j →
        (0 ≤ freq m i ∧ 0 ≤ freq n j) ∨ (freq m i < 0 ∧ freq n j < 0) →
        (mean2 st).get i j = some ((l.map fun x => factor2 x.2 (freq m i) (freq n j)).sum / l.length)) ∧
      (∀ i j, i < m → j < n → ¬ Paired m i ∨ ¬ Paired n j → (mean2 st).get i j = none) := by
  obtain ⟨st, e, i1, i2, i3, i4, i5⟩ := addSamples2_ok id hm hn hp hl h
  obtain ⟨f1, f2, f3, f4, f5, f6, f7, f8⟩ := stop_facts hm
  obtain ⟨g1, g2, g3, g4, g5, g6, g7, g8⟩ := stop_facts hn
  have sm : stop m = m / 2 ∨ stop m = m / 2 + 1 := by unfold stop; split <;> simp
  have hfreq : ∀ {n k : Nat}, Paired n k → (0 ≤ freq n k ↔ 2 * k < n) := by
    intro n k hk
    unfold freq
    unfold Paired at hk
    split <;> omega
  refine ⟨st, e, i1, i2, fun i j hi hj hs => ?_, fun i j hi hj hs => ?_⟩
  · have hr : Region m n i j := by
      have a := hfreq hi
      have b := hfreq hj
      have hi1 := hi.1
      have hi2 := hi.2
      have hj1 := hj.1
      have hj2 := hj.2
      rcases hs with hs | hs
      · have := a.1 hs.1
        have := b.1 hs.2
        exact Or.inl ⟨by omega, by omega⟩
      · have h1 : ¬ 2 * i < m := fun hc => by have := a.2 hc; omega
        have h2 : ¬ 2 * j < n := fun hc => by have := b.2 hc; omega
        exact Or.inr ⟨by omega, by omega, by omega, by omega⟩
    simp only [mean2, i4 i j hr, i3, Option.map_some]
    congr 3
    refine List.map_congr_left fun x hx => ?_
    unfold prod2 factor2
    rw [(h x hx).1, (h x hx).2]
    rfl
  · have : 2 * i = m ∨ 2 * j = n := by
      unfold Paired at hs
      omega
    simp only [mean2, i5 i j hi hj this, Option.map_none]

/-- Sizes of different parity are rejected. -/
theorem C55_parity (cast : ℝ → ℝ) (junk : Nat → Nat → ℝ) (u : Mat ℝ) (hm : 0 < u.rows) (hn : 0 < u.cols)
    (hp : u.rows % 2 ≠ u.cols % 2) : addSample2 cast none junk u = throws := by
  obtain ⟨y, e, h1, h2, -⟩ := sample2_ok cast junk hm hn
  unfold addSample2
  rw [e]
  simp only [ok_bind, allocate2, h1, h2]
  rw [if_pos hp]
  rfl

/-- The unit matrix of size three. -/
def unit3 : Mat ℝ := ⟨3, 3, fun i j => if i = j then 1 else 0⟩

theorem unit3_fourier (p q : Int) : fourier2 unit3 p q = if (3 : Int) ∣ p + q then 3 else 0 := by
  have h := char_sum (n := 3) (by norm_num) (p + q)
  have e : fourier2 unit3 p q =
      ∑ j ∈ range 3, Complex.exp (-(2 * Real.pi * Complex.I * (((p + q) * j : Int) : ℂ) / (3 : Nat))) := by
    unfold fourier2
    show ∑ i ∈ range 3, ∑ j ∈ range 3, _ = _
    refine Finset.sum_congr rfl fun i hi => ?_
    rw [Finset.sum_eq_single i]
    · show ((if i = i then (1 : ℝ) else 0 : ℝ) : ℂ) * Complex.exp (-(2 * Real.pi * Complex.I * ((p * i : Int) : ℂ) / (3 : Nat))) *
        Complex.exp (-(2 * Real.pi * Complex.I * ((q * i : Int) : ℂ) / (3 : Nat))) = _
      rw [if_pos rfl, Complex.ofReal_one, one_mul, ← Complex.exp_add]
      congr 1
      push_cast
      ring
    · intro j _ hj
      show ((if i = j then (1 : ℝ) else 0 : ℝ) : ℂ) * _ * _ = 0
      rw [if_neg (Ne.symm hj)]
      simp
    · intro hni
      exact (hni hi).elim
  rw [e, h]
  norm_cast

/-- The violated claim in two dimensions: for the unit matrix of size three the entry of frequency `(1, -1)`
is zero, instead of `û(1, -1) û(-1, 1) / 9 = 1`. -/
theorem C55_violated (junk : Nat → Nat → ℝ) :
    ∃ st, addSamples2 id [(junk, unit3)] = ok (some st) ∧ (freq 3 1 = 1 ∧ freq 3 2 = -1) ∧
      factor2 unit3 1 (-1) = 1 ∧ (mean2 st).get 1 2 = some 0 := by
  obtain ⟨x, e, h1, h2, -, h3, -⟩ := sample2_ok id junk (u := unit3) (by decide) (by decide)
  have h3 := h3 1 2 (by decide) (by decide) (by decide) (by decide)
  have hx : x.get 1 2 = 0 := by
    rw [h3]
    have : fourier2 unit3 (1 : Nat) ((2 - start unit3.cols + 1 : Nat) : Int) = 0 := by
      rw [unit3_fourier, if_neg (by decide)]
    rw [this]
    simp
  obtain ⟨st, es, hst⟩ := single2_ok e (by rw [h1]; rfl) (by rw [h2]; rfl)
  refine ⟨st, es, ⟨by decide, by decide⟩, ?_, by rw [hst, hx]⟩
  unfold factor2
  rw [unit3_fourier, unit3_fourier, if_pos (by decide), if_pos (by decide)]
  show ((3 : ℂ) * 3).re / ((3 * 3 : Nat) : ℝ) = 1
  norm_num

/-- The violated claim in two dimensions: entries whose first frequency is zero and whose second is negative are
never computed. They are whatever was in the memory. -/
theorem C55_junk_violated (value : ℝ) :
    ∃ junk st, addSamples2 id [(junk, unit3)] = ok (some st) ∧ freq 3 2 = -1 ∧ (mean2 st).get 0 2 = some value := by
  obtain ⟨x, e, h1, h2, -, -, h3⟩ := sample2_ok id (fun _ _ => 9 * value) (u := unit3) (by decide) (by decide)
  have h3 := h3 2 (by decide) (by decide)
  have hx : x.get 0 2 = value := by
    rw [h3]
    show 9 * value / ((3 * 3 : Nat) : ℝ) = value
    push_cast
    ring
  obtain ⟨st, es, hst⟩ := single2_ok e (by rw [h1]; rfl) (by rw [h2]; rfl)
  exact ⟨_, st, es, by decide, by rw [hst, hx]⟩

/-- The sample `1, 1, 0, 0, 0, 0, 0, 0`. -/
def pair8 : Vec ℝ := ⟨8, fun j => if j < 2 then 1 else 0⟩

theorem pair8_factor : factor pair8 1 = (2 + √2) / 8 := by
  have hf : fourier pair8 1 = ⟨1 + √2 / 2, -(√2 / 2)⟩ := by
    unfold fourier
    show ∑ j ∈ range 8, (((if j < 2 then (1 : ℝ) else 0 : ℝ)) : ℂ) * _ = _
    simp only [Finset.sum_range_succ, Finset.sum_range_zero]
    norm_num
    have e : -(2 * (Real.pi : ℂ) * Complex.I / (pair8.size : ℂ)) = ((-(Real.pi / 4) : ℝ) : ℂ) * Complex.I := by
      show -(2 * (Real.pi : ℂ) * Complex.I / ((8 : Nat) : ℂ)) = _
      push_cast
      ring
    rw [e, Complex.exp_mul_I, ← Complex.ofReal_cos, ← Complex.ofReal_sin, Real.cos_neg, Real.sin_neg,
      Real.cos_pi_div_four, Real.sin_pi_div_four]
    apply Complex.ext <;> simp
  rw [factor_sq, hf, Complex.normSq_mk]
  show _ / ((8 : Nat) : ℝ) = _
  have := Real.mul_self_sqrt (show (0 : ℝ) ≤ 2 by norm_num)
  push_cast
  congr 1
  linear_combination (1 / 2 : ℝ) * this

/-- The violated claim for samples of integers: the products are converted to integers, however this is done. -/
theorem C55_integer_violated (cast : ℝ → ℝ) (hc : ∀ x, ∃ z : Int, cast x = z) (junk : Nat → ℝ) :
    ∃ st, addSamples cast [(junk, pair8)] = ok (some st) ∧ Paired 8 1 ∧
      (Structure.mean st).get 1 ≠ some (factor pair8 (freq 8 1)) := by
  obtain ⟨st, e, i1, i2, i3, i4, i5⟩ := addSamples_ok cast (n := 8) (by norm_num) (l := [(junk, pair8)]) (by simp)
    (by intro x hx; rw [List.mem_singleton.1 hx]; rfl)
  have hp : Paired 8 1 := ⟨by norm_num, by norm_num⟩
  refine ⟨st, e, hp, ?_⟩
  rw [show freq 8 1 = 1 from rfl, pair8_factor]
  simp only [Structure.mean, (i4 1 hp).1, i3, Option.map_some]
  intro h
  obtain ⟨z, hz⟩ := hc (fourier pair8 (freq pair8.size 1) * fourier pair8 (-freq pair8.size 1)).re
  simp only [List.map_cons, List.map_nil, List.sum_cons, List.sum_nil, List.length_singleton, Option.some.injEq,
    prod, hz] at h
  have h2 : √2 = ((z - 2 : Int) : ℝ) := by
    push_cast at h ⊢
    linarith
  exact (irrational_sqrt_two.ne_int (z - 2)) h2

example : ∀ x ∈ [((fun _ => 0 : Nat → ℝ), pair8)], x.2.size = 8 := by
  intro x hx
  rw [List.mem_singleton.1 hx]
  rfl

/-! ### C64: properties of the one-dimensional structure factor -/

/-- The mean is not negative. -/
theorem C64_nonneg (n : Nat) (hn : 0 < n) (l : List ((Nat → ℝ) × Vec ℝ)) (hl : l ≠ []) (h : ∀ x ∈ l, x.2.size = n) :
    ∃ st, addSamples id l = ok (some st) ∧ ∀ k, Paired n k → ∃ y, (Structure.mean st).get k = some y ∧ 0 ≤ y := by
  obtain ⟨st, e, i1, i2, i3⟩ := C55_1d n hn l hl h
  refine ⟨st, e, fun k hk => ⟨_, i2 k hk, ?_⟩⟩
  refine div_nonneg (List.sum_nonneg fun y hy => ?_) (Nat.cast_nonneg _)
  rw [List.mem_map] at hy
  obtain ⟨x, hx, rfl⟩ := hy
  rw [factor_sq]
  exact div_nonneg (Complex.normSq_nonneg _) (Nat.cast_nonneg _)

/-- Opposite frequencies have the same mean. -/
theorem C64_symmetric (n : Nat) (hn : 0 < n) (l : List ((Nat → ℝ) × Vec ℝ)) (hl : l ≠ [])
    (h : ∀ x ∈ l, x.2.size = n) :
    ∃ st, addSamples id l = ok (some st) ∧ ∀ k, 0 < k → k < n →
      (Structure.mean st).get (n - k) = (Structure.mean st).get k := by
  obtain ⟨st, e, i1, i2, i3⟩ := C55_1d n hn l hl h
  refine ⟨st, e, fun k h0 hk => ?_⟩
  by_cases hp : Paired n k
  · have hp' : Paired n (n - k) := by
      unfold Paired at hp ⊢
      omega
    rw [i2 k hp, i2 (n - k) hp']
    have : freq n (n - k) = -freq n k := by
      unfold freq
      unfold Paired at hp
      split <;> split <;> omega
    rw [this]
    simp only [factor_neg]
  · have hp' : ¬ Paired n (n - k) := by
      unfold Paired at hp ⊢
      omega
    rw [i3 k hk hp, i3 (n - k) (by omega) hp']

/-- Shifting samples periodically (each by any number of pixels) does not matter. -/
theorem C64_roll (n : Nat) (hn : 0 < n) (l l' : List ((Nat → ℝ) × Vec ℝ)) (hl : l ≠ [])
    (h : List.Forall₂ (fun x y => x.2.size = n ∧ y.2.size = n ∧
      ∃ t, ∀ j < n, y.2.get j = x.2.get ((j + t) % n)) l l') :
    ∃ st st', addSamples id l = ok (some st) ∧ addSamples id l' = ok (some st') ∧
      ∀ k < n, (Structure.mean st').get k = (Structure.mean st).get k := by
  have hl' : l' ≠ [] := by
    rintro rfl
    cases h
    exact hl rfl
  have hx : ∀ x ∈ l, x.2.size = n := by
    intro x hx
    obtain ⟨y, hy⟩ := forall₂_left h x hx
    exact hy.1
  have hy : ∀ x ∈ l', x.2.size = n := by
    intro x hx
    obtain ⟨y, hy⟩ := forall₂_left h.flip x hx
    exact hy.2.1
  obtain ⟨st, e, -, i2, i3⟩ := C55_1d n hn l hl hx
  obtain ⟨st', e', -, i2', i3'⟩ := C55_1d n hn l' hl' hy
  refine ⟨st, st', e, e', fun k hk => ?_⟩
  by_cases hp : Paired n k
  · rw [i2 k hp, i2' k hp, h.length_eq]
    congr 3
    have : List.Forall₂ (fun a b => a = b) (l.map fun x => factor x.2 (freq n k))
        (l'.map fun x => factor x.2 (freq n k)) := by
      rw [List.forall₂_map_left_iff, List.forall₂_map_right_iff]
      refine h.imp ?_
      rintro a b ⟨h1, h2, t, ht⟩
      exact (factor_roll (freq n k) t (by omega) (by rw [h1]; exact ht)).symm
    exact (List.forall₂_eq_eq_eq ▸ this).symm
  · rw [i3 k hk hp, i3' k hk hp]

/-- Adding a constant to each of the samples changes frequency zero only. -/
theorem C64_constant (n : Nat) (hn : 0 < n) (l l' : List ((Nat → ℝ) × Vec ℝ)) (hl : l ≠ [])
    (h : List.Forall₂ (fun x y => x.2.size = n ∧ y.2.size = n ∧ ∃ c : ℝ, ∀ j < n, y.2.get j = x.2.get j + c) l l') :
    ∃ st st', addSamples id l = ok (some st) ∧ addSamples id l' = ok (some st') ∧
      ∀ k, 0 < k → k < n → (Structure.mean st').get k = (Structure.mean st).get k := by
  have hl' : l' ≠ [] := by
    rintro rfl
    cases h
    exact hl rfl
  have hx : ∀ x ∈ l, x.2.size = n := by
    intro x hx
    obtain ⟨y, hy⟩ := forall₂_left h x hx
    exact hy.1
  have hy : ∀ x ∈ l', x.2.size = n := by
    intro x hx
    obtain ⟨y, hy⟩ := forall₂_left h.flip x hx
    exact hy.2.1
  obtain ⟨st, e, -, i2, i3⟩ := C55_1d n hn l hl hx
  obtain ⟨st', e', -, i2', i3'⟩ := C55_1d n hn l' hl' hy
  refine ⟨st, st', e, e', fun k h0 hk => ?_⟩
  by_cases hp : Paired n k
  · rw [i2 k hp, i2' k hp, h.length_eq]
    congr 3
    have : List.Forall₂ (fun a b => a = b) (l.map fun x => factor x.2 (freq n k))
        (l'.map fun x => factor x.2 (freq n k)) := by
      rw [List.forall₂_map_left_iff, List.forall₂_map_right_iff]
      refine h.imp ?_
      rintro a b ⟨h1, h2, c, hc⟩
      refine (factor_const (by omega) c (by omega) (by rw [h1]; exact hc) ?_).symm
      rw [h1]
      rintro ⟨z, hz⟩
      have hz0 : z ≠ 0 := by
        rintro rfl
        unfold freq at hz
        split at hz <;> omega
      have h3 : (n : Int) ≤ |freq n k| := by
        rw [hz, abs_mul, abs_of_nonneg (by positivity : (0 : Int) ≤ n)]
        have := Int.one_le_abs hz0
        nlinarith
      have h4 : |freq n k| < n := by
        rw [abs_lt]
        unfold freq
        split <;> omega
      omega
    exact (List.forall₂_eq_eq_eq ▸ this).symm
  · rw [i3 k hk hp, i3' k hk hp]

/-- Scaling all samples scales the mean with the square. -/
theorem C64_scale (n : Nat) (hn : 0 < n) (l l' : List ((Nat → ℝ) × Vec ℝ)) (hl : l ≠ []) (c : ℝ)
    (h : List.Forall₂ (fun x y => x.2.size = n ∧ y.2.size = n ∧ ∀ j < n, y.2.get j = c * x.2.get j) l l') :
    ∃ st st', addSamples id l = ok (some st) ∧ addSamples id l' = ok (some st') ∧
      ∀ k < n, (Structure.mean st').get k = ((Structure.mean st).get k).map fun y => c ^ 2 * y := by
  have hl' : l' ≠ [] := by
    rintro rfl
    cases h
    exact hl rfl
  have hx : ∀ x ∈ l, x.2.size = n := by
    intro x hx
    obtain ⟨y, hy⟩ := forall₂_left h x hx
    exact hy.1
  have hy : ∀ x ∈ l', x.2.size = n := by
    intro x hx
    obtain ⟨y, hy⟩ := forall₂_left h.flip x hx
    exact hy.2.1
  obtain ⟨st, e, -, i2, i3⟩ := C55_1d n hn l hl hx
  obtain ⟨st', e', -, i2', i3'⟩ := C55_1d n hn l' hl' hy
  refine ⟨st, st', e, e', fun k hk => ?_⟩
  by_cases hp : Paired n k
  · rw [i2 k hp, i2' k hp, h.length_eq, Option.map_some, ← mul_div_assoc]
    congr 2
    clear i2 i2' i3 i3' e e' hl hl' hx hy
    induction h with
    | nil => simp
    | cons hab _ ih =>
      obtain ⟨h1, h2, hc⟩ := hab
      simp only [List.map_cons, List.sum_cons, ih]
      rw [factor_scale c (h2.trans h1.symm) (by rw [h1]; exact hc)]
      ring
  · rw [i3 k hk hp, i3' k hk hp, Option.map_none]

/-- For an odd size the sum over the frequencies of the mean is the mean of the sum of squares of the sample. -/
theorem C64_parseval (n : Nat) (hn : n % 2 = 1) (l : List ((Nat → ℝ) × Vec ℝ)) (hl : l ≠ [])
    (h : ∀ x ∈ l, x.2.size = n) :
    ∃ st, addSamples id l = ok (some st) ∧ ∃ s : Nat → ℝ, (∀ k < n, (Structure.mean st).get k = some (s k)) ∧
      ∑ k ∈ range n, s k = (l.map fun x => ∑ j ∈ range n, x.2.get j ^ 2).sum / l.length := by
  obtain ⟨st, e, -, i2, -⟩ := C55_1d n (by omega) l hl h
  refine ⟨st, e, fun k => (l.map fun x => factor x.2 (freq n k)).sum / l.length, fun k hk => ?_, ?_⟩
  · exact i2 k ⟨hk, by omega⟩
  · rw [← Finset.sum_div]
    congr 1
    clear i2 e hl
    induction l with
    | nil => simp
    | cons x l ih =>
      simp only [List.map_cons, List.sum_cons]
      rw [Finset.sum_add_distrib, ih fun y hy => h y (List.mem_cons_of_mem _ hy)]
      congr 1
      have hx := h x List.mem_cons_self
      have h0 : 0 < x.2.size := by omega
      rw [← hx, ← parseval h0]
      refine Finset.sum_congr rfl fun k _ => ?_
      unfold freq
      split
      · rfl
      · rw [← factor_add h0, Int.sub_add_cancel]

example : ∃ t, ∀ j < 8, (⟨8, fun j => if j = 6 ∨ j = 7 then 1 else 0⟩ : Vec ℝ).get j = pair8.get ((j + t) % 8) := by
  refine ⟨2, fun j hj => ?_⟩
  have : j = 6 ∨ j = 7 ↔ (j + 2) % 8 < 2 := by omega
  simp only [pair8, this]

/-! ### C65: qnorm -/

/-- `qnorm` has the modulus of the frequency of the entries of the mean from the first one on. Every frequency
that has an opposite one is in it once, up to its sign, and the means agree. -/
theorem C65_qnorm (n : Nat) (hn : 0 < n) (l : List ((Nat → ℝ) × Vec ℝ)) (hl : l ≠ []) (h : ∀ x ∈ l, x.2.size = n) :
    ∃ st, addSamples id l = ok (some st) ∧
      (∀ i < (qnorm st).size, Paired n i ∧ (qnorm st).get i = |(freq n i : ℝ)| / n) ∧
      ∀ k, Paired n k → ∃ i < (qnorm st).size, (qnorm st).get i = |(freq n k : ℝ)| / n ∧
        (Structure.mean st).get i = (Structure.mean st).get k ∧
        ∀ i' < (qnorm st).size, (qnorm st).get i' = |(freq n k : ℝ)| / n → i' = i := by
  obtain ⟨st, e, i1, i2, i3⟩ := C55_1d n hn l hl h
  obtain ⟨f1, f2, f3, f4, f5, f6, f7, f8⟩ := stop_facts hn
  have i1 : st.first.size = n := i1
  have hn' : (0 : ℝ) < n := by exact_mod_cast hn
  have hs : (qnorm st).size = stop n := by
    unfold qnorm slice
    rw [i1]
    show min (stop n) n - 0 = stop n
    omega
  have hq : ∀ i, (qnorm st).get i = |(freq n i : ℝ)| / n := by
    intro i
    unfold qnorm slice fftfreq freq
    rw [i1]
    dsimp only
    rw [Nat.zero_add, abs_div, abs_of_pos hn']
    split <;> push_cast <;> rfl
  have hst : ∀ i < stop n, Paired n i ∧ freq n i = i := by
    intro i hi
    have : 2 * i < n := by
      unfold stop at hi
      split at hi <;> omega
    refine ⟨⟨by omega, by omega⟩, ?_⟩
    unfold freq
    rw [if_pos (by omega)]
  have habs : ∀ k, (|(freq n k : ℝ)| : ℝ) = ((freq n k).natAbs : ℝ) := by
    intro k
    rw [Nat.cast_natAbs, Int.cast_abs]
  refine ⟨st, e, fun i hi => ?_, fun k hk => ⟨(freq n k).natAbs, ?_, ?_, ?_, fun i' hi' hi2 => ?_⟩⟩
  · rw [hs] at hi
    exact ⟨(hst i hi).1, hq i⟩
  · rw [hs]
    unfold Paired at hk
    unfold freq stop
    split <;> split <;> omega
  · have hlt : (freq n k).natAbs < stop n := by
      unfold Paired at hk
      unfold freq stop
      split <;> split <;> omega
    rw [hq, (hst _ hlt).2, habs, Int.cast_natCast, abs_of_nonneg (Nat.cast_nonneg _)]
  · have hlt : (freq n k).natAbs < stop n := by
      unfold Paired at hk
      unfold freq stop
      split <;> split <;> omega
    rw [i2 _ (hst _ hlt).1, i2 k hk, (hst _ hlt).2]
    have : ∀ x : (Nat → ℝ) × Vec ℝ, factor x.2 ((freq n k).natAbs : Int) = factor x.2 (freq n k) := by
      intro x
      rcases Int.natAbs_eq (freq n k) with hh | hh
      · rw [← hh]
      · rw [← factor_neg, ← hh]
    simp only [this]
  · rw [hs] at hi'
    rw [hq, (hst i' hi').2, habs] at hi2
    have h3 := (div_left_inj' hn'.ne').1 hi2
    rw [Int.cast_natCast, abs_of_nonneg (Nat.cast_nonneg _)] at h3
    exact_mod_cast h3

/-- In two dimensions `qnorm` has the norm of the frequency of the entries from the first one on, and these are
among the entries that are right. -/
theorem C65_qnorm2 (m n : Nat) (hm : 0 < m) (hn : 0 < n) (hp : m % 2 = n % 2)
    (l : List ((Nat → Nat → ℝ) × Mat ℝ)) (hl : l ≠ []) (h : ∀ x ∈ l, x.2.rows = m ∧ x.2.cols = n) :
    ∃ st, addSamples2 id l = ok (some st) ∧ ∀ i j, i < (qnorm2 st).rows → j < (qnorm2 st).cols →
      (qnorm2 st).get i j = √(((freq m i : ℝ) / m) ^ 2 + ((freq n j : ℝ) / n) ^ 2) ∧
      (mean2 st).get i j = some ((l.map fun x => factor2 x.2 (freq m i) (freq n j)).sum / l.length) := by
  obtain ⟨st, e, i1, i2, i3, -⟩ := C55_2d_partial m n hm hn hp l hl h
  have i1 : st.first.rows = m := i1
  have i2 : st.first.cols = n := i2
  have hff : ∀ n i : Nat, fftfreq n i = (freq n i : ℝ) / n := by
    intro n i
    unfold fftfreq freq
    split <;> push_cast <;> rfl
  have hst : ∀ n i, i < min (stop n) n - 0 → Paired n i ∧ 0 ≤ freq n i := by
    intro n i hi
    have : 2 * i < n := by
      unfold stop at hi
      split at hi <;> omega
    refine ⟨⟨by omega, by omega⟩, ?_⟩
    unfold freq
    rw [if_pos (by omega)]
    omega
  refine ⟨st, e, fun i j hi hj => ?_⟩
  unfold qnorm2 slice2 at hi hj ⊢
  rw [i1] at hi
  rw [i2] at hj
  have a := hst m i hi
  have b := hst n j hj
  refine ⟨?_, i3 i j a.1 b.1 (Or.inl ⟨a.2, b.2⟩)⟩
  rw [i1, i2]
  dsimp only
  rw [Nat.zero_add, Nat.zero_add, hff, hff]

/-! ### C79: the frequencies of the entries -/

theorem fftfreq_eq (n i : Nat) : fftfreq n i = (freq n i : ℝ) / n := by
  unfold fftfreq freq
  split <;> push_cast <;> rfl

/-- For real samples `û(q) û(-q)` is the power. -/
theorem factor_power {u : Vec ℝ} {n k : Nat} (hu : u.size = n) :
    factor u (freq n k) = power u (fftfreq n k) := by
  have e : ∀ q : Int, fourier u (-q) = (starRingEnd ℂ) (fourier u q) := by
    intro q
    unfold fourier
    rw [map_sum]
    refine Finset.sum_congr rfl fun j _ => ?_
    rw [map_mul, Complex.conj_ofReal, ← Complex.exp_conj]
    congr 2
    simp only [map_neg, map_div₀, map_mul, Complex.conj_I, Complex.conj_ofReal, map_ofNat, map_natCast, map_intCast]
    push_cast
    ring
  unfold factor power
  rw [e, Complex.mul_conj, Complex.ofReal_re, Complex.normSq_eq_norm_sq]
  congr 3
  unfold fourier
  refine Finset.sum_congr rfl fun j _ => ?_
  rw [fftfreq_eq, hu]
  congr 2
  push_cast
  ring

/-- For real samples `û(p, q) û(-p, -q)` is the power. -/
theorem factor_power2 {u : Mat ℝ} {m n i j : Nat} (hm : u.rows = m) (hn : u.cols = n) :
    factor2 u (freq m i) (freq n j) = power2 u (fftfreq m i) (fftfreq n j) := by
  have e : ∀ p q : Int, fourier2 u (-p) (-q) = (starRingEnd ℂ) (fourier2 u p q) := by
    intro p q
    unfold fourier2
    rw [map_sum]
    refine Finset.sum_congr rfl fun j _ => ?_
    rw [map_sum]
    refine Finset.sum_congr rfl fun j _ => ?_
    rw [map_mul, map_mul, Complex.conj_ofReal, ← Complex.exp_conj, ← Complex.exp_conj]
    congr 3
    · simp only [map_neg, map_div₀, map_mul, Complex.conj_I, Complex.conj_ofReal, map_ofNat, map_natCast, map_intCast]
      push_cast
      ring
    · simp only [map_neg, map_div₀, map_mul, Complex.conj_I, Complex.conj_ofReal, map_ofNat, map_natCast, map_intCast]
      push_cast
      ring
  unfold factor2 power2
  rw [e, Complex.mul_conj, Complex.ofReal_re, Complex.normSq_eq_norm_sq]
  congr 3
  unfold fourier2
  refine Finset.sum_congr rfl fun a _ => Finset.sum_congr rfl fun b _ => ?_
  rw [fftfreq_eq, fftfreq_eq, hm, hn, mul_assoc, ← Complex.exp_add]
  congr 2
  push_cast
  ring

/-- One dimension: `q` has the frequency of each entry, between -1/2 (included) and 1/2, for any `axis`: the
mean of an entry is the mean of the power of the samples at that frequency, except at the frequency -1/2, which
has no opposite one. -/
theorem C79_q (axis : Option Int) (n : Nat) (hn : 0 < n) (l : List ((Nat → ℝ) × Vec ℝ)) (hl : l ≠ [])
    (h : ∀ x ∈ l, x.2.size = n) :
    ∃ st, addSamples id l = ok (some st) ∧ (q st axis).size = n ∧ (Structure.mean st).size = n ∧
      (∀ k < n, -(1 / 2) ≤ (q st axis).get k ∧ (q st axis).get k < 1 / 2) ∧
      (∀ k < n, (q st axis).get k ≠ -(1 / 2) → (Structure.mean st).get k =
        some ((l.map fun x => power x.2 ((q st axis).get k)).sum / l.length)) ∧
      (∀ k < n, (q st axis).get k = -(1 / 2) → (Structure.mean st).get k = none) := by
  obtain ⟨st, e, i1, i2, i3⟩ := C55_1d n hn l hl h
  have hs : st.first.size = n := i1
  have hn' : (0 : ℝ) < n := by exact_mod_cast hn
  have hq : ∀ k, (q st axis).get k = (freq n k : ℝ) / n := by
    intro k
    unfold q
    rw [hs]
    exact fftfreq_eq n k
  have hb : ∀ k < n, -n ≤ 2 * freq n k ∧ 2 * freq n k < n ∧ (2 * freq n k = -n ↔ ¬ Paired n k) := by
    intro k hk
    unfold Paired freq
    split <;> omega
  have hhalf : ∀ k, (q st axis).get k = -(1 / 2) ↔ 2 * freq n k = -n := by
    intro k
    rw [hq, div_eq_iff hn'.ne', ← @Int.cast_inj ℝ]
    push_cast
    constructor <;> intro h <;> linarith
  refine ⟨st, e, hs, i1, fun k hk => ?_, fun k hk hne => ?_, fun k hk heq => ?_⟩
  · obtain ⟨h1, h2, -⟩ := hb k hk
    rw [hq, le_div_iff₀ hn', div_lt_iff₀ hn']
    have h1 : (-n : ℝ) ≤ 2 * freq n k := by exact_mod_cast h1
    have h2 : (2 * freq n k : ℝ) < n := by exact_mod_cast h2
    constructor <;> linarith
  · have hp : Paired n k := by
      by_contra hc
      exact hne ((hhalf k).2 ((hb k hk).2.2.2 hc))
    rw [i2 k hp]
    congr 3
    refine List.map_congr_left fun x hx => ?_
    rw [factor_power (h x hx), hq, fftfreq_eq]
  · exact i3 k hk ((hb k hk).2.2.1 ((hhalf k).1 heq))

/-- The frequencies are different. -/
theorem C79_distinct (axis : Option Int) (n : Nat) (hn : 0 < n) (l : List ((Nat → ℝ) × Vec ℝ)) (hl : l ≠ [])
    (h : ∀ x ∈ l, x.2.size = n) :
    ∃ st, addSamples id l = ok (some st) ∧
      ∀ k < n, ∀ k' < n, (q st axis).get k = (q st axis).get k' → k = k' := by
  obtain ⟨st, e, i1, -, -⟩ := C55_1d n hn l hl h
  have hs : st.first.size = n := i1
  have hn' : (0 : ℝ) < n := by exact_mod_cast hn
  refine ⟨st, e, fun k hk k' hk' he => ?_⟩
  unfold q at he
  rw [hs] at he
  dsimp only at he
  rw [fftfreq_eq, fftfreq_eq, div_left_inj' hn'.ne', Int.cast_inj] at he
  unfold freq at he
  split at he <;> split at he <;> omega

/-- Two dimensions: `q(0)` and `q(1)` have the components of the frequency of each entry; the mean is that of
the power at that frequency if both components are non-negative or both are negative (the others are wrong:
`C55_violated`); `qnorm` is the norm of the frequency. Any other axis is a `ValueError`, also the default. -/
theorem C79_q2 (m n : Nat) (hm : 0 < m) (hn : 0 < n) (hp : m % 2 = n % 2)
    (l : List ((Nat → Nat → ℝ) × Mat ℝ)) (hl : l ≠ []) (h : ∀ x ∈ l, x.2.rows = m ∧ x.2.cols = n) :
    ∃ st a b, addSamples2 id l = ok (some st) ∧ q2 st (some 0) = ok a ∧ q2 st (some 1) = ok b ∧
      (∀ axis, axis ≠ some 0 → axis ≠ some 1 → q2 st axis = throws) ∧
      (a.rows = m ∧ a.cols = n) ∧ (b.rows = m ∧ b.cols = n) ∧
      (∀ i < m, ∀ j < n, a.get i j ≠ -(1 / 2) → b.get i j ≠ -(1 / 2) →
        (0 ≤ a.get i j ∧ 0 ≤ b.get i j) ∨ (a.get i j < 0 ∧ b.get i j < 0) →
        (mean2 st).get i j = some ((l.map fun x => power2 x.2 (a.get i j) (b.get i j)).sum / l.length)) ∧
      (∀ i < m, ∀ j < n, a.get i j = -(1 / 2) ∨ b.get i j = -(1 / 2) → (mean2 st).get i j = none) ∧
      (∀ i < (qnorm2 st).rows, ∀ j < (qnorm2 st).cols,
        (qnorm2 st).get i j = √(a.get i j ^ 2 + b.get i j ^ 2)) := by
  obtain ⟨st, e, i1, i2, i3, i4⟩ := C55_2d_partial m n hm hn hp l hl h
  have i1 : st.first.rows = m := i1
  have i2 : st.first.cols = n := i2
  have hm' : (0 : ℝ) < m := by exact_mod_cast hm
  have hn' : (0 : ℝ) < n := by exact_mod_cast hn
  have hhalf : ∀ n k : Nat, (0 : ℝ) < n → k < n → (fftfreq n k = -(1 / 2) ↔ ¬ Paired n k) := by
    intro n k hn' hk
    have : 2 * freq n k = -n ↔ ¬ Paired n k := by
      unfold Paired freq
      split <;> omega
    rw [← this, fftfreq_eq, div_eq_iff hn'.ne', ← @Int.cast_inj ℝ]
    push_cast
    constructor <;> intro h <;> linarith
  have hsign : ∀ n k : Nat, (0 : ℝ) < n → (0 ≤ fftfreq n k ↔ 0 ≤ freq n k) := by
    intro n k hn'
    rw [fftfreq_eq, le_div_iff₀ hn', zero_mul, Int.cast_nonneg_iff]
  refine ⟨st, ⟨m, n, fun k _ => fftfreq m k⟩, ⟨m, n, fun _ k => fftfreq n k⟩, e, ?_, ?_, ?_, ⟨rfl, rfl⟩,
    ⟨rfl, rfl⟩, ?_, ?_, ?_⟩
  · unfold q2
    rw [i1, i2]
    simp
  · unfold q2
    rw [i1, i2]
    simp
  · intro axis h0 h1
    unfold q2
    rw [if_neg h0, if_neg h1]
  · intro i hi j hj ha hb hab
    dsimp only at ha hb hab ⊢
    rw [ne_eq, hhalf m i hm' hi, not_not] at ha
    rw [ne_eq, hhalf n j hn' hj, not_not] at hb
    simp only [← not_le, hsign m i hm', hsign n j hn'] at hab
    rw [i3 i j ha hb (by simpa using hab)]
    congr 3
    refine List.map_congr_left fun x hx => ?_
    rw [factor_power2 (h x hx).1 (h x hx).2]
  · intro i hi j hj hab
    dsimp only at hab
    rw [hhalf m i hm' hi, hhalf n j hn' hj] at hab
    exact i4 i j hi hj hab
  · intro i hi j hj
    unfold qnorm2 slice2
    rw [i1, i2]
    dsimp only
    rw [Nat.zero_add, Nat.zero_add]

/-- Two samples of size four, and two of three by five. -/
example : (∃ l : List ((Nat → ℝ) × Vec ℝ), l.length = 2 ∧ ∀ x ∈ l, x.2.size = 4) ∧
    ∃ l : List ((Nat → Nat → ℝ) × Mat ℝ), l.length = 2 ∧ ∀ x ∈ l, x.2.rows = 3 ∧ x.2.cols = 5 :=
  ⟨⟨[(fun _ => 7, ⟨4, fun i => i⟩), (fun _ => -1, ⟨4, fun i => i * i⟩)], rfl, by simp⟩,
    ⟨[(fun _ _ => 7, ⟨3, 5, fun i j => i + j⟩), (fun _ _ => 0, ⟨3, 5, fun i j => i * j⟩)], rfl, by simp⟩⟩

end Verif.Props
