import Verif.Props.Structure
import Mathlib.Algebra.Field.GeomSum

/-! # The structure factor of a repeated sample (C137) -/

namespace Verif.Props

open Verif Outcome Spec Structure Finset

private theorem sum_blocks {M : Type*} [AddCommMonoid M] (g : Nat → M) (c n : Nat) :
    ∑ i ∈ range (c * n), g i = ∑ a ∈ range c, ∑ j ∈ range n, g (a * n + j) := by
  induction c with
  | zero => simp
  | succ c ih => rw [Nat.succ_mul, Finset.sum_range_add, ih, Finset.sum_range_succ]

/-- The Fourier components of `c` copies. -/
private theorem fourier_repeated {u v : Vec ℝ} {c : Nat} (hc : 0 < c) (hn : 0 < u.size) (hv : v.size = c * u.size)
    (h : ∀ j < c * u.size, v.get j = u.get (j % u.size)) (p : Nat) :
    fourier v p = (∑ a ∈ range c, Complex.exp (-(2 * Real.pi * Complex.I * p / c)) ^ a) *
      ∑ j ∈ range u.size, (u.get j : ℂ) * Complex.exp (-(2 * Real.pi * Complex.I * (p * j) / (c * u.size))) := by
  have hc' : (c : ℂ) ≠ 0 := by exact_mod_cast hc.ne'
  have hn' : (u.size : ℂ) ≠ 0 := by exact_mod_cast hn.ne'
  unfold fourier
  rw [hv, sum_blocks, Finset.sum_mul]
  refine Finset.sum_congr rfl fun a ha => ?_
  rw [Finset.mul_sum]
  refine Finset.sum_congr rfl fun j hj => ?_
  rw [Finset.mem_range] at ha hj
  have hlt : a * u.size + j < c * u.size :=
    calc a * u.size + j < (a + 1) * u.size := by rw [Nat.succ_mul]; omega
      _ ≤ c * u.size := Nat.mul_le_mul_right _ ha
  have hmod : (a * u.size + j) % u.size = j := by
    rw [Nat.add_comm, Nat.add_mul_mod_self_right, Nat.mod_eq_of_lt hj]
  rw [h _ hlt, hmod, ← Complex.exp_nat_mul, mul_left_comm, ← Complex.exp_add]
  congr 2
  push_cast
  field_simp
  ring

private theorem geom_all {c : Nat} (hc : 0 < c) (k : Nat) :
    ∑ a ∈ range c, Complex.exp (-(2 * Real.pi * Complex.I * ((c * k : Nat) : ℂ) / c)) ^ a = c := by
  have hc' : (c : ℂ) ≠ 0 := by exact_mod_cast hc.ne'
  have : Complex.exp (-(2 * Real.pi * Complex.I * ((c * k : Nat) : ℂ) / c)) = 1 := by
    rw [Complex.exp_eq_one_iff]
    refine ⟨-k, ?_⟩
    push_cast
    field_simp
  rw [this]
  simp

private theorem geom_none {c : Nat} (hc : 0 < c) {p : Nat} (hp : ¬ c ∣ p) :
    ∑ a ∈ range c, Complex.exp (-(2 * Real.pi * Complex.I * p / c)) ^ a = 0 := by
  have hc' : (c : ℂ) ≠ 0 := by exact_mod_cast hc.ne'
  have h1 : Complex.exp (-(2 * Real.pi * Complex.I * p / c)) ≠ 1 := by
    intro e
    rw [Complex.exp_eq_one_iff] at e
    obtain ⟨m, e⟩ := e
    have e' : (p : ℂ) = -m * c := by
      have hpi : (Real.pi : ℂ) ≠ 0 := by exact_mod_cast Real.pi_ne_zero
      have hI := Complex.I_ne_zero
      field_simp at e
      linear_combination -e
    have e'' : (p : Int) = -m * c := by exact_mod_cast e'
    exact hp (Int.natCast_dvd_natCast.1 ⟨-m, by rw [e'']; ring⟩)
  have h2 : Complex.exp (-(2 * Real.pi * Complex.I * p / c)) ^ c = 1 := by
    rw [← Complex.exp_nat_mul, Complex.exp_eq_one_iff]
    refine ⟨-p, ?_⟩
    push_cast
    field_simp
  rw [geom_sum_eq h1, h2, sub_self, zero_div]

private theorem factor_repeated {u v : Vec ℝ} {c : Nat} (hc : 0 < c) (hn : 0 < u.size) (hv : v.size = c * u.size)
    (h : ∀ j < c * u.size, v.get j = u.get (j % u.size)) (k : Nat) :
    factor v (c * k : Nat) = c * factor u k := by
  have hc' : (c : ℂ) ≠ 0 := by exact_mod_cast hc.ne'
  have hcr : (c : ℝ) ≠ 0 := by exact_mod_cast hc.ne'
  have hn' : (u.size : ℝ) ≠ 0 := by exact_mod_cast hn.ne'
  have e : fourier v (c * k : Nat) = c * fourier u k := by
    rw [fourier_repeated hc hn hv h, geom_all hc]
    congr 1
    unfold fourier
    refine Finset.sum_congr rfl fun j _ => ?_
    congr 2
    push_cast
    rw [mul_assoc (c : ℂ), mul_left_comm _ (c : ℂ), mul_div_mul_left _ _ hc']
  rw [factor_sq, factor_sq, e, Complex.normSq_mul, Complex.normSq_natCast, hv]
  push_cast
  field_simp

private theorem factor_between {u v : Vec ℝ} {c : Nat} (hc : 0 < c) (hn : 0 < u.size) (hv : v.size = c * u.size)
    (h : ∀ j < c * u.size, v.get j = u.get (j % u.size)) {p : Nat} (hp : ¬ c ∣ p) : factor v p = 0 := by
  rw [factor_sq, fourier_repeated hc hn hv h, geom_none hc hp]
  simp

/-- The frequency, and with it the sign, of the entries that are multiples. -/
private theorem freq_mul {n k c : Nat} (hc : 0 < c) (hk : Paired n k) : freq (c * n) (c * k) = c * freq n k := by
  obtain ⟨h1, h2⟩ := hk
  have a : ∀ {n k : Nat}, 2 * k ≠ n → (k < (n + 1) / 2 ↔ 2 * k < n) := by intro n k h; omega
  have h2' : 2 * (c * k) ≠ c * n := by
    intro q
    refine h2 (Nat.eq_of_mul_eq_mul_left hc ?_)
    rw [← q]
    ring
  have b : 2 * (c * k) < c * n ↔ 2 * k < n := by
    rw [Nat.mul_left_comm]
    exact Nat.mul_lt_mul_left hc
  have e : c * k < (c * n + 1) / 2 ↔ k < (n + 1) / 2 := by rw [a h2', b, ← a h2]
  unfold freq
  by_cases q : k < (n + 1) / 2
  · rw [if_pos q, if_pos (e.2 q)]
    push_cast
    rfl
  · rw [if_neg q, if_neg fun q' => q (e.1 q')]
    push_cast
    ring

private theorem fourier2_repeated {u v : Mat ℝ} {c d : Nat} (hc : 0 < c) (hd : 0 < d) (hm : 0 < u.rows) (hn : 0 < u.cols)
    (hv : v.rows = c * u.rows) (hv' : v.cols = d * u.cols)
    (h : ∀ i < c * u.rows, ∀ j < d * u.cols, v.get i j = u.get (i % u.rows) (j % u.cols)) (p q : Nat) :
    fourier2 v p q = (∑ a ∈ range c, Complex.exp (-(2 * Real.pi * Complex.I * p / c)) ^ a) *
      ((∑ b ∈ range d, Complex.exp (-(2 * Real.pi * Complex.I * q / d)) ^ b) *
      ∑ i ∈ range u.rows, ∑ j ∈ range u.cols, (u.get i j : ℂ) *
        Complex.exp (-(2 * Real.pi * Complex.I * (p * i) / (c * u.rows))) *
        Complex.exp (-(2 * Real.pi * Complex.I * (q * j) / (d * u.cols)))) := by
  have hc' : (c : ℂ) ≠ 0 := by exact_mod_cast hc.ne'
  have hd' : (d : ℂ) ≠ 0 := by exact_mod_cast hd.ne'
  have hm' : (u.rows : ℂ) ≠ 0 := by exact_mod_cast hm.ne'
  have hn' : (u.cols : ℂ) ≠ 0 := by exact_mod_cast hn.ne'
  have lt : ∀ {a i c m : Nat}, a < c → i < m → a * m + i < c * m := by
    intro a i c m ha hi
    calc a * m + i < (a + 1) * m := by rw [Nat.succ_mul]; omega
      _ ≤ c * m := Nat.mul_le_mul_right _ ha
  have md : ∀ {a i m : Nat}, i < m → (a * m + i) % m = i := by
    intro a i m hi
    rw [Nat.add_comm, Nat.add_mul_mod_self_right, Nat.mod_eq_of_lt hi]
  unfold fourier2
  rw [hv, hv', sum_blocks, Finset.sum_mul]
  refine Finset.sum_congr rfl fun a ha => ?_
  rw [Finset.mul_sum, Finset.mul_sum]
  refine Finset.sum_congr rfl fun i hi => ?_
  rw [sum_blocks, Finset.sum_mul, Finset.mul_sum]
  refine Finset.sum_congr rfl fun b hb => ?_
  rw [Finset.mul_sum, Finset.mul_sum]
  refine Finset.sum_congr rfl fun j hj => ?_
  rw [Finset.mem_range] at ha hi hb hj
  rw [h _ (lt ha hi) _ (lt hb hj), md hi, md hj, ← Complex.exp_nat_mul, ← Complex.exp_nat_mul]
  have e1 : Complex.exp (-(2 * Real.pi * Complex.I * (((p : Int) * ((a * u.rows + i : Nat) : Int) : Int) : ℂ) /
      ((c * u.rows : Nat) : ℂ))) = Complex.exp (a * -(2 * Real.pi * Complex.I * p / c)) *
        Complex.exp (-(2 * Real.pi * Complex.I * (p * i) / (c * u.rows))) := by
    rw [← Complex.exp_add]
    congr 1
    push_cast
    field_simp
    ring
  have e2 : Complex.exp (-(2 * Real.pi * Complex.I * (((q : Int) * ((b * u.cols + j : Nat) : Int) : Int) : ℂ) /
      ((d * u.cols : Nat) : ℂ))) = Complex.exp (b * -(2 * Real.pi * Complex.I * q / d)) *
        Complex.exp (-(2 * Real.pi * Complex.I * (q * j) / (d * u.cols))) := by
    rw [← Complex.exp_add]
    congr 1
    push_cast
    field_simp
    ring
  rw [e1, e2]
  ring

private theorem fourier2_conj (u : Mat ℝ) (p q : Int) : fourier2 u (-p) (-q) = (starRingEnd ℂ) (fourier2 u p q) := by
  unfold fourier2
  rw [map_sum]
  refine Finset.sum_congr rfl fun i _ => ?_
  rw [map_sum]
  refine Finset.sum_congr rfl fun j _ => ?_
  rw [map_mul, map_mul, Complex.conj_ofReal, exp_conj, exp_conj]

private theorem factor2_sq (u : Mat ℝ) (p q : Int) :
    factor2 u p q = Complex.normSq (fourier2 u p q) / ((u.rows * u.cols : Nat) : ℝ) := by
  rw [factor2, fourier2_conj, Complex.mul_conj, Complex.ofReal_re]

private theorem factor2_repeated {u v : Mat ℝ} {c d : Nat} (hc : 0 < c) (hd : 0 < d) (hm : 0 < u.rows) (hn : 0 < u.cols)
    (hv : v.rows = c * u.rows) (hv' : v.cols = d * u.cols)
    (h : ∀ i < c * u.rows, ∀ j < d * u.cols, v.get i j = u.get (i % u.rows) (j % u.cols)) (k l : Nat) :
    factor2 v (c * k : Nat) (d * l : Nat) = (c * d : Nat) * factor2 u k l := by
  have hc' : (c : ℂ) ≠ 0 := by exact_mod_cast hc.ne'
  have hd' : (d : ℂ) ≠ 0 := by exact_mod_cast hd.ne'
  have hcr : (c : ℝ) ≠ 0 := by exact_mod_cast hc.ne'
  have hdr : (d : ℝ) ≠ 0 := by exact_mod_cast hd.ne'
  have hmr : (u.rows : ℝ) ≠ 0 := by exact_mod_cast hm.ne'
  have hnr : (u.cols : ℝ) ≠ 0 := by exact_mod_cast hn.ne'
  have e : fourier2 v (c * k : Nat) (d * l : Nat) = (c * d : Nat) * fourier2 u k l := by
    rw [fourier2_repeated hc hd hm hn hv hv' h, geom_all hc, geom_all hd, ← mul_assoc, ← Nat.cast_mul]
    congr 1
    unfold fourier2
    refine Finset.sum_congr rfl fun i _ => Finset.sum_congr rfl fun j _ => ?_
    congr 2
    · congr 1
      push_cast
      rw [mul_assoc (c : ℂ), mul_left_comm _ (c : ℂ), mul_div_mul_left _ _ hc']
    · push_cast
      rw [mul_assoc (d : ℂ), mul_left_comm _ (d : ℂ), mul_div_mul_left _ _ hd']
  rw [factor2_sq, factor2_sq, e, Complex.normSq_mul, Complex.normSq_natCast, hv, hv']
  push_cast
  field_simp

private theorem factor2_between {u v : Mat ℝ} {c d : Nat} (hc : 0 < c) (hd : 0 < d) (hm : 0 < u.rows) (hn : 0 < u.cols)
    (hv : v.rows = c * u.rows) (hv' : v.cols = d * u.cols)
    (h : ∀ i < c * u.rows, ∀ j < d * u.cols, v.get i j = u.get (i % u.rows) (j % u.cols)) {p q : Nat}
    (hp : ¬ c ∣ p ∨ ¬ d ∣ q) : factor2 v p q = 0 := by
  rw [factor2_sq, fourier2_repeated hc hd hm hn hv hv' h]
  rcases hp with hp | hp
  · rw [geom_none hc hp]
    simp
  · rw [geom_none hd hp]
    simp

/-- **C137**: repeating each sample `c` times stretches the structure factor: at the frequencies of the samples it is `c`
times that of the samples (not a number where that is not), at all others it is zero, or not a number at the highest
frequency. -/
theorem C137_structure (n c : Nat) (hn : 0 < n) (hc : 0 < c) (l l' : List ((Nat → ℝ) × Vec ℝ)) (hl : l ≠ [])
    (h : List.Forall₂ (fun x y => x.2.size = n ∧ y.2.size = c * n ∧ ∀ j < c * n, y.2.get j = x.2.get (j % n)) l l') :
    ∃ st st', addSamples id l = ok (some st) ∧ addSamples id l' = ok (some st') ∧ (Structure.mean st).size = n ∧
      (Structure.mean st').size = c * n ∧
      (∀ k < n, (Structure.mean st').get (c * k) = ((Structure.mean st).get k).map fun y => (c : ℝ) * y) ∧
      ∀ p < c * n, ¬ c ∣ p → (Structure.mean st').get p = if 2 * p = c * n then none else some 0 := by
  have hl' : l' ≠ [] := by
    rintro rfl
    cases h
    exact hl rfl
  have hx : ∀ x ∈ l, x.2.size = n := by
    intro x hx
    obtain ⟨y, hy⟩ := forall₂_left h x hx
    exact hy.1
  have hy : ∀ x ∈ l', x.2.size = c * n := by
    intro x hx
    obtain ⟨y, hy⟩ := forall₂_left h.flip x hx
    exact hy.2.1
  have hcn : 0 < c * n := Nat.mul_pos hc hn
  obtain ⟨st, e, i1, i2, i3⟩ := C55_1d n hn l hl hx
  obtain ⟨st', e', j1, j2, j3⟩ := C55_1d (c * n) hcn l' hl' hy
  have fq : ∀ {m : Nat} {u : Vec ℝ}, 0 < m → u.size = m → ∀ k, factor u (freq m k) = factor u k := by
    intro m u hm hu k
    subst hu
    rw [factor_sq, factor_sq, fourier_freq hm]
  have hlen := h.length_eq
  refine ⟨st, st', e, e', i1, j1, fun k hk => ?_, fun p hp hd => ?_⟩
  · have hlt : c * k < c * n := Nat.mul_lt_mul_of_pos_left hk hc
    by_cases hp : Paired n k
    · have hp' : Paired (c * n) (c * k) := by
        refine ⟨hlt, fun q => hp.2 (Nat.eq_of_mul_eq_mul_left hc ?_)⟩
        rw [← q]
        ring
      rw [i2 k hp, j2 _ hp', Option.map_some, ← hlen, ← mul_div_assoc]
      congr 2
      clear hl hl' hlen e e' i1 i2 i3 j1 j2 j3
      induction h with
      | nil => simp
      | @cons x y l l' hxy _ ih =>
        rw [List.map_cons, List.map_cons, List.sum_cons, List.sum_cons, mul_add,
          ih (fun x hx' => hx x (by simp [hx'])) (fun x hx' => hy x (by simp [hx'])), fq hcn hxy.2.1, fq hn hxy.1,
          factor_repeated hc (by rw [hxy.1]; exact hn) (by rw [hxy.1]; exact hxy.2.1) (by rw [hxy.1]; exact hxy.2.2)]
    · have hp' : ¬ Paired (c * n) (c * k) := by
        intro q
        refine hp ⟨hk, fun q' => q.2 ?_⟩
        rw [← q']
        ring
      rw [i3 k hk hp, j3 _ hlt hp', Option.map_none]
  · by_cases h2 : 2 * p = c * n
    · rw [if_pos h2, j3 p hp fun q => q.2 h2]
    · rw [if_neg h2, j2 p ⟨hp, h2⟩]
      have : ∀ x ∈ l', factor x.2 (freq (c * n) p) = 0 := by
        intro y hy'
        obtain ⟨x, hxy⟩ := forall₂_left h.flip y hy'
        rw [fq hcn hxy.2.1, factor_between hc (u := x.2) (by rw [hxy.1]; exact hn) (by rw [hxy.1]; exact hxy.2.1)
          (by rw [hxy.1]; exact hxy.2.2) hd]
      rw [List.map_congr_left this]
      simp

/-- Two copies of a sample of three pixels. -/
example : List.Forall₂ (fun x y : (Nat → ℝ) × Vec ℝ => x.2.size = 3 ∧ y.2.size = 2 * 3 ∧
      ∀ j < 2 * 3, y.2.get j = x.2.get (j % 3))
    [(fun _ => 0, ⟨3, fun j => if j = 1 then 1 else 0⟩)]
    [(fun _ => 0, ⟨6, fun j => if j = 1 ∨ j = 4 then 1 else 0⟩)] := by
  refine .cons ⟨rfl, rfl, fun j hj => ?_⟩ .nil
  have : (j = 1 ∨ j = 4) ↔ j % 3 = 1 := by omega
  simp only [this]

/-- **C137** in two dimensions, at the frequencies of which both components are non-negative, or both are negative.
At the others the structure factor itself is wrong (`C55_violated`). -/
theorem C137_structure2 (m n c d : Nat) (hm : 0 < m) (hn : 0 < n) (hc : 0 < c) (hd : 0 < d)
    (hp : m % 2 = n % 2) (hp' : c * m % 2 = d * n % 2) (l l' : List ((Nat → Nat → ℝ) × Mat ℝ)) (hl : l ≠ [])
    (h : List.Forall₂ (fun x y => x.2.rows = m ∧ x.2.cols = n ∧ y.2.rows = c * m ∧ y.2.cols = d * n ∧
      ∀ i < c * m, ∀ j < d * n, y.2.get i j = x.2.get (i % m) (j % n)) l l') :
    ∃ st st', addSamples2 id l = ok (some st) ∧ addSamples2 id l' = ok (some st') ∧
      (∀ i j, Paired m i → Paired n j → (0 ≤ freq m i ∧ 0 ≤ freq n j) ∨ (freq m i < 0 ∧ freq n j < 0) →
        ∃ y, (mean2 st).get i j = some y ∧ (mean2 st').get (c * i) (d * j) = some ((c * d : Nat) * y)) ∧
      ∀ p q, Paired (c * m) p → Paired (d * n) q →
        (0 ≤ freq (c * m) p ∧ 0 ≤ freq (d * n) q) ∨ (freq (c * m) p < 0 ∧ freq (d * n) q < 0) →
        ¬ c ∣ p ∨ ¬ d ∣ q → (mean2 st').get p q = some 0 := by
  have hl' : l' ≠ [] := by
    rintro rfl
    cases h
    exact hl rfl
  have hx : ∀ x ∈ l, x.2.rows = m ∧ x.2.cols = n := by
    intro x hx
    obtain ⟨y, hy⟩ := forall₂_left h x hx
    exact ⟨hy.1, hy.2.1⟩
  have hy : ∀ x ∈ l', x.2.rows = c * m ∧ x.2.cols = d * n := by
    intro x hx
    obtain ⟨y, hy⟩ := forall₂_left h.flip x hx
    exact ⟨hy.2.2.1, hy.2.2.2.1⟩
  have hcm : 0 < c * m := Nat.mul_pos hc hm
  have hdn : 0 < d * n := Nat.mul_pos hd hn
  obtain ⟨st, e, -, -, i2, -⟩ := C55_2d_partial m n hm hn hp l hl hx
  obtain ⟨st', e', -, -, j2, -⟩ := C55_2d_partial (c * m) (d * n) hcm hdn hp' l' hl' hy
  have fq : ∀ {m n : Nat} {u : Mat ℝ}, 0 < m → 0 < n → u.rows = m → u.cols = n → ∀ k l,
      factor2 u (freq m k) (freq n l) = factor2 u k l := by
    intro m n u hm hn hu hu' k l
    subst hu
    subst hu'
    rw [factor2_sq, factor2_sq, fourier2_freq hm hn]
  have pm : ∀ {n k c : Nat}, 0 < c → Paired n k → Paired (c * n) (c * k) := by
    intro n k c hc hk
    refine ⟨Nat.mul_lt_mul_of_pos_left hk.1 hc, fun q => hk.2 (Nat.eq_of_mul_eq_mul_left hc ?_)⟩
    rw [← q]
    ring
  have hlen := h.length_eq
  refine ⟨st, st', e, e', fun i j hi hj hs => ⟨_, i2 i j hi hj hs, ?_⟩, fun p q hpp hq hs hdv => ?_⟩
  · have hcz : (0 : Int) < c := by exact_mod_cast hc
    have hdz : (0 : Int) < d := by exact_mod_cast hd
    rw [j2 _ _ (pm hc hi) (pm hd hj) (by
      rw [freq_mul hc hi, freq_mul hd hj]
      rcases hs with ⟨s1, s2⟩ | ⟨s1, s2⟩
      · exact Or.inl ⟨mul_nonneg hcz.le s1, mul_nonneg hdz.le s2⟩
      · exact Or.inr ⟨mul_neg_of_pos_of_neg hcz s1, mul_neg_of_pos_of_neg hdz s2⟩), ← hlen, ← mul_div_assoc]
    congr 2
    clear hl hl' hlen e e' i2 j2
    induction h with
    | nil => simp
    | @cons x y l l' hxy _ ih =>
      obtain ⟨k1, k2, k3, k4, k5⟩ := hxy
      rw [List.map_cons, List.map_cons, List.sum_cons, List.sum_cons, mul_add,
        ih (fun x hx' => hx x (by simp [hx'])) (fun x hx' => hy x (by simp [hx'])), fq hcm hdn k3 k4, fq hm hn k1 k2,
        factor2_repeated hc hd (by rw [k1]; exact hm) (by rw [k2]; exact hn) (by rw [k1]; exact k3)
          (by rw [k2]; exact k4) (by rw [k1, k2]; exact k5)]
  · rw [j2 p q hpp hq hs]
    have : ∀ x ∈ l', factor2 x.2 (freq (c * m) p) (freq (d * n) q) = 0 := by
      intro y hy'
      obtain ⟨x, k1, k2, k3, k4, k5⟩ := forall₂_left h.flip y hy'
      rw [fq hcm hdn k3 k4, factor2_between hc hd (u := x.2) (by rw [k1]; exact hm) (by rw [k2]; exact hn)
        (by rw [k1]; exact k3) (by rw [k2]; exact k4) (by rw [k1, k2]; exact k5) hdv]
    rw [List.map_congr_left this]
    simp

/-- Copies of the unit matrix of size three, three along the first axis. -/
example : List.Forall₂ (fun x y : (Nat → Nat → ℝ) × Mat ℝ => x.2.rows = 3 ∧ x.2.cols = 3 ∧ y.2.rows = 3 * 3 ∧
      y.2.cols = 1 * 3 ∧ ∀ i < 3 * 3, ∀ j < 1 * 3, y.2.get i j = x.2.get (i % 3) (j % 3))
    [(fun _ _ => 0, unit3)] [(fun _ _ => 0, ⟨9, 3, fun i j => if i % 3 = j then 1 else 0⟩)] := by
  refine .cons ⟨rfl, rfl, rfl, rfl, fun i _ j hj => ?_⟩ .nil
  have : j % 3 = j := by omega
  simp [unit3, this]

end Verif.Props
