import Verif.Props.SumRules
import Verif.Props.Structure
import Verif.Spec.Spectrum

/-!
# The correlation and the structure factor (C97)

The Fourier transform of the two-point correlation of a periodic image is its power spectrum, which is what
`Structure` accumulates.
-/

namespace Verif.Props

open Verif Outcome Spec Ens Cluster Structure

theorem phase_move : ∀ {shape : List Nat} {q x d : List Int}, x.length = shape.length → d.length = shape.length →
    phase shape q (move x d) = phase shape q x + phase shape q d
  | [], _, [], [], _, _ => by simp [phase]
  | n :: s, [], a :: x, b :: d, _, _ => by simp [phase]
  | n :: s, k :: q, a :: x, b :: d, h1, h2 => by
    have ih := phase_move (shape := s) (q := q) (x := x) (d := d) (by simpa using h1) (by simpa using h2)
    simp only [move, List.zipWith_cons_cons, phase] at ih ⊢
    rw [ih]
    push_cast
    ring

/-- Coordinates modulo the image have the same phase, up to full periods. -/
theorem phase_wrap : ∀ {shape : List Nat} {q x : List Int}, x.length = shape.length → 0 ∉ shape →
    ∃ m : ℤ, phase shape q x = phase shape q (wrap shape x) + m * (2 * Real.pi)
  | [], _, [], _, _ => ⟨0, by simp [phase]⟩
  | n :: s, [], a :: x, _, _ => ⟨0, by simp [phase]⟩
  | n :: s, k :: q, a :: x, h1, h0 => by
    obtain ⟨m, ih⟩ := phase_wrap (shape := s) (q := q) (x := x) (by simpa using h1)
      (fun h => h0 (List.mem_cons_of_mem _ h))
    have hn : (n : ℝ) ≠ 0 := by
      intro h
      rw [Nat.cast_eq_zero] at h
      exact h0 (by simp [h])
    refine ⟨m + k * (a / n), ?_⟩
    simp only [wrap, List.zipWith_cons_cons, phase] at ih ⊢
    rw [ih]
    have e : (a : ℝ) = ((a % n : Int) : ℝ) + n * ((a / n : Int) : ℝ) := by
      exact_mod_cast (Int.emod_add_mul_ediv a n).symm
    conv_lhs => rw [e]
    push_cast
    field_simp
    ring

theorem cos_phase_wrap {shape : List Nat} {q x : List Int} (hx : x.length = shape.length) (h0 : 0 ∉ shape) (t : ℝ) :
    Real.cos (phase shape q (wrap shape x) - t) = Real.cos (phase shape q x - t) := by
  obtain ⟨m, e⟩ := phase_wrap (q := q) hx h0
  rw [e, show phase shape q (wrap shape x) + m * (2 * Real.pi) - t =
    phase shape q (wrap shape x) - t + m * (2 * Real.pi) by ring, Real.cos_add_int_mul_two_pi]

/-- The wave at a displacement times the sum over the pairs at that displacement. -/
theorem wave_total {shape : List Nat} {d q : List Int} (hd : d.length = shape.length) (h0 : 0 ∉ shape)
    (φ : List Int → List Int → ℝ) :
    Real.cos (phase shape q d) * total (pairs true shape (fun _ _ => True) d) φ =
      total (pairs true shape (fun _ _ => True) d)
        fun x y => Real.cos (phase shape q y - phase shape q x) * φ x y := by
  rw [total_wrapped hd, total_wrapped hd, ← sum_mul_left']
  refine congrArg List.sum (List.map_congr_left fun x hx => ?_)
  have e := inbox_length (mem_pixels.1 hx)
  rw [cos_phase_wrap (by rw [move_length (by omega), e]) h0, phase_move e hd]
  congr 2
  ring

/-- The power spectrum as a double sum. -/
theorem double_sum {α : Type} (l : List α) (f t : α → ℝ) :
    (l.map fun x => (l.map fun y => Real.cos (t y - t x) * (f x * f y)).sum).sum =
      (l.map fun x => f x * Real.cos (t x)).sum ^ 2 + (l.map fun x => f x * Real.sin (t x)).sum ^ 2 := by
  rw [pow_two, pow_two, ← sum_mul_right', ← sum_mul_right', ← List.sum_map_add]
  refine congrArg List.sum (List.map_congr_left fun x _ => ?_)
  rw [← sum_mul_left', ← sum_mul_left', ← List.sum_map_add]
  refine congrArg List.sum (List.map_congr_left fun y _ => ?_)
  rw [Real.cos_sub]
  ring

/-- The sum over the displacements of the wave times the totals of one image. -/
theorem wave_sum {f : Nd ℝ} (h0 : 0 ∉ f.shape) (q : List Int) :
    ((pixels f.shape).map fun i => Real.cos (phase f.shape q (displacement f.shape i)) *
      total (pairs true f.shape (fun _ _ => True) (displacement f.shape i)) fun x y => val f x * val f y).sum =
      spectralPower f q * f.shape.prod := by
  have hN : (f.shape.prod : ℝ) ≠ 0 := by
    rw [ne_eq, Nat.cast_eq_zero, List.prod_eq_zero_iff]
    exact h0
  unfold spectralPower
  rw [div_mul_cancel₀ _ hN, ← double_sum]
  have hd : ∀ i ∈ pixels f.shape, (displacement f.shape i).length = f.shape.length := fun i hi =>
    displacement_length (inbox_length (mem_pixels.1 hi))
  rw [List.map_congr_left fun i hi => (wave_total (hd i hi) h0 _).trans (total_wrapped (hd i hi) _), sum_comm']
  refine congrArg List.sum (List.map_congr_left fun x hx => ?_)
  exact sum_displacements (mem_pixels.1 hx)
    fun y => Real.cos (phase f.shape q y - phase f.shape q x) * (val f x * val f y)

/-! ### C97 -/

/-- The Fourier transform of the two-point correlation of a periodic image, with a region of interest of the shape of
the image, is the power spectrum of the image. -/
theorem C97_image {f : Nd ℝ} (hr : f.shape.length ≤ 3) (h0 : 0 ∉ f.shape) (pow05 : ℝ → ℝ) (dbg : Bool) :
    ∃ r, Api.S2 pow05 dbg f.shape f f true = ok r ∧ r.shape = f.shape ∧ ∀ q : List Int,
      ((pixels f.shape).map fun i => Real.cos (phase f.shape q (displacement f.shape i)) * val r i).sum =
        spectralPower f q := by
  obtain ⟨r, h1, h2, h3⟩ := C34_unmasked (legal_self (periodic := true) hr h0) (f := f) (g := f) rfl pow05 dbg
  refine ⟨r, h1, h2, fun q => ?_⟩
  have hN : (f.shape.prod : ℝ) ≠ 0 := by
    rw [ne_eq, Nat.cast_eq_zero, List.prod_eq_zero_iff]
    exact h0
  have := wave_sum h0 q
  rw [← div_eq_iff hN, ← sum_div'] at this
  rw [← this]
  refine congrArg List.sum (List.map_congr_left fun i hi => ?_)
  have hd := displacement_length (inbox_length (mem_pixels.1 hi))
  rw [h3 i (mem_pixels.1 hi), average_periodic hd (fun _ _ => trivial), total_wrapped hd, mul_div_assoc]

/-- The same for an ensemble of images: the Fourier transform of the correlation is the mean of the power spectra. -/
theorem C97_ensemble {shape : List Nat} (hr : shape.length ≤ 3) (h0 : 0 ∉ shape) {l : List (Nd ℝ)} (hne : l ≠ [])
    (hl : ∀ f ∈ l, f.shape = shape) (variance : Bool) (junk : ℚ) (fuel : Nat) (pow05 : ℝ → ℝ) (dbg : Bool) :
    ∃ r, (do
        let E ← history dbg junk fuel shape true variance (l.map fun f => .S2 f f none)
        result pow05 E) = ok r ∧ r.shape = shape ∧ ∀ q : List Int,
      ((pixels shape).map fun i => Real.cos (phase shape q (displacement shape i)) * val r i).sum =
        (l.map fun f => spectralPower f q).sum / l.length := by
  have hpaths : ∀ mode, ∃ paths, Enough fuel shape mode → ArePaths junk fuel mode shape paths := by
    intro mode
    by_cases h : Enough fuel shape mode
    · obtain ⟨P, hP⟩ := choose_paths junk hr h
      exact ⟨_, fun _ => (paths_unique hr hP).2 rfl⟩
    · exact ⟨[], fun h' => absurd h' h⟩
  choose paths hpaths using hpaths
  obtain ⟨r, h1, h2, h3⟩ := C84_result (K := ℝ) (fuel := fuel) (periodic := true) (variance := variance)
    (junk := junk) (st := .S2) hr h0 (l := l.map fun f => .S2 f f none) (by simpa using hne)
    (by
      intro r hm
      obtain ⟨f, hf, rfl⟩ := List.mem_map.1 hm
      exact ⟨⟨by rw [hl f hf]; exact legal_self hr h0, rfl, by simp⟩, rfl⟩) hpaths pow05 dbg
  refine ⟨r, h1, h2, fun q => ?_⟩
  have hN : (0 : ℝ) < shape.prod := by
    rw [Nat.cast_pos]
    exact Nat.pos_of_ne_zero fun h => h0 (List.prod_eq_zero_iff.1 h)
  have hlen : (0 : ℝ) < l.length := by
    rw [Nat.cast_pos]
    exact List.length_pos_iff.2 hne
  -- the value of the result
  have hv : ∀ i ∈ pixels shape, val r i = (l.map fun f =>
      total (pairs true shape (fun _ _ => True) (displacement shape i)) fun x y => val f x * val f y).sum /
        (l.length * shape.prod) := by
    intro i hi
    have hd := displacement_length (inbox_length (mem_pixels.1 hi))
    have := h3 i (mem_pixels.1 hi)
    simp only [List.map_map] at this
    rw [if_neg (by decide)] at this
    have e1 : ∀ f ∈ l, ((fun r : Realisation ℝ => (r.sums paths true variance (displacement shape i)).2.2) ∘
        fun f => Realisation.S2 f f none) f = (shape.prod : ℝ) := by
      intro f hf
      simp only [Function.comp, Realisation.sums]
      have : ∀ x y, Admitted true none (displacement shape i) x y ↔ True := fun x y => by simp [Admitted]
      rw [hl f hf, pairs_congr (adm' := fun _ _ => True) fun x _ _ => by rw [this], C84_count hd, if_pos rfl]
    have e2 : ∀ f ∈ l, ((fun r : Realisation ℝ => (r.sums paths true variance (displacement shape i)).1) ∘
        fun f => Realisation.S2 f f none) f =
        total (pairs true shape (fun _ _ => True) (displacement shape i)) fun x y => val f x * val f y := by
      intro f hf
      simp only [Function.comp, Realisation.sums]
      have : ∀ x y, Admitted true none (displacement shape i) x y ↔ True := fun x y => by simp [Admitted]
      rw [hl f hf, pairs_congr (adm' := fun _ _ => True) fun x _ _ => by rw [this]]
    rw [List.map_congr_left e1, List.map_congr_left e2, List.map_const', List.sum_replicate, nsmul_eq_mul,
      if_neg (by have := mul_pos hlen hN; linarith)] at this
    exact this
  have waves : ∀ f ∈ l, ((pixels shape).map fun i => Real.cos (phase shape q (displacement shape i)) *
      total (pairs true shape (fun _ _ => True) (displacement shape i)) fun x y => val f x * val f y).sum =
      spectralPower f q * shape.prod := by
    intro f hf
    have := wave_sum (f := f) (by rw [hl f hf]; exact h0) q
    rwa [hl f hf] at this
  rw [List.map_congr_left fun i hi => by rw [hv i hi, ← mul_div_assoc, ← sum_mul_left'], sum_div', sum_comm',
    List.map_congr_left waves, sum_mul_right']
  field_simp

/-! ### Structure -/

/-- The squared modulus of a sum of waves. -/
theorem norm_waves {α : Type} (s : Finset α) (a t : α → ℝ) :
    ‖∑ j ∈ s, (a j : ℂ) * Complex.exp (-((t j : ℂ) * Complex.I))‖ ^ 2 =
      (∑ j ∈ s, a j * Real.cos (t j)) ^ 2 + (∑ j ∈ s, a j * Real.sin (t j)) ^ 2 := by
  have e : ∀ j, (a j : ℂ) * Complex.exp (-((t j : ℂ) * Complex.I)) =
      ((a j * Real.cos (t j) : ℝ) : ℂ) + ((-(a j * Real.sin (t j)) : ℝ) : ℂ) * Complex.I := by
    intro j
    rw [← neg_mul, Complex.exp_mul_I, Complex.cos_neg, Complex.sin_neg]
    push_cast
    ring
  rw [← Complex.normSq_eq_norm_sq, Finset.sum_congr rfl fun j _ => e j, Finset.sum_add_distrib, ← Finset.sum_mul,
    ← Complex.ofReal_sum, ← Complex.ofReal_sum, Complex.normSq_add_mul_I, Finset.sum_neg_distrib, neg_sq]

theorem sum_pixels_cons (n : Nat) (shape : List Nat) (g : List Int → ℝ) :
    ((pixels (n :: shape)).map g).sum =
      ∑ j ∈ Finset.range n, ((pixels shape).map fun x => g ((j : Int) :: x)).sum := by
  rw [pixels]
  induction n with
  | zero => simp
  | succ n ih =>
    rw [Finset.sum_range_succ, ← ih, List.range_succ, List.flatMap_append, List.map_append, List.sum_append]
    simp [Function.comp_def]

theorem sum_pixels_one (n : Nat) (g : List Int → ℝ) :
    ((pixels [n]).map g).sum = ∑ j ∈ Finset.range n, g [(j : Int)] := by
  rw [sum_pixels_cons]
  simp [pixels]

theorem sum_pixels_two (m n : Nat) (g : List Int → ℝ) :
    ((pixels [m, n]).map g).sum = ∑ i ∈ Finset.range m, ∑ j ∈ Finset.range n, g [(i : Int), (j : Int)] := by
  rw [sum_pixels_cons]
  exact Finset.sum_congr rfl fun i _ => sum_pixels_one n _

theorem power_sample {n k : Nat} {f : Nd ℝ} (hf : f.shape = [n]) :
    power (asVec n f) (fftfreq n k) = spectralPower f [freq n k] := by
  unfold power spectralPower
  rw [hf, sum_pixels_one, sum_pixels_one, ← norm_waves]
  simp only [List.prod_cons, List.prod_nil, mul_one, asVec, fftfreq_eq]
  congr 3
  refine Finset.sum_congr rfl fun j _ => ?_
  congr 2
  simp only [phase]
  push_cast
  ring

theorem power_sample2 {m n i j : Nat} {f : Nd ℝ} (hf : f.shape = [m, n]) :
    power2 (asMat m n f) (fftfreq m i) (fftfreq n j) = spectralPower f [freq m i, freq n j] := by
  unfold power2 spectralPower
  rw [hf, sum_pixels_two, sum_pixels_two, ← Finset.sum_product', ← Finset.sum_product', ← Finset.sum_product', ← norm_waves]
  simp only [List.prod_cons, List.prod_nil, mul_one, asMat, fftfreq_eq]
  congr 3
  refine Finset.sum_congr rfl fun x _ => ?_
  congr 2
  simp only [phase]
  push_cast
  ring

/-- In one dimension, the mean structure factor of a set of images is, at each frequency that is accumulated, the
Fourier transform of their two-point correlation: `S(q) = ∑_d cos (2 π q d) S₂(d)`. -/
theorem C97_structure {n : Nat} (hn : 0 < n) {l : List (Nd ℝ)} (hne : l ≠ []) (hl : ∀ f ∈ l, f.shape = [n])
    (variance : Bool) (junk : ℚ) (fuel : Nat) (pow05 : ℝ → ℝ) (dbg : Bool) (axis : Option Int) (junk' : Nat → ℝ) :
    ∃ r st, (do
        let E ← history dbg junk fuel [n] true variance (l.map fun f => .S2 f f none)
        result pow05 E) = ok r ∧
      addSamples id (l.map fun f => (junk', asVec n f)) = ok (some st) ∧ r.shape = [n] ∧
      ∀ k < n, (q st axis).get k ≠ -(1 / 2) → (Structure.mean st).get k = some (∑ i ∈ Finset.range n,
        Real.cos (2 * Real.pi * (q st axis).get k * ((i : ℝ) - ((n - 1) / 2 : Nat))) * val r [(i : Int)]) := by
  obtain ⟨r, r1, r2, r3⟩ := C97_ensemble (shape := [n]) (by simp) (by simp; omega) hne hl variance junk fuel pow05 dbg
  obtain ⟨st, s1, s2, s3, s4, s5, s6⟩ := C79_q axis n hn (l.map fun f => (junk', asVec n f)) (by simpa using hne)
    (by
      intro x hx
      obtain ⟨f, -, rfl⟩ := List.mem_map.1 hx
      rfl)
  refine ⟨r, st, r1, s1, r2, fun k hk hq => ?_⟩
  have hs : st.first.size = n := s2
  have e : (q st axis).get k = fftfreq n k := by
    unfold q
    rw [hs]
  rw [s5 k hk hq, e]
  have h := r3 [freq n k]
  rw [sum_pixels_one] at h
  congr 1
  rw [List.map_map, List.length_map]
  trans (l.map fun f => spectralPower f [freq n k]).sum / l.length
  · congr 2
    exact List.map_congr_left fun f hf => power_sample (hl f hf)
  · rw [← h]
    refine Finset.sum_congr rfl fun i _ => ?_
    congr 2
    simp only [displacement, List.zipWith_cons_cons, List.zipWith_nil_left, phase, fftfreq_eq, Int.cast_sub,
      Int.cast_natCast]
    ring

/-- In two dimensions, the same at the frequencies that are right: both of one sign, and not the highest. -/
theorem C97_structure2 {m n : Nat} (hm : 0 < m) (hn : 0 < n) (hp : m % 2 = n % 2) {l : List (Nd ℝ)} (hne : l ≠ [])
    (hl : ∀ f ∈ l, f.shape = [m, n]) (variance : Bool) (junk : ℚ) (fuel : Nat) (pow05 : ℝ → ℝ) (dbg : Bool)
    (junk' : Nat → Nat → ℝ) :
    ∃ r st a b, (do
        let E ← history dbg junk fuel [m, n] true variance (l.map fun f => .S2 f f none)
        result pow05 E) = ok r ∧
      addSamples2 id (l.map fun f => (junk', asMat m n f)) = ok (some st) ∧ r.shape = [m, n] ∧
      q2 st (some 0) = ok a ∧ q2 st (some 1) = ok b ∧
      ∀ i < m, ∀ j < n, a.get i j ≠ -(1 / 2) → b.get i j ≠ -(1 / 2) →
        (0 ≤ a.get i j ∧ 0 ≤ b.get i j) ∨ (a.get i j < 0 ∧ b.get i j < 0) →
        (mean2 st).get i j = some (∑ x ∈ Finset.range m, ∑ y ∈ Finset.range n,
          Real.cos (2 * Real.pi * (a.get i j * ((x : ℝ) - ((m - 1) / 2 : Nat)) +
            b.get i j * ((y : ℝ) - ((n - 1) / 2 : Nat)))) * val r [(x : Int), (y : Int)]) := by
  obtain ⟨r, r1, r2, r3⟩ := C97_ensemble (shape := [m, n]) (by simp) (by simp; omega) hne hl variance junk fuel
    pow05 dbg
  obtain ⟨st, a, b, s1, s2, s3, -, s4, s5, s6, -, -⟩ := C79_q2 m n hm hn hp (l.map fun f => (junk', asMat m n f))
    (by simpa using hne)
    (by
      intro x hx
      obtain ⟨f, -, rfl⟩ := List.mem_map.1 hx
      exact ⟨rfl, rfl⟩)
  refine ⟨r, st, a, b, r1, s1, r2, s2, s3, fun i hi j hj ha hb hab => ?_⟩
  have hs : st.first.rows = m ∧ st.first.cols = n := by
    unfold q2 at s2
    simp only [if_true] at s2
    cases s2
    exact s4
  have ea : a.get i j = fftfreq m i := by
    unfold q2 at s2
    simp only [if_true, hs.1] at s2
    cases s2
    rfl
  have eb : b.get i j = fftfreq n j := by
    unfold q2 at s3
    simp only [hs.2] at s3
    cases s3
    rfl
  rw [s6 i hi j hj ha hb hab, ea, eb]
  have h := r3 [freq m i, freq n j]
  rw [sum_pixels_two] at h
  congr 1
  rw [List.map_map, List.length_map]
  trans (l.map fun f => spectralPower f [freq m i, freq n j]).sum / l.length
  · congr 2
    exact List.map_congr_left fun f hf => power_sample2 (hl f hf)
  · rw [← h]
    refine Finset.sum_congr rfl fun x _ => Finset.sum_congr rfl fun y _ => ?_
    congr 2
    simp only [displacement, List.zipWith_cons_cons, List.zipWith_nil_left, phase, fftfreq_eq, Int.cast_sub,
      Int.cast_natCast]
    ring

/-- Two images of four pixels, and two of three by five. -/
example : (∃ l : List (Nd ℝ), l.length = 2 ∧ ∀ f ∈ l, f.shape = [4]) ∧
    ∃ l : List (Nd ℝ), l.length = 2 ∧ (∀ f ∈ l, f.shape = [3, 5]) ∧ ([3, 5] : List Nat).length ≤ 3 ∧ 3 % 2 = 5 % 2 :=
  ⟨⟨[Nd.ofList [4] [1, 0, 2, 0], Nd.ofList [4] [0, 3, 1, 1]], rfl, by simp [Nd.ofList]⟩,
    ⟨[Nd.ofList [3, 5] (List.replicate 15 2), Nd.ofList [3, 5] (List.replicate 15 1)], rfl, by simp [Nd.ofList]⟩⟩

end Verif.Props
