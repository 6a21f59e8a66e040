import Verif.Model.Center
import Verif.Spec.Center
import Verif.Lemmas.NdArray
import Mathlib.Analysis.SpecialFunctions.Trigonometric.Angle
import Mathlib.Analysis.SpecialFunctions.Trigonometric.Bounds
import Mathlib.Tactic.Ring
import Mathlib.Tactic.Linarith
import Mathlib.Tactic.FieldSimp
import Mathlib.Tactic.Positivity

/-! # Directions on a circle -/

namespace Verif.Center

open Verif Spec Cluster Real

theorem atan2_range (s : Bool) (y x : ℝ) : -π ≤ atan2 s y x ∧ atan2 s y x ≤ π := by
  unfold atan2
  split
  · have := pi_pos
    constructor <;> linarith
  · exact ⟨(Complex.neg_pi_lt_arg _).le, Complex.arg_le_pi _⟩

theorem atan2_dir (s : Bool) {y x : ℝ} (h : ¬ (x = 0 ∧ y = 0)) :
    ∃ ρ > 0, x = ρ * cos (atan2 s y x) ∧ y = ρ * sin (atan2 s y x) := by
  unfold atan2
  split
  · rename_i hc
    refine ⟨-x, by linarith [hc.2.2], ?_, ?_⟩
    · rw [cos_neg, cos_pi]; ring
    · rw [sin_neg, sin_pi, hc.2.1]; ring
  · have hz : (⟨x, y⟩ : ℂ) ≠ 0 := by
      intro e
      exact h ⟨congrArg Complex.re e, congrArg Complex.im e⟩
    have hn : 0 < ‖(⟨x, y⟩ : ℂ)‖ := norm_pos_iff.2 hz
    refine ⟨_, hn, ?_, ?_⟩
    · rw [Complex.cos_arg hz]; field_simp
    · rw [Complex.sin_arg]; field_simp

/-- The last lines of the two functions. -/
noncomputable def circ (s : Bool) (L ξ ζ : ℝ) : ℝ := L * (atan2 s (-ζ) (-ξ) + π) / (2 * π)

theorem circ_range (s : Bool) {L : ℝ} (hL : 0 < L) (ξ ζ : ℝ) : 0 ≤ circ s L ξ ζ ∧ circ s L ξ ζ ≤ L := by
  have hr := atan2_range s (-ζ) (-ξ)
  have hp := pi_pos
  unfold circ
  constructor
  · apply div_nonneg
    · exact mul_nonneg hL.le (by linarith)
    · linarith
  · rw [div_le_iff₀ (by linarith)]
    nlinarith

theorem circ_angle (s : Bool) {L : ℝ} (hL : 0 < L) (ξ ζ : ℝ) :
    2 * π * circ s L ξ ζ / L = atan2 s (-ζ) (-ξ) + π := by
  have hp := pi_pos
  unfold circ
  field_simp

theorem circ_dir (s : Bool) {L : ℝ} (hL : 0 < L) {ξ ζ : ℝ} (h : ¬ (ξ = 0 ∧ ζ = 0)) :
    ∃ ρ > 0, ξ = ρ * cos (2 * π * circ s L ξ ζ / L) ∧ ζ = ρ * sin (2 * π * circ s L ξ ζ / L) := by
  obtain ⟨ρ, hρ, h1, h2⟩ := atan2_dir s (y := -ζ) (x := -ξ) (by simpa using h)
  refine ⟨ρ, hρ, ?_, ?_⟩
  · rw [circ_angle s hL, cos_add_pi]; linarith
  · rw [circ_angle s hL, sin_add_pi]; linarith

theorem circ_zero (s : Bool) (L : ℝ) : circ s L 0 0 = L / 2 := by
  have hp := pi_pos
  have : atan2 s (-0) (-0) = 0 := by
    unfold atan2
    rw [if_neg (by simp)]
    have : (⟨-0, -0⟩ : ℂ) = 0 := by apply Complex.ext <;> simp
    rw [this, Complex.arg_zero]
  unfold circ
  rw [this]
  field_simp
  ring

theorem _root_.Verif.Spec.SameMod.refl (L a : ℝ) : SameMod L a a := ⟨0, by simp⟩

theorem _root_.Verif.Spec.SameMod.symm {L a b : ℝ} (h : SameMod L a b) : SameMod L b a := by
  obtain ⟨k, rfl⟩ := h
  exact ⟨-k, by push_cast; ring⟩

theorem _root_.Verif.Spec.SameMod.trans {L a b c : ℝ} (h : SameMod L a b) (h' : SameMod L b c) : SameMod L a c := by
  obtain ⟨k, rfl⟩ := h
  obtain ⟨m, rfl⟩ := h'
  exact ⟨k + m, by push_cast; ring⟩

/-- The direction determines the position modulo the circumference. -/
theorem dir_unique {L a b ρ σ : ℝ} (hL : 0 < L) (hρ : 0 < ρ) (hσ : 0 < σ)
    (hc : ρ * cos (2 * π * a / L) = σ * cos (2 * π * b / L))
    (hs : ρ * sin (2 * π * a / L) = σ * sin (2 * π * b / L)) : SameMod L a b := by
  have e : ρ = σ := by
    have h1 := sin_sq_add_cos_sq (2 * π * a / L)
    have h2 := sin_sq_add_cos_sq (2 * π * b / L)
    have h3 : ρ ^ 2 = σ ^ 2 := by
      have := congrArg (· ^ 2) hc
      have := congrArg (· ^ 2) hs
      calc ρ ^ 2 = ρ ^ 2 * (sin (2 * π * a / L) ^ 2 + cos (2 * π * a / L) ^ 2) := by rw [h1]; ring
        _ = (ρ * sin (2 * π * a / L)) ^ 2 + (ρ * cos (2 * π * a / L)) ^ 2 := by ring
        _ = (σ * sin (2 * π * b / L)) ^ 2 + (σ * cos (2 * π * b / L)) ^ 2 := by rw [hc, hs]
        _ = σ ^ 2 * (sin (2 * π * b / L) ^ 2 + cos (2 * π * b / L) ^ 2) := by ring
        _ = σ ^ 2 := by rw [h2]; ring
    nlinarith [sq_nonneg (ρ - σ), sq_nonneg (ρ + σ)]
  subst e
  have hc' := mul_left_cancel₀ hρ.ne' hc
  have hs' := mul_left_cancel₀ hρ.ne' hs
  obtain ⟨k, hk⟩ := Real.Angle.angle_eq_iff_two_pi_dvd_sub.1 (Real.Angle.cos_sin_inj hc' hs')
  refine ⟨k, ?_⟩
  have hp := pi_pos
  have : 2 * π * (a - b) = 2 * π * (k * L) := by
    have h := congrArg (· * L) hk
    simp only [sub_mul] at h
    rw [div_mul_cancel₀ _ hL.ne', div_mul_cancel₀ _ hL.ne'] at h
    linarith
  have := mul_left_cancel₀ (by positivity : (2 * π) ≠ 0) this
  linarith

/-- Positive multiples have the same direction. -/
theorem circ_scale (s s' : Bool) {L : ℝ} (hL : 0 < L) {ξ ζ σ : ℝ} (hσ : 0 < σ) :
    SameMod L (circ s L (σ * ξ) (σ * ζ)) (circ s' L ξ ζ) := by
  by_cases h : ξ = 0 ∧ ζ = 0
  · rw [h.1, h.2, mul_zero, circ_zero, circ_zero]
    exact SameMod.refl _ _
  · have h' : ¬ (σ * ξ = 0 ∧ σ * ζ = 0) := by
      intro e
      refine h ⟨?_, ?_⟩
      · exact (mul_eq_zero.1 e.1).resolve_left hσ.ne'
      · exact (mul_eq_zero.1 e.2).resolve_left hσ.ne'
    obtain ⟨ρ, hρ, h1, h2⟩ := circ_dir s hL h'
    obtain ⟨τ, hτ, h3, h4⟩ := circ_dir s' hL h
    refine dir_unique hL hρ (mul_pos hσ hτ) ?_ ?_
    · rw [← h1, mul_assoc, ← h3]
    · rw [← h2, mul_assoc, ← h4]

/-- The direction of a rotated vector. -/
theorem circ_rotate (s s' : Bool) {L t : ℝ} (hL : 0 < L) {ξ ζ : ℝ} (h : ¬ (ξ = 0 ∧ ζ = 0)) :
    SameMod L (circ s L (cos (2 * π * t / L) * ξ - sin (2 * π * t / L) * ζ)
      (cos (2 * π * t / L) * ζ + sin (2 * π * t / L) * ξ)) (circ s' L ξ ζ + t) := by
  obtain ⟨τ, hτ, h3, h4⟩ := circ_dir s' hL h
  set c := circ s' L ξ ζ
  have e1 : cos (2 * π * t / L) * ξ - sin (2 * π * t / L) * ζ = τ * cos (2 * π * (c + t) / L) := by
    rw [show 2 * π * (c + t) / L = 2 * π * c / L + 2 * π * t / L by ring, cos_add]
    linear_combination cos (2 * π * t / L) * h3 - sin (2 * π * t / L) * h4
  have e2 : cos (2 * π * t / L) * ζ + sin (2 * π * t / L) * ξ = τ * sin (2 * π * (c + t) / L) := by
    rw [show 2 * π * (c + t) / L = 2 * π * c / L + 2 * π * t / L by ring, sin_add]
    linear_combination cos (2 * π * t / L) * h4 + sin (2 * π * t / L) * h3
  have h' : ¬ (cos (2 * π * t / L) * ξ - sin (2 * π * t / L) * ζ = 0 ∧
      cos (2 * π * t / L) * ζ + sin (2 * π * t / L) * ξ = 0) := by
    rw [e1, e2]
    rintro ⟨a, b⟩
    have a' := (mul_eq_zero.1 a).resolve_left hτ.ne'
    have b' := (mul_eq_zero.1 b).resolve_left hτ.ne'
    have := sin_sq_add_cos_sq (2 * π * (c + t) / L)
    rw [a', b'] at this
    norm_num at this
  obtain ⟨ρ, hρ, h1, h2⟩ := circ_dir s hL h'
  refine dir_unique hL hρ hτ ?_ ?_
  · rw [← h1, e1]
  · rw [← h2, e2]

/-! ### The components of the centre -/

variable {n : Nat}

theorem average_cos {L : ℝ} (w l : List ℝ) :
    average ((l.map fun x => 2 * π * x / L).map cos) w = cosSum L (List.zip w l) / w.sum := by
  unfold average cosSum
  congr 2
  rw [List.map_map, List.zip_eq_zipWith, List.map_zipWith, List.zipWith_map_right]
  rfl

theorem average_sin {L : ℝ} (w l : List ℝ) :
    average ((l.map fun x => 2 * π * x / L).map sin) w = sinSum L (List.zip w l) / w.sum := by
  unfold average sinSum
  congr 2
  rw [List.map_map, List.zip_eq_zipWith, List.map_zipWith, List.zipWith_map_right]
  rfl

theorem mean_cos {L : ℝ} (l : List ℝ) :
    mean ((l.map fun x => 2 * π * x / L).map cos) = cosSum L (unweighted l) / l.length := by
  unfold mean cosSum unweighted
  simp only [List.map_map, List.length_map, Function.comp_def, one_mul]

theorem mean_sin {L : ℝ} (l : List ℝ) :
    mean ((l.map fun x => 2 * π * x / L).map sin) = sinSum L (unweighted l) / l.length := by
  unfold mean sinSum unweighted
  simp only [List.map_map, List.length_map, Function.comp_def, one_mul]

theorem center_comp (s : Fin n → Bool) (shape : Fin n → ℝ) {ps : List (Fin n → ℝ)} (h : ps ≠ []) (j : Fin n) :
    center s shape ps true j = circ (s j) (shape j)
      (cosSum (shape j) (unweighted (column ps j)) / ps.length)
      (sinSum (shape j) (unweighted (column ps j)) / ps.length) := by
  have hn : ps.length * n ≠ 0 := by
    have := j.pos
    have := List.length_pos_iff.2 h
    positivity
  unfold center
  rw [if_neg hn, if_neg (by simp)]
  have e1 := mean_cos (L := shape j) (column ps j)
  have e2 := mean_sin (L := shape j) (column ps j)
  have el : (column ps j).length = ps.length := by simp [column]
  rw [el] at e1 e2
  rw [← e1, ← e2]
  simp only [column, List.map_map, Function.comp_def, circ]

theorem com_comp (s : Fin n → Bool) (shape : Fin n → ℝ) {ps : List (Fin n → ℝ)} (w : List ℝ) (h : ps ≠ [])
    (j : Fin n) :
    centerOfMass s shape ps w true j = circ (s j) (shape j)
      (cosSum (shape j) (List.zip w (column ps j)) / w.sum)
      (sinSum (shape j) (List.zip w (column ps j)) / w.sum) := by
  have hn : ps.length * n ≠ 0 := by
    have := j.pos
    have := List.length_pos_iff.2 h
    positivity
  unfold centerOfMass
  rw [if_neg hn, if_neg (by simp)]
  have e1 := average_cos (L := shape j) w (column ps j)
  have e2 := average_sin (L := shape j) w (column ps j)
  rw [← e1, ← e2]
  simp only [column, List.map_map, Function.comp_def, circ]

theorem center_flat (s : Fin n → Bool) (shape : Fin n → ℝ) {ps : List (Fin n → ℝ)} (h : ps ≠ []) (j : Fin n) :
    center s shape ps false j = (column ps j).sum / ps.length := by
  have hn : ps.length * n ≠ 0 := by
    have := j.pos
    have := List.length_pos_iff.2 h
    positivity
  unfold center
  rw [if_neg hn, if_pos (by simp)]
  simp [mean, column]

theorem com_flat (s : Fin n → Bool) (shape : Fin n → ℝ) {ps : List (Fin n → ℝ)} (w : List ℝ) (h : ps ≠ [])
    (j : Fin n) :
    centerOfMass s shape ps w false j = ((List.zip w (column ps j)).map fun p => p.1 * p.2).sum / w.sum := by
  have hn : ps.length * n ≠ 0 := by
    have := j.pos
    have := List.length_pos_iff.2 h
    positivity
  unfold centerOfMass
  rw [if_neg hn, if_pos (by simp)]
  simp only [average, column, List.zip_eq_zipWith, List.map_zipWith]

theorem center_nil (s : Fin n → Bool) (shape : Fin n → ℝ) (periodic : Bool) (j : Fin n) :
    center s shape [] periodic j = 0 := by
  simp [center]

theorem com_nil (s : Fin n → Bool) (shape : Fin n → ℝ) (w : List ℝ) (periodic : Bool) (j : Fin n) :
    centerOfMass s shape [] w periodic j = 0 := by
  simp [centerOfMass]

/-! ### Sums of vectors -/

theorem cosSum_shift (L t : ℝ) (l : List (ℝ × ℝ)) : cosSum L (l.map fun p => (p.1, p.2 + t)) =
    cos (2 * π * t / L) * cosSum L l - sin (2 * π * t / L) * sinSum L l := by
  induction l with
  | nil => simp [cosSum, sinSum]
  | cons p l ih =>
    simp only [cosSum, sinSum, List.map_cons, List.sum_cons] at ih ⊢
    rw [ih, show 2 * π * (p.2 + t) / L = 2 * π * p.2 / L + 2 * π * t / L by ring, cos_add]
    ring

theorem sinSum_shift (L t : ℝ) (l : List (ℝ × ℝ)) : sinSum L (l.map fun p => (p.1, p.2 + t)) =
    cos (2 * π * t / L) * sinSum L l + sin (2 * π * t / L) * cosSum L l := by
  induction l with
  | nil => simp [cosSum, sinSum]
  | cons p l ih =>
    simp only [cosSum, sinSum, List.map_cons, List.sum_cons] at ih ⊢
    rw [ih, show 2 * π * (p.2 + t) / L = 2 * π * p.2 / L + 2 * π * t / L by ring, sin_add]
    ring

theorem cos_same {L x y : ℝ} (hL : 0 < L) (h : SameMod L x y) : cos (2 * π * x / L) = cos (2 * π * y / L) := by
  obtain ⟨k, rfl⟩ := h
  rw [show 2 * π * (y + k * L) / L = 2 * π * y / L + k * (2 * π) by field_simp, cos_add_int_mul_two_pi]

theorem sin_same {L x y : ℝ} (hL : 0 < L) (h : SameMod L x y) : sin (2 * π * x / L) = sin (2 * π * y / L) := by
  obtain ⟨k, rfl⟩ := h
  rw [show 2 * π * (y + k * L) / L = 2 * π * y / L + k * (2 * π) by field_simp, sin_add_int_mul_two_pi]

/-- The same weights, and positions that are the same modulo the box. -/
def SameModList (L : ℝ) (l l' : List (ℝ × ℝ)) : Prop :=
  List.Forall₂ (fun p q => p.1 = q.1 ∧ SameMod L p.2 q.2) l l'

theorem sums_same {L : ℝ} (hL : 0 < L) {l l' : List (ℝ × ℝ)} (h : SameModList L l l') :
    cosSum L l = cosSum L l' ∧ sinSum L l = sinSum L l' := by
  induction h with
  | nil => exact ⟨rfl, rfl⟩
  | cons hp _ ih =>
    simp only [cosSum, sinSum, List.map_cons, List.sum_cons] at ih ⊢
    rw [ih.1, ih.2, hp.1, cos_same hL hp.2, sin_same hL hp.2]
    exact ⟨rfl, rfl⟩

/-! ### What the sums determine -/

theorem circ_unique (s : Bool) {L ξ ζ a ρ : ℝ} (hL : 0 < L) (hρ : 0 < ρ) (hc : ξ = ρ * cos (2 * π * a / L))
    (hs : ζ = ρ * sin (2 * π * a / L)) : SameMod L (circ s L ξ ζ) a := by
  have h : ¬ (ξ = 0 ∧ ζ = 0) := by
    rw [hc, hs]
    rintro ⟨a1, b1⟩
    have a' := (mul_eq_zero.1 a1).resolve_left hρ.ne'
    have b' := (mul_eq_zero.1 b1).resolve_left hρ.ne'
    have := sin_sq_add_cos_sq (2 * π * a / L)
    rw [a', b'] at this
    norm_num at this
  obtain ⟨τ, hτ, h1, h2⟩ := circ_dir s hL h
  exact dir_unique hL hτ hρ (by rw [← h1, ← hc]) (by rw [← h2, ← hs])

theorem circ_div (s s' : Bool) {L : ℝ} (hL : 0 < L) {ξ ζ σ τ : ℝ} (hσ : 0 < σ) (hτ : 0 < τ) :
    SameMod L (circ s L (ξ / σ) (ζ / σ)) (circ s' L (ξ / τ) (ζ / τ)) := by
  have h1 := circ_scale s s' hL (ξ := ξ) (ζ := ζ) (inv_pos.2 hσ)
  have h2 := circ_scale s' s' hL (ξ := ξ) (ζ := ζ) (inv_pos.2 hτ)
  rw [inv_mul_eq_div, inv_mul_eq_div] at h1 h2
  exact h1.trans h2.symm

theorem circ_isMean (s : Bool) {L : ℝ} (hL : 0 < L) {l : List (ℝ × ℝ)} {σ : ℝ} (hσ : 0 < σ)
    (h : HasDirection L l) : IsCircularMean L l (circ s L (cosSum L l / σ) (sinSum L l / σ)) := by
  have h' : ¬ (cosSum L l / σ = 0 ∧ sinSum L l / σ = 0) := by
    rintro ⟨a, b⟩
    rw [div_eq_zero_iff] at a b
    exact h ⟨a.resolve_right hσ.ne', b.resolve_right hσ.ne'⟩
  obtain ⟨ρ, hρ, h1, h2⟩ := circ_dir s hL h'
  refine ⟨(circ_range s hL _ _).1, (circ_range s hL _ _).2, ρ * σ, mul_pos hρ hσ, ?_, ?_⟩
  · rw [div_eq_iff hσ.ne'] at h1
    rw [h1]
    nth_rewrite 2 [← h1]
    ring
  · rw [div_eq_iff hσ.ne'] at h2
    rw [h2]
    nth_rewrite 2 [← h2]
    ring

/-! ### Arcs -/

/-- If all vectors are within an angle `δ < π / 2` of the first axis, then so is their sum. -/
theorem arc_sum {δ : ℝ} (h0 : 0 ≤ δ) (h1 : δ < π / 2) : ∀ (l : List (ℝ × ℝ)),
    (∀ p ∈ l, 0 ≤ p.1 ∧ ∃ k : ℤ, |p.2 - k * (2 * π)| ≤ δ) →
    0 ≤ (l.map fun p => p.1 * cos p.2).sum ∧
    (0 < (l.map fun p => p.1).sum → 0 < (l.map fun p => p.1 * cos p.2).sum) ∧
    0 ≤ sin δ * (l.map fun p => p.1 * cos p.2).sum - cos δ * (l.map fun p => p.1 * sin p.2).sum ∧
    0 ≤ sin δ * (l.map fun p => p.1 * cos p.2).sum + cos δ * (l.map fun p => p.1 * sin p.2).sum ∧
    0 ≤ (l.map fun p => p.1).sum
  | [], _ => by simp
  | p :: l, h => by
    obtain ⟨i1, i2, i3, i4, i5⟩ := arc_sum h0 h1 l fun q hq => h q (List.mem_cons_of_mem _ hq)
    obtain ⟨hp, k, ha⟩ := h p List.mem_cons_self
    rw [abs_le] at ha
    have ec := cos_sub_int_mul_two_pi p.2 k
    have es := sin_sub_int_mul_two_pi p.2 k
    set φ := p.2 - k * (2 * π)
    have hc : 0 < cos φ := cos_pos_of_mem_Ioo ⟨by linarith, by linarith⟩
    have s1 : 0 ≤ sin (δ - φ) := sin_nonneg_of_nonneg_of_le_pi (by linarith) (by linarith [pi_pos])
    have s2 : 0 ≤ sin (δ + φ) := sin_nonneg_of_nonneg_of_le_pi (by linarith) (by linarith [pi_pos])
    rw [sin_sub] at s1
    rw [sin_add] at s2
    rw [ec] at hc s1 s2
    rw [es] at s1 s2
    simp only [List.map_cons, List.sum_cons]
    have m1 := mul_nonneg hp hc.le
    have m2 := mul_nonneg hp s1
    have m3 := mul_nonneg hp s2
    refine ⟨by linarith, fun hw => ?_, by nlinarith, by nlinarith, by linarith⟩
    rcases hp.eq_or_lt with h' | h'
    · rw [← h'] at hw ⊢
      have := i2 (by linarith)
      linarith
    · have := mul_pos h' hc
      linarith

/-- An angle with these signs is within `δ` of zero, modulo `2π`. -/
theorem arc_angle {δ θ ρ : ℝ} (h1 : δ < π / 2) (h0 : 0 ≤ δ) (hρ : 0 < ρ) (hX : 0 < ρ * cos θ)
    (hm : 0 ≤ sin δ * (ρ * cos θ) - cos δ * (ρ * sin θ))
    (hp : 0 ≤ sin δ * (ρ * cos θ) + cos δ * (ρ * sin θ)) : ∃ k : ℤ, |θ - k * (2 * π)| ≤ δ := by
  have pp := pi_pos
  have tp : (0 : ℝ) < 2 * π := by linarith
  refine ⟨toIocDiv tp (-π) θ, ?_⟩
  have hr := sub_toIocDiv_zsmul_mem_Ioc tp (-π) θ
  rw [zsmul_eq_mul] at hr
  set k := toIocDiv tp (-π) θ
  set φ := θ - k * (2 * π) with hφ
  have hc : cos θ = cos φ := by rw [hφ, cos_sub_int_mul_two_pi]
  have hs : sin θ = sin φ := by rw [hφ, sin_sub_int_mul_two_pi]
  rw [hc] at hX hm hp
  rw [hs] at hm hp
  have c0 : 0 < cos φ := by
    by_contra h
    nlinarith
  have m1 : 0 ≤ sin (δ - φ) := by
    rw [sin_sub]
    by_contra h
    nlinarith
  have m2 : 0 ≤ sin (δ + φ) := by
    rw [sin_add]
    by_contra h
    nlinarith
  obtain ⟨a, b⟩ := hr
  have b' : φ ≤ π := by linarith
  have q1 : φ < π / 2 := by
    by_contra h
    have := cos_nonpos_of_pi_div_two_le_of_le (not_lt.1 h) (by linarith)
    linarith
  have q2 : -(π / 2) < φ := by
    by_contra h
    have := cos_nonpos_of_pi_div_two_le_of_le (x := -φ) (by linarith [not_lt.1 h]) (by linarith)
    rw [cos_neg] at this
    linarith
  rw [abs_le]
  constructor
  · by_contra h
    have := sin_neg_of_neg_of_neg_pi_lt (x := δ + φ) (by linarith [not_le.1 h]) (by linarith)
    linarith
  · by_contra h
    have := sin_neg_of_neg_of_neg_pi_lt (x := δ - φ) (by linarith [not_le.1 h]) (by linarith)
    linarith

/-- If all positions are within `d < L / 4` of `a`, then so is the centre (modulo the box). -/
theorem circ_arc (s : Bool) {L σ a d : ℝ} (hL : 0 < L) (hσ : 0 < σ) (h0 : 0 ≤ d) (h1 : d < L / 4)
    {l : List (ℝ × ℝ)} (hw : 0 < (l.map fun p => p.1).sum)
    (hl : ∀ p ∈ l, 0 ≤ p.1 ∧ ∃ x, SameMod L p.2 x ∧ |x - a| ≤ d) :
    ∃ x, SameMod L (circ s L (cosSum L l / σ) (sinSum L l / σ)) x ∧ |x - a| ≤ d := by
  have pp := pi_pos
  have key := fun (x : ℝ) (k : ℤ) => show |2 * π * (x - a) / L - k * (2 * π)| ≤ 2 * π * d / L ↔
      |x - k * L - a| ≤ d by
    have : 2 * π * (x - a) / L - k * (2 * π) = 2 * π / L * (x - k * L - a) := by field_simp; ring
    have hp : 0 < 2 * π / L := by positivity
    rw [this, abs_mul, abs_of_pos hp, show 2 * π * d / L = 2 * π / L * d by ring]
    exact mul_le_mul_iff_right₀ hp
  set δ := 2 * π * d / L with hδ
  have d0 : 0 ≤ δ := by positivity
  have d1 : δ < π / 2 := by
    rw [hδ, div_lt_iff₀ hL]
    nlinarith
  have hA := arc_sum d0 d1 (l.map fun p => (p.1, 2 * π * (p.2 - a) / L)) (by
    intro q hq
    rw [List.mem_map] at hq
    obtain ⟨p, hp, rfl⟩ := hq
    obtain ⟨w, x, ⟨k, hk⟩, hx⟩ := hl p hp
    refine ⟨w, k, ?_⟩
    rw [key, hk]
    simpa using hx)
  simp only [List.map_map, Function.comp_def] at hA
  obtain ⟨-, i2, i3, i4, -⟩ := hA
  have i2 := i2 hw
  have e1 : (l.map fun p => p.1 * cos (2 * π * (p.2 - a) / L)).sum =
      cos (2 * π * (-a) / L) * cosSum L l - sin (2 * π * (-a) / L) * sinSum L l := by
    rw [← cosSum_shift]
    simp only [cosSum, List.map_map, Function.comp_def, sub_eq_add_neg]
  have e2 : (l.map fun p => p.1 * sin (2 * π * (p.2 - a) / L)).sum =
      cos (2 * π * (-a) / L) * sinSum L l + sin (2 * π * (-a) / L) * cosSum L l := by
    rw [← sinSum_shift]
    simp only [sinSum, List.map_map, Function.comp_def, sub_eq_add_neg]
  have hd : HasDirection L l := by
    intro e
    rw [e1, e.1, e.2] at i2
    simp at i2
  obtain ⟨-, -, ρ, hρ, c1, c2⟩ := circ_isMean s hL hσ hd
  set c := circ s L (cosSum L l / σ) (sinSum L l / σ)
  have f1 : (l.map fun p => p.1 * cos (2 * π * (p.2 - a) / L)).sum = ρ * cos (2 * π * (c - a) / L) := by
    rw [e1, c1, c2, show 2 * π * (c - a) / L = 2 * π * (-a) / L + 2 * π * c / L by ring, cos_add]
    ring
  have f2 : (l.map fun p => p.1 * sin (2 * π * (p.2 - a) / L)).sum = ρ * sin (2 * π * (c - a) / L) := by
    rw [e2, c1, c2, show 2 * π * (c - a) / L = 2 * π * (-a) / L + 2 * π * c / L by ring, sin_add]
    ring
  rw [f1] at i2 i3 i4
  rw [f2] at i3 i4
  obtain ⟨k, hk⟩ := arc_angle d1 d0 hρ i2 i3 i4
  rw [key] at hk
  exact ⟨c - k * L, ⟨k, by ring⟩, hk⟩

/-- `Σ w (x - y)`, if the sum of the sines is zero. -/
theorem cubic_sum {L δ y : ℝ} : ∀ (l : List (ℝ × ℝ)), (∀ p ∈ l, 0 ≤ p.1 ∧ |2 * π * (p.2 - y) / L| ≤ δ) →
    |(l.map fun p => p.1 * (2 * π * (p.2 - y) / L)).sum - (l.map fun p => p.1 * sin (2 * π * (p.2 - y) / L)).sum| ≤
      (l.map fun p => p.1).sum * (δ ^ 3 / 6) := by
  intro l
  induction l with
  | nil => intro _; simp
  | cons p l ih =>
    intro h
    have ih := ih fun q hq => h q (List.mem_cons_of_mem _ hq)
    obtain ⟨h1, h2⟩ := h p List.mem_cons_self
    simp only [List.map_cons, List.sum_cons]
    generalize 2 * π * (p.2 - y) / L = t at *
    have h3 : |t - sin t| ≤ δ ^ 3 / 6 := (abs_sub_sin_le t).trans
      (by linarith [pow_le_pow_left₀ (abs_nonneg t) h2 3])
    have h4 : |p.1 * (t - sin t)| ≤ p.1 * (δ ^ 3 / 6) := by
      rw [abs_mul, abs_of_nonneg h1]
      exact mul_le_mul_of_nonneg_left h3 h1
    rw [abs_le] at ih h4 ⊢
    constructor <;> nlinarith [ih.1, ih.2, h4.1, h4.2]

/-- If all positions are within `d < L / 4` of `a`, the centre differs from their mean by at most `16 π² d³ / (3 L²)`. -/
theorem circ_near (s : Bool) {L σ a d : ℝ} (hL : 0 < L) (hσ : 0 < σ) (h0 : 0 ≤ d) (h1 : d < L / 4)
    {l : List (ℝ × ℝ)} (hw : 0 < (l.map fun p => p.1).sum) (hl : ∀ p ∈ l, 0 ≤ p.1 ∧ |p.2 - a| ≤ d) :
    ∃ x, SameMod L (circ s L (cosSum L l / σ) (sinSum L l / σ)) x ∧
      |x - (l.map fun p => p.1 * p.2).sum / (l.map fun p => p.1).sum| ≤ 16 * π ^ 2 / 3 * (d ^ 3 / L ^ 2) := by
  have pp := pi_pos
  obtain ⟨y, hy, hya⟩ := circ_arc s hL hσ h0 h1 hw fun p hp => ⟨(hl p hp).1, p.2, ⟨0, by ring⟩, (hl p hp).2⟩
  refine ⟨y, hy, ?_⟩
  have hzero : (l.map fun p => p.1 * sin (2 * π * (p.2 - y) / L)).sum = 0 := by
    have e2 : (l.map fun p => p.1 * sin (2 * π * (p.2 - y) / L)).sum =
        cos (2 * π * (-y) / L) * sinSum L l + sin (2 * π * (-y) / L) * cosSum L l := by
      rw [← sinSum_shift]
      simp only [sinSum, List.map_map, Function.comp_def, sub_eq_add_neg]
    rw [e2]
    by_cases hd : HasDirection L l
    · obtain ⟨-, -, ρ, hρ, c1, c2⟩ := circ_isMean s hL hσ hd
      obtain ⟨k, hk⟩ := hy
      rw [hk] at c1 c2
      have hang : 2 * π * (y + k * L) / L = 2 * π * y / L + k * (2 * π) := by field_simp
      rw [hang, cos_add_int_mul_two_pi] at c1
      rw [hang, sin_add_int_mul_two_pi] at c2
      rw [c1, c2, show 2 * π * (-y) / L = -(2 * π * y / L) by ring, cos_neg, sin_neg]
      ring
    · obtain ⟨c1, c2⟩ := not_not.1 hd
      rw [c1, c2]
      ring
  have hb := cubic_sum (δ := 4 * π * d / L) (y := y) l (by
    intro p hp
    refine ⟨(hl p hp).1, ?_⟩
    have hpy : |p.2 - y| ≤ 2 * d := by
      have e : p.2 - y = (p.2 - a) - (y - a) := by ring
      rw [e]
      exact (abs_sub _ _).trans (by linarith [(hl p hp).2])
    rw [abs_div, abs_mul, abs_of_pos hL, abs_of_pos (by positivity : 0 < 2 * π), div_le_div_iff_of_pos_right hL]
    nlinarith)
  rw [hzero, sub_zero] at hb
  have hlin : (l.map fun p => p.1 * (2 * π * (p.2 - y) / L)).sum =
      2 * π / L * ((l.map fun p => p.1 * p.2).sum - (l.map fun p => p.1).sum * y) := by
    clear hb hzero hy hya hw hl
    induction l with
    | nil => simp
    | cons p l ih =>
      simp only [List.map_cons, List.sum_cons, ih]
      ring
  rw [hlin] at hb
  set W := (l.map fun p => p.1).sum
  set S := (l.map fun p => p.1 * p.2).sum
  have hdiff : 2 * π / L * (S - W * y) = -(2 * π / L * W * (y - S / W)) := by field_simp; ring
  rw [hdiff, abs_neg, abs_mul, abs_of_pos (by positivity : 0 < 2 * π / L * W)] at hb
  have hr : W * ((4 * π * d / L) ^ 3 / 6) = 2 * π / L * W * (16 * π ^ 2 / 3 * (d ^ 3 / L ^ 2)) := by
    field_simp
    ring
  rw [hr] at hb
  exact le_of_mul_le_mul_left hb (by positivity)

/-! ### The loop over the labels -/

theorem argwhere_perm {labels : Nd Int} {name : Int} {l : List (List Int)} (h : Enumerates labels name l) :
    (argwhere labels name).Perm l := by
  have hs : labels.size = labels.shape.prod := prodShape_eq _
  refine (List.perm_ext_iff_of_nodup ?_ h.1).2 ?_
  · unfold argwhere
    refine (List.Nodup.filter _ List.nodup_range).map_on ?_
    intro a ha b hb e
    rw [List.mem_filter, List.mem_range, hs] at ha hb
    have := (unravel_inbox ha.1).2
    rw [e, (unravel_inbox hb.1).2] at this
    exact this.symm
  · intro x
    rw [h.2]
    unfold argwhere
    simp only [List.mem_map, List.mem_filter, List.mem_range, beq_iff_eq, hs]
    constructor
    · rintro ⟨k, ⟨hk, hv⟩, rfl⟩
      refine ⟨(unravel_inbox hk).1, ?_⟩
      rw [val, (unravel_inbox hk).2, hv]
    · rintro ⟨hx, hv⟩
      have hr := flat_range hx
      exact ⟨(flat labels.shape x).toNat, ⟨by omega, hv⟩, unravel_flat hx⟩

theorem rows_ok {α : Type} (f : Nat → Int → Option α) : ∀ (names : List Int) (k : Nat) (ret : List α),
    k + names.length = ret.length →
    ∃ rows, forM (names.zipIdx k) ret (fun ret l =>
        match f l.2 l.1 with
        | none => pure ret
        | some row => pure (setRow ret l.2 row)) = .ok rows ∧ rows.length = ret.length ∧
      ∀ i, rows[i]? = if h : k ≤ i ∧ i < k + names.length then
        (match f i (names[i - k]'(by omega)) with | none => ret[i]? | some row => some row) else ret[i]?
  | [], k, ret, _ => ⟨ret, by simp [forM], rfl, fun i => by
      rw [dif_neg (by simp)]⟩
  | name :: names, k, ret, hk => by
    simp only [List.length_cons] at hk
    have step : ∃ ret', (match f k name with
        | none => (pure ret : Outcome (List α))
        | some row => pure (setRow ret k row)) = .ok ret' ∧ ret'.length = ret.length ∧
        ∀ i, ret'[i]? = if i = k then (match f k name with | none => ret[i]? | some row => some row)
          else ret[i]? := by
      cases hf : f k name with
      | none => exact ⟨ret, rfl, rfl, fun i => by simp⟩
      | some row =>
        refine ⟨ret.set k row, rfl, by simp, fun i => ?_⟩
        rw [List.getElem?_set]
        by_cases h : i = k
        · subst h
          simp only [if_true]
          rw [if_pos (by omega)]
        · rw [if_neg (by omega), if_neg h]
    obtain ⟨ret', h1, h2, h3⟩ := step
    obtain ⟨rows, r1, r2, r3⟩ := rows_ok f names (k + 1) ret' (by omega)
    refine ⟨rows, ?_, by omega, fun i => ?_⟩
    · rw [List.zipIdx_cons, forM]
      simp only [h1, Outcome.bind]
      exact r1
    · rw [r3]
      by_cases ha : k + 1 ≤ i ∧ i < k + 1 + names.length
      · rw [dif_pos ha, dif_pos ⟨by omega, by simp only [List.length_cons]; omega⟩]
        have e : (name :: names)[i - k]'(by simp only [List.length_cons]; omega) = names[i - (k + 1)]'(by omega) := by
          rw [List.getElem_cons, dif_neg (by omega)]
          congr 1
        rw [e, h3, if_neg (by omega)]
      · rw [dif_neg ha, h3]
        by_cases hi : i = k
        · subst hi
          rw [if_pos rfl, dif_pos ⟨le_refl _, by simp⟩]
          simp
        · rw [if_neg hi, dif_neg (by simp only [List.length_cons]; omega)]

/-! ### Equal sums, equal centres -/

theorem com_ext (s : Fin n → Bool) (shape : Fin n → ℝ) {ps qs : List (Fin n → ℝ)} {w v : List ℝ} (periodic : Bool)
    (hp : ps ≠ []) (hq : qs ≠ []) (hw : w.sum = v.sum)
    (hf : ∀ f : (Fin n → ℝ) → ℝ, (List.zipWith (fun a p => a * f p) w ps).sum =
      (List.zipWith (fun a p => a * f p) v qs).sum) :
    centerOfMass s shape ps w periodic = centerOfMass s shape qs v periodic := by
  have key : ∀ f : (Fin n → ℝ) → ℝ, average (ps.map f) w = average (qs.map f) v := by
    intro f
    unfold average
    rw [List.zipWith_map_right, List.zipWith_map_right, hw, hf f]
  have p0 := List.length_pos_iff.2 hp
  have q0 := List.length_pos_iff.2 hq
  funext j
  have : 0 < n := j.pos
  unfold centerOfMass
  rw [if_neg (Nat.mul_pos p0 this).ne', if_neg (Nat.mul_pos q0 this).ne']
  simp only [key, List.map_map, Function.comp_def]

theorem sum_replicate_one (c : ℝ) (m : Nat) : (List.replicate m c).sum = m * c := by simp

theorem zipWith_replicate {α : Type} (c : ℝ) (f : α → ℝ) (l : List α) :
    (List.zipWith (fun a p => a * f p) (List.replicate l.length c) l).sum = c * (l.map f).sum := by
  induction l with
  | nil => simp
  | cons p l ih =>
    simp only [List.length_cons, List.replicate_succ, List.zipWith_cons_cons, List.sum_cons, List.map_cons, ih]
    ring

theorem average_equal {α : Type} {c : ℝ} (hc : c ≠ 0) (f : α → ℝ) (l : List α) :
    average (l.map f) (List.replicate l.length c) = mean (l.map f) := by
  unfold average mean
  rw [List.zipWith_map_right, zipWith_replicate, sum_replicate_one, List.length_map, mul_comm, mul_div_mul_right _ _ hc]

theorem com_equal (s : Fin n → Bool) (shape : Fin n → ℝ) (ps : List (Fin n → ℝ)) {c : ℝ} (hc : c ≠ 0)
    (periodic : Bool) :
    centerOfMass s shape ps (List.replicate ps.length c) periodic = center s shape ps periodic := by
  unfold centerOfMass center
  simp only [List.map_map, average_equal hc]

theorem circ_sign (s s' : Bool) {L : ℝ} (hL : 0 < L) (ξ ζ : ℝ) : SameMod L (circ s L ξ ζ) (circ s' L ξ ζ) := by
  have := circ_scale s s' hL (ξ := ξ) (ζ := ζ) one_pos
  rwa [one_mul, one_mul] at this

theorem com_sign (s s' : Fin n → Bool) (shape : Fin n → ℝ) (ps : List (Fin n → ℝ)) (w : List ℝ)
    (periodic : Bool) (j : Fin n) (hL : 0 < shape j) :
    SameIn periodic (shape j) (centerOfMass s shape ps w periodic j) (centerOfMass s' shape ps w periodic j) := by
  by_cases hp : ps = []
  · subst hp
    rw [com_nil, com_nil]
    unfold SameIn
    split
    · exact SameMod.refl _ _
    · rfl
  · unfold SameIn
    cases periodic
    · simp [com_flat _ _ _ hp]
    · simp only [if_true, com_comp _ _ _ hp]
      exact circ_sign _ _ hL _ _

theorem center_sign (s s' : Fin n → Bool) (shape : Fin n → ℝ) (ps : List (Fin n → ℝ))
    (periodic : Bool) (j : Fin n) (hL : 0 < shape j) :
    SameIn periodic (shape j) (center s shape ps periodic j) (center s' shape ps periodic j) := by
  have := com_sign s s' shape ps (List.replicate ps.length 1) periodic j hL
  rwa [com_equal _ _ _ one_ne_zero, com_equal _ _ _ one_ne_zero] at this

theorem _root_.Verif.Spec.SameIn.refl (periodic : Bool) (L a : ℝ) : SameIn periodic L a a := by
  unfold SameIn
  split
  · exact SameMod.refl _ _
  · rfl

theorem _root_.Verif.Spec.SameIn.trans {periodic : Bool} {L a b c : ℝ} (h : SameIn periodic L a b)
    (h' : SameIn periodic L b c) : SameIn periodic L a c := by
  unfold SameIn at *
  split <;> rename_i hp <;> simp only [hp] at h h'
  · exact SameMod.trans h h'
  · exact h.trans h'

/-- Permuting pairs of a weight and a position. -/
theorem com_perm (s : Fin n → Bool) (shape : Fin n → ℝ) {ps qs : List (Fin n → ℝ)} {w v : List ℝ} (periodic : Bool)
    (hw : w.length = ps.length) (hv : v.length = qs.length) (h : (List.zip w ps).Perm (List.zip v qs)) :
    centerOfMass s shape ps w periodic = centerOfMass s shape qs v periodic := by
  by_cases hp : ps = []
  · subst hp
    have : (List.zip v qs).length = 0 := by rw [← h.length_eq]; simp
    rw [List.length_zip, hv, min_self] at this
    rw [List.length_eq_zero_iff] at this
    subst this
    funext j
    rw [com_nil, com_nil]
  · have hq : qs ≠ [] := by
      intro e
      subst e
      have : (List.zip w ps).length = 0 := by rw [h.length_eq]; simp
      rw [List.length_zip, hw, min_self, List.length_eq_zero_iff] at this
      exact hp this
    refine com_ext s shape periodic hp hq ?_ ?_
    · have := (h.map fun p => p.1).sum_eq
      simp only [List.map_fst_zip (by omega : w.length ≤ ps.length),
        List.map_fst_zip (by omega : v.length ≤ qs.length)] at this
      exact this
    · intro f
      have := (h.map fun p => p.1 * f p.2).sum_eq
      simpa only [List.zip_eq_zipWith, List.map_zipWith] using this

theorem center_perm (s : Fin n → Bool) (shape : Fin n → ℝ) {ps qs : List (Fin n → ℝ)} (periodic : Bool)
    (h : ps.Perm qs) : center s shape ps periodic = center s shape qs periodic := by
  have key : ∀ f : (Fin n → ℝ) → ℝ, mean (ps.map f) = mean (qs.map f) := by
    intro f
    unfold mean
    rw [(h.map f).sum_eq, (h.map f).length_eq]
  unfold center
  simp only [key, List.map_map, Function.comp_def, h.length_eq]

theorem adapt_box {shape : List Nat} (hn : shape.length = n) :
    (fun j : Fin n => adapt shape (j.cast hn.symm)) = box n shape := by
  funext j
  have : (j : Nat) < shape.length := by rw [hn]; exact j.isLt
  simp [adapt, box, this]

theorem labelsCenters_ok (dbg : Bool) (negative : Nat → Fin n → Bool) (labels : Nd Int)
    (hn : labels.shape.length = n) (h0 : 0 < n) (names : List Int) (periodic : Bool) :
    ∃ rows, labelsCenters dbg negative labels hn names periodic = .ok rows ∧ rows.length = names.length ∧
      ∀ i (hi : i < names.length), rows[i]? = some (center (negative i) (box n labels.shape)
        ((argwhere labels names[i]).map (coords n)) periodic) := by
  obtain ⟨rows, h1, h2, h3⟩ := rows_ok (fun i name =>
    if (fromIndices n (argwhere labels name)).length * n = 0 then none else some (center (negative i)
      (box n labels.shape) (fromIndices n (argwhere labels name)) periodic)) names 0
    (List.replicate names.length fun _ => 0) (by simp)
  refine ⟨rows, ?_, by simpa using h2, fun i hi => ?_⟩
  · rw [← h1]
    unfold labelsCenters
    rw [adapt_box hn, hn]
    have hg : gassert dbg (decide (0 < n)) = .ok () := by simp [gassert, h0]
    rw [hg]
    show forM _ _ _ = _
    congr 1
    funext ret l
    by_cases hc : (fromIndices n (argwhere labels l.1)).length * n = 0
    · simp [hc]
    · simp [hc]
  · rw [h3, dif_pos ⟨Nat.zero_le _, by omega⟩]
    simp only [Nat.sub_zero]
    by_cases hc : (fromIndices n (argwhere labels names[i])).length * n = 0
    · rw [if_pos hc]
      have : fromIndices n (argwhere labels names[i]) = [] := by
        rcases Nat.mul_eq_zero.1 hc with h | h
        · exact List.length_eq_zero_iff.1 h
        · omega
      have e : (argwhere labels names[i]).map (coords n) = [] := this
      rw [e]
      simp only [List.getElem?_replicate, hi, if_true]
      congr 1
      funext j
      rw [center_nil]
    · rw [if_neg hc]
      rfl

theorem gather {w : Nd ℝ} : ∀ (l : List (List Int)) (acc : List ℝ), (∀ x ∈ l, InBox w.shape x) →
    forM l acc (fun w' x => do
      let v ← w.read x
      pure (w' ++ [v])) = .ok (acc ++ l.map (val w))
  | [], acc, _ => by simp [forM]
  | x :: l, acc, h => by
    rw [forM, read_ok (h x List.mem_cons_self)]
    simp only [Outcome.ok_bind, Outcome.pure_eq, Outcome.bind]
    have := gather l (acc ++ [val w x]) fun y hy => h y (List.mem_cons_of_mem _ hy)
    simp only [Outcome.pure_eq] at this
    rw [this, List.append_assoc]
    rfl

theorem argwhere_inbox {labels : Nd Int} {name : Int} {x : List Int} (hx : x ∈ argwhere labels name) :
    InBox labels.shape x := by
  unfold argwhere at hx
  rw [List.mem_map] at hx
  obtain ⟨k, hk, rfl⟩ := hx
  rw [List.mem_filter, List.mem_range] at hk
  exact (unravel_inbox (by have := prodShape_eq labels.shape; unfold Nd.size at hk; omega)).1

theorem labelsCentersOfMass_ok (dbg : Bool) (negative : Nat → Fin n → Bool) (labels : Nd Int)
    (hn : labels.shape.length = n) (h0 : 0 < n) (weights : Nd ℝ) (hw : weights.shape = labels.shape)
    (names : List Int) (periodic : Bool) :
    ∃ rows, labelsCentersOfMass dbg negative labels hn weights names periodic = .ok rows ∧
      rows.length = names.length ∧
      ∀ i (hi : i < names.length), rows[i]? = some (centerOfMass (negative i) (box n labels.shape)
        ((argwhere labels names[i]).map (coords n)) ((argwhere labels names[i]).map (val weights)) periodic) := by
  obtain ⟨rows, h1, h2, h3⟩ := rows_ok (fun i name =>
    if (fromIndices n (argwhere labels name)).length * n = 0 then none else some (centerOfMass (negative i)
      (box n labels.shape) (fromIndices n (argwhere labels name)) ((argwhere labels name).map (val weights))
        periodic)) names 0
    (List.replicate names.length fun _ => 0) (by simp)
  refine ⟨rows, ?_, by simpa using h2, fun i hi => ?_⟩
  · rw [← h1]
    unfold labelsCentersOfMass
    rw [adapt_box hn, hn, hw]
    have hg : gassert dbg (decide (0 < n)) = .ok () := by simp [gassert, h0]
    have hg' : gassert dbg (decide (labels.shape = labels.shape)) = .ok () := by simp [gassert]
    rw [hg, hg']
    show forM _ _ _ = _
    congr 1
    funext ret l
    dsimp only
    rw [gather (w := weights) (argwhere labels l.1) [] fun x hx => by rw [hw]; exact argwhere_inbox hx]
    simp only [Outcome.ok_bind, List.nil_append]
    by_cases hc : (fromIndices n (argwhere labels l.1)).length * n = 0
    · simp [hc]
    · simp [hc]
  · rw [h3, dif_pos ⟨Nat.zero_le _, by omega⟩]
    simp only [Nat.sub_zero]
    by_cases hc : (fromIndices n (argwhere labels names[i])).length * n = 0
    · rw [if_pos hc]
      have : fromIndices n (argwhere labels names[i]) = [] := by
        rcases Nat.mul_eq_zero.1 hc with h | h
        · exact List.length_eq_zero_iff.1 h
        · omega
      have e : (argwhere labels names[i]).map (coords n) = [] := this
      rw [e]
      simp only [List.getElem?_replicate, hi, if_true]
      congr 1
      funext j
      rw [com_nil]
    · rw [if_neg hc]
      rfl

/-- An image with a pixel has a positive size along every axis. -/
theorem box_pos {shape : List Nat} (hn : shape.length = n) {x : List Int} (hx : InBox shape x) (j : Fin n) :
    0 < box n shape j := by
  have hj : (j : Nat) < shape.length := by rw [hn]; exact j.isLt
  have h := List.Forall₂.get hx hj (by rw [← hx.length_eq]; exact hj)
  have : 0 < shape[(j : Nat)] := by
    have := h.1
    have := h.2
    simp only [List.get_eq_getElem] at *
    omega
  simp only [box, List.getD_eq_getElem?_getD, List.getElem?_eq_getElem hj, Option.getD_some]
  exact_mod_cast this

/-- The direction of shifted positions. -/
theorem circ_shift (s s' : Bool) {L t σ : ℝ} (hL : 0 < L) (hσ : σ ≠ 0) {l : List (ℝ × ℝ)} (hd : HasDirection L l) :
    SameMod L (circ s L (cosSum L (l.map fun p => (p.1, p.2 + t)) / σ) (sinSum L (l.map fun p => (p.1, p.2 + t)) / σ))
      (circ s' L (cosSum L l / σ) (sinSum L l / σ) + t) := by
  have h' : ¬ (cosSum L l / σ = 0 ∧ sinSum L l / σ = 0) := by
    rintro ⟨a, b⟩
    rw [div_eq_zero_iff] at a b
    exact hd ⟨a.resolve_right hσ, b.resolve_right hσ⟩
  have := circ_rotate s s' (t := t) hL h'
  rw [cosSum_shift, sinSum_shift]
  have e1 : (cos (2 * π * t / L) * cosSum L l - sin (2 * π * t / L) * sinSum L l) / σ =
      cos (2 * π * t / L) * (cosSum L l / σ) - sin (2 * π * t / L) * (sinSum L l / σ) := by ring
  have e2 : (cos (2 * π * t / L) * sinSum L l + sin (2 * π * t / L) * cosSum L l) / σ =
      cos (2 * π * t / L) * (sinSum L l / σ) + sin (2 * π * t / L) * (cosSum L l / σ) := by ring
  rw [e1, e2]
  exact this

end Verif.Center
