import Verif.Model.Path
import Verif.Spec.Path
import Mathlib.Tactic.Ring
import Mathlib.Tactic.Linarith
import Mathlib.Tactic.FieldSimp
import Mathlib.Tactic.NormNum
import Mathlib.Tactic.Positivity
import Mathlib.Data.List.Chain

/-!
# The loop of `actual` and `full`, from the origin

The state is described by a list of pairs `(v, m)`: the displacement along the axis, and the number of
steps made along it.
-/

namespace Verif.Path

open Verif Outcome Spec

@[simp] theorem fabs_rat (x : ℚ) : fabs x = |x| := by
  unfold fabs
  split
  · next h => rw [abs_of_neg h]
  · next h => rw [abs_of_nonneg (not_lt.1 h)]

/-- The tolerance. -/
def eps : ℚ := 1 / 1000000

/-- The axis after `m` steps; `τ` is the parameter of the position. -/
def mk (τ : ℚ) (p : Int × Nat) : Axis ℚ :=
  ⟨0, p.1, p.1.sign * p.2, p.1.sign * ((p.2 : ℚ) + 1 / 2), p.1 * τ⟩

/-- Parameter at which the line leaves the current pixel along this axis. -/
def leave (p : Int × Nat) : ℚ := ((p.2 : ℚ) + 1 / 2) / p.1.natAbs

/-- Parameter at which the line entered the current pixel along this axis. -/
def enter (p : Int × Nat) : ℚ := ((p.2 : ℚ) - 1 / 2) / p.1.natAbs

/-- The row. -/
def rowOf (ps : List (Int × Nat)) : List Int := ps.map fun p => p.1.sign * p.2

/-- The axis is selected when the lowest parameter is `T`. -/
def sel (T : ℚ) (p : Int × Nat) : Prop := p.1 ≠ 0 ∧ |leave p - T| < eps

instance (T : ℚ) (p : Int × Nat) : Decidable (sel T p) := inferInstanceAs (Decidable (_ ∧ _))

/-- The update of the axis. -/
def inc (T : ℚ) (p : Int × Nat) : Int × Nat := if sel T p then (p.1, p.2 + 1) else p

theorem mk_v (τ : ℚ) (p : Int × Nat) : (mk τ p).v = (p.1 : ℚ) := by
  simp [mk, Axis.v]

theorem sign_mul_natAbs (v : Int) : ((v.sign : Int) : ℚ) * (v.natAbs : ℚ) = (v : ℚ) := by
  have h := Int.sign_mul_natAbs v
  have h' : ((v.sign * (v.natAbs : Int) : Int) : ℚ) = (v : ℚ) := by rw [h]
  rw [← h', Int.cast_mul, Int.cast_natCast]

theorem sign_sq {v : Int} (h : v ≠ 0) : ((v.sign : Int) : ℚ) * (v.sign : Int) = 1 := by
  rcases lt_or_gt_of_ne h with h1 | h1
  · rw [Int.sign_eq_neg_one_of_neg h1]; norm_num
  · rw [Int.sign_eq_one_of_pos h1]; norm_num

theorem natAbs_pos {v : Int} (h : v ≠ 0) : (0 : ℚ) < v.natAbs := by
  have : 0 < v.natAbs := Int.natAbs_pos.2 h
  exact_mod_cast this

theorem mk_t {τ : ℚ} {p : Int × Nat} (h : p.1 ≠ 0) : (mk τ p).t = leave p - τ := by
  unfold Axis.t
  rw [mk_v]
  unfold mk leave
  simp only
  have hv : (p.1 : ℚ) ≠ 0 := by exact_mod_cast h
  have hn := natAbs_pos h
  have e := sign_mul_natAbs p.1
  have e2 := sign_sq h
  rw [div_eq_iff hv, sub_mul, div_mul_eq_mul_div, eq_sub_iff_add_eq, eq_div_iff hn.ne']
  rw [← e]
  ring

theorem mk_sign (τ : ℚ) (p : Int × Nat) : (mk τ p).sign = ((p.1.sign : Int) : ℚ) := by
  unfold Axis.sign
  rw [mk_v, fabs_rat]
  rcases lt_trichotomy p.1 0 with h | h | h
  · have : (p.1 : ℚ) < 0 := by exact_mod_cast h
    rw [abs_of_neg this, Int.sign_eq_neg_one_of_neg h, div_neg, div_self this.ne]
    norm_num
  · rw [h]; simp
  · have : (0 : ℚ) < p.1 := by exact_mod_cast h
    rw [abs_of_pos this, Int.sign_eq_one_of_pos h, div_self this.ne']
    norm_num

theorem mk_selected (τ T : ℚ) (p : Int × Nat) : (mk τ p).selected (T - τ) = decide (sel T p) := by
  unfold Axis.selected sel
  rw [mk_v]
  by_cases h : p.1 = 0
  · simp [h]
  · have hv : (p.1 : ℚ) ≠ 0 := by exact_mod_cast h
    rw [mk_t h]
    have : leave p - τ - (T - τ) = leave p - T := by ring
    rw [this]
    simp [h, hv, eps]

theorem mk_advance (τ : ℚ) (p : Int × Nat) : (mk τ p).advance = mk τ (p.1, p.2 + 1) := by
  have hs := mk_sign τ p
  unfold Axis.advance
  rw [hs]
  unfold mk
  simp only [Axis.mk.injEq, true_and, and_true]
  constructor
  · push_cast; rw [sub_zero]; ring
  · push_cast; ring

theorem mk_place (τ tm : ℚ) (p : Int × Nat) : (mk τ p).place tm = mk tm p := by
  unfold Axis.place
  rw [mk_v]
  simp [mk]

theorem mk_inc (τ T : ℚ) (p : Int × Nat) :
    (if (mk τ p).selected (T - τ) then (mk τ p).advance else mk τ p) = mk τ (inc T p) := by
  rw [mk_selected, mk_advance]
  unfold inc
  by_cases h : sel T p <;> simp [h]

theorem row_mk (τ : ℚ) (ps : List (Int × Nat)) : row (ps.map (mk τ)) = rowOf ps := by
  simp [row, rowOf, mk, List.map_map, Function.comp_def]

theorem axis_eq (v : Int) : axis ℚ 0 v = mk 0 (v, 0) := by
  have hs : (⟨0, v, 0, 0, 0⟩ : Axis ℚ).sign = ((v.sign : Int) : ℚ) := by
    have := mk_sign 0 (v, 0)
    unfold Axis.sign Axis.v at this ⊢
    exact this
  unfold axis
  simp only [Int.cast_zero]
  rw [hs]
  simp [mk]

/-! ### the lowest parameter -/

/-- `T` is the lowest parameter of the active axes. -/
def IsMin (T : ℚ) (ps : List (Int × Nat)) : Prop :=
  (∃ p ∈ ps, p.1 ≠ 0 ∧ leave p = T) ∧ ∀ p ∈ ps, p.1 ≠ 0 → T ≤ leave p

theorem foldl_min : ∀ (ts : List ℚ) (t : ℚ),
    (ts.foldl (fun m t => if t < m then t else m) t ∈ t :: ts) ∧
    ∀ u ∈ t :: ts, ts.foldl (fun m t => if t < m then t else m) t ≤ u
  | [], t => by simp
  | s :: ts, t => by
    rw [List.foldl_cons]
    obtain ⟨h1, h2⟩ := foldl_min ts (if s < t then s else t)
    constructor
    · rcases List.mem_cons.1 h1 with h | h
      · rw [h]; split <;> simp
      · simp [h]
    · intro u hu
      have h3 := h2 (if s < t then s else t) (by simp)
      rcases List.mem_cons.1 hu with rfl | hu
      · refine h3.trans ?_
        split
        · next h => exact h.le
        · exact le_refl _
      · rcases List.mem_cons.1 hu with rfl | hu
        · refine h3.trans ?_
          split
          · exact le_refl _
          · next h => exact not_lt.1 h
        · exact h2 u (by simp [hu])

theorem tmin_mk {junk τ : ℚ} {ps : List (Int × Nat)} (h : ∃ p ∈ ps, p.1 ≠ 0) :
    ∃ T, tmin junk (ps.map (mk τ)) = T - τ ∧ IsMin T ps := by
  have hf : ((ps.map (mk τ)).filter fun a => a.v ≠ 0).map Axis.t =
      (ps.filter fun p => p.1 ≠ 0).map fun p => leave p - τ := by
    rw [List.filter_map, List.map_map]
    have : ((fun a : Axis ℚ => decide (a.v ≠ 0)) ∘ mk τ) = fun p : Int × Nat => decide (p.1 ≠ 0) := by
      funext p
      simp [Function.comp, mk_v]
    rw [this]
    apply List.map_congr_left
    intro p hp
    have := (List.mem_filter.1 hp).2
    exact mk_t (by simpa using this)
  unfold tmin
  rw [hf]
  obtain ⟨p, hp, hv⟩ := h
  have hmem : ∀ t, t ∈ (ps.filter fun p => p.1 ≠ 0).map (fun p => leave p - τ) ↔
      ∃ q ∈ ps, q.1 ≠ 0 ∧ leave q - τ = t := by
    intro t
    simp [List.mem_map, List.mem_filter, and_assoc]
  match hl : (ps.filter fun p => p.1 ≠ 0).map fun p => leave p - τ with
  | [] =>
    have := (hmem (leave p - τ)).2 ⟨p, hp, hv, rfl⟩
    rw [hl] at this
    simp at this
  | t :: ts =>
    simp only
    obtain ⟨h1, h2⟩ := foldl_min ts t
    rw [← hl, hmem] at h1
    obtain ⟨q, hq, hq0, hqt⟩ := h1
    refine ⟨leave q, hqt.symm, ⟨q, hq, hq0, rfl⟩, fun u hu hu0 => ?_⟩
    have := h2 (leave u - τ) (by rw [← hl, hmem]; exact ⟨u, hu, hu0, rfl⟩)
    rw [← hqt] at this
    linarith

/-! ### the invariant -/

/-- Invariant: at most `|v|` steps, displacements at most `B`, and the line is in the current pixel along
all axes at once. -/
structure Good (B : Nat) (ps : List (Int × Nat)) : Prop where
  le : ∀ p ∈ ps, p.2 ≤ p.1.natAbs
  bound : ∀ p ∈ ps, p.1.natAbs ≤ B
  pair : ∀ p ∈ ps, ∀ q ∈ ps, p.1 ≠ 0 → q.1 ≠ 0 → enter q ≤ leave p

/-- Number of steps still to make. -/
def left (ps : List (Int × Nat)) : Nat := (ps.map fun p => p.1.natAbs - p.2).sum

theorem inc_fst (T : ℚ) (p : Int × Nat) : (inc T p).1 = p.1 := by
  unfold inc; split <;> rfl

theorem left_pos_iff {ps : List (Int × Nat)} : left ps ≠ 0 ↔ ∃ p ∈ ps, p.2 < p.1.natAbs := by
  unfold left
  induction ps with
  | nil => simp
  | cons p ps ih =>
    rw [List.map_cons, List.sum_cons]
    constructor
    · intro h
      by_cases h1 : p.2 < p.1.natAbs
      · exact ⟨p, by simp, h1⟩
      · obtain ⟨q, hq, h2⟩ := ih.1 (by omega)
        exact ⟨q, by simp [hq], h2⟩
    · rintro ⟨q, hq, h2⟩
      rcases List.mem_cons.1 hq with rfl | hq
      · omega
      · have := ih.2 ⟨q, hq, h2⟩
        omega

theorem inv_le {B : Nat} (hB : B ≤ 1000000) {v : Int} (h0 : v ≠ 0) (hv : v.natAbs ≤ B) :
    eps ≤ 1 / (v.natAbs : ℚ) := by
  unfold eps
  apply one_div_le_one_div_of_le (natAbs_pos h0)
  exact_mod_cast hv.trans hB

theorem leave_succ {v : Int} {m : Nat} (h0 : v ≠ 0) : leave (v, m + 1) = leave (v, m) + 1 / v.natAbs := by
  unfold leave
  have := natAbs_pos h0
  simp only
  push_cast
  field_simp
  ring

theorem enter_succ {v : Int} {m : Nat} : enter (v, m + 1) = leave (v, m) := by
  unfold leave enter
  simp only
  push_cast
  ring_nf

theorem enter_le_leave {p : Int × Nat} : enter p ≤ leave p := by
  unfold enter leave
  apply div_le_div_of_nonneg_right _ (by positivity)
  linarith

/-- An axis that has made all its steps. -/
theorem leave_done {v : Int} (h0 : v ≠ 0) : leave (v, v.natAbs) = 1 + (1 / 2) * (1 / v.natAbs) := by
  unfold leave
  have := natAbs_pos h0
  simp only
  field_simp

theorem leave_mono {v : Int} {m m' : Nat} (h : m ≤ m') : leave (v, m) ≤ leave (v, m') := by
  unfold leave
  apply div_le_div_of_nonneg_right _ (by positivity)
  simp only
  have : (m : ℚ) ≤ m' := by exact_mod_cast h
  linarith

/-- An axis that has not made all its steps. -/
theorem leave_not_done {p : Int × Nat} (h : p.2 < p.1.natAbs) :
    leave p ≤ 1 - (1 / 2) * (1 / p.1.natAbs) := by
  have h0 : p.1 ≠ 0 := by intro e; rw [e] at h; simp at h
  have h1 := leave_done h0
  have h2 := leave_succ (m := p.2) h0
  have h3 := leave_mono (v := p.1) (show p.2 + 1 ≤ p.1.natAbs by omega)
  rw [h1, h2] at h3
  have : leave p = leave (p.1, p.2) := rfl
  rw [this]
  linarith

theorem sel_not_done {B : Nat} (hB : B ≤ 1000000) {ps : List (Int × Nat)} (hg : Good B ps)
    (hl : left ps ≠ 0) {T : ℚ} (hT : IsMin T ps) {p : Int × Nat} (hp : p ∈ ps) (hs : sel T p) :
    p.2 < p.1.natAbs := by
  by_contra hd
  have hd' : p.2 = p.1.natAbs := by have := hg.le p hp; omega
  obtain ⟨q, hq, hlt⟩ := left_pos_iff.1 hl
  have hq0 : q.1 ≠ 0 := by intro e; rw [e] at hlt; simp at hlt
  have h1 := leave_not_done hlt
  have h2 := hT.2 q hq hq0
  have h3 : leave p = 1 + (1 / 2) * (1 / p.1.natAbs) := by
    have := leave_done hs.1
    rw [← hd'] at this ⊢
    exact this
  have h4 := inv_le hB hs.1 (hg.bound p hp)
  have h5 := inv_le hB hq0 (hg.bound q hq)
  have h6 := (abs_lt.1 hs.2).2
  linarith

theorem min_le_one {ps : List (Int × Nat)} (hl : left ps ≠ 0) {T : ℚ} (hT : IsMin T ps) : T ≤ 1 := by
  obtain ⟨q, hq, hlt⟩ := left_pos_iff.1 hl
  have hq0 : q.1 ≠ 0 := by intro e; rw [e] at hlt; simp at hlt
  have h1 := leave_not_done hlt
  have h2 := hT.2 q hq hq0
  have h3 : (0 : ℚ) < 1 / q.1.natAbs := one_div_pos.2 (natAbs_pos hq0)
  linarith

theorem min_nonneg {ps : List (Int × Nat)} {T : ℚ} (hT : IsMin T ps) : 0 ≤ T := by
  obtain ⟨⟨p, -, -, rfl⟩, -⟩ := hT
  unfold leave
  positivity

/-- The invariant is kept. -/
theorem good_inc {B : Nat} (hB : B ≤ 1000000) {ps : List (Int × Nat)} (hg : Good B ps)
    (hl : left ps ≠ 0) {T : ℚ} (hT : IsMin T ps) : Good B (ps.map (inc T)) where
  le := by
    intro p hp
    obtain ⟨q, hq, rfl⟩ := List.mem_map.1 hp
    unfold inc
    split
    · next h => have := sel_not_done hB hg hl hT hq h; simp only; omega
    · exact hg.le q hq
  bound := by
    intro p hp
    obtain ⟨q, hq, rfl⟩ := List.mem_map.1 hp
    rw [inc_fst]
    exact hg.bound q hq
  pair := by
    intro p' hp' q' hq' hp0 hq0
    obtain ⟨p, hp, rfl⟩ := List.mem_map.1 hp'
    obtain ⟨q, hq, rfl⟩ := List.mem_map.1 hq'
    rw [inc_fst] at hp0 hq0
    have hpl : leave p ≤ leave (inc T p) := by
      unfold inc
      split
      · exact leave_mono (v := p.1) (Nat.le_succ p.2)
      · exact le_refl _
    by_cases hs : sel T q
    · -- the axis `q` moved: `T ≤ enter q < T + eps`
      have e1 : enter (inc T q) = leave q := by
        unfold inc; rw [if_pos hs]; exact enter_succ
      rw [e1]
      have h1 := (abs_lt.1 hs.2).2
      by_cases hs' : sel T p
      · have e2 : leave (inc T p) = leave p + 1 / p.1.natAbs := by
          unfold inc; rw [if_pos hs']; exact leave_succ hp0
        have h2 := hT.2 p hp hp0
        have h3 := inv_le hB hp0 (hg.bound p hp)
        rw [e2]
        linarith
      · have h2 := hT.2 p hp hp0
        have h3 : eps ≤ |leave p - T| := not_lt.1 fun h => hs' ⟨hp0, h⟩
        rw [abs_of_nonneg (by linarith)] at h3
        linarith
    · have e1 : inc T q = q := by unfold inc; rw [if_neg hs]
      rw [e1]
      exact (hg.pair p hp q hq hp0 hq0).trans hpl

theorem left_cons (p : Int × Nat) (ps : List (Int × Nat)) :
    left (p :: ps) = (p.1.natAbs - p.2) + left ps := rfl

/-- The number of selected axes. -/
def nsel (T : ℚ) (ps : List (Int × Nat)) : Nat := (ps.filter fun p => sel T p).length

theorem left_inc (T : ℚ) : ∀ {ps : List (Int × Nat)}, (∀ p ∈ ps, sel T p → p.2 < p.1.natAbs) →
    left (ps.map (inc T)) + nsel T ps = left ps
  | [], _ => rfl
  | p :: ps, h => by
    have ih := left_inc T (ps := ps) fun q hq => h q (by simp [hq])
    rw [List.map_cons, left_cons, left_cons, inc_fst]
    unfold nsel at *
    by_cases hs : sel T p
    · have := h p (by simp) hs
      simp only [List.filter_cons, hs, decide_true, if_true, List.length_cons]
      have e : inc T p = (p.1, p.2 + 1) := by unfold inc; rw [if_pos hs]
      rw [e]
      simp only
      omega
    · simp only [List.filter_cons, hs, decide_false, Bool.false_eq_true, if_false]
      have : inc T p = p := by unfold inc; rw [if_neg hs]
      rw [this]
      omega

theorem nsel_pos {T : ℚ} {ps : List (Int × Nat)} (hT : IsMin T ps) : 0 < nsel T ps := by
  obtain ⟨⟨p, hp, h0, e⟩, -⟩ := hT
  apply List.length_pos_of_mem (a := p)
  rw [List.mem_filter]
  refine ⟨hp, ?_⟩
  simp only [decide_eq_true_eq]
  refine ⟨h0, ?_⟩
  rw [e]
  simp [eps]

/-- The line is in all current pixels at once at a parameter between 0 and 1. -/
theorem common {B : Nat} {ps : List (Int × Nat)} (hg : Good B ps) :
    ∃ t : ℚ, 0 ≤ t ∧ t ≤ 1 ∧ ∀ p ∈ ps, p.1 ≠ 0 → enter p ≤ t ∧ t ≤ leave p := by
  have key : ∀ l : List (Int × Nat), ∃ t : ℚ, (t = 0 ∨ ∃ q ∈ l, q.1 ≠ 0 ∧ t = enter q) ∧ 0 ≤ t ∧
      ∀ q ∈ l, q.1 ≠ 0 → enter q ≤ t := by
    intro l
    induction l with
    | nil => exact ⟨0, Or.inl rfl, le_refl _, by simp⟩
    | cons p l ih =>
      obtain ⟨t, h1, h2, h3⟩ := ih
      have h1' : t = 0 ∨ ∃ q ∈ p :: l, q.1 ≠ 0 ∧ t = enter q := by
        rcases h1 with h | ⟨q, hq, h⟩
        · exact Or.inl h
        · exact Or.inr ⟨q, by simp [hq], h⟩
      by_cases hp : p.1 ≠ 0 ∧ t < enter p
      · refine ⟨enter p, Or.inr ⟨p, by simp, hp.1, rfl⟩, by linarith [hp.2], ?_⟩
        intro q hq hq0
        rcases List.mem_cons.1 hq with rfl | hq
        · exact le_refl _
        · exact (h3 q hq hq0).trans hp.2.le
      · refine ⟨t, h1', h2, ?_⟩
        intro q hq hq0
        rcases List.mem_cons.1 hq with rfl | hq
        · by_contra hc
          exact hp ⟨hq0, not_le.1 hc⟩
        · exact h3 q hq hq0
  obtain ⟨t, h1, h2, h3⟩ := key ps
  refine ⟨t, h2, ?_, fun p hp h0 => ⟨h3 p hp h0, ?_⟩⟩
  · rcases h1 with h | ⟨q, hq, h0, h⟩
    · rw [h]; norm_num
    · rw [h]
      unfold enter
      rw [div_le_one (natAbs_pos h0)]
      have : (q.2 : ℚ) ≤ q.1.natAbs := by exact_mod_cast hg.le q hq
      linarith
  · rcases h1 with h | ⟨q, hq, hq0, h⟩
    · rw [h]
      unfold leave
      positivity
    · rw [h]
      exact hg.pair p hp q hq h0 hq0

/-- From parameters to the closed unit cube. -/
theorem cube_of {p : Int × Nat} {t : ℚ} (h : p.1 ≠ 0 → enter p ≤ t ∧ t ≤ leave p) :
    |((p.1.sign * p.2 : Int) : ℚ) - t * p.1| ≤ 1 / 2 := by
  by_cases h0 : p.1 = 0
  · rw [h0]; simp
  · obtain ⟨h1, h2⟩ := h h0
    have hn := natAbs_pos h0
    unfold enter at h1
    unfold leave at h2
    rw [div_le_iff₀ hn] at h1
    rw [le_div_iff₀ hn] at h2
    have e := sign_mul_natAbs p.1
    have e2 := sign_sq h0
    have : ((p.1.sign * p.2 : Int) : ℚ) - t * p.1 = ((p.1.sign : Int) : ℚ) * (p.2 - t * p.1.natAbs) := by
      rw [mul_sub]
      push_cast
      rw [mul_left_comm, e]
    rw [this, abs_mul]
    have hs : |((p.1.sign : Int) : ℚ)| = 1 := by
      rcases lt_or_gt_of_ne h0 with h3 | h3
      · rw [Int.sign_eq_neg_one_of_neg h3]; norm_num
      · rw [Int.sign_eq_one_of_pos h3]; norm_num
    rw [hs, one_mul, abs_le]
    constructor <;> linarith

theorem meets_of {ps : List (Int × Nat)} {t : ℚ} (h0 : 0 ≤ t) (h1 : t ≤ 1)
    (h : ∀ p ∈ ps, p.1 ≠ 0 → enter p ≤ t ∧ t ≤ leave p) : Meets (ps.map Prod.fst) (rowOf ps) := by
  refine ⟨t, h0, h1, ?_⟩
  unfold rowOf
  rw [List.forall₂_map_left_iff, List.forall₂_map_right_iff, List.forall₂_same]
  exact fun p hp => cube_of (h p hp)

/-- All steps made: the end point. -/
theorem row_done {B : Nat} {ps : List (Int × Nat)} (hg : Good B ps) :
    ((ps.map (mk τ)).all fun a => a.c == a.xb) = decide (left ps = 0) := by
  rw [Bool.eq_iff_iff, List.all_eq_true, decide_eq_true_eq]
  constructor
  · intro h
    by_contra hl
    obtain ⟨p, hp, hlt⟩ := left_pos_iff.1 hl
    have h1 := h (mk τ p) (List.mem_map.2 ⟨p, hp, rfl⟩)
    simp only [mk, beq_iff_eq] at h1
    have h2 := Int.sign_mul_natAbs p.1
    have h0 : p.1.sign ≠ 0 := by
      intro e
      rw [Int.sign_eq_zero_iff_zero] at e
      rw [e] at hlt; simp at hlt
    have h3 : p.1.sign * (p.2 : Int) = p.1.sign * (p.1.natAbs : Int) := by rw [h1, h2]
    have := Int.eq_of_mul_eq_mul_left h0 h3
    omega
  · intro hl a ha
    obtain ⟨p, hp, rfl⟩ := List.mem_map.1 ha
    have h1 : ¬ p.2 < p.1.natAbs := fun h => (left_pos_iff.2 ⟨p, hp, h⟩) hl
    have h2 := hg.le p hp
    have h3 : p.2 = p.1.natAbs := by omega
    simp only [mk, beq_iff_eq]
    rw [h3, Int.sign_mul_natAbs]

theorem rowOf_done {B : Nat} {ps : List (Int × Nat)} (hg : Good B ps) (hl : left ps = 0) :
    rowOf ps = ps.map Prod.fst := by
  unfold rowOf
  apply List.map_congr_left
  intro p hp
  have h1 : ¬ p.2 < p.1.natAbs := fun h => (left_pos_iff.2 ⟨p, hp, h⟩) hl
  have h2 := hg.le p hp
  have h3 : p.2 = p.1.natAbs := by omega
  rw [h3, Int.sign_mul_natAbs]

/-- The loop, for any update that emits rows related by `R`, with property `Q`, in numbers related by
`L` to the number of steps. -/
theorem lineLoop_ok {rows : ℚ → List (Axis ℚ) → List (Axis ℚ) × List (List Int)} {B : Nat}
    (hB : B ≤ 1000000) {vs : List Int} {R : List Int → List Int → Prop} {Q : List Int → Prop}
    {L : Nat → Nat → Prop} (hL : ∀ a b c d, L a b → L c d → L (a + c) (b + d))
    (hrows : ∀ (ps : List (Int × Nat)) (τ T : ℚ), ps.map Prod.fst = vs → Good B ps → left ps ≠ 0 →
      IsMin T ps → ∃ out, rows (T - τ) (ps.map (mk τ)) = ((ps.map (inc T)).map (mk τ), out) ∧
        out.getLast? = some (rowOf (ps.map (inc T))) ∧ (rowOf ps :: out).IsChain R ∧
        (∀ x ∈ out, Q x) ∧ L out.length (nsel T ps)) (junk : ℚ) :
    ∀ (fuel : Nat) (ps : List (Int × Nat)) (τ : ℚ) (ret : List (List Int)), ps.map Prod.fst = vs →
      Good B ps → left ps ≠ 0 → left ps ≤ fuel →
      ∃ out, lineLoop rows junk fuel (ps.map (mk τ)) ret = ok (ret ++ out) ∧
        out.getLast? = some vs ∧ (rowOf ps :: out).IsChain R ∧ (∀ x ∈ out, Q x) ∧
        L out.length (left ps) := by
  intro fuel
  induction fuel with
  | zero => intro ps τ ret _ _ h1 h2; omega
  | succ fuel ih =>
    intro ps τ ret hvs hg hl hf
    obtain ⟨q, hq, hlt⟩ := left_pos_iff.1 hl
    have hq0 : q.1 ≠ 0 := by intro e; rw [e] at hlt; simp at hlt
    obtain ⟨T, hT, hmin⟩ := tmin_mk (junk := junk) (τ := τ) ⟨q, hq, hq0⟩
    obtain ⟨out, hout, hlast, hchain, hQ, hlen⟩ := hrows ps τ T hvs hg hl hmin
    have hg' := good_inc hB hg hl hmin
    have hvs' : (ps.map (inc T)).map Prod.fst = vs := by
      rw [← hvs, List.map_map]
      apply List.map_congr_left
      intro p _
      exact inc_fst T p
    have hdec := left_inc T (ps := ps) fun p hp hs => sel_not_done hB hg hl hmin hp hs
    have hpos := nsel_pos hmin
    have hplace : ((ps.map (inc T)).map (mk τ)).map (fun a => a.place (T - τ)) =
        (ps.map (inc T)).map (mk (T - τ)) := by
      rw [List.map_map]
      apply List.map_congr_left
      intro p _
      exact mk_place _ _ _
    unfold lineLoop
    simp only [hT, hout, hplace]
    rw [row_done hg']
    by_cases hd : left (ps.map (inc T)) = 0
    · rw [if_pos (by simpa using hd)]
      refine ⟨out, rfl, ?_, hchain, hQ, ?_⟩
      · rw [hlast, rowOf_done hg' hd, hvs']
      · have : nsel T ps = left ps := by omega
        rw [← this]; exact hlen
    · rw [if_neg (by simpa using hd)]
      obtain ⟨out', h1, h2, h3, h4, h5⟩ := ih (ps.map (inc T)) (T - τ) (ret ++ out) hvs' hg' hd
        (by omega)
      refine ⟨out ++ out', by rw [h1, List.append_assoc], ?_, ?_, ?_, ?_⟩
      · rw [List.getLast?_append, h2]; rfl
      · rw [← List.cons_append, List.isChain_append]
        refine ⟨hchain, (List.isChain_cons.1 h3).2, ?_⟩
        intro x hx y hy
        have hx' : x = rowOf (ps.map (inc T)) := by
          rw [List.getLast?_cons, hlast] at hx
          simpa using hx.symm
        subst hx'
        exact (List.isChain_cons.1 h3).1 y hy
      · intro x hx
        rcases List.mem_append.1 hx with h | h
        · exact hQ x h
        · exact h4 x h
      · rw [List.length_append, ← hdec, Nat.add_comm (left _)]
        exact hL _ _ _ _ hlen h5

end Verif.Path
