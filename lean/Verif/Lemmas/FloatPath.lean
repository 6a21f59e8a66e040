import Verif.Lemmas.LineRows
import Verif.Model.Float

/-!
# `actual` and `full` in `double`

The state of the loop in rounded arithmetic is compared with that in exact arithmetic: the crossings of the line
with the edges of the pixels have errors of a few units in the last place, much less than the distance of crossings
that do not coincide.
-/

set_option linter.unusedSectionVars false

namespace Verif.Path

open Verif Outcome Spec

/-- A rounding with a relative error of at most `2 ^ -53` that is exact for multiples of one half. -/
structure Rounding (rnd : ℚ → ℚ) : Prop where
  rel : ∀ x, |rnd x - x| ≤ |x| / 2 ^ 53
  half : ∀ n : Int, |n| ≤ 2 ^ 53 → rnd ((n : ℚ) / 2) = (n : ℚ) / 2

variable {rnd : ℚ → ℚ}

theorem Rounding.int (hr : Rounding rnd) {n : Int} (h : |n| ≤ 2 ^ 52) : rnd (n : ℚ) = n := by
  have := hr.half (2 * n) (by rw [abs_mul]; norm_num; linarith)
  rw [Int.cast_mul, Int.cast_ofNat, mul_div_cancel_left₀ _ (by norm_num : (2 : ℚ) ≠ 0)] at this
  exact this

/-- The axis in rounded arithmetic after `m` steps; `τ` is the parameter of the position. -/
structure Close (τ : ℚ) (p : Int × Nat) (a : Axis (Fl rnd)) : Prop where
  xa : a.xa = 0
  xb : a.xb = p.1
  c : a.c = p.1.sign * p.2
  next : a.next.val = p.1.sign * ((p.2 : ℚ) + 1 / 2)
  x : |a.x.val - p.1 * τ| ≤ |p.1 * τ| / 2 ^ 51

variable {τ : ℚ} {p : Int × Nat} {a : Axis (Fl rnd)}

theorem Close.v (hr : Rounding rnd) (h : Close τ p a) (hb : p.1.natAbs ≤ 707) : a.v.val = (p.1 : ℚ) := by
  show rnd ((a.xb - a.xa : Int) : ℚ) = _
  rw [h.xa, h.xb, sub_zero]
  refine hr.int ?_
  have : (p.1.natAbs : Int) ≤ 707 := by exact_mod_cast hb
  rw [Int.natCast_natAbs] at this
  exact this.trans (by norm_num)

theorem abs_cast_natAbs (v : Int) : |(v : ℚ)| = v.natAbs := by
  rw [Nat.cast_natAbs, Int.cast_abs]

/-- The error of a parameter. -/
def err : ℚ := 1 / 2 ^ 47

theorem rel_le (hr : Rounding rnd) {x b : ℚ} (h : |x| ≤ b) : |rnd x - x| ≤ b / 2 ^ 53 :=
  (hr.rel x).trans (div_le_div_of_nonneg_right h (by norm_num))

theorem Close.t (hr : Rounding rnd) (h : Close τ p a) (h0 : p.1 ≠ 0) (hb : p.1.natAbs ≤ 707)
    (hm : p.2 ≤ p.1.natAbs) (hτ : |τ| ≤ 2) : |a.t.val - (leave p - τ)| ≤ err := by
  have hv := h.v hr hb
  show |rnd (rnd (a.next.val - a.x.val) / a.v.val) - _| ≤ _
  rw [hv]
  have hn := natAbs_pos h0
  have hn1 : (1 : ℚ) ≤ p.1.natAbs := by
    have : 1 ≤ p.1.natAbs := Int.natAbs_pos.2 h0
    exact_mod_cast this
  have hv0 : (p.1 : ℚ) ≠ 0 := by exact_mod_cast h0
  have habs := abs_cast_natAbs p.1
  have hm' : (p.2 : ℚ) ≤ p.1.natAbs := by exact_mod_cast hm
  set n : ℚ := (p.1.natAbs : ℚ) with hndef
  -- the difference
  set D := a.next.val - a.x.val with hD
  have hlv : a.next.val = (p.1 : ℚ) * leave p := by
    rw [h.next]
    have e := sign_mul_natAbs p.1
    unfold leave
    rw [← hndef]
    rw [← e]
    field_simp
    rfl
  have hx : |a.x.val - p.1 * τ| ≤ n * 2 / 2 ^ 51 := by
    refine h.x.trans (div_le_div_of_nonneg_right ?_ (by norm_num))
    rw [abs_mul, habs]
    exact mul_le_mul_of_nonneg_left hτ hn.le
  have hl0 : 0 ≤ leave p := by unfold leave; positivity
  have hl1 : leave p ≤ 3 / 2 := by
    unfold leave
    rw [← hndef, div_le_iff₀ hn]
    linarith
  have hDe : |D - p.1 * (leave p - τ)| ≤ n * 2 / 2 ^ 51 := by
    have : D - p.1 * (leave p - τ) = -(a.x.val - p.1 * τ) := by rw [hD, hlv]; ring
    rw [this, abs_neg]
    exact hx
  have hD4 : |D| ≤ n * 4 := by
    have h1 : |(p.1 : ℚ) * (leave p - τ)| ≤ n * (7 / 2) := by
      rw [abs_mul, habs]
      refine mul_le_mul_of_nonneg_left ?_ hn.le
      rw [abs_le] at hτ ⊢
      constructor <;> linarith [hτ.1, hτ.2]
    have h2 : |D| ≤ |D - p.1 * (leave p - τ)| + |(p.1 : ℚ) * (leave p - τ)| := by
      have := abs_add_le (D - p.1 * (leave p - τ)) (p.1 * (leave p - τ))
      rwa [sub_add_cancel] at this
    have h3 : n * 2 / 2 ^ 51 ≤ n * (1 / 2) := by
      rw [mul_div_assoc]
      exact mul_le_mul_of_nonneg_left (by norm_num) hn.le
    linarith
  have hR := rel_le hr hD4
  set R := rnd D with hRdef
  have hRe : |R - p.1 * (leave p - τ)| ≤ n * (12 / 2 ^ 53) := by
    have : R - p.1 * (leave p - τ) = (R - D) + (D - p.1 * (leave p - τ)) := by ring
    rw [this]
    refine (abs_add_le _ _).trans ((add_le_add hR hDe).trans_eq ?_)
    ring
  -- the quotient
  have hQ : |R / p.1 - (leave p - τ)| ≤ 12 / 2 ^ 53 := by
    have : R / p.1 - (leave p - τ) = (R - p.1 * (leave p - τ)) / p.1 := by
      field_simp
    rw [this, abs_div, habs, div_le_iff₀ hn]
    linarith
  have hQ5 : |R / p.1| ≤ 4 := by
    have h2 := abs_add_le (R / p.1 - (leave p - τ)) (leave p - τ)
    rw [sub_add_cancel] at h2
    have h3 : |leave p - τ| ≤ 7 / 2 := by
      rw [abs_le] at hτ ⊢
      constructor <;> linarith [hτ.1, hτ.2]
    have : (12 : ℚ) / 2 ^ 53 ≤ 1 / 2 := by norm_num
    linarith
  have hS := rel_le hr hQ5
  have : rnd (R / p.1) - (leave p - τ) = (rnd (R / p.1) - R / p.1) + (R / p.1 - (leave p - τ)) := by ring
  rw [this]
  refine (abs_add_le _ _).trans ((add_le_add hS hQ).trans ?_)
  unfold err
  norm_num

theorem fabs_val (x : Fl rnd) : (fabs x).val = |x.val| := by
  unfold fabs
  by_cases h : x.val < 0
  · rw [if_pos (show x < 0 from h), abs_of_neg h]; rfl
  · rw [if_neg (show ¬ x < 0 from h), abs_of_nonneg (not_lt.1 h)]

theorem Rounding.zero (hr : Rounding rnd) : rnd 0 = 0 := by
  have := hr.int (n := 0) (by norm_num)
  simpa using this

theorem Rounding.nat (hr : Rounding rnd) {n : Nat} (h : n ≤ 2 ^ 52) : rnd (n : ℚ) = n := by
  have := hr.int (n := (n : Int)) (by rw [abs_of_nonneg (by omega)]; exact_mod_cast h)
  simpa using this

theorem Close.sign (hr : Rounding rnd) (h : Close τ p a) (h0 : p.1 ≠ 0) (hb : p.1.natAbs ≤ 707) :
    a.sign.val = ((p.1.sign : Int) : ℚ) := by
  show rnd (a.v.val / (fabs a.v).val) = _
  rw [fabs_val, h.v hr hb]
  have e : (p.1 : ℚ) / |(p.1 : ℚ)| = ((p.1.sign : Int) : ℚ) := by
    have := mk_sign 0 p
    unfold Axis.sign at this
    rwa [mk_v, fabs_rat] at this
  rw [e]
  refine hr.int ?_
  rcases lt_or_gt_of_ne h0 with h1 | h1
  · rw [Int.sign_eq_neg_one_of_neg h1]; norm_num
  · rw [Int.sign_eq_one_of_pos h1]; norm_num

theorem Close.advance (hr : Rounding rnd) (h : Close τ p a) (h0 : p.1 ≠ 0) (hb : p.1.natAbs ≤ 707)
    (hm : p.2 < p.1.natAbs) : Close τ (p.1, p.2 + 1) a.advance where
  xa := h.xa
  xb := h.xb
  c := by
    show a.c + (a.xb - a.xa).sign = _
    rw [h.c, h.xb, h.xa, sub_zero]
    push_cast
    ring
  next := by
    show rnd (a.next.val + a.sign.val) = _
    rw [h.next, h.sign hr h0 hb]
    have e : ((p.1.sign : Int) : ℚ) * ((p.2 : ℚ) + 1 / 2) + ((p.1.sign : Int) : ℚ) =
        ((p.1.sign * (2 * p.2 + 3) : Int) : ℚ) / 2 := by
      push_cast
      ring
    rw [e, hr.half]
    · push_cast
      ring
    · have hs : |p.1.sign| = 1 := by
        rcases lt_or_gt_of_ne h0 with h1 | h1
        · rw [Int.sign_eq_neg_one_of_neg h1]; norm_num
        · rw [Int.sign_eq_one_of_pos h1]; norm_num
      rw [abs_mul, hs, one_mul, abs_of_nonneg (by omega)]
      have : (p.2 : Int) < 707 := by exact_mod_cast lt_of_lt_of_le hm hb
      norm_num
      omega
  x := h.x

theorem Close.place (hr : Rounding rnd) (h : Close τ p a) (hb : p.1.natAbs ≤ 707) (tm : Fl rnd) :
    Close tm.val p (a.place tm) where
  xa := h.xa
  xb := h.xb
  c := h.c
  next := h.next
  x := by
    show |rnd (rnd ((a.xa : Int) : ℚ) + rnd (a.v.val * tm.val)) - p.1 * tm.val| ≤ _
    rw [h.xa, Int.cast_zero, hr.zero, zero_add, h.v hr hb]
    set y := (p.1 : ℚ) * tm.val
    have h1 := hr.rel y
    have h2 := hr.rel (rnd y)
    have h3 : |rnd y| ≤ |rnd y - y| + |y| := by
      have := abs_add_le (rnd y - y) y
      rwa [sub_add_cancel] at this
    have h4 : |rnd (rnd y) - y| ≤ |rnd (rnd y) - rnd y| + |rnd y - y| := by
      have := abs_add_le (rnd (rnd y) - rnd y) (rnd y - y)
      rwa [sub_add_sub_cancel] at this
    have h5 := abs_nonneg y
    have h6 : |rnd y| ≤ 2 * |y| := by
      have : |y| / 2 ^ 53 ≤ |y| := div_le_self h5 (by norm_num)
      linarith
    have h7 : |rnd y| / 2 ^ 53 ≤ 2 * |y| / 2 ^ 53 := div_le_div_of_nonneg_right h6 (by norm_num)
    have h8 : 2 * |y| / 2 ^ 53 + |y| / 2 ^ 53 ≤ |y| / 2 ^ 51 := by
      have : |y| / 2 ^ 51 = 4 * |y| / 2 ^ 53 := by
        rw [div_eq_div_iff (by norm_num) (by norm_num)]; ring
      rw [this, ← add_div]
      exact div_le_div_of_nonneg_right (by linarith) (by norm_num)
    linarith

theorem axis_close (hr : Rounding rnd) {v : Int} (hb : v.natAbs ≤ 707) :
    Close (rnd := rnd) 0 (v, 0) (axis (Fl rnd) 0 v) where
  xa := rfl
  xb := rfl
  c := by simp [axis]
  next := by
    by_cases h0 : v = 0
    · subst h0
      show rnd (rnd (rnd _ / _) * _) = _
      simp [hr.zero]
    · have h : Close (rnd := rnd) 0 (v, 0) ⟨0, v, 0, ⟨((v.sign : Int) : ℚ) * (0 + 1 / 2)⟩, ⟨0⟩⟩ :=
        ⟨rfl, rfl, by simp, by simp, by simp⟩
      have h1 := h.sign hr h0 hb
      show rnd (Fl.val (Axis.sign (⟨0, v, 0, 0, ((0 : Int) : Fl rnd)⟩ : Axis (Fl rnd))) * rnd (1 / rnd ((2 : Nat) : ℚ))) = _
      have e : Fl.val (Axis.sign (⟨0, v, 0, 0, ((0 : Int) : Fl rnd)⟩ : Axis (Fl rnd))) = ((v.sign : Int) : ℚ) := h1
      rw [e, hr.nat (by norm_num)]
      have e1 : rnd (1 / ((2 : Nat) : ℚ)) = 1 / 2 := by
        have := hr.half 1 (by norm_num)
        simpa using this
      rw [e1]
      have e2 := hr.half v.sign (by
        rcases lt_or_gt_of_ne h0 with h1 | h1
        · rw [Int.sign_eq_neg_one_of_neg h1]; norm_num
        · rw [Int.sign_eq_one_of_pos h1]; norm_num)
      rw [mul_one_div, e2]
      push_cast
      ring
  x := by
    show |rnd (((0 : Int)) : ℚ) - _| ≤ _
    rw [Int.cast_zero, hr.zero]
    simp

/-! ### The lowest parameter -/

theorem foldl_min_fl : ∀ (ts : List (Fl rnd)) (t : Fl rnd),
    (ts.foldl (fun m t => if t < m then t else m) t ∈ t :: ts) ∧
    ∀ u ∈ t :: ts, (ts.foldl (fun m t => if t < m then t else m) t).val ≤ u.val
  | [], t => by simp
  | s :: ts, t => by
    rw [List.foldl_cons]
    obtain ⟨h1, h2⟩ := foldl_min_fl ts (if s < t then s else t)
    constructor
    · rcases List.mem_cons.1 h1 with h | h
      · rw [h]; split <;> simp
      · simp [h]
    · intro u hu
      have h3 := h2 (if s < t then s else t) (by simp)
      rcases List.mem_cons.1 hu with rfl | hu
      · refine h3.trans ?_
        split
        · next h => exact le_of_lt (show s.val < u.val from h)
        · exact le_refl _
      · rcases List.mem_cons.1 hu with rfl | hu
        · refine h3.trans ?_
          split
          · exact le_refl _
          · next h => exact not_lt.1 (show ¬ u.val < t.val from h)
        · exact h2 u (by simp [hu])

theorem forall₂_mem_left {α β : Type} {R : α → β → Prop} {l : List α} {l' : List β} (h : List.Forall₂ R l l') {x : α}
    (hx : x ∈ l) : ∃ y ∈ l', R x y := by
  induction h with
  | nil => simp at hx
  | cons h1 _ ih =>
    rcases List.mem_cons.1 hx with rfl | hx
    · exact ⟨_, by simp, h1⟩
    · obtain ⟨y, hy, h⟩ := ih hx
      exact ⟨y, by simp [hy], h⟩

theorem forall₂_mem_right {α β : Type} {R : α → β → Prop} {l : List α} {l' : List β} (h : List.Forall₂ R l l') {y : β}
    (hy : y ∈ l') : ∃ x ∈ l, R x y := by
  induction h with
  | nil => simp at hy
  | cons h1 _ ih =>
    rcases List.mem_cons.1 hy with rfl | hy
    · exact ⟨_, by simp, h1⟩
    · obtain ⟨x, hx, h⟩ := ih hy
      exact ⟨x, by simp [hx], h⟩

theorem Close.active (hr : Rounding rnd) (h : Close τ p a) (hb : p.1.natAbs ≤ 707) : a.v ≠ 0 ↔ p.1 ≠ 0 := by
  have hv := h.v hr hb
  constructor
  · intro h1 h2
    apply h1
    ext
    rw [hv, h2]
    rfl
  · intro h1 h2
    rw [h2] at hv
    have : (p.1 : ℚ) = 0 := hv.symm
    exact h1 (by exact_mod_cast this)

theorem tmin_close (hr : Rounding rnd) {ps : List (Int × Nat)} {FA : List (Axis (Fl rnd))}
    (h : List.Forall₂ (Close τ) ps FA) (hg : Good 707 ps) (hτ : |τ| ≤ 2) {T : ℚ} (hT : IsMin T ps) (junk : Fl rnd) :
    |(tmin junk FA).val - (T - τ)| ≤ err := by
  have hmem : ∀ t, t ∈ (FA.filter fun a => a.v ≠ 0).map Axis.t ↔ ∃ a ∈ FA, a.v ≠ 0 ∧ a.t = t := by
    intro t
    simp [List.mem_map, List.mem_filter, and_assoc]
  obtain ⟨⟨q, hq, hq0, rfl⟩, hmin⟩ := hT
  obtain ⟨b, hb, hc⟩ := forall₂_mem_left h hq
  have hbt : b.t ∈ (FA.filter fun a => a.v ≠ 0).map Axis.t :=
    (hmem _).2 ⟨b, hb, (hc.active hr (hg.bound q hq)).2 hq0, rfl⟩
  have key : ∀ m : Fl rnd, (∃ a ∈ FA, a.v ≠ 0 ∧ a.t = m) → m.val ≤ b.t.val → |m.val - (leave q - τ)| ≤ err := by
    rintro m ⟨a, ha, ha0, rfl⟩ h3
    obtain ⟨p, hp, hcp⟩ := forall₂_mem_right h ha
    have hp0 := (hcp.active hr (hg.bound p hp)).1 ha0
    have e1 := hcp.t hr hp0 (hg.bound p hp) (hg.le p hp) hτ
    have e2 := hc.t hr hq0 (hg.bound q hq) (hg.le q hq) hτ
    have e3 := hmin p hp hp0
    rw [abs_le] at e1 e2 ⊢
    constructor
    · linarith [e1.1]
    · linarith [e2.2]
  unfold tmin
  cases hl : (FA.filter fun a => a.v ≠ 0).map Axis.t with
  | nil => rw [hl] at hbt; simp at hbt
  | cons t ts =>
    obtain ⟨h1, h2⟩ := foldl_min_fl ts t
    rw [← hl, hmem] at h1
    rw [hl] at hbt
    exact key _ h1 (h2 _ hbt)

/-- Below 708 crossings are equal, or further apart than the tolerance by a margin. -/
theorem gap_or_eq {ps : List (Int × Nat)} (hb : ∀ p ∈ ps, p.1.natAbs ≤ 707) {T : ℚ} (hT : IsMin T ps)
    {p : Int × Nat} (hp : p ∈ ps) (hp0 : p.1 ≠ 0) (hne : leave p ≠ T) : 1 / 999698 ≤ |leave p - T| := by
  obtain ⟨⟨q, hq, hq0, rfl⟩, -⟩ := hT
  have h1 := natAbs_pos hp0
  have h2 := natAbs_pos hq0
  have key : leave p - leave q =
      ((((2 * p.2 + 1) * q.1.natAbs : Nat) : Int) - (((2 * q.2 + 1) * p.1.natAbs : Nat) : Int) : Int) /
        (2 * p.1.natAbs * q.1.natAbs : ℚ) := by
    unfold leave
    rw [div_sub_div _ _ h1.ne' h2.ne', div_eq_div_iff (by positivity) (by positivity)]
    rw [Int.cast_sub, Int.cast_natCast, Int.cast_natCast]
    push_cast
    ring
  have h4 : ((((2 * p.2 + 1) * q.1.natAbs : Nat) : Int) - (((2 * q.2 + 1) * p.1.natAbs : Nat) : Int) : Int) ≠ 0 := by
    intro h0
    rw [h0] at key
    simp at key
    exact hne (by linarith)
  have h5 : (1 : ℚ) ≤ |(((((2 * p.2 + 1) * q.1.natAbs : Nat) : Int) -
      (((2 * q.2 + 1) * p.1.natAbs : Nat) : Int) : Int) : ℚ)| := by
    exact_mod_cast Int.one_le_abs h4
  have b1 : (p.1.natAbs : ℚ) ≤ 707 := by exact_mod_cast hb p hp
  have b2 : (q.1.natAbs : ℚ) ≤ 707 := by exact_mod_cast hb q hq
  have b3 : (p.1.natAbs : ℚ) * q.1.natAbs ≤ 707 * 707 :=
    mul_le_mul b1 b2 h2.le (by norm_num)
  have h6 : |(2 * p.1.natAbs * q.1.natAbs : ℚ)| = 2 * (p.1.natAbs * q.1.natAbs) := by
    rw [abs_of_pos (by positivity)]; ring
  rw [key, abs_div, h6, le_div_iff₀ (by positivity)]
  linarith

theorem Close.selected (hr : Rounding rnd) {ps : List (Int × Nat)} (h : Close τ p a) (hp : p ∈ ps) (hg : Good 707 ps)
    (hτ : |τ| ≤ 2) {T : ℚ} (hT : IsMin T ps) {tm : Fl rnd} (htm : |tm.val - (T - τ)| ≤ err) :
    a.selected tm = decide (sel T p) := by
  have hb := hg.bound p hp
  unfold Axis.selected
  by_cases h0 : p.1 = 0
  · have h1 : ¬ a.v ≠ 0 := fun h' => (h.active hr hb).1 h' h0
    simp [sel, h0, not_not.1 h1]
  have h1 : a.v ≠ 0 := (h.active hr hb).2 h0
  rw [decide_eq_true h1, Bool.true_and, decide_eq_decide]
  show (fabs (a.t - tm)).val < rnd (1 / rnd ((1000000 : Nat) : ℚ)) ↔ _
  rw [fabs_val, hr.nat (by norm_num)]
  show |rnd (a.t.val - tm.val)| < _ ↔ _
  have ht := h.t hr h0 hb (hg.le p hp) hτ
  have hd : |(a.t.val - tm.val) - (leave p - T)| ≤ 2 * err := by
    have : (a.t.val - tm.val) - (leave p - T) = (a.t.val - (leave p - τ)) - (tm.val - (T - τ)) := by ring
    rw [this]
    refine (abs_sub _ _).trans ?_
    linarith
  have hrel := hr.rel (a.t.val - tm.val)
  have he := hr.rel (1 / ((1000000 : Nat) : ℚ))
  have hN : (1 : ℚ) / ((1000000 : Nat) : ℚ) = 1 / 1000000 := by norm_num
  rw [hN] at he ⊢
  set D := a.t.val - tm.val with hD
  set e := rnd (1 / 1000000) with hedef
  rw [abs_of_pos (show (0 : ℚ) < 1 / 1000000 by norm_num), abs_le] at he
  have hsel : sel T p ↔ leave p = T := by
    constructor
    · exact fun h => sel_exact hg.bound hT hp h
    · intro e
      refine ⟨h0, ?_⟩
      rw [e]
      simp [eps]
  rw [hsel]
  unfold err at hd
  constructor
  · intro hlt
    by_contra hne
    have hgap := gap_or_eq hg.bound hT hp h0 hne
    have h3 : |leave p - T| ≤ |D| + 2 * (1 / 2 ^ 47) := by
      have := abs_add_le D (-(D - (leave p - T)))
      rw [abs_neg] at this
      have e : D + -(D - (leave p - T)) = leave p - T := by ring
      rw [e] at this
      linarith
    have h4 : |D| ≤ |rnd D| + |D| / 2 ^ 53 := by
      have := abs_add_le (rnd D) (-(rnd D - D))
      rw [abs_neg] at this
      have e : rnd D + -(rnd D - D) = D := by ring
      rw [e] at this
      linarith
    norm_num at he h3 h4 hgap
    linarith [he.2]
  · intro heq
    rw [heq, sub_self, sub_zero] at hd
    have h4 : |rnd D| ≤ |rnd D - D| + |D| := by
      have := abs_add_le (rnd D - D) D
      rwa [sub_add_cancel] at this
    have h5 : |D| / 2 ^ 53 ≤ |D| := div_le_self (abs_nonneg _) (by norm_num)
    norm_num at he hd
    linarith [he.1]

/-! ### The loop -/

/-- An axis that is selected correctly. -/
def Ready (τ T : ℚ) (tm : Fl rnd) (p : Int × Nat) (a : Axis (Fl rnd)) : Prop :=
  Close τ p a ∧ a.selected tm = decide (sel T p) ∧ p.1.natAbs ≤ 707 ∧ (sel T p → p.2 < p.1.natAbs)

theorem Ready.inc (hr : Rounding rnd) {T : ℚ} {tm : Fl rnd} (h : Ready τ T tm p a) :
    Close τ (Path.inc T p) (if a.selected tm then a.advance else a) := by
  obtain ⟨h1, h2, h3, h4⟩ := h
  rw [h2]
  unfold Path.inc
  by_cases hs : sel T p
  · simp only [hs, decide_true, if_true]
    exact h1.advance hr hs.1 h3 (h4 hs)
  · simp only [hs, decide_false, Bool.false_eq_true, if_false]
    exact h1

theorem row_close {ps : List (Int × Nat)} {FA : List (Axis (Fl rnd))} (h : List.Forall₂ (Close τ) ps FA) :
    row FA = rowOf ps := by
  induction h with
  | nil => rfl
  | cons h1 _ ih =>
    unfold row rowOf at *
    rw [List.map_cons, List.map_cons, ih, h1.c]

theorem actual_sim (hr : Rounding rnd) {ps : List (Int × Nat)} {FA : List (Axis (Fl rnd))} {T σ : ℚ} {tm : Fl rnd}
    (h : List.Forall₂ (Ready τ T tm) ps FA) :
    (actualRows tm FA).2 = (actualRows (T - σ) (ps.map (mk σ))).2 ∧
      List.Forall₂ (Close τ) (ps.map (inc T)) (actualRows tm FA).1 := by
  have h1 : List.Forall₂ (Close τ) (ps.map (inc T)) (actualRows tm FA).1 := by
    unfold actualRows
    rw [List.forall₂_map_left_iff, List.forall₂_map_right_iff]
    exact h.imp fun _ _ h => h.inc hr
  refine ⟨?_, h1⟩
  show [row (actualRows tm FA).1] = [row ((ps.map (mk σ)).map fun a => if a.selected (T - σ) then a.advance else a)]
  rw [row_close h1, map_inc_mk, row_mk]

theorem full_sim (hr : Rounding rnd) {T σ : ℚ} {tm : Fl rnd} {P : List (Int × Nat)} {PF : List (Axis (Fl rnd))}
    (h : List.Forall₂ (Ready τ T tm) P PF) : ∀ {D : List (Int × Nat)} {DF : List (Axis (Fl rnd))},
    List.Forall₂ (Close τ) D DF →
    (fullRows tm DF PF).2 = (fullRows (T - σ) (D.map (mk σ)) (P.map (mk σ))).2 ∧
      List.Forall₂ (Close τ) (D ++ P.map (inc T)) (fullRows tm DF PF).1 := by
  induction h with
  | nil => intro D DF hD; simpa [fullRows] using hD
  | @cons p a P PF h1 h2 ih =>
    intro D DF hD
    have hc := h1.inc hr
    obtain ⟨c1, c2, c3, c4⟩ := h1
    have hF : List.Forall₂ (Close τ) P PF := h2.imp fun _ _ h => h.1
    rw [List.map_cons, fullRows, fullRows, mk_selected, c2]
    have hinc := mk_inc σ T p
    rw [mk_selected] at hinc
    rw [c2] at hc
    by_cases hs : sel T p
    · simp only [hs, decide_true, if_true] at hc hinc ⊢
      rw [hinc]
      have := ih (D := D ++ [inc T p]) (DF := DF ++ [a.advance]) (List.rel_append hD (.cons hc .nil))
      rw [List.map_append, List.map_cons, List.map_nil] at this
      refine ⟨?_, ?_⟩
      · rw [this.1]
        congr 1
        have e1 : row (DF ++ a.advance :: PF) = rowOf (D ++ inc T p :: P) :=
          row_close (List.rel_append hD (.cons hc hF))
        rw [e1, ← row_mk σ, List.map_append, List.map_cons]
      · rw [List.map_cons, List.append_cons]
        exact this.2
    · simp only [hs, decide_false, Bool.false_eq_true, if_false] at hc hinc ⊢
      have := ih (D := D ++ [inc T p]) (DF := DF ++ [a]) (List.rel_append hD (.cons hc .nil))
      rw [List.map_append, List.map_cons, List.map_nil, ← hinc] at this
      refine ⟨this.1, ?_⟩
      rw [List.map_cons, List.append_cons]
      exact this.2

/-- The loops in rounded and exact arithmetic give the same rows. -/
theorem lineLoop_sim (hr : Rounding rnd) {rowsF : Fl rnd → List (Axis (Fl rnd)) → List (Axis (Fl rnd)) × List (List Int)}
    {rows : ℚ → List (Axis ℚ) → List (Axis ℚ) × List (List Int)}
    (hrows : ∀ (ps : List (Int × Nat)) (FA : List (Axis (Fl rnd))) (τ σ T : ℚ) (tm : Fl rnd),
      List.Forall₂ (Ready τ T tm) ps FA → (rowsF tm FA).2 = (rows (T - σ) (ps.map (mk σ))).2 ∧
        List.Forall₂ (Close τ) (ps.map (inc T)) (rowsF tm FA).1)
    (hinc : ∀ (ps : List (Int × Nat)) (T σ : ℚ), (∀ p ∈ ps, sel T p → p.2 < p.1.natAbs) →
      (rows (T - σ) (ps.map (mk σ))).1 = (ps.map (inc T)).map (mk σ))
    (junk : Fl rnd) (junk' : ℚ) :
    ∀ (fuel : Nat) (ps : List (Int × Nat)) (FA : List (Axis (Fl rnd))) (τ σ δ : ℚ) (ret : List (List Int)),
      List.Forall₂ (Close τ) ps FA → Good 707 ps → left ps ≠ 0 → 0 ≤ δ → δ + left ps * err ≤ 1 / 4 →
      -δ ≤ τ → (∀ p ∈ ps, p.1 ≠ 0 → τ ≤ leave p + δ) →
      lineLoop rowsF junk fuel FA ret = lineLoop rows junk' fuel (ps.map (mk σ)) ret := by
  intro fuel
  induction fuel with
  | zero => intros; rfl
  | succ fuel ih =>
    intro ps FA τ σ δ ret hF hg hl hδ hδ1 hτ0 hτ1
    obtain ⟨q, hq, hlt⟩ := left_pos_iff.1 hl
    have hq0 : q.1 ≠ 0 := by intro e; rw [e] at hlt; simp at hlt
    obtain ⟨T, hT, hmin⟩ := tmin_mk (junk := junk') (τ := σ) ⟨q, hq, hq0⟩
    have herr : 0 ≤ err := by unfold err; norm_num
    have hsd : ∀ p ∈ ps, sel T p → p.2 < p.1.natAbs := fun p hp hs => sel_not_done (by norm_num) hg hl hmin hp hs
    have hT0 := min_nonneg hmin
    have hT1 := min_le_one hl hmin
    have hδ4 : δ ≤ 1 / 4 := by
      have : (0 : ℚ) ≤ left ps * err := mul_nonneg (Nat.cast_nonneg _) herr
      linarith
    have hτT : τ ≤ T + δ := by
      obtain ⟨⟨p, hp, hp0, rfl⟩, -⟩ := hmin
      exact hτ1 p hp hp0
    have hτ2 : |τ| ≤ 2 := by rw [abs_le]; constructor <;> linarith
    have htm := tmin_close hr hF hg hτ2 hmin junk
    set tm := tmin junk FA with htmdef
    have hready : List.Forall₂ (Ready τ T tm) ps FA := by
      have : ∀ (ps' : List (Int × Nat)) (FA' : List (Axis (Fl rnd))), List.Forall₂ (Close τ) ps' FA' →
          (∀ p ∈ ps', p ∈ ps) → List.Forall₂ (Ready τ T tm) ps' FA' := by
        intro ps' FA' h
        induction h with
        | nil => intro _; exact .nil
        | @cons p a _ _ h1 _ ih =>
          intro hsub
          have hp := hsub p (by simp)
          exact .cons ⟨h1, h1.selected hr hp hg hτ2 hmin htm, hg.bound p hp, hsd p hp⟩
            (ih fun p hp => hsub p (by simp [hp]))
      exact this ps FA hF fun _ h => h
    obtain ⟨e1, e2⟩ := hrows ps FA τ σ T tm hready
    have hg' := good_inc (by norm_num) hg hl hmin
    have hplace : ((ps.map (inc T)).map (mk σ)).map (fun a => a.place (T - σ)) =
        (ps.map (inc T)).map (mk (T - σ)) := by
      rw [List.map_map]
      apply List.map_congr_left
      intro p _
      exact mk_place _ _ _
    have hF' : List.Forall₂ (Close tm.val) (ps.map (inc T)) ((rowsF tm FA).1.map fun a => a.place tm) := by
      rw [List.forall₂_map_right_iff]
      have : ∀ (ps' : List (Int × Nat)) (FA' : List (Axis (Fl rnd))), List.Forall₂ (Close τ) ps' FA' →
          (∀ p ∈ ps', p.1.natAbs ≤ 707) → List.Forall₂ (fun p a => Close tm.val p (a.place tm)) ps' FA' := by
        intro ps' FA' h
        induction h with
        | nil => intro _; exact .nil
        | @cons p a _ _ h1 _ ih =>
          intro hb
          exact .cons (h1.place hr (hb p (by simp)) tm) (ih fun p hp => hb p (by simp [hp]))
      exact this _ _ e2 hg'.bound
    have hdone : (((rowsF tm FA).1.map fun a => a.place tm).all fun a => a.c == a.xb) =
        (((ps.map (inc T)).map (mk (T - σ))).all fun a => a.c == a.xb) := by
      have : ∀ (ps' : List (Int × Nat)) (FA' : List (Axis (Fl rnd))), List.Forall₂ (Close tm.val) ps' FA' →
          (FA'.all fun a => a.c == a.xb) = ((ps'.map (mk (T - σ))).all fun a => a.c == a.xb) := by
        intro ps' FA' h
        induction h with
        | nil => rfl
        | @cons p a _ _ h1 _ ih =>
          rw [List.map_cons, List.all_cons, List.all_cons, ih, h1.c, h1.xb]
          rfl
      exact this _ _ hF'
    rw [lineLoop, lineLoop]
    simp only [hT, hinc ps T σ hsd, hplace, ← htmdef, hdone, ← e1]
    rw [row_done hg']
    by_cases hd : left (ps.map (inc T)) = 0
    · simp [hd]
    · rw [if_neg (by simpa using hd), if_neg (by simpa using hd)]
      have hdec := left_inc T (ps := ps) hsd
      have hpos := nsel_pos hmin
      rw [abs_le] at htm
      refine ih _ _ tm.val (T - σ) (δ + err) _ hF' hg' hd (by linarith) ?_ (by linarith [htm.1]) ?_
      · have h1 : (left (ps.map (inc T)) : ℚ) + 1 ≤ left ps := by exact_mod_cast (by omega)
        have h2 := mul_le_mul_of_nonneg_right h1 herr
        linarith
      · intro p' hp' hp0
        obtain ⟨p, hp, rfl⟩ := List.mem_map.1 hp'
        rw [inc_fst] at hp0
        have h1 := hmin.2 p hp hp0
        have h2 : leave p ≤ leave (inc T p) := by
          unfold inc
          split
          · exact leave_mono (v := p.1) (Nat.le_succ p.2)
          · exact le_refl _
        linarith [htm.2]

theorem line_sim (hr : Rounding rnd) {rowsF : Fl rnd → List (Axis (Fl rnd)) → List (Axis (Fl rnd)) × List (List Int)}
    {rows : ℚ → List (Axis ℚ) → List (Axis ℚ) × List (List Int)}
    (hrows : ∀ (ps : List (Int × Nat)) (FA : List (Axis (Fl rnd))) (τ σ T : ℚ) (tm : Fl rnd),
      List.Forall₂ (Ready τ T tm) ps FA → (rowsF tm FA).2 = (rows (T - σ) (ps.map (mk σ))).2 ∧
        List.Forall₂ (Close τ) (ps.map (inc T)) (rowsF tm FA).1)
    (hinc : ∀ (ps : List (Int × Nat)) (T σ : ℚ), (∀ p ∈ ps, sel T p → p.2 < p.1.natAbs) →
      (rows (T - σ) (ps.map (mk σ))).1 = (ps.map (inc T)).map (mk σ))
    (junk : Fl rnd) (junk' : ℚ) (fuel : Nat) {vs : List Int} (hb : ∀ v ∈ vs, v.natAbs ≤ 707) (h0 : ∃ v ∈ vs, v ≠ 0) :
    line rowsF junk fuel (List.replicate vs.length 0) vs = line rows junk' fuel (List.replicate vs.length 0) vs := by
  unfold line
  by_cases h3 : vs.length ≤ 3
  swap
  · rw [if_pos (by simp; omega), if_pos (by simp; omega)]
  rw [if_neg (by simp; omega), if_neg (by simp; omega)]
  have hF : List.Forall₂ (Close (rnd := rnd) 0) (vs.map fun v => (v, 0))
      (List.zipWith (axis (Fl rnd)) (List.replicate vs.length 0) vs) := by
    clear h3 h0
    induction vs with
    | nil => exact .nil
    | cons v vs ih =>
      rw [List.length_cons, List.replicate_succ, List.zipWith_cons_cons, List.map_cons]
      exact .cons (axis_close hr (hb v (by simp))) (ih fun v hv => hb v (by simp [hv]))
  simp only [initial_axes, row_mk, row_close hF]
  have hl : left (vs.map fun v => (v, 0)) ≠ 0 := by
    obtain ⟨v, hv, h⟩ := h0
    exact left_pos_iff.2 ⟨(v, 0), List.mem_map.2 ⟨v, hv, rfl⟩, Int.natAbs_pos.2 h⟩
  have hle : left (vs.map fun v => ((v, 0) : Int × Nat)) ≤ 707 * 3 := by
    unfold left
    rw [List.map_map]
    refine (List.sum_le_card_nsmul _ 707 ?_).trans ?_
    · intro x hx
      obtain ⟨v, hv, rfl⟩ := List.mem_map.1 hx
      have := hb v hv
      show v.natAbs - 0 ≤ 707
      omega
    · simp
      omega
  refine lineLoop_sim hr hrows hinc junk junk' fuel _ _ 0 0 0 _ hF (initial_good hb) hl (le_refl _) ?_ (by norm_num) ?_
  · have h1 : (left (vs.map fun v => ((v, 0) : Int × Nat)) : ℚ) ≤ 2121 := by exact_mod_cast hle
    have h2 : (0 : ℚ) ≤ err := by unfold err; norm_num
    have h3 := mul_le_mul_of_nonneg_right h1 h2
    have h4 : 2121 * err ≤ 1 / 4 := by unfold err; norm_num
    linarith
  · intro p _ _
    unfold leave
    positivity

section

variable {K : Type} [Zero K] [One K] [Add K] [Sub K] [Neg K] [Mul K] [Div K] [NatCast K] [IntCast K] [DecidableEq K]
  [LT K] [DecidableLT K]

theorem single_axes (h0 : ((0 : Int) : K) = 0) (x : List Int) :
    ∀ a ∈ List.zipWith (axis K) x x, a.v = 0 ∧ a.c = a.xb := by
  intro a ha
  obtain ⟨i, hi, rfl⟩ := List.mem_iff_getElem.1 ha
  rw [List.getElem_zipWith]
  refine ⟨?_, rfl⟩
  show ((_ - _ : Int) : K) = 0
  rw [← h0]
  congr 1
  exact Int.sub_self _

theorem single_row (x : List Int) : row (List.zipWith (axis K) x x) = x := by
  apply List.ext_getElem (by simp [row])
  intro i h1 h2
  simp [row, axis]

theorem single_full (h0 : ((0 : Int) : K) = 0) (junk : K) (fuel : Nat) {x : List Int} (h3 : x.length ≤ 3) :
    path junk (fuel + 1) x x .full = ok [x] := by
  show line _ junk (fuel + 1) x x = _
  unfold line
  rw [if_neg (by omega)]
  simp only
  have hz := single_axes h0 x
  have hf : ∀ (tm : K) (P D : List (Axis K)), (∀ a ∈ P, a.v = 0) → fullRows tm D P = (D ++ P, []) := by
    intro tm P
    induction P with
    | nil => intro D _; simp [fullRows]
    | cons a P ih =>
      intro D h
      rw [fullRows, if_neg (by simp [Axis.selected, h a (by simp)]), ih _ fun b hb => h b (by simp [hb])]
      simp
  unfold lineLoop
  simp only [hf _ _ _ fun a ha => (hz a ha).1]
  rw [if_pos, single_row]
  · rfl
  · rw [List.all_eq_true]
    intro a ha
    obtain ⟨b, hb, rfl⟩ := List.mem_map.1 ha
    have := (hz b (by simpa using hb)).2
    simp [Axis.place, this]

theorem single_actual (h0 : ((0 : Int) : K) = 0) (junk : K) (fuel : Nat) {x : List Int} (h3 : x.length ≤ 3) :
    path junk (fuel + 1) x x .actual = ok [x, x] := by
  show line _ junk (fuel + 1) x x = _
  unfold line
  rw [if_neg (by omega)]
  simp only
  have hz := single_axes h0 x
  have hf : ∀ tm : K, actualRows tm (List.zipWith (axis K) x x) = (List.zipWith (axis K) x x, [x]) := by
    intro tm
    have : ((List.zipWith (axis K) x x).map fun a => if a.selected tm then a.advance else a) =
        List.zipWith (axis K) x x := by
      conv_rhs => rw [← List.map_id (List.zipWith (axis K) x x)]
      apply List.map_congr_left
      intro a ha
      rw [if_neg (by simp [Axis.selected, (hz a ha).1])]
      rfl
    simp only [actualRows, this, single_row]
  unfold lineLoop
  simp only [hf]
  rw [if_pos, single_row]
  · rfl
  · rw [List.all_eq_true]
    intro a ha
    obtain ⟨b, hb, rfl⟩ := List.mem_map.1 ha
    have := (hz b (by simpa using hb)).2
    simp [Axis.place, this]

end

/-- Rounding does not change a path from the origin. -/
theorem path_sim (hr : Rounding rnd) (junk : Fl rnd) (junk' : ℚ) (fuel : Nat) {vs : List Int}
    (hb : ∀ v ∈ vs, v.natAbs ≤ 707) (mode : Mode) :
    path junk fuel (List.replicate vs.length 0) vs mode = path junk' fuel (List.replicate vs.length 0) vs mode := by
  by_cases h0 : ∃ v ∈ vs, v ≠ 0
  · cases mode with
    | bresenham => rfl
    | actual =>
      refine line_sim hr (fun ps FA τ σ T tm h => actual_sim hr h) ?_ junk junk' fuel hb h0
      intro ps T σ _
      exact map_inc_mk _ _ _
    | full =>
      refine line_sim hr (rowsF := fun tm => fullRows tm []) (rows := fun tm => fullRows tm []) ?_ ?_ junk junk' fuel hb h0
      · intro ps FA τ σ T tm h
        exact full_sim hr h .nil
      · intro ps T σ h
        obtain ⟨out, e, -⟩ := fullRows_ok (T := T) (τ := σ) (E := fun _ => True) ps [] h (by simp) (by simp) (by simp)
        rw [List.map_nil] at e
        show (fullRows (T - σ) [] (ps.map (mk σ))).1 = _
        rw [e]
        rfl
  · have e : vs = List.replicate vs.length 0 := by
      apply List.eq_replicate_of_mem
      intro v hv
      by_contra h
      exact h0 ⟨v, hv, h⟩
    rw [← e]
    have hz : ((0 : Int) : Fl rnd) = 0 := by
      ext
      show rnd ((0 : Int) : ℚ) = 0
      rw [Int.cast_zero, hr.zero]
    by_cases h3 : vs.length ≤ 3
    swap
    · cases mode with
      | bresenham => rfl
      | actual => show line _ _ _ _ _ = line _ _ _ _ _; unfold line; rw [if_pos (by omega), if_pos (by omega)]
      | full => show line _ _ _ _ _ = line _ _ _ _ _; unfold line; rw [if_pos (by omega), if_pos (by omega)]
    cases fuel with
    | zero =>
      cases mode with
      | bresenham => rfl
      | actual => show line _ _ _ _ _ = line _ _ _ _ _; unfold line; rw [if_neg (by omega), if_neg (by omega)]; rfl
      | full => show line _ _ _ _ _ = line _ _ _ _ _; unfold line; rw [if_neg (by omega), if_neg (by omega)]; rfl
    | succ fuel =>
      cases mode with
      | bresenham => rfl
      | actual => rw [single_actual hz junk fuel h3, single_actual Int.cast_zero junk' fuel h3]
      | full => rw [single_full hz junk fuel h3, single_full Int.cast_zero junk' fuel h3]

end Verif.Path
