import Verif.Lemmas.FloatPath
import Verif.Lemmas.LineStart

/-!
# `actual` and `full` in `double`, from any start

The counterpart of `Lemmas/FloatPath.lean` for paths that do not start at the origin. The errors of the parameters
grow with the coordinates of the start; up to 65536 they are less than the distance of crossings that do not
coincide, minus the tolerance.
-/

set_option linter.unusedSectionVars false

namespace Verif.Path

open Verif Outcome Spec

namespace Leg

variable {rnd : ℚ → ℚ}

/-- The axis in rounded arithmetic after `m` steps; `τ` is the parameter of the position. -/
structure Near (τ : ℚ) (p : Leg) (a : Axis (Fl rnd)) : Prop where
  xa : a.xa = p.a
  xb : a.xb = p.a + p.v
  c : a.c = p.a + p.v.sign * p.m
  next : a.next.val = p.v.sign * ((p.m : ℚ) + 1 / 2)
  x : |a.x.val - (p.a + p.v * τ)| ≤ (|(p.a : ℚ)| + |p.v * τ|) / 2 ^ 51

/-- The legs that are covered. -/
structure Small (p : Leg) : Prop where
  v : p.v.natAbs ≤ 707
  a : p.a.natAbs ≤ 65536
  m : p.m ≤ p.v.natAbs

variable {τ : ℚ} {p : Leg} {a : Axis (Fl rnd)}

theorem Near.velocity (hr : Rounding rnd) (h : Near τ p a) (hs : p.v.natAbs ≤ 707) : a.v.val = (p.v : ℚ) := by
  show rnd ((a.xb - a.xa : Int) : ℚ) = _
  rw [h.xa, h.xb]
  have e : p.a + p.v - p.a = p.v := by ring
  rw [e]
  refine hr.int ?_
  have : (p.v.natAbs : Int) ≤ 707 := by exact_mod_cast hs
  rw [Int.natCast_natAbs] at this
  exact this.trans (by norm_num)

/-- The error of a parameter. -/
def err : ℚ := 1180000 / 2 ^ 53

theorem Small.out (hs : Small p) (h0 : p.v ≠ 0) : |out p| ≤ 65538 := by
  have hn := natAbs_pos h0
  have hn1 : (1 : ℚ) ≤ p.v.natAbs := by
    have : 1 ≤ p.v.natAbs := Int.natAbs_pos.2 h0
    exact_mod_cast this
  have ha : |(p.a : ℚ)| ≤ 65536 := by
    rw [abs_cast_natAbs]
    exact_mod_cast hs.a
  have hm : (p.m : ℚ) ≤ p.v.natAbs := by exact_mod_cast hs.m
  have h1 : |(p.a : ℚ) / p.v| ≤ 65536 := by
    rw [abs_div, abs_cast_natAbs p.v]
    exact (div_le_self (abs_nonneg _) hn1).trans ha
  have h2 : 0 ≤ ((p.m : ℚ) + 1 / 2) / p.v.natAbs := by positivity
  have h3 : ((p.m : ℚ) + 1 / 2) / p.v.natAbs ≤ 2 := by
    rw [div_le_iff₀ hn]
    linarith
  unfold Leg.out
  rw [abs_le] at h1 ⊢
  constructor <;> linarith [h1.1, h1.2]

theorem Near.t (hr : Rounding rnd) (h : Near τ p a) (h0 : p.v ≠ 0) (hs : Small p) (hτ : |τ| ≤ 131077) :
    |a.t.val - (out p - τ)| ≤ err := by
  have hv := h.velocity hr hs.v
  show |rnd (rnd (a.next.val - a.x.val) / a.v.val) - _| ≤ _
  rw [hv]
  have hn := natAbs_pos h0
  have hn1 : (1 : ℚ) ≤ p.v.natAbs := by
    have : 1 ≤ p.v.natAbs := Int.natAbs_pos.2 h0
    exact_mod_cast this
  have hv0 : (p.v : ℚ) ≠ 0 := by exact_mod_cast h0
  have habs := abs_cast_natAbs p.v
  have ha : |(p.a : ℚ)| ≤ 65536 := by
    rw [abs_cast_natAbs]
    exact_mod_cast hs.a
  have hout := hs.out h0
  have hnext : a.next.val = p.a + (p.v : ℚ) * out p := by
    rw [h.next]
    have e := sign_mul_natAbs p.v
    unfold Leg.out
    have e1 : (p.v : ℚ) * (((p.m : ℚ) + 1 / 2) / p.v.natAbs) = p.v.sign * ((p.m : ℚ) + 1 / 2) := by
      rw [← mul_div_assoc, div_eq_iff hn.ne', ← e]
      ring
    rw [mul_sub, e1]
    field_simp
    ring
  set n : ℚ := (p.v.natAbs : ℚ) with hndef
  set D := a.next.val - a.x.val with hD
  set w := out p - τ with hw
  have hw3 : |w| ≤ 196615 := by
    rw [hw]
    rw [abs_le] at hτ hout ⊢
    constructor <;> linarith [hτ.1, hτ.2, hout.1, hout.2]
  have hx : |a.x.val - (p.a + p.v * τ)| ≤ n * 786452 / 2 ^ 53 := by
    refine h.x.trans ?_
    have h1 : |(p.v : ℚ) * τ| ≤ n * 131077 := by
      rw [abs_mul, habs]
      exact mul_le_mul_of_nonneg_left hτ hn.le
    have h2 : |(p.a : ℚ)| ≤ n * 65536 := ha.trans (by linarith)
    have h3 : (|(p.a : ℚ)| + |(p.v : ℚ) * τ|) / 2 ^ 51 = 4 * (|(p.a : ℚ)| + |(p.v : ℚ) * τ|) / 2 ^ 53 := by
      rw [div_eq_div_iff (by norm_num) (by norm_num)]; ring
    rw [h3]
    exact div_le_div_of_nonneg_right (by linarith) (by norm_num)
  have hDe : |D - p.v * w| ≤ n * 786452 / 2 ^ 53 := by
    have : D - p.v * w = -(a.x.val - (p.a + p.v * τ)) := by rw [hD, hnext, hw]; ring
    rw [this, abs_neg]
    exact hx
  have hD4 : |D| ≤ n * 196616 := by
    have h1 : |(p.v : ℚ) * w| ≤ n * 196615 := by
      rw [abs_mul, habs]
      exact mul_le_mul_of_nonneg_left hw3 hn.le
    have h2 : |D| ≤ |D - p.v * w| + |(p.v : ℚ) * w| := by
      have := abs_add_le (D - p.v * w) (p.v * w)
      rwa [sub_add_cancel] at this
    have h3 : n * 786452 / 2 ^ 53 ≤ n * 1 := by
      rw [mul_div_assoc]
      exact mul_le_mul_of_nonneg_left (by norm_num) hn.le
    linarith
  have hR := rel_le hr hD4
  set R := rnd D with hRdef
  have hRe : |R - p.v * w| ≤ n * (983068 / 2 ^ 53) := by
    have : R - p.v * w = (R - D) + (D - p.v * w) := by ring
    rw [this]
    refine (abs_add_le _ _).trans ((add_le_add hR hDe).trans_eq ?_)
    ring
  have hQ : |R / p.v - w| ≤ 983068 / 2 ^ 53 := by
    have : R / p.v - w = (R - p.v * w) / p.v := by
      field_simp
    rw [this, abs_div, habs, div_le_iff₀ hn]
    linarith
  have hQ5 : |R / p.v| ≤ 196616 := by
    have h2 := abs_add_le (R / p.v - w) w
    rw [sub_add_cancel] at h2
    have : (983068 : ℚ) / 2 ^ 53 ≤ 1 := by norm_num
    linarith
  have hS := rel_le hr hQ5
  have : rnd (R / p.v) - w = (rnd (R / p.v) - R / p.v) + (R / p.v - w) := by ring
  rw [this]
  refine (abs_add_le _ _).trans ((add_le_add hS hQ).trans ?_)
  unfold err
  norm_num

theorem Near.sign (hr : Rounding rnd) (h : Near τ p a) (h0 : p.v ≠ 0) (hb : p.v.natAbs ≤ 707) :
    a.sign.val = ((p.v.sign : Int) : ℚ) := by
  show rnd (a.v.val / (fabs a.v).val) = _
  rw [fabs_val, h.velocity hr hb]
  have e : (p.v : ℚ) / |(p.v : ℚ)| = ((p.v.sign : Int) : ℚ) := by
    have := mk_sign 0 (p.v, 0)
    unfold Axis.sign at this
    rwa [mk_v, fabs_rat] at this
  rw [e]
  refine hr.int ?_
  rcases lt_or_gt_of_ne h0 with h1 | h1
  · rw [Int.sign_eq_neg_one_of_neg h1]; norm_num
  · rw [Int.sign_eq_one_of_pos h1]; norm_num

theorem Near.advance (hr : Rounding rnd) (h : Near τ p a) (h0 : p.v ≠ 0) (hs : Small p) :
    Near τ p.next a.advance where
  xa := h.xa
  xb := h.xb
  c := by
    show a.c + (a.xb - a.xa).sign = _
    have e : p.a + p.v - p.a = p.v := by ring
    rw [h.c, h.xb, h.xa, e]
    simp only [Leg.next]
    push_cast
    ring
  next := by
    show rnd (a.next.val + a.sign.val) = _
    rw [h.next, h.sign hr h0 hs.v]
    have e : ((p.v.sign : Int) : ℚ) * ((p.m : ℚ) + 1 / 2) + ((p.v.sign : Int) : ℚ) =
        ((p.v.sign * (2 * p.m + 3) : Int) : ℚ) / 2 := by
      push_cast
      ring
    rw [e, hr.half]
    · simp only [Leg.next]
      push_cast
      ring
    · have hs1 : |p.v.sign| = 1 := by
        rcases lt_or_gt_of_ne h0 with h1 | h1
        · rw [Int.sign_eq_neg_one_of_neg h1]; norm_num
        · rw [Int.sign_eq_one_of_pos h1]; norm_num
      rw [abs_mul, hs1, one_mul, abs_of_nonneg (by omega)]
      have : (p.m : Int) ≤ 707 := by exact_mod_cast hs.m.trans hs.v
      norm_num
      omega
  x := h.x

theorem Near.place (hr : Rounding rnd) (h : Near τ p a) (hb : p.v.natAbs ≤ 707) (hba : p.a.natAbs ≤ 65536)
    (tm : Fl rnd) : Near tm.val p (a.place tm) where
  xa := h.xa
  xb := h.xb
  c := h.c
  next := h.next
  x := by
    show |rnd (rnd ((a.xa : Int) : ℚ) + rnd (a.v.val * tm.val)) - (p.a + p.v * tm.val)| ≤ _
    have ha : rnd ((p.a : Int) : ℚ) = p.a := by
      refine hr.int ?_
      have : (p.a.natAbs : Int) ≤ 65536 := by exact_mod_cast hba
      rw [Int.natCast_natAbs] at this
      exact this.trans (by norm_num)
    rw [h.xa, ha, h.velocity hr hb]
    set y := (p.v : ℚ) * tm.val
    set b := (p.a : ℚ)
    have h1 := hr.rel y
    have h2 := hr.rel (b + rnd y)
    have h3 : |rnd y| ≤ |rnd y - y| + |y| := by
      have := abs_add_le (rnd y - y) y
      rwa [sub_add_cancel] at this
    have h4 : |rnd (b + rnd y) - (b + y)| ≤ |rnd (b + rnd y) - (b + rnd y)| + |rnd y - y| := by
      have := abs_add_le (rnd (b + rnd y) - (b + rnd y)) (rnd y - y)
      have e : rnd (b + rnd y) - (b + rnd y) + (rnd y - y) = rnd (b + rnd y) - (b + y) := by ring
      rwa [e] at this
    have h5 := abs_nonneg y
    have h5' := abs_nonneg b
    have h6 : |rnd y| ≤ 2 * |y| := by
      have : |y| / 2 ^ 53 ≤ |y| := div_le_self h5 (by norm_num)
      linarith
    have h7 : |b + rnd y| / 2 ^ 53 ≤ (|b| + 2 * |y|) / 2 ^ 53 :=
      div_le_div_of_nonneg_right ((abs_add_le _ _).trans (by linarith)) (by norm_num)
    have h8 : (|b| + 2 * |y|) / 2 ^ 53 + |y| / 2 ^ 53 ≤ (|b| + |y|) / 2 ^ 51 := by
      have : (|b| + |y|) / 2 ^ 51 = 4 * (|b| + |y|) / 2 ^ 53 := by
        rw [div_eq_div_iff (by norm_num) (by norm_num)]; ring
      rw [this, ← add_div]
      exact div_le_div_of_nonneg_right (by linarith) (by norm_num)
    linarith

theorem axis_near (hr : Rounding rnd) {x v : Int} (hb : v.natAbs ≤ 707) (hbx : x.natAbs ≤ 65536) :
    Near (rnd := rnd) 0 ⟨x, v, 0⟩ (axis (Fl rnd) x (x + v)) where
  xa := rfl
  xb := rfl
  c := by simp [axis]
  next := by
    have hX : x + v - x = v := by ring
    by_cases h0 : v = 0
    · subst h0
      show rnd (rnd (rnd ((x + 0 - x : Int) : ℚ) / _) * _) = _
      rw [hX]
      simp [hr.zero]
    · have h : Near (rnd := rnd) 0 ⟨x, v, 0⟩ ⟨x, x + v, x, ⟨((v.sign : Int) : ℚ) * (0 + 1 / 2)⟩, ⟨x⟩⟩ :=
        ⟨rfl, rfl, by simp, by simp, by
          simp only [mul_zero, add_zero, sub_self, abs_zero]
          positivity⟩
      have h1 := h.sign hr h0 hb
      show rnd (Fl.val (Axis.sign (⟨x, x + v, x, 0, ((x : Int) : Fl rnd)⟩ : Axis (Fl rnd))) *
        rnd (1 / rnd ((2 : Nat) : ℚ))) = _
      have e : Fl.val (Axis.sign (⟨x, x + v, x, 0, ((x : Int) : Fl rnd)⟩ : Axis (Fl rnd))) =
        ((v.sign : Int) : ℚ) := h1
      rw [e, hr.nat (by norm_num)]
      have e1 : rnd (1 / ((2 : Nat) : ℚ)) = 1 / 2 := by
        have := hr.half 1 (by norm_num)
        simpa using this
      rw [e1]
      have e2 := hr.half v.sign (by
        rcases lt_or_gt_of_ne h0 with h1 | h1
        · rw [Int.sign_eq_neg_one_of_neg h1]; norm_num
        · rw [Int.sign_eq_one_of_pos h1]; norm_num)
      rw [mul_one_div, e2]
      push_cast
      ring
  x := by
    show |rnd ((x : Int) : ℚ) - _| ≤ _
    rw [hr.int]
    · simp only [mul_zero, add_zero, sub_self, abs_zero]
      positivity
    · have : (x.natAbs : Int) ≤ 65536 := by exact_mod_cast hbx
      rw [Int.natCast_natAbs] at this
      exact this.trans (by norm_num)

theorem Near.active (hr : Rounding rnd) (h : Near τ p a) (hb : p.v.natAbs ≤ 707) : a.v ≠ 0 ↔ p.v ≠ 0 := by
  have hv := h.velocity hr hb
  constructor
  · intro h1 h2
    apply h1
    ext
    rw [hv, h2]
    rfl
  · intro h1 h2
    rw [h2] at hv
    have : (p.v : ℚ) = 0 := hv.symm
    exact h1 (by exact_mod_cast this)

theorem tmin_near (hr : Rounding rnd) {ps : List Leg} {FA : List (Axis (Fl rnd))}
    (h : List.Forall₂ (Near τ) ps FA) (hs : ∀ p ∈ ps, Small p) (hτ : |τ| ≤ 131077) {T : ℚ} (hT : IsMin T ps)
    (junk : Fl rnd) : |(tmin junk FA).val - (T - τ)| ≤ err := by
  have hmem : ∀ t, t ∈ (FA.filter fun a => a.v ≠ 0).map Axis.t ↔ ∃ a ∈ FA, a.v ≠ 0 ∧ a.t = t := by
    intro t
    simp [List.mem_map, List.mem_filter, and_assoc]
  obtain ⟨⟨q, hq, hq0, rfl⟩, hmin⟩ := hT
  obtain ⟨b, hb, hc⟩ := forall₂_mem_left h hq
  have hbt : b.t ∈ (FA.filter fun a => a.v ≠ 0).map Axis.t :=
    (hmem _).2 ⟨b, hb, (hc.active hr (hs q hq).v).2 hq0, rfl⟩
  have key : ∀ m : Fl rnd, (∃ a ∈ FA, a.v ≠ 0 ∧ a.t = m) → m.val ≤ b.t.val → |m.val - (out q - τ)| ≤ err := by
    rintro m ⟨a, ha, ha0, rfl⟩ h3
    obtain ⟨p, hp, hcp⟩ := forall₂_mem_right h ha
    have hp0 := (hcp.active hr (hs p hp).v).1 ha0
    have e1 := hcp.t hr hp0 (hs p hp) hτ
    have e2 := hc.t hr hq0 (hs q hq) hτ
    have e3 := hmin p hp hp0
    rw [abs_le] at e1 e2 ⊢
    constructor
    · linarith [e1.1]
    · linarith [e2.2]
  unfold tmin
  cases hl : (FA.filter fun a => a.v ≠ 0).map Axis.t with
  | nil => rw [hl] at hbt; simp at hbt
  | cons t ts =>
    obtain ⟨h1, h2⟩ := foldl_min_fl ts t
    rw [← hl, hmem] at h1
    rw [hl] at hbt
    exact key _ h1 (h2 _ hbt)

theorem div_sign {a v : Int} (hv : v ≠ 0) : ((a : ℚ) / v) = (v.sign * a : Int) / (v.natAbs : ℚ) := by
  have h1 := natAbs_pos hv
  have q1 : (v : ℚ) ≠ 0 := by exact_mod_cast hv
  rw [div_eq_div_iff q1 h1.ne', Int.cast_mul]
  conv_rhs => rw [← sign_mul_natAbs v]
  have := sign_sq hv
  linear_combination (-(a : ℚ) * v.natAbs) * this

/-- Below 708 crossings are equal, or further apart than the tolerance by a margin. -/
theorem gap_or_eq {ps : List Leg} (hb : ∀ p ∈ ps, p.v.natAbs ≤ 707) {T : ℚ} (hT : IsMin T ps) {p : Leg}
    (hp : p ∈ ps) (hp0 : p.v ≠ 0) (hne : out p ≠ T) : 1 / 999698 ≤ |out p - T| := by
  obtain ⟨⟨q, hq, hq0, rfl⟩, -⟩ := hT
  have h1 := natAbs_pos hp0
  have h2 := natAbs_pos hq0
  obtain ⟨z, hz⟩ : ∃ z : Int, z = (2 * p.m + 1 - 2 * (p.v.sign * p.a)) * q.v.natAbs -
    (2 * q.m + 1 - 2 * (q.v.sign * q.a)) * p.v.natAbs := ⟨_, rfl⟩
  have key : out p - out q = (z : ℚ) / (2 * p.v.natAbs * q.v.natAbs : ℚ) := by
    unfold out
    rw [div_sign hp0, div_sign hq0, hz]
    generalize p.v.natAbs = V at *
    generalize q.v.natAbs = W at *
    push_cast
    field_simp
  have h4 : z ≠ 0 := by
    intro h0
    rw [h0] at key
    simp at key
    exact hne (by linarith)
  have h5 : (1 : ℚ) ≤ |(z : ℚ)| := by
    exact_mod_cast Int.one_le_abs h4
  have b1 : (p.v.natAbs : ℚ) ≤ 707 := by exact_mod_cast hb p hp
  have b2 : (q.v.natAbs : ℚ) ≤ 707 := by exact_mod_cast hb q hq
  have b3 : (p.v.natAbs : ℚ) * q.v.natAbs ≤ 707 * 707 :=
    mul_le_mul b1 b2 h2.le (by norm_num)
  have h6 : |(2 * p.v.natAbs * q.v.natAbs : ℚ)| = 2 * (p.v.natAbs * q.v.natAbs) := by
    rw [abs_of_pos (by positivity)]; ring
  rw [key, abs_div, h6, le_div_iff₀ (by positivity)]
  linarith

theorem Near.selected (hr : Rounding rnd) {ps : List Leg} (h : Near τ p a) (hp : p ∈ ps) (hs : ∀ p ∈ ps, Small p)
    (hτ : |τ| ≤ 131077) {T : ℚ} (hT : IsMin T ps) {tm : Fl rnd} (htm : |tm.val - (T - τ)| ≤ err) :
    a.selected tm = decide (sel T p) := by
  have hb := (hs p hp).v
  unfold Axis.selected
  by_cases h0 : p.v = 0
  · have h1 : ¬ a.v ≠ 0 := fun h' => (h.active hr hb).1 h' h0
    simp [sel, h0, not_not.1 h1]
  have h1 : a.v ≠ 0 := (h.active hr hb).2 h0
  rw [decide_eq_true h1, Bool.true_and, decide_eq_decide]
  show (fabs (a.t - tm)).val < rnd (1 / rnd ((1000000 : Nat) : ℚ)) ↔ _
  rw [fabs_val, hr.nat (by norm_num)]
  show |rnd (a.t.val - tm.val)| < _ ↔ _
  have ht := h.t hr h0 (hs p hp) hτ
  have hd : |(a.t.val - tm.val) - (out p - T)| ≤ 2 * err := by
    have : (a.t.val - tm.val) - (out p - T) = (a.t.val - (out p - τ)) - (tm.val - (T - τ)) := by ring
    rw [this]
    refine (abs_sub _ _).trans ?_
    linarith
  have hrel := hr.rel (a.t.val - tm.val)
  have he := hr.rel (1 / ((1000000 : Nat) : ℚ))
  have hN : (1 : ℚ) / ((1000000 : Nat) : ℚ) = 1 / 1000000 := by norm_num
  rw [hN] at he ⊢
  set D := a.t.val - tm.val with hD
  set e := rnd (1 / 1000000) with hedef
  rw [abs_of_pos (show (0 : ℚ) < 1 / 1000000 by norm_num), abs_le] at he
  have hsel : sel T p ↔ out p = T := by
    constructor
    · intro h
      by_contra hne
      have := gap_or_eq (fun p hp => (hs p hp).v) hT hp h0 hne
      have h2 := h.2
      unfold eps at h2
      norm_num at this h2
      linarith
    · intro e
      refine ⟨h0, ?_⟩
      rw [e]
      simp [eps]
  rw [hsel]
  unfold err at hd
  constructor
  · intro hlt
    by_contra hne
    have hgap := gap_or_eq (fun p hp => (hs p hp).v) hT hp h0 hne
    have h3 : |out p - T| ≤ |D| + 2 * (1180000 / 2 ^ 53) := by
      have := abs_add_le D (-(D - (out p - T)))
      rw [abs_neg] at this
      have e : D + -(D - (out p - T)) = out p - T := by ring
      rw [e] at this
      linarith
    have h4 : |D| ≤ |rnd D| + |D| / 2 ^ 53 := by
      have := abs_add_le (rnd D) (-(rnd D - D))
      rw [abs_neg] at this
      have e : rnd D + -(rnd D - D) = D := by ring
      rw [e] at this
      linarith
    norm_num at he h3 h4 hgap
    linarith [he.2]
  · intro heq
    rw [heq, sub_self, sub_zero] at hd
    have h4 : |rnd D| ≤ |rnd D - D| + |D| := by
      have := abs_add_le (rnd D - D) D
      rwa [sub_add_cancel] at this
    have h5 : |D| / 2 ^ 53 ≤ |D| := div_le_self (abs_nonneg _) (by norm_num)
    norm_num at he hd
    linarith [he.1]

/-! ### The loop -/

/-- An axis that is selected correctly. -/
def Set (τ T : ℚ) (tm : Fl rnd) (p : Leg) (a : Axis (Fl rnd)) : Prop :=
  Near τ p a ∧ a.selected tm = decide (sel T p) ∧ Small p

theorem Set.inc (hr : Rounding rnd) {T : ℚ} {tm : Fl rnd} (h : Set τ T tm p a) :
    Near τ (Leg.inc T p) (if a.selected tm then a.advance else a) := by
  obtain ⟨h1, h2, h3⟩ := h
  rw [h2]
  unfold Leg.inc
  by_cases hs : sel T p
  · simp only [hs, decide_true, if_true]
    exact h1.advance hr hs.1 h3
  · simp only [hs, decide_false, Bool.false_eq_true, if_false]
    exact h1

theorem row_near {ps : List Leg} {FA : List (Axis (Fl rnd))} (h : List.Forall₂ (Near τ) ps FA) :
    row FA = rowOf ps := by
  induction h with
  | nil => rfl
  | cons h1 _ ih =>
    unfold row rowOf at *
    rw [List.map_cons, List.map_cons, ih, h1.c]

theorem actual_sim (hr : Rounding rnd) {ps : List Leg} {FA : List (Axis (Fl rnd))} {T σ : ℚ} {tm : Fl rnd}
    (h : List.Forall₂ (Set τ T tm) ps FA) :
    (actualRows tm FA).2 = (actualRows (T - σ) (ps.map (ax σ))).2 ∧
      List.Forall₂ (Near τ) (ps.map (inc T)) (actualRows tm FA).1 := by
  have h1 : List.Forall₂ (Near τ) (ps.map (inc T)) (actualRows tm FA).1 := by
    unfold actualRows
    rw [List.forall₂_map_left_iff, List.forall₂_map_right_iff]
    exact h.imp fun _ _ h => h.inc hr
  refine ⟨?_, h1⟩
  show [row (actualRows tm FA).1] = [row ((ps.map (ax σ)).map fun a => if a.selected (T - σ) then a.advance else a)]
  rw [row_near h1, map_inc_ax, row_ax]

theorem full_sim (hr : Rounding rnd) {T σ : ℚ} {tm : Fl rnd} {P : List Leg} {PF : List (Axis (Fl rnd))}
    (h : List.Forall₂ (Set τ T tm) P PF) : ∀ {D : List Leg} {DF : List (Axis (Fl rnd))},
    List.Forall₂ (Near τ) D DF →
    (fullRows tm DF PF).2 = (fullRows (T - σ) (D.map (ax σ)) (P.map (ax σ))).2 ∧
      List.Forall₂ (Near τ) (D ++ P.map (inc T)) (fullRows tm DF PF).1 := by
  induction h with
  | nil => intro D DF hD; simpa [fullRows] using hD
  | @cons p a P PF h1 h2 ih =>
    intro D DF hD
    have hc := h1.inc hr
    obtain ⟨c1, c2, c3⟩ := h1
    have hF : List.Forall₂ (Near τ) P PF := h2.imp fun _ _ h => h.1
    rw [List.map_cons, fullRows, fullRows, ax_selected, c2]
    have hinc := ax_inc σ T p
    rw [ax_selected] at hinc
    rw [c2] at hc
    by_cases hs : sel T p
    · simp only [hs, decide_true, if_true] at hc hinc ⊢
      rw [hinc]
      have := ih (D := D ++ [inc T p]) (DF := DF ++ [a.advance]) (List.rel_append hD (.cons hc .nil))
      rw [List.map_append, List.map_cons, List.map_nil] at this
      refine ⟨?_, ?_⟩
      · rw [this.1]
        congr 1
        have e1 : row (DF ++ a.advance :: PF) = rowOf (D ++ inc T p :: P) :=
          row_near (List.rel_append hD (.cons hc hF))
        rw [e1, ← row_ax σ, List.map_append, List.map_cons]
      · rw [List.map_cons, List.append_cons]
        exact this.2
    · simp only [hs, decide_false, Bool.false_eq_true, if_false] at hc hinc ⊢
      have := ih (D := D ++ [inc T p]) (DF := DF ++ [a]) (List.rel_append hD (.cons hc .nil))
      rw [List.map_append, List.map_cons, List.map_nil, ← hinc] at this
      refine ⟨this.1, ?_⟩
      rw [List.map_cons, List.append_cons]
      exact this.2

/-! ### Beyond the end -/

section

variable {K : Type} [Zero K] [One K] [Add K] [Sub K] [Neg K] [Mul K] [Div K] [NatCast K] [IntCast K] [DecidableEq K]
  [LT K] [DecidableLT K]

/-- The axis is beyond its end. -/
def Beyond (a : Axis K) : Prop := 0 < (a.xb - a.xa).sign * (a.c - a.xb)

/-- All axes move or stay. -/
def Steps (rows : K → List (Axis K) → List (Axis K) × List (List Int)) : Prop :=
  ∀ (tm : K) (axes : List (Axis K)), (rows tm axes).1 = axes.map fun a => if a.selected tm then a.advance else a

theorem actual_steps : Steps (K := K) actualRows := fun _ _ => rfl

theorem fullRows_steps (tm : K) : ∀ (P D : List (Axis K)), (fullRows tm D P).1 =
    D ++ P.map fun a => if a.selected tm then a.advance else a
  | [], D => by simp [fullRows]
  | a :: P, D => by
    rw [fullRows]
    split
    · rename_i h
      simp only
      rw [fullRows_steps tm P]
      simp [h]
    · rename_i h
      rw [fullRows_steps tm P]
      simp [h]

theorem full_steps : Steps (K := K) fun tm => fullRows tm [] := fun tm axes => by
  simpa using fullRows_steps tm axes []

theorem Beyond.advance {a : Axis K} (h : Beyond a) : Beyond a.advance := by
  unfold Beyond at *
  show 0 < (a.xb - a.xa).sign * (a.c + (a.xb - a.xa).sign - a.xb)
  rcases lt_trichotomy (a.xb - a.xa) 0 with h1 | h1 | h1
  · rw [Int.sign_eq_neg_one_of_neg h1] at *; omega
  · rw [h1] at h; simp at h
  · rw [Int.sign_eq_one_of_pos h1] at *; omega

/-- A loop in which one axis is beyond its end does not end. -/
theorem lineLoop_beyond {rows : K → List (Axis K) → List (Axis K) × List (List Int)} (hr : Steps rows) (junk : K) :
    ∀ (fuel : Nat) (axes : List (Axis K)) (ret : List (List Int)), (∃ a ∈ axes, Beyond a) →
      lineLoop rows junk fuel axes ret = diverge
  | 0, _, _, _ => rfl
  | fuel + 1, axes, ret, ⟨a, ha, hb⟩ => by
    unfold lineLoop
    have hex : ∃ b ∈ (rows (tmin junk axes) axes).1.map fun a => a.place (tmin junk axes), Beyond b := by
      rw [hr, List.map_map]
      refine ⟨_, List.mem_map_of_mem ha, ?_⟩
      simp only [Function.comp]
      split
      · exact hb.advance
      · exact hb
    simp only
    rw [if_neg]
    · exact lineLoop_beyond hr junk fuel _ _ hex
    · intro hall
      obtain ⟨b, hb, hbb⟩ := hex
      have := List.all_eq_true.1 hall b hb
      rw [beq_iff_eq] at this
      unfold Beyond at hbb
      rw [this] at hbb
      simp at hbb

end

theorem beyond_ax {σ : ℚ} (h : p.v.natAbs < p.m) (h0 : p.v ≠ 0) : Beyond (ax σ p) := by
  unfold Beyond ax
  simp only
  have e : p.a + p.v - p.a = p.v := by ring
  rw [e]
  rcases lt_or_gt_of_ne h0 with h1 | h1
  · rw [Int.sign_eq_neg_one_of_neg h1]; omega
  · rw [Int.sign_eq_one_of_pos h1]; omega

theorem Near.beyond (hn : Near τ p a) (h : p.v.natAbs < p.m) (h0 : p.v ≠ 0) : Beyond a := by
  have := beyond_ax (σ := 0) h h0
  unfold Beyond ax at *
  rw [hn.xa, hn.xb, hn.c]
  exact this

/-! ### The simulation -/

theorem Small.inc (hs : Small p) {T : ℚ} (h : sel T p → p.m < p.v.natAbs) : Small (inc T p) where
  v := by rw [inc_v]; exact hs.v
  a := by rw [inc_a]; exact hs.a
  m := by
    rw [inc_v]
    unfold Leg.inc
    split
    · next h' => have := h h'; simp only [Leg.next]; omega
    · exact hs.m

/-- The loops in rounded and exact arithmetic give the same outcome. -/
theorem lineLoop_sim (hr : Rounding rnd)
    {rowsF : Fl rnd → List (Axis (Fl rnd)) → List (Axis (Fl rnd)) × List (List Int)}
    {rows : ℚ → List (Axis ℚ) → List (Axis ℚ) × List (List Int)}
    (hrows : ∀ (ps : List Leg) (FA : List (Axis (Fl rnd))) (τ σ T : ℚ) (tm : Fl rnd),
      List.Forall₂ (Set τ T tm) ps FA → (rowsF tm FA).2 = (rows (T - σ) (ps.map (ax σ))).2 ∧
        List.Forall₂ (Near τ) (ps.map (inc T)) (rowsF tm FA).1)
    (hm : Moves rows) (hmF : Steps rowsF) (junk : Fl rnd) (junk' : ℚ) :
    ∀ (fuel : Nat) (ps : List Leg) (FA : List (Axis (Fl rnd))) (τ σ δ C : ℚ) (ret : List (List Int)),
      List.Forall₂ (Near τ) ps FA → (∀ p ∈ ps, Small p) → left ps ≠ 0 → 0 ≤ δ → δ + left ps * err ≤ 1 →
      C ≤ 0 → -65538 ≤ C → C - δ ≤ τ → (∀ p ∈ ps, p.v ≠ 0 → τ ≤ out p - C + δ) →
      lineLoop rowsF junk fuel FA ret = lineLoop rows junk' fuel (ps.map (ax σ)) ret := by
  intro fuel
  induction fuel with
  | zero => intros; rfl
  | succ fuel ih =>
    intro ps FA τ σ δ C ret hF hs hl hδ hδ1 hC0 hC1 hτ0 hτ1
    obtain ⟨q, hq, hlt⟩ := left_pos_iff.1 hl
    have hq0 : q.v ≠ 0 := by intro e; rw [e] at hlt; simp at hlt
    obtain ⟨T, hmin, hstep⟩ := lineLoop_step hm junk' fuel (τ := σ) ⟨q, hq, hq0⟩ ret
    have herr : 0 ≤ err := by unfold err; norm_num
    have hTb : |T| ≤ 65538 := by
      obtain ⟨⟨p, hp, hp0, rfl⟩, -⟩ := hmin
      exact (hs p hp).out hp0
    have hδ4 : δ ≤ 1 := by
      have : (0 : ℚ) ≤ left ps * err := mul_nonneg (Nat.cast_nonneg _) herr
      linarith
    have hτT : τ ≤ T - C + δ := by
      obtain ⟨⟨p, hp, hp0, rfl⟩, -⟩ := hmin
      exact hτ1 p hp hp0
    rw [abs_le] at hTb
    have hτ2 : |τ| ≤ 131077 := by rw [abs_le]; constructor <;> linarith [hTb.1, hTb.2]
    have htm := tmin_near hr hF hs hτ2 hmin junk
    set tm := tmin junk FA with htmdef
    have hset : List.Forall₂ (Set τ T tm) ps FA := by
      have : ∀ (ps' : List Leg) (FA' : List (Axis (Fl rnd))), List.Forall₂ (Near τ) ps' FA' →
          (∀ p ∈ ps', p ∈ ps) → List.Forall₂ (Set τ T tm) ps' FA' := by
        intro ps' FA' h
        induction h with
        | nil => intro _; exact .nil
        | @cons p a _ _ h1 _ ih =>
          intro hsub
          have hp := hsub p (by simp)
          exact .cons ⟨h1, h1.selected hr hp hs hτ2 hmin htm, hs p hp⟩ (ih fun p hp => hsub p (by simp [hp]))
      exact this ps FA hF fun _ h => h
    obtain ⟨e1, e2⟩ := hrows ps FA τ σ T tm hset
    have hF' : List.Forall₂ (Near tm.val) (ps.map (inc T)) ((rowsF tm FA).1.map fun a => a.place tm) := by
      rw [List.forall₂_map_right_iff]
      have : ∀ (ps' : List Leg) (FA' : List (Axis (Fl rnd))), List.Forall₂ (Near τ) ps' FA' →
          (∀ p ∈ ps', p.v.natAbs ≤ 707 ∧ p.a.natAbs ≤ 65536) →
          List.Forall₂ (fun p a => Near tm.val p (a.place tm)) ps' FA' := by
        intro ps' FA' h
        induction h with
        | nil => intro _; exact .nil
        | @cons p a _ _ h1 _ ih =>
          intro hb
          have := hb p (by simp)
          exact .cons (h1.place hr this.1 this.2 tm) (ih fun p hp => hb p (by simp [hp]))
      refine this _ _ e2 ?_
      intro p hp
      obtain ⟨q, hq, rfl⟩ := List.mem_map.1 hp
      rw [inc_v, inc_a]
      exact ⟨(hs q hq).v, (hs q hq).a⟩
    have hdone : (((rowsF tm FA).1.map fun a => a.place tm).all fun a => a.c == a.xb) =
        ((ps.map (inc T)).all fun p => decide (p.v.sign * (p.m : Int) = p.v)) := by
      have : ∀ (ps' : List Leg) (FA' : List (Axis (Fl rnd))), List.Forall₂ (Near tm.val) ps' FA' →
          (FA'.all fun a => a.c == a.xb) = (ps'.all fun p => decide (p.v.sign * (p.m : Int) = p.v)) := by
        intro ps' FA' h
        induction h with
        | nil => rfl
        | @cons p a _ _ h1 _ ih =>
          rw [List.all_cons, List.all_cons, ih, h1.c, h1.xb, beq_eq_decide]
          congr 1
          rw [Bool.eq_iff_iff, decide_eq_true_eq, decide_eq_true_eq]
          omega
      exact this _ _ hF'
    rw [hstep, lineLoop]
    simp only [← htmdef, hdone, ← e1]
    by_cases hd : ((ps.map (inc T)).all fun p => decide (p.v.sign * (p.m : Int) = p.v)) = true
    · rw [if_pos hd, if_pos hd]
    rw [if_neg hd, if_neg hd]
    by_cases hall : ∀ p ∈ ps, sel T p → p.m < p.v.natAbs
    · have hs' : ∀ p ∈ ps.map (inc T), Small p := by
        intro p hp
        obtain ⟨q, hq, rfl⟩ := List.mem_map.1 hp
        exact (hs q hq).inc (hall q hq)
      have hl' : left (ps.map (inc T)) ≠ 0 := by
        intro h0
        apply hd
        rw [List.all_eq_true]
        intro p hp
        rw [decide_eq_true_eq]
        have h1 : ¬ p.m < p.v.natAbs := fun h => (left_pos_iff.2 ⟨p, hp, h⟩) h0
        have h2 := (hs' p hp).m
        have h3 : p.m = p.v.natAbs := by omega
        rw [h3, Int.sign_mul_natAbs]
      have hdec := left_inc T (ps := ps) hall
      have hpos := nsel_pos hmin
      rw [abs_le] at htm
      refine ih _ _ tm.val (T - σ) (δ + err) C _ hF' hs' hl' (by linarith) ?_ hC0 hC1 (by linarith [htm.1]) ?_
      · have h1 : (left (ps.map (inc T)) : ℚ) + 1 ≤ left ps := by exact_mod_cast (by omega)
        have h2 := mul_le_mul_of_nonneg_right h1 herr
        linarith
      · intro p' hp' hp0
        obtain ⟨p, hp, rfl⟩ := List.mem_map.1 hp'
        rw [inc_v] at hp0
        have h1 := hmin.2 p hp hp0
        have h2 : out p ≤ out (inc T p) := by
          unfold Leg.inc
          split
          · exact out_mono (a := p.a) (v := p.v) (Nat.le_succ p.m)
          · exact le_refl _
        linarith [htm.2]
    · push Not at hall
      obtain ⟨p, hp, hsp, hge⟩ := hall
      have hp' : inc T p ∈ ps.map (inc T) := List.mem_map_of_mem hp
      have hb : (inc T p).v.natAbs < (inc T p).m := by
        unfold Leg.inc
        rw [if_pos hsp]
        simp only [Leg.next]
        omega
      have hb0 : (inc T p).v ≠ 0 := by rw [inc_v]; exact hsp.1
      have hm' : Steps rows := hm
      rw [lineLoop_beyond hmF, lineLoop_beyond hm']
      · exact ⟨_, List.mem_map_of_mem hp', beyond_ax hb hb0⟩
      · obtain ⟨a, ha, hn⟩ := forall₂_mem_left hF' hp'
        exact ⟨a, ha, hn.beyond hb hb0⟩

theorem initial_near (hr : Rounding rnd) : ∀ (x0 v : List Int), x0.length = v.length →
    (∀ a ∈ x0, a.natAbs ≤ 65536) → (∀ d ∈ v, d.natAbs ≤ 707) →
    List.Forall₂ (Near (rnd := rnd) 0) (initial x0 v) (List.zipWith (axis (Fl rnd)) x0 (addPt v x0))
  | [], [], _, _, _ => .nil
  | a :: x0, d :: v, h, ha, hd => by
    have ih := initial_near hr x0 v (by simpa using h) (fun a h => ha a (by simp [h])) fun d h => hd d (by simp [h])
    have e : addPt (d :: v) (a :: x0) = (a + d) :: addPt v x0 := by
      show (d + a) :: _ = _
      rw [add_comm d a]
      rfl
    rw [e, List.zipWith_cons_cons]
    exact .cons (axis_near hr (hd d (by simp)) (ha a (by simp))) ih

theorem line_sim (hr : Rounding rnd)
    {rowsF : Fl rnd → List (Axis (Fl rnd)) → List (Axis (Fl rnd)) × List (List Int)}
    {rows : ℚ → List (Axis ℚ) → List (Axis ℚ) × List (List Int)}
    (hrows : ∀ (ps : List Leg) (FA : List (Axis (Fl rnd))) (τ σ T : ℚ) (tm : Fl rnd),
      List.Forall₂ (Set τ T tm) ps FA → (rowsF tm FA).2 = (rows (T - σ) (ps.map (ax σ))).2 ∧
        List.Forall₂ (Near τ) (ps.map (inc T)) (rowsF tm FA).1)
    (hm : Moves rows) (hmF : Steps rowsF) (junk : Fl rnd) (junk' : ℚ) (fuel : Nat) {x0 v : List Int}
    (h3 : x0.length ≤ 3) (hl : x0.length = v.length) (ha : ∀ a ∈ x0, a.natAbs ≤ 65536)
    (hd : ∀ d ∈ v, d.natAbs ≤ 707) (h0 : ∃ d ∈ v, d ≠ 0) :
    line rowsF junk fuel x0 (addPt v x0) = line rows junk' fuel x0 (addPt v x0) := by
  have hF := initial_near hr x0 v hl ha hd
  have hadd : (addPt v x0).length = x0.length := by simp [addPt, hl]
  unfold line
  rw [if_neg (by omega), if_neg (by omega)]
  have hmem : ∀ {p : Leg}, p ∈ initial x0 v → p.a ∈ x0 ∧ p.v ∈ v ∧ p.m = 0 := by
    intro p hp
    obtain ⟨i, hi, rfl⟩ := (mem_initial hl).1 hp
    refine ⟨?_, ?_, rfl⟩
    · have : x0.getD i 0 = x0[i]'(by omega) := by simp [List.getD, hl ▸ hi]
      simp only [this]
      exact List.getElem_mem _
    · have : v.getD i 0 = v[i] := by simp [List.getD, hi]
      simp only [this]
      exact List.getElem_mem _
  have hs : ∀ p ∈ initial x0 v, Small p := fun p hp => by
    obtain ⟨h1, h2, h4⟩ := hmem hp
    exact ⟨hd _ h2, ha _ h1, by omega⟩
  have hl0 : left (initial x0 v) ≠ 0 := by
    obtain ⟨d, hd', hne⟩ := h0
    obtain ⟨i, hi, rfl⟩ := List.mem_iff_getElem.1 hd'
    refine left_pos_iff.2 ⟨⟨x0.getD i 0, v.getD i 0, 0⟩, (mem_initial hl).2 ⟨i, hi, rfl⟩, ?_⟩
    have : v.getD i 0 = v[i] := by simp [List.getD, hi]
    simp only [this]
    exact Int.natAbs_pos.2 hne
  have hle : left (initial x0 v) ≤ 707 * 3 := by
    unfold left
    refine (List.sum_le_card_nsmul _ 707 ?_).trans ?_
    · intro x hx
      obtain ⟨p, hp, rfl⟩ := List.mem_map.1 hx
      have := (hs p hp).v
      omega
    · simp [initial]
      omega
  simp only [initial_axes x0 v hl, row_ax, row_near hF]
  -- the lowest parameter at the start
  obtain ⟨p, hp, hlt⟩ := left_pos_iff.1 hl0
  have hp0 : p.v ≠ 0 := by intro e; rw [e] at hlt; simp at hlt
  obtain ⟨T, -, hmin⟩ := tmin_ax (junk := junk') (τ := 0) ⟨p, hp, hp0⟩
  have hTb : |T| ≤ 65538 := by
    obtain ⟨⟨p, hp, hp0, rfl⟩, -⟩ := hmin
    exact (hs p hp).out hp0
  rw [abs_le] at hTb
  refine lineLoop_sim hr hrows hm hmF junk junk' fuel _ _ 0 0 0 (min 0 T) _ hF hs hl0 (le_refl _) ?_
    (min_le_left _ _) (le_min (by norm_num) hTb.1) ?_ ?_
  · have h1 : (left (initial x0 v) : ℚ) ≤ 2121 := by exact_mod_cast hle
    have h2 : (0 : ℚ) ≤ err := by unfold err; norm_num
    have h3 := mul_le_mul_of_nonneg_right h1 h2
    have h4 : 2121 * err ≤ 1 := by unfold err; norm_num
    linarith
  · have := min_le_left 0 T
    linarith
  · intro q hq hq0
    have h1 := hmin.2 q hq hq0
    have h2 := min_le_right 0 T
    linarith

/-- Rounding does not change a path. -/
theorem path_sim (hr : Rounding rnd) (junk : Fl rnd) (junk' : ℚ) (fuel : Nat) {x0 v : List Int}
    (h3 : x0.length ≤ 3) (hl : x0.length = v.length) (ha : ∀ a ∈ x0, a.natAbs ≤ 65536)
    (hd : ∀ d ∈ v, d.natAbs ≤ 707) (mode : Mode) :
    path junk fuel x0 (addPt v x0) mode = path junk' fuel x0 (addPt v x0) mode := by
  by_cases h0 : ∃ d ∈ v, d ≠ 0
  · cases mode with
    | bresenham => rfl
    | actual =>
      exact line_sim hr (fun ps FA τ σ T tm h => actual_sim hr h) actual_moves actual_steps junk junk' fuel h3 hl ha
        hd h0
    | full =>
      refine line_sim hr (rowsF := fun tm => fullRows tm []) (rows := fun tm => fullRows tm []) ?_ full_moves
        full_steps junk junk' fuel h3 hl ha hd h0
      intro ps FA τ σ T tm h
      exact full_sim hr h .nil
  · have e : addPt v x0 = x0 := by
      clear h3 ha hd
      induction v generalizing x0 with
      | nil =>
        have : x0 = [] := List.length_eq_zero_iff.1 hl
        subst this
        rfl
      | cons d v ih =>
        match x0, hl with
        | a :: x0, hl =>
          show (d + a) :: addPt v x0 = _
          rw [ih (by simpa using hl) fun ⟨d, hd, h⟩ => h0 ⟨d, by simp [hd], h⟩]
          have : d = 0 := by
            by_contra h
            exact h0 ⟨d, by simp, h⟩
          rw [this, zero_add]
    rw [e]
    have hz : ((0 : Int) : Fl rnd) = 0 := by
      ext
      show rnd ((0 : Int) : ℚ) = 0
      rw [Int.cast_zero, hr.zero]
    cases fuel with
    | zero =>
      cases mode with
      | bresenham => rfl
      | actual => show line _ _ _ _ _ = line _ _ _ _ _; unfold line; rw [if_neg (by omega), if_neg (by omega)]; rfl
      | full => show line _ _ _ _ _ = line _ _ _ _ _; unfold line; rw [if_neg (by omega), if_neg (by omega)]; rfl
    | succ fuel =>
      cases mode with
      | bresenham => rfl
      | actual => rw [single_actual hz junk fuel h3, single_actual Int.cast_zero junk' fuel h3]
      | full => rw [single_full hz junk fuel h3, single_full Int.cast_zero junk' fuel h3]

end Leg

end Verif.Path
