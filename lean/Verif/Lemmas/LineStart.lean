import Verif.Lemmas.LineRows
import Mathlib.Order.CountableDenseLinearOrder
import Mathlib.Tactic.LinearCombination
import Mathlib.Tactic.Ring
import Mathlib.Tactic.Linarith
import Mathlib.Tactic.FieldSimp
import Mathlib.Tactic.Positivity

/-!
# The loop of `actual` and `full`, from any start

The state is described by a list of legs: the start, the displacement, and the number of steps made along
each axis.
-/

namespace Verif.Path

open Verif Outcome Spec

/-- Start `a`, displacement `v`, number of steps `m` along one axis. -/
structure Leg where
  a : Int
  v : Int
  m : Nat

namespace Leg

/-- The axis of the model; `τ` is the parameter of the position. -/
def ax (τ : ℚ) (p : Leg) : Axis ℚ :=
  ⟨p.a, p.a + p.v, p.a + p.v.sign * p.m, p.v.sign * ((p.m : ℚ) + 1 / 2), p.a + p.v * τ⟩

/-- Parameter of the next step. -/
def out (p : Leg) : ℚ := ((p.m : ℚ) + 1 / 2) / p.v.natAbs - p.a / p.v

/-- The row. -/
def rowOf (ps : List Leg) : List Int := ps.map fun p => p.a + p.v.sign * p.m

/-- The axis is selected when the lowest parameter is `T`. -/
def sel (T : ℚ) (p : Leg) : Prop := p.v ≠ 0 ∧ |out p - T| < eps

instance (T : ℚ) (p : Leg) : Decidable (sel T p) := inferInstanceAs (Decidable (_ ∧ _))

/-- One more step. -/
def next (p : Leg) : Leg := { p with m := p.m + 1 }

/-- The update of the axis. -/
def inc (T : ℚ) (p : Leg) : Leg := if sel T p then p.next else p

/-- The leg without its number of steps. -/
def ends (p : Leg) : Int × Int := (p.a, p.v)

theorem ax_v (τ : ℚ) (p : Leg) : (ax τ p).v = (p.v : ℚ) := by
  simp [ax, Axis.v]

theorem ax_t {τ : ℚ} {p : Leg} (h : p.v ≠ 0) : (ax τ p).t = out p - τ := by
  unfold Axis.t
  rw [ax_v]
  unfold ax out
  simp only
  have hv : (p.v : ℚ) ≠ 0 := by exact_mod_cast h
  have hn := natAbs_pos h
  have e := sign_mul_natAbs p.v
  have e2 := sign_sq h
  have e3 : ((p.m : ℚ) + 1 / 2) / p.v.natAbs = p.v.sign * ((p.m : ℚ) + 1 / 2) / p.v := by
    rw [div_eq_div_iff hn.ne' hv, ← e]
    ring
  rw [e3]
  field_simp
  ring

theorem ax_sign (τ : ℚ) (p : Leg) : (ax τ p).sign = ((p.v.sign : Int) : ℚ) := by
  have := mk_sign 0 (p.v, 0)
  unfold Axis.sign at this ⊢
  rw [ax_v]
  rw [mk_v] at this
  exact this

theorem ax_selected (τ T : ℚ) (p : Leg) : (ax τ p).selected (T - τ) = decide (sel T p) := by
  unfold Axis.selected sel
  rw [ax_v]
  by_cases h : p.v = 0
  · simp [h]
  · have hv : (p.v : ℚ) ≠ 0 := by exact_mod_cast h
    rw [ax_t h]
    have : out p - τ - (T - τ) = out p - T := by ring
    rw [this]
    simp [h, hv, eps]

theorem ax_advance (τ : ℚ) (p : Leg) : (ax τ p).advance = ax τ p.next := by
  have hs := ax_sign τ p
  unfold Axis.advance
  rw [hs]
  unfold ax next
  simp only [Axis.mk.injEq, true_and, and_true]
  constructor
  · push_cast
    have : p.a + p.v - p.a = p.v := by ring
    rw [this]; ring
  · push_cast; ring

theorem ax_place (τ tm : ℚ) (p : Leg) : (ax τ p).place tm = ax tm p := by
  unfold Axis.place
  rw [ax_v]
  simp [ax]

theorem ax_inc (τ T : ℚ) (p : Leg) :
    (if (ax τ p).selected (T - τ) then (ax τ p).advance else ax τ p) = ax τ (inc T p) := by
  rw [ax_selected, ax_advance]
  unfold inc
  by_cases h : sel T p <;> simp [h]

theorem row_ax (τ : ℚ) (ps : List Leg) : row (ps.map (ax τ)) = rowOf ps := by
  simp [row, rowOf, ax, List.map_map, Function.comp_def]

theorem axis_eq (a v : Int) : axis ℚ a (a + v) = ax 0 ⟨a, v, 0⟩ := by
  have hs : (⟨a, a + v, a, 0, (a : ℚ)⟩ : Axis ℚ).sign = ((v.sign : Int) : ℚ) := by
    have := ax_sign 0 ⟨a, v, 0⟩
    unfold Axis.sign Axis.v at this ⊢
    exact this
  unfold axis
  simp only
  rw [hs]
  simp [ax]

theorem ends_inc (T : ℚ) (p : Leg) : (inc T p).ends = p.ends := by
  unfold inc; split <;> rfl

theorem inc_v (T : ℚ) (p : Leg) : (inc T p).v = p.v := by
  unfold inc; split <;> rfl

theorem inc_a (T : ℚ) (p : Leg) : (inc T p).a = p.a := by
  unfold inc; split <;> rfl

theorem map_ends_inc (T : ℚ) (ps : List Leg) : (ps.map (inc T)).map ends = ps.map ends := by
  rw [List.map_map]
  apply List.map_congr_left
  intro p _
  exact ends_inc T p

theorem map_inc_ax (τ T : ℚ) (ps : List Leg) :
    ((ps.map (ax τ)).map fun a => if a.selected (T - τ) then a.advance else a) =
      (ps.map (inc T)).map (ax τ) := by
  rw [List.map_map, List.map_map]
  apply List.map_congr_left
  intro p _
  exact ax_inc τ T p

theorem map_place (τ tm : ℚ) (ps : List Leg) :
    ((ps.map (ax τ)).map fun a => a.place tm) = ps.map (ax tm) := by
  rw [List.map_map]
  apply List.map_congr_left
  intro p _
  exact ax_place τ tm p

/-- `T` is the lowest parameter of the active axes. -/
def IsMin (T : ℚ) (ps : List Leg) : Prop :=
  (∃ p ∈ ps, p.v ≠ 0 ∧ out p = T) ∧ ∀ p ∈ ps, p.v ≠ 0 → T ≤ out p

theorem tmin_ax {junk τ : ℚ} {ps : List Leg} (h : ∃ p ∈ ps, p.v ≠ 0) :
    ∃ T, tmin junk (ps.map (ax τ)) = T - τ ∧ IsMin T ps := by
  have hf : ((ps.map (ax τ)).filter fun a => a.v ≠ 0).map Axis.t =
      (ps.filter fun p => p.v ≠ 0).map fun p => out p - τ := by
    rw [List.filter_map, List.map_map]
    have : ((fun a : Axis ℚ => decide (a.v ≠ 0)) ∘ ax τ) = fun p : Leg => decide (p.v ≠ 0) := by
      funext p
      simp [Function.comp, ax_v]
    rw [this]
    apply List.map_congr_left
    intro p hp
    have := (List.mem_filter.1 hp).2
    exact ax_t (by simpa using this)
  unfold tmin
  rw [hf]
  obtain ⟨p, hp, hv⟩ := h
  have hmem : ∀ t, t ∈ (ps.filter fun p => p.v ≠ 0).map (fun p => out p - τ) ↔
      ∃ q ∈ ps, q.v ≠ 0 ∧ out q - τ = t := by
    intro t
    simp [List.mem_map, List.mem_filter, and_assoc]
  match hl : (ps.filter fun p => p.v ≠ 0).map fun p => out p - τ with
  | [] =>
    have := (hmem (out p - τ)).2 ⟨p, hp, hv, rfl⟩
    rw [hl] at this
    simp at this
  | t :: ts =>
    simp only
    obtain ⟨h1, h2⟩ := foldl_min ts t
    rw [← hl, hmem] at h1
    obtain ⟨q, hq, hq0, hqt⟩ := h1
    refine ⟨out q, hqt.symm, ⟨q, hq, hq0, rfl⟩, fun u hu hu0 => ?_⟩
    have := h2 (out u - τ) (by rw [← hl, hmem]; exact ⟨u, hu, hu0, rfl⟩)
    rw [← hqt] at this
    linarith

/-- Both modes move all selected axes. -/
def Moves (rows : ℚ → List (Axis ℚ) → List (Axis ℚ) × List (List Int)) : Prop :=
  ∀ (tm : ℚ) (axes : List (Axis ℚ)), (rows tm axes).1 =
    axes.map fun a => if a.selected tm then a.advance else a

theorem actual_moves : Moves actualRows := fun _ _ => rfl

theorem fullRows_fst (tm : ℚ) : ∀ (P D : List (Axis ℚ)), (fullRows tm D P).1 =
    D ++ P.map fun a => if a.selected tm then a.advance else a
  | [], D => by simp [fullRows]
  | a :: P, D => by
    rw [fullRows]
    split
    · rename_i h
      simp only
      rw [fullRows_fst tm P]
      simp [h]
    · rename_i h
      rw [fullRows_fst tm P]
      simp [h]

theorem full_moves : Moves fun tm => fullRows tm [] := fun tm axes => by
  simpa using fullRows_fst tm axes []

/-- One iteration. -/
theorem lineLoop_step {rows : ℚ → List (Axis ℚ) → List (Axis ℚ) × List (List Int)} (hr : Moves rows) (junk : ℚ)
    (fuel : Nat) {ps : List Leg} {τ : ℚ} (h : ∃ p ∈ ps, p.v ≠ 0) (ret : List (List Int)) :
    ∃ T, IsMin T ps ∧ lineLoop rows junk (fuel + 1) (ps.map (ax τ)) ret =
      if ((ps.map (inc T)).all fun p => decide (p.v.sign * (p.m : Int) = p.v)) then
        ok (ret ++ (rows (T - τ) (ps.map (ax τ))).2)
      else lineLoop rows junk fuel ((ps.map (inc T)).map (ax (T - τ)))
        (ret ++ (rows (T - τ) (ps.map (ax τ))).2) := by
  obtain ⟨T, hT, hmin⟩ := tmin_ax (junk := junk) (τ := τ) h
  refine ⟨T, hmin, ?_⟩
  conv_lhs => unfold lineLoop
  simp only [hT, hr (T - τ) (ps.map (ax τ)), map_inc_ax, map_place]
  have e : (((ps.map (inc T)).map (ax (T - τ))).all fun a => a.c == a.xb) =
      (ps.map (inc T)).all fun p => decide (p.v.sign * (p.m : Int) = p.v) := by
    rw [List.all_map]
    congr 1
    funext p
    simp only [Function.comp, ax, beq_eq_decide]
    rw [Bool.eq_iff_iff, decide_eq_true_eq, decide_eq_true_eq]
    omega
  rw [e]

/-! ### parameters -/

/-- Parameter of the last step. -/
def arrive (p : Leg) : ℚ := out { p with m := p.v.natAbs - 1 }

/-- Parameter of the step beyond the end. -/
def pass (p : Leg) : ℚ := out { p with m := p.v.natAbs }

theorem out_next {p : Leg} (h0 : p.v ≠ 0) : out p.next = out p + 1 / p.v.natAbs := by
  unfold out next
  have := natAbs_pos h0
  simp only
  push_cast
  rw [add_right_comm, add_div]
  ring

theorem out_mono {a v : Int} {m m' : Nat} (h : m ≤ m') : out ⟨a, v, m⟩ ≤ out ⟨a, v, m'⟩ := by
  have := leave_mono (v := v) h
  unfold leave at this
  unfold out
  simp only at this ⊢
  linarith

theorem out_le_arrive {p : Leg} (h : p.m < p.v.natAbs) : out p ≤ arrive p :=
  out_mono (a := p.a) (v := p.v) (m := p.m) (by omega)

theorem out_le_pass {p : Leg} (h : p.m ≤ p.v.natAbs) : out p ≤ pass p :=
  out_mono (a := p.a) (v := p.v) (m := p.m) h

theorem arrive_inc (T : ℚ) (p : Leg) : arrive (inc T p) = arrive p := by
  unfold arrive; simp only [inc_v, inc_a]

theorem pass_inc (T : ℚ) (p : Leg) : pass (inc T p) = pass p := by
  unfold pass; simp only [inc_v, inc_a]

theorem done_iff {p : Leg} (h0 : p.v ≠ 0) : p.v.sign * (p.m : Int) = p.v ↔ p.m = p.v.natAbs := by
  have h := Int.sign_mul_natAbs p.v
  constructor
  · intro h1
    have h2 : p.v.sign ≠ 0 := by
      intro e
      rw [Int.sign_eq_zero_iff_zero] at e
      exact h0 e
    have h3 : p.v.sign * (p.m : Int) = p.v.sign * (p.v.natAbs : Int) := by rw [h1, h]
    have := Int.eq_of_mul_eq_mul_left h2 h3
    omega
  · intro h1
    rw [h1, h]

/-! ### no end -/

/-- If one axis is to pass its end no later than another one arrives, then the loop does not end. -/
theorem lineLoop_endless {rows : ℚ → List (Axis ℚ) → List (Axis ℚ) × List (List Int)} (hr : Moves rows)
    (junk : ℚ) : ∀ (fuel : Nat) (ps : List Leg) (τ : ℚ) (ret : List (List Int)) (i j : Nat) (hi : i < ps.length)
      (hj : j < ps.length), (∀ p ∈ ps, p.v.natAbs ≤ 1000000) → ps[i].v ≠ 0 → ps[j].v ≠ 0 →
      pass ps[i] ≤ arrive ps[j] → (ps[j].m < ps[j].v.natAbs ∨ ps[i].v.natAbs < ps[i].m) →
      lineLoop rows junk fuel (ps.map (ax τ)) ret = diverge
  | 0, _, _, _, _, _, _, _, _, _, _, _, _ => rfl
  | fuel + 1, ps, τ, ret, i, j, hi, hj, hb, hi0, hj0, hle, hinv => by
    obtain ⟨T, hT, e⟩ := lineLoop_step hr junk fuel (τ := τ) ⟨ps[i], List.getElem_mem hi, hi0⟩ ret
    rw [e]
    have gi : (ps.map (inc T))[i]'(by simpa using hi) = inc T ps[i] := by simp
    have gj : (ps.map (inc T))[j]'(by simpa using hj) = inc T ps[j] := by simp
    have hinv' : (inc T ps[j]).m < (inc T ps[j]).v.natAbs ∨ (inc T ps[i]).v.natAbs < (inc T ps[i]).m := by
      have hpi := List.getElem_mem hi
      have hpj := List.getElem_mem hj
      generalize ps[i] = p at *
      generalize ps[j] = q at *
      rw [inc_v, inc_v]
      by_cases hp : p.v.natAbs < p.m
      · right
        unfold inc
        split
        · simp only [next]; omega
        · exact hp
      · have hq : q.m < q.v.natAbs := hinv.resolve_right hp
        by_cases hs : sel T q
        · by_cases hlast : q.m + 1 < q.v.natAbs
          · left
            unfold inc
            rw [if_pos hs]
            exact hlast
          · right
            have ea : arrive q = out q := by
              unfold arrive
              congr 1
              cases q
              simp only [mk.injEq, true_and]
              simp only at hq hlast
              omega
            have h1 := (abs_lt.1 hs.2).2
            have h2 := hT.2 p hpi hi0
            have h3 := out_le_pass (p := p) (by omega)
            have hsp : sel T p := ⟨hi0, by rw [abs_lt]; constructor <;> linarith⟩
            have h4 := inv_le (le_refl 1000000) hi0 (hb p hpi)
            have h5 := out_next hi0
            unfold inc
            rw [if_pos hsp]
            simp only [next]
            by_contra hn
            have h6 := out_le_pass (p := p.next) (by simp only [next]; omega)
            have h7 : pass p.next = pass p := rfl
            rw [h5, h7] at h6
            linarith
        · left
          unfold inc
          rw [if_neg hs]
          exact hq
    rw [if_neg]
    · apply lineLoop_endless hr junk fuel (ps.map (inc T)) (T - τ) _ i j (by simpa using hi) (by simpa using hj)
      · intro p hp
        obtain ⟨q, hq, rfl⟩ := List.mem_map.1 hp
        rw [inc_v]
        exact hb q hq
      · rw [gi, inc_v]; exact hi0
      · rw [gj, inc_v]; exact hj0
      · rw [gi, gj, pass_inc, arrive_inc]; exact hle
      · rw [gi, gj]; exact hinv'
    · intro hall
      rw [List.all_eq_true] at hall
      have h1 := hall (inc T ps[i]) (by rw [← gi]; exact List.getElem_mem _)
      have h2 := hall (inc T ps[j]) (by rw [← gj]; exact List.getElem_mem _)
      rw [decide_eq_true_eq, done_iff (by rw [inc_v]; assumption)] at h1 h2
      omega

/-! ### the end is reached -/

/-- Number of steps still to make. -/
def left (ps : List Leg) : Nat := (ps.map fun p => p.v.natAbs - p.m).sum

/-- Invariant: at most `|v|` steps, and every axis passes its end later than all axes have arrived, by more
than the tolerance. -/
structure Good (ps : List Leg) : Prop where
  le : ∀ p ∈ ps, p.m ≤ p.v.natAbs
  gap : ∀ p ∈ ps, ∀ q ∈ ps, p.v ≠ 0 → q.v ≠ 0 → arrive q + eps ≤ pass p

theorem left_pos_iff {ps : List Leg} : left ps ≠ 0 ↔ ∃ p ∈ ps, p.m < p.v.natAbs := by
  unfold left
  induction ps with
  | nil => simp
  | cons p ps ih =>
    rw [List.map_cons, List.sum_cons]
    constructor
    · intro h
      by_cases h1 : p.m < p.v.natAbs
      · exact ⟨p, by simp, h1⟩
      · obtain ⟨q, hq, h2⟩ := ih.1 (by omega)
        exact ⟨q, by simp [hq], h2⟩
    · rintro ⟨q, hq, h2⟩
      rcases List.mem_cons.1 hq with rfl | hq
      · omega
      · have := ih.2 ⟨q, hq, h2⟩
        omega

theorem sel_not_done {ps : List Leg} (hg : Good ps) (hl : left ps ≠ 0) {T : ℚ} (hT : IsMin T ps) {p : Leg}
    (hp : p ∈ ps) (hs : sel T p) : p.m < p.v.natAbs := by
  by_contra hd
  have hd' : p.m = p.v.natAbs := by have := hg.le p hp; omega
  obtain ⟨q, hq, hlt⟩ := left_pos_iff.1 hl
  have hq0 : q.v ≠ 0 := by intro e; rw [e] at hlt; simp at hlt
  have h1 := out_le_arrive hlt
  have h2 := hT.2 q hq hq0
  have h3 : pass p = out p := by
    unfold pass
    rw [← hd']
  have h4 := hg.gap p hp q hq hs.1 hq0
  have h5 := (abs_lt.1 hs.2).2
  linarith

theorem good_inc {ps : List Leg} (hg : Good ps) (hl : left ps ≠ 0) {T : ℚ} (hT : IsMin T ps) :
    Good (ps.map (inc T)) where
  le := by
    intro p hp
    obtain ⟨q, hq, rfl⟩ := List.mem_map.1 hp
    unfold inc
    split
    · next h => have := sel_not_done hg hl hT hq h; simp only [next]; omega
    · exact hg.le q hq
  gap := by
    intro p' hp' q' hq' hp0 hq0
    obtain ⟨p, hp, rfl⟩ := List.mem_map.1 hp'
    obtain ⟨q, hq, rfl⟩ := List.mem_map.1 hq'
    rw [inc_v] at hp0 hq0
    rw [arrive_inc, pass_inc]
    exact hg.gap p hp q hq hp0 hq0

/-- The number of selected axes. -/
def nsel (T : ℚ) (ps : List Leg) : Nat := (ps.filter fun p => sel T p).length

theorem left_cons (p : Leg) (ps : List Leg) : left (p :: ps) = (p.v.natAbs - p.m) + left ps := rfl

theorem left_inc (T : ℚ) : ∀ {ps : List Leg}, (∀ p ∈ ps, sel T p → p.m < p.v.natAbs) →
    left (ps.map (inc T)) + nsel T ps = left ps
  | [], _ => rfl
  | p :: ps, h => by
    have ih := left_inc T (ps := ps) fun q hq => h q (by simp [hq])
    rw [List.map_cons, left_cons, left_cons, inc_v]
    unfold nsel at *
    by_cases hs : sel T p
    · have := h p (by simp) hs
      simp only [List.filter_cons, hs, decide_true, if_true, List.length_cons]
      have e : (inc T p).m = p.m + 1 := by unfold inc; rw [if_pos hs]; rfl
      rw [e]
      omega
    · simp only [List.filter_cons, hs, decide_false, Bool.false_eq_true, if_false]
      have : inc T p = p := by unfold inc; rw [if_neg hs]
      rw [this]
      omega

theorem nsel_pos {T : ℚ} {ps : List Leg} (hT : IsMin T ps) : 0 < nsel T ps := by
  obtain ⟨⟨p, hp, h0, e⟩, -⟩ := hT
  apply List.length_pos_of_mem (a := p)
  rw [List.mem_filter]
  refine ⟨hp, ?_⟩
  simp only [decide_eq_true_eq]
  refine ⟨h0, ?_⟩
  rw [e]
  simp [eps]

theorem done_all {ps : List Leg} (hg : Good ps) :
    (ps.all fun p => decide (p.v.sign * (p.m : Int) = p.v)) = decide (left ps = 0) := by
  rw [Bool.eq_iff_iff, List.all_eq_true, decide_eq_true_eq]
  constructor
  · intro h
    by_contra hl
    obtain ⟨p, hp, hlt⟩ := left_pos_iff.1 hl
    have h0 : p.v ≠ 0 := by intro e; rw [e] at hlt; simp at hlt
    have h1 := h p hp
    rw [decide_eq_true_eq, done_iff h0] at h1
    omega
  · intro hl p hp
    rw [decide_eq_true_eq]
    have h1 : ¬ p.m < p.v.natAbs := fun h => (left_pos_iff.2 ⟨p, hp, h⟩) hl
    have h2 := hg.le p hp
    have h3 : p.m = p.v.natAbs := by omega
    rw [h3, Int.sign_mul_natAbs]

theorem rowOf_done {ps : List Leg} (hg : Good ps) (hl : left ps = 0) :
    rowOf ps = ps.map fun p => p.a + p.v := by
  unfold rowOf
  apply List.map_congr_left
  intro p hp
  have h1 : ¬ p.m < p.v.natAbs := fun h => (left_pos_iff.2 ⟨p, hp, h⟩) hl
  have h2 := hg.le p hp
  have h3 : p.m = p.v.natAbs := by omega
  rw [h3, Int.sign_mul_natAbs]

theorem lineLoop_ends {rows : ℚ → List (Axis ℚ) → List (Axis ℚ) × List (List Int)} (hr : Moves rows)
    {R : List Int → List Int → Prop} {Q : List Int → Prop} {es : List (Int × Int)}
    (hrows : ∀ (ps : List Leg) (τ T : ℚ), ps.map ends = es → (∀ p ∈ ps, p.m ≤ p.v.natAbs) →
      (∀ p ∈ ps, sel T p → p.m < p.v.natAbs) → 0 < nsel T ps →
      (rows (T - τ) (ps.map (ax τ))).2.getLast? = some (rowOf (ps.map (inc T))) ∧
      (rowOf ps :: (rows (T - τ) (ps.map (ax τ))).2).IsChain R ∧
      (∀ x ∈ (rows (T - τ) (ps.map (ax τ))).2, Q x)) (junk : ℚ) :
    ∀ (fuel : Nat) (ps : List Leg) (τ : ℚ) (ret : List (List Int)), ps.map ends = es → Good ps → left ps ≠ 0 →
      left ps ≤ fuel → ∃ out, lineLoop rows junk fuel (ps.map (ax τ)) ret = ok (ret ++ out) ∧
        out.getLast? = some (es.map fun e => e.1 + e.2) ∧ (rowOf ps :: out).IsChain R ∧ ∀ x ∈ out, Q x
  | 0, _, _, _, _, _, h, h' => absurd (Nat.le_zero.1 h') h
  | fuel + 1, ps, τ, ret, hes, hg, hl, hf => by
    obtain ⟨p, hp, hlt⟩ := left_pos_iff.1 hl
    have h0 : p.v ≠ 0 := by intro e; rw [e] at hlt; simp at hlt
    obtain ⟨T, hT, e⟩ := lineLoop_step hr junk fuel (τ := τ) ⟨p, hp, h0⟩ ret
    have hsel : ∀ p ∈ ps, sel T p → p.m < p.v.natAbs := fun p hp hs => sel_not_done hg hl hT hp hs
    obtain ⟨hlast, hchain, hQ⟩ := hrows ps τ T hes hg.le hsel (nsel_pos hT)
    have hg' := good_inc hg hl hT
    have hes' : (ps.map (inc T)).map ends = es := by rw [map_ends_inc, hes]
    have hdec := left_inc T hsel
    have hpos := nsel_pos hT
    rw [e, done_all hg']
    generalize (rows (T - τ) (ps.map (ax τ))).2 = out at *
    by_cases hd : left (ps.map (inc T)) = 0
    · rw [if_pos (by simpa using hd)]
      refine ⟨out, rfl, ?_, hchain, hQ⟩
      rw [hlast, rowOf_done hg' hd, ← hes', List.map_map, List.map_map, List.map_map]
      rfl
    · rw [if_neg (by simpa using hd)]
      obtain ⟨out', h1, h2, h3, h4⟩ := lineLoop_ends hr hrows junk fuel (ps.map (inc T)) (T - τ) (ret ++ out)
        hes' hg' hd (by omega)
      refine ⟨out ++ out', by rw [h1, List.append_assoc], ?_, ?_, ?_⟩
      · rw [List.getLast?_append, h2]; rfl
      · rw [← List.cons_append, List.isChain_append]
        refine ⟨hchain, (List.isChain_cons.1 h3).2, ?_⟩
        intro x hx y hy
        have hx' : x = rowOf (ps.map (inc T)) := by
          rw [List.getLast?_cons, hlast] at hx
          simpa using hx.symm
        subst hx'
        exact (List.isChain_cons.1 h3).1 y hy
      · intro x hx
        rcases List.mem_append.1 hx with h | h
        · exact hQ x h
        · exact h4 x h

/-! ### the rows -/

/-- The end point. -/
def target (es : List (Int × Int)) : List Int := es.map fun e => e.1 + e.2

/-- The start. -/
def start (es : List (Int × Int)) : List Int := es.map Prod.fst

theorem getD_rowOf {ps : List Leg} {i : Nat} (hi : i < ps.length) :
    (rowOf ps).getD i 0 = ps[i].a + ps[i].v.sign * ps[i].m := by
  simp [rowOf, List.getD, hi]

theorem getD_target {ps : List Leg} {i : Nat} (hi : i < ps.length) :
    (target (ps.map ends)).getD i 0 = ps[i].a + ps[i].v := by
  simp [target, List.getD, hi, ends]

theorem getD_start {ps : List Leg} {i : Nat} (hi : i < ps.length) :
    (start (ps.map ends)).getD i 0 = ps[i].a := by
  simp [start, List.getD, hi, ends]

theorem rowOf_inSpan {ps : List Leg} (h : ∀ p ∈ ps, p.m ≤ p.v.natAbs) :
    InSpan (start (ps.map ends)) (target (ps.map ends)) (rowOf ps) := by
  refine ⟨by simp [rowOf, start], fun i hi => ?_⟩
  have hi' : i < ps.length := by simpa [start] using hi
  rw [getD_rowOf hi', getD_target hi', getD_start hi']
  have h1 := h _ (List.getElem_mem hi')
  unfold Between
  rcases lt_trichotomy ps[i].v 0 with h2 | h2 | h2
  · rw [Int.sign_eq_neg_one_of_neg h2]; omega
  · rw [h2]; simp
  · rw [Int.sign_eq_one_of_pos h2]; omega

theorem actual_rows {es : List (Int × Int)} (ps : List Leg) (τ T : ℚ) (hes : ps.map ends = es)
    (hle : ∀ p ∈ ps, p.m ≤ p.v.natAbs) (h : ∀ p ∈ ps, sel T p → p.m < p.v.natAbs) (hpos : 0 < nsel T ps) :
    (actualRows (T - τ) (ps.map (ax τ))).2.getLast? = some (rowOf (ps.map (inc T))) ∧
    (rowOf ps :: (actualRows (T - τ) (ps.map (ax τ))).2).IsChain (StepTowards (target es)) ∧
    (∀ x ∈ (actualRows (T - τ) (ps.map (ax τ))).2, InSpan (start es) (target es) x) := by
  have e : (actualRows (T - τ) (ps.map (ax τ))).2 = [rowOf (ps.map (inc T))] := by
    simp only [actualRows, map_inc_ax, row_ax]
  have hget : ∀ i (hi : i < ps.length), (rowOf (ps.map (inc T))).getD i 0 =
      ps[i].a + ps[i].v.sign * (inc T ps[i]).m := by
    intro i hi
    rw [getD_rowOf (by simpa using hi)]
    simp [inc_v, inc_a]
  rw [e]
  refine ⟨rfl, ?_, ?_⟩
  · rw [List.isChain_cons_cons]
    refine ⟨⟨?_, by simp [rowOf], fun i hi => ?_⟩, by simp⟩
    · intro he
      obtain ⟨p, hp⟩ := List.exists_mem_of_length_pos hpos
      rw [List.mem_filter, decide_eq_true_eq] at hp
      obtain ⟨i, hi, rfl⟩ := List.mem_iff_getElem.1 hp.1
      have h1 := hget i hi
      rw [he, getD_rowOf hi] at h1
      have h2 := h _ hp.1 hp.2
      have e : (inc T ps[i]).m = ps[i].m + 1 := by unfold inc; rw [if_pos hp.2]; rfl
      rw [e] at h1
      rcases towards_succ h2 with h3 | h3 <;> omega
    · have hi' : i < ps.length := by simpa [target, ← hes] using hi
      rw [← hes, getD_target hi', hget i hi', getD_rowOf hi']
      unfold TowardsOrStay
      by_cases hs : sel T ps[i]
      · have e : (inc T ps[i]).m = ps[i].m + 1 := by unfold inc; rw [if_pos hs]; rfl
        rw [e]
        rcases towards_succ (h _ (List.getElem_mem hi') hs) with h3 | h3 <;> omega
      · have e : inc T ps[i] = ps[i] := by unfold inc; rw [if_neg hs]
        rw [e]
        exact Or.inl rfl
  · intro x hx
    rw [List.mem_singleton] at hx
    subst hx
    have := rowOf_inSpan (ps := ps.map (inc T)) (by
      intro p hp
      obtain ⟨q, hq, rfl⟩ := List.mem_map.1 hp
      unfold inc
      split
      · next h' => have := h q hq h'; simp only [next]; omega
      · exact hle q hq)
    rwa [map_ends_inc, hes] at this

theorem fullRows_rows {es : List (Int × Int)} {T τ : ℚ} : ∀ (P D : List Leg), (D ++ P).map ends = es →
    (∀ p ∈ D ++ P, p.m ≤ p.v.natAbs) → (∀ p ∈ P, sel T p → p.m < p.v.natAbs) →
    (rowOf (D ++ P) :: (fullRows (T - τ) (D.map (ax τ)) (P.map (ax τ))).2).getLast? =
      some (rowOf (D ++ P.map (inc T))) ∧
    (rowOf (D ++ P) :: (fullRows (T - τ) (D.map (ax τ)) (P.map (ax τ))).2).IsChain (UnitStep (target es)) ∧
    (∀ x ∈ (fullRows (T - τ) (D.map (ax τ)) (P.map (ax τ))).2, InSpan (start es) (target es) x) ∧
    (fullRows (T - τ) (D.map (ax τ)) (P.map (ax τ))).2.length = nsel T P
  | [], D, _, _, _ => by simp [fullRows, nsel]
  | p :: P, D, hes, hle, h => by
    by_cases hs : sel T p
    · have hlt := h p (by simp) hs
      have hes' : ((D ++ [p.next]) ++ P).map ends = es := by rw [← hes]; simp [ends, next]
      have hle' : ∀ q ∈ (D ++ [p.next]) ++ P, q.m ≤ q.v.natAbs := by
        intro q hq
        simp only [List.append_assoc, List.singleton_append, List.mem_append, List.mem_cons] at hq
        rcases hq with hq | rfl | hq
        · exact hle q (by simp [hq])
        · exact hlt
        · exact hle q (by simp [hq])
      obtain ⟨h1, h2, h3, h4⟩ := fullRows_rows (es := es) (T := T) (τ := τ) P (D ++ [p.next]) hes' hle'
        fun q hq => h q (by simp [hq])
      have e : (fullRows (T - τ) (D.map (ax τ)) ((p :: P).map (ax τ))).2 =
          rowOf (D ++ [p.next] ++ P) ::
            (fullRows (T - τ) ((D ++ [p.next]).map (ax τ)) (P.map (ax τ))).2 := by
        rw [List.map_cons, fullRows, ax_selected, if_pos (by simpa using hs), ax_advance, ← row_ax τ]
        simp
      rw [e]
      refine ⟨?_, ?_, ?_, ?_⟩
      · rw [List.getLast?_cons_cons, h1, List.map_cons]
        have : inc T p = p.next := by unfold inc; rw [if_pos hs]
        rw [this]
        simp
      · rw [List.isChain_cons_cons]
        refine ⟨⟨D.length, by rw [← hes]; simp [target], ?_⟩, h2⟩
        have g1 : (rowOf (D ++ p :: P)).getD D.length 0 = p.a + p.v.sign * p.m := by
          rw [getD_rowOf (by simp)]; simp
        have g2 : (target es).getD D.length 0 = p.a + p.v := by
          rw [← hes, getD_target (by simp)]; simp
        have g3 : ∀ z : Int, (rowOf (D ++ p :: P)).set D.length z = rowOf D ++ z :: rowOf P := by
          intro z
          unfold rowOf
          rw [List.map_append, List.set_append_right _ _ (by simp)]
          simp
        rw [g1, g2, g3, g3]
        have g4 : rowOf (D ++ [p.next] ++ P) =
            rowOf D ++ (p.a + p.v.sign * ((p.m + 1 : Nat) : Int)) :: rowOf P := by simp [rowOf, next]
        rw [g4]
        rcases towards_succ hlt with ⟨h5, h6⟩ | ⟨h5, h6⟩
        · left; refine ⟨by omega, ?_⟩; rw [h6]; congr 2; ring
        · right; refine ⟨by omega, ?_⟩; rw [h6]; congr 2; ring
      · intro x hx
        rcases List.mem_cons.1 hx with rfl | hx
        · have := rowOf_inSpan hle'
          rwa [hes'] at this
        · exact h3 x hx
      · rw [List.length_cons, h4]
        simp [nsel, hs]
    · have hes' : ((D ++ [p]) ++ P).map ends = es := by rw [← hes]; simp
      obtain ⟨h1, h2, h3, h4⟩ := fullRows_rows (es := es) (T := T) (τ := τ) P (D ++ [p]) hes'
        (by simpa using hle) fun q hq => h q (by simp [hq])
      have e : (fullRows (T - τ) (D.map (ax τ)) ((p :: P).map (ax τ))).2 =
          (fullRows (T - τ) ((D ++ [p]).map (ax τ)) (P.map (ax τ))).2 := by
        rw [List.map_cons, fullRows, ax_selected, if_neg (by simpa using hs)]
        simp
      have happ : D ++ p :: P = D ++ [p] ++ P := by simp
      rw [e, happ]
      refine ⟨?_, h2, h3, ?_⟩
      · rw [h1, List.map_cons]
        have : inc T p = p := by unfold inc; rw [if_neg hs]
        rw [this]
        simp
      · rw [h4]; simp [nsel, hs]

theorem full_rows {es : List (Int × Int)} (ps : List Leg) (τ T : ℚ) (hes : ps.map ends = es)
    (hle : ∀ p ∈ ps, p.m ≤ p.v.natAbs) (h : ∀ p ∈ ps, sel T p → p.m < p.v.natAbs) (hpos : 0 < nsel T ps) :
    (fullRows (T - τ) [] (ps.map (ax τ))).2.getLast? = some (rowOf (ps.map (inc T))) ∧
    (rowOf ps :: (fullRows (T - τ) [] (ps.map (ax τ))).2).IsChain (UnitStep (target es)) ∧
    (∀ x ∈ (fullRows (T - τ) [] (ps.map (ax τ))).2, InSpan (start es) (target es) x) := by
  obtain ⟨h1, h2, h3, h4⟩ := fullRows_rows (es := es) (T := T) (τ := τ) ps [] (by simpa using hes)
    (by simpa using hle) h
  simp only [List.map_nil, List.nil_append] at h1 h2 h3 h4
  refine ⟨?_, h2, h3⟩
  match (fullRows (T - τ) [] (ps.map (ax τ))).2, h4, h1 with
  | [], h4, _ => simp at h4; omega
  | x :: xs, _, h1 => rw [List.getLast?_cons_cons] at h1; exact h1

/-! ### from the start -/

/-- The initial state. -/
def initial (x0 v : List Int) : List Leg := List.zipWith (fun a v => ⟨a, v, 0⟩) x0 v

theorem initial_axes : ∀ (x0 v : List Int), x0.length = v.length →
    List.zipWith (axis ℚ) x0 (addPt v x0) = (initial x0 v).map (ax 0)
  | [], [], _ => rfl
  | a :: x0, d :: v, h => by
    have ih := initial_axes x0 v (by simpa using h)
    have e : addPt (d :: v) (a :: x0) = (a + d) :: addPt v x0 := by
      show (d + a) :: _ = _
      rw [add_comm d a]
      rfl
    rw [e, List.zipWith_cons_cons, ih, axis_eq]
    rfl

theorem initial_row : ∀ (x0 v : List Int), x0.length = v.length → rowOf (initial x0 v) = x0
  | [], [], _ => rfl
  | a :: x0, d :: v, h => by
    have ih := initial_row x0 v (by simpa using h)
    show (a + d.sign * ((0 : Nat) : Int)) :: rowOf (initial x0 v) = _
    rw [ih]
    simp

theorem initial_start : ∀ (x0 v : List Int), x0.length = v.length → start ((initial x0 v).map ends) = x0
  | [], [], _ => rfl
  | a :: x0, d :: v, h => by
    have ih := initial_start x0 v (by simpa using h)
    show a :: start ((initial x0 v).map ends) = _
    rw [ih]

theorem initial_target : ∀ (x0 v : List Int), x0.length = v.length →
    target ((initial x0 v).map ends) = addPt v x0
  | [], [], _ => rfl
  | a :: x0, d :: v, h => by
    have ih := initial_target x0 v (by simpa using h)
    show (a + d) :: target ((initial x0 v).map ends) = (d + a) :: addPt v x0
    rw [ih, add_comm]

theorem mem_initial {x0 v : List Int} (h : x0.length = v.length) {p : Leg} :
    p ∈ initial x0 v ↔ ∃ i < v.length, p = ⟨x0.getD i 0, v.getD i 0, 0⟩ := by
  rw [List.mem_iff_getElem]
  constructor
  · rintro ⟨i, hi, rfl⟩
    have hi' : i < v.length := by simp [initial] at hi; omega
    refine ⟨i, hi', ?_⟩
    simp [initial, List.getD, hi', h ▸ hi']
  · rintro ⟨i, hi, rfl⟩
    refine ⟨i, by simp [initial]; omega, ?_⟩
    simp [initial, List.getD, hi, h ▸ hi]

theorem initial_left : ∀ (x0 v : List Int), x0.length = v.length →
    left (initial x0 v) = manhattan x0 (addPt v x0)
  | [], [], _ => rfl
  | a :: x0, d :: v, h => by
    have ih := initial_left x0 v (by simpa using h)
    show (d.natAbs - 0) + left (initial x0 v) = (d + a - a).natAbs + manhattan x0 (addPt v x0)
    rw [ih]
    congr 1
    have : d + a - a = d := by ring
    rw [this]
    rfl

/-- The parameters of arriving and passing. -/
theorem arrive_eq {a v : Int} {m : Nat} (h0 : v ≠ 0) :
    arrive ⟨a, v, m⟩ = 1 - 1 / 2 / v.natAbs - a / v := by
  have h := natAbs_pos h0
  have h1 : 1 ≤ v.natAbs := Int.natAbs_pos.2 h0
  unfold arrive out
  simp only
  rw [Nat.cast_sub h1]
  field_simp
  push_cast
  ring

theorem pass_eq {a v : Int} {m : Nat} (h0 : v ≠ 0) :
    pass ⟨a, v, m⟩ = 1 + 1 / 2 / v.natAbs - a / v := by
  have h := natAbs_pos h0
  unfold pass out
  simp only
  field_simp

/-- The pixel of the origin, seen along one axis. -/
theorem near_iff {a v : Int} {m : Nat} {l : ℚ} (h0 : v ≠ 0) :
    |(a : ℚ) + l * v| < 1 / 2 ↔ arrive ⟨a, v, m⟩ < 1 + l ∧ 1 + l < pass ⟨a, v, m⟩ := by
  have h := natAbs_pos h0
  have hv : (v : ℚ) ≠ 0 := by exact_mod_cast h0
  have e : (a : ℚ) + l * v = (a / v + l) * v := by field_simp
  have e2 : |(v : ℚ)| = v.natAbs := by
    have := Int.abs_eq_natAbs v
    have h' : ((|v| : Int) : ℚ) = ((v.natAbs : Int) : ℚ) := by rw [this]
    push_cast at h'
    rw [Nat.cast_natAbs]
    simpa using h'
  rw [e, abs_mul, e2, ← lt_div_iff₀ h, abs_lt, arrive_eq h0, pass_eq h0]
  constructor
  · rintro ⟨h1, h2⟩; constructor <;> linarith
  · rintro ⟨h1, h2⟩; constructor <;> linarith

/-- Below 708 the difference of two parameters is not less than the tolerance. -/
theorem gap_707 {a b v w : Int} {m n : Nat} (hv : v ≠ 0) (hw : w ≠ 0) (bv : v.natAbs ≤ 707) (bw : w.natAbs ≤ 707)
    (h : arrive ⟨b, w, n⟩ < pass ⟨a, v, m⟩) : arrive ⟨b, w, n⟩ + eps ≤ pass ⟨a, v, m⟩ := by
  have h1 := natAbs_pos hv
  have h2 := natAbs_pos hw
  have q1 : (v : ℚ) ≠ 0 := by exact_mod_cast hv
  have q2 : (w : ℚ) ≠ 0 := by exact_mod_cast hw
  have ea : ((a : ℚ) / v) = (v.sign * a : Int) / (v.natAbs : ℚ) := by
    rw [div_eq_div_iff q1 h1.ne', Int.cast_mul]
    conv_rhs => rw [← sign_mul_natAbs v]
    have := sign_sq hv
    linear_combination (-(a : ℚ) * v.natAbs) * this
  have eb : ((b : ℚ) / w) = (w.sign * b : Int) / (w.natAbs : ℚ) := by
    rw [div_eq_div_iff q2 h2.ne', Int.cast_mul]
    conv_rhs => rw [← sign_mul_natAbs w]
    have := sign_sq hw
    linear_combination (-(b : ℚ) * w.natAbs) * this
  obtain ⟨z, hz⟩ : ∃ z : Int, z = (1 - 2 * (v.sign * a)) * w.natAbs + (1 + 2 * (w.sign * b)) * v.natAbs :=
    ⟨_, rfl⟩
  have key : pass ⟨a, v, m⟩ - arrive ⟨b, w, n⟩ = (z : ℚ) / (2 * (v.natAbs * w.natAbs)) := by
    rw [arrive_eq hw, pass_eq hv, ea, eb, hz]
    generalize v.natAbs = V at *
    generalize w.natAbs = W at *
    push_cast
    field_simp
    ring
  have hpos : (0 : ℚ) < z := by
    have : 0 < pass ⟨a, v, m⟩ - arrive ⟨b, w, n⟩ := by linarith
    rw [key] at this
    exact (div_pos_iff_of_pos_right (by positivity)).1 this
  have hone : (1 : ℚ) ≤ z := by
    have h0 : 0 < z := by exact_mod_cast hpos
    have h1 : 1 ≤ z := h0
    exact_mod_cast h1
  have b1 : (v.natAbs : ℚ) ≤ 707 := by exact_mod_cast bv
  have b2 : (w.natAbs : ℚ) ≤ 707 := by exact_mod_cast bw
  have b3 : (v.natAbs : ℚ) * w.natAbs ≤ 707 * 707 := mul_le_mul b1 b2 h2.le (by norm_num)
  have : eps ≤ pass ⟨a, v, m⟩ - arrive ⟨b, w, n⟩ := by
    rw [key, le_div_iff₀ (by positivity)]
    unfold eps
    linarith
  linarith

end Leg

end Verif.Path
