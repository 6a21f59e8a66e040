import Verif.Lemmas.Line
import Verif.Props.Invariance

/-!
# The paths of modes `actual` and `full` after a reflection, of mode `actual` after a permutation of axes
-/

set_option linter.unusedSectionVars false

namespace Verif.Path

open Verif Outcome Spec

/-! ### reflection -/

/-- The axis multiplied by `s` (1 or -1). -/
def flip (s : Int) (a : Axis ℚ) : Axis ℚ := ⟨s * a.xa, s * a.xb, s * a.c, s * a.next, s * a.x⟩

section flip

variable {s : Int} (hs : s = 1 ∨ s = -1) (a : Axis ℚ)
include hs

theorem flip_v : (flip s a).v = s * a.v := by
  unfold Axis.v flip
  push_cast
  ring

theorem flip_cast_ne : (s : ℚ) ≠ 0 := by rcases hs with rfl | rfl <;> norm_num

theorem flip_t : (flip s a).t = a.t := by
  unfold Axis.t
  rw [flip_v hs]
  have : (flip s a).next - (flip s a).x = s * (a.next - a.x) := by unfold flip; ring
  rw [this, mul_div_mul_left _ _ (flip_cast_ne hs)]

theorem flip_active : (flip s a).v = 0 ↔ a.v = 0 := by
  rw [flip_v hs, mul_eq_zero]
  simp [flip_cast_ne hs]

theorem flip_selected (tm : ℚ) : (flip s a).selected tm = a.selected tm := by
  unfold Axis.selected
  rw [flip_t hs]
  congr 1
  simp [flip_active hs a]

theorem flip_sign : (flip s a).sign = s * a.sign := by
  unfold Axis.sign
  rw [flip_v hs]
  have : fabs ((s : ℚ) * a.v) = fabs a.v := by
    unfold fabs
    rcases hs with rfl | rfl
    · simp
    · push_cast
      split <;> split <;> linarith
  rw [this, mul_div_assoc]

theorem flip_advance : (flip s a).advance = flip s a.advance := by
  unfold Axis.advance
  rw [flip_sign hs]
  have : ((flip s a).xb - (flip s a).xa).sign = s * (a.xb - a.xa).sign := by
    rcases hs with rfl | rfl
    · simp [flip]
    · have : (flip (-1) a).xb - (flip (-1) a).xa = -(a.xb - a.xa) := by simp only [flip]; ring
      rw [this, Int.sign_neg]
      ring
  rw [this]
  simp only [flip, Axis.mk.injEq, true_and]
  refine ⟨by ring, by ring, trivial⟩

theorem flip_place (tm : ℚ) : (flip s a).place tm = flip s (a.place tm) := by
  unfold Axis.place
  rw [flip_v hs]
  simp only [flip, Axis.mk.injEq, true_and]
  push_cast
  ring

theorem flip_arrived : ((flip s a).c == (flip s a).xb) = (a.c == a.xb) := by
  rw [Bool.eq_iff_iff]
  simp only [beq_iff_eq, flip]
  rcases hs with rfl | rfl <;> omega

theorem flip_axis (xa xb : Int) : axis ℚ (s * xa) (s * xb) = flip s (axis ℚ xa xb) := by
  have h := flip_sign hs ⟨xa, xb, xa, 0, xa⟩
  have e : flip s ⟨xa, xb, xa, 0, xa⟩ = ⟨s * xa, s * xb, s * xa, 0, ((s * xa : Int) : ℚ)⟩ := by
    simp [flip]
  rw [e] at h
  simp only [axis, flip, Axis.mk.injEq, true_and, h]
  push_cast
  exact ⟨by ring, rfl⟩

end flip

/-- All axes multiplied. -/
def flips (ss : List Int) (l : List (Axis ℚ)) : List (Axis ℚ) := List.zipWith flip ss l

variable {ss : List Int} (hs : ∀ s ∈ ss, s = 1 ∨ s = -1)

include hs

theorem flips_row : ∀ {l : List (Axis ℚ)}, row (flips ss l) = reflectPt ss (row l) := by
  clear hs
  induction ss with
  | nil => intro l; simp [flips, row, reflectPt]
  | cons s ss ih =>
    intro l
    cases l with
    | nil => simp [flips, row, reflectPt]
    | cons a l =>
      have := @ih l
      simp only [flips, row, reflectPt, List.zipWith_cons_cons, List.map_cons] at this ⊢
      rw [this]
      rfl

theorem flips_map {g : Axis ℚ → Axis ℚ} (hg : ∀ s, s = 1 ∨ s = -1 → ∀ a, g (flip s a) = flip s (g a)) :
    ∀ {l : List (Axis ℚ)}, (flips ss l).map g = flips ss (l.map g) := by
  induction ss with
  | nil => intro l; simp [flips]
  | cons s ss ih =>
    intro l
    cases l with
    | nil => simp [flips]
    | cons a l =>
      have := ih (fun t ht => hs t (by simp [ht])) (l := l)
      simp only [flips, List.zipWith_cons_cons, List.map_cons] at this ⊢
      rw [this, hg s (hs s (by simp))]

theorem flips_active : ∀ {l : List (Axis ℚ)}, l.length = ss.length →
    ((flips ss l).filter fun a => a.v ≠ 0).map Axis.t = (l.filter fun a => a.v ≠ 0).map Axis.t := by
  induction ss with
  | nil => intro l hl; cases l <;> simp_all [flips]
  | cons s ss ih =>
    intro l hl
    cases l with
    | nil => simp at hl
    | cons a l =>
      have := ih (fun t ht => hs t (by simp [ht])) (l := l) (by simpa using hl)
      have h := flip_active (hs s (by simp)) a
      have ht := flip_t (hs s (by simp)) a
      simp only [flips, List.zipWith_cons_cons] at this ⊢
      by_cases h0 : a.v = 0
      · rw [List.filter_cons_of_neg (by simp [h, h0]), List.filter_cons_of_neg (by simp [h0]), this]
      · rw [List.filter_cons_of_pos (by simp [h, h0]), List.filter_cons_of_pos (by simp [h0]), List.map_cons,
          List.map_cons, this, ht]

theorem flips_arrived : ∀ {l : List (Axis ℚ)}, l.length = ss.length →
    ((flips ss l).all fun a => a.c == a.xb) = l.all fun a => a.c == a.xb := by
  induction ss with
  | nil => intro l hl; cases l <;> simp_all [flips]
  | cons s ss ih =>
    intro l hl
    cases l with
    | nil => simp at hl
    | cons a l =>
      have := ih (fun t ht => hs t (by simp [ht])) (l := l) (by simpa using hl)
      simp only [flips, List.zipWith_cons_cons, List.all_cons] at this ⊢
      rw [this, flip_arrived (hs s (by simp))]

theorem flips_tmin {junk : ℚ} {l : List (Axis ℚ)} (hl : l.length = ss.length) :
    tmin junk (flips ss l) = tmin junk l := by
  unfold tmin
  rw [flips_active hs hl]

omit hs in
/-- The update commutes with reflections. -/
def Flips (rows : ℚ → List (Axis ℚ) → List (Axis ℚ) × List (List Int)) : Prop :=
  ∀ (ss : List Int) (tm : ℚ) (l : List (Axis ℚ)), (∀ s ∈ ss, s = 1 ∨ s = -1) → l.length = ss.length →
    (rows tm l).1.length = l.length ∧
    rows tm (flips ss l) = (flips ss (rows tm l).1, (rows tm l).2.map (reflectPt ss))

omit hs in
theorem actual_flips : Flips actualRows := by
  intro ss tm l hs hl
  refine ⟨by simp [actualRows], ?_⟩
  have := flips_map hs (g := fun a => if a.selected tm then a.advance else a) (fun s h a => by
    rw [flip_selected h, flip_advance h]; split <;> rfl) (l := l)
  simp only [actualRows, this, flips_row hs, List.map_cons, List.map_nil]

omit hs in
theorem full_flips_aux {tm : ℚ} : ∀ (todo done : List (Axis ℚ)) (s1 s2 : List Int),
    (∀ s ∈ s1 ++ s2, s = 1 ∨ s = -1) → done.length = s1.length → todo.length = s2.length →
    (fullRows tm done todo).1.length = done.length + todo.length ∧
    fullRows tm (flips s1 done) (flips s2 todo) =
      (flips (s1 ++ s2) (fullRows tm done todo).1, (fullRows tm done todo).2.map (reflectPt (s1 ++ s2)))
  | [], done, s1, [], hs, h1, h2 => by simp [fullRows, flips]
  | a :: todo, done, s1, s :: s2, hs, h1, h2 => by
    have hs' : s = 1 ∨ s = -1 := hs s (by simp)
    have e : flips (s :: s2) (a :: todo) = flip s a :: flips s2 todo := rfl
    have happ : ∀ b, flips s1 done ++ [flip s b] = flips (s1 ++ [s]) (done ++ [b]) := by
      intro b
      unfold flips
      rw [List.zipWith_append (by omega)]
      rfl
    have happ' : ∀ b, flips s1 done ++ flip s b :: flips s2 todo = flips (s1 ++ s :: s2) (done ++ b :: todo) := by
      intro b
      unfold flips
      rw [List.zipWith_append (by omega)]
      rfl
    have key : ∀ b, _ := fun b => full_flips_aux (tm := tm) todo (done ++ [b]) (s1 ++ [s]) s2
      (by simpa using hs) (by simp [h1]) (by simpa using h2)
    rw [e]
    by_cases hsel : a.selected tm
    · have k := key a.advance
      simp only [fullRows]
      rw [flip_selected hs', if_pos hsel, if_pos hsel, flip_advance hs', happ, happ', k.2]
      refine ⟨by rw [k.1]; simp; omega, ?_⟩
      simp only [List.map_cons, flips_row hs, List.append_assoc, List.singleton_append]
    · have k := key a
      simp only [fullRows]
      rw [flip_selected hs', if_neg hsel, if_neg hsel, happ, k.2]
      refine ⟨by rw [k.1]; simp; omega, ?_⟩
      simp only [List.append_assoc, List.singleton_append]

omit hs in
theorem full_flips : Flips (fun tm => fullRows tm []) := by
  intro ss tm l hs hl
  have := full_flips_aux (tm := tm) l [] [] ss (by simpa using hs) rfl hl
  simpa [flips] using this

theorem lineLoop_flips {rows : ℚ → List (Axis ℚ) → List (Axis ℚ) × List (List Int)} (hr : Flips rows)
    (junk : ℚ) : ∀ (fuel : Nat) (l : List (Axis ℚ)) (ret : List (List Int)), l.length = ss.length →
    lineLoop rows junk fuel (flips ss l) (ret.map (reflectPt ss)) =
      (lineLoop rows junk fuel l ret).map fun r => r.map (reflectPt ss)
  | 0, _, _, _ => rfl
  | fuel + 1, l, ret, hl => by
    obtain ⟨h1, h2⟩ := hr ss (tmin junk l) l hs hl
    have h3 : (((rows (tmin junk l) l).1).map fun a => a.place (tmin junk l)).length = ss.length := by
      rw [List.length_map, h1, hl]
    simp only [lineLoop, flips_tmin hs hl, h2]
    rw [flips_map hs (fun s h a => flip_place h a _), flips_arrived hs h3, ← List.map_append]
    split
    · rfl
    · exact lineLoop_flips hr junk fuel _ _ h3

theorem line_flips {rows : ℚ → List (Axis ℚ) → List (Axis ℚ) × List (List Int)} (hr : Flips rows)
    (junk : ℚ) (fuel : Nat) {x0 x1 : List Int} (hl : x0.length = x1.length) (hc : ss.length = x0.length) :
    line rows junk fuel (reflectPt ss x0) (reflectPt ss x1) =
      (line rows junk fuel x0 x1).map fun r => r.map (reflectPt ss) := by
  have l0 : (reflectPt ss x0).length = x0.length := by simp [reflectPt, hc]
  have l1 : (reflectPt ss x1).length = x1.length := by simp [reflectPt]; omega
  unfold line
  rw [l0, l1]
  split
  · rfl
  · have e : List.zipWith (axis ℚ) (reflectPt ss x0) (reflectPt ss x1) =
        flips ss (List.zipWith (axis ℚ) x0 x1) := by
      clear l0 l1
      induction ss generalizing x0 x1 with
      | nil => simp [reflectPt, flips]
      | cons s ss ih =>
        match x0, x1, hl, hc with
        | a :: x0, b :: x1, hl, hc =>
          have := ih (fun t ht => hs t (by simp [ht])) (x0 := x0) (x1 := x1) (by simpa using hl) (by simpa using hc)
            (by rename_i h; simp at h ⊢; omega)
          simp only [reflectPt, flips, List.zipWith_cons_cons] at this ⊢
          rw [this, flip_axis (hs s (by simp))]
    dsimp only
    rw [e, flips_row hs]
    exact lineLoop_flips hs hr junk fuel _ [_] (by simp; omega)

omit hs

/-! ### permutation -/

open Verif.Props (axes)

instance : Inhabited (Axis ℚ) := ⟨⟨0, 0, 0, 0, 0⟩⟩

theorem foldl_min_spec : ∀ (ts : List ℚ) (t : ℚ),
    ts.foldl (fun m t => if t < m then t else m) t ∈ t :: ts ∧
      ∀ u ∈ t :: ts, ts.foldl (fun m t => if t < m then t else m) t ≤ u
  | [], t => by simp
  | s :: ts, t => by
    obtain ⟨h1, h2⟩ := foldl_min_spec ts (if s < t then s else t)
    rw [List.foldl_cons]
    constructor
    · rcases List.mem_cons.1 h1 with h | h
      · rw [h]; split <;> simp
      · simp [h]
    · intro u hu
      have h0 := h2 _ (List.mem_cons_self)
      rcases List.mem_cons.1 hu with rfl | hu
      · refine h0.trans ?_
        split <;> linarith
      · rcases List.mem_cons.1 hu with rfl | hu
        · refine h0.trans ?_
          split <;> linarith
        · exact h2 u (by simp [hu])

theorem tmin_perm {junk : ℚ} {l l' : List (Axis ℚ)} (h : l.Perm l') : tmin junk l = tmin junk l' := by
  have hp := (h.filter fun a => decide (a.v ≠ 0)).map Axis.t
  unfold tmin
  generalize (l.filter fun a => decide (a.v ≠ 0)).map Axis.t = A at hp ⊢
  generalize (l'.filter fun a => decide (a.v ≠ 0)).map Axis.t = B at hp ⊢
  match A, B with
  | [], [] => rfl
  | [], b :: B => exact absurd hp (by simp)
  | a :: A, [] => exact absurd hp (by simp)
  | a :: A, b :: B =>
    obtain ⟨h1, h2⟩ := foldl_min_spec A a
    obtain ⟨h3, h4⟩ := foldl_min_spec B b
    exact le_antisymm (h2 _ (hp.mem_iff.2 h3)) (h4 _ (hp.mem_iff.1 h1))

section
variable {α β γ : Type*} [Inhabited α] [Inhabited β] [Inhabited γ] {σ : List Nat}

theorem axes_mem {l : List α} (hσ : σ.Perm (List.range l.length)) {k : Nat} (hk : k ∈ σ) : k < l.length := by
  simpa using hσ.mem_iff.1 hk

theorem axes_map {l : List α} (hσ : σ.Perm (List.range l.length)) (g : α → β) :
    (axes σ l).map g = axes σ (l.map g) := by
  unfold axes
  rw [List.map_map]
  refine List.map_congr_left fun k hk => ?_
  have := axes_mem hσ hk
  simp [List.getD, this]

theorem axes_zipWith {x : List α} {y : List β} (hσ : σ.Perm (List.range x.length)) (hl : y.length = x.length)
    (g : α → β → γ) : List.zipWith g (axes σ x) (axes σ y) = axes σ (List.zipWith g x y) := by
  unfold axes
  rw [List.zipWith_map, List.zipWith_self]
  refine List.map_congr_left fun k hk => ?_
  have := axes_mem hσ hk
  simp [List.getD, this, hl]

theorem axes_perm_self {l : List α} (hσ : σ.Perm (List.range l.length)) : (axes σ l).Perm l := by
  have h := hσ.map fun k => l.getD k default
  have e := Verif.Props.axes_range l
  unfold axes at e ⊢
  rwa [e] at h

end

variable {σ : List Nat}

theorem actual_axes {tm : ℚ} {l : List (Axis ℚ)} (hσ : σ.Perm (List.range l.length)) :
    actualRows tm (axes σ l) = (axes σ (actualRows tm l).1, (actualRows tm l).2.map (axes σ)) := by
  simp only [actualRows, row]
  rw [axes_map hσ]
  simp only [List.map_cons, List.map_nil]
  rw [axes_map (by simpa using hσ)]

theorem actualLoop_axes (junk : ℚ) : ∀ (fuel : Nat) (l : List (Axis ℚ)) (ret : List (List Int)),
    σ.Perm (List.range l.length) →
    lineLoop actualRows junk fuel (axes σ l) (ret.map (axes σ)) =
      (lineLoop actualRows junk fuel l ret).map fun r => r.map (axes σ)
  | 0, _, _, _ => rfl
  | fuel + 1, l, ret, hσ => by
    have h1 : (actualRows (tmin junk l) l).1.length = l.length := by simp [actualRows]
    have hσ1 : σ.Perm (List.range (actualRows (tmin junk l) l).1.length) := by rwa [h1]
    have hσ2 : σ.Perm (List.range
        ((actualRows (tmin junk l) l).1.map fun a => a.place (tmin junk l)).length) := by
      rwa [List.length_map]
    simp only [lineLoop, tmin_perm (axes_perm_self hσ), actual_axes hσ]
    rw [axes_map hσ1, (axes_perm_self hσ2).all_eq, ← List.map_append]
    split
    · rfl
    · exact actualLoop_axes junk fuel _ _ hσ2

theorem actual_line_axes (junk : ℚ) (fuel : Nat) {x0 x1 : List Int} (hl : x0.length = x1.length)
    (hσ : σ.Perm (List.range x0.length)) :
    line actualRows junk fuel (axes σ x0) (axes σ x1) =
      (line actualRows junk fuel x0 x1).map fun r => r.map (axes σ) := by
  have hn : σ.length = x0.length := by simpa using hσ.length_eq
  unfold line
  rw [Verif.Props.axes_length, Verif.Props.axes_length, hn]
  simp only [← hl]
  split
  · rfl
  · have hz : σ.Perm (List.range (List.zipWith (axis ℚ) x0 x1).length) := by simpa [hl] using hσ
    rw [axes_zipWith hσ hl.symm, row, axes_map hz]
    exact actualLoop_axes junk fuel _ [_] hz

end Verif.Path
