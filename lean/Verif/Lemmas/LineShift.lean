import Verif.Lemmas.Line

/-!
# Paths that do not start at the origin

If `x0` is on the line through the origin with the direction of the path then the loop makes the same
steps as from the origin.
-/

namespace Verif.Path

open Verif Outcome Spec

/-- A shift, an axis of the loop from the origin, and the same axis of the shifted loop. -/
abbrev Trip := Int × (Axis ℚ) × (Axis ℚ)

/-- The two axes make the same steps; the parameters differ by `κ`. -/
structure Sim (lam κ : ℚ) (p : Trip) : Prop where
  xa0 : p.2.1.xa = 0
  xa : p.2.2.xa = p.1
  xb : p.2.2.xb = p.2.1.xb + p.1
  c : p.2.2.c = p.2.1.c + p.1
  next : p.2.2.next = p.2.1.next
  x : p.2.1.v ≠ 0 → p.2.2.x = p.2.1.x + p.2.1.v * κ
  col : p.2.1.v ≠ 0 → (p.1 : ℚ) = lam * p.2.1.v

theorem Sim.v {lam κ : ℚ} {p : Trip} (h : Sim lam κ p) : p.2.2.v = p.2.1.v := by
  unfold Axis.v
  rw [h.xa, h.xb, h.xa0]
  push_cast
  ring

theorem Sim.t {lam κ : ℚ} {p : Trip} (h : Sim lam κ p) (h0 : p.2.1.v ≠ 0) :
    p.2.2.t = p.2.1.t - κ := by
  unfold Axis.t
  rw [h.v, h.next, h.x h0]
  field_simp
  ring

theorem Sim.selected {lam κ : ℚ} {p : Trip} (h : Sim lam κ p) (tm : ℚ) :
    p.2.2.selected (tm - κ) = p.2.1.selected tm := by
  unfold Axis.selected
  rw [h.v]
  by_cases h0 : p.2.1.v = 0
  · simp [h0]
  · rw [h.t h0]
    have : p.2.1.t - κ - (tm - κ) = p.2.1.t - tm := by ring
    rw [this]

/-- Both axes advance. -/
def adv (p : Trip) : Trip := (p.1, p.2.1.advance, p.2.2.advance)

theorem Sim.adv {lam κ : ℚ} {p : Trip} (h : Sim lam κ p) : Sim lam κ (adv p) := by
  have hs : p.2.2.sign = p.2.1.sign := by unfold Axis.sign; rw [h.v]
  have hi : (p.2.2.xb - p.2.2.xa).sign = (p.2.1.xb - p.2.1.xa).sign := by
    rw [h.xa, h.xb, h.xa0]; congr 1; omega
  refine ⟨h.xa0, h.xa, h.xb, ?_, ?_, h.x, h.col⟩
  · simp only [Path.adv, Axis.advance, h.c, hi]; omega
  · simp only [Path.adv, Axis.advance, h.next, hs]

theorem Sim.place {lam κ : ℚ} {p : Trip} (h : Sim lam κ p) (tm : ℚ) :
    Sim lam (lam - κ) (p.1, p.2.1.place tm, p.2.2.place (tm - κ)) := by
  refine ⟨h.xa0, h.xa, h.xb, h.c, h.next, fun h0 => ?_, h.col⟩
  have h0' : p.2.1.v ≠ 0 := h0
  have e : p.2.2.v = p.2.1.v := h.v
  have e2 : (p.2.1.place tm).v = p.2.1.v := rfl
  simp only [Axis.place, h.xa, h.xa0]
  rw [e]
  rw [h.col h0']
  have e3 : (Axis.mk 0 p.2.1.xb p.2.1.c p.2.1.next (((0 : Int) : ℚ) + p.2.1.v * tm)).v = p.2.1.v := by
    unfold Axis.v; rw [h.xa0]
  rw [e3]
  push_cast
  ring

/-- The axes of the loop from the origin. -/
def org (L : List Trip) : List (Axis ℚ) := L.map fun p => p.2.1

/-- The axes of the shifted loop. -/
def shf (L : List Trip) : List (Axis ℚ) := L.map fun p => p.2.2

/-- The shift. -/
def off (L : List Trip) : List Int := L.map fun p => p.1

theorem foldl_min_shift (κ : ℚ) : ∀ (ts : List ℚ) (t : ℚ),
    (ts.map fun u => u - κ).foldl (fun m t => if t < m then t else m) (t - κ) =
      ts.foldl (fun m t => if t < m then t else m) t - κ
  | [], t => rfl
  | s :: ts, t => by
    rw [List.map_cons, List.foldl_cons, List.foldl_cons, ← foldl_min_shift κ ts]
    congr 1
    by_cases h : s < t
    · rw [if_pos h, if_pos (by linarith)]
    · rw [if_neg h, if_neg (by linarith)]

theorem tmin_shift {lam κ junk junk' : ℚ} {L : List Trip} (h : ∀ p ∈ L, Sim lam κ p)
    (hne : ∃ p ∈ L, p.2.1.v ≠ 0) : tmin junk' (shf L) = tmin junk (org L) - κ := by
  have e : ((shf L).filter fun a => a.v ≠ 0).map Axis.t =
      (((org L).filter fun a => a.v ≠ 0).map Axis.t).map fun u => u - κ := by
    unfold shf org
    rw [List.filter_map, List.filter_map, List.map_map, List.map_map, List.map_map]
    have e1 : L.filter ((fun a : Axis ℚ => decide (a.v ≠ 0)) ∘ fun p : Trip => p.2.2) =
        L.filter ((fun a : Axis ℚ => decide (a.v ≠ 0)) ∘ fun p : Trip => p.2.1) := by
      apply List.filter_congr
      intro p hp
      simp only [Function.comp, (h p hp).v]
    rw [e1]
    apply List.map_congr_left
    intro p hp
    rw [List.mem_filter] at hp
    have h0 : p.2.1.v ≠ 0 := by simpa using hp.2
    exact (h p hp.1).t h0
  unfold tmin
  rw [e]
  match hl : ((org L).filter fun a => a.v ≠ 0).map Axis.t with
  | [] =>
    obtain ⟨p, hp, h0⟩ := hne
    have : p.2.1.t ∈ ((org L).filter fun a => a.v ≠ 0).map Axis.t := by
      apply List.mem_map_of_mem
      rw [List.mem_filter]
      exact ⟨List.mem_map.2 ⟨p, hp, rfl⟩, by simpa using h0⟩
    rw [hl] at this
    simp at this
  | t :: ts => rw [hl]; exact foldl_min_shift κ ts t

/-- Addition of points. -/
theorem row_shf {lam κ : ℚ} {L : List Trip} (h : ∀ p ∈ L, Sim lam κ p) :
    row (shf L) = addPt (row (org L)) (off L) := by
  unfold row shf org off addPt
  rw [List.map_map, List.map_map]
  induction L with
  | nil => rfl
  | cons p L ih =>
    rw [List.map_cons, List.map_cons, List.map_cons, List.zipWith_cons_cons,
      ih fun q hq => h q (by simp [hq])]
    simp [(h p (by simp)).c]

/-- The update of the two loops emits shifted rows. -/
def Shifts (rows : ℚ → List (Axis ℚ) → List (Axis ℚ) × List (List Int)) : Prop :=
  ∀ (lam κ tm : ℚ) (L : List Trip), (∀ p ∈ L, Sim lam κ p) →
    ∃ L' out, off L' = off L ∧ (∀ p ∈ L', Sim lam κ p) ∧ L'.map (fun p => p.2.1.v) = L.map (fun p => p.2.1.v) ∧
      rows tm (org L) = (org L', out) ∧ rows (tm - κ) (shf L) = (shf L', out.map fun y => addPt y (off L))

theorem adv_v (p : Trip) : (adv p).2.1.v = p.2.1.v := rfl

theorem actual_shifts : Shifts actualRows := by
  intro lam κ tm L h
  have e1 : ((org L).map fun a => if a.selected tm then a.advance else a) =
      org (L.map fun p => if p.2.1.selected tm then adv p else p) := by
    unfold org
    rw [List.map_map, List.map_map]
    apply List.map_congr_left
    intro p _
    simp only [Function.comp]
    split <;> rfl
  have e2 : ((shf L).map fun a => if a.selected (tm - κ) then a.advance else a) =
      shf (L.map fun p => if p.2.1.selected tm then adv p else p) := by
    unfold shf
    rw [List.map_map, List.map_map]
    apply List.map_congr_left
    intro p hp
    simp only [Function.comp, (h p hp).selected]
    split <;> rfl
  have e3 : off (L.map fun p => if p.2.1.selected tm then adv p else p) = off L := by
    unfold off
    rw [List.map_map]
    apply List.map_congr_left
    intro p hp
    simp only [Function.comp]
    split <;> rfl
  have h' : ∀ p ∈ (L.map fun p => if p.2.1.selected tm then adv p else p), Sim lam κ p := by
    intro p hp
    obtain ⟨q, hq, rfl⟩ := List.mem_map.1 hp
    split
    · exact (h q hq).adv
    · exact h q hq
  refine ⟨_, [row (org (L.map fun p => if p.2.1.selected tm then adv p else p))], e3, h', ?_, ?_, ?_⟩
  · rw [List.map_map]
    apply List.map_congr_left
    intro p _
    simp only [Function.comp]
    split <;> rfl
  · simp only [actualRows]
    rw [e1]
  · simp only [actualRows]
    rw [e2, row_shf h', e3]
    rfl

theorem full_shifts_aux {lam κ tm : ℚ} : ∀ (P D : List Trip),
    (∀ p ∈ D ++ P, Sim lam κ p) →
    ∃ L' out, off L' = off (D ++ P) ∧ (∀ p ∈ L', Sim lam κ p) ∧
      L'.map (fun p => p.2.1.v) = (D ++ P).map (fun p => p.2.1.v) ∧
      fullRows tm (org D) (org P) = (org L', out) ∧
      fullRows (tm - κ) (shf D) (shf P) = (shf L', out.map fun y => addPt y (off (D ++ P)))
  | [], D, h => ⟨D, [], by simp, by simpa using h, by simp, rfl, rfl⟩
  | p :: P, D, h => by
    have hp := h p (by simp)
    by_cases hs : p.2.1.selected tm
    · have h' : ∀ q ∈ (D ++ [adv p]) ++ P, Sim lam κ q := by
        intro q hq
        simp only [List.append_assoc, List.mem_append, List.mem_cons, List.not_mem_nil, or_false] at hq
        rcases hq with hq | rfl | hq
        · exact h q (by simp [hq])
        · exact hp.adv
        · exact h q (by simp [hq])
      obtain ⟨L', out, h1, h2, h3, h4, h5⟩ := full_shifts_aux (tm := tm) P (D ++ [adv p]) h'
      have ho : off (D ++ [adv p] ++ P) = off (D ++ p :: P) := by simp [off, adv]
      have hv : (D ++ [adv p] ++ P).map (fun p => p.2.1.v) = (D ++ p :: P).map (fun p => p.2.1.v) := by
        simp [adv_v]
      rw [ho] at h1 h5
      refine ⟨L', row (org (D ++ [adv p] ++ P)) :: out, h1, h2, h3.trans hv, ?_, ?_⟩
      · have : org (D ++ [adv p]) = org D ++ [p.2.1.advance] := by simp [org, adv]
        rw [this] at h4
        show fullRows tm (org D) (p.2.1 :: org P) = _
        rw [fullRows, if_pos hs]
        simp only [h4]
        simp [org, adv]
      · have : shf (D ++ [adv p]) = shf D ++ [p.2.2.advance] := by simp [shf, adv]
        rw [this] at h5
        show fullRows (tm - κ) (shf D) (p.2.2 :: shf P) = _
        rw [fullRows, if_pos (by rw [hp.selected]; exact hs)]
        simp only [h5]
        rw [List.map_cons, ← ho, ← row_shf h']
        simp [shf, adv]
    · obtain ⟨L', out, h1, h2, h3, h4, h5⟩ := full_shifts_aux (tm := tm) P (D ++ [p]) (by simpa using h)
      have ho : D ++ [p] ++ P = D ++ p :: P := by simp
      rw [ho] at h1 h3 h5
      refine ⟨L', out, h1, h2, h3, ?_, ?_⟩
      · have : org (D ++ [p]) = org D ++ [p.2.1] := by simp [org]
        rw [this] at h4
        show fullRows tm (org D) (p.2.1 :: org P) = _
        rw [fullRows, if_neg hs, h4]
      · have : shf (D ++ [p]) = shf D ++ [p.2.2] := by simp [shf]
        rw [this] at h5
        show fullRows (tm - κ) (shf D) (p.2.2 :: shf P) = _
        rw [fullRows, if_neg (by rw [hp.selected]; exact hs), h5]

theorem full_shifts : Shifts fun tm => fullRows tm [] := by
  intro lam κ tm L h
  exact full_shifts_aux L [] h

theorem lineLoop_shift {rows : ℚ → List (Axis ℚ) → List (Axis ℚ) × List (List Int)} (hr : Shifts rows)
    (junk junk' : ℚ) {x0 : List Int} {lam : ℚ} : ∀ (fuel : Nat) (κ : ℚ) (L : List Trip) (ret : List (List Int)),
    off L = x0 → (∀ p ∈ L, Sim lam κ p) → (∃ p ∈ L, p.2.1.v ≠ 0) →
    lineLoop rows junk' fuel (shf L) (ret.map fun y => addPt y x0) =
      (lineLoop rows junk fuel (org L) ret).map (fun r => r.map fun y => addPt y x0)
  | 0, κ, L, ret, _, _, _ => rfl
  | fuel + 1, κ, L, ret, ho, h, hne => by
    unfold lineLoop
    simp only
    rw [tmin_shift (junk := junk) h hne]
    obtain ⟨L', out, h1, h2, h3, h4, h5⟩ := hr lam κ (tmin junk (org L)) L h
    rw [h4, h5, ho]
    simp only
    set tm := tmin junk (org L)
    set L'' : List Trip := L'.map fun p => (p.1, p.2.1.place tm, p.2.2.place (tm - κ)) with hL
    have e1 : (org L').map (fun a => a.place tm) = org L'' := by
      rw [hL]; unfold org; rw [List.map_map, List.map_map]; rfl
    have e2 : (shf L').map (fun a => a.place (tm - κ)) = shf L'' := by
      rw [hL]; unfold shf; rw [List.map_map, List.map_map]; rfl
    have h'' : ∀ p ∈ L'', Sim lam (lam - κ) p := by
      intro p hp
      rw [hL] at hp
      obtain ⟨q, hq, rfl⟩ := List.mem_map.1 hp
      exact (h2 q hq).place tm
    have ho'' : off L'' = x0 := by
      rw [← ho, ← h1, hL]; unfold off; rw [List.map_map]; rfl
    have hne'' : ∃ p ∈ L'', p.2.1.v ≠ 0 := by
      obtain ⟨p, hp, h0⟩ := hne
      have : p.2.1.v ∈ L'.map (fun p => p.2.1.v) := by rw [h3]; exact List.mem_map.2 ⟨p, hp, rfl⟩
      obtain ⟨q, hq, e⟩ := List.mem_map.1 this
      refine ⟨_, by rw [hL]; exact List.mem_map_of_mem hq, ?_⟩
      show q.2.1.v ≠ 0
      rw [e]; exact h0
    rw [e1, e2]
    clear_value L''
    have hall : ((shf L'').all fun a => a.c == a.xb) = ((org L'').all fun a => a.c == a.xb) := by
      unfold shf org
      rw [List.all_map, List.all_map, Bool.eq_iff_iff, List.all_eq_true, List.all_eq_true]
      apply forall₂_congr
      intro p hp
      have hc := (h'' p hp).c
      have hb := (h'' p hp).xb
      simp only [Function.comp, beq_iff_eq]
      omega
    rw [hall]
    split
    · simp [Outcome.map]
    · rw [← List.map_append, lineLoop_shift hr junk junk' fuel (lam - κ) L'' _ ho'' h'' hne'']

theorem axis_shift {lam : ℚ} {a v : Int} (h : v ≠ 0 → (a : ℚ) = lam * v) :
    Sim lam lam (a, axis ℚ 0 v, axis ℚ a (v + a)) := by
  have hv : ∀ (c : Int) (n x : ℚ), (Axis.mk 0 v c n x).v = v := by intro c n x; simp [Axis.v]
  have hv' : ∀ (c : Int) (n x : ℚ), (Axis.mk a (v + a) c n x).v = v := by
    intro c n x; simp [Axis.v]
  refine ⟨rfl, rfl, by simp [axis], by simp [axis], ?_, ?_, ?_⟩
  · simp only [axis, Axis.sign, hv, hv']
  · intro h0
    simp only [axis, hv] at h0 ⊢
    rw [h (by exact_mod_cast h0)]
    push_cast
    ring
  · intro h0
    simp only [axis, hv] at h0 ⊢
    exact h (by exact_mod_cast h0)

/-- From a point on the line through the origin the path is the path from the origin, shifted. -/
theorem line_shift {rows : ℚ → List (Axis ℚ) → List (Axis ℚ) × List (List Int)} (hr : Shifts rows)
    (junk junk' : ℚ) (fuel : Nat) {x0 v : List Int} {lam : ℚ} (h3 : v.length ≤ 3)
    (hl : x0.length = v.length)
    (hc : ∀ i < v.length, v.getD i 0 ≠ 0 → (x0.getD i 0 : ℚ) = lam * v.getD i 0)
    (hne : ∃ a ∈ v, a ≠ 0) :
    line rows junk' fuel x0 (addPt v x0) =
      (line rows junk fuel (List.replicate v.length 0) v).map (fun r => r.map fun y => addPt y x0) := by
  unfold line
  rw [if_neg (by simp [addPt]; omega), if_neg (by simp; omega)]
  simp only
  set L : List Trip := List.zipWith (fun a v => (a, axis ℚ 0 v, axis ℚ a (v + a))) x0 v with hL
  have e1 : List.zipWith (axis ℚ) (List.replicate v.length 0) v = org L := by
    rw [hL]; clear hL hc hne h3
    induction v generalizing x0 with
    | nil => cases x0 with
      | nil => rfl
      | cons _ _ => simp at hl
    | cons a v ih => cases x0 with
      | nil => simp at hl
      | cons b x0 =>
        have := ih (x0 := x0) (by simpa using hl)
        rw [List.length_cons, List.replicate_succ, List.zipWith_cons_cons, List.zipWith_cons_cons, this]
        rfl
  have e2 : List.zipWith (axis ℚ) x0 (addPt v x0) = shf L := by
    rw [hL]; clear e1 hL hc hne h3
    induction v generalizing x0 with
    | nil => cases x0 with
      | nil => rfl
      | cons _ _ => simp at hl
    | cons a v ih => cases x0 with
      | nil => simp at hl
      | cons b x0 =>
        have := ih (x0 := x0) (by simpa using hl)
        unfold addPt at *
        rw [List.zipWith_cons_cons, List.zipWith_cons_cons, List.zipWith_cons_cons, this]
        rfl
  have e3 : off L = x0 := by
    rw [hL]; clear e1 e2 hL hc hne h3
    induction v generalizing x0 with
    | nil => cases x0 with
      | nil => rfl
      | cons _ _ => simp at hl
    | cons a v ih => cases x0 with
      | nil => simp at hl
      | cons b x0 =>
        have := ih (x0 := x0) (by simpa using hl)
        rw [List.zipWith_cons_cons]
        unfold off at *
        rw [List.map_cons, this]
  have hs : ∀ p ∈ L, Sim lam lam p := by
    intro p hp
    rw [hL] at hp
    obtain ⟨i, hi, rfl⟩ := List.mem_iff_getElem.1 hp
    rw [List.getElem_zipWith]
    have hi' : i < v.length := by rw [List.length_zipWith] at hi; omega
    have hi2 : i < x0.length := by omega
    apply axis_shift
    intro h0
    have := hc i hi' (by simpa [List.getD, hi'] using h0)
    simpa [List.getD, hi', hi2] using this
  have hn : ∃ p ∈ L, p.2.1.v ≠ 0 := by
    obtain ⟨a, ha, h0⟩ := hne
    obtain ⟨i, hi, rfl⟩ := List.mem_iff_getElem.1 ha
    have hi2 : i < x0.length := by omega
    refine ⟨L[i]'(by rw [hL]; simp; omega), List.getElem_mem _, ?_⟩
    simp only [hL, List.getElem_zipWith]
    simpa [axis, Axis.v] using h0
  rw [e1, e2, row_shf hs, e3]
  exact lineLoop_shift hr junk junk' fuel lam L [row (org L)] e3 hs hn

end Verif.Path
