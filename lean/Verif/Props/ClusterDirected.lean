import Verif.Lemmas.ClusterDirected
import Verif.Props.Kernel

/-!
# Kernels that are not point-symmetric (C16, C111)

A pixel is compared with its neighbours when it is added: only pixels that were added before it are seen. With
neighbours that are not mutual, two pixels are linked if the one that was added last sees the other one.
-/

namespace Verif.Props

open Verif Verif.Cluster Outcome Spec Kernel

variable {periodic : Bool} {shape : List Nat} {offsets : List (List Int)} {calls : List Call}

/-! ### C111 -/

/-- **C111**: no sequence of valid calls fails, whatever the offsets; the pixels with a label are the pixels that were
added, and no label exceeds their number. -/
theorem C111_labelled (dbg : Bool) (hv : SafeConfig periodic shape offsets) (hc : ∀ c ∈ calls, c.Valid shape.prod) :
    ∃ s rets, run dbg (init periodic shape offsets) calls = ok (s, rets) ∧ s.label.size = shape.prod ∧
      ∀ p < shape.prod, (labelAt s p ≠ 0 ↔ p ∈ added [] calls) ∧ 0 ≤ labelAt s p ∧
        labelAt s p ≤ (added [] calls).length := by
  obtain ⟨s, rets, e, g⟩ := runLink_ok dbg (safeNb_of_valid hv) calls (goodLink_init (safeNb_of_valid hv)) hc
  have hwf := g.rest.mid.wf
  rw [g.size] at hwf
  refine ⟨s, rets, e, hwf.lsz, fun p hp => ⟨by rw [g.label hp]; exact g.inv.labelled p, ?_⟩⟩
  have h1 := hwf.lab p hp
  have h2 := hwf.cnt
  have h3 : nlabelled s shape.prod ≤ (added [] calls).length := by
    unfold nlabelled
    have hsub : (Finset.range shape.prod).filter (fun p => s.label.get p ≠ 0) ⊆
        (added [] calls).toFinset := by
      intro q hq
      rw [Finset.mem_filter, Finset.mem_range] at hq
      rw [List.mem_toFinset, ← g.inv.labelled q, ← g.label hq.1]
      exact hq.2
    exact (Finset.card_le_card hsub).trans (List.toFinset_card_le _)
  unfold labelAt
  omega

/-- **C111**: two pixels have the same label iff they are joined by pixels of which the one that was added later has
the other one as a neighbour. -/
theorem C111_joined {dbg : Bool} {s : State} {rets : List (List Nat)} (hv : SafeConfig periodic shape offsets)
    (hc : ∀ c ∈ calls, c.Valid shape.prod) (h : run dbg (init periodic shape offsets) calls = ok (s, rets))
    {p q : Nat} (hp : p ∈ added [] calls) (hq : q ∈ added [] calls) :
    labelAt s p = labelAt s q ↔
      Joined (LaterSees (Adj periodic shape offsets) (added [] calls)) (· ∈ added [] calls) p q := by
  obtain ⟨s', rets', e, g⟩ := runLink_ok dbg (safeNb_of_valid hv) calls (goodLink_init (safeNb_of_valid hv)) hc
  rw [h] at e
  cases e
  rw [g.label (g.inv.lt p hp), g.label (g.inv.lt q hq), g.inv.eq_iff hp hq]
  exact link_iff hv g.inv.lt

/-- **C111**: whatever the order, pixels that are neighbours of each other have the same label, and pixels with the
same label are joined by steps that are an offset in one of the two directions. -/
theorem C111_bounds {dbg : Bool} {s : State} {rets : List (List Nat)} (hv : SafeConfig periodic shape offsets)
    (hc : ∀ c ∈ calls, c.Valid shape.prod) (h : run dbg (init periodic shape offsets) calls = ok (s, rets))
    {p q : Nat} (hp : p ∈ added [] calls) (hq : q ∈ added [] calls) :
    (Joined (fun a b => Adj periodic shape offsets a b ∧ Adj periodic shape offsets b a) (· ∈ added [] calls) p q →
      labelAt s p = labelAt s q) ∧
    (labelAt s p = labelAt s q →
      Joined (fun a b => Adj periodic shape offsets a b ∨ Adj periodic shape offsets b a) (· ∈ added [] calls) p q) := by
  rw [C111_joined hv hc h hp hq]
  constructor
  · refine Naive.Joined.congr fun a b ha hb hab hadj => ?_
    unfold LaterSees Before
    rcases Nat.lt_trichotomy ((added [] calls).idxOf a) ((added [] calls).idxOf b) with h1 | h1 | h1
    · exact Or.inr ⟨h1, hadj.2⟩
    · exact absurd (List.idxOf_inj ha |>.1 h1) hab
    · exact Or.inl ⟨h1, hadj.1⟩
  · refine Naive.Joined.congr fun a b _ _ _ hadj => ?_
    rcases hadj with h1 | h1
    · exact Or.inl h1.2
    · exact Or.inr h1.2

/-- **C111**: of two pixels, the one that is added last decides. -/
theorem C111_two (dbg : Bool) (hv : SafeConfig periodic shape offsets) {p q : Nat} (hp : p < shape.prod)
    (hq : q < shape.prod) (hpq : p ≠ q) :
    ∃ s, run dbg (init periodic shape offsets) [.addPoints [p, q]] = ok (s, [[]]) ∧
      (labelAt s p = labelAt s q ↔ Adj periodic shape offsets q p) := by
  have hc : ∀ c ∈ [Call.addPoints [p, q]], c.Valid shape.prod := by
    intro c hc
    simp only [List.mem_singleton] at hc
    subst hc
    intro r hr
    simp only [List.mem_cons, List.not_mem_nil, or_false] at hr
    rcases hr with rfl | rfl <;> assumption
  have hadd : added [] [Call.addPoints [p, q]] = [p, q] := by
    simp [added, Call.visits, visitAll, Ne.symm hpq]
  obtain ⟨s, rets, h, -⟩ := C111_labelled dbg hv hc
  have hrets : rets = [[]] := by
    unfold run at h
    cases e : stepCall dbg (init periodic shape offsets) (.addPoints [p, q]) with
    | ok r =>
      rw [e] at h
      have hr : r.2 = [] := by
        simp only [stepCall] at e
        cases e2 : addPoints dbg (init periodic shape offsets) ([p, q].map fun p : Nat => (p : Int)) with
        | ok t => rw [e2] at e; cases e; rfl
        | throws => rw [e2] at e; cases e
        | ub => rw [e2] at e; cases e
        | diverge => rw [e2] at e; cases e
      simp only [Outcome.bind, run] at h
      cases h
      rw [hr]
    | throws => rw [e] at h; cases h
    | ub => rw [e] at h; cases h
    | diverge => rw [e] at h; cases h
  rw [hrets] at h
  refine ⟨s, h, ?_⟩
  have hj := C111_joined hv hc h (p := p) (q := q) (by rw [hadd]; simp) (by rw [hadd]; simp)
  rw [hj, hadd]
  have ip : List.idxOf p [p, q] = 0 := by simp
  have iq : List.idxOf q [p, q] = 1 := by rw [List.idxOf_cons_ne _ hpq]; simp
  constructor
  · intro hj
    by_contra hno
    have key : ∀ {a b : Nat}, Joined (LaterSees (Adj periodic shape offsets) [p, q]) (· ∈ [p, q]) a b →
        a = p → b = p := by
      intro a b hab
      induction hab with
      | refl _ => exact id
      | @step b c h1 h2 h3 ih =>
        intro e
        have hb := ih e
        subst hb
        simp only [List.mem_cons, List.not_mem_nil, or_false] at h3
        rcases h3 with rfl | rfl
        · rfl
        · unfold LaterSees Before at h2
          rw [ip, iq] at h2
          rcases h2 with ⟨h2, -⟩ | ⟨-, h2⟩
          · omega
          · exact absurd h2 hno
    exact hpq (key hj rfl).symm
  · intro ha
    refine Joined.step (Joined.refl (by simp)) (Or.inr ⟨?_, ha⟩) (by simp)
    unfold Before
    rw [ip, iq]
    omega

/-- **C111**: a labeller built from any kernel of the documented form (in the same cases as `C15_configuration`, but
without symmetry) has a configuration to which these claims apply. -/
theorem C111_configuration (dbg : Bool) {k : Kern} (h : ValidKernel k.shape k.flat) {periodic : Bool}
    {shape : List Nat} (hr : k.shape.length = shape.length) (hn : 1 ≤ shape.length) (hsmall : shape.prod < 2 ^ 62)
    (hwrap : periodic = true → shape.length ≤ 2 →
      List.Forall₂ (fun (n k : Nat) => n ≤ 1 ∨ (k ≤ 2 * n + 1 ∧ k < 2 ^ 62)) shape k.shape)
    (hthin : periodic = false → ∀ n, (shape = [1, n] ∨ shape = [n, 1]) →
      ∀ d0 d1, IsOffset k.shape k.flat [d0, d1] → d0 = 0 ∨ d1 = 0) :
    ∃ dx, constructKernel dbg periodic shape k = ok (init periodic shape dx) ∧
      (∀ d, d ∈ dx ↔ IsOffset k.shape k.flat d) ∧ SafeConfig periodic shape dx := by
  obtain ⟨dx, e, -, hm⟩ := C15_offsets dbg h
  refine ⟨dx, by simp [constructKernel, hr, e, Outcome.bind], hm, ?_⟩
  refine ⟨hn, fun d hd => ?_, hsmall, fun hp hl d hd => ?_, fun hp n hsh d0 d1 hd => ?_⟩
  · rw [offset_length ((hm d).1 hd), hr]
  · obtain ⟨x, hx, -, -, rfl⟩ := (hm d).1 hd
    exact offset_bound h.odd hx (hwrap hp hl)
  · exact hthin hp n hsh d0 d1 ((hm _).1 hd)

/-! ### C16 -/

/-- A pixel and its neighbour at distance `d`. -/
private def from' (d : List Int) : List Int := d.map fun i => max 0 (-i)

private def to' (d : List Int) : List Int := d.map fun i => max 0 i

private theorem from_inbox : ∀ {shape : List Nat} {d : List Int},
    List.Forall₂ (fun (n : Nat) (i : Int) => i.natAbs < n) shape d → InBox shape (from' d) ∧ InBox shape (to' d)
  | [], [], _ => ⟨.nil, .nil⟩
  | _ :: _, _ :: _, .cons h hs => by
    obtain ⟨h1, h2⟩ := from_inbox hs
    exact ⟨.cons ⟨le_max_left _ _, max_lt (by omega) (by omega)⟩ h1, .cons ⟨le_max_left _ _, max_lt (by omega) (by omega)⟩ h2⟩

private theorem from_shifted : ∀ {shape : List Nat} {d : List Int},
    List.Forall₂ (fun (n : Nat) (i : Int) => i.natAbs < n) shape d → Shifted false shape (from' d) d (to' d)
  | [], [], _ => trivial
  | _ :: _, _ :: _, .cons h hs => by
    refine ⟨?_, from_shifted hs⟩
    simp only [Bool.false_eq_true, if_false]
    omega

private theorem back_shifted : ∀ {shape : List Nat} {d d' : List Int},
    List.Forall₂ (fun (n : Nat) (i : Int) => i.natAbs < n) shape d → Shifted false shape (to' d) d' (from' d) →
    d' = d.map fun i => -i
  | [], [], [], _, _ => rfl
  | [], [], _ :: _, _, h => by simp [Shifted, to', from'] at h
  | _ :: _, _ :: _, [], _, h => by simp [Shifted, to', from'] at h
  | _ :: _, a :: d, b :: d', .cons _ hs, h => by
    simp only [to', from', List.map_cons, Shifted, Bool.false_eq_true, if_false] at h
    rw [back_shifted hs h.2, List.map_cons]
    congr 1
    omega

/-- **C16**, for every kernel that is not point-symmetric and every image that is larger than the offset (not periodic):
there are two pixels that get the same label or different labels, depending on their order. -/
theorem C16_general (dbg : Bool) {k : Kern} (h : ValidKernel k.shape k.flat) {shape : List Nat}
    (hr : k.shape.length = shape.length) (hn : 1 ≤ shape.length) (hsmall : shape.prod < 2 ^ 62)
    (hthin : ∀ n, (shape = [1, n] ∨ shape = [n, 1]) →
      ∀ d0 d1, IsOffset k.shape k.flat [d0, d1] → d0 = 0 ∨ d1 = 0) {d : List Int}
    (hd : IsOffset k.shape k.flat d) (hd' : ¬ IsOffset k.shape k.flat (d.map fun i => -i))
    (hfit : List.Forall₂ (fun (n : Nat) (i : Int) => i.natAbs < n) shape d) :
    ∃ s p q s1 s2, constructKernel dbg false shape k = ok s ∧ p < shape.prod ∧ q < shape.prod ∧
      run dbg s [.addPoints [p, q]] = ok (s1, [[]]) ∧ run dbg s [.addPoints [q, p]] = ok (s2, [[]]) ∧
      labelAt s1 p ≠ labelAt s1 q ∧ labelAt s2 p = labelAt s2 q := by
  obtain ⟨dx, e, hm, hv⟩ := C111_configuration dbg h hr hn hsmall (periodic := false) (by simp) (fun _ => hthin)
  obtain ⟨bx, by'⟩ := from_inbox hfit
  have hs := from_shifted hfit
  have rx := flat_range bx
  have ry := flat_range by'
  obtain ⟨p, hp⟩ := Int.eq_ofNat_of_zero_le rx.1
  obtain ⟨q, hq⟩ := Int.eq_ofNat_of_zero_le ry.1
  have hpl : p < shape.prod := by rw [hp] at rx; exact_mod_cast rx.2
  have hql : q < shape.prod := by rw [hq] at ry; exact_mod_cast ry.2
  have hadj : Adj false shape dx p q := ⟨_, _, d, (hm d).2 hd, bx, by', hs, hp, hq⟩
  have hnot : ¬ Adj false shape dx q p := by
    rintro ⟨x, y, d', hd1, hx, hy, hsh, ex, ey⟩
    have e1 := flat_inj hx by' (by rw [ex, hq])
    have e2 := flat_inj hy bx (by rw [ey, hp])
    subst e1 e2
    rw [back_shifted hfit hsh, hm] at hd1
    exact hd' hd1
  have hpq : p ≠ q := by
    rintro rfl
    exact hnot hadj
  obtain ⟨s1, h1, h1'⟩ := C111_two dbg hv hpl hql hpq
  obtain ⟨s2, h2, h2'⟩ := C111_two dbg hv hql hpl (Ne.symm hpq)
  exact ⟨_, p, q, s1, s2, e, hpl, hql, h1, h2, fun hc => hnot (h1'.1 hc), (h2'.2 hadj).symm⟩

/-- The kernel that connects a pixel with the next one along the second axis only, on an image of shape (2, 3). -/
example : ValidKernel [3, 3] [0, 0, 0, 0, 1, 1, 0, 0, 0] ∧ IsOffset [3, 3] [0, 0, 0, 0, 1, 1, 0, 0, 0] [0, 1] := by
  refine ⟨⟨by simp, by simp, by decide⟩, [1, 2], ?_, by decide, by decide, by decide⟩
  exact .cons (by decide) (.cons (by decide) .nil)

example : ¬ IsOffset [3, 3] [0, 0, 0, 0, 1, 1, 0, 0, 0] [0, -1] := by
  rintro ⟨x, hx, -, he, h⟩
  match x, hx with
  | [a, b], .cons h1 (.cons h2 .nil) =>
    simp only [centre, List.map_cons, List.map_nil, List.zipWith_cons_cons, List.zipWith_nil_left, List.cons.injEq,
      and_true] at h
    have ha : a = 1 := by omega
    have hb : b = 0 := by omega
    subst ha hb
    exact he (by decide)

/-- With this kernel the labels depend on the order: (0, 1) first, or (0, 0) first. -/
example :
    (run true (init false [2, 3] [[0, 1]]) [.addPoints [0, 1]]).get?.map (fun r => r.1.label.toList) =
      some [1, 2, 0, 0, 0, 0] ∧
    (run true (init false [2, 3] [[0, 1]]) [.addPoints [1, 0]]).get?.map (fun r => r.1.label.toList) =
      some [1, 1, 0, 0, 0, 0] := by decide

end Verif.Props
