import Verif.Spec.Trace
import Verif.Props.ClusterAnyCalls

/-!
# The grouping of pixels into calls does not matter (C115)

For every shape and every kernel. The labels, not only the partition, are the same for all ways to pass the same pixels
in the same order.
-/

namespace Verif.Props

open Verif Verif.Cluster Outcome Spec Kernel

variable {dbg periodic : Bool} {shape : List Nat} {offsets : List (List Int)} {calls : List Call}
  {s : State} {rets : List (List Nat)}

/-! ### proofs: replaying the steps -/

/-- One step of the naive labeller. -/
def naiveOf (nb : Nat → List Nat) (N : Nat) (n : Naive) : Step → Naive
  | .new p => n.add nb p
  | .prune => n.prune N

/-- The labels follow from the steps. -/
structure Replays (nb : Nat → List Nat) (N : Nat) (hist : List Nat) (t : List Step) (n : Naive) : Prop where
  eq : n = t.foldl (naiveOf nb N) Naive.empty
  mem : ∀ p, .new p ∈ t ↔ p ∈ hist
  inv : Naive.Inv N (Naive.linkNb nb hist) hist n

theorem replays_visits {nb : Nat → List Nat} {N : Nat} : ∀ (pts : List Nat) {hist : List Nat} {t : List Step} {n : Naive},
    Replays nb N hist t n → (∀ p ∈ pts, p < N) →
    Replays nb N (visitAll hist pts) (traceVisits t pts) (pts.foldl (Naive.add nb) n)
  | [], _, _, _, h, _ => h
  | p :: pts, hist, t, n, h, hp => by
    rw [visitAll, traceVisits, List.foldl_cons]
    refine replays_visits pts ⟨?_, ?_, Naive.inv_addLink h.inv (hp p (by simp))⟩ (fun q hq => hp q (by simp [hq]))
    · by_cases hm : .new p ∈ t
      · rw [if_pos hm, ← h.eq]
        unfold Naive.add
        rw [if_pos ((h.inv.labelled p).2 ((h.mem p).1 hm))]
      · rw [if_neg hm, List.foldl_append, ← h.eq]
        rfl
    · intro q
      by_cases hm : .new p ∈ t
      · rw [if_pos hm, if_pos ((h.mem p).1 hm)]
        exact h.mem q
      · rw [if_neg hm, if_neg (mt (h.mem p).2 hm), List.mem_append, List.mem_append, h.mem q]
        simp

theorem replays_run {nb : Nat → List Nat} {N : Nat} : ∀ (calls : List Call) {hist : List Nat} {t : List Step} {n : Naive},
    Replays nb N hist t n → (∀ c ∈ calls, c.Valid N) →
    Replays nb N (added hist calls) (trace t calls) (calls.foldl (naiveStep nb N) n)
  | [], _, _, _, h, _ => h
  | c :: calls, hist, t, n, h, hc => by
    have hc' : ∀ c' ∈ calls, c'.Valid N := fun c' h' => hc c' (by simp [h'])
    have hcv := hc c (by simp)
    rw [List.foldl_cons]
    cases c with
    | addImage img =>
      refine replays_run calls (replays_visits _ h fun p hp => ?_) hc'
      unfold Call.visits at hp
      rw [List.mem_filter, List.mem_range] at hp
      have : img.length = N := hcv
      omega
    | addPoints pts => exact replays_run calls (replays_visits _ h hcv) hc'
    | addSequence pts => exact replays_run calls (replays_visits _ h hcv.2) hc'
    | prune =>
      refine replays_run calls ⟨?_, fun p => ?_, Naive.inv_prune h.inv⟩ hc'
      · rw [List.foldl_append, ← h.eq]
        rfl
      · rw [List.mem_append, h.mem p]
        simp [visitAll, Call.visits]
    | reset => exact replays_run calls ⟨rfl, by simp, Naive.inv_empty _ _⟩ hc'

/-! ### C115 -/

/-- **C115**: two histories with the same steps (pixels that are added for the first time since the last `reset`, and
calls of `prune`, in this order) give the same labels. -/
theorem C115_labels {dbg' : Bool} {calls' : List Call} {s' : State} {rets' : List (List Nat)}
    (hv : AnyConfig shape offsets) (hc : ∀ c ∈ calls, c.Valid shape.prod) (hc' : ∀ c ∈ calls', c.Valid shape.prod)
    (h : run dbg (init periodic shape offsets) calls = ok (s, rets))
    (h' : run dbg' (init periodic shape offsets) calls' = ok (s', rets')) (ht : trace [] calls = trace [] calls')
    {p : Nat} (hp : p < shape.prod) : labelAt s p = labelAt s' p := by
  obtain ⟨s1, rets1, e, g⟩ := runLink_ok dbg (safeNb_any hv) calls (goodLink_init (periodic := periodic) (safeNb_any hv)) hc
  obtain ⟨s1', rets1', e', g'⟩ := runLink_ok dbg' (safeNb_any hv) calls' (goodLink_init (periodic := periodic) (safeNb_any hv)) hc'
  rw [h] at e
  cases e
  rw [h'] at e'
  cases e'
  have h0 : Replays (nbs periodic shape offsets) shape.prod [] [] Naive.empty := ⟨rfl, by simp, Naive.inv_empty _ _⟩
  have r := replays_run calls h0 hc
  have r' := replays_run calls' h0 hc'
  rw [g.label hp, g'.label hp, r.eq, r'.eq, ht]

theorem trace_append : ∀ (c1 c2 : List Call) (t : List Step), trace t (c1 ++ c2) = trace (trace t c1) c2
  | [], _, _ => rfl
  | c :: c1, c2, t => by cases c <;> exact trace_append c1 c2 _

/-- **C115**: the same after any further calls. -/
theorem C115_continued {dbg' : Bool} {calls' more : List Call} {s' : State} {rets' : List (List Nat)}
    (hv : AnyConfig shape offsets) (hc : ∀ c ∈ calls, c.Valid shape.prod) (hc' : ∀ c ∈ calls', c.Valid shape.prod)
    (hm : ∀ c ∈ more, c.Valid shape.prod)
    (h : run dbg (init periodic shape offsets) (calls ++ more) = ok (s, rets))
    (h' : run dbg' (init periodic shape offsets) (calls' ++ more) = ok (s', rets')) (ht : trace [] calls = trace [] calls')
    {p : Nat} (hp : p < shape.prod) : labelAt s p = labelAt s' p := by
  refine C115_labels hv ?_ ?_ h h' (by rw [trace_append, trace_append, ht]) hp
  · intro c hcm
    rcases List.mem_append.1 hcm with h1 | h1
    · exact hc c h1
    · exact hm c h1
  · intro c hcm
    rcases List.mem_append.1 hcm with h1 | h1
    · exact hc' c h1
    · exact hm c h1

theorem traceVisits_new : ∀ (pts hist : List Nat),
    traceVisits (hist.map .new) pts = (visitAll hist pts).map .new
  | [], _ => rfl
  | p :: pts, hist => by
    rw [traceVisits, visitAll, ← traceVisits_new pts]
    congr 1
    have : Step.new p ∈ hist.map .new ↔ p ∈ hist := by simp
    by_cases h : p ∈ hist
    · rw [if_pos h, if_pos (this.2 h)]
    · rw [if_neg h, if_neg (mt this.1 h)]
      simp

theorem trace_new : ∀ (calls : List Call) (hist : List Nat), (∀ c ∈ calls, c ≠ .prune) →
    trace (hist.map .new) calls = (added hist calls).map .new
  | [], _, _ => rfl
  | c :: calls, hist, h => by
    have h' : ∀ c ∈ calls, c ≠ Call.prune := fun c hc => h c (by simp [hc])
    cases c with
    | prune => exact absurd rfl (h _ (by simp))
    | reset => exact trace_new calls [] h'
    | addImage img =>
      show trace (traceVisits (hist.map .new) _) calls = _
      rw [traceVisits_new]
      exact trace_new calls _ h'
    | addPoints pts =>
      show trace (traceVisits (hist.map .new) _) calls = _
      rw [traceVisits_new]
      exact trace_new calls _ h'
    | addSequence pts =>
      show trace (traceVisits (hist.map .new) _) calls = _
      rw [traceVisits_new]
      exact trace_new calls _ h'

/-- **C115**: in particular, without `prune` the labels depend on the order of first visits only. -/
theorem C115_added {dbg' : Bool} {calls' : List Call} {s' : State} {rets' : List (List Nat)}
    (hv : AnyConfig shape offsets) (hc : ∀ c ∈ calls, c.Valid shape.prod) (hc' : ∀ c ∈ calls', c.Valid shape.prod)
    (hn : ∀ c ∈ calls, c ≠ .prune) (hn' : ∀ c ∈ calls', c ≠ .prune)
    (h : run dbg (init periodic shape offsets) calls = ok (s, rets))
    (h' : run dbg' (init periodic shape offsets) calls' = ok (s', rets')) (ha : added [] calls = added [] calls')
    {p : Nat} (hp : p < shape.prod) : labelAt s p = labelAt s' p := by
  refine C115_labels hv hc hc' h h' ?_ hp
  have e1 := trace_new calls [] hn
  have e2 := trace_new calls' [] hn'
  rw [List.map_nil] at e1 e2
  rw [e1, e2, ha]

/-- **C115**: adding pixels that have a label already leaves the object exactly as it is. -/
theorem C115_again (hv : AnyConfig shape offsets) (hc : ∀ c ∈ calls, c.Valid shape.prod)
    (h : run dbg (init periodic shape offsets) calls = ok (s, rets)) {c : Call} (hcv : c.Valid shape.prod)
    (hadd : c ≠ .prune ∧ c ≠ .reset) (hvis : ∀ p ∈ c.visits, p ∈ added [] calls) :
    ∃ ret, stepCall dbg s c = ok (s, ret) := by
  obtain ⟨n, g⟩ := runAny_good hv hc h
  have hwf := g.rest.mid.wf
  rw [g.size] at hwf
  have hread : ∀ p ∈ added [] calls, addPoint s (p : Int) = ok s := by
    intro p hp
    have hlt := g.inv.lt p hp
    have h0 : s.label.get p ≠ 0 := by
      have := g.label hlt
      unfold labelAt at this
      rw [this]
      exact (g.inv.labelled p).2 hp
    unfold addPoint Vec.read
    rw [if_pos (by rw [hwf.lsz]; omega)]
    simp only [Outcome.bind, Int.toNat_natCast]
    rw [if_pos h0]
  have hmerge : applyMerge s = ok s := by
    unfold applyMerge
    rw [if_pos g.rest.nomerge]
  have hpts : ∀ pts : List Nat, (∀ p ∈ pts, p ∈ added [] calls) →
      forM (pts.map fun p : Nat => (p : Int)) s addPoint = ok s := by
    intro pts
    induction pts with
    | nil => intro _; rfl
    | cons p pts ih =>
      intro hp
      rw [List.map_cons, forM, hread p (hp p (by simp))]
      exact ih fun q hq => hp q (by simp [hq])
  have hlegal : ∀ pts : List Nat, (∀ p ∈ pts, p ∈ added [] calls) →
      legalPoints s (pts.map fun p : Nat => (p : Int)) = true := by
    intro pts hp
    unfold legalPoints
    rw [Bool.not_eq_true', List.any_eq_false]
    intro x hx
    obtain ⟨q, hq, rfl⟩ := List.mem_map.1 hx
    have := g.inv.lt q (hp q hq)
    have := hv.small
    rw [decide_eq_true_eq, hwf.lsz]
    unfold toSize
    omega
  have hall : ∀ pts : List Nat, (∀ p ∈ pts, p ∈ added [] calls) → stepCall dbg s (.addPoints pts) = ok (s, []) := by
    intro pts hp
    simp only [stepCall, addPoints, hlegal pts hp, Bool.not_true, Bool.and_false, Bool.false_eq_true, if_false, hpts pts hp,
      Outcome.bind, hmerge]
  cases c with
  | addPoints pts => exact ⟨[], hall pts hvis⟩
  | addSequence pts =>
    obtain ⟨s', ret, e1, e2⟩ := C114_add_sequence hv hc h hcv.1 hcv.2
    rw [hall pts hvis] at e2
    cases e2
    exact ⟨ret, e1⟩
  | addImage img =>
    refine ⟨[], ?_⟩
    have hrun : ∀ l : List (Nat × Int), (∀ a ∈ l, a.2 = 0 ∨ a.1 ∈ added [] calls) → forM l s addPixel = ok s := by
      intro l
      induction l with
      | nil => intro _; rfl
      | cons a l ih =>
        intro hl
        rw [forM]
        have : addPixel s a = ok s := by
          unfold addPixel
          rcases hl a (by simp) with h0 | h0
          · rw [if_pos h0]
          · split
            · rfl
            · exact hread _ h0
        rw [this]
        exact ih fun b hb => hl b (by simp [hb])
    have : forM ((List.range img.length).zip img) s addPixel = ok s := by
      refine hrun _ fun a ha => ?_
      obtain ⟨k, hk, e⟩ := List.getElem_of_mem ha
      rw [List.getElem_zip] at e
      simp only [List.getElem_range] at e
      rw [List.length_zip, List.length_range, min_self] at hk
      subst e
      by_cases h0 : img[k] = 0
      · exact Or.inl h0
      · right
        refine hvis k ?_
        unfold Call.visits
        rw [List.mem_filter, List.mem_range]
        refine ⟨hk, ?_⟩
        simp [List.getD, hk, h0]
    simp only [stepCall, addImage, g.sh, bne_self_eq_false, Bool.and_false, Bool.false_eq_true, if_false, this,
      Outcome.bind, hmerge]
  | prune => exact absurd rfl hadd.1
  | reset => exact absurd rfl hadd.2

/-- An image, or its pixels one by one, some of them twice. -/
example : trace [] [.addImage [0, 1, 0, 0, 1, 1, 0, 1, 0, 0, 0, 1], .prune, .addPoints [4, 0]] =
    trace [] [.addPoints [3], .reset, .addPoints [1], .addSequence [4, 1, 5], .addImage [0, 1, 0, 0, 0, 0, 0, 1, 0, 0, 0, 1],
      .prune, .addPoints [0]] := by decide

example : ∀ p ∈ (Call.addPoints [0, 5, 5]).visits, p ∈ added [] exAnyCalls := by decide

end Verif.Props
