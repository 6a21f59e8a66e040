import Verif.Lemmas.ClusterCalls
import Verif.Lemmas.Adjacency
import Verif.Model.ClusterClient

/-! # `ClusterLabeller`: invariant of arbitrary call histories -/

namespace Verif.Cluster

open Verif Outcome Spec

theorem onPixels_eq (img : List Int) :
    onPixels img = (Call.addImage img).visits := by
  have key : ∀ (img : List Int) (k : Nat),
      ((List.range' k img.length).zip img).filterMap
        (fun p => if p.2 = 0 then none else some p.1) =
      (List.range' k img.length).filter fun p => img.getD (p - k) 0 ≠ 0 := by
    intro img
    induction img with
    | nil => intro k; simp
    | cons v img ih =>
      intro k
      rw [List.length_cons, List.range'_succ, List.zip_cons_cons]
      have hrest : (List.range' (k + 1) img.length).filter (fun p => (v :: img).getD (p - k) 0 ≠ 0) =
          (List.range' (k + 1) img.length).filter fun p => img.getD (p - (k + 1)) 0 ≠ 0 := by
        apply List.filter_congr
        intro p hp
        rw [List.mem_range'_1] at hp
        obtain ⟨m, rfl⟩ : ∃ m, p = k + 1 + m := ⟨p - (k + 1), by omega⟩
        rw [show k + 1 + m - k = m + 1 by omega, show k + 1 + m - (k + 1) = m by omega]
        simp
      by_cases hv : v = 0
      · rw [List.filterMap_cons_none (by simp [hv]), ih, List.filter_cons_of_neg (by simp [hv]), hrest]
      · rw [List.filterMap_cons_some (b := k) (by simp [hv]), ih,
          List.filter_cons_of_pos (by simp [hv]), hrest]
  have := key img 0
  unfold onPixels Call.visits
  rw [List.range_eq_range', this]
  simp [List.range_eq_range']

/-- The labeller between two calls, after the pixels of `hist` were added. -/
structure Good (periodic : Bool) (shape : List Nat) (offsets : List (List Int)) (hist : List Nat)
    (s : State) (n : Naive) : Prop where
  rest : Rest s n
  inv : Naive.Inv shape.prod (nbs periodic shape offsets) hist n
  per : s.periodic = periodic
  sh : s.shape = shape
  dx : s.dx = offsets

theorem Good.nb {periodic : Bool} {shape : List Nat} {offsets : List (List Int)} {hist : List Nat}
    {s : State} {n : Naive} (h : Good periodic shape offsets hist s n) :
    nbOf s = nbs periodic shape offsets := by
  unfold nbOf; rw [h.per, h.sh, h.dx]

theorem Good.size {periodic : Bool} {shape : List Nat} {offsets : List (List Int)} {hist : List Nat}
    {s : State} {n : Naive} (h : Good periodic shape offsets hist s n) :
    prodShape s.shape = shape.prod := by
  rw [h.sh, prodShape_eq]

theorem Good.label {periodic : Bool} {shape : List Nat} {offsets : List (List Int)} {hist : List Nat}
    {s : State} {n : Naive} (h : Good periodic shape offsets hist s n) {p : Nat}
    (hp : p < shape.prod) : labelAt s p = n.lab p :=
  h.rest.label (by rw [h.size]; exact hp)

theorem good_init {periodic : Bool} {shape : List Nat} {offsets : List (List Int)}
    (hv : ValidConfig periodic shape offsets) :
    Good periodic shape offsets [] (init periodic shape offsets) Naive.empty :=
  ⟨init_rest _ _ _ (safeNb_of_valid hv.safe), Naive.inv_empty _ _, rfl, rfl, rfl⟩

/-- The history after one more call. -/
def addedStep (hist : List Nat) : Call → List Nat
  | .reset => []
  | c => visitAll hist c.visits

theorem added_cons (hist : List Nat) (c : Call) (calls : List Call) :
    added hist (c :: calls) = added (addedStep hist c) calls := by
  cases c <;> rfl

theorem added_append (hist : List Nat) (c1 c2 : List Call) :
    added hist (c1 ++ c2) = added (added hist c1) c2 := by
  induction c1 generalizing hist with
  | nil => rfl
  | cons c c1 ih => rw [List.cons_append, added_cons, added_cons, ih]

/-- What one call does to the naive labels. -/
def naiveStep (nb : Nat → List Nat) (N : Nat) (n : Naive) : Call → Naive
  | .reset => Naive.empty
  | .prune => n.prune N
  | c => c.visits.foldl (Naive.add nb) n

theorem step_ok (dbg : Bool) {periodic : Bool} {shape : List Nat} {offsets : List (List Int)}
    (hv : ValidConfig periodic shape offsets) {hist : List Nat} {s : State} {n : Naive}
    (h : Good periodic shape offsets hist s n) {c : Call} (hc : c.Valid shape.prod) :
    ∃ s' ret, stepCall dbg s c = ok (s', ret) ∧
      Good periodic shape offsets (addedStep hist c) s'
        (naiveStep (nbs periodic shape offsets) shape.prod n c) := by
  have hm := mutual_nbs hv
  cases c with
  | addImage img =>
    obtain ⟨s', e, r, cf⟩ := addImage_ok dbg h.rest.mid (img := img) (by rw [h.size]; exact hc)
    rw [h.nb, onPixels_eq] at r
    refine ⟨s', [], by simp [stepCall, e, Outcome.bind], r, ?_, cf.1.trans h.per, cf.2.1.trans h.sh,
      cf.2.2.trans h.dx⟩
    refine Naive.inv_foldl hm _ h.inv ?_
    intro p hp
    unfold Call.visits at hp
    rw [List.mem_filter, List.mem_range] at hp
    have : img.length = shape.prod := hc
    omega
  | addPoints pts =>
    obtain ⟨s', e, r, cf⟩ := addPoints_ok dbg h.rest.mid (pts := pts)
      (fun p hp => by rw [h.size]; exact hc p hp)
    rw [h.nb] at r
    exact ⟨s', [], by simp [stepCall, e, Outcome.bind], r, Naive.inv_foldl hm _ h.inv hc,
      cf.1.trans h.per, cf.2.1.trans h.sh, cf.2.2.trans h.dx⟩
  | addSequence pts =>
    obtain ⟨s', new, e, cf, r, -⟩ := addSequence_ok dbg h.rest.mid (pts := pts) hc.1
      (fun p hp => by rw [h.size]; exact hc.2 p hp)
    rw [h.nb] at r
    exact ⟨s', _, e, r, Naive.inv_foldl hm _ h.inv hc.2,
      cf.1.trans h.per, cf.2.1.trans h.sh, cf.2.2.trans h.dx⟩
  | prune =>
    obtain ⟨s', e, r, cf⟩ := prune_ok h.rest
    rw [h.size] at r
    exact ⟨s', [], by simp [stepCall, e, Outcome.bind], r, Naive.inv_prune h.inv,
      cf.1.trans h.per, cf.2.1.trans h.sh, cf.2.2.trans h.dx⟩
  | reset =>
    refine ⟨reset s, [], rfl, ?_⟩
    rw [reset_eq h.rest, h.per, h.sh, h.dx]
    exact good_init hv

theorem run_ok (dbg : Bool) {periodic : Bool} {shape : List Nat} {offsets : List (List Int)}
    (hv : ValidConfig periodic shape offsets) : ∀ (calls : List Call) {hist : List Nat} {s : State}
    {n : Naive}, Good periodic shape offsets hist s n → (∀ c ∈ calls, c.Valid shape.prod) →
    ∃ s' rets n', run dbg s calls = ok (s', rets) ∧
      Good periodic shape offsets (added hist calls) s' n'
  | [], _, s, n, h, _ => ⟨s, [], n, rfl, h⟩
  | c :: calls, hist, s, n, h, hc => by
    obtain ⟨s1, ret, e1, g1⟩ := step_ok dbg hv h (hc c (by simp))
    obtain ⟨s2, rets, n2, e2, g2⟩ := run_ok dbg hv calls g1 (fun c' h' => hc c' (by simp [h']))
    refine ⟨s2, ret :: rets, n2, by simp [run, e1, e2, Outcome.bind], ?_⟩
    rw [added_cons]
    exact g2

theorem run_good {dbg : Bool} {periodic : Bool} {shape : List Nat} {offsets : List (List Int)}
    (hv : ValidConfig periodic shape offsets) {calls : List Call}
    (hc : ∀ c ∈ calls, c.Valid shape.prod) {s : State} {rets : List (List Nat)}
    (h : run dbg (init periodic shape offsets) calls = ok (s, rets)) :
    ∃ n, Good periodic shape offsets (added [] calls) s n := by
  obtain ⟨s', rets', n', e, g⟩ := run_ok dbg hv calls (good_init hv) hc
  rw [h] at e
  cases e
  exact ⟨n', g⟩

theorem run_append (dbg : Bool) (calls : List Call) (c : Call) (s : State) :
    run dbg s (calls ++ [c]) = (run dbg s calls).bind fun t =>
      (stepCall dbg t.1 c).bind fun r => ok (r.1, t.2 ++ [r.2]) := by
  induction calls generalizing s with
  | nil =>
    simp only [List.nil_append, run, Outcome.bind]
  | cons a calls ih =>
    simp only [List.cons_append, run]
    cases h : stepCall dbg s a with
    | ok r =>
      simp only [Outcome.bind]
      rw [ih]
      cases h2 : run dbg r.1 calls with
      | ok t =>
        simp only [Outcome.bind]
        cases stepCall dbg t.1 c <;> rfl
      | throws => rfl
      | ub => rfl
      | diverge => rfl
    | throws => rfl
    | ub => rfl
    | diverge => rfl

/-- Paths along `nbs` are paths along the neighbours of the specification. -/
theorem joined_iff {periodic : Bool} {shape : List Nat} {offsets : List (List Int)}
    (hv : ValidConfig periodic shape offsets) {hist : List Nat} (hlt : ∀ p ∈ hist, p < shape.prod)
    {p q : Nat} :
    Joined (Naive.adj (nbs periodic shape offsets)) (· ∈ hist) p q ↔
      Joined (Adj periodic shape offsets) (· ∈ hist) p q :=
  Naive.Joined.congr_iff fun p _ hp _ hpq => mem_nbs hv.safe (hlt p hp) hpq

theorem added_lt {shape : List Nat} {calls : List Call} {periodic : Bool}
    {offsets : List (List Int)} (hv : ValidConfig periodic shape offsets)
    (hc : ∀ c ∈ calls, c.Valid shape.prod) : ∀ p ∈ added [] calls, p < shape.prod := by
  obtain ⟨s, rets, n, -, g⟩ := run_ok true hv calls (good_init hv) hc
  exact g.inv.lt

end Verif.Cluster
