import Verif.Lemmas.ClusterRun

/-! # `ClusterLabeller` with neighbours that need not be mutual -/

namespace Verif

open Spec

namespace Naive

variable {nb : Nat → List Nat}

/-- The neighbours of `p` in a history: those that `p` saw when it was added, and those that saw `p`. -/
def linkNb (nb : Nat → List Nat) (hist : List Nat) (p : Nat) : List Nat :=
  hist.filter fun q => decide (p ∈ hist ∧ ((hist.idxOf q < hist.idxOf p ∧ q ∈ nb p) ∨ (hist.idxOf p < hist.idxOf q ∧ p ∈ nb q)))

theorem mem_linkNb {hist : List Nat} {p q : Nat} :
    q ∈ linkNb nb hist p ↔ q ∈ hist ∧ p ∈ hist ∧ LaterSees (adj nb) hist p q := by
  unfold linkNb LaterSees Before adj
  rw [List.mem_filter, decide_eq_true_eq]

theorem Inv.congr {nb' : Nat → List Nat} {N : Nat} {hist : List Nat} {n : Naive} (h : Inv N nb hist n)
    (hc : ∀ p ∈ hist, ∀ q ∈ hist, q ∈ nb p ↔ q ∈ nb' p) : Inv N nb' hist n where
  nodup := h.nodup
  lt := h.lt
  labelled := h.labelled
  range := h.range
  edge p hp q hq hpq := h.edge p hp q hq ((hc p hp q hq).2 hpq)
  joined p hp q hq e := (Joined.congr_iff fun a b ha hb _ => hc a ha b hb).1 (h.joined p hp q hq e)
  age := h.age

theorem mutual_linkNb (N : Nat) (hist : List Nat) : Mutual N (linkNb nb hist) := by
  intro p q _ _ _ h
  rw [mem_linkNb] at h ⊢
  exact ⟨h.2.1, h.1, h.2.2.symm⟩

theorem add_congr {nb' : Nat → List Nat} {n : Naive} {p : Nat}
    (h : ∀ q, n.lab q ≠ 0 → (q ∈ nb p ↔ q ∈ nb' p)) : n.add nb p = n.add nb' p := by
  have : n.around nb p = n.around nb' p := by
    unfold around
    rw [sortUnique_eq_iff]
    intro c
    simp only [List.mem_filter, List.mem_map, ne_eq, decide_eq_true_eq]
    constructor
    · rintro ⟨⟨q, hq, rfl⟩, h0⟩
      exact ⟨⟨q, (h q h0).1 hq, rfl⟩, h0⟩
    · rintro ⟨⟨q, hq, rfl⟩, h0⟩
      exact ⟨⟨q, (h q h0).2 hq, rfl⟩, h0⟩
  unfold add
  rw [this]

theorem inv_addLink {N : Nat} {hist : List Nat} {n : Naive} (h : Inv N (linkNb nb hist) hist n) {p : Nat}
    (hp : p < N) : Inv N (linkNb nb (if p ∈ hist then hist else hist ++ [p]))
      (if p ∈ hist then hist else hist ++ [p]) (n.add nb p) := by
  by_cases hmem : p ∈ hist
  · rw [if_pos hmem]
    unfold add
    rw [if_pos ((h.labelled p).2 hmem)]
    exact h
  · have hold : ∀ a ∈ hist, (hist ++ [p]).idxOf a = hist.idxOf a := fun a ha => idxOf_append_of_mem ha
    have hnew : (hist ++ [p]).idxOf p = hist.length := idxOf_append_new hmem
    have h1 : Inv N (linkNb nb (hist ++ [p])) hist n := by
      refine h.congr fun a ha b hb => ?_
      rw [mem_linkNb, mem_linkNb]
      unfold LaterSees Before
      rw [hold a ha, hold b hb]
      simp [ha, hb]
    have h2 : n.add nb p = n.add (linkNb nb (hist ++ [p])) p := by
      refine add_congr fun q hq => ?_
      have hq' := (h.labelled q).1 hq
      rw [mem_linkNb]
      unfold LaterSees Before
      rw [hold q hq', hnew]
      have := List.idxOf_lt_length_iff.2 hq'
      unfold adj
      constructor
      · intro hm
        exact ⟨List.mem_append_left _ hq', by simp, Or.inl ⟨this, hm⟩⟩
      · rintro ⟨-, -, ⟨-, hm⟩ | ⟨hc, -⟩⟩
        · exact hm
        · omega
    have := inv_add (mutual_linkNb N _) h1 hp
    rw [if_neg hmem] at this ⊢
    rw [h2]
    exact this

theorem inv_foldlLink {N : Nat} : ∀ (pts : List Nat) {hist : List Nat} {n : Naive},
    Inv N (linkNb nb hist) hist n → (∀ p ∈ pts, p < N) →
    Inv N (linkNb nb (visitAll hist pts)) (visitAll hist pts) (pts.foldl (add nb) n)
  | [], _, _, h, _ => h
  | p :: pts, _, _, h, hp =>
    inv_foldlLink pts (inv_addLink h (hp p (by simp))) (fun q hq => hp q (by simp [hq]))

end Naive

namespace Cluster

open Outcome

/-- The labeller between two calls, after the pixels of `hist` were added. -/
structure GoodLink (periodic : Bool) (shape : List Nat) (offsets : List (List Int)) (hist : List Nat)
    (s : State) (n : Naive) : Prop where
  rest : Rest s n
  inv : Naive.Inv shape.prod (Naive.linkNb (nbs periodic shape offsets) hist) hist n
  per : s.periodic = periodic
  sh : s.shape = shape
  dx : s.dx = offsets

variable {periodic : Bool} {shape : List Nat} {offsets : List (List Int)} {hist : List Nat} {s : State} {n : Naive}

theorem GoodLink.nb (h : GoodLink periodic shape offsets hist s n) : nbOf s = nbs periodic shape offsets := by
  unfold nbOf; rw [h.per, h.sh, h.dx]

theorem GoodLink.size (h : GoodLink periodic shape offsets hist s n) : prodShape s.shape = shape.prod := by
  rw [h.sh, prodShape_eq]

theorem GoodLink.label (h : GoodLink periodic shape offsets hist s n) {p : Nat}
    (hp : p < shape.prod) : labelAt s p = n.lab p :=
  h.rest.label (by rw [h.size]; exact hp)

theorem goodLink_init (hv : SafeNb periodic shape offsets) :
    GoodLink periodic shape offsets [] (init periodic shape offsets) Naive.empty :=
  ⟨init_rest _ _ _ hv, Naive.inv_empty _ _, rfl, rfl, rfl⟩

theorem stepLink_ok (dbg : Bool) (hv : SafeNb periodic shape offsets)
    (h : GoodLink periodic shape offsets hist s n) {c : Call} (hc : c.Valid shape.prod) :
    ∃ s' ret, stepCall dbg s c = ok (s', ret) ∧
      GoodLink periodic shape offsets (addedStep hist c) s'
        (naiveStep (nbs periodic shape offsets) shape.prod n c) := by
  cases c with
  | addImage img =>
    obtain ⟨s', e, r, cf⟩ := addImage_ok dbg h.rest.mid (img := img) (by rw [h.size]; exact hc)
    rw [h.nb, onPixels_eq] at r
    refine ⟨s', [], by simp [stepCall, e, Outcome.bind], r, ?_, cf.1.trans h.per, cf.2.1.trans h.sh,
      cf.2.2.trans h.dx⟩
    refine Naive.inv_foldlLink _ h.inv ?_
    intro p hp
    unfold Call.visits at hp
    rw [List.mem_filter, List.mem_range] at hp
    have : img.length = shape.prod := hc
    omega
  | addPoints pts =>
    obtain ⟨s', e, r, cf⟩ := addPoints_ok dbg h.rest.mid (pts := pts)
      (fun p hp => by rw [h.size]; exact hc p hp)
    rw [h.nb] at r
    exact ⟨s', [], by simp [stepCall, e, Outcome.bind], r, Naive.inv_foldlLink _ h.inv hc,
      cf.1.trans h.per, cf.2.1.trans h.sh, cf.2.2.trans h.dx⟩
  | addSequence pts =>
    obtain ⟨s', new, e, cf, r, -⟩ := addSequence_ok dbg h.rest.mid (pts := pts) hc.1
      (fun p hp => by rw [h.size]; exact hc.2 p hp)
    rw [h.nb] at r
    exact ⟨s', _, e, r, Naive.inv_foldlLink _ h.inv hc.2,
      cf.1.trans h.per, cf.2.1.trans h.sh, cf.2.2.trans h.dx⟩
  | prune =>
    obtain ⟨s', e, r, cf⟩ := prune_ok h.rest
    rw [h.size] at r
    exact ⟨s', [], by simp [stepCall, e, Outcome.bind], r, Naive.inv_prune h.inv,
      cf.1.trans h.per, cf.2.1.trans h.sh, cf.2.2.trans h.dx⟩
  | reset =>
    refine ⟨reset s, [], rfl, ?_⟩
    rw [reset_eq h.rest, h.per, h.sh, h.dx]
    exact goodLink_init hv

theorem runLink_ok (dbg : Bool) (hv : SafeNb periodic shape offsets) : ∀ (calls : List Call) {hist : List Nat}
    {s : State} {n : Naive}, GoodLink periodic shape offsets hist s n → (∀ c ∈ calls, c.Valid shape.prod) →
    ∃ s' rets, run dbg s calls = ok (s', rets) ∧
      GoodLink periodic shape offsets (added hist calls) s'
        (calls.foldl (naiveStep (nbs periodic shape offsets) shape.prod) n)
  | [], _, s, n, h, _ => ⟨s, [], rfl, h⟩
  | c :: calls, hist, s, n, h, hc => by
    obtain ⟨s1, ret, e1, g1⟩ := stepLink_ok dbg hv h (hc c (by simp))
    obtain ⟨s2, rets, e2, g2⟩ := runLink_ok dbg hv calls g1 (fun c' h' => hc c' (by simp [h']))
    refine ⟨s2, ret :: rets, by simp [run, e1, e2, Outcome.bind], ?_⟩
    rw [added_cons]
    exact g2

/-- Links by `nbs` are links by the neighbours of the specification. -/
theorem link_iff (hv : SafeConfig periodic shape offsets) {hist : List Nat} (hlt : ∀ p ∈ hist, p < shape.prod)
    {p q : Nat} :
    Joined (Naive.adj (Naive.linkNb (nbs periodic shape offsets) hist)) (· ∈ hist) p q ↔
      Joined (LaterSees (Adj periodic shape offsets) hist) (· ∈ hist) p q := by
  refine Naive.Joined.congr_iff fun p q hp hq hpq => ?_
  show q ∈ Naive.linkNb _ hist p ↔ _
  rw [Naive.mem_linkNb]
  unfold LaterSees Naive.adj
  rw [mem_nbs hv (hlt p hp) hpq, mem_nbs hv (hlt q hq) (Ne.symm hpq)]
  simp [hp, hq]

end Cluster

end Verif
