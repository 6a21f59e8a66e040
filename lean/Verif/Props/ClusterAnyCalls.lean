import Verif.Props.ClusterAny
import Verif.Props.Cluster

/-!
# Histories of a labeller, for every shape and every kernel (C114)

`C05` to `C11` are about kernels that are point-symmetric and shapes on which the labeller looks at the pixel at the
offset. Here neither is assumed. `LaterSees (Sees periodic shape offsets) hist` links two pixels of `hist` if the one
that was added later was compared with the other one.
-/

namespace Verif.Props

open Verif Verif.Cluster Outcome Spec Kernel

variable {dbg periodic : Bool} {shape : List Nat} {offsets : List (List Int)} {calls : List Call}
  {s : State} {rets : List (List Nat)}

theorem runAny_good (hv : AnyConfig shape offsets) (hc : ∀ c ∈ calls, c.Valid shape.prod)
    (h : run dbg (init periodic shape offsets) calls = ok (s, rets)) :
    ∃ n, GoodLink periodic shape offsets (added [] calls) s n := by
  obtain ⟨s', rets', e, g⟩ := runLink_ok dbg (safeNb_any hv) calls (goodLink_init (safeNb_any hv)) hc
  rw [h] at e
  cases e
  exact ⟨_, g⟩

theorem stable_foldlAny {nb : Nat → List Nat} : ∀ (pts : List Nat) (n : Naive), Naive.Stable n (pts.foldl (Naive.add nb) n)
  | [], n => Naive.Stable.refl n
  | p :: pts, n => (Naive.stable_add n p).trans (stable_foldlAny pts _)

theorem anyBackground (hv : AnyConfig shape offsets) (hc : ∀ c ∈ calls, c.Valid shape.prod)
    (h : run dbg (init periodic shape offsets) calls = ok (s, rets)) {p : Nat}
    (hp : p < shape.prod) : labelAt s p = 0 ↔ p ∉ added [] calls := by
  obtain ⟨n, g⟩ := runAny_good hv hc h
  rw [g.label hp, ← g.inv.labelled p]
  tauto

/-- Adding `p` to `hist` starts a cluster or merges clusters: `p` sees no pixel of `hist`, or it sees two that are not
joined. -/
def StartsOrMergesLater (sees : Nat → Nat → Prop) (hist : List Nat) (p : Nat) : Prop :=
  (∀ q ∈ hist, ¬ sees p q) ∨
  ∃ a ∈ hist, ∃ b ∈ hist, sees p a ∧ sees p b ∧ ¬ Joined (LaterSees sees hist) (· ∈ hist) a b

/-- **C114**: `p`'s label is lower than `q`'s iff some pixel of `p`'s cluster was added before all pixels
of `q`'s cluster. -/
theorem C114_age (hv : AnyConfig shape offsets)
    (hc : ∀ c ∈ calls, c.Valid shape.prod)
    (h : run dbg (init periodic shape offsets) calls = ok (s, rets)) {p q : Nat}
    (hp : p ∈ added [] calls) (hq : q ∈ added [] calls) :
    labelAt s p < labelAt s q ↔
      ∃ o, Joined (LaterSees (Sees periodic shape offsets) (added [] calls)) (· ∈ added [] calls) p o ∧
        ∀ o', Joined (LaterSees (Sees periodic shape offsets) (added [] calls)) (· ∈ added [] calls) q o' →
          Before (added [] calls) o o' := by
  obtain ⟨n, g⟩ := runAny_good hv hc h
  rw [g.label (g.inv.lt p hp), g.label (g.inv.lt q hq), g.inv.lt_iff hp hq]
  simp only [link_any hv g.inv.lt]


/-- **C114**: after `prune` the nonzero labels are exactly `1, ..., n`, background is unchanged, and the
order and equality of labels is unchanged. -/
theorem C114_prune (hv : AnyConfig shape offsets)
    (hc : ∀ c ∈ calls, c.Valid shape.prod)
    (h : run dbg (init periodic shape offsets) calls = ok (s, rets)) :
    ∃ s' k, stepCall dbg s .prune = ok (s', []) ∧
      (∀ p < shape.prod, labelAt s' p = 0 ↔ labelAt s p = 0) ∧
      (∀ l : Int, 1 ≤ l ∧ l ≤ (k : Nat) ↔ l ≠ 0 ∧ ∃ p < shape.prod, labelAt s' p = l) ∧
      (∀ p < shape.prod, ∀ q < shape.prod, labelAt s' p < labelAt s' q ↔ labelAt s p < labelAt s q) ∧
      ∀ p < shape.prod, ∀ q < shape.prod, labelAt s' p = labelAt s' q ↔ labelAt s p = labelAt s q := by
  obtain ⟨n, g⟩ := runAny_good hv hc h
  obtain ⟨s', e, r, cf⟩ := prune_ok g.rest
  have g' : GoodLink periodic shape offsets (added [] calls) s' (n.prune shape.prod) :=
    ⟨by rw [g.size] at r; exact r, Naive.inv_prune g.inv, cf.1.trans g.per, cf.2.1.trans g.sh,
      cf.2.2.trans g.dx⟩
  have hz : ∀ p, (n.prune shape.prod).lab p = 0 ↔ n.lab p = 0 := by
    intro p
    have h1 := g.inv.labelled p
    have h2 := g'.inv.labelled p
    tauto
  have hlt : ∀ p q, (n.prune shape.prod).lab p < (n.prune shape.prod).lab q ↔ n.lab p < n.lab q := by
    intro p q
    have p1 := g.inv.range p
    have p2 := g'.inv.range p
    have q1 := g.inv.range q
    have q2 := g'.inv.range q
    by_cases hp : n.lab p = 0
    · have := (hz p).2 hp
      have := hz q
      omega
    · by_cases hq : n.lab q = 0
      · have := (hz q).2 hq
        omega
      · exact g.inv.prune_lt ((g.inv.labelled p).1 hp) ((g.inv.labelled q).1 hq)
  refine ⟨s', ((n.prune shape.prod).new - 1).toNat, by simp [stepCall, e, Outcome.bind], ?_, ?_, ?_, ?_⟩
  · intro p hp
    rw [g'.label hp, g.label hp]
    exact hz p
  · intro l
    have hnew := g'.inv.range 0
    constructor
    · rintro ⟨h1, h2⟩
      obtain ⟨p, hp, e⟩ := g.inv.prune_onto h1 (by omega)
      have hp' := g.inv.lt p hp
      exact ⟨by omega, p, hp', by rw [g'.label hp']; exact e⟩
    · rintro ⟨h1, p, hp, e⟩
      rw [g'.label hp] at e
      have := g'.inv.range p
      omega
  · intro p hp q hq
    rw [g'.label hp, g.label hp, g'.label hq, g.label hq]
    exact hlt p q
  · intro p hp q hq
    rw [g'.label hp, g.label hp, g'.label hq, g.label hq]
    have h1 := hlt p q
    have h2 := hlt q p
    omega


/-- **C114**: a second `prune` changes no label. -/
theorem C114_prune_idempotent (hv : AnyConfig shape offsets)
    (hc : ∀ c ∈ calls, c.Valid shape.prod)
    (h : run dbg (init periodic shape offsets) calls = ok (s, rets)) :
    ∃ s' s'', stepCall dbg s .prune = ok (s', []) ∧ stepCall dbg s' .prune = ok (s'', []) ∧
      ∀ p < shape.prod, labelAt s'' p = labelAt s' p := by
  obtain ⟨s', k, e, hz, hk, hlt, -⟩ := C114_prune hv hc h
  have hc' : ∀ c ∈ calls ++ [Call.prune], c.Valid shape.prod := by
    intro c hcm
    rcases List.mem_append.1 hcm with h1 | h1
    · exact hc c h1
    · simp at h1; subst h1; trivial
  have h' : run dbg (init periodic shape offsets) (calls ++ [Call.prune]) = ok (s', rets ++ [[]]) := by
    rw [run_append, h]
    simp [Outcome.bind, e]
  obtain ⟨s'', k', e', hz', hk', hlt', -⟩ := C114_prune hv hc' h'
  refine ⟨s', s'', e, e', ?_⟩
  exact eq_of_order hk' hk hz' hlt'

/-- **C114**: two histories with the same first-visit order that end with `prune` give equal labels. -/
theorem C114_equal_after_prune {dbg' : Bool} {calls' : List Call} {s' : State}
    {rets' : List (List Nat)} (hv : AnyConfig shape offsets)
    (hc : ∀ c ∈ calls, c.Valid shape.prod) (hc' : ∀ c ∈ calls', c.Valid shape.prod)
    (h : run dbg (init periodic shape offsets) (calls ++ [.prune]) = ok (s, rets))
    (h' : run dbg' (init periodic shape offsets) (calls' ++ [.prune]) = ok (s', rets'))
    (hsame : added [] calls = added [] calls') {p : Nat} (hp : p < shape.prod) :
    labelAt s p = labelAt s' p := by
  obtain ⟨s0, rets0, e0, -⟩ := C113_labelled dbg periodic hv hc
  obtain ⟨s0', rets0', e0', -⟩ := C113_labelled dbg' periodic hv hc'
  obtain ⟨s1, k, e1, hz, hk, hlt, -⟩ := C114_prune hv hc e0
  obtain ⟨s1', k', e1', hz', hk', hlt', -⟩ := C114_prune hv hc' e0'
  rw [run_append, e0] at h
  rw [run_append, e0'] at h'
  simp only [Outcome.bind, e1, e1'] at h h'
  cases h
  cases h'
  have hz0 : ∀ p < shape.prod, labelAt s0 p = 0 ↔ labelAt s0' p = 0 := by
    intro p hp
    rw [anyBackground hv hc e0 hp, anyBackground hv hc' e0' hp, hsame]
  refine eq_of_order hk hk' (fun p hp => ?_) (fun p hp q hq => ?_) p hp
  · rw [hz p hp, hz' p hp, hz0 p hp]
  · rw [hlt p hp q hq, hlt' p hp q hq]
    have b1 := anyBackground hv hc e0 hp
    have b2 := anyBackground hv hc e0 hq
    have b3 := hz0 p hp
    have b4 := hz0 q hq
    obtain ⟨sx, rx, ex, -, hx⟩ := C113_labelled dbg periodic hv hc
    rw [e0] at ex; cases ex
    obtain ⟨sy, ry, ey, -, hy⟩ := C113_labelled dbg' periodic hv hc'
    rw [e0'] at ey; cases ey
    have x1 := (hx p hp).2
    have x2 := (hx q hq).2
    have y1 := (hy p hp).2
    have y2 := (hy q hq).2
    by_cases hpm : p ∈ added [] calls
    · by_cases hqm : q ∈ added [] calls
      · rw [C114_age hv hc e0 hpm hqm,
          C114_age hv hc' e0' (by rw [← hsame]; exact hpm) (by rw [← hsame]; exact hqm), hsame]
      · have := b2.2 hqm
        have := b4.1 this
        omega
    · have h1 := b1.2 hpm
      have h2 := b3.1 h1
      by_cases hqm : q ∈ added [] calls
      · have h3 : labelAt s0 q ≠ 0 := fun e => b2.1 e hqm
        have h4 : labelAt s0' q ≠ 0 := fun e => h3 (b4.2 e)
        omega
      · have h3 := b2.2 hqm
        have h4 := b4.1 h3
        omega


/-- **C114**: an addition keeps the label of a labelled pixel, or lowers it to the label that another
labelled pixel had and keeps, to which it is then connected. -/
theorem C114_stable (hv : AnyConfig shape offsets)
    (hc : ∀ c ∈ calls, c.Valid shape.prod)
    (h : run dbg (init periodic shape offsets) calls = ok (s, rets)) {c : Call}
    (hcv : c.Valid shape.prod) (hadd : c ≠ .prune ∧ c ≠ .reset) :
    ∃ s' ret, stepCall dbg s c = ok (s', ret) ∧
      ∀ p ∈ added [] calls, labelAt s' p = labelAt s p ∨
        (labelAt s' p < labelAt s p ∧ ∃ q ∈ added [] calls, labelAt s q = labelAt s' p ∧
          labelAt s' q = labelAt s' p ∧
          Joined (LaterSees (Sees periodic shape offsets) (added [] (calls ++ [c])))
            (· ∈ added [] (calls ++ [c])) p q) := by
  obtain ⟨n, g⟩ := runAny_good hv hc h
  obtain ⟨s', ret, e, g'⟩ := stepLink_ok dbg (safeNb_any hv) g hcv
  have hst : Naive.Stable n (naiveStep (nbs periodic shape offsets) shape.prod n c) := by
    cases c with
    | addImage img => exact stable_foldlAny _ _
    | addPoints pts => exact stable_foldlAny _ _
    | addSequence pts => exact stable_foldlAny _ _
    | prune => exact absurd rfl hadd.1
    | reset => exact absurd rfl hadd.2
  refine ⟨s', ret, e, fun p hp => ?_⟩
  have hpl := g.inv.lt p hp
  have h0 := (g.inv.labelled p).2 hp
  rw [g.label hpl, g'.label hpl]
  obtain ⟨hle, hne⟩ := hst.le p h0
  rcases eq_or_lt_of_le hle with h1 | h1
  · exact Or.inl h1
  · right
    obtain ⟨q, hq0, hq1, hq2⟩ := hst.old p hne (by have := g.inv.range p; omega)
    have hq := (g.inv.labelled q).1 hq0
    have hql := g.inv.lt q hq
    refine ⟨h1, q, hq, by rw [g.label hql]; exact hq1, by rw [g'.label hql]; exact hq2, ?_⟩
    rw [added_append, added_cons]
    show Joined (LaterSees _ (addedStep (added [] calls) c)) (· ∈ addedStep (added [] calls) c) p q
    rw [← link_any hv g'.inv.lt]
    have hp' := (g'.inv.labelled p).1 hne
    have hq' := (g'.inv.labelled q).1 (by rw [hq2]; exact hne)
    exact (g'.inv.eq_iff hp' hq').1 hq2.symm


/-- **C114**: after `reset` every continuation is that of a new labeller. -/
theorem C114_reset (hv : AnyConfig shape offsets)
    (hc : ∀ c ∈ calls, c.Valid shape.prod)
    (h : run dbg (init periodic shape offsets) calls = ok (s, rets)) (more : List Call) :
    stepCall dbg s .reset = ok (reset s, []) ∧
      run dbg (reset s) more = run dbg (init periodic shape offsets) more := by
  obtain ⟨n, g⟩ := runAny_good hv hc h
  refine ⟨rfl, ?_⟩
  rw [reset_eq g.rest, g.per, g.sh, g.dx]


/-- **C114**: `add_sequence` leaves the labeller in exactly the state in which `add_points` leaves it. -/
theorem C114_add_sequence (hv : AnyConfig shape offsets)
    (hc : ∀ c ∈ calls, c.Valid shape.prod)
    (h : run dbg (init periodic shape offsets) calls = ok (s, rets)) {pts : List Nat}
    (hne : pts ≠ []) (hp : ∀ p ∈ pts, p < shape.prod) :
    ∃ s' ret, stepCall dbg s (.addSequence pts) = ok (s', ret) ∧
      stepCall dbg s (.addPoints pts) = ok (s', []) := by
  obtain ⟨n, g⟩ := runAny_good hv hc h
  obtain ⟨s', new, e, -, -, e', -⟩ := addSequence_ok dbg g.rest.mid hne
    (fun p hp' => by rw [g.size]; exact hp p hp')
  exact ⟨s', _, e, by simp [stepCall, e', Outcome.bind]⟩


theorem eventLater_iff (hv : AnyConfig shape offsets) {hist : List Nat} {n : Naive}
    (hi : Naive.Inv shape.prod (Naive.linkNb (nbs periodic shape offsets) hist) hist n) {p : Nat} (hp : p < shape.prod)
    (hnew : p ∉ hist) :
    n.Event (nbs periodic shape offsets) p ↔ StartsOrMergesLater (Sees periodic shape offsets) hist p := by
  have h0 : n.lab p = 0 := by
    by_contra hc; exact hnew ((hi.labelled p).1 hc)
  have hnb : ∀ q ∈ hist, (q ∈ nbs periodic shape offsets p ↔ Sees periodic shape offsets p q) :=
    fun q hq => mem_nbs_any hv hp (fun e => hnew (e ▸ hq))
  have hmem : ∀ c, c ∈ n.around (nbs periodic shape offsets) p ↔
      ∃ q ∈ hist, Sees periodic shape offsets p q ∧ n.lab q = c := by
    intro c
    rw [Naive.mem_around]
    constructor
    · rintro ⟨h1, q, h2, rfl⟩
      have hq := (hi.labelled q).1 h1
      exact ⟨q, hq, (hnb q hq).1 h2, rfl⟩
    · rintro ⟨q, hq, h2, rfl⟩
      exact ⟨(hi.labelled q).2 hq, q, (hnb q hq).2 h2, rfl⟩
  have hsorted : (n.around (nbs periodic shape offsets) p).Pairwise (· < ·) := sortUnique_sorted _
  unfold Naive.Event StartsOrMergesLater
  rw [and_iff_right h0]
  constructor
  · intro hlen
    match har : n.around (nbs periodic shape offsets) p with
    | [] =>
      left
      intro q hq ha
      have := (hmem (n.lab q)).2 ⟨q, hq, ha, rfl⟩
      rw [har] at this
      simp at this
    | [c] => rw [har] at hlen; simp at hlen
    | c :: d :: l =>
      right
      rw [har] at hsorted hmem
      obtain ⟨a, ha, hpa, ea⟩ := (hmem c).1 (by simp)
      obtain ⟨b, hb, hpb, eb⟩ := (hmem d).1 (by simp)
      refine ⟨a, ha, b, hb, hpa, hpb, fun hj => ?_⟩
      rw [← link_any hv hi.lt, ← hi.eq_iff ha hb, ea, eb] at hj
      rw [List.pairwise_cons] at hsorted
      have := hsorted.1 d (by simp)
      omega
  · rintro (hno | ⟨a, ha, b, hb, hpa, hpb, hj⟩) hlen
    · obtain ⟨c, hc⟩ := List.length_eq_one_iff.1 hlen
      obtain ⟨q, hq, hpq, -⟩ := (hmem c).1 (by rw [hc]; simp)
      exact hno q hq hpq
    · obtain ⟨c, hc⟩ := List.length_eq_one_iff.1 hlen
      have h1 := (hmem (n.lab a)).2 ⟨a, ha, hpa, rfl⟩
      have h2 := (hmem (n.lab b)).2 ⟨b, hb, hpb, rfl⟩
      rw [hc] at h1 h2
      simp at h1 h2
      apply hj
      rw [← link_any hv hi.lt, ← hi.eq_iff ha hb, h1, h2]


/-- **C114**: for any sequence (repetitions and labelled points allowed) every start or merge is marked,
and a marked position is a start, a merge, or a point that already had a label. -/
theorem C114_events (hv : AnyConfig shape offsets)
    (hc : ∀ c ∈ calls, c.Valid shape.prod)
    (h : run dbg (init periodic shape offsets) calls = ok (s, rets)) {pts : List Nat}
    (hne : pts ≠ []) (hp : ∀ p ∈ pts, p < shape.prod) :
    ∃ s' marks, stepCall dbg s (.addSequence pts) = ok (s', marks ++ [pts.length]) ∧
      (marks ++ [pts.length]).Pairwise (· < ·) ∧
      ∀ j (hj : j < pts.length), pts[j] ∉ visitAll (added [] calls) (pts.take j) →
        (j ∈ marks ↔
          StartsOrMergesLater (Sees periodic shape offsets) (visitAll (added [] calls) (pts.take j)) pts[j]) := by
  obtain ⟨n, g⟩ := runAny_good hv hc h
  obtain ⟨s', new, e, -, -, -, hpw, hin, hev⟩ := addSequence_ok dbg g.rest.mid hne
    (fun p hp' => by rw [g.size]; exact hp p hp')
  rw [g.nb] at hin hev
  have hinv : ∀ j, Naive.Inv shape.prod
      (Naive.linkNb (nbs periodic shape offsets) (visitAll (added [] calls) (pts.take j)))
      (visitAll (added [] calls) (pts.take j)) (upTo (nbs periodic shape offsets) n pts j) := by
    intro j
    exact Naive.inv_foldlLink (pts.take j) g.inv
      (fun p hp' => hp p (List.mem_of_mem_take hp'))
  have hlt : ∀ j ∈ new, j < pts.length := fun j hj => (hin j hj).1
  refine ⟨s', new, e, ?_, fun j hj hnotin => ?_⟩
  · rw [List.pairwise_append]
    refine ⟨hpw, by simp, fun a ha b hb => ?_⟩
    simp at hb; subst hb
    exact hlt a ha
  · have hiff := eventLater_iff hv (hinv j) (hp _ (List.getElem_mem hj)) hnotin
    rw [← hiff]
    constructor
    · intro hm
      obtain ⟨_, h1⟩ := hin j hm
      rcases h1 with h1 | h1
      · exact h1
      · exact absurd (((hinv j).labelled _).1 h1) hnotin
    · exact hev j hj

/-! ### an example: a kernel that is not point-symmetric -/

/-- Pixels are compared with the pixel to the right and the pixel below. -/
def exAnyOffsets : List (List Int) := [[0, 1], [1, 0]]

theorem exAny : AnyConfig [3, 4] exAnyOffsets where
  rank := by decide
  len := by decide
  small := by decide
  range := by decide

/-- Pixel 6 is added after 5, which does not look back at it from 6: two clusters. Pixel 2 sees 6; pixel 1 sees 2 and 5
and merges; pixel 0 sees 1. -/
def exAnyCalls : List Call := [.addPoints [5, 6], .addSequence [2, 1, 0, 6, 11]]

theorem exAnyCalls_valid : ∀ c ∈ exAnyCalls, c.Valid [3, 4].prod := by
  intro c hc
  fin_cases hc <;> simp [Call.Valid]

example : (run true (init false [3, 4] exAnyOffsets) exAnyCalls).get?.map (fun r => (r.1.label.toList, r.2)) =
    some ([1, 1, 1, 0, 0, 1, 1, 0, 0, 0, 0, 3], [[], [1, 3, 4, 5]]) := by decide +kernel

/-- The labels after `prune` are 1 and 2. -/
example : (run true (init false [3, 4] exAnyOffsets) (exAnyCalls ++ [.prune])).get?.map (fun r => r.1.label.toList) =
    some [1, 1, 1, 0, 0, 1, 1, 0, 0, 0, 0, 2] := by decide +kernel

example : ∃ s rets, run true (init false [3, 4] exAnyOffsets) exAnyCalls = ok (s, rets) ∧
    ∃ s' k, stepCall true s .prune = ok (s', []) ∧
      ∀ l : Int, 1 ≤ l ∧ l ≤ (k : Nat) ↔ l ≠ 0 ∧ ∃ p < [3, 4].prod, labelAt s' p = l := by
  obtain ⟨s, rets, h, -⟩ := C113_labelled true false exAny exAnyCalls_valid
  obtain ⟨s', k, e, -, hk, -⟩ := C114_prune exAny exAnyCalls_valid h
  exact ⟨s, rets, h, s', k, e, hk⟩

end Verif.Props
