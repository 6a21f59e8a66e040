import Verif.Lemmas.ClusterRun
import Mathlib.Tactic.FinCases
import Mathlib.Tactic.Tauto

/-!
# Properties of `ClusterLabeller` (C01, C02, C04-C11) and `clusters` (C01-C03)

`run dbg (init periodic shape offsets) calls = ok (s, rets)` says: construct a labeller, make the calls
in order; no call throws, runs into undefined behaviour or fails to terminate; `s` is the object
afterwards and `rets` the return values. `labelAt s p` is the element `p` of `labels()`.
`added [] calls` is the list of pixels added since the last reset, in order of first visit.
`init periodic shape offsets` is what the constructors return, see C14 and C15.
-/

namespace Verif.Props

open Verif Verif.Cluster Outcome Spec

variable {dbg periodic : Bool} {shape : List Nat} {offsets : List (List Int)} {calls : List Call}
  {s : State} {rets : List (List Nat)}

/-! ### the example used to show that the hypotheses can be met -/

/-- A 3x4 periodic labeller with the four nearest neighbours. -/
def exOffsets : List (List Int) := [[-1, 0], [0, -1], [0, 1], [1, 0]]

theorem exConfig : ValidConfig true [3, 4] exOffsets where
  rank := by decide
  len := by decide
  sym := by decide
  small := by decide
  wrap := by
    intro _ _ d hd
    fin_cases hd <;> (refine .cons ?_ (.cons ?_ .nil) <;> decide)
  thin := by simp

/-- A history: two pixels that do not touch, the pixel between them (a merge), `prune`, an image. -/
def exCalls : List Call :=
  [.addPoints [5, 7, 0], .addSequence [6, 6], .prune, .addImage [0, 0, 0, 0, 0, 0, 0, 0, 0, 0, 0, 1]]

theorem exCalls_valid : ∀ c ∈ exCalls, c.Valid [3, 4].prod := by
  intro c hc
  fin_cases hc
  · simp [Call.Valid]
  · simp [Call.Valid]
  · trivial
  · simp [Call.Valid]

/-! ### C09: memory safety and termination -/

/-- Every history of calls with valid arguments succeeds, with or without assertions: no read or
write out of bounds, no infinite loop, no exception; and the labels are between 0 and the number of
pixels added. -/
theorem C09_safe (dbg : Bool) (hv : ValidConfig periodic shape offsets)
    (hc : ∀ c ∈ calls, c.Valid shape.prod) :
    ∃ s rets, run dbg (init periodic shape offsets) calls = ok (s, rets) ∧
      s.label.size = shape.prod ∧
      ∀ p < shape.prod, 0 ≤ labelAt s p ∧ labelAt s p ≤ (added [] calls).length := by
  obtain ⟨s, rets, n, e, g⟩ := run_ok dbg hv calls (good_init hv) hc
  have hwf := g.rest.mid.wf
  rw [g.size] at hwf
  refine ⟨s, rets, e, hwf.lsz, fun p hp => ?_⟩
  have h1 := hwf.lab p hp
  have h2 := hwf.cnt
  have h3 : nlabelled s shape.prod ≤ (added [] calls).length := by
    unfold nlabelled
    have hsub : (Finset.range shape.prod).filter (fun p => s.label.get p ≠ 0) ⊆
        (added [] calls).toFinset := by
      intro q hq
      rw [Finset.mem_filter, Finset.mem_range] at hq
      rw [List.mem_toFinset, ← g.inv.labelled q, ← g.label hq.1]
      exact hq.2
    exact (Finset.card_le_card hsub).trans (List.toFinset_card_le _)
  unfold labelAt
  omega

example : ∃ s rets, run true (init true [3, 4] exOffsets) exCalls = ok (s, rets) ∧
    s.label.size = [3, 4].prod ∧
    ∀ p < [3, 4].prod, 0 ≤ labelAt s p ∧ labelAt s p ≤ (added [] exCalls).length :=
  C09_safe true exConfig exCalls_valid

/-! ### C57: illegal arguments -/

/-- With assertions, after every valid history: a point outside the image (negative or too large), an
empty sequence and an image of another shape are rejected. (A point is given as a 64-bit integer.) -/
theorem C57_rejected {points : List Int} {img : List Int} {imgShape : List Nat} {s : State}
    {rets : List (List Nat)} (hv : ValidConfig periodic shape offsets)
    (hc : ∀ c ∈ calls, c.Valid shape.prod)
    (hr : run true (init periodic shape offsets) calls = ok (s, rets)) :
    ((∃ p ∈ points, -2 ^ 63 ≤ p ∧ p < 2 ^ 63 ∧ ¬ (0 ≤ p ∧ p < shape.prod)) →
      addPoints true s points = throws ∧ addSequence true s points = throws) ∧
    addSequence true s [] = throws ∧
    (imgShape ≠ shape → addImage true s imgShape img = throws) := by
  obtain ⟨s', rets', n, e, g⟩ := run_ok true hv calls (good_init hv) hc
  rw [hr] at e
  cases e
  have hwf := g.rest.mid.wf
  rw [g.size] at hwf
  have hsz : s.label.size = shape.prod := hwf.lsz
  have hsm := hv.small
  refine ⟨fun ⟨p, hp, h1, h2, h3⟩ => ?_, rfl, fun h => ?_⟩
  · have hl : legalPoints s points = false := by
      unfold legalPoints
      rw [Bool.not_eq_false', List.any_eq_true]
      refine ⟨p, hp, ?_⟩
      rw [decide_eq_true_eq, hsz]
      unfold toSize
      omega
    constructor
    · simp [addPoints, hl]
    · simp [addSequence, hl]
  · have hs : s.shape = shape := g.sh
    simp [addImage, hs, h]

/-- Without assertions such a point is an out-of-bounds access. -/
theorem C57_release {p : Int} {points : List Int} {s : State}
    {rets : List (List Nat)} (hv : ValidConfig periodic shape offsets)
    (hc : ∀ c ∈ calls, c.Valid shape.prod)
    (hr : run false (init periodic shape offsets) calls = ok (s, rets))
    (hp : ¬ (0 ≤ p ∧ p < shape.prod)) : addPoints false s (p :: points) = ub := by
  obtain ⟨s', rets', n, e, g⟩ := run_ok false hv calls (good_init hv) hc
  rw [hr] at e
  cases e
  have hwf := g.rest.mid.wf
  rw [g.size] at hwf
  have hsz : s.label.size = shape.prod := hwf.lsz
  have hread : s.label.read p = ub := by
    unfold Vec.read
    rw [if_neg (by rw [hsz]; exact hp)]
  simp [addPoints, forM, addPoint, hread, Outcome.bind]

/-- 12 is the first index outside an image of shape (3, 4). -/
example : ∃ s rets, run true (init true [3, 4] exOffsets) exCalls = ok (s, rets) ∧
    addPoints true s [3, 12] = throws := by
  obtain ⟨s, rets, h, -⟩ := C09_safe true exConfig exCalls_valid
  exact ⟨s, rets, h, ((C57_rejected (img := []) (imgShape := []) exConfig exCalls_valid h).1
    ⟨12, by decide⟩).1⟩

/-! ### C01, C02: background and connectivity -/

/-- A pixel has label 0 iff it was not added. -/
theorem C01_background (hv : ValidConfig periodic shape offsets)
    (hc : ∀ c ∈ calls, c.Valid shape.prod)
    (h : run dbg (init periodic shape offsets) calls = ok (s, rets)) {p : Nat}
    (hp : p < shape.prod) : labelAt s p = 0 ↔ p ∉ added [] calls := by
  obtain ⟨n, g⟩ := run_good hv hc h
  rw [g.label hp, ← g.inv.labelled p]
  tauto

/-- Added pixels have the same label iff they are joined by a path of added pixels. -/
theorem C02_connected (hv : ValidConfig periodic shape offsets)
    (hc : ∀ c ∈ calls, c.Valid shape.prod)
    (h : run dbg (init periodic shape offsets) calls = ok (s, rets)) {p q : Nat}
    (hp : p ∈ added [] calls) (hq : q ∈ added [] calls) :
    labelAt s p = labelAt s q ↔
      Joined (Adj periodic shape offsets) (· ∈ added [] calls) p q := by
  obtain ⟨n, g⟩ := run_good hv hc h
  rw [g.label (g.inv.lt p hp), g.label (g.inv.lt q hq), g.inv.eq_iff hp hq,
    joined_iff hv g.inv.lt]

/-- The example: the pixels 5, 6, 7 are one cluster, 0 and 11 are others. -/
example : (run true (init true [3, 4] exOffsets) exCalls).get?.map (fun r => (r.1.label.toList, r.2)) =
    some ([2, 0, 0, 0, 0, 1, 1, 1, 0, 0, 0, 1], [[], [0, 2], [], []]) := by decide +kernel

/-! ### C05: order of labels is order of age -/

/-- `p`'s label is lower than `q`'s iff some pixel of `p`'s cluster was added before all pixels
of `q`'s cluster. -/
theorem C05_age (hv : ValidConfig periodic shape offsets)
    (hc : ∀ c ∈ calls, c.Valid shape.prod)
    (h : run dbg (init periodic shape offsets) calls = ok (s, rets)) {p q : Nat}
    (hp : p ∈ added [] calls) (hq : q ∈ added [] calls) :
    labelAt s p < labelAt s q ↔
      ∃ o, Joined (Adj periodic shape offsets) (· ∈ added [] calls) p o ∧
        ∀ o', Joined (Adj periodic shape offsets) (· ∈ added [] calls) q o' →
          Before (added [] calls) o o' := by
  obtain ⟨n, g⟩ := run_good hv hc h
  rw [g.label (g.inv.lt p hp), g.label (g.inv.lt q hq), g.inv.lt_iff hp hq]
  simp only [joined_iff hv g.inv.lt]

example : added [] exCalls = [5, 7, 0, 6, 11] := by decide

/-! ### C04: order and batching do not matter -/

/-- Two histories that added the same pixels give the same partition. -/
theorem C04_partition {dbg' : Bool} {calls' : List Call} {s' : State} {rets' : List (List Nat)}
    (hv : ValidConfig periodic shape offsets)
    (hc : ∀ c ∈ calls, c.Valid shape.prod) (hc' : ∀ c ∈ calls', c.Valid shape.prod)
    (h : run dbg (init periodic shape offsets) calls = ok (s, rets))
    (h' : run dbg' (init periodic shape offsets) calls' = ok (s', rets'))
    (hsame : ∀ p, p ∈ added [] calls ↔ p ∈ added [] calls') {p q : Nat}
    (hp : p < shape.prod) (hq : q < shape.prod) :
    labelAt s p = labelAt s q ↔ labelAt s' p = labelAt s' q := by
  have b1 := fun x hx => C01_background (p := x) hv hc h hx
  have b2 := fun x hx => C01_background (p := x) hv hc' h' hx
  by_cases h1 : p ∈ added [] calls <;> by_cases h2 : q ∈ added [] calls
  · rw [C02_connected hv hc h h1 h2,
      C02_connected hv hc' h' ((hsame p).1 h1) ((hsame q).1 h2)]
    have : (· ∈ added [] calls) = (· ∈ added [] calls') := by
      funext x; exact propext (hsame x)
    rw [this]
  · have a1 : labelAt s p ≠ 0 := fun e => (b1 p hp).1 e h1
    have a2 := (b1 q hq).2 h2
    have a3 : labelAt s' p ≠ 0 := fun e => (b2 p hp).1 e ((hsame p).1 h1)
    have a4 := (b2 q hq).2 (fun e => h2 ((hsame q).2 e))
    rw [a2, a4]; tauto
  · have a1 : labelAt s q ≠ 0 := fun e => (b1 q hq).1 e h2
    have a2 := (b1 p hp).2 h1
    have a3 : labelAt s' q ≠ 0 := fun e => (b2 q hq).1 e ((hsame q).1 h2)
    have a4 := (b2 p hp).2 (fun e => h1 ((hsame p).2 e))
    rw [a2, a4]
    constructor
    · intro e; exact absurd e.symm a1
    · intro e; exact absurd e.symm a3
  · rw [(b1 p hp).2 h1, (b1 q hq).2 h2, (b2 p hp).2 (fun e => h1 ((hsame p).2 e)),
      (b2 q hq).2 (fun e => h2 ((hsame q).2 e))]

/-! ### C07: prune -/

/-- After `prune` the nonzero labels are exactly `1, ..., n`, background is unchanged, and the
order and equality of labels is unchanged. -/
theorem C07_prune (hv : ValidConfig periodic shape offsets)
    (hc : ∀ c ∈ calls, c.Valid shape.prod)
    (h : run dbg (init periodic shape offsets) calls = ok (s, rets)) :
    ∃ s' k, stepCall dbg s .prune = ok (s', []) ∧
      (∀ p < shape.prod, labelAt s' p = 0 ↔ labelAt s p = 0) ∧
      (∀ l : Int, 1 ≤ l ∧ l ≤ (k : Nat) ↔ l ≠ 0 ∧ ∃ p < shape.prod, labelAt s' p = l) ∧
      (∀ p < shape.prod, ∀ q < shape.prod, labelAt s' p < labelAt s' q ↔ labelAt s p < labelAt s q) ∧
      ∀ p < shape.prod, ∀ q < shape.prod, labelAt s' p = labelAt s' q ↔ labelAt s p = labelAt s q := by
  obtain ⟨n, g⟩ := run_good hv hc h
  obtain ⟨s', e, r, cf⟩ := prune_ok g.rest
  have g' : Good periodic shape offsets (added [] calls) s' (n.prune shape.prod) :=
    ⟨by rw [g.size] at r; exact r, Naive.inv_prune g.inv, cf.1.trans g.per, cf.2.1.trans g.sh,
      cf.2.2.trans g.dx⟩
  have hz : ∀ p, (n.prune shape.prod).lab p = 0 ↔ n.lab p = 0 := by
    intro p
    have h1 := g.inv.labelled p
    have h2 := g'.inv.labelled p
    tauto
  have hlt : ∀ p q, (n.prune shape.prod).lab p < (n.prune shape.prod).lab q ↔ n.lab p < n.lab q := by
    intro p q
    have p1 := g.inv.range p
    have p2 := g'.inv.range p
    have q1 := g.inv.range q
    have q2 := g'.inv.range q
    by_cases hp : n.lab p = 0
    · have := (hz p).2 hp
      have := hz q
      omega
    · by_cases hq : n.lab q = 0
      · have := (hz q).2 hq
        omega
      · exact g.inv.prune_lt ((g.inv.labelled p).1 hp) ((g.inv.labelled q).1 hq)
  refine ⟨s', ((n.prune shape.prod).new - 1).toNat, by simp [stepCall, e, Outcome.bind], ?_, ?_, ?_, ?_⟩
  · intro p hp
    rw [g'.label hp, g.label hp]
    exact hz p
  · intro l
    have hnew := g'.inv.range 0
    constructor
    · rintro ⟨h1, h2⟩
      obtain ⟨p, hp, e⟩ := g.inv.prune_onto h1 (by omega)
      have hp' := g.inv.lt p hp
      exact ⟨by omega, p, hp', by rw [g'.label hp']; exact e⟩
    · rintro ⟨h1, p, hp, e⟩
      rw [g'.label hp] at e
      have := g'.inv.range p
      omega
  · intro p hp q hq
    rw [g'.label hp, g.label hp, g'.label hq, g.label hq]
    exact hlt p q
  · intro p hp q hq
    rw [g'.label hp, g.label hp, g'.label hq, g.label hq]
    have h1 := hlt p q
    have h2 := hlt q p
    omega

/-- Contiguous labels are determined by their order. -/
theorem eq_of_order {N : Nat} {f g : Nat → Int} {k k' : Nat}
    (hf : ∀ l : Int, 1 ≤ l ∧ l ≤ (k : Int) ↔ l ≠ 0 ∧ ∃ p < N, f p = l)
    (hg : ∀ l : Int, 1 ≤ l ∧ l ≤ (k' : Int) ↔ l ≠ 0 ∧ ∃ p < N, g p = l)
    (hz : ∀ p < N, f p = 0 ↔ g p = 0)
    (hlt : ∀ p < N, ∀ q < N, f p < f q ↔ g p < g q) : ∀ p < N, f p = g p := by
  -- by induction on the value
  have key : ∀ (m : Nat), ∀ p < N, (f p = m → g p = m) ∧ (g p = m → f p = m) := by
    intro m
    induction m using Nat.strong_induction_on with
    | _ m ih =>
      intro p hp
      rcases Nat.eq_zero_or_pos m with rfl | hm
      · exact ⟨fun e => (hz p hp).1 e, fun e => (hz p hp).2 e⟩
      · constructor
        · intro e
          -- all lower values occur in `g`, below `g p`
          have hgp : g p ≠ 0 := fun h0 => by have := (hz p hp).2 h0; omega
          have h1 : 1 ≤ g p ∧ g p ≤ (k' : Int) := (hg (g p)).2 ⟨hgp, p, hp, rfl⟩
          rcases lt_trichotomy (g p) (m : Int) with h2 | h2 | h2
          · have := (ih (g p).toNat (by omega) p hp).2 (by omega)
            omega
          · exact h2
          · -- some pixel has `g q = m`
            obtain ⟨-, q, hq, eq⟩ := (hg (m : Int)).1 (by omega)
            have h3 : f q < f p := (hlt q hq p hp).2 (by omega)
            have hfq : f q ≠ 0 := fun h0 => by have := (hz q hq).1 h0; omega
            have h4 : 1 ≤ f q ∧ f q ≤ (k : Int) := (hf (f q)).2 ⟨hfq, q, hq, rfl⟩
            have := (ih (f q).toNat (by omega) q hq).1 (by omega)
            omega
        · intro e
          have hfp : f p ≠ 0 := fun h0 => by have := (hz p hp).1 h0; omega
          have h1 : 1 ≤ f p ∧ f p ≤ (k : Int) := (hf (f p)).2 ⟨hfp, p, hp, rfl⟩
          rcases lt_trichotomy (f p) (m : Int) with h2 | h2 | h2
          · have := (ih (f p).toNat (by omega) p hp).1 (by omega)
            omega
          · exact h2
          · obtain ⟨-, q, hq, eq⟩ := (hf (m : Int)).1 (by omega)
            have h3 : g q < g p := (hlt q hq p hp).1 (by omega)
            have hgq : g q ≠ 0 := fun h0 => by have := (hz q hq).2 h0; omega
            have h4 : 1 ≤ g q ∧ g q ≤ (k' : Int) := (hg (g q)).2 ⟨hgq, q, hq, rfl⟩
            have := (ih (g q).toNat (by omega) q hq).2 (by omega)
            omega
  intro p hp
  by_cases h0 : f p = 0
  · rw [h0, (hz p hp).1 h0]
  · have h1 : 1 ≤ f p ∧ f p ≤ (k : Int) := (hf (f p)).2 ⟨h0, p, hp, rfl⟩
    have := (key (f p).toNat p hp).1 (by omega)
    omega

/-- A second `prune` changes no label. -/
theorem C07_prune_idempotent (hv : ValidConfig periodic shape offsets)
    (hc : ∀ c ∈ calls, c.Valid shape.prod)
    (h : run dbg (init periodic shape offsets) calls = ok (s, rets)) :
    ∃ s' s'', stepCall dbg s .prune = ok (s', []) ∧ stepCall dbg s' .prune = ok (s'', []) ∧
      ∀ p < shape.prod, labelAt s'' p = labelAt s' p := by
  obtain ⟨s', k, e, hz, hk, hlt, -⟩ := C07_prune hv hc h
  have hc' : ∀ c ∈ calls ++ [Call.prune], c.Valid shape.prod := by
    intro c hcm
    rcases List.mem_append.1 hcm with h1 | h1
    · exact hc c h1
    · simp at h1; subst h1; trivial
  have h' : run dbg (init periodic shape offsets) (calls ++ [Call.prune]) = ok (s', rets ++ [[]]) := by
    rw [run_append, h]
    simp [Outcome.bind, e]
  obtain ⟨s'', k', e', hz', hk', hlt', -⟩ := C07_prune hv hc' h'
  refine ⟨s', s'', e, e', ?_⟩
  exact eq_of_order hk' hk hz' hlt'

/-- Two histories with the same first-visit order that end with `prune` give equal labels. -/
theorem C04_equal_after_prune {dbg' : Bool} {calls' : List Call} {s' : State}
    {rets' : List (List Nat)} (hv : ValidConfig periodic shape offsets)
    (hc : ∀ c ∈ calls, c.Valid shape.prod) (hc' : ∀ c ∈ calls', c.Valid shape.prod)
    (h : run dbg (init periodic shape offsets) (calls ++ [.prune]) = ok (s, rets))
    (h' : run dbg' (init periodic shape offsets) (calls' ++ [.prune]) = ok (s', rets'))
    (hsame : added [] calls = added [] calls') {p : Nat} (hp : p < shape.prod) :
    labelAt s p = labelAt s' p := by
  obtain ⟨s0, rets0, e0, -⟩ := C09_safe dbg hv hc
  obtain ⟨s0', rets0', e0', -⟩ := C09_safe dbg' hv hc'
  obtain ⟨s1, k, e1, hz, hk, hlt, -⟩ := C07_prune hv hc e0
  obtain ⟨s1', k', e1', hz', hk', hlt', -⟩ := C07_prune hv hc' e0'
  rw [run_append, e0] at h
  rw [run_append, e0'] at h'
  simp only [Outcome.bind, e1, e1'] at h h'
  cases h
  cases h'
  have hz0 : ∀ p < shape.prod, labelAt s0 p = 0 ↔ labelAt s0' p = 0 := by
    intro p hp
    rw [C01_background hv hc e0 hp, C01_background hv hc' e0' hp, hsame]
  refine eq_of_order hk hk' (fun p hp => ?_) (fun p hp q hq => ?_) p hp
  · rw [hz p hp, hz' p hp, hz0 p hp]
  · rw [hlt p hp q hq, hlt' p hp q hq]
    have b1 := C01_background hv hc e0 hp
    have b2 := C01_background hv hc e0 hq
    have b3 := hz0 p hp
    have b4 := hz0 q hq
    have r1 := C09_safe dbg hv hc
    obtain ⟨sx, rx, ex, -, hx⟩ := C09_safe dbg hv hc
    rw [e0] at ex; cases ex
    obtain ⟨sy, ry, ey, -, hy⟩ := C09_safe dbg' hv hc'
    rw [e0'] at ey; cases ey
    have x1 := hx p hp
    have x2 := hx q hq
    have y1 := hy p hp
    have y2 := hy q hq
    by_cases hpm : p ∈ added [] calls
    · by_cases hqm : q ∈ added [] calls
      · rw [C05_age hv hc e0 hpm hqm,
          C05_age hv hc' e0' (by rw [← hsame]; exact hpm) (by rw [← hsame]; exact hqm), hsame]
      · have := b2.2 hqm
        have := b4.1 this
        omega
    · have h1 := b1.2 hpm
      have h2 := b3.1 h1
      by_cases hqm : q ∈ added [] calls
      · have h3 : labelAt s0 q ≠ 0 := fun e => b2.1 e hqm
        have h4 : labelAt s0' q ≠ 0 := fun e => h3 (b4.2 e)
        omega
      · have h3 := b2.2 hqm
        have h4 := b4.1 h3
        omega

/-- Instances of C04: one call or three. -/
example : added [] [Call.addPoints [5, 7, 0, 6]] =
    added [] [Call.addPoints [5], .prune, .addSequence [7, 5, 0], .addPoints [0, 6]] := by decide

/-! ### C06: stability of labels under additions -/

/-- An addition keeps the label of a labelled pixel, or lowers it to the label that another
labelled pixel had and keeps, to which it is then connected. -/
theorem C06_stable (hv : ValidConfig periodic shape offsets)
    (hc : ∀ c ∈ calls, c.Valid shape.prod)
    (h : run dbg (init periodic shape offsets) calls = ok (s, rets)) {c : Call}
    (hcv : c.Valid shape.prod) (hadd : c ≠ .prune ∧ c ≠ .reset) :
    ∃ s' ret, stepCall dbg s c = ok (s', ret) ∧
      ∀ p ∈ added [] calls, labelAt s' p = labelAt s p ∨
        (labelAt s' p < labelAt s p ∧ ∃ q ∈ added [] calls, labelAt s q = labelAt s' p ∧
          labelAt s' q = labelAt s' p ∧
          Joined (Adj periodic shape offsets) (· ∈ added [] (calls ++ [c])) p q) := by
  obtain ⟨n, g⟩ := run_good hv hc h
  obtain ⟨s', ret, e, g'⟩ := step_ok dbg hv g hcv
  have hst : Naive.Stable n (naiveStep (nbs periodic shape offsets) shape.prod n c) := by
    have hm := mutual_nbs hv
    cases c with
    | addImage img =>
      refine Naive.stable_foldl hm _ g.inv ?_
      intro p hp
      unfold Call.visits at hp
      rw [List.mem_filter, List.mem_range] at hp
      have : img.length = shape.prod := hcv
      omega
    | addPoints pts => exact Naive.stable_foldl hm _ g.inv hcv
    | addSequence pts => exact Naive.stable_foldl hm _ g.inv hcv.2
    | prune => exact absurd rfl hadd.1
    | reset => exact absurd rfl hadd.2
  refine ⟨s', ret, e, fun p hp => ?_⟩
  have hpl := g.inv.lt p hp
  have h0 := (g.inv.labelled p).2 hp
  rw [g.label hpl, g'.label hpl]
  obtain ⟨hle, hne⟩ := hst.le p h0
  rcases eq_or_lt_of_le hle with h1 | h1
  · exact Or.inl h1
  · right
    obtain ⟨q, hq0, hq1, hq2⟩ := hst.old p hne (by have := g.inv.range p; omega)
    have hq := (g.inv.labelled q).1 hq0
    have hql := g.inv.lt q hq
    refine ⟨h1, q, hq, by rw [g.label hql]; exact hq1, by rw [g'.label hql]; exact hq2, ?_⟩
    rw [added_append, added_cons]
    show Joined _ (· ∈ addedStep (added [] calls) c) p q
    rw [← joined_iff hv g'.inv.lt]
    have hp' := (g'.inv.labelled p).1 hne
    have hq' := (g'.inv.labelled q).1 (by rw [hq2]; exact hne)
    exact (g'.inv.eq_iff hp' hq').1 hq2.symm

/-- A merge in the example: pixels 5 and 7 have labels 1 and 2, after adding 6 both have label 1. -/
example : (run true (init true [3, 4] exOffsets) [.addPoints [5, 7, 0]]).get?.map
      (fun r => r.1.label.toList) = some [3, 0, 0, 0, 0, 1, 0, 2, 0, 0, 0, 0] ∧
    (run true (init true [3, 4] exOffsets) [.addPoints [5, 7, 0], .addPoints [6]]).get?.map
      (fun r => r.1.label.toList) = some [3, 0, 0, 0, 0, 1, 1, 1, 0, 0, 0, 0] := by decide +kernel

/-! ### C08: reset -/

/-- After `reset` every continuation is that of a new labeller. -/
theorem C08_reset (hv : ValidConfig periodic shape offsets)
    (hc : ∀ c ∈ calls, c.Valid shape.prod)
    (h : run dbg (init periodic shape offsets) calls = ok (s, rets)) (more : List Call) :
    stepCall dbg s .reset = ok (reset s, []) ∧
      run dbg (reset s) more = run dbg (init periodic shape offsets) more := by
  obtain ⟨n, g⟩ := run_good hv hc h
  refine ⟨rfl, ?_⟩
  rw [reset_eq g.rest, g.per, g.sh, g.dx]

/-! ### C10, C11: add_sequence -/

/-- `add_sequence` leaves the labeller in exactly the state in which `add_points` leaves it. -/
theorem C10_add_sequence (hv : ValidConfig periodic shape offsets)
    (hc : ∀ c ∈ calls, c.Valid shape.prod)
    (h : run dbg (init periodic shape offsets) calls = ok (s, rets)) {pts : List Nat}
    (hne : pts ≠ []) (hp : ∀ p ∈ pts, p < shape.prod) :
    ∃ s' ret, stepCall dbg s (.addSequence pts) = ok (s', ret) ∧
      stepCall dbg s (.addPoints pts) = ok (s', []) := by
  obtain ⟨n, g⟩ := run_good hv hc h
  obtain ⟨s', new, e, -, -, e', -⟩ := addSequence_ok dbg g.rest.mid hne
    (fun p hp' => by rw [g.size]; exact hp p hp')
  exact ⟨s', _, e, by simp [stepCall, e', Outcome.bind]⟩

/-- Adding `p` to `hist` starts a cluster or merges clusters. -/
def StartsOrMerges (adj : Nat → Nat → Prop) (hist : List Nat) (p : Nat) : Prop :=
  (∀ q ∈ hist, ¬ adj p q) ∨
  ∃ a ∈ hist, ∃ b ∈ hist, adj p a ∧ adj p b ∧ ¬ Joined adj (· ∈ hist) a b

theorem event_iff (hv : ValidConfig periodic shape offsets) {hist : List Nat} {n : Naive}
    (hi : Naive.Inv shape.prod (nbs periodic shape offsets) hist n) {p : Nat} (hp : p < shape.prod)
    (hnew : p ∉ hist) :
    n.Event (nbs periodic shape offsets) p ↔ StartsOrMerges (Adj periodic shape offsets) hist p := by
  have h0 : n.lab p = 0 := by
    by_contra hc; exact hnew ((hi.labelled p).1 hc)
  have hnb : ∀ q ∈ hist, (q ∈ nbs periodic shape offsets p ↔ Adj periodic shape offsets p q) :=
    fun q hq => mem_nbs hv.safe hp (fun e => hnew (e ▸ hq))
  have hmem : ∀ c, c ∈ n.around (nbs periodic shape offsets) p ↔
      ∃ q ∈ hist, Adj periodic shape offsets p q ∧ n.lab q = c := by
    intro c
    rw [Naive.mem_around]
    constructor
    · rintro ⟨h1, q, h2, rfl⟩
      have hq := (hi.labelled q).1 h1
      exact ⟨q, hq, (hnb q hq).1 h2, rfl⟩
    · rintro ⟨q, hq, h2, rfl⟩
      exact ⟨(hi.labelled q).2 hq, q, (hnb q hq).2 h2, rfl⟩
  have hsorted : (n.around (nbs periodic shape offsets) p).Pairwise (· < ·) := sortUnique_sorted _
  unfold Naive.Event StartsOrMerges
  rw [and_iff_right h0]
  constructor
  · intro hlen
    match har : n.around (nbs periodic shape offsets) p with
    | [] =>
      left
      intro q hq ha
      have := (hmem (n.lab q)).2 ⟨q, hq, ha, rfl⟩
      rw [har] at this
      simp at this
    | [c] => rw [har] at hlen; simp at hlen
    | c :: d :: l =>
      right
      rw [har] at hsorted hmem
      obtain ⟨a, ha, hpa, ea⟩ := (hmem c).1 (by simp)
      obtain ⟨b, hb, hpb, eb⟩ := (hmem d).1 (by simp)
      refine ⟨a, ha, b, hb, hpa, hpb, fun hj => ?_⟩
      rw [← joined_iff hv hi.lt, ← hi.eq_iff ha hb, ea, eb] at hj
      rw [List.pairwise_cons] at hsorted
      have := hsorted.1 d (by simp)
      omega
  · rintro (hno | ⟨a, ha, b, hb, hpa, hpb, hj⟩) hlen
    · obtain ⟨c, hc⟩ := List.length_eq_one_iff.1 hlen
      obtain ⟨q, hq, hpq, -⟩ := (hmem c).1 (by rw [hc]; simp)
      exact hno q hq hpq
    · obtain ⟨c, hc⟩ := List.length_eq_one_iff.1 hlen
      have h1 := (hmem (n.lab a)).2 ⟨a, ha, hpa, rfl⟩
      have h2 := (hmem (n.lab b)).2 ⟨b, hb, hpb, rfl⟩
      rw [hc] at h1 h2
      simp at h1 h2
      apply hj
      rw [← joined_iff hv hi.lt, ← hi.eq_iff ha hb, h1, h2]

theorem visitAll_new : ∀ (pts hist : List Nat), pts.Nodup → (∀ p ∈ pts, p ∉ hist) →
    visitAll hist pts = hist ++ pts
  | [], hist, _, _ => by simp [visitAll]
  | p :: pts, hist, hn, hd => by
    rw [List.nodup_cons] at hn
    unfold visitAll
    rw [if_neg (hd p (by simp)), visitAll_new pts _ hn.2]
    · simp
    · intro q hq hc
      rcases List.mem_append.1 hc with h1 | h1
      · exact hd q (by simp [hq]) h1
      · simp at h1; subst h1; exact hn.1 hq

/-- For distinct points that have no label yet: the returned list is strictly increasing, ends
with the length of the sequence, and before that contains exactly the positions at which a cluster
starts or clusters merge. -/
theorem C11_events (hv : ValidConfig periodic shape offsets)
    (hc : ∀ c ∈ calls, c.Valid shape.prod)
    (h : run dbg (init periodic shape offsets) calls = ok (s, rets)) {pts : List Nat}
    (hne : pts ≠ []) (hp : ∀ p ∈ pts, p < shape.prod) (hnd : pts.Nodup)
    (hnew : ∀ p ∈ pts, p ∉ added [] calls) :
    ∃ s' marks, stepCall dbg s (.addSequence pts) = ok (s', marks ++ [pts.length]) ∧
      (marks ++ [pts.length]).Pairwise (· < ·) ∧
      ∀ j (hj : j < pts.length), j ∈ marks ↔
        StartsOrMerges (Adj periodic shape offsets) (added [] calls ++ pts.take j) pts[j] := by
  obtain ⟨n, g⟩ := run_good hv hc h
  obtain ⟨s', new, e, -, -, -, hpw, hin, hev⟩ := addSequence_ok dbg g.rest.mid hne
    (fun p hp' => by rw [g.size]; exact hp p hp')
  rw [g.nb] at hin hev
  have hinv : ∀ j, Naive.Inv shape.prod (nbs periodic shape offsets) (added [] calls ++ pts.take j)
      (upTo (nbs periodic shape offsets) n pts j) := by
    intro j
    have := Naive.inv_foldl (mutual_nbs hv) (pts.take j) g.inv
      (fun p hp' => hp p (List.mem_of_mem_take hp'))
    rwa [visitAll_new _ _ (hnd.sublist (List.take_sublist _ _))
      (fun p hp' => hnew p (List.mem_of_mem_take hp'))] at this
  have hnotin : ∀ j (hj : j < pts.length), pts[j] ∉ added [] calls ++ pts.take j := by
    intro j hj hc'
    rcases List.mem_append.1 hc' with h1 | h1
    · exact hnew _ (List.getElem_mem hj) h1
    · rw [List.mem_take_iff_getElem] at h1
      obtain ⟨i, hi, e⟩ := h1
      have := (List.Nodup.getElem_inj_iff hnd).1 e
      omega
  have hlt : ∀ j ∈ new, j < pts.length := fun j hj => (hin j hj).1
  refine ⟨s', new, e, ?_, fun j hj => ?_⟩
  · rw [List.pairwise_append]
    refine ⟨hpw, by simp, fun a ha b hb => ?_⟩
    simp at hb; subst hb
    exact hlt a ha
  · have hiff := event_iff hv (hinv j) (hp _ (List.getElem_mem hj)) (hnotin j hj)
    rw [← hiff]
    constructor
    · intro hm
      obtain ⟨_, h1⟩ := hin j hm
      rcases h1 with h1 | h1
      · exact h1
      · exact absurd (((hinv j).labelled _).1 h1) (hnotin j hj)
    · exact hev j hj

/-- In a run: positions 0, 1 start clusters, 2 joins the first, 3 merges. -/
example : (run true (init true [3, 4] exOffsets) [.addSequence [0, 2, 4, 1]]).get?.map (·.2) =
    some [[0, 1, 3, 4]] := by decide +kernel

/-- With repeated or labelled points a position can be marked although nothing starts or
merges: at position 2 pixel 0 is revisited. -/
theorem C11_repeated :
    (run true (init true [3, 4] exOffsets) [.addSequence [0, 6, 0]]).get?.map (·.2) =
      some [[0, 1, 2, 3]] := by decide +kernel

/-- For any sequence (repetitions and labelled points allowed) every start or merge is marked,
and a marked position is a start, a merge, or a point that already had a label. -/
theorem C11_events_general (hv : ValidConfig periodic shape offsets)
    (hc : ∀ c ∈ calls, c.Valid shape.prod)
    (h : run dbg (init periodic shape offsets) calls = ok (s, rets)) {pts : List Nat}
    (hne : pts ≠ []) (hp : ∀ p ∈ pts, p < shape.prod) :
    ∃ s' marks, stepCall dbg s (.addSequence pts) = ok (s', marks ++ [pts.length]) ∧
      (marks ++ [pts.length]).Pairwise (· < ·) ∧
      ∀ j (hj : j < pts.length), pts[j] ∉ visitAll (added [] calls) (pts.take j) →
        (j ∈ marks ↔
          StartsOrMerges (Adj periodic shape offsets) (visitAll (added [] calls) (pts.take j)) pts[j]) := by
  obtain ⟨n, g⟩ := run_good hv hc h
  obtain ⟨s', new, e, -, -, -, hpw, hin, hev⟩ := addSequence_ok dbg g.rest.mid hne
    (fun p hp' => by rw [g.size]; exact hp p hp')
  rw [g.nb] at hin hev
  have hinv : ∀ j, Naive.Inv shape.prod (nbs periodic shape offsets)
      (visitAll (added [] calls) (pts.take j)) (upTo (nbs periodic shape offsets) n pts j) := by
    intro j
    exact Naive.inv_foldl (mutual_nbs hv) (pts.take j) g.inv
      (fun p hp' => hp p (List.mem_of_mem_take hp'))
  have hlt : ∀ j ∈ new, j < pts.length := fun j hj => (hin j hj).1
  refine ⟨s', new, e, ?_, fun j hj hnotin => ?_⟩
  · rw [List.pairwise_append]
    refine ⟨hpw, by simp, fun a ha b hb => ?_⟩
    simp at hb; subst hb
    exact hlt a ha
  · have hiff := event_iff hv (hinv j) (hp _ (List.getElem_mem hj)) hnotin
    rw [← hiff]
    constructor
    · intro hm
      obtain ⟨_, h1⟩ := hin j hm
      rcases h1 with h1 | h1
      · exact h1
      · exact absurd (((hinv j).labelled _).1 h1) hnotin
    · exact hev j hj

/-- A sequence after those calls in which a point occurs twice: it starts or merges clusters with its first point. -/
example : ([3, 8, 3] : List Nat) ≠ [] ∧ (∀ p ∈ [3, 8, 3], p < [3, 4].prod) ∧
    ((run true (init true [3, 4] exOffsets) exCalls).bind fun r => (stepCall true r.1 (.addSequence [3, 8, 3])).map
      Prod.snd) = ok [0, 3] := by
  refine ⟨by decide, by decide, by decide +kernel⟩

end Verif.Props
