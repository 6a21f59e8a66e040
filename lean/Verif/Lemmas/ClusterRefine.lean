import Verif.Lemmas.ClusterStep
import Verif.Spec.NaiveLabeller

/-! # `ClusterLabeller`: every call refines the naive labeller -/

namespace Verif.Cluster

open Verif Outcome

/-! ### neighbours -/

/-- The neighbours of pixel `p` as the class computes them. -/
def nbs (periodic : Bool) (shape : List Nat) (dx : List (List Int)) (p : Nat) : List Nat :=
  dx.filterMap fun d =>
    match getCompare periodic shape p d with
    | ok c => if 0 ≤ c then some c.toNat else none
    | _ => none

/-- `get_compare` never fails: it gives a pixel, or `-1` without periodicity. -/
def SafeNb (periodic : Bool) (shape : List Nat) (dx : List (List Int)) : Prop :=
  ∀ p < prodShape shape, ∀ d ∈ dx, ∃ c, getCompare periodic shape (p : Int) d = ok c ∧
    ((periodic = false ∧ c = -1) ∨ (0 ≤ c ∧ c < prodShape shape))

theorem nbs_lt {periodic : Bool} {shape : List Nat} {dx : List (List Int)}
    (h : SafeNb periodic shape dx) {p q : Nat} (hp : p < prodShape shape)
    (hq : q ∈ nbs periodic shape dx p) : q < prodShape shape := by
  unfold nbs at hq
  rw [List.mem_filterMap] at hq
  obtain ⟨d, hd, e⟩ := hq
  obtain ⟨c, hc, hr⟩ := h p hp d hd
  rw [hc] at e
  simp only at e
  split at e
  · cases e
    rcases hr with ⟨-, rfl⟩ | hr
    · omega
    · omega
  · cases e

/-! ### relation to the naive labeller -/

/-- The state represents the naive labels. -/
def Rep (N : Nat) (s : State) (n : Naive) : Prop :=
  (∀ p < N, abs s p = n.lab p) ∧ s.newLabel = n.new

theorem connectedLoop_ok {N : Nat} {s : State} (h : WF N s) (hN : prodShape s.shape = N) {p : Nat}
    (hp : p < N) : ∀ (dx : List (List Int)), SafeNb s.periodic s.shape dx →
    connectedLoop s p dx =
      ok (((nbs s.periodic s.shape dx p).map (abs s)).filter (· ≠ 0))
  | [], _ => by simp [connectedLoop, nbs]
  | d :: dx, hs => by
    have ih := connectedLoop_ok h hN hp dx
      (fun q hq e he => hs q hq e (List.mem_cons_of_mem _ he))
    obtain ⟨c, hc, hr⟩ := hs p (by omega) d (by simp)
    unfold connectedLoop
    rw [hc]
    simp only [Outcome.bind]
    rcases hr with ⟨hper, rfl⟩ | hr
    · rw [if_pos (by simp [hper]), ih]
      congr 2
      unfold nbs
      rw [List.filterMap_cons, hc]
      simp
    · have hcond : ¬ ((!s.periodic && c == -1) = true) := by
        have : (c == -1) = false := by simp; omega
        simp [this]
      rw [if_neg hcond]
      have hcl : c.toNat < N := by omega
      have hread : s.label.read c = ok (s.label.get c.toNat) :=
        Vec.read_eq hr.1 (by rw [h.lsz]; omega)
      rw [hread]
      simp only
      have hnb : nbs s.periodic s.shape (d :: dx) p =
          c.toNat :: nbs s.periodic s.shape dx p := by
        unfold nbs
        rw [List.filterMap_cons, hc]
        simp [hr.1]
      rw [hnb, List.map_cons]
      by_cases h0 : s.label.get c.toNat = 0
      · have : abs s c.toNat = 0 := (h.abs_zero hcl).2 h0
        rw [if_neg (by simpa using h0), ih, List.filter_cons_of_neg (by simp [this])]
      · have : abs s c.toNat ≠ 0 := fun e => h0 ((h.abs_zero hcl).1 e)
        have hl := h.lab c.toNat hcl
        have hnew := h.newle
        rw [if_pos h0, Vec.read_eq hl.1 (by rw [h.rsz]; push_cast; omega)]
        simp only
        rw [ih, List.filter_cons_of_pos (by simpa using this)]
        rfl

/-- `merge(labels)`: all clusters in `rest` are merged into `target`. -/
theorem mergeLoop_ok {N : Nat} {target : Int} : ∀ (rest : List Int) {s : State}, WF N s →
    1 ≤ target → rest.Pairwise (· < ·) → rn s target = target →
    (∀ b ∈ rest, target < b ∧ b < s.newLabel ∧ rn s b = b) →
    ∃ s', mergeLoop target rest s = ok s' ∧ WF N s' ∧
      s'.label = s.label ∧ s'.newLabel = s.newLabel ∧ s'.nmerge = s.nmerge ∧
      s'.periodic = s.periodic ∧ s'.shape = s.shape ∧ s'.dx = s.dx ∧ rn s' target = target ∧
      ∀ p < N, abs s' p = if abs s p ∈ rest then target else abs s p
  | [], s, h, _, _, hr, _ => ⟨s, rfl, h, rfl, rfl, rfl, rfl, rfl, rfl, hr, by simp⟩
  | b :: rest, s, h, ht, hs, hr, hb => by
    have hb0 := hb b (by simp)
    obtain ⟨s1, e1, w1, l1, n1, m1, p1, sh1, d1, r1, a1⟩ :=
      mergeDetail_ok h ht hb0.1 hb0.2.1 hr hb0.2.2
    rw [List.pairwise_cons] at hs
    have ht1 : rn s1 target = target := r1 target ht (by omega) hr (by omega)
    obtain ⟨s2, e2, w2, l2, n2, m2, p2, sh2, d2, r2, a2⟩ := mergeLoop_ok rest w1 ht hs.2 ht1
      (fun c hc => by
        have hc' := hb c (by simp [hc])
        have := hs.1 c hc
        refine ⟨hc'.1, by rw [n1]; exact hc'.2.1, r1 c (by omega) hc'.2.1 hc'.2.2 (by omega)⟩)
    refine ⟨s2, by simp [mergeLoop, e1, Outcome.bind, e2], w2, l2.trans l1, n2.trans n1,
      m2.trans m1, p2.trans p1, sh2.trans sh1, d2.trans d1, r2, ?_⟩
    intro p hp
    rw [a2 p hp, a1 p hp]
    by_cases h1 : abs s p = b
    · rw [if_pos h1]
      have : target ∉ rest := fun hm => by have := hb target (by simp [hm]); omega
      simp [this, h1]
    · rw [if_neg h1]
      simp [h1]

/-! ### one pixel -/

theorem nlabelled_update {s s' : State} {N p : Nat} (hp : p < N) (h0 : s.label.get p = 0)
    {v : Int} (hv : v ≠ 0)
    (he : ∀ q, s'.label.get q = if q = p then v else s.label.get q) :
    nlabelled s' N = nlabelled s N + 1 := by
  unfold nlabelled
  have : (Finset.range N).filter (fun q => s'.label.get q ≠ 0) =
      insert p ((Finset.range N).filter fun q => s.label.get q ≠ 0) := by
    ext q
    simp only [Finset.mem_filter, Finset.mem_range, Finset.mem_insert, he]
    by_cases h : q = p
    · subst h; simp [hv, hp]
    · simp [h]
  rw [this, Finset.card_insert_of_notMem (by simp [h0])]

/-- Giving an unlabelled pixel the label of an existing cluster `c`. -/
theorem assign_wf {N p : Nat} {s : State} (h : WF N s) (hp : p < N) (h0 : s.label.get p = 0)
    {c : Int} (hc1 : 1 ≤ c) (hc2 : c < s.newLabel) (hc3 : rn s c = c) (nm : Nat) :
    ∃ label', s.label.write p c = ok label' ∧
      (∀ q, label'.get q = if q = p then c else s.label.get q) ∧
      WF N { s with label := label', nmerge := nm } ∧
      ∀ q < N, abs { s with label := label', nmerge := nm } q = if q = p then c else abs s q := by
  let label' : Vec Int := ⟨s.label.size, fun k => if k = p then c else s.label.get k⟩
  have hget : ∀ q, label'.get q = if q = p then c else s.label.get q := fun q => rfl
  have hw : s.label.write p c = ok label' := by
    rw [Vec.write_eq (by omega) (by rw [h.lsz]; omega)]
    simp [label']
  have habs : ∀ q, abs { s with label := label', nmerge := nm } q = if q = p then c else abs s q := by
    intro q
    show rn s (label'.get q) = _
    rw [hget]
    split
    · exact hc3
    · rfl
  refine ⟨label', hw, hget, ?_, fun q _ => habs q⟩
  have hcnt : nlabelled { s with label := label', nmerge := nm } N = nlabelled s N + 1 :=
    nlabelled_update (s := s) hp h0 (by omega : c ≠ 0) hget
  exact
    { lsz := h.lsz
      rsz := h.rsz
      nsz := h.nsz
      new1 := h.new1
      cnt := by have := h.cnt; rw [hcnt]; push_cast; show s.newLabel ≤ _; omega
      lab := by
        intro q hq
        show 0 ≤ label'.get q ∧ label'.get q < s.newLabel
        rw [hget]
        split
        · exact ⟨by omega, hc2⟩
        · exact h.lab q hq
      ren := h.ren
      fresh := h.fresh
      root := by
        intro q hq
        rw [habs q]
        show rn s _ = _
        split
        · exact hc3
        · exact h.root q hq
      chain := by
        intro r hr1 hr2 hr3
        obtain ⟨W, w1, w2, w3⟩ := h.chain r hr1 hr2 hr3
        refine ⟨W, w1, w2, fun q hq e => ?_⟩
        rw [habs q] at e
        show label'.get q = r ∨ label'.get q ∈ W
        rw [hget]
        split
        · rename_i hqp
          left
          rw [if_pos hqp] at e
          exact e
        · rename_i hqp
          rw [if_neg hqp] at e
          exact w3 q hq e
      live := by
        intro r hr1 hr2 hr3
        obtain ⟨q, hq, e⟩ := h.live r hr1 hr2 hr3
        refine ⟨q, hq, ?_⟩
        rw [habs q]
        split
        · rename_i hqp
          subst hqp
          have := (h.abs_zero hq).2 h0
          omega
        · exact e }

/-- Giving an unlabelled pixel a new label. -/
theorem assignNew_wf {N p : Nat} {s : State} (h : WF N s) (hp : p < N) (h0 : s.label.get p = 0) :
    ∃ label', s.label.write p s.newLabel = ok label' ∧
      (∀ q, label'.get q = if q = p then s.newLabel else s.label.get q) ∧
      WF N { s with label := label', newLabel := s.newLabel + 1 } ∧
      ∀ q < N, abs { s with label := label', newLabel := s.newLabel + 1 } q =
        if q = p then s.newLabel else abs s q := by
  let label' : Vec Int := ⟨s.label.size, fun k => if k = p then s.newLabel else s.label.get k⟩
  have hget : ∀ q, label'.get q = if q = p then s.newLabel else s.label.get q := fun q => rfl
  have hw : s.label.write p s.newLabel = ok label' := by
    rw [Vec.write_eq (by omega) (by rw [h.lsz]; omega)]
    simp [label']
  have hcnt : nlabelled { s with label := label', newLabel := s.newLabel + 1 } N =
      nlabelled s N + 1 :=
    nlabelled_update (s := s) hp h0 (by have := h.new1; omega : s.newLabel ≠ 0) hget
  have hle : s.newLabel ≤ N := by
    have h1 := h.cnt
    have h2 := nlabelled_le { s with label := label', newLabel := s.newLabel + 1 } N
    rw [hcnt] at h2
    omega
  have hfresh := h.fresh s.newLabel (le_refl _) hle
  have h1 := h.new1
  have habs : ∀ q, abs { s with label := label', newLabel := s.newLabel + 1 } q =
      if q = p then s.newLabel else abs s q := by
    intro q
    show rn s (label'.get q) = _
    rw [hget]
    split
    · exact hfresh.1
    · rfl
  refine ⟨label', hw, hget, ?_, fun q _ => habs q⟩
  exact
    { lsz := h.lsz
      rsz := h.rsz
      nsz := h.nsz
      new1 := by show 1 ≤ s.newLabel + 1; omega
      cnt := by have := h.cnt; rw [hcnt]; push_cast; show s.newLabel + 1 ≤ _; omega
      lab := by
        intro q hq
        show 0 ≤ label'.get q ∧ label'.get q < s.newLabel + 1
        rw [hget]
        split
        · exact ⟨by omega, by omega⟩
        · have := h.lab q hq; omega
      ren := h.ren
      fresh := by
        intro l hl1 hl2
        have : s.newLabel + 1 ≤ l := hl1
        exact h.fresh l (by omega) hl2
      root := by
        intro q hq
        rw [habs q]
        show rn s _ = _
        split
        · exact hfresh.1
        · exact h.root q hq
      chain := by
        intro r hr1 hr2 hr3
        have hr2' : r < s.newLabel + 1 := hr2
        by_cases hr : r = s.newLabel
        · subst hr
          refine ⟨[], Walk.nil hfresh.2, by simp, fun q hq e => ?_⟩
          left
          rw [habs q] at e
          show label'.get q = _
          rw [hget]
          split
          · rfl
          · rename_i hqp
            rw [if_neg hqp] at e
            have := h.abs_range hq
            omega
        · obtain ⟨W, w1, w2, w3⟩ := h.chain r hr1 (by omega) hr3
          refine ⟨W, w1, ?_, fun q hq e => ?_⟩
          · intro x hx
            have := w2 x hx
            refine ⟨this.1, ?_, this.2.2⟩
            show x < s.newLabel + 1
            omega
          · rw [habs q] at e
            show label'.get q = r ∨ label'.get q ∈ W
            rw [hget]
            split
            · rename_i hqp
              rw [if_pos hqp] at e
              exact absurd e.symm hr
            · rename_i hqp
              rw [if_neg hqp] at e
              exact w3 q hq e
      live := by
        intro r hr1 hr2 hr3
        have hr2' : r < s.newLabel + 1 := hr2
        by_cases hr : r = s.newLabel
        · exact ⟨p, hp, by rw [habs p]; simp [hr]⟩
        · obtain ⟨q, hq, e⟩ := h.live r hr1 (by omega) hr3
          refine ⟨q, hq, ?_⟩
          rw [habs q]
          split
          · rename_i hqp
            subst hqp
            have := (h.abs_zero hq).2 h0
            omega
          · exact e }

/-- The fields that no call changes. -/
def SameConf (s s' : State) : Prop :=
  s'.periodic = s.periodic ∧ s'.shape = s.shape ∧ s'.dx = s.dx

/-- The invariant of a labeller in the middle of a call: arrays well-formed, and no merge pending
unless `m_nmerge` says so. -/
structure Mid (s : State) (n : Naive) : Prop where
  wf : WF (prodShape s.shape) s
  rep : Rep (prodShape s.shape) s n
  clean : s.nmerge = 0 → Clean (prodShape s.shape) s
  safe : SafeNb s.periodic s.shape s.dx

/-- The neighbours, for the configuration of a state. -/
def nbOf (s : State) : Nat → List Nat := nbs s.periodic s.shape s.dx

theorem around_eq {s : State} {n : Naive} (h : Mid s n) {p : Nat} (hp : p < prodShape s.shape) :
    sortUnique (((nbs s.periodic s.shape s.dx p).map (abs s)).filter (· ≠ 0)) =
      n.around (nbOf s) p := by
  unfold Naive.around nbOf
  congr 2
  apply List.map_congr_left
  intro q hq
  exact h.rep.1 q (nbs_lt h.safe hp hq)

/-- `label_impl(p)` on an unlabelled pixel is a step of the naive labeller. -/
theorem labelImpl_ok {s : State} {n : Naive} (h : Mid s n) {p : Nat} (hp : p < prodShape s.shape)
    (h0 : s.label.get p = 0) :
    ∃ s', labelImpl s p = ok s' ∧ Mid s' (n.add (nbOf s) p) ∧ SameConf s s' ∧
      ((s'.newLabel ≠ s.newLabel ∨ s'.nmerge ≠ s.nmerge) ↔ n.Event (nbOf s) p) ∧
      s'.newLabel ≥ s.newLabel ∧ s'.nmerge ≥ s.nmerge := by
  set N := prodShape s.shape with hN
  have hwf := h.wf
  have hconn := connectedLoop_ok hwf hN.symm hp s.dx h.safe
  obtain ⟨conn, hcdef⟩ : ∃ c, c = ((nbs s.periodic s.shape s.dx p).map (abs s)).filter (· ≠ 0) :=
    ⟨_, rfl⟩
  rw [← hcdef] at hconn
  have haround : sortUnique conn = n.around (nbOf s) p := by rw [hcdef]; exact around_eq h hp
  have hlab0 : n.lab p = 0 := by rw [← h.rep.1 p hp]; exact (hwf.abs_zero hp).2 h0
  -- every member of `conn` is an existing cluster
  have hmem : ∀ c ∈ conn, 1 ≤ c ∧ c < s.newLabel ∧ rn s c = c := by
    intro c hc
    rw [hcdef, List.mem_filter, List.mem_map] at hc
    obtain ⟨⟨q, hq, rfl⟩, hne⟩ := hc
    have hq' := nbs_lt h.safe hp hq
    have := hwf.abs_range hq'
    have hne' : abs s q ≠ 0 := by simpa using hne
    exact ⟨by omega, by omega, hwf.root q hq'⟩
  -- joining one cluster
  have hjoin : ∀ c, c ∈ conn → sortUnique conn = [c] →
      ∃ s', ((s.label.write p c).bind fun label => ok { s with label := label }) = ok s' ∧
        Mid s' (n.add (nbOf s) p) ∧ SameConf s s' ∧
        ((s'.newLabel ≠ s.newLabel ∨ s'.nmerge ≠ s.nmerge) ↔ n.Event (nbOf s) p) ∧
        s'.newLabel ≥ s.newLabel ∧ s'.nmerge ≥ s.nmerge := by
    intro c hc hsu
    have hc' := hmem c hc
    obtain ⟨label', w1, w2, w3, w4⟩ := assign_wf hwf hp h0 hc'.1 hc'.2.1 hc'.2.2 s.nmerge
    have hs : { s with label := label', nmerge := s.nmerge } = { s with label := label' } := rfl
    rw [hs] at w3 w4
    refine ⟨{ s with label := label' }, by rw [w1]; rfl, ?_, ⟨rfl, rfl, rfl⟩, ?_, le_refl _,
      le_refl _⟩
    · refine ⟨w3, ?_, ?_, h.safe⟩
      · unfold Naive.add
        rw [if_neg (by simpa using hlab0), ← haround, hsu]
        refine ⟨fun q hq => ?_, h.rep.2⟩
        rw [w4 q hq]
        simp [h.rep.1 q hq]
      · intro hm
        have hcl := h.clean hm
        refine ⟨hcl.1, fun q hq => ?_⟩
        rw [w4 q hq]
        show _ = label'.get q
        rw [w2 q]
        split
        · rfl
        · exact hcl.2 q hq
    · have : ¬ n.Event (nbOf s) p := by
        rintro ⟨-, h2⟩
        rw [← haround, hsu] at h2
        simp at h2
      simp [this]
  unfold labelImpl
  rw [hconn]
  simp only [Outcome.bind]
  clear hcdef
  rcases conn with _ | ⟨c, _ | ⟨c2, cs⟩⟩
  · -- a new cluster
    simp only
    obtain ⟨label', w1, w2, w3, w4⟩ := assignNew_wf hwf hp h0
    refine ⟨{ s with label := label', newLabel := s.newLabel + 1 }, by rw [w1], ?_,
      ⟨rfl, rfl, rfl⟩, ?_, ?_, le_refl _⟩
    · refine ⟨w3, ?_, ?_, h.safe⟩
      · unfold Naive.add
        rw [if_neg (by simpa using hlab0), ← haround]
        refine ⟨fun q hq => ?_, ?_⟩
        · rw [w4 q hq]
          simp [sortUnique, h.rep.1 q hq, h.rep.2]
        · show s.newLabel + 1 = _
          simp [sortUnique, h.rep.2]
      · intro hm
        have hcl := h.clean hm
        refine ⟨hcl.1, fun q hq => ?_⟩
        rw [w4 q hq]
        show _ = label'.get q
        rw [w2 q]
        split
        · rfl
        · exact hcl.2 q hq
    · constructor
      · intro _
        refine ⟨hlab0, ?_⟩
        rw [← haround]
        simp [sortUnique]
      · intro _
        left
        show s.newLabel + 1 ≠ s.newLabel
        omega
    · show s.newLabel + 1 ≥ s.newLabel
      omega
  · simp only
    exact hjoin c (by simp) rfl
  · simp only
    have hsorted := sortUnique_sorted (c :: c2 :: cs)
    match hsu : sortUnique (c :: c2 :: cs) with
    | [] =>
      have : c ∈ sortUnique (c :: c2 :: cs) := by simp
      rw [hsu] at this
      simp at this
    | [c'] =>
      simp only
      refine hjoin c' ?_ hsu
      rw [← mem_sortUnique, hsu]; simp
    | target :: b :: rest =>
      simp only
      rw [hsu] at hsorted
      rw [List.pairwise_cons] at hsorted
      have hmem' : ∀ x ∈ target :: b :: rest, 1 ≤ x ∧ x < s.newLabel ∧ rn s x = x := by
        intro x hx
        rw [← hsu, mem_sortUnique] at hx
        exact hmem x hx
      have ht := hmem' target (by simp)
      obtain ⟨s1, e1, v1, l1, n1, m1, p1, sh1, d1, r1, a1⟩ :=
        mergeLoop_ok (b :: rest) hwf ht.1 hsorted.2 ht.2.2 (fun x hx => by
          have hx' := hmem' x (by simp at hx ⊢; tauto)
          exact ⟨hsorted.1 x hx, hx'.2.1, hx'.2.2⟩)
      have h01 : s1.label.get p = 0 := by rw [l1]; exact h0
      obtain ⟨label', w1, w2, w3, w4⟩ := assign_wf v1 hp h01 ht.1 (by rw [n1]; exact ht.2.1) r1
        (s1.nmerge + 1)
      refine ⟨{ s1 with label := label', nmerge := s1.nmerge + 1 }, ?_, ?_, ⟨p1, sh1, d1⟩, ?_, ?_, ?_⟩
      · rw [e1]
        simp only
        rw [w1]
      · have hsh : prodShape s1.shape = N := by rw [sh1]
        refine ⟨?_, ?_, ?_, ?_⟩
        · show WF (prodShape s1.shape) _
          rw [hsh]; exact w3
        · show Rep (prodShape s1.shape) _ _
          rw [hsh]
          unfold Naive.add
          rw [if_neg (by simpa using hlab0), ← haround, hsu]
          refine ⟨fun q hq => ?_, by show s1.newLabel = _; rw [n1]; exact h.rep.2⟩
          rw [w4 q hq, a1 q hq, h.rep.1 q hq]
        · intro hm
          have : s1.nmerge + 1 = 0 := hm
          omega
        · show SafeNb s1.periodic s1.shape s1.dx
          rw [p1, sh1, d1]; exact h.safe
      · constructor
        · intro _
          refine ⟨hlab0, ?_⟩
          rw [← haround, hsu]
          simp
        · intro _
          right
          show s1.nmerge + 1 ≠ s.nmerge
          omega
      · show s1.newLabel ≥ s.newLabel
        omega
      · show s1.nmerge + 1 ≥ s.nmerge
        omega

end Verif.Cluster
