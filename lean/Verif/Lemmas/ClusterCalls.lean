import Verif.Lemmas.ClusterRefine
import Mathlib.Data.List.Range

/-! # `ClusterLabeller`: the public calls refine the naive labeller -/

namespace Verif.Cluster

open Verif Outcome

theorem SameConf.refl (s : State) : SameConf s s := ⟨rfl, rfl, rfl⟩

theorem SameConf.trans {s s' s'' : State} (h : SameConf s s') (h' : SameConf s' s'') :
    SameConf s s'' :=
  ⟨h'.1.trans h.1, h'.2.1.trans h.2.1, h'.2.2.trans h.2.2⟩

theorem SameConf.nbOf {s s' : State} (h : SameConf s s') : nbOf s' = nbOf s := by
  unfold Cluster.nbOf; rw [h.1, h.2.1, h.2.2]

/-- A labeller between two calls. -/
structure Rest (s : State) (n : Naive) : Prop where
  mid : Mid s n
  nomerge : s.nmerge = 0

theorem Rest.label {s : State} {n : Naive} (h : Rest s n) {p : Nat} (hp : p < prodShape s.shape) :
    s.label.get p = n.lab p := by
  rw [← h.mid.rep.1 p hp, (h.mid.clean h.nomerge).2 p hp]

/-! ### construction and reset -/

theorem init_rest (periodic : Bool) (shape : List Nat) (dx : List (List Int))
    (hs : SafeNb periodic shape dx) : Rest (init periodic shape dx) Naive.empty := by
  set N := prodShape shape with hN
  have hrn : ∀ l : Int, 0 ≤ l → rn (init periodic shape dx) l = l := by
    intro l hl
    show ((l.toNat : Nat) : Int) = l
    omega
  have hlab : ∀ p, (init periodic shape dx).label.get p = 0 := fun p => rfl
  have habs : ∀ p, abs (init periodic shape dx) p = 0 := fun p => by
    unfold abs; rw [hlab, hrn 0 (le_refl _)]
  have hnx : ∀ l, nx (init periodic shape dx) l = -1 := fun l => rfl
  refine ⟨⟨?_, ⟨fun p _ => habs p, rfl⟩, fun _ => ⟨fun l _ _ => hnx l, fun p _ => by rw [habs, hlab]⟩,
    hs⟩, rfl⟩
  exact
    { lsz := rfl
      rsz := rfl
      nsz := rfl
      new1 := le_refl _
      cnt := by show (1 : Int) ≤ _; omega
      lab := fun p _ => by rw [hlab]; exact ⟨le_refl _, by show (0 : Int) < 1; omega⟩
      ren := fun l h0 _ => by rw [hrn l h0]; exact ⟨h0, le_refl _, id⟩
      fresh := fun l h0 _ => by
        have : (1 : Int) ≤ l := h0
        exact ⟨hrn l (by omega), hnx l⟩
      root := fun p _ => by rw [habs, hrn 0 (le_refl _)]
      chain := fun r h1 h2 => by have : r < 1 := h2; omega
      live := fun r h1 h2 => by have : r < 1 := h2; omega }

theorem reset_eq {s : State} {n : Naive} (h : Rest s n) :
    reset s = init s.periodic s.shape s.dx := by
  obtain ⟨h, h0⟩ := h
  have h1 := h.wf.lsz
  have h2 := h.wf.rsz
  have h3 := h.wf.nsz
  cases s
  simp only at h0 h1 h2 h3
  subst h0
  simp [reset, init, h1, h2, h3, Vec.fill]

/-! ### adding points -/

theorem addPoint_ok {s : State} {n : Naive} (h : Mid s n) {p : Nat} (hp : p < prodShape s.shape) :
    ∃ s', addPoint s p = ok s' ∧ Mid s' (n.add (nbOf s) p) ∧ SameConf s s' := by
  unfold addPoint
  rw [Vec.read_eq (by omega) (by rw [h.wf.lsz]; omega)]
  simp only [Outcome.bind, Int.toNat_natCast]
  by_cases h0 : s.label.get p = 0
  · rw [if_neg (by simpa using h0)]
    obtain ⟨s', e, m, c, -⟩ := labelImpl_ok h hp h0
    exact ⟨s', e, m, c⟩
  · rw [if_pos h0]
    have : n.lab p ≠ 0 := by
      rw [← h.rep.1 p hp]
      exact fun e => h0 ((h.wf.abs_zero hp).1 e)
    refine ⟨s, rfl, ?_, SameConf.refl s⟩
    unfold Naive.add
    rw [if_pos this]
    exact h

theorem addPointsLoop_ok : ∀ (pts : List Nat) {s : State} {n : Naive}, Mid s n →
    (∀ p ∈ pts, p < prodShape s.shape) →
    ∃ s', forM (pts.map fun p : Nat => (p : Int)) s addPoint = ok s' ∧
      Mid s' (pts.foldl (Naive.add (nbOf s)) n) ∧ SameConf s s'
  | [], s, n, h, _ => ⟨s, rfl, h, SameConf.refl s⟩
  | p :: pts, s, n, h, hp => by
    obtain ⟨s1, e1, m1, c1⟩ := addPoint_ok h (hp p (by simp))
    obtain ⟨s2, e2, m2, c2⟩ := addPointsLoop_ok pts m1
      (fun q hq => by rw [c1.2.1]; exact hp q (by simp [hq]))
    rw [c1.nbOf] at m2
    exact ⟨s2, by simp [forM, e1, Outcome.bind, e2], m2, c1.trans c2⟩

theorem renumberLoop_ok {renum : Vec Int} : ∀ (l : List Nat) {label : Vec Int}, l.Nodup →
    (∀ i ∈ l, i < label.size ∧ 0 ≤ label.get i ∧ label.get i < renum.size) →
    renumberLoop renum l label =
      ok ⟨label.size, fun k => if k ∈ l then renum.get (label.get k).toNat else label.get k⟩
  | [], label, _, _ => by simp [renumberLoop]
  | i :: l, label, hn, h => by
    have hi := h i (by simp)
    rw [List.nodup_cons] at hn
    unfold renumberLoop
    rw [Vec.read_eq (by omega) (by omega)]
    simp only [Outcome.bind, Int.toNat_natCast]
    rw [Vec.read_eq hi.2.1 hi.2.2]
    simp only
    rw [Vec.write_eq (by omega) (by omega)]
    simp only [Int.toNat_natCast]
    rw [renumberLoop_ok l hn.2]
    · congr 2
      funext k
      by_cases hk : k = i
      · subst hk
        simp [hn.1]
      · simp [hk]
    · intro j hj
      have hj' := h j (by simp [hj])
      have : j ≠ i := fun e => hn.1 (e ▸ hj)
      simpa [this] using hj'

/-- `private_renumber(m_renum)`. -/
theorem privateRenumber_ok {s : State} {N : Nat} (hl : s.label.size = N)
    (hr : s.renum.size = N + 1) (h : ∀ p < N, 0 ≤ s.label.get p ∧ s.label.get p ≤ N) :
    privateRenumber s = ok { s with label :=
      ⟨N, fun k => if k < N then s.renum.get (s.label.get k).toNat else s.label.get k⟩ } := by
  unfold privateRenumber
  rw [renumberLoop_ok (List.range s.label.size) (List.nodup_range)]
  · simp [Outcome.bind, hl]
  · intro i hi
    rw [List.mem_range, hl] at hi
    have := h i hi
    refine ⟨by omega, this.1, by rw [hr]; push_cast; omega⟩

theorem applyMerge_ok {s : State} {n : Naive} (h : Mid s n) :
    ∃ s', applyMerge s = ok s' ∧ Rest s' n ∧ SameConf s s' := by
  unfold applyMerge
  split
  · rename_i h0
    exact ⟨s, rfl, ⟨h, h0⟩, SameConf.refl s⟩
  · have hwf := h.wf
    have hnew := hwf.newle
    rw [privateRenumber_ok hwf.lsz hwf.rsz (fun p hp => by have := hwf.lab p hp; omega)]
    simp only [Outcome.bind]
    set N := prodShape s.shape with hN
    set s' : State := { s with
      label := ⟨N, fun k => if k < N then s.renum.get (s.label.get k).toNat else s.label.get k⟩
      next := Vec.fill s.next.size (-1)
      nmerge := 0 } with hs'
    have hlab : ∀ p < N, s'.label.get p = abs s p := by
      intro p hp
      show (if p < N then _ else _) = _
      rw [if_pos hp]; rfl
    have habs : ∀ p < N, abs s' p = abs s p := by
      intro p hp
      show rn s (s'.label.get p) = _
      rw [hlab p hp, hwf.root p hp]
    have hnl : nlabelled s' N = nlabelled s N := by
      unfold nlabelled
      congr 1
      apply Finset.filter_congr
      intro p hp
      rw [Finset.mem_range] at hp
      rw [hlab p hp, ne_eq, hwf.abs_zero hp]
    have hnx : ∀ l, nx s' l = -1 := fun l => rfl
    refine ⟨s', rfl, ⟨⟨?_, ⟨fun p hp => by rw [habs p hp]; exact h.rep.1 p hp, h.rep.2⟩, ?_, h.safe⟩,
      rfl⟩, ⟨rfl, rfl, rfl⟩⟩
    · exact
        { lsz := rfl
          rsz := hwf.rsz
          nsz := hwf.nsz
          new1 := hwf.new1
          cnt := by
            have := hwf.cnt
            show s.newLabel ≤ (nlabelled s' N : Int) + 1
            rw [hnl]; exact this
          lab := fun p hp => by rw [hlab p hp]; exact hwf.abs_range hp
          ren := hwf.ren
          fresh := fun l h0 h1 => ⟨(hwf.fresh l h0 h1).1, hnx l⟩
          root := fun p hp => by rw [habs p hp]; exact hwf.root p hp
          chain := fun r h1 h2 h3 => ⟨[], Walk.nil (hnx r), by simp, fun p hp e => by
            left; rw [hlab p hp, ← habs p hp, e]⟩
          live := fun r h1 h2 h3 => by
            obtain ⟨p, hp, e⟩ := hwf.live r h1 h2 h3
            exact ⟨p, hp, by rw [habs p hp]; exact e⟩ }
    · intro _
      exact ⟨fun l _ _ => hnx l, fun p hp => by rw [habs p hp, hlab p hp]⟩

theorem legalPoints_ok {s : State} {pts : List Nat} (h : ∀ p ∈ pts, p < s.label.size) :
    legalPoints s (pts.map fun p : Nat => (p : Int)) = true := by
  unfold legalPoints
  rw [Bool.not_eq_true', ← Bool.not_eq_true, List.any_eq_true]
  rintro ⟨x, hx, hd⟩
  rw [List.mem_map] at hx
  obtain ⟨p, hp, rfl⟩ := hx
  have := h p hp
  have hd' := of_decide_eq_true hd
  unfold toSize at hd'
  omega

theorem addPoints_ok (dbg : Bool) {s : State} {n : Naive} (h : Mid s n) {pts : List Nat}
    (hp : ∀ p ∈ pts, p < prodShape s.shape) :
    ∃ s', addPoints dbg s (pts.map fun p : Nat => (p : Int)) = ok s' ∧
      Rest s' (pts.foldl (Naive.add (nbOf s)) n) ∧ SameConf s s' := by
  unfold addPoints
  rw [legalPoints_ok (fun p hp' => by rw [h.wf.lsz]; exact hp p hp')]
  obtain ⟨s1, e1, m1, c1⟩ := addPointsLoop_ok pts h hp
  obtain ⟨s2, e2, m2, c2⟩ := applyMerge_ok m1
  exact ⟨s2, by simp [e1, Outcome.bind, e2], m2, c1.trans c2⟩

/-- The nonzero pixels of an image, in row-major order. -/
def onPixels (img : List Int) : List Nat :=
  ((List.range img.length).zip img).filterMap fun p => if p.2 = 0 then none else some p.1

theorem addPixel_forM : ∀ (l : List (Nat × Int)) (s : State),
    forM l s addPixel =
      forM ((l.filterMap fun p => if p.2 = 0 then none else some p.1).map fun p : Nat => (p : Int)) s
        addPoint
  | [], s => rfl
  | (i, v) :: l, s => by
    by_cases h : v = 0
    · simp [forM, addPixel, h, Outcome.bind, addPixel_forM l]
    · simp [forM, addPixel, h, addPixel_forM l]

theorem addImage_ok (dbg : Bool) {s : State} {n : Naive} (h : Mid s n) {img : List Int}
    (hl : img.length = prodShape s.shape) :
    ∃ s', addImage dbg s s.shape img = ok s' ∧
      Rest s' ((onPixels img).foldl (Naive.add (nbOf s)) n) ∧ SameConf s s' := by
  have hp : ∀ p ∈ onPixels img, p < prodShape s.shape := by
    intro p hp
    unfold onPixels at hp
    rw [List.mem_filterMap] at hp
    obtain ⟨⟨i, v⟩, h1, h2⟩ := hp
    have := (List.of_mem_zip h1).1
    rw [List.mem_range] at this
    simp only at h2
    split at h2
    · cases h2
    · cases h2; omega
  unfold addImage
  obtain ⟨s1, e1, m1, c1⟩ := addPointsLoop_ok (onPixels img) h hp
  obtain ⟨s2, e2, m2, c2⟩ := applyMerge_ok m1
  refine ⟨s2, ?_, m2, c1.trans c2⟩
  rw [addPixel_forM]
  unfold onPixels at e1
  simp [e1, Outcome.bind, e2]

/-! ### `prune` -/

theorem pruneLoop_ok : ∀ (k a : Nat) (nl : Int) (renum : Vec Int), a + k ≤ renum.size →
    ∃ renum', pruneLoop (List.range' a k) nl renum =
      ok (nl + ((List.range' a k).filter fun i : Nat => renum.get i = i).length, renum') ∧
      renum'.size = renum.size ∧
      ∀ i, renum'.get i = if a ≤ i ∧ i < a + k ∧ renum.get i = i
        then nl + ((List.range' a (i - a)).filter fun i : Nat => renum.get i = i).length
        else renum.get i
  | 0, a, nl, renum, _ => by
    refine ⟨renum, by simp [pruneLoop], rfl, fun i => ?_⟩
    rw [if_neg (by omega)]
  | k + 1, a, nl, renum, h => by
    rw [List.range'_succ]
    unfold pruneLoop
    rw [Vec.read_eq (by omega) (by omega)]
    simp only [Outcome.bind, Int.toNat_natCast]
    by_cases ha : renum.get a = a
    · rw [if_pos ha, Vec.write_eq (by omega) (by omega)]
      simp only [Int.toNat_natCast]
      obtain ⟨r', e1, e2, e3⟩ := pruneLoop_ok k (a + 1) (nl + 1)
        ⟨renum.size, fun j => if j = a then nl else renum.get j⟩ (by simp only; omega)
      have hfil : ∀ m, (List.range' (a + 1) m).filter
          (fun i : Nat => decide ((if i = a then nl else renum.get i) = (i : Int))) =
          (List.range' (a + 1) m).filter fun i : Nat => decide (renum.get i = (i : Int)) := by
        intro m
        apply List.filter_congr
        intro i hi
        rw [List.mem_range'_1] at hi
        rw [if_neg (by omega)]
      simp only [hfil] at e1 e3
      refine ⟨r', ?_, e2, fun i => ?_⟩
      · rw [e1, List.filter_cons_of_pos (by simpa using ha), List.length_cons]
        congr 2
        push_cast
        ring
      · rw [e3 i]
        by_cases hi : i = a
        · subst hi
          rw [if_neg (by omega)]
          simp [ha]
        · simp only [if_neg hi]
          by_cases hc : a + 1 ≤ i ∧ i < a + 1 + k ∧ renum.get i = i
          · rw [if_pos hc, if_pos (by omega)]
            obtain ⟨m, rfl⟩ : ∃ m, i = a + 1 + m := ⟨i - (a + 1), by omega⟩
            have h1 : a + 1 + m - (a + 1) = m := by omega
            have h2 : a + 1 + m - a = m + 1 := by omega
            rw [h1, h2, List.range'_succ, List.filter_cons_of_pos (by simpa using ha),
              List.length_cons]
            push_cast
            ring
          · rw [if_neg hc, if_neg (by omega)]
    · rw [if_neg ha]
      obtain ⟨r', e1, e2, e3⟩ := pruneLoop_ok k (a + 1) nl renum (by omega)
      refine ⟨r', ?_, e2, fun i => ?_⟩
      · rw [e1, List.filter_cons_of_neg (by simpa using ha)]
      · rw [e3 i]
        by_cases hi : i = a
        · subst hi
          rw [if_neg (by omega), if_neg (fun hc => ha hc.2.2)]
        · by_cases hc : a + 1 ≤ i ∧ i < a + 1 + k ∧ renum.get i = i
          · rw [if_pos hc, if_pos (by omega)]
            obtain ⟨m, rfl⟩ : ∃ m, i = a + 1 + m := ⟨i - (a + 1), by omega⟩
            have h1 : a + 1 + m - (a + 1) = m := by omega
            have h2 : a + 1 + m - a = m + 1 := by omega
            rw [h1, h2, List.range'_succ, List.filter_cons_of_neg (by simpa using ha)]
          · rw [if_neg hc, if_neg (by omega)]

/-- The labels in use of a clean labeller are the roots. -/
theorem used_eq {s : State} {n : Naive} (h : Rest s n) :
    sortUnique (((List.range (prodShape s.shape)).map n.lab).filter (· ≠ 0)) =
      ((List.range' 1 (s.newLabel.toNat - 1)).filter fun i : Nat => s.renum.get i = i).map
        fun i : Nat => (i : Int) := by
  have hwf := h.mid.wf
  have hnew := hwf.new1
  apply eq_of_sorted_of_mem (sortUnique_sorted _)
  · rw [List.pairwise_map]
    refine List.Pairwise.filter _ ?_
    refine (List.pairwise_lt_range').imp ?_
    intro a b hab; omega
  · intro x
    rw [mem_sortUnique, List.mem_filter, List.mem_map, List.mem_map]
    constructor
    · rintro ⟨⟨p, hp, rfl⟩, h0⟩
      rw [List.mem_range] at hp
      have h0' : n.lab p ≠ 0 := by simpa using h0
      have e := h.mid.rep.1 p hp
      have hr := hwf.abs_range hp
      have hroot := hwf.root p hp
      rw [e] at hr hroot
      refine ⟨(n.lab p).toNat, ?_, by omega⟩
      rw [List.mem_filter, List.mem_range'_1]
      refine ⟨by omega, ?_⟩
      unfold rn at hroot
      simp only [decide_eq_true_eq]
      omega
    · rintro ⟨i, hi, rfl⟩
      rw [List.mem_filter, List.mem_range'_1] at hi
      have hi2 : s.renum.get i = i := by simpa using hi.2
      obtain ⟨p, hp, e⟩ := hwf.live (i : Int) (by omega) (by omega) (by
        unfold rn; simpa using hi2)
      rw [h.mid.rep.1 p hp] at e
      refine ⟨⟨p, List.mem_range.2 hp, e⟩, ?_⟩
      simp; omega

theorem prune_ok {s : State} {n : Naive} (h : Rest s n) :
    ∃ s', prune s = ok s' ∧ Rest s' (n.prune (prodShape s.shape)) ∧ SameConf s s' := by
  set N := prodShape s.shape with hN
  have hwf := h.mid.wf
  have hcl := h.mid.clean h.nomerge
  have hnew := hwf.newle
  have hnew1 := hwf.new1
  rw [← hN] at hwf hcl hnew
  obtain ⟨m, hm⟩ : ∃ m : Nat, s.newLabel = m + 1 := ⟨(s.newLabel - 1).toNat, by omega⟩
  have hm' : s.newLabel.toNat = m + 1 := by omega
  -- writing entry 0 changes nothing
  have hw0 : s.renum.write 0 0 = ok s.renum := by
    rw [Vec.write_eq (le_refl _) (by rw [hwf.rsz]; push_cast; omega)]
    congr 1
    have h0 := hwf.ren0
    unfold rn at h0
    rcases hr : s.renum with ⟨sz, g⟩
    rw [hr] at h0
    congr 1
    funext k
    split
    · rename_i hk
      rw [hk]; exact h0.symm
    · rfl
  obtain ⟨r1, e1, e2, e3⟩ := pruneLoop_ok m 1 1 s.renum (by rw [hwf.rsz]; omega)
  have htail : (List.range (m + 1)).tail = List.range' 1 m := by
    rw [List.range_eq_range', List.range'_succ, List.tail_cons]
  -- rank
  let cnt : Nat → Nat := fun k => ((List.range' 1 k).filter fun i : Nat => s.renum.get i = i).length
  have hr1 : ∀ i, r1.get i = if 1 ≤ i ∧ i < 1 + m ∧ s.renum.get i = i
      then 1 + (cnt (i - 1) : Int) else s.renum.get i := e3
  have hused := used_eq h
  rw [hm'] at hused
  simp only [Nat.add_sub_cancel, ← hN] at hused
  have hcnt_le : ∀ k, cnt k ≤ k := by
    intro k
    have := List.length_filter_le (fun i : Nat => decide (s.renum.get i = i)) (List.range' 1 k)
    simpa using this
  -- new labels
  have hlab0 : ∀ p < N, s.label.get p = n.lab p := fun p hp => h.label hp
  have hnewlab : ∀ p < N, r1.get (s.label.get p).toNat = (n.prune N).lab p := by
    intro p hp
    have hl := hwf.lab p hp
    rw [hr1]
    show _ = if n.lab p = 0 then 0 else _
    by_cases h0 : n.lab p = 0
    · rw [if_pos h0, hlab0 p hp, h0]
      rw [if_neg (by simp)]
      exact hwf.ren0
    · rw [if_neg h0]
      have hroot := hwf.root p hp
      rw [hcl.2 p hp] at hroot
      unfold rn at hroot
      have hlp := hlab0 p hp
      have hcond : 1 ≤ (s.label.get p).toNat ∧ (s.label.get p).toNat < 1 + m ∧
          s.renum.get (s.label.get p).toNat = ((s.label.get p).toNat : Int) := by
        refine ⟨by omega, by omega, by rw [hroot]; omega⟩
      rw [if_pos hcond, hused, List.filter_map, List.length_map]
      obtain ⟨l, hl'⟩ : ∃ l : Nat, s.label.get p = (l : Int) + 1 :=
        ⟨(s.label.get p - 1).toNat, by omega⟩
      have hln : (s.label.get p).toNat = l + 1 := by omega
      rw [hln] at hcond ⊢
      simp only [Nat.add_sub_cancel]
      rw [← hlp, hl', List.filter_filter]
      have hsplit : List.range' 1 m = List.range' 1 (l + 1) ++ List.range' (l + 2) (m - (l + 1)) := by
        have := List.range'_append (s := 1) (m := l + 1) (n := m - (l + 1)) (step := 1)
        rw [show 1 + 1 * (l + 1) = l + 2 by omega] at this
        rw [this]
        congr 1
        omega
      rw [hsplit, List.filter_append, List.length_append]
      rw [List.filter_congr (l := List.range' 1 (l + 1))
        (q := fun i : Nat => decide (s.renum.get i = (i : Int)))]
      · rw [(List.filter_eq_nil_iff (l := List.range' (l + 2) (m - (l + 1)))).2]
        · rw [List.range'_concat, List.filter_append, List.length_append,
            List.filter_cons_of_pos (by simpa [Nat.add_comm] using hcond.2.2)]
          simp only [List.filter_nil, List.length_cons, List.length_nil]
          show 1 + ((cnt l : Nat) : Int) = ((cnt l + (0 + 1) + 0 : Nat) : Int)
          push_cast
          ring
        · intro i hi
          rw [List.mem_range'_1] at hi
          simp
          omega
      · intro i hi
        rw [List.mem_range'_1] at hi
        have : ((i : Int) ≤ (l : Int) + 1) := by omega
        simp [this]
  have hlabpos : ∀ p < N, n.lab p ≠ 0 → 1 ≤ (n.prune N).lab p := by
    intro p hp h0
    rw [← hnewlab p hp, hr1]
    have hl := hwf.lab p hp
    rw [hlab0 p hp] at hl ⊢
    split
    · omega
    · rename_i hc
      exfalso
      apply hc
      have hroot := hwf.root p hp
      rw [hcl.2 p hp, hlab0 p hp] at hroot
      unfold rn at hroot
      refine ⟨by omega, by omega, by rw [hroot]; omega⟩
  -- the result
  let s' : State := { s with
    newLabel := 1 + (cnt m : Int)
    label := ⟨N, fun k => if k < N then r1.get (s.label.get k).toNat else s.label.get k⟩
    renum := ⟨r1.size, fun i => if i < m + 1 then (i : Int) else r1.get i⟩ }
  have hrun : prune s = ok s' := by
    unfold prune
    simp only [hw0, hm', htail, Outcome.bind]
    rw [e1]
    simp only
    have hpr := privateRenumber_ok (N := N) (s := { s with newLabel := 1 + (cnt m : Int), renum := r1 })
      hwf.lsz (e2.trans hwf.rsz)
      (fun p hp => by
        have := hwf.lab p hp
        show 0 ≤ s.label.get p ∧ s.label.get p ≤ N
        omega)
    have hpr' : privateRenumber { s with
        newLabel := 1 + ((List.filter (fun i : Nat => decide (s.renum.get i = (i : Int)))
          (List.range' 1 m)).length : Int), renum := r1 } = _ := hpr
    rw [hpr']
    simp only
    rw [iotaPrefix, if_pos (by rw [e2, hwf.rsz]; omega)]
  have hrn' : ∀ l : Int, 0 ≤ l → l ≤ N → rn s' l = l := by
    intro l h0 h1
    show (if l.toNat < m + 1 then (l.toNat : Int) else r1.get l.toNat) = l
    split
    · omega
    · rename_i hl
      rw [hr1, if_neg (by omega)]
      exact (hwf.fresh l (by omega) h1).1
  have hlab' : ∀ p < N, s'.label.get p = (n.prune N).lab p := by
    intro p hp
    show (if p < N then _ else _) = _
    rw [if_pos hp, hnewlab p hp]
  have hrange : ∀ p < N, 0 ≤ (n.prune N).lab p ∧ (n.prune N).lab p < 1 + (cnt m : Int) := by
    intro p hp
    have hlen : (sortUnique (((List.range N).map n.lab).filter (· ≠ 0))).length = cnt m := by
      rw [hused, List.length_map]
    show 0 ≤ (if n.lab p = 0 then (0 : Int) else _) ∧ (if n.lab p = 0 then (0 : Int) else _) < _
    split
    · omega
    · have := List.length_filter_le (fun x : Int => decide (x ≤ n.lab p))
        (sortUnique (((List.range N).map n.lab).filter (· ≠ 0)))
      rw [hlen] at this
      omega
  have hcntm : (cnt m : Int) ≤ N := by have := hcnt_le m; omega
  have habs' : ∀ p < N, abs s' p = (n.prune N).lab p := by
    intro p hp
    have := hrange p hp
    show rn s' (s'.label.get p) = _
    rw [hlab' p hp, hrn' _ this.1 (by omega)]
  have hzero : ∀ p < N, (n.prune N).lab p = 0 ↔ n.lab p = 0 := by
    intro p hp
    constructor
    · intro e
      by_contra h0
      have := hlabpos p hp h0
      omega
    · intro e
      show (if n.lab p = 0 then (0 : Int) else _) = 0
      rw [if_pos e]
  have hnl : nlabelled s' N = nlabelled s N := by
    unfold nlabelled
    congr 1
    apply Finset.filter_congr
    intro p hp
    rw [Finset.mem_range] at hp
    rw [hlab' p hp, hlab0 p hp, ne_eq, ne_eq, hzero p hp]
  -- the labels in use
  have hlive : ∀ r : Int, 1 ≤ r → r < 1 + (cnt m : Int) → ∃ p < N, (n.prune N).lab p = r := by
    intro r h1 h2
    have hlen : (sortUnique (((List.range N).map n.lab).filter (· ≠ 0))).length = cnt m := by
      rw [hused, List.length_map]
    have hk : (r - 1).toNat < (sortUnique (((List.range N).map n.lab).filter (· ≠ 0))).length := by
      rw [hlen]; omega
    have hmem := List.getElem_mem hk
    rw [mem_sortUnique, List.mem_filter, List.mem_map] at hmem
    obtain ⟨⟨p, hp, e⟩, h0⟩ := hmem
    rw [List.mem_range] at hp
    refine ⟨p, hp, ?_⟩
    have h0' : n.lab p ≠ 0 := by rw [e]; simpa using h0
    show (if n.lab p = 0 then (0 : Int) else _) = r
    rw [if_neg h0', e, filter_le_getElem_length (sortUnique_sorted _) hk]
    omega
  have hcntle : (cnt m : Int) ≤ nlabelled s N := by
    have hlen : (sortUnique (((List.range N).map n.lab).filter (· ≠ 0))).length = cnt m := by
      rw [hused, List.length_map]
    have hnd : (sortUnique (((List.range N).map n.lab).filter (· ≠ 0))).Nodup :=
      (sortUnique_sorted _).imp (fun hab => by omega)
    have hsub : (sortUnique (((List.range N).map n.lab).filter (· ≠ 0))).toFinset ⊆
        ((Finset.range N).filter fun p => s.label.get p ≠ 0).image n.lab := by
      intro x hx
      rw [List.mem_toFinset, mem_sortUnique, List.mem_filter, List.mem_map] at hx
      obtain ⟨⟨p, hp, e⟩, h0⟩ := hx
      rw [List.mem_range] at hp
      rw [Finset.mem_image]
      refine ⟨p, ?_, e⟩
      rw [Finset.mem_filter, Finset.mem_range, hlab0 p hp, e]
      exact ⟨hp, by simpa using h0⟩
    have h1 := Finset.card_le_card hsub
    rw [List.toFinset_card_of_nodup hnd, hlen] at h1
    have h2 := Finset.card_image_le (s := (Finset.range N).filter fun p => s.label.get p ≠ 0)
      (f := n.lab)
    have : cnt m ≤ nlabelled s N := h1.trans h2
    exact_mod_cast this
  have hsame : SameConf s s' := ⟨rfl, rfl, rfl⟩
  have hnx' : ∀ l, nx s' l = nx s l := fun l => rfl
  refine ⟨s', hrun, ⟨⟨?_, ⟨habs', ?_⟩, fun _ => ⟨hcl.1, fun p hp => ?_⟩, h.mid.safe⟩, h.nomerge⟩, hsame⟩
  · exact
      { lsz := rfl
        rsz := by show r1.size = _; rw [e2]; exact hwf.rsz
        nsz := hwf.nsz
        new1 := by show (1 : Int) ≤ 1 + (cnt m : Int); omega
        cnt := by
          show 1 + (cnt m : Int) ≤ (nlabelled s' N : Int) + 1
          rw [hnl]; omega
        lab := fun p hp => by rw [hlab' p hp]; exact hrange p hp
        ren := fun l h0 h1 => by rw [hrn' l h0 h1]; exact ⟨h0, le_refl _, id⟩
        fresh := fun l h0 h1 => by
          have h0' : 1 + (cnt m : Int) ≤ l := h0
          exact ⟨hrn' l (by omega) h1, hcl.1 l (by omega) h1⟩
        root := fun p hp => by
          have := hrange p hp
          rw [habs' p hp, hrn' _ this.1 (by omega)]
        chain := fun r h1 h2 _ => by
          have h2' : r < 1 + (cnt m : Int) := h2
          refine ⟨[], Walk.nil (hcl.1 r (by omega) (by omega)), by simp, fun p hp e => ?_⟩
          left
          rw [hlab' p hp, ← habs' p hp, e]
        live := fun r h1 h2 _ => by
          obtain ⟨p, hp, e⟩ := hlive r h1 h2
          exact ⟨p, hp, by rw [habs' p hp]; exact e⟩ }
  · show 1 + (cnt m : Int) = ((sortUnique (((List.range N).map n.lab).filter (· ≠ 0))).length : Int) + 1
    rw [hused, List.length_map]
    show 1 + (cnt m : Int) = (cnt m : Int) + 1
    ring
  · rw [habs' p hp, hlab' p hp]

/-! ### `add_sequence` -/

/-- Naive labeller after the first `k` points. -/
def upTo (nb : Nat → List Nat) (n : Naive) (pts : List Nat) (k : Nat) : Naive :=
  (pts.take k).foldl (Naive.add nb) n

theorem upTo_succ (nb : Nat → List Nat) (n : Naive) (pts : List Nat) {k : Nat} (hk : k < pts.length) :
    upTo nb n pts (k + 1) = (upTo nb n pts k).add nb pts[k] := by
  unfold upTo
  rw [List.take_add_one, List.foldl_append]
  simp [List.getElem?_eq_getElem hk]

theorem Naive.add_lab_ne {nb : Nat → List Nat} {n : Naive} {p : Nat} (h1 : 1 ≤ n.new)
    (h : n.lab p = 0) (hnew : (n.add nb p).lab p = 0) : False := by
  unfold Naive.add at hnew
  rw [if_neg (by simpa using h)] at hnew
  split at hnew
  · simp at hnew; omega
  · rename_i m rest e
    have hm : m ∈ n.around nb p := by rw [e]; simp
    simp only [Naive.around, mem_sortUnique, List.mem_filter] at hm
    simp at hnew
    simp [hnew] at hm

theorem seqInner_ok {n0 : Naive} {nb : Nat → List Nat} {pts : List Nat} {nl : Int} {nm : Nat}
    (lab : Int) : ∀ (k i : Nat) {s : State}, i + k = pts.length →
    Mid s (upTo nb n0 pts i) → nbOf s = nb → (∀ p ∈ pts, p < prodShape s.shape) →
    s.newLabel = nl → s.nmerge = nm →
    ∃ s' r, seqInner nl nm lab ((pts.map fun p : Nat => (p : Int)).drop i) i s = ok (s', r) ∧
      SameConf s s' ∧
      match r with
      | none => Mid s' (upTo nb n0 pts pts.length) ∧
          forM ((pts.map fun p : Nat => (p : Int)).drop i) s addPoint = ok s' ∧
          ∀ j (hj : j < pts.length), i ≤ j → ¬ (upTo nb n0 pts j).Event nb pts[j]
      | some j => ∃ hj : j < pts.length, i ≤ j ∧ Mid s' (upTo nb n0 pts (j + 1)) ∧
          s'.label.get pts[j] ≠ 0 ∧
          forM ((pts.map fun p : Nat => (p : Int)).drop i) s addPoint =
            forM ((pts.map fun p : Nat => (p : Int)).drop (j + 1)) s' addPoint ∧
          ((upTo nb n0 pts j).Event nb pts[j] ∨
            ((upTo nb n0 pts j).lab pts[j] ≠ 0 ∧ s'.label.get pts[j] ≠ lab)) ∧
          ∀ k (hk : k < pts.length), i ≤ k → k < j → ¬ (upTo nb n0 pts k).Event nb pts[k]
  | 0, i, s, hik, hm, hnb, hp, hnl, hnm => by
    have hi : i = pts.length := by omega
    subst hi
    have hnil : (pts.map fun p : Nat => (p : Int)).drop pts.length = [] :=
      List.drop_eq_nil_of_le (by simp)
    refine ⟨s, none, by rw [hnil]; rfl, SameConf.refl s, hm, by rw [hnil]; rfl,
      fun j hj hj' => by omega⟩
  | k + 1, i, s, hik, hm, hnb, hp, hnl, hnm => by
    have hi : i < pts.length := by omega
    have hpi : pts[i] < prodShape s.shape := hp _ (List.getElem_mem hi)
    have hdrop : (pts.map fun p : Nat => (p : Int)).drop i =
        (pts[i] : Int) :: (pts.map fun p : Nat => (p : Int)).drop (i + 1) := by
      rw [List.drop_eq_getElem_cons (by simpa using hi)]
      simp
    have habs := hm.rep.1 _ hpi
    have hz := hm.wf.abs_zero hpi
    have hread : s.label.read (pts[i] : Int) = ok (s.label.get pts[i]) := by
      rw [Vec.read_eq (by omega) (by rw [hm.wf.lsz]; omega)]; simp
    have hpt : ∀ s', addPoint s (pts[i] : Int) = ok s' →
        forM ((pts.map fun p : Nat => (p : Int)).drop i) s addPoint =
          forM ((pts.map fun p : Nat => (p : Int)).drop (i + 1)) s' addPoint := by
      intro s' e
      rw [hdrop]
      simp [forM, e, Outcome.bind]
    rw [hdrop]
    unfold seqInner
    rw [hread]
    simp only [Outcome.bind]
    rw [← hdrop]
    by_cases h0 : s.label.get pts[i] = 0
    · rw [if_neg (by tauto), if_neg (by tauto)]
      obtain ⟨s1, e1, m1, c1, ev, -, -⟩ := labelImpl_ok hm hpi h0
      have hadd : addPoint s (pts[i] : Int) = ok s1 := by
        unfold addPoint
        rw [hread]
        simp only [Outcome.bind]
        rw [if_neg (by tauto), e1]
      rw [hnb] at m1 ev
      rw [e1]
      simp only
      have hlab1 : s1.label.get pts[i] ≠ 0 := by
        have hpi1 : pts[i] < prodShape s1.shape := by rw [c1.2.1]; exact hpi
        intro e
        have := (m1.wf.abs_zero hpi1).2 e
        rw [m1.rep.1 _ hpi1] at this
        refine Naive.add_lab_ne ?_ ?_ this
        · rw [← hm.rep.2]; exact hm.wf.new1
        · rw [← habs]; exact hz.2 h0
      by_cases hev : (upTo nb n0 pts i).Event nb pts[i]
      · have hc := ev.2 hev
        rw [hnl, hnm] at hc
        rw [if_pos hc]
        refine ⟨s1, some i, rfl, c1, hi, le_refl _, ?_, hlab1, hpt s1 hadd, Or.inl hev,
          fun k _ h1 h2 => by omega⟩
        rw [upTo_succ nb n0 pts hi]
        exact m1
      · have hc : ¬ (s1.newLabel ≠ nl ∨ s1.nmerge ≠ nm) := by
          rw [← hnl, ← hnm]; exact fun h => hev (ev.1 h)
        rw [if_neg hc]
        rw [← upTo_succ nb n0 pts hi] at m1
        obtain ⟨s2, r, e2, c2, h2⟩ := seqInner_ok lab k (i + 1) (by omega) m1
          (by rw [c1.nbOf]; exact hnb) (fun p hp' => by rw [c1.2.1]; exact hp p hp')
          (nl := nl) (nm := nm) (by tauto) (by tauto)
        refine ⟨s2, r, e2, c1.trans c2, ?_⟩
        match r with
        | none =>
          refine ⟨h2.1, (hpt s1 hadd).trans h2.2.1, fun j hj hij => ?_⟩
          rcases Nat.eq_or_lt_of_le hij with rfl | hlt
          · exact hev
          · exact h2.2.2 j hj hlt
        | some j =>
          obtain ⟨hj, a1, a2, a3, a0, a4, a5⟩ := h2
          refine ⟨hj, by omega, a2, a3, (hpt s1 hadd).trans a0, a4, fun k hk hik' hkj => ?_⟩
          rcases Nat.eq_or_lt_of_le hik' with rfl | hlt
          · exact hev
          · exact a5 k hk hlt hkj
    · have hadd : addPoint s (pts[i] : Int) = ok s := by
        unfold addPoint
        rw [hread]
        simp only [Outcome.bind]
        rw [if_pos h0]
      have hl0 : (upTo nb n0 pts i).lab pts[i] ≠ 0 := by
        rw [← habs]; exact fun e => h0 (hz.1 e)
      have hev : ¬ (upTo nb n0 pts i).Event nb pts[i] := fun e => hl0 e.1
      have hstep : upTo nb n0 pts (i + 1) = upTo nb n0 pts i := by
        rw [upTo_succ nb n0 pts hi]
        unfold Naive.add
        rw [if_pos hl0]
      by_cases hl : s.label.get pts[i] = lab
      · rw [if_neg (by tauto), if_pos h0]
        obtain ⟨s2, r, e2, c2, h2⟩ := seqInner_ok lab k (i + 1) (by omega)
          (by rw [hstep]; exact hm) hnb hp hnl hnm
        refine ⟨s2, r, e2, c2, ?_⟩
        match r with
        | none =>
          refine ⟨h2.1, (hpt s hadd).trans h2.2.1, fun j hj hij => ?_⟩
          rcases Nat.eq_or_lt_of_le hij with rfl | hlt
          · exact hev
          · exact h2.2.2 j hj hlt
        | some j =>
          obtain ⟨hj, a1, a2, a3, a0, a4, a5⟩ := h2
          refine ⟨hj, by omega, a2, a3, (hpt s hadd).trans a0, a4, fun k hk hik' hkj => ?_⟩
          rcases Nat.eq_or_lt_of_le hik' with rfl | hlt
          · exact hev
          · exact a5 k hk hlt hkj
      · rw [if_pos ⟨hl, h0⟩]
        refine ⟨s, some i, rfl, SameConf.refl s, hi, le_refl _, by rw [hstep]; exact hm, h0,
          hpt s hadd, Or.inr ⟨hl0, hl⟩, fun k _ h1 h2 => by omega⟩

/-- The outer loop, from a pass that starts at a labelled point. -/
theorem seqOuter_ok {n0 : Naive} {nb : Nat → List Nat} {pts : List Nat} :
    ∀ (fuel i : Nat) {s : State} (ret : List Nat) (hi : i < pts.length), pts.length - i < fuel →
    Mid s (upTo nb n0 pts (i + 1)) → nbOf s = nb → (∀ p ∈ pts, p < prodShape s.shape) →
    s.label.get pts[i] ≠ 0 →
    ∃ s' new, seqOuter (pts.map fun p : Nat => (p : Int)) fuel i s ret = ok (s', ret ++ new) ∧
      SameConf s s' ∧ Mid s' (upTo nb n0 pts pts.length) ∧
      forM ((pts.map fun p : Nat => (p : Int)).drop (i + 1)) s addPoint = ok s' ∧
      new.Pairwise (· < ·) ∧
      (∀ j ∈ new, i < j ∧ ∃ hj : j < pts.length, (upTo nb n0 pts j).Event nb pts[j] ∨
        (upTo nb n0 pts j).lab pts[j] ≠ 0) ∧
      ∀ j (hj : j < pts.length), i < j → (upTo nb n0 pts j).Event nb pts[j] → j ∈ new
  | 0, i, s, ret, hi, hf, _, _, _, _ => by omega
  | fuel + 1, i, s, ret, hi, hf, hm, hnb, hp, h0 => by
    have hpi : pts[i] < prodShape s.shape := hp _ (List.getElem_mem hi)
    have hdrop : (pts.map fun p : Nat => (p : Int)).drop i =
        (pts[i] : Int) :: (pts.map fun p : Nat => (p : Int)).drop (i + 1) := by
      rw [List.drop_eq_getElem_cons (by simpa using hi)]
      simp
    unfold seqOuter
    have hget : (pts.map fun p : Nat => (p : Int))[i]? = some (pts[i] : Int) := by simp [hi]
    rw [hget]
    simp only
    rw [Vec.read_eq (by omega) (by rw [hm.wf.lsz]; omega)]
    simp only [Outcome.bind, Int.toNat_natCast]
    rw [hdrop]
    unfold seqInner
    rw [Vec.read_eq (by omega) (by rw [hm.wf.lsz]; omega)]
    simp only [Outcome.bind, Int.toNat_natCast]
    rw [if_neg (by tauto), if_pos h0]
    obtain ⟨s2, r, e2, c2, h2⟩ := seqInner_ok (s.label.get pts[i]) (pts.length - (i + 1)) (i + 1)
      (by omega) hm hnb hp rfl rfl
    rw [e2]
    simp only
    match r with
    | none =>
      refine ⟨s2, [], by simp, c2, h2.1, h2.2.1, List.Pairwise.nil, by simp, fun j hj hij he => ?_⟩
      exact absurd he (h2.2.2 j hj hij)
    | some j =>
      obtain ⟨hj, a1, a2, a3, a0, a4, a5⟩ := h2
      obtain ⟨s3, new, e3, c3, m3, f3, p3, q3, w3⟩ := seqOuter_ok fuel j (ret ++ [j]) hj (by omega) a2
        (by rw [c2.nbOf]; exact hnb) (fun p hp' => by rw [c2.2.1]; exact hp p hp') a3
      refine ⟨s3, j :: new, by simp only [e3]; simp, c2.trans c3, m3, a0.trans f3, ?_, ?_, ?_⟩
      · rw [List.pairwise_cons]
        exact ⟨fun a ha => (q3 a ha).1, p3⟩
      · intro a ha
        rcases List.mem_cons.1 ha with rfl | ha
        · exact ⟨by omega, hj, a4.imp id And.left⟩
        · exact ⟨by have := (q3 a ha).1; omega, (q3 a ha).2⟩
      · intro a ha hia he
        rcases Nat.lt_trichotomy a j with h | rfl | h
        · exact absurd he (a5 a ha hia h)
        · simp
        · exact List.mem_cons_of_mem _ (w3 a ha h he)

/-- `add_sequence` on a non-empty sequence: the final state, and the marked positions: all
events, and otherwise only points that had a label already. -/
theorem addSequence_ok (dbg : Bool) {s : State} {n : Naive} (h : Mid s n) {pts : List Nat}
    (hne : pts ≠ []) (hp : ∀ p ∈ pts, p < prodShape s.shape) :
    ∃ s' new, addSequence dbg s (pts.map fun p : Nat => (p : Int)) = ok (s', new ++ [pts.length]) ∧
      SameConf s s' ∧ Rest s' (pts.foldl (Naive.add (nbOf s)) n) ∧
      addPoints dbg s (pts.map fun p : Nat => (p : Int)) = ok s' ∧ new.Pairwise (· < ·) ∧
      (∀ j ∈ new, ∃ hj : j < pts.length, (upTo (nbOf s) n pts j).Event (nbOf s) pts[j] ∨
        (upTo (nbOf s) n pts j).lab pts[j] ≠ 0) ∧
      ∀ j (hj : j < pts.length), (upTo (nbOf s) n pts j).Event (nbOf s) pts[j] → j ∈ new := by
  have hlen : 0 < pts.length := List.length_pos_iff.2 hne
  have hfinal : upTo (nbOf s) n pts pts.length = pts.foldl (Naive.add (nbOf s)) n := by
    unfold upTo; rw [List.take_length]
  have h00 : upTo (nbOf s) n pts 0 = n := rfl
  unfold addSequence
  rw [legalPoints_ok (fun p hp' => by rw [h.wf.lsz]; exact hp p hp')]
  rw [if_neg (by simp [hne]), if_neg (by simp), List.length_map]
  -- the first pass
  suffices hgoal : ∃ s' new, seqOuter (pts.map fun p : Nat => (p : Int)) (2 * pts.length + 2) 0 s [] =
      ok (s', new) ∧ SameConf s s' ∧ Mid s' (upTo (nbOf s) n pts pts.length) ∧
      forM (pts.map fun p : Nat => (p : Int)) s addPoint = ok s' ∧ new.Pairwise (· < ·) ∧
      (∀ j ∈ new, ∃ hj : j < pts.length, (upTo (nbOf s) n pts j).Event (nbOf s) pts[j] ∨
        (upTo (nbOf s) n pts j).lab pts[j] ≠ 0) ∧
      ∀ j (hj : j < pts.length), (upTo (nbOf s) n pts j).Event (nbOf s) pts[j] → j ∈ new by
    obtain ⟨s', new, e, c, m, f, p, q, w⟩ := hgoal
    obtain ⟨s2, e2, m2, c2⟩ := applyMerge_ok m
    rw [hfinal] at m2
    refine ⟨s2, new, ?_, c.trans c2, m2, ?_, p, q, w⟩
    · rw [e]
      simp only [Outcome.bind]
      rw [e2]
    · unfold addPoints
      rw [legalPoints_ok (fun p hp' => by rw [h.wf.lsz]; exact hp p hp'), if_neg (by simp), f]
      exact e2
  by_cases h0 : s.label.get pts[0] = 0
  · have hpi : pts[0] < prodShape s.shape := hp _ (List.getElem_mem hlen)
    unfold seqOuter
    have hget : (pts.map fun p : Nat => (p : Int))[0]? = some (pts[0] : Int) := by simp [hlen]
    rw [hget]
    simp only
    rw [Vec.read_eq (by omega) (by rw [h.wf.lsz]; omega)]
    simp only [Outcome.bind, Int.toNat_natCast]
    obtain ⟨s2, r, e2, c2, h2⟩ := seqInner_ok (n0 := n) (s.label.get pts[0]) (pts.length) 0
      (by omega) h rfl hp rfl rfl
    rw [e2]
    simp only
    match r with
    | none =>
      exact ⟨s2, [], rfl, c2, h2.1, h2.2.1, List.Pairwise.nil, by simp, fun j hj he =>
        absurd he (h2.2.2 j hj (Nat.zero_le _))⟩
    | some j =>
      obtain ⟨hj, a1, a2, a3, a0, a4, a5⟩ := h2
      obtain ⟨s3, new, e3, c3, m3, f3, p3, q3, w3⟩ := seqOuter_ok (2 * pts.length + 1) j ([] ++ [j]) hj
        (by omega) a2 c2.nbOf (fun p hp' => by rw [c2.2.1]; exact hp p hp') a3
      refine ⟨s3, j :: new, by simp only [e3]; simp, c2.trans c3, m3, a0.trans f3, ?_, ?_, ?_⟩
      · rw [List.pairwise_cons]
        exact ⟨fun a ha => (q3 a ha).1, p3⟩
      · intro a ha
        rcases List.mem_cons.1 ha with rfl | ha
        · exact ⟨hj, a4.imp id And.left⟩
        · exact (q3 a ha).2
      · intro a ha he
        rcases Nat.lt_trichotomy a j with h | rfl | h
        · exact absurd he (a5 a ha (Nat.zero_le _) h)
        · simp
        · exact List.mem_cons_of_mem _ (w3 a ha h he)
  · have hpi : pts[0] < prodShape s.shape := hp _ (List.getElem_mem hlen)
    have hl0 : n.lab pts[0] ≠ 0 := by
      rw [← h.rep.1 _ hpi]; exact fun e => h0 ((h.wf.abs_zero hpi).1 e)
    have hm1 : upTo (nbOf s) n pts (0 + 1) = n := by
      rw [upTo_succ _ _ _ hlen, h00]
      unfold Naive.add
      rw [if_pos hl0]
    obtain ⟨s3, new, e3, c3, m3, f3, p3, q3, w3⟩ := seqOuter_ok (n0 := n) (nb := nbOf s) (pts := pts)
      (2 * pts.length + 2) 0 [] hlen (by omega) (by rw [hm1]; exact h) rfl hp h0
    have hpt : forM (pts.map fun p : Nat => (p : Int)) s addPoint = ok s3 := by
      have hd : (pts.map fun p : Nat => (p : Int)) =
          (pts[0] : Int) :: (pts.map fun p : Nat => (p : Int)).drop (0 + 1) := by
        have := List.drop_eq_getElem_cons (l := pts.map fun p : Nat => (p : Int)) (i := 0)
          (by simpa using hlen)
        simpa using this
      have hadd : addPoint s (pts[0] : Int) = ok s := by
        unfold addPoint
        rw [Vec.read_eq (by omega) (by rw [h.wf.lsz]; omega)]
        simp only [Outcome.bind, Int.toNat_natCast]
        rw [if_pos h0]
      rw [hd]
      simp only [forM, hadd, Outcome.bind]
      exact f3
    refine ⟨s3, new, by simpa using e3, c3, m3, hpt, p3, fun j hj => (q3 j hj).2, fun j hj he => ?_⟩
    rcases Nat.eq_zero_or_pos j with rfl | hpos
    · exact absurd he.1 hl0
    · exact w3 j hj hpos he

end Verif.Cluster
