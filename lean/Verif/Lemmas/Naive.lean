import Verif.Spec.NaiveLabeller
import Verif.Spec.Cluster
import Verif.Lemmas.XTensor

/-! # The naive labeller computes connected components -/

namespace Verif

open Spec

variable {nb : Nat → List Nat}

namespace Naive

/-- Neighbour relation of `nb`. -/
def adj (nb : Nat → List Nat) (p q : Nat) : Prop := q ∈ nb p

/-- Neighbours are mutual, among the pixels `< N`. -/
def Mutual (N : Nat) (nb : Nat → List Nat) : Prop :=
  ∀ p q, p < N → q < N → p ≠ q → q ∈ nb p → p ∈ nb q

theorem Joined.mem_right {a : Nat → Nat → Prop} {S : Nat → Prop} {p q : Nat}
    (h : Joined a S p q) : S q := by
  cases h <;> assumption

theorem Joined.mem_left {a : Nat → Nat → Prop} {S : Nat → Prop} {p q : Nat}
    (h : Joined a S p q) : S p := by
  induction h with
  | refl h => exact h
  | step _ _ _ ih => exact ih

theorem Joined.trans {a : Nat → Nat → Prop} {S : Nat → Prop} {p q r : Nat}
    (h : Joined a S p q) (h' : Joined a S q r) : Joined a S p r := by
  induction h' with
  | refl _ => exact h
  | step _ h2 h3 ih => exact Joined.step ih h2 h3

theorem Joined.mono {a : Nat → Nat → Prop} {S S' : Nat → Prop} (hS : ∀ p, S p → S' p) {p q : Nat}
    (h : Joined a S p q) : Joined a S' p q := by
  induction h with
  | refl h => exact Spec.Joined.refl (hS _ h)
  | step _ h2 h3 ih => exact Joined.step ih h2 (hS _ h3)

theorem Joined.symm {a : Nat → Nat → Prop} {S : Nat → Prop}
    (hs : ∀ p q, S p → S q → p ≠ q → a p q → a q p) {p q : Nat}
    (h : Joined a S p q) : Joined a S q p := by
  induction h with
  | refl h => exact Spec.Joined.refl h
  | @step q r h1 h2 h3 ih =>
    by_cases e : q = r
    · subst e; exact ih
    · exact Joined.trans (Joined.step (Spec.Joined.refl h3) (hs _ _ (Joined.mem_right h1) h3 e h2)
        (Joined.mem_right h1)) ih

/-- `Joined` only depends on the adjacency of different pixels of `S`. -/
theorem Joined.congr {a a' : Nat → Nat → Prop} {S : Nat → Prop}
    (hs : ∀ p q, S p → S q → p ≠ q → a p q → a' p q) {p q : Nat}
    (h : Joined a S p q) : Joined a' S p q := by
  induction h with
  | refl h => exact Spec.Joined.refl h
  | @step q r h1 h2 h3 ih =>
    by_cases e : q = r
    · subst e; exact ih
    · exact Joined.step ih (hs _ _ (Joined.mem_right h1) h3 e h2) h3

theorem Joined.congr_iff {a a' : Nat → Nat → Prop} {S : Nat → Prop}
    (hs : ∀ p q, S p → S q → p ≠ q → (a p q ↔ a' p q)) {p q : Nat} :
    Joined a S p q ↔ Joined a' S p q :=
  ⟨Joined.congr fun p q h1 h2 h3 => (hs p q h1 h2 h3).1,
    Joined.congr fun p q h1 h2 h3 => (hs p q h1 h2 h3).2⟩

/-- The invariant of the naive labeller. -/
structure Inv (N : Nat) (nb : Nat → List Nat) (hist : List Nat) (n : Naive) : Prop where
  nodup : hist.Nodup
  lt : ∀ p ∈ hist, p < N
  labelled : ∀ p, n.lab p ≠ 0 ↔ p ∈ hist
  range : ∀ p, 0 ≤ n.lab p ∧ n.lab p < n.new
  edge : ∀ p ∈ hist, ∀ q ∈ hist, q ∈ nb p → n.lab p = n.lab q
  joined : ∀ p ∈ hist, ∀ q ∈ hist, n.lab p = n.lab q → Joined (adj nb) (· ∈ hist) p q
  age : ∀ p ∈ hist, ∀ q ∈ hist, n.lab p < n.lab q →
    ∃ o ∈ hist, n.lab o = n.lab p ∧ Before hist o q

theorem inv_empty (N : Nat) (nb : Nat → List Nat) : Inv N nb [] empty where
  nodup := List.nodup_nil
  lt := by simp
  labelled := by simp [empty]
  range := by simp [empty]
  edge := by simp
  joined := by simp
  age := by simp

theorem Inv.eq_iff {N : Nat} {hist : List Nat} {n : Naive} (h : Inv N nb hist n) {p q : Nat}
    (hp : p ∈ hist) (hq : q ∈ hist) :
    n.lab p = n.lab q ↔ Joined (adj nb) (· ∈ hist) p q := by
  refine ⟨h.joined p hp q hq, fun hj => ?_⟩
  clear hq
  induction hj with
  | refl _ => rfl
  | step h1 h2 h3 ih => exact ih.trans (h.edge _ (Joined.mem_right h1) _ h3 h2)

theorem mem_around {n : Naive} {p : Nat} {c : Int} :
    c ∈ n.around nb p ↔ c ≠ 0 ∧ ∃ q ∈ nb p, n.lab q = c := by
  unfold around
  rw [mem_sortUnique, List.mem_filter, List.mem_map]
  simp only [decide_eq_true_eq]
  tauto

theorem idxOf_append_of_mem {l : List Nat} {p a : Nat} (h : a ∈ l) :
    (l ++ [p]).idxOf a = l.idxOf a := by
  rw [List.idxOf_append, if_pos h]

theorem idxOf_append_new {l : List Nat} {p : Nat} (h : p ∉ l) :
    (l ++ [p]).idxOf p = l.length := by
  rw [List.idxOf_append, if_neg h]; simp

theorem inv_add {N : Nat} {hist : List Nat} {n : Naive} (hm : Mutual N nb) (h : Inv N nb hist n)
    {p : Nat} (hp : p < N) :
    Inv N nb (if p ∈ hist then hist else hist ++ [p]) (n.add nb p) := by
  by_cases hmem : p ∈ hist
  · rw [if_pos hmem]
    unfold add
    rw [if_pos ((h.labelled p).2 hmem)]
    exact h
  · rw [if_neg hmem]
    have h0 : n.lab p = 0 := by
      by_contra hc; exact hmem ((h.labelled p).1 hc)
    have hne : ∀ q ∈ hist, q ≠ p := fun q hq e => hmem (e ▸ hq)
    have hback : ∀ q ∈ hist, p ∈ nb q → q ∈ nb p := fun q hq hqp =>
      hm q p (h.lt q hq) hp (hne q hq) hqp
    have hnd : (hist ++ [p]).Nodup := by
      rw [List.nodup_append]
      refine ⟨h.nodup, by simp, ?_⟩
      intro a ha b hb
      simp at hb
      subst hb
      exact hne a ha
    have hlt : ∀ q ∈ hist ++ [p], q < N := by
      intro q hq
      replace hq := List.mem_append.1 hq
      rcases hq with hq | hq
      · exact h.lt q hq
      · simp at hq; omega
    have hmono : ∀ {a b}, Joined (adj nb) (· ∈ hist) a b → Joined (adj nb) (· ∈ hist ++ [p]) a b :=
      fun hj => Joined.mono (fun q hq => List.mem_append_left _ hq) hj
    have hsymm : ∀ {a b}, Joined (adj nb) (· ∈ hist ++ [p]) a b →
        Joined (adj nb) (· ∈ hist ++ [p]) b a := fun hj =>
      Joined.symm (fun a b ha hb hab h1 => hm a b (hlt a ha) (hlt b hb) hab h1) hj
    have hpself : p ∈ hist ++ [p] := by simp
    have hage_old : ∀ {a b}, a ∈ hist → b ∈ hist → (Before (hist ++ [p]) a b ↔ Before hist a b) := by
      intro a b ha hb
      unfold Before
      rw [idxOf_append_of_mem ha, idxOf_append_of_mem hb]
    have hage_new : ∀ {a}, a ∈ hist → Before (hist ++ [p]) a p := by
      intro a ha
      unfold Before
      rw [idxOf_append_of_mem ha, idxOf_append_new hmem]
      exact List.idxOf_lt_length_iff.2 ha
    unfold add
    rw [if_neg (by simpa using h0)]
    split
    · -- a new cluster
      rename_i har
      have hno : ∀ q ∈ hist, q ∉ nb p := by
        intro q hq hqp
        have : n.lab q ∈ n.around nb p := mem_around.2 ⟨(h.labelled q).2 hq, q, hqp, rfl⟩
        rw [har] at this
        simp at this
      have hnew := (h.range p)
      refine ⟨hnd, hlt, ?_, ?_, ?_, ?_, ?_⟩
      · intro q
        by_cases e : q = p
        · subst e; simp; omega
        · simp [e, h.labelled q]
      · intro q
        have := h.range q
        simp only
        split <;> omega
      · intro a ha b hb hab
        replace ha := List.mem_append.1 ha
        replace hb := List.mem_append.1 hb
        rcases ha with ha | ha <;> rcases hb with hb | hb
        · simp [hne a ha, hne b hb, h.edge a ha b hb hab]
        · simp at hb; subst hb
          exact absurd (hback a ha hab) (hno a ha)
        · simp at ha; subst ha
          exact absurd hab (hno b hb)
        · simp at ha hb; subst ha; subst hb; rfl
      · intro a ha b hb hab
        replace ha := List.mem_append.1 ha
        replace hb := List.mem_append.1 hb
        rcases ha with ha | ha <;> rcases hb with hb | hb
        · simp only [hne a ha, hne b hb, if_false] at hab
          exact hmono (h.joined a ha b hb hab)
        · simp at hb; subst hb
          simp [hne a ha] at hab
          have := h.range a; omega
        · simp at ha; subst ha
          simp [hne b hb] at hab
          have := h.range b; omega
        · simp at ha hb; subst ha; subst hb
          exact Spec.Joined.refl hpself
      · intro a ha b hb hab
        replace ha := List.mem_append.1 ha
        replace hb := List.mem_append.1 hb
        rcases ha with ha | ha <;> rcases hb with hb | hb
        · simp only [hne a ha, hne b hb, if_false] at hab
          obtain ⟨o, ho, e, hbef⟩ := h.age a ha b hb hab
          exact ⟨o, List.mem_append_left _ ho, by simp [hne o ho, hne a ha, e],
            (hage_old ho hb).2 hbef⟩
        · simp at hb; subst hb
          exact ⟨a, List.mem_append_left _ ha, rfl, hage_new ha⟩
        · simp at ha; subst ha
          simp [hne b hb] at hab
          have := h.range b; omega
        · simp at ha hb; subst ha; subst hb
          simp at hab
    · -- join and merge
      rename_i m rest har
      have hsorted : (m :: rest).Pairwise (· < ·) := by
        rw [← har]; exact sortUnique_sorted _
      rw [List.pairwise_cons] at hsorted
      have hm_rest : m ∉ rest := fun hc => by have := hsorted.1 m hc; omega
      -- witnesses
      have hwit : ∀ c ∈ m :: rest, ∃ q ∈ hist, q ∈ nb p ∧ n.lab q = c := by
        intro c hc
        rw [← har, mem_around] at hc
        obtain ⟨h1, q, h2, h3⟩ := hc
        exact ⟨q, (h.labelled q).1 (by rw [h3]; exact h1), h2, h3⟩
      have hmw : m ≠ 0 ∧ 0 ≤ m ∧ m < n.new := by
        obtain ⟨q, hq, -, e⟩ := hwit m (by simp)
        have := h.range q
        have h1 := (h.labelled q).2 hq
        rw [e] at this h1
        exact ⟨h1, this⟩
      let L : Nat → Int := fun q => if q = p then m else if n.lab q ∈ rest then m else n.lab q
      have hLp : L p = m := by simp [L]
      have hLold : ∀ q ∈ hist, L q = if n.lab q ∈ rest then m else n.lab q := by
        intro q hq; simp [L, hne q hq]
      have hLcongr : ∀ a ∈ hist, ∀ b ∈ hist, n.lab a = n.lab b → L a = L b := by
        intro a ha b hb e
        rw [hLold a ha, hLold b hb, e]
      have hLaround : ∀ q ∈ hist, n.lab q ∈ m :: rest → L q = m := by
        intro q hq hc
        rw [hLold q hq]
        rcases List.mem_cons.1 hc with e | hc
        · rw [e]; simp [hm_rest]
        · simp [hc]
      have hLle : ∀ q ∈ hist, L q ≤ n.lab q := by
        intro q hq
        rw [hLold q hq]
        split
        · rename_i hc
          have := hsorted.1 _ hc; omega
        · exact le_refl _
      -- pixels with the merged label are joined to `p`
      have hjp : ∀ q ∈ hist, L q = m → Joined (adj nb) (· ∈ hist ++ [p]) q p := by
        intro q hq e
        have hc : n.lab q ∈ m :: rest := by
          rw [hLold q hq] at e
          split at e
          · rename_i hc; exact List.mem_cons_of_mem _ hc
          · rw [e]; simp
        obtain ⟨w, hw, hwp, hwe⟩ := hwit _ hc
        have h1 := hmono (h.joined q hq w hw hwe.symm)
        have h2 : Joined (adj nb) (· ∈ hist ++ [p]) p w :=
          Joined.step (Spec.Joined.refl hpself) hwp (List.mem_append_left _ hw)
        exact Joined.trans h1 (hsymm h2)
      refine ⟨hnd, hlt, ?_, ?_, ?_, ?_, ?_⟩
      · intro q
        show L q ≠ 0 ↔ _
        by_cases e : q = p
        · subst e; rw [hLp]; simp [hmw.1]
        · simp only [L, if_neg e]
          rw [List.mem_append]
          by_cases hr : n.lab q ∈ rest
          · have : q ∈ hist := by
              rw [← h.labelled]
              have := hsorted.1 _ hr
              omega
            simp [hr, hmw.1, this]
          · simp [hr, e, h.labelled q]
      · intro q
        show 0 ≤ L q ∧ L q < n.new
        have := h.range q
        simp only [L]
        split
        · exact hmw.2
        · split
          · exact hmw.2
          · exact this
      · intro a ha b hb hab
        show L a = L b
        replace ha := List.mem_append.1 ha
        replace hb := List.mem_append.1 hb
        rcases ha with ha | ha <;> rcases hb with hb | hb
        · exact hLcongr a ha b hb (h.edge a ha b hb hab)
        · simp at hb; subst hb
          rw [hLp]
          apply hLaround a ha
          rw [← har]
          exact mem_around.2 ⟨(h.labelled a).2 ha, a, hback a ha hab, rfl⟩
        · simp at ha; subst ha
          rw [hLp]
          symm
          apply hLaround b hb
          rw [← har]
          exact mem_around.2 ⟨(h.labelled b).2 hb, b, hab, rfl⟩
        · simp at ha hb; subst ha; subst hb; rfl
      · intro a ha b hb hab
        have hab : L a = L b := hab
        replace ha := List.mem_append.1 ha
        replace hb := List.mem_append.1 hb
        rcases ha with ha | ha <;> rcases hb with hb | hb
        · by_cases hmm : L a = m
          · exact Joined.trans (hjp a ha hmm) (hsymm (hjp b hb (by rw [← hab]; exact hmm)))
          · have hmm' : L b ≠ m := by rw [← hab]; exact hmm
            have e1 : L a = n.lab a := by
              rw [hLold a ha] at hmm ⊢
              split
              · rename_i hc; rw [if_pos hc] at hmm; exact absurd rfl hmm
              · rfl
            have e2 : L b = n.lab b := by
              rw [hLold b hb] at hmm' ⊢
              split
              · rename_i hc; rw [if_pos hc] at hmm'; exact absurd rfl hmm'
              · rfl
            exact hmono (h.joined a ha b hb (by rw [← e1, ← e2]; exact hab))
        · simp at hb; subst hb
          rw [hLp] at hab
          exact hjp a ha hab
        · simp at ha; subst ha
          rw [hLp] at hab
          exact hsymm (hjp b hb hab.symm)
        · simp at ha hb; subst ha; subst hb
          exact Spec.Joined.refl hpself
      · intro a ha b hb hab
        have hab : L a < L b := hab
        -- an old pixel that had and has the label of `a`
        obtain ⟨a0, ha0, e0, e0'⟩ : ∃ a0 ∈ hist, n.lab a0 = L a ∧ L a0 = L a := by
          by_cases hmm : L a = m
          · obtain ⟨w, hw, -, e⟩ := hwit m (by simp)
            exact ⟨w, hw, by rw [e, hmm], by rw [hmm]; exact hLaround w hw (by rw [e]; simp)⟩
          · have ha' : a ∈ hist := by
              replace ha := List.mem_append.1 ha
              rcases ha with ha | ha
              · exact ha
              · simp at ha; subst ha; exact absurd hLp hmm
            refine ⟨a, ha', ?_, rfl⟩
            rw [hLold a ha'] at hmm ⊢
            split
            · rename_i hc; rw [if_pos hc] at hmm; exact absurd rfl hmm
            · rfl
        replace hb := List.mem_append.1 hb
        rcases hb with hb | hb
        · have hlt' : n.lab a0 < n.lab b := by have := hLle b hb; omega
          obtain ⟨o, ho, eo, hbef⟩ := h.age a0 ha0 b hb hlt'
          refine ⟨o, List.mem_append_left _ ho, ?_, (hage_old ho hb).2 hbef⟩
          show L o = L a
          rw [← e0', hLcongr o ho a0 ha0 eo]
        · simp at hb; subst hb
          exact ⟨a0, List.mem_append_left _ ha0, e0', hage_new ha0⟩

theorem inv_foldl {N : Nat} (hm : Mutual N nb) : ∀ (pts : List Nat) {hist : List Nat} {n : Naive},
    Inv N nb hist n → (∀ p ∈ pts, p < N) →
    Inv N nb (visitAll hist pts) (pts.foldl (add nb) n)
  | [], _, _, h, _ => h
  | p :: pts, _, _, h, hp =>
    inv_foldl hm pts (inv_add hm h (hp p (by simp))) (fun q hq => hp q (by simp [hq]))

/-! ### prune -/

theorem rank_lt {used : List Int} (hu : used.Pairwise (· < ·)) {a b : Int} (hb : b ∈ used) :
    a < b → (used.filter (· ≤ a)).length < (used.filter (· ≤ b)).length := by
  intro hab
  induction used with
  | nil => simp at hb
  | cons x l ih =>
    rw [List.pairwise_cons] at hu
    have hle : (l.filter (· ≤ a)).length ≤ (l.filter (· ≤ b)).length := by
      apply List.Sublist.length_le
      apply List.monotone_filter_right
      intro c hc
      simp at hc ⊢
      omega
    by_cases hxb : x = b
    · subst hxb
      rw [List.filter_cons_of_neg (by simp; omega), List.filter_cons_of_pos (by simp),
        List.length_cons]
      omega
    · have hb' : b ∈ l := by
        rcases List.mem_cons.1 hb with h | h
        · exact absurd h.symm hxb
        · exact h
      have hxb' := hu.1 b hb'
      have := ih hu.2 hb'
      rw [List.filter_cons_of_pos (p := (decide <| · ≤ b)) (by simp; omega), List.length_cons]
      by_cases hxa : x ≤ a
      · rw [List.filter_cons_of_pos (by simpa using hxa), List.length_cons]; omega
      · rw [List.filter_cons_of_neg (by simpa using hxa)]; omega

/-- The labels in use. -/
def used (N : Nat) (n : Naive) : List Int :=
  sortUnique (((List.range N).map n.lab).filter (· ≠ 0))

theorem Inv.mem_used {N : Nat} {hist : List Nat} {n : Naive} (h : Inv N nb hist n) {c : Int} :
    c ∈ used N n ↔ ∃ p ∈ hist, n.lab p = c := by
  unfold used
  rw [mem_sortUnique, List.mem_filter, List.mem_map]
  constructor
  · rintro ⟨⟨p, -, rfl⟩, h0⟩
    exact ⟨p, (h.labelled p).1 (by simpa using h0), rfl⟩
  · rintro ⟨p, hp, rfl⟩
    exact ⟨⟨p, List.mem_range.2 (h.lt p hp), rfl⟩, by simpa using (h.labelled p).2 hp⟩

theorem Inv.prune_lt {N : Nat} {hist : List Nat} {n : Naive} (h : Inv N nb hist n) {p q : Nat}
    (hp : p ∈ hist) (hq : q ∈ hist) :
    (n.prune N).lab p < (n.prune N).lab q ↔ n.lab p < n.lab q := by
  have key : ∀ a b, a ∈ hist → b ∈ hist → n.lab a < n.lab b →
      (n.prune N).lab a < (n.prune N).lab b := by
    intro a b ha hb hab
    show (if n.lab a = 0 then (0 : Int) else ((used N n).filter (· ≤ n.lab a)).length) <
      (if n.lab b = 0 then (0 : Int) else ((used N n).filter (· ≤ n.lab b)).length)
    rw [if_neg ((h.labelled a).2 ha), if_neg ((h.labelled b).2 hb)]
    have := rank_lt (used := used N n) (sortUnique_sorted _) (h.mem_used.2 ⟨b, hb, rfl⟩) hab
    exact_mod_cast this
  constructor
  · intro hlt
    by_contra hc
    rcases lt_or_eq_of_le (not_lt.1 hc) with h1 | h1
    · have := key q p hq hp h1; omega
    · have : (n.prune N).lab p = (n.prune N).lab q := by
        show (if n.lab p = 0 then (0 : Int) else ((used N n).filter (· ≤ n.lab p)).length) =
          (if n.lab q = 0 then (0 : Int) else ((used N n).filter (· ≤ n.lab q)).length)
        rw [h1]
      omega
  · exact key p q hp hq

theorem Inv.prune_eq {N : Nat} {hist : List Nat} {n : Naive} (h : Inv N nb hist n) {p q : Nat}
    (hp : p ∈ hist) (hq : q ∈ hist) :
    (n.prune N).lab p = (n.prune N).lab q ↔ n.lab p = n.lab q := by
  have h1 := h.prune_lt hp hq
  have h2 := h.prune_lt hq hp
  omega

theorem Inv.prune_pos {N : Nat} {hist : List Nat} {n : Naive} (h : Inv N nb hist n) {p : Nat}
    (hp : p ∈ hist) : 1 ≤ (n.prune N).lab p := by
  show (1 : Int) ≤ if n.lab p = 0 then (0 : Int) else ((used N n).filter (· ≤ n.lab p)).length
  rw [if_neg ((h.labelled p).2 hp)]
  have : n.lab p ∈ (used N n).filter (· ≤ n.lab p) := by
    rw [List.mem_filter]
    exact ⟨h.mem_used.2 ⟨p, hp, rfl⟩, by simp⟩
  have := List.length_pos_of_mem this
  omega

theorem inv_prune {N : Nat} {hist : List Nat} {n : Naive} (h : Inv N nb hist n) :
    Inv N nb hist (n.prune N) where
  nodup := h.nodup
  lt := h.lt
  labelled := by
    intro p
    constructor
    · intro h0
      rw [← h.labelled]
      intro e
      apply h0
      show (if n.lab p = 0 then (0 : Int) else _) = 0
      rw [if_pos e]
    · intro hp
      have := h.prune_pos hp
      omega
  range := by
    intro p
    show 0 ≤ (if n.lab p = 0 then (0 : Int) else ((used N n).filter (· ≤ n.lab p)).length) ∧
      (if n.lab p = 0 then (0 : Int) else ((used N n).filter (· ≤ n.lab p)).length) <
        ((used N n).length : Int) + 1
    have := List.length_filter_le (fun x : Int => decide (x ≤ n.lab p)) (used N n)
    split <;> omega
  edge := fun p hp q hq hpq => (h.prune_eq hp hq).2 (h.edge p hp q hq hpq)
  joined := fun p hp q hq e => h.joined p hp q hq ((h.prune_eq hp hq).1 e)
  age := fun p hp q hq hlt => by
    obtain ⟨o, ho, e, hb⟩ := h.age p hp q hq ((h.prune_lt hp hq).1 hlt)
    exact ⟨o, ho, (h.prune_eq ho hp).2 e, hb⟩

/-- After `prune` the labels are 1, ..., n without gaps. -/
theorem Inv.prune_onto {N : Nat} {hist : List Nat} {n : Naive} (h : Inv N nb hist n) {k : Int}
    (h1 : 1 ≤ k) (h2 : k < (n.prune N).new) : ∃ p ∈ hist, (n.prune N).lab p = k := by
  have h2' : k < ((used N n).length : Int) + 1 := h2
  have hk : (k - 1).toNat < (used N n).length := by omega
  obtain ⟨p, hp, e⟩ := h.mem_used.1 (List.getElem_mem hk)
  refine ⟨p, hp, ?_⟩
  show (if n.lab p = 0 then (0 : Int) else ((used N n).filter (· ≤ n.lab p)).length) = k
  rw [if_neg ((h.labelled p).2 hp), e]
  have := filter_le_getElem_length (l := used N n) (sortUnique_sorted _) hk
  rw [this]
  omega

/-! ### stability -/

/-- How labels change under additions. -/
structure Stable (n n' : Naive) : Prop where
  new : n.new ≤ n'.new
  old : ∀ x, n'.lab x ≠ 0 → n'.lab x < n.new →
    ∃ q, n.lab q ≠ 0 ∧ n.lab q = n'.lab x ∧ n'.lab q = n'.lab x
  le : ∀ p, n.lab p ≠ 0 → n'.lab p ≤ n.lab p ∧ n'.lab p ≠ 0
  eq : ∀ p q, n.lab p ≠ 0 → n.lab p = n.lab q → n'.lab p = n'.lab q

theorem Stable.refl (n : Naive) : Stable n n where
  new := le_refl _
  old := fun x h _ => ⟨x, h, rfl, rfl⟩
  le := fun _ h => ⟨le_refl _, h⟩
  eq := fun _ _ _ e => e

theorem Stable.trans {n n' n'' : Naive} (h : Stable n n') (h' : Stable n' n'') : Stable n n'' where
  new := h.new.trans h'.new
  old := fun x h0 hlt => by
    obtain ⟨q1, a1, a2, a3⟩ := h'.old x h0 (lt_of_lt_of_le hlt h.new)
    obtain ⟨q0, b1, b2, b3⟩ := h.old q1 a1 (by rw [a2]; exact hlt)
    refine ⟨q0, b1, b2.trans a2, ?_⟩
    rw [h'.eq q0 q1 (by rw [b3]; exact a1) b3, a3]
  le := fun p h0 => by
    have h1 := h.le p h0
    have h2 := h'.le p h1.2
    exact ⟨h2.1.trans h1.1, h2.2⟩
  eq := fun p q h0 e => h'.eq p q (h.le p h0).2 (h.eq p q h0 e)

theorem stable_add (n : Naive) (p : Nat) :
    Stable n (n.add nb p) := by
  unfold add
  split
  · exact Stable.refl n
  · rename_i h0
    have h0 : n.lab p = 0 := by simpa using h0
    split
    · refine ⟨by show n.new ≤ n.new + 1; omega, ?_, ?_, ?_⟩
      · intro x hx hlt
        by_cases e : x = p
        · simp [e] at hlt
        · simp [e] at hx hlt ⊢
          exact ⟨x, hx, rfl, by simp [e]⟩
      · intro q hq
        have : q ≠ p := fun e => hq (e ▸ h0)
        simpa [this] using hq
      · intro a b ha hab
        have h1 : a ≠ p := fun e => ha (e ▸ h0)
        have h2 : b ≠ p := fun e => ha (by rw [hab]; exact e ▸ h0)
        simpa [h1, h2] using hab
    · rename_i m rest har
      have hsorted : (m :: rest).Pairwise (· < ·) := by
        rw [← har]; exact sortUnique_sorted _
      rw [List.pairwise_cons] at hsorted
      have hm_rest : m ∉ rest := fun hc => by have := hsorted.1 m hc; omega
      obtain ⟨hm0, w, -, hw⟩ : m ≠ 0 ∧ ∃ q ∈ nb p, n.lab q = m := by
        rw [← mem_around, har]; simp
      have hwp : w ≠ p := fun e => hm0 (by rw [← hw, e, h0])
      refine ⟨le_refl _, ?_, ?_, ?_⟩
      · intro x hx _
        simp only at hx ⊢
        by_cases e : x = p
        · exact ⟨w, by rw [hw]; exact hm0, by simp [e, hw], by simp [e, hwp, hw, hm_rest]⟩
        · by_cases hr : n.lab x ∈ rest
          · exact ⟨w, by rw [hw]; exact hm0, by simp [e, hr, hw], by simp [e, hr, hwp, hw, hm_rest]⟩
          · simp [e, hr] at hx
            exact ⟨x, hx, by simp [e, hr], rfl⟩
      · intro q hq
        have hqp : q ≠ p := fun e => hq (e ▸ h0)
        simp only [if_neg hqp]
        split
        · rename_i hr
          have := hsorted.1 _ hr
          exact ⟨by omega, hm0⟩
        · exact ⟨le_refl _, hq⟩
      · intro a b ha hab
        have h1 : a ≠ p := fun e => ha (e ▸ h0)
        have h2 : b ≠ p := fun e => ha (by rw [hab]; exact e ▸ h0)
        simp only [if_neg h1, if_neg h2, hab]

theorem stable_foldl {N : Nat} (hm : Mutual N nb) : ∀ (pts : List Nat) {hist : List Nat} {n : Naive},
    Inv N nb hist n → (∀ p ∈ pts, p < N) → Stable n (pts.foldl (add nb) n)
  | [], _, n, _, _ => Stable.refl n
  | p :: pts, _, _, h, hp =>
    (stable_add _ p).trans (stable_foldl hm pts (inv_add hm h (hp p (by simp)))
      (fun q hq => hp q (by simp [hq])))

/-! ### consequences -/

/-- Order of labels and age of clusters. -/
theorem Inv.lt_iff {N : Nat} {hist : List Nat} {n : Naive} (h : Inv N nb hist n) {p q : Nat}
    (hp : p ∈ hist) (hq : q ∈ hist) :
    n.lab p < n.lab q ↔
      ∃ o, Joined (adj nb) (· ∈ hist) p o ∧ ∀ o', Joined (adj nb) (· ∈ hist) q o' →
        Before hist o o' := by
  -- the oldest pixel of a cluster
  have oldest : ∀ a ∈ hist, ∃ o ∈ hist, n.lab o = n.lab a ∧ ∀ b ∈ hist, n.lab b = n.lab a →
      hist.idxOf o ≤ hist.idxOf b := by
    intro a ha
    classical
    obtain ⟨k, ⟨o, ho, e, hk⟩, hmin⟩ : ∃ k, (∃ o ∈ hist, n.lab o = n.lab a ∧ hist.idxOf o = k) ∧
        ∀ k' < k, ¬ ∃ o ∈ hist, n.lab o = n.lab a ∧ hist.idxOf o = k' := by
      have hex : ∃ k, ∃ o ∈ hist, n.lab o = n.lab a ∧ hist.idxOf o = k :=
        ⟨_, a, ha, rfl, rfl⟩
      exact ⟨Nat.find hex, Nat.find_spec hex, fun k' hk' => Nat.find_min hex hk'⟩
    refine ⟨o, ho, e, fun b hb eb => ?_⟩
    by_contra hc
    exact hmin (hist.idxOf b) (by omega) ⟨b, hb, eb, rfl⟩
  constructor
  · intro hlt
    obtain ⟨o, ho, e, hold⟩ := oldest p hp
    refine ⟨o, (h.eq_iff hp ho).1 e.symm, fun o' hj => ?_⟩
    have ho' := Joined.mem_right hj
    have e' := (h.eq_iff hq ho').2 hj
    obtain ⟨o1, h1, e1, hb⟩ := h.age p hp o' ho' (by omega)
    have := hold o1 h1 e1
    unfold Before at hb ⊢
    omega
  · rintro ⟨o, hjo, hall⟩
    have ho := Joined.mem_right hjo
    have e := (h.eq_iff hp ho).2 hjo
    rcases lt_trichotomy (n.lab p) (n.lab q) with hlt | heq | hgt
    · exact hlt
    · have := hall o (Joined.trans ((h.eq_iff hq hp).1 heq.symm) hjo)
      unfold Before at this
      omega
    · obtain ⟨o1, h1, e1, hb⟩ := h.age q hq o ho (by omega)
      have := hall o1 ((h.eq_iff hq h1).1 e1.symm)
      unfold Before at this hb
      omega

end Naive

end Verif
