import Verif.Model.XTensor
import Mathlib.Data.List.Sort
import Mathlib.Tactic.Ring
import Mathlib.Tactic.Linarith

/-! Lemmas on the external helpers: `sortUnique`, `StdMap`. -/

namespace Verif

theorem mem_insertUniq {x y : Int} : ∀ {l : List Int}, y ∈ insertUniq x l ↔ y = x ∨ y ∈ l
  | [] => by simp [insertUniq]
  | z :: l => by
    unfold insertUniq
    split
    · simp
    · split
      · subst_vars; simp
      · simp [mem_insertUniq (l := l)]; tauto

theorem insertUniq_sorted {x : Int} : ∀ {l : List Int}, l.Pairwise (· < ·) →
    (insertUniq x l).Pairwise (· < ·)
  | [], _ => by simp [insertUniq]
  | z :: l, h => by
    unfold insertUniq
    rw [List.pairwise_cons] at h
    split
    · rename_i hx
      refine List.pairwise_cons.2 ⟨?_, List.pairwise_cons.2 h⟩
      intro a ha
      rcases List.mem_cons.1 ha with rfl | ha
      · exact hx
      · have := h.1 a ha; omega
    · split
      · exact List.pairwise_cons.2 h
      · refine List.pairwise_cons.2 ⟨?_, insertUniq_sorted h.2⟩
        intro a ha
        rcases mem_insertUniq.1 ha with rfl | ha
        · omega
        · exact h.1 a ha

@[simp] theorem mem_sortUnique {y : Int} {l : List Int} : y ∈ sortUnique l ↔ y ∈ l := by
  induction l with
  | nil => simp [sortUnique]
  | cons x l ih =>
    have : sortUnique (x :: l) = insertUniq x (sortUnique l) := rfl
    rw [this, mem_insertUniq, ih, List.mem_cons]

theorem sortUnique_sorted (l : List Int) : (sortUnique l).Pairwise (· < ·) := by
  induction l with
  | nil => simp [sortUnique]
  | cons x l ih => exact insertUniq_sorted ih

/-- A strictly sorted list is determined by its members. -/
theorem eq_of_sorted_of_mem {l l' : List Int} (h : l.Pairwise (· < ·)) (h' : l'.Pairwise (· < ·))
    (hm : ∀ x, x ∈ l ↔ x ∈ l') : l = l' := by
  induction l generalizing l' with
  | nil =>
    cases l' with
    | nil => rfl
    | cons y l' => have := (hm y).2 (by simp); simp at this
  | cons x l ih =>
    cases l' with
    | nil => have := (hm x).1 (by simp); simp at this
    | cons y l' =>
      rw [List.pairwise_cons] at h h'
      have hxy : x = y := by
        have h1 := (hm x).1 (by simp)
        have h2 := (hm y).2 (by simp)
        rcases List.mem_cons.1 h1 with e | e
        · exact e
        · rcases List.mem_cons.1 h2 with e' | e'
          · exact e'.symm
          · have := h'.1 x e; have := h.1 y e'; omega
      subst hxy
      congr 1
      refine ih h.2 h'.2 fun z => ?_
      constructor
      · intro hz
        have := (hm z).1 (by simp [hz])
        rcases List.mem_cons.1 this with e | e
        · have := h.1 z hz; omega
        · exact e
      · intro hz
        have := (hm z).2 (by simp [hz])
        rcases List.mem_cons.1 this with e | e
        · have := h'.1 z hz; omega
        · exact e

theorem sortUnique_eq_iff {l l' : List Int} :
    sortUnique l = sortUnique l' ↔ ∀ x, x ∈ l ↔ x ∈ l' := by
  constructor
  · intro h x
    rw [← mem_sortUnique (l := l), h, mem_sortUnique]
  · intro h
    exact eq_of_sorted_of_mem (sortUnique_sorted l) (sortUnique_sorted l') (by simpa using h)

/-- In a strictly increasing list the element at position `k` has `k + 1` elements up to it. -/
theorem filter_le_getElem_length {l : List Int} (h : l.Pairwise (· < ·)) {k : Nat}
    (hk : k < l.length) : (l.filter (· ≤ l[k])).length = k + 1 := by
  induction l generalizing k with
  | nil => simp at hk
  | cons x l ih =>
    rw [List.pairwise_cons] at h
    cases k with
    | zero =>
      rw [List.getElem_cons_zero, List.filter_cons_of_pos (by simp), List.length_cons,
        List.filter_eq_nil_iff.2]
      · rfl
      · intro y hy
        have := h.1 y hy
        simp; omega
    | succ k =>
      have hk' : k < l.length := by simpa using hk
      have := h.1 _ (List.getElem_mem hk')
      rw [List.getElem_cons_succ, List.filter_cons_of_pos (by simp; omega), List.length_cons,
        ih h.2 hk']

namespace StdMap

/-- Sorted by key. -/
def WF (m : StdMap) : Prop := m.Pairwise (fun a b => a.1 < b.1)

theorem lookup_none_of_lt {k : Int} {m : StdMap} (h : ∀ p ∈ m, k < p.1) :
    List.lookup k m = none := by
  induction m with
  | nil => rfl
  | cons p m ih =>
    have h1 := h p (by simp)
    have : (k == p.1) = false := by simp; omega
    obtain ⟨k', v'⟩ := p
    simp only [List.lookup]
    simp only at this
    rw [this]
    exact ih fun q hq => h q (by simp [hq])

theorem lookup_cons (k k' v' : Int) (m : StdMap) :
    List.lookup k ((k', v') :: m) = if k = k' then some v' else List.lookup k m := by
  simp only [List.lookup]
  by_cases h : k = k'
  · subst h; simp
  · have : (k == k') = false := by simpa using h
    rw [this]; simp [h]

theorem at0_eq (k : Int) : ∀ m : StdMap, m.at0 k = (List.lookup k m).getD 0
  | [] => rfl
  | (k', v') :: m => by
    rw [lookup_cons, at0, at0_eq k m]; split <;> rfl

theorem contains_eq (k : Int) : ∀ m : StdMap, m.contains k = (List.lookup k m).isSome
  | [] => rfl
  | (k', v') :: m => by
    rw [lookup_cons]
    have := contains_eq k m
    unfold contains at this ⊢
    rw [List.any_cons, this]
    by_cases h : k = k'
    · subst h; simp
    · have h' : (k' == k) = false := by simp; omega
      simp [h, h']

theorem mem_emplace {k v : Int} {p : Int × Int} : ∀ {m : StdMap}, p ∈ m.emplace k v →
    p = (k, v) ∨ p ∈ m
  | [], h => by simpa [emplace] using h
  | (k', v') :: m, h => by
    unfold emplace at h
    split at h
    · simpa using h
    · split at h
      · right; exact h
      · rcases List.mem_cons.1 h with h | h
        · right; simp [h]
        · rcases mem_emplace h with h | h
          · left; exact h
          · right; simp [h]

theorem emplace_wf {k v : Int} : ∀ {m : StdMap}, m.WF → (m.emplace k v).WF
  | [], _ => by simp [WF, emplace]
  | (k', v') :: m, h => by
    unfold WF at h
    rw [List.pairwise_cons] at h
    unfold emplace
    split
    · refine List.pairwise_cons.2 ⟨?_, List.pairwise_cons.2 h⟩
      intro a ha
      rcases List.mem_cons.1 ha with rfl | ha
      · assumption
      · have := h.1 a ha; simp only at this ⊢; omega
    · split
      · exact List.pairwise_cons.2 h
      · refine List.pairwise_cons.2 ⟨?_, emplace_wf h.2⟩
        intro a ha
        rcases mem_emplace ha with rfl | ha
        · simp only; omega
        · exact h.1 a ha

theorem lookup_emplace {k v x : Int} : ∀ {m : StdMap}, m.WF →
    List.lookup x (m.emplace k v) =
      if x = k then some ((List.lookup k m).getD v) else List.lookup x m
  | [], _ => by
    simp only [emplace, lookup_cons]
    split <;> simp
  | (k', v') :: m, h => by
    unfold WF at h
    rw [List.pairwise_cons] at h
    unfold emplace
    split
    · rename_i hk
      rw [lookup_cons]
      split
      · rw [lookup_none_of_lt]
        · rfl
        · intro p hp
          rcases List.mem_cons.1 hp with rfl | hp
          · exact hk
          · have := h.1 p hp; simp only at this; omega
      · rfl
    · split
      · rename_i hk hk'
        subst hk'
        simp only [lookup_cons]
        split <;> simp_all
      · rename_i hk hk'
        rw [lookup_cons, lookup_emplace h.2, lookup_cons, lookup_cons]
        by_cases h1 : x = k'
        · subst h1
          have : ¬ (x = k) := fun e => hk' e.symm
          simp [this]
        · simp [h1, hk']

theorem lookup_of_mem {k v : Int} : ∀ {m : StdMap}, m.WF → (k, v) ∈ m → List.lookup k m = some v
  | (k', v') :: m, h, hm => by
    unfold WF at h
    rw [List.pairwise_cons] at h
    rw [lookup_cons]
    rcases List.mem_cons.1 hm with e | hm
    · cases e; simp
    · have := h.1 _ hm
      simp only at this
      rw [if_neg (by omega)]
      exact lookup_of_mem h.2 hm

theorem mem_of_lookup {k v : Int} : ∀ {m : StdMap}, List.lookup k m = some v → (k, v) ∈ m
  | (k', v') :: m, h => by
    rw [lookup_cons] at h
    split at h
    · cases h; subst_vars; simp
    · exact List.mem_cons_of_mem _ (mem_of_lookup h)

theorem mem_iff_lookup {k v : Int} {m : StdMap} (h : m.WF) :
    (k, v) ∈ m ↔ List.lookup k m = some v := ⟨lookup_of_mem h, mem_of_lookup⟩

theorem incr_keys (k : Int) : ∀ m : StdMap, (m.incr k).map Prod.fst = m.map Prod.fst
  | [] => rfl
  | (k', v') :: m => by
    unfold incr
    split
    · simp
    · simp [incr_keys k m]

theorem wf_iff_keys {m : StdMap} : m.WF ↔ (m.map Prod.fst).Pairwise (· < ·) := by
  unfold WF; rw [List.pairwise_map]

theorem incr_wf {k : Int} {m : StdMap} (h : m.WF) : (m.incr k).WF := by
  rw [wf_iff_keys, incr_keys, ← wf_iff_keys]; exact h

theorem lookup_incr {k x : Int} : ∀ m : StdMap,
    List.lookup x (m.incr k) = if x = k then (List.lookup x m).map (· + 1) else List.lookup x m
  | [] => by simp [incr]
  | (k', v') :: m => by
    unfold incr
    split
    · subst_vars
      simp only [lookup_cons]
      split <;> simp_all
    · rename_i hk
      simp only [lookup_cons, lookup_incr m]
      split <;> rename_i h1
      · subst h1
        rw [if_neg (fun e => hk e.symm)]
      · rfl

theorem sum_incr {k : Int} : ∀ {m : StdMap}, m.contains k = true →
    ((m.incr k).map Prod.snd).sum = (m.map Prod.snd).sum + 1
  | [], h => by simp [contains] at h
  | (k', v') :: m, h => by
    unfold incr
    split
    · simp only [List.map_cons, List.sum_cons]; ring
    · rename_i hk
      have : StdMap.contains k m = true := by
        unfold contains at h ⊢
        rw [List.any_cons, Bool.or_eq_true] at h
        rcases h with h | h
        · simp at h; omega
        · exact h
      simp only [List.map_cons, List.sum_cons, sum_incr this]; ring

theorem sum_emplace {k v : Int} : ∀ {m : StdMap}, m.WF → m.contains k = false →
    ((m.emplace k v).map Prod.snd).sum = (m.map Prod.snd).sum + v
  | [], _, _ => by simp [emplace]
  | (k', v') :: m, h, hc => by
    unfold WF at h
    rw [List.pairwise_cons] at h
    unfold contains at hc
    rw [List.any_cons, Bool.or_eq_false_iff] at hc
    unfold emplace
    split
    · simp only [List.map_cons, List.sum_cons]; ring
    · split
      · have := hc.1; simp at this; omega
      · simp only [List.map_cons, List.sum_cons, sum_emplace h.2 hc.2]; ring

end StdMap

end Verif
