import Verif.Model.Labels
import Verif.Lemmas.XTensor
import Mathlib.Data.Finset.Card
import Mathlib.Data.Finset.Sort
import Mathlib.Order.Interval.Finset.Nat
import Mathlib.Data.Int.Interval

/-! Helper lemmas for the `labels_*` functions. -/

namespace Verif.Labels

open Verif Outcome

/-! ### labels_map -/

theorem mapLoop_ok : ∀ (a b : List Int) (m : StdMap), a.length ≤ b.length → m.WF →
    ∃ m', mapLoop a b m = ok m' ∧ m'.WF ∧
      ∀ k, List.lookup k m' = (List.lookup k m).or (List.lookup k (a.zip b))
  | [], b, m, _, h => ⟨m, by simp [mapLoop], h, by simp⟩
  | x :: a, [], m, hl, _ => by simp at hl
  | x :: a, y :: b, m, hl, h => by
    obtain ⟨m', h1, h2, h3⟩ := mapLoop_ok a b (m.emplace x y)
      (by simpa using hl) (StdMap.emplace_wf h)
    refine ⟨m', by simpa [mapLoop] using h1, h2, fun k => ?_⟩
    rw [h3, StdMap.lookup_emplace h, List.zip_cons_cons, StdMap.lookup_cons]
    by_cases hk : k = x
    · subst hk
      simp only [if_true]
      cases List.lookup k m <;> simp
    · simp [hk]

theorem mapLoop_ub : ∀ (a b : List Int) (m : StdMap), b.length < a.length → mapLoop a b m = ub
  | [], b, m, h => by simp at h
  | x :: a, [], m, _ => by simp [mapLoop]
  | x :: a, y :: b, m, h => by
    simp only [mapLoop]
    exact mapLoop_ub a b _ (by simpa using h)

theorem lookup_zip_iff : ∀ (a b : List Int) (k v : Int), a.length = b.length →
    (List.lookup k (a.zip b) = some v ↔
      ∃ i : Nat, a[i]? = some k ∧ b[i]? = some v ∧ ∀ j < i, a[j]? ≠ some k)
  | [], b, k, v, h => by simp
  | x :: a, [], k, v, h => by simp at h
  | x :: a, y :: b, k, v, h => by
    rw [List.zip_cons_cons, StdMap.lookup_cons]
    split
    · rename_i hk
      subst hk
      constructor
      · intro e
        exact ⟨0, by simp, by simpa using e, by simp⟩
      · rintro ⟨i, h1, h2, h3⟩
        cases i with
        | zero => simpa using h2
        | succ i => exact absurd (by simp) (h3 0 (by omega))
    · rename_i hk
      rw [lookup_zip_iff a b k v (by simpa using h)]
      constructor
      · rintro ⟨i, h1, h2, h3⟩
        refine ⟨i + 1, by simpa using h1, by simpa using h2, ?_⟩
        intro j hj
        cases j with
        | zero => simp; omega
        | succ j => simpa using h3 j (by omega)
      · rintro ⟨i, h1, h2, h3⟩
        cases i with
        | zero => simp at h1; omega
        | succ i =>
          refine ⟨i, by simpa using h1, by simpa using h2, ?_⟩
          intro j hj
          simpa using h3 (j + 1) (by omega)

/-! ### labels_rename -/

theorem renameMap_spec : ∀ (r : List (Int × Int)) (m : StdMap), m.WF →
    (r.foldl (fun m r => StdMap.emplace r.1 r.2 m) m).WF ∧
    ∀ k, List.lookup k (r.foldl (fun m r => StdMap.emplace r.1 r.2 m) m) =
      (List.lookup k m).or (List.lookup k r)
  | [], m, h => ⟨h, by simp⟩
  | (x, y) :: r, m, h => by
    have ih := renameMap_spec r (m.emplace x y) (StdMap.emplace_wf h)
    refine ⟨ih.1, fun k => ?_⟩
    rw [List.foldl_cons, ih.2, StdMap.lookup_emplace h, StdMap.lookup_cons]
    by_cases hk : k = x
    · subst hk
      simp only [if_true]
      cases List.lookup k m <;> simp
    · simp [hk]

theorem labelsRename_eq (dbg : Bool) (labels : List Int) (rename : List (Int × Int)) :
    labelsRename dbg labels rename =
      if dbg = true ∧ ∃ l ∈ labels, List.lookup l rename = none then throws
      else ok (labels.map fun l => (List.lookup l rename).getD 0) := by
  have hm := renameMap_spec rename [] (by simp [StdMap.WF])
  unfold labelsRename
  simp only
  have h1 : ∀ l, StdMap.contains l (rename.foldl (fun m r => StdMap.emplace r.1 r.2 m) []) =
      (List.lookup l rename).isSome := by
    intro l; rw [StdMap.contains_eq, hm.2]; simp
  have h2 : ∀ l, StdMap.at0 l (rename.foldl (fun m r => StdMap.emplace r.1 r.2 m) []) =
      (List.lookup l rename).getD 0 := by
    intro l; rw [StdMap.at0_eq, hm.2]; simp
  simp only [h1, h2]
  congr 1
  simp

/-! ### labels_prune -/

theorem lookup_numberFrom : ∀ (u : List Int) (i k : Int), u.Pairwise (· < ·) →
    List.lookup k (numberFrom i u) =
      if k ∈ u then some (i + ((u.filter (· < k)).length : Int)) else none
  | [], i, k, _ => by simp [numberFrom]
  | x :: u, i, k, h => by
    rw [List.pairwise_cons] at h
    rw [numberFrom, StdMap.lookup_cons, lookup_numberFrom u (i + 1) k h.2]
    by_cases hk : k = x
    · subst hk
      have : (u.filter (· < k)) = [] := by
        rw [List.filter_eq_nil_iff]
        intro a ha
        have := h.1 a ha
        simp; omega
      simp [this]
    · by_cases hm : k ∈ u
      · have := h.1 k hm
        simp [hk, hm, this]
        omega
      · simp [hk, hm]

theorem length_filter_sortUnique (l : List Int) (p : Int → Bool) :
    ((sortUnique l).filter p).length = (l.toFinset.filter (fun x => p x = true)).card := by
  have hn : ((sortUnique l).filter p).Nodup := by
    apply List.Nodup.filter
    exact (sortUnique_sorted l).imp (fun h => ne_of_lt h)
  rw [← List.toFinset_card_of_nodup hn]
  congr 1
  ext x
  simp

theorem lookup_pruneTable (labels : List Int) (l : Int) (hl : l ∈ labels) :
    List.lookup l (pruneTable labels) = some (if l = 0 then 0
        else (((labels.toFinset.erase 0).filter (· ≤ l)).card : Int)) := by
  have hs := sortUnique_sorted labels
  have hmem : ∀ x, x ∈ sortUnique labels ↔ x ∈ labels := fun x => mem_sortUnique
  -- the nonzero labels in increasing order
  let nz := (sortUnique labels).filter (fun u => u != 0)
  have hnzs : nz.Pairwise (· < ·) := hs.filter _
  have hnzm : ∀ x, x ∈ nz ↔ x ∈ labels ∧ x ≠ 0 := by
    intro x; simp [nz]
  -- the count
  have hcount : l ≠ 0 → (1 : Int) + ((nz.filter (· < l)).length : Int) =
      (((labels.toFinset.erase 0).filter (· ≤ l)).card : Int) := by
    intro h0
    have e1 : (nz.filter (· < l)).length =
        (labels.toFinset.filter (fun x => x ≠ 0 ∧ x < l)).card := by
      have : nz.filter (· < l) =
          (sortUnique labels).filter (fun x => decide (x ≠ 0 ∧ x < l)) := by
        simp only [nz]
        rw [List.filter_filter]
        apply List.filter_congr
        intro x _
        by_cases h1 : x = 0 <;> by_cases h2 : x < l <;> simp [h1, h2]
      rw [this, length_filter_sortUnique]
      congr 1
      ext x
      simp
    have e2 : (labels.toFinset.erase 0).filter (· ≤ l) =
        insert l (labels.toFinset.filter (fun x => x ≠ 0 ∧ x < l)) := by
      ext x
      simp only [Finset.mem_filter, Finset.mem_erase, List.mem_toFinset, Finset.mem_insert]
      constructor
      · rintro ⟨⟨h1, h2⟩, h3⟩
        by_cases e : x = l
        · exact Or.inl e
        · exact Or.inr ⟨h2, h1, by omega⟩
      · rintro (rfl | ⟨h1, h2, h3⟩)
        · exact ⟨⟨h0, hl⟩, le_refl _⟩
        · exact ⟨⟨h2, h1⟩, by omega⟩
    rw [e2, Finset.card_insert_of_notMem (by simp), e1]
    push_cast; ring
  -- the value when the table is `(0,0) :: numberFrom 1 nz`
  have hval : ∀ u : List Int, u.Pairwise (· < ·) → (∀ x, x ∈ u ↔ x ∈ nz) →
      List.lookup l ((0, 0) :: numberFrom 1 u) = some (if l = 0 then 0
        else (((labels.toFinset.erase 0).filter (· ≤ l)).card : Int)) := by
    intro u hu hm
    have hun : u = nz := eq_of_sorted_of_mem hu hnzs hm
    subst hun
    rw [StdMap.lookup_cons]
    by_cases h0 : l = 0
    · simp [h0]
    · rw [if_neg h0, if_neg h0, lookup_numberFrom _ _ _ hnzs, if_pos ((hnzm l).2 ⟨hl, h0⟩),
        hcount h0]
  unfold pruneTable
  simp only
  split
  · rename_i hb
    split
    · rename_i hh
      apply hval
      · exact hs.tail
      · intro x
        rw [hnzm, ← hmem]
        cases hsu : sortUnique labels with
        | nil => simp [hsu] at hh
        | cons y u =>
          rw [hsu] at hh hs
          simp at hh
          subst hh
          rw [List.pairwise_cons] at hs
          simp only [List.tail_cons, List.mem_cons]
          constructor
          · intro hx
            have := hs.1 x hx
            exact ⟨Or.inr hx, by omega⟩
          · rintro ⟨h1 | h1, h2⟩
            · exact absurd h1 h2
            · exact h1
    · exact hval nz hnzs (fun x => Iff.rfl)
  · rename_i hb
    have h0 : (0 : Int) ∉ labels := by
      intro h0
      apply hb
      rw [List.any_eq_true]
      exact ⟨0, (hmem 0).2 h0, by simp⟩
    have hun : sortUnique labels = nz := by
      refine eq_of_sorted_of_mem hs hnzs fun x => ?_
      rw [hnzm, hmem]
      constructor
      · intro hx; exact ⟨hx, fun e => h0 (e ▸ hx)⟩
      · exact fun h => h.1
    have hl0 : l ≠ 0 := fun e => h0 (e ▸ hl)
    rw [if_neg hl0, hun, lookup_numberFrom _ _ _ hnzs, if_pos ((hnzm l).2 ⟨hl, hl0⟩), hcount hl0]

/-! ### ranks in a finite set of integers -/

theorem rank_lt_iff {s : Finset Int} {x y : Int} (hy : y ∈ s) (_hx : x ∈ s) :
    x < y ↔ ((s.filter (· ≤ x)).card : Int) < ((s.filter (· ≤ y)).card : Int) := by
  have mono : ∀ a b : Int, a ≤ b → (s.filter (· ≤ a)).card ≤ (s.filter (· ≤ b)).card := by
    intro a b hab
    apply Finset.card_le_card
    intro z hz
    simp only [Finset.mem_filter] at hz ⊢
    exact ⟨hz.1, by omega⟩
  constructor
  · intro h
    norm_cast
    apply Finset.card_lt_card
    rw [Finset.ssubset_iff_of_subset]
    · exact ⟨y, by simp [hy], by simp; omega⟩
    · intro z hz
      simp only [Finset.mem_filter] at hz ⊢
      exact ⟨hz.1, by omega⟩
  · intro h
    by_contra hn
    have := mono y x (by omega)
    omega

theorem exists_rank (s : Finset Int) (n : Nat) (h1 : 1 ≤ n) (h2 : n ≤ s.card) :
    ∃ x ∈ s, (s.filter (· ≤ x)).card = n := by
  have hmaps : ∀ x ∈ s, (s.filter (· ≤ x)).card ∈ Finset.Icc 1 s.card := by
    intro x hx
    rw [Finset.mem_Icc]
    exact ⟨Finset.card_pos.2 ⟨x, by simp [hx]⟩, Finset.card_filter_le _ _⟩
  have hinj : Set.InjOn (fun x => (s.filter (· ≤ x)).card) (s : Set Int) := by
    intro x hx y hy e
    simp only at e
    by_contra hne
    rcases lt_or_gt_of_ne hne with h | h
    · have := (rank_lt_iff (s := s) hy hx).1 h; omega
    · have := (rank_lt_iff (s := s) hx hy).1 h; omega
  have := Finset.surjOn_of_injOn_of_card_le (s := s) (t := Finset.Icc 1 s.card)
    (fun x => (s.filter (· ≤ x)).card) hmaps hinj (by simp)
  obtain ⟨x, hx, e⟩ := this (Finset.mem_coe.2 (Finset.mem_Icc.2 ⟨h1, h2⟩))
  exact ⟨x, hx, e⟩

/-! ### labels_reorder -/

theorem foldl_max_ge : ∀ (l : List Int) (x : Int), x ≤ l.foldl max x
  | [], x => by simp
  | y :: l, x => by
    have := foldl_max_ge l (max x y)
    simp only [List.foldl_cons]
    omega

theorem foldl_max_ge_mem : ∀ (l : List Int) (x y : Int), y ∈ l → y ≤ l.foldl max x
  | z :: l, x, y, h => by
    rcases List.mem_cons.1 h with rfl | h
    · have := foldl_max_ge l (max x y)
      simp only [List.foldl_cons]; omega
    · simpa using foldl_max_ge_mem l (max x z) y h

theorem foldl_max_mem : ∀ (l : List Int) (x : Int), l.foldl max x = x ∨ l.foldl max x ∈ l
  | [], x => by simp
  | y :: l, x => by
    simp only [List.foldl_cons]
    rcases foldl_max_mem l (max x y) with h | h
    · rw [h]
      rcases max_choice x y with e | e
      · left; exact e
      · right; rw [e]; simp
    · right; simp [h]

/-- `reorderLoop` on in-range labels: entry `k` is the last position of `k`. -/
theorem reorderLoop_ok : ∀ (order : List Int) (i : Int) (v : Vec Int),
    (∀ o ∈ order, 0 ≤ o ∧ o < v.size) →
    ∃ v', reorderLoop order i v = ok v' ∧ v'.size = v.size ∧
      ∀ k : Nat, ((k : Int) ∈ order → ∃ j : Nat, order[j]? = some (k : Int) ∧
          (∀ j', j < j' → order[j']? ≠ some (k : Int)) ∧ v'.get k = i + j) ∧
        ((k : Int) ∉ order → v'.get k = v.get k)
  | [], i, v, _ => ⟨v, rfl, rfl, by simp⟩
  | o :: order, i, v, h => by
    have ho := h o (by simp)
    let w : Vec Int := ⟨v.size, fun k => if k = o.toNat then i else v.get k⟩
    have hw : v.write o i = ok w := by simp [Vec.write, ho, w]
    obtain ⟨v', h1, h2, h3⟩ := reorderLoop_ok order (i + 1) w
      (fun x hx => h x (by simp [hx]))
    refine ⟨v', by simp [reorderLoop, hw, Outcome.bind, h1], by simp [h2, w], fun k => ?_⟩
    obtain ⟨h3a, h3b⟩ := h3 k
    constructor
    · intro hk
      by_cases hm : (k : Int) ∈ order
      · obtain ⟨j, e1, e2, e3⟩ := h3a hm
        refine ⟨j + 1, by simpa using e1, ?_, by rw [e3]; push_cast; ring⟩
        intro j' hj'
        cases j' with
        | zero => omega
        | succ j' => simpa using e2 j' (by omega)
      · have hko : (k : Int) = o := by
          rcases List.mem_cons.1 hk with e | e
          · exact e
          · exact absurd e hm
        refine ⟨0, by simp [hko], ?_, ?_⟩
        · intro j' hj'
          cases j' with
          | zero => omega
          | succ j' =>
            simp only [List.getElem?_cons_succ]
            intro e
            exact hm (List.mem_of_getElem? e)
        · rw [h3b hm]
          have : k = o.toNat := by omega
          simp [w, this]
    · intro hk
      simp only [List.mem_cons, not_or] at hk
      rw [h3b hk.2]
      have : ¬ (k = o.toNat) := by intro e; apply hk.1; omega
      simp [w, this]

theorem readAll_ok (v : Vec Int) : ∀ (labels : List Int), (∀ l ∈ labels, 0 ≤ l ∧ l < v.size) →
    readAll v labels = ok (labels.map fun l => v.get l.toNat)
  | [], _ => rfl
  | l :: labels, h => by
    have hl := h l (by simp)
    have hr : v.read l = ok (v.get l.toNat) := by simp [Vec.read, hl]
    simp [readAll, hr, Outcome.bind, readAll_ok v labels (fun x hx => h x (by simp [hx]))]

/-! ### labels_sizes -/

theorem sizes_spec : ∀ (labels : List Int) (m : StdMap), m.WF →
    (∀ k v, List.lookup k m = some v → 0 < v) →
    let m' := labels.foldl (fun m l => if StdMap.contains l m then m.incr l else m.emplace l 1) m
    m'.WF ∧ (∀ k v, List.lookup k m' = some v → 0 < v) ∧
    ∀ k, (List.lookup k m').getD 0 = (List.lookup k m).getD 0 + (labels.count k : Int)
  | [], m, h, h0 => ⟨h, h0, by simp⟩
  | l :: labels, m, h, h0 => by
    simp only [List.foldl_cons]
    by_cases hc : StdMap.contains l m = true
    · rw [if_pos hc]
      rw [StdMap.contains_eq] at hc
      obtain ⟨c, hc⟩ := Option.isSome_iff_exists.1 hc
      have h0' : ∀ k v, List.lookup k (StdMap.incr l m) = some v → 0 < v := by
        intro k v
        rw [StdMap.lookup_incr]
        split
        · rename_i e
          subst e
          rw [hc]
          simp only [Option.map_some, Option.some.injEq]
          intro e
          have := h0 _ _ hc
          omega
        · exact h0 k v
      obtain ⟨i1, i2, i3⟩ := sizes_spec labels (m.incr l) (StdMap.incr_wf h) h0'
      refine ⟨i1, i2, fun k => ?_⟩
      rw [i3, StdMap.lookup_incr]
      by_cases hk : k = l
      · subst hk
        simp [hc]; omega
      · have : ¬ (l = k) := fun e => hk e.symm
        simp [hk, this]
    · rw [if_neg hc]
      have hc' : List.lookup l m = none := by
        rw [StdMap.contains_eq] at hc
        exact Option.not_isSome_iff_eq_none.1 hc
      have h0' : ∀ k v, List.lookup k (StdMap.emplace l 1 m) = some v → 0 < v := by
        intro k v
        rw [StdMap.lookup_emplace h]
        split
        · simp [hc']; omega
        · exact h0 k v
      obtain ⟨i1, i2, i3⟩ := sizes_spec labels (m.emplace l 1) (StdMap.emplace_wf h) h0'
      refine ⟨i1, i2, fun k => ?_⟩
      rw [i3, StdMap.lookup_emplace h]
      by_cases hk : k = l
      · subst hk
        simp [hc']; omega
      · have : ¬ (l = k) := fun e => hk e.symm
        simp [hk, this]

end Verif.Labels
