import Verif.Props.Labels
import Verif.Props.Kernel

/-!
# Property C72: the `labels_*` functions together
-/

namespace Verif.Props

open Verif Outcome Labels Spec Cluster

theorem lookup_isSome {l : Int} {r : List (Int × Int)} (h : ∃ x ∈ r, x.1 = l) : ∃ v, List.lookup l r = some v := by
  obtain ⟨x, hx, e⟩ := h
  have : (List.lookup l r).isSome = true := by
    rw [← StdMap.contains_eq]
    unfold StdMap.contains
    rw [List.any_eq_true]
    exact ⟨x, hx, by simp [e]⟩
  exact Option.isSome_iff_exists.1 this

theorem lookup_mem : ∀ {r : List (Int × Int)} {l v : Int}, List.lookup l r = some v → (l, v) ∈ r
  | [], _, _, h => by cases h
  | (a, b) :: r, l, v, h => by
    by_cases e : l = a
    · subst e
      simp only [List.lookup_cons_self, Option.some.injEq] at h
      simp [h]
    · rw [List.lookup_cons, beq_eq_false_iff_ne.2 e] at h
      exact List.mem_cons_of_mem _ (lookup_mem h)

theorem lookup_map : ∀ {r : List (Int × Int)} {l : Int} (φ : Int → Int),
    List.lookup l (r.map fun x => (x.1, φ x.2)) = (List.lookup l r).map φ
  | [], _, _ => rfl
  | (a, b) :: r, l, φ => by
    by_cases e : l = a
    · subst e; simp
    · rw [List.map_cons, List.lookup_cons, List.lookup_cons, beq_eq_false_iff_ne.2 e]
      exact lookup_map φ

/-- `labels_rename` with a table that has all labels. -/
theorem rename_of_lookup (dbg : Bool) {labels : List Int} {rename : List (Int × Int)} {φ : Int → Int}
    (h : ∀ l ∈ labels, List.lookup l rename = some (φ l)) :
    labelsRename dbg labels rename = ok (labels.map φ) := by
  rw [labelsRename_eq, if_neg]
  · congr 1
    exact List.map_congr_left fun l hl => by rw [h l hl]; rfl
  · rintro ⟨-, l, hl, hn⟩
    rw [h l hl] at hn
    cases hn

/-- C72. Renaming twice is renaming once, with the composed table. -/
theorem C72_rename_rename (dbg : Bool) {labels : List Int} {r s : List (Int × Int)}
    (h : ∀ l ∈ labels, ∃ x ∈ r, x.1 = l) (h' : ∀ x ∈ r, ∃ y ∈ s, y.1 = x.2) :
    (labelsRename dbg labels r).bind (fun m => labelsRename dbg m s) =
      labelsRename dbg labels (r.map fun x => (x.1, (List.lookup x.2 s).getD 0)) := by
  have e1 : ∀ l ∈ labels, List.lookup l r = some ((List.lookup l r).getD 0) := by
    intro l hl
    obtain ⟨v, hv⟩ := lookup_isSome (h l hl)
    rw [hv]; rfl
  rw [rename_of_lookup dbg e1]
  simp only [Outcome.bind]
  have e2 : ∀ l ∈ labels.map (fun l => (List.lookup l r).getD 0),
      List.lookup l s = some ((List.lookup l s).getD 0) := by
    intro l hl
    obtain ⟨k, hk, rfl⟩ := List.mem_map.1 hl
    obtain ⟨v, hv⟩ := lookup_isSome (h' _ (lookup_mem (e1 k hk)))
    dsimp only at hv ⊢
    rw [hv]; rfl
  rw [rename_of_lookup dbg e2]
  symm
  rw [List.map_map]
  refine rename_of_lookup dbg (fun l hl => ?_)
  rw [lookup_map (fun v => (List.lookup v s).getD 0), e1 l hl]
  rfl

example : (labelsRename true [3, 0, 3, 5] [(0, 0), (3, 1), (5, 2)]).bind
      (fun m => labelsRename true m [(0, 0), (1, 7), (2, 7)]) = ok [7, 0, 7, 7] ∧
    (∀ l ∈ ([3, 0, 3, 5] : List Int), ∃ x ∈ [((0 : Int), (0 : Int)), (3, 1), (5, 2)], x.1 = l) ∧
    ∀ x ∈ [((0 : Int), (0 : Int)), (3, 1), (5, 2)], ∃ y ∈ [((0 : Int), (0 : Int)), (1, 7), (2, 7)], y.1 = x.2 := by
  decide

/-- C72. `labels_prune` only sees the order of the nonzero labels: a renaming that keeps it (and the
background) does not matter. -/
theorem C72_prune_rename (dbg : Bool) {labels : List Int} {rename : List (Int × Int)} {φ : Int → Int}
    (h : ∀ l ∈ labels, List.lookup l rename = some (φ l)) (h0 : ∀ l ∈ labels, φ l = 0 ↔ l = 0)
    (hlt : ∀ l ∈ labels, ∀ m ∈ labels, l ≠ 0 → m ≠ 0 → l < m → φ l < φ m) :
    (labelsRename dbg labels rename).bind (labelsPrune dbg) = labelsPrune dbg labels := by
  rw [rename_of_lookup dbg h]
  simp only [Outcome.bind]
  rw [C19_labels_prune, C19_labels_prune, List.map_map]
  congr 1
  apply List.map_congr_left
  intro l hl
  simp only [Function.comp_apply, h0 l hl]
  split
  · rfl
  · rename_i hz
    norm_cast
    have hle : ∀ a ∈ labels, a ≠ 0 → (φ a ≤ φ l ↔ a ≤ l) := by
      intro a ha ha0
      constructor
      · intro h1
        by_contra h2
        have := hlt l hl a ha hz ha0 (by omega)
        omega
      · intro h1
        rcases h1.eq_or_lt with rfl | h1
        · exact le_refl _
        · exact (hlt a ha l hl ha0 hz h1).le
    refine (Finset.card_bij (fun a _ => φ a) ?_ ?_ ?_).symm
    · intro a ha
      simp only [Finset.mem_filter, Finset.mem_erase, List.mem_toFinset] at ha ⊢
      exact ⟨⟨fun e => ha.1.1 ((h0 a ha.1.2).1 e), List.mem_map_of_mem ha.1.2⟩, (hle a ha.1.2 ha.1.1).2 ha.2⟩
    · intro a ha b hb e
      simp only [Finset.mem_filter, Finset.mem_erase, List.mem_toFinset] at ha hb
      rcases lt_trichotomy a b with h1 | h1 | h1
      · have := hlt a ha.1.2 b hb.1.2 ha.1.1 hb.1.1 h1
        omega
      · exact h1
      · have := hlt b hb.1.2 a ha.1.2 hb.1.1 ha.1.1 h1
        omega
    · intro b hb
      simp only [Finset.mem_filter, Finset.mem_erase, List.mem_toFinset, List.mem_map] at hb
      obtain ⟨⟨hb0, a, ha, rfl⟩, hb2⟩ := hb
      have ha0 : a ≠ 0 := fun e => hb0 ((h0 a ha).2 e)
      exact ⟨a, by simp [ha, ha0, (hle a ha ha0).1 hb2], rfl⟩

example : (labelsRename true [7, 0, 3, 9] [(0, 0), (3, -5), (7, 2), (9, 4)]).bind (labelsPrune true) =
      ok [2, 0, 1, 3] ∧ labelsPrune true [7, 0, 3, 9] = ok [2, 0, 1, 3] := by decide

/-- C72. One-to-one renaming keeps the sizes. -/
theorem C72_sizes_rename (dbg : Bool) {labels : List Int} {rename : List (Int × Int)} {φ : Int → Int}
    (h : ∀ l ∈ labels, List.lookup l rename = some (φ l))
    (hinj : ∀ l ∈ labels, ∀ m ∈ labels, φ l = φ m → l = m) :
    ∃ ret, labelsRename dbg labels rename = ok ret ∧
      ∀ names : List Int, (∀ n ∈ names, n ∈ labels) →
        labelsSizesNames ret (names.map φ) = labelsSizesNames labels names := by
  refine ⟨_, rename_of_lookup dbg h, fun names hn => ?_⟩
  rw [C21_labels_sizes_names, C21_labels_sizes_names, List.map_map]
  apply List.map_congr_left
  intro n hn'
  simp only [Function.comp_apply]
  norm_cast
  rw [List.count, List.count, List.countP_map]
  apply List.countP_congr
  intro l hl
  simp only [Function.comp_apply, beq_iff_eq]
  exact ⟨fun e => hinj l hl n (hn n hn') e, fun e => by rw [e]⟩

example : labelsSizesNames [4, 0, 4, 9] [4, 0] = [2, 1] ∧
    labelsRename true [4, 0, 4, 9] [(4, 9), (9, 4), (0, 1)] = ok [9, 1, 9, 4] ∧
    labelsSizesNames [9, 1, 9, 4] [9, 1] = [2, 1] := by decide

theorem lookup_mapIdx : ∀ (order : List Int) (start : Int) (k : Nat), k < order.length →
    List.lookup (start + k) (order.mapIdx fun (i : Nat) o => (start + (i : Int), o)) = order[k]?
  | [], _, _, h => by simp at h
  | o :: order, start, k, h => by
    rw [List.mapIdx_cons]
    cases k with
    | zero => simp
    | succ k =>
      have e : (order.mapIdx fun (i : Nat) o => (start + ((i + 1 : Nat) : Int), o)) =
          order.mapIdx fun (i : Nat) o => (start + 1 + (i : Int), o) := by
        congr 1
        funext i o
        push_cast
        congr 1
        ring
      rw [List.lookup_cons, beq_eq_false_iff_ne.2 (by push_cast; omega), e]
      have := lookup_mapIdx order (start + 1) k (by simpa using h)
      have e2 : start + ((k + 1 : Nat) : Int) = start + 1 + k := by push_cast; ring
      rw [e2]
      simpa using this

/-- C72. `labels_reorder` is undone by renaming `i` to `order[i]`. -/
theorem C72_reorder_undo (dbg : Bool) {labels order : List Int} (hne : order ≠ []) (hnd : order.Nodup)
    (hset : ∀ x, x ∈ labels ↔ x ∈ order) (hpos : ∀ x ∈ order, 0 ≤ x) :
    (labelsReorder dbg labels order).bind
      (fun r => labelsRename dbg r (order.mapIdx fun (i : Nat) o => ((i : Int), o))) = ok labels := by
  rw [C20_labels_reorder dbg labels order hne hnd hset hpos]
  simp only [Outcome.bind]
  have key : ∀ l ∈ labels.map (fun l => (order.idxOf l : Int)),
      List.lookup l (order.mapIdx fun (i : Nat) o => ((i : Int), o)) = some (order.getD l.toNat 0) := by
    intro l hl
    obtain ⟨m, hm, rfl⟩ := List.mem_map.1 hl
    have hlt : order.idxOf m < order.length := List.idxOf_lt_length_iff.2 ((hset m).1 hm)
    have := lookup_mapIdx order 0 (order.idxOf m) hlt
    simp only [zero_add] at this
    rw [this]
    simp [hlt]
  rw [rename_of_lookup dbg key, List.map_map]
  congr 1
  conv_rhs => rw [← List.map_id labels]
  apply List.map_congr_left
  intro m hm
  have hlt : order.idxOf m < order.length := List.idxOf_lt_length_iff.2 ((hset m).1 hm)
  simp [hlt]

example : (labelsReorder true [0, 5, 2, 5] [2, 0, 5]).bind
    (fun r => labelsRename true r [(0, 2), (1, 0), (2, 5)]) = ok [0, 5, 2, 5] := by decide

theorem idxOf_sorted : ∀ {order : List Int}, order.Pairwise (· < ·) → ∀ {l : Int}, l ∈ order →
    order.idxOf l = (order.filter (· < l)).length
  | o :: order, h, l, hl => by
    rw [List.pairwise_cons] at h
    by_cases e : l = o
    · subst e
      have : order.filter (· < l) = [] := by
        rw [List.filter_eq_nil_iff]
        intro a ha
        have := h.1 a ha
        simp; omega
      simp [this]
    · have hm : l ∈ order := by simpa [e] using hl
      have hlt := h.1 l hm
      rw [List.idxOf_cons_ne _ (Ne.symm e), idxOf_sorted h.2 hm]
      simp [hlt]

/-- C72. For non-negative labels with a background `labels_prune(labels)` is
`labels_reorder(labels, unique(labels))`. -/
theorem C72_prune_reorder (dbg dbg' : Bool) {labels order : List Int} (hzero : 0 ∈ labels)
    (hpos : ∀ x ∈ labels, 0 ≤ x) (hset : ∀ x, x ∈ labels ↔ x ∈ order) (hsorted : order.Pairwise (· < ·)) :
    labelsPrune dbg labels = labelsReorder dbg' labels order := by
  have hnd : order.Nodup := hsorted.imp (fun h => ne_of_lt h)
  rw [C19_labels_prune, C20_labels_reorder dbg' labels order
    (List.ne_nil_of_mem ((hset 0).1 hzero)) hnd hset (fun x hx => hpos x ((hset x).2 hx))]
  congr 1
  apply List.map_congr_left
  intro l hl
  rw [idxOf_sorted hsorted ((hset l).1 hl)]
  have hc : (order.filter (· < l)).length = (labels.toFinset.filter (· < l)).card := by
    rw [← List.toFinset_card_of_nodup (hnd.filter _)]
    congr 1
    ext a
    simp [hset]
  rw [hc]
  split
  · rename_i e
    subst e
    have : labels.toFinset.filter (· < 0) = ∅ := by
      ext a
      simp only [Finset.mem_filter, List.mem_toFinset, Finset.notMem_empty, iff_false, not_and]
      intro ha
      have := hpos a ha
      omega
    rw [this]; rfl
  · rename_i e
    have hl0 := hpos l hl
    have e1 : labels.toFinset.filter (· < l) = insert 0 ((labels.toFinset.erase 0).filter (· < l)) := by
      ext a
      simp only [Finset.mem_filter, List.mem_toFinset, Finset.mem_insert, Finset.mem_erase]
      constructor
      · rintro ⟨h1, h2⟩
        by_cases ha : a = 0
        · exact Or.inl ha
        · exact Or.inr ⟨⟨ha, h1⟩, h2⟩
      · rintro (rfl | ⟨⟨-, h1⟩, h2⟩)
        · exact ⟨hzero, by omega⟩
        · exact ⟨h1, h2⟩
    have e2 : (labels.toFinset.erase 0).filter (· ≤ l) = insert l ((labels.toFinset.erase 0).filter (· < l)) := by
      ext a
      simp only [Finset.mem_filter, List.mem_toFinset, Finset.mem_insert, Finset.mem_erase]
      constructor
      · rintro ⟨h1, h2⟩
        rcases h2.eq_or_lt with h2 | h2
        · exact Or.inl h2
        · exact Or.inr ⟨h1, h2⟩
      · rintro (rfl | ⟨h1, h2⟩)
        · exact ⟨⟨e, hl⟩, le_refl _⟩
        · exact ⟨h1, h2.le⟩
    rw [e1, e2, Finset.card_insert_of_notMem (by simp), Finset.card_insert_of_notMem (by simp)]

example : labelsPrune true [7, 0, 3, 9, 7] = labelsReorder true [7, 0, 3, 9, 7] [0, 3, 7, 9] ∧
    ([0, 3, 7, 9] : List Int).Pairwise (· < ·) ∧ labelsPrune true [7, 0, 3, 9, 7] = ok [2, 0, 1, 3, 2] := by
  decide

/-- C72. The labels of `clusters` need no pruning. -/
theorem C72_prune_clusters {dbg dbg' : Bool} {shape : List Nat} {f labels : List Int} {periodic : Bool}
    (hn : 1 ≤ shape.length) (hn' : shape.length ≤ 3) (hsmall : shape.prod < 2 ^ 62)
    (hf : f.length = shape.prod) (h : clusters dbg shape f periodic = ok labels) :
    labelsPrune dbg' labels = ok labels := by
  obtain ⟨L, e, hlen, -, -, ⟨k, hk⟩, -⟩ := C03_clusters dbg periodic hn hn' hsmall hf
  rw [h] at e
  cases e
  have hk' : ∀ l : Int, l ∈ labels.toFinset.erase 0 ↔ 1 ≤ l ∧ l ≤ k := by
    intro l
    rw [hk l, Finset.mem_erase, List.mem_toFinset]
    refine and_congr_right fun _ => ?_
    rw [List.mem_iff_getElem]
    constructor
    · rintro ⟨p, hp, e⟩
      exact ⟨p, by omega, by simpa [List.getD, hp] using e⟩
    · rintro ⟨p, hp, e⟩
      have hp' : p < labels.length := by omega
      exact ⟨p, hp', by simpa [List.getD, hp'] using e⟩
  rw [C19_labels_prune]
  congr 1
  conv_rhs => rw [← List.map_id labels]
  apply List.map_congr_left
  intro l hl
  by_cases h0 : l = 0
  · simp [h0]
  · have hb := (hk' l).1 (by simp [hl, h0])
    have : (labels.toFinset.erase 0).filter (· ≤ l) = Finset.Icc 1 l := by
      ext a
      rw [Finset.mem_filter, hk', Finset.mem_Icc]
      omega
    rw [if_neg h0, this, Int.card_Icc]
    simp only [id]
    omega

example : (clusters true [2, 3] [7, 0, 4, 5, 0, 0] false).get? = some [1, 0, 2, 1, 0, 0] ∧
    labelsPrune true [1, 0, 2, 1, 0, 0] = ok [1, 0, 2, 1, 0, 0] := by decide +kernel

end Verif.Props
