import Verif.Lemmas.Labels

/-!
# Properties C17-C21: the `labels_*` functions

An image is the list of its elements in row-major order. `List.lookup k l` (core library) is the
second component of the first pair of `l` whose first component is `k`.
-/

namespace Verif.Props

open Verif Outcome Labels

/-! ## C17: `labels_map`, and the round trip with `labels_rename` -/

/-- C17. For images of equal size `labels_map(a, b)` returns, sorted by label, exactly the pairs
`(k, v)` where `k` is a label of `a` and `v` is the `b`-label of the *first* pixel labelled `k`. -/
theorem C17_labels_map (a b : List Int) (h : a.length = b.length) :
    ∃ m, labelsMap a b = ok m ∧ (m.map Prod.fst).Pairwise (· < ·) ∧
      ∀ k v, (k, v) ∈ m ↔
        ∃ i : Nat, a[i]? = some k ∧ b[i]? = some v ∧ ∀ j < i, a[j]? ≠ some k := by
  obtain ⟨m, h1, h2, h3⟩ := mapLoop_ok a b [] (by omega) (by simp [StdMap.WF])
  refine ⟨m, h1, StdMap.wf_iff_keys.1 h2, fun k v => ?_⟩
  rw [StdMap.mem_iff_lookup h2, h3, ← lookup_zip_iff a b k v h]
  simp

example : labelsMap [5, 2, 5, 0] [1, 7, 1, 3] = ok [(0, 3), (2, 7), (5, 1)] := by decide

/-- C17, the missing size check: a smaller `b` is read out of bounds. -/
theorem C17_labels_map_short (a b : List Int) (h : b.length < a.length) : labelsMap a b = ub :=
  mapLoop_ub a b [] h

example : ([] : List Int).length < [3].length := by decide

/-- C17, round trip: if equal labels of `a` have equal labels in `b`, renaming `a` with
`labels_map(a, b)` gives `b`, with and without assertions. -/
theorem C17_rename_map (dbg : Bool) (a b : List Int) (hl : a.length = b.length)
    (hf : ∀ (i j : Nat) (x : Int), a[i]? = some x → a[j]? = some x → b[i]? = b[j]?) :
    (labelsMap a b).bind (fun m => labelsRename dbg a m) = ok b := by
  obtain ⟨m, h1, h2, h3⟩ := mapLoop_ok a b [] (by omega) (by simp [StdMap.WF])
  have hm : labelsMap a b = ok m := h1
  rw [hm]
  simp only [Outcome.bind]
  rw [labelsRename_eq]
  -- the value found for the label of pixel `i` is that of `b`
  have key : ∀ (i : Nat) (x : Int), a[i]? = some x → List.lookup x m = b[i]? := by
    intro i x hx
    have hi : i < a.length := (List.getElem?_eq_some_iff.1 hx).1
    obtain ⟨y, hy⟩ : ∃ y, b[i]? = some y := ⟨b[i]'(by omega), by simp [hl ▸ hi]⟩
    rw [h3, hy]
    simp only [List.lookup, Option.none_or]
    rw [lookup_zip_iff a b x y hl]
    -- the first occurrence of `x`
    classical
    have hex : ∃ n, a[n]? = some x := ⟨i, hx⟩
    refine ⟨Nat.find hex, Nat.find_spec hex, ?_, fun j hj => Nat.find_min hex hj⟩
    rw [hf _ i x (Nat.find_spec hex) hx, hy]
  have hno : ¬ (dbg = true ∧ ∃ l ∈ a, List.lookup l m = none) := by
    rintro ⟨-, l, hl', hn⟩
    obtain ⟨i, hi⟩ := List.mem_iff_getElem?.1 hl'
    have := key i l hi
    rw [hn] at this
    have hi' : i < a.length := (List.getElem?_eq_some_iff.1 hi).1
    have := List.getElem?_eq_none_iff.1 this.symm
    omega
  rw [if_neg hno]
  congr 1
  apply List.ext_getElem?
  intro i
  rw [List.getElem?_map]
  cases hi : a[i]? with
  | none =>
    have := List.getElem?_eq_none_iff.1 hi
    simp only [Option.map_none]
    exact (List.getElem?_eq_none_iff.2 (by omega)).symm
  | some x =>
    simp only [Option.map_some]
    rw [key i x hi]
    have hi' : i < b.length := by
      have := (List.getElem?_eq_some_iff.1 hi).1; omega
    simp [hi']

example : ∀ (i j : Nat) (x : Int), ([4, 0, 4, -2] : List Int)[i]? = some x →
    ([4, 0, 4, -2] : List Int)[j]? = some x → ([7, 0, 7, 1] : List Int)[i]? = [7, 0, 7, 1][j]? := by
  intro i j x hi hj
  match i, j with
  | 0, 0 | 0, 2 | 2, 0 | 2, 2 | 1, 1 | 3, 3 => rfl
  | 0, 1 | 1, 0 | 0, 3 | 3, 0 | 1, 2 | 2, 1 | 1, 3 | 3, 1 | 2, 3 | 3, 2 =>
    simp at hi hj; omega
  | i + 4, _ => simp at hi
  | 0, j + 4 | 1, j + 4 | 2, j + 4 | 3, j + 4 => simp at hj

/-! ## C18: `labels_rename` is pointwise -/

/-- C18. With all labels of the image in the table, every pixel gets the new label of the first
row of its label. -/
theorem C18_labels_rename (dbg : Bool) (labels : List Int) (rename : List (Int × Int))
    (h : ∀ l ∈ labels, ∃ r ∈ rename, r.1 = l) :
    ∃ ret, labelsRename dbg labels rename = ok ret ∧ ret.length = labels.length ∧
      ∀ (i : Nat) (l : Int), labels[i]? = some l → ret[i]? = List.lookup l rename := by
  rw [labelsRename_eq]
  have hs : ∀ l ∈ labels, ∃ v, List.lookup l rename = some v := by
    intro l hl
    obtain ⟨r, hr, e⟩ := h l hl
    have : (List.lookup l rename).isSome = true := by
      rw [← StdMap.contains_eq]
      unfold StdMap.contains
      rw [List.any_eq_true]
      exact ⟨r, hr, by simp [e]⟩
    exact Option.isSome_iff_exists.1 this
  rw [if_neg]
  · refine ⟨_, rfl, by simp, fun i l hi => ?_⟩
    obtain ⟨v, hv⟩ := hs l (List.mem_of_getElem? hi)
    simp [List.getElem?_map, hi, hv]
  · rintro ⟨-, l, hl, hn⟩
    obtain ⟨v, hv⟩ := hs l hl
    rw [hn] at hv; cases hv

example : ∀ l ∈ ([3, 0, 3] : List Int), ∃ r ∈ [((0 : Int), (0 : Int)), (3, 9), (3, 4)], r.1 = l := by
  decide

/-- C18, missing labels: with assertions the call throws (and it throws only then). -/
theorem C18_labels_rename_throws (labels : List Int) (rename : List (Int × Int)) :
    labelsRename true labels rename = throws ↔ ∃ l ∈ labels, ∀ r ∈ rename, r.1 ≠ l := by
  rw [labelsRename_eq]
  have : (∃ l ∈ labels, List.lookup l rename = none) ↔ ∃ l ∈ labels, ∀ r ∈ rename, r.1 ≠ l := by
    refine exists_congr fun l => and_congr_right fun _ => ?_
    rw [← Option.not_isSome_iff_eq_none, ← StdMap.contains_eq]
    unfold StdMap.contains
    simp only [List.any_eq_true, beq_iff_eq, not_exists, not_and]
  rw [← this]
  constructor
  · intro h
    by_contra hn
    rw [if_neg (fun e => hn e.2)] at h
    cases h
  · intro h
    rw [if_pos ⟨rfl, h⟩]

/-- C18, missing labels without assertions: they become 0; the call never fails. -/
theorem C18_labels_rename_release (labels : List Int) (rename : List (Int × Int)) :
    ∃ ret, labelsRename false labels rename = ok ret ∧ ret.length = labels.length ∧
      ∀ (i : Nat) (l : Int), labels[i]? = some l →
        ret[i]? = some ((List.lookup l rename).getD 0) := by
  rw [labelsRename_eq]
  refine ⟨_, by simp; rfl, by simp, fun i l hi => by simp [hi]⟩

example : labelsRename false [1, 2, 1] [(2, 5)] = ok [0, 5, 0] := by decide
example : labelsRename true [1, 2, 1] [(2, 5)] = throws := by decide

/-! ## C19: `labels_prune` -/

/-- C19. `labels_prune` in closed form: the background stays 0, any other label `l` becomes the
number of distinct nonzero labels of the image that are at most `l`. It never throws, with or
without assertions. -/
theorem C19_labels_prune (dbg : Bool) (labels : List Int) :
    labelsPrune dbg labels = ok (labels.map fun l =>
      if l = 0 then 0 else (((labels.toFinset.erase 0).filter (· ≤ l)).card : Int)) := by
  unfold labelsPrune
  rw [labelsRename_eq, if_neg]
  · congr 1
    apply List.map_congr_left
    intro l hl
    rw [lookup_pruneTable labels l hl]
    rfl
  · rintro ⟨-, l, hl, hn⟩
    rw [lookup_pruneTable labels l hl] at hn
    cases hn

example : labelsPrune true [7, 0, -3, 9, 7] = ok [2, 0, 1, 3, 2] := by decide

/-- C19 in words: the background is fixed, the order of the other labels is kept, the labels are
exactly `1 .. n` with `n` the number of distinct nonzero labels. -/
theorem C19_labels_prune_spec (dbg : Bool) (labels : List Int) :
    ∃ ret, labelsPrune dbg labels = ok ret ∧ ret.length = labels.length ∧
      (∀ (i : Nat) (l r : Int), labels[i]? = some l → ret[i]? = some r → (r = 0 ↔ l = 0)) ∧
      (∀ (i j : Nat) (l l' r r' : Int), labels[i]? = some l → labels[j]? = some l' →
        ret[i]? = some r → ret[j]? = some r' → l ≠ 0 → l' ≠ 0 → (l < l' ↔ r < r')) ∧
      (∀ v : Int, (v ∈ ret ∧ v ≠ 0) ↔ 1 ≤ v ∧ v ≤ ((labels.toFinset.erase 0).card : Int)) := by
  refine ⟨_, C19_labels_prune dbg labels, by simp, ?_, ?_, ?_⟩
  · intro i l r hi hr
    simp only [List.getElem?_map, hi, Option.map_some, Option.some.injEq] at hr
    subst hr
    split
    · simp [*]
    · rename_i h0
      simp only [h0, iff_false]
      have hl := List.mem_of_getElem? hi
      have : 0 < ((labels.toFinset.erase 0).filter (· ≤ l)).card := by
        apply Finset.card_pos.2
        exact ⟨l, by simp [h0, hl]⟩
      omega
  · intro i j l l' r r' hi hj hr hr' h0 h0'
    simp only [List.getElem?_map, hi, hj, Option.map_some, Option.some.injEq, h0, h0',
      if_false] at hr hr'
    subst hr hr'
    exact rank_lt_iff (by simp [h0', List.mem_of_getElem? hj])
      (by simp [h0, List.mem_of_getElem? hi])
  · intro v
    constructor
    · rintro ⟨hv, h0⟩
      obtain ⟨l, hl, e⟩ := List.mem_map.1 hv
      split at e
      · exact absurd e.symm h0
      · subst e
        have h1 : ((labels.toFinset.erase 0).filter (· ≤ l)).card ≤
          (labels.toFinset.erase 0).card := Finset.card_filter_le _ _
        omega
    · rintro ⟨h1, h2⟩
      obtain ⟨x, hx, hxc⟩ := exists_rank (labels.toFinset.erase 0) v.toNat (by omega) (by omega)
      simp only [Finset.mem_erase, List.mem_toFinset] at hx
      refine ⟨List.mem_map.2 ⟨x, hx.2, ?_⟩, by omega⟩
      rw [if_neg hx.1, hxc]
      omega

/-- C19. Pruning twice is pruning once. -/
theorem C19_labels_prune_idempotent (dbg : Bool) (labels : List Int) :
    (labelsPrune dbg labels).bind (labelsPrune dbg) = labelsPrune dbg labels := by
  obtain ⟨ret, h1, h2, h3, h4, h5⟩ := C19_labels_prune_spec dbg labels
  rw [h1]
  simp only [Outcome.bind]
  rw [C19_labels_prune]
  congr 1
  have hset : ret.toFinset.erase 0 = Finset.Icc 1 ((labels.toFinset.erase 0).card : Int) := by
    ext v
    rw [Finset.mem_erase, List.mem_toFinset, Finset.mem_Icc, ← h5 v]
    tauto
  rw [hset]
  conv_rhs => rw [← List.map_id ret]
  apply List.map_congr_left
  intro v hv
  by_cases h0 : v = 0
  · simp [h0]
  · have hb := (h5 v).1 ⟨hv, h0⟩
    have : (Finset.Icc 1 ((labels.toFinset.erase 0).card : Int)).filter (· ≤ v) =
        Finset.Icc 1 v := by
      ext x
      simp only [Finset.mem_filter, Finset.mem_Icc]
      omega
    rw [if_neg h0, this, Int.card_Icc]
    simp only [id]
    omega

example : (labelsPrune true [7, 0, -3, 9, 7]).bind (labelsPrune true) = ok [2, 0, 1, 3, 2] := by
  decide

/-! ## C20: `labels_reorder` -/

/-- C20. If `order` has the same labels as the image, all non-negative, every label is replaced by
its position in `order` (the last one, if it is repeated). -/
theorem C20_labels_reorder_last (dbg : Bool) (labels order : List Int) (hne : order ≠ [])
    (hset : ∀ x, x ∈ labels ↔ x ∈ order) (hpos : ∀ x ∈ order, 0 ≤ x) :
    ∃ ret, labelsReorder dbg labels order = ok ret ∧ ret.length = labels.length ∧
      ∀ (i : Nat) (l : Int), labels[i]? = some l →
        ∃ j : Nat, ret[i]? = some (j : Int) ∧ order[j]? = some l ∧
          ∀ j', j < j' → order[j']? ≠ some l := by
  have heq : sortUnique labels = sortUnique order := sortUnique_eq_iff.2 hset
  obtain ⟨x, rest, rfl⟩ := List.exists_cons_of_ne_nil hne
  have hmax : maxElement (x :: rest) = ok (rest.foldl max x) := rfl
  have hle : ∀ y ∈ x :: rest, y ≤ rest.foldl max x := by
    intro y hy
    rcases List.mem_cons.1 hy with rfl | hy
    · exact foldl_max_ge rest y
    · exact foldl_max_ge_mem rest x y hy
  have hx0 := hpos x (by simp)
  have hmx := hle x (by simp)
  have hin : ∀ o ∈ x :: rest, 0 ≤ o ∧ o < ((Vec.fill (rest.foldl max x + 1).toNat (0 : Int)).size : Int) := by
    intro o ho
    refine ⟨hpos o ho, ?_⟩
    have := hle o ho
    simp only [Vec.fill]
    omega
  obtain ⟨v, hv1, hv2, hv3⟩ := reorderLoop_ok (x :: rest) 0 _ hin
  have hin' : ∀ l ∈ labels, 0 ≤ l ∧ l < (v.size : Int) := by
    intro l hl
    rw [hv2]
    exact hin l ((hset l).1 hl)
  refine ⟨labels.map fun l => v.get l.toNat, ?_, by simp, fun i l hi => ?_⟩
  · unfold labelsReorder
    rw [heq, hmax]
    simp only [beq_self_eq_true, Bool.not_true, Bool.and_false, Bool.false_eq_true, if_false,
      Outcome.bind]
    rw [if_neg (by omega), hv1]
    exact readAll_ok v labels hin'
  · have hl := List.mem_of_getElem? hi
    have hl0 := (hin' l hl).1
    have hcast : ((l.toNat : Nat) : Int) = l := by omega
    obtain ⟨j, e1, e2, e3⟩ := (hv3 l.toNat).1 (by rw [hcast]; exact (hset l).1 hl)
    rw [hcast] at e1 e2
    refine ⟨j, ?_, e1, e2⟩
    rw [List.getElem?_map, hi, Option.map_some, e3]
    simp

/-- C20. If moreover `order` has no repetition, each label becomes its position in `order`. -/
theorem C20_labels_reorder (dbg : Bool) (labels order : List Int) (hne : order ≠ [])
    (hnd : order.Nodup) (hset : ∀ x, x ∈ labels ↔ x ∈ order) (hpos : ∀ x ∈ order, 0 ≤ x) :
    labelsReorder dbg labels order = ok (labels.map fun l => (order.idxOf l : Int)) := by
  obtain ⟨ret, h1, h2, h3⟩ := C20_labels_reorder_last dbg labels order hne hset hpos
  rw [h1]
  congr 1
  apply List.ext_getElem?
  intro i
  rw [List.getElem?_map]
  cases hi : labels[i]? with
  | none =>
    have := List.getElem?_eq_none_iff.1 hi
    exact List.getElem?_eq_none_iff.2 (by omega)
  | some l =>
    obtain ⟨j, e1, e2, -⟩ := h3 i l hi
    rw [e1]
    simp only [Option.map_some, Option.some.injEq, Nat.cast_inj]
    obtain ⟨hj, e⟩ := List.getElem?_eq_some_iff.1 e2
    rw [← e]
    exact (hnd.idxOf_getElem j hj).symm

example : ([2, 0, 5] : List Int).Nodup ∧ (∀ x, x ∈ ([0, 5, 2, 5] : List Int) ↔ x ∈ [2, 0, 5]) ∧
    (∀ x ∈ ([2, 0, 5] : List Int), 0 ≤ x) ∧
    labelsReorder true [0, 5, 2, 5] [2, 0, 5] = ok [1, 2, 0, 2] := by
  refine ⟨by decide, ?_, by decide, by decide⟩
  intro x; simp; tauto

/-- C20. With assertions an `order` with other labels than the image is rejected. -/
theorem C20_labels_reorder_throws (labels order : List Int)
    (h : ¬ ∀ x, x ∈ labels ↔ x ∈ order) : labelsReorder true labels order = throws := by
  have : sortUnique labels ≠ sortUnique order := fun e => h (sortUnique_eq_iff.1 e)
  unfold labelsReorder
  rw [if_pos]
  simpa using this

example : ¬ ∀ x, x ∈ ([0, 1] : List Int) ↔ x ∈ ([0, 2] : List Int) := by
  intro h; have := (h 1).1 (by simp); simp at this

/-- C20. A repeated label in `order` is *not* rejected by the assertions, and leaves a gap in the
new labels. -/
theorem C20_labels_reorder_duplicate :
    labelsReorder true [0, 1] [0, 1, 0] = ok [2, 1] := by decide

/-! ## C21: `labels_sizes` -/

/-- C21. `labels_sizes(labels)` lists, sorted, exactly the occurring labels with their number of
pixels. -/
theorem C21_labels_sizes (labels : List Int) :
    ((labelsSizes labels).map Prod.fst).Pairwise (· < ·) ∧
    ∀ k v, (k, v) ∈ labelsSizes labels ↔ k ∈ labels ∧ v = (labels.count k : Int) := by
  obtain ⟨h1, h2, h3⟩ := sizes_spec labels [] (by simp [StdMap.WF]) (by simp)
  refine ⟨StdMap.wf_iff_keys.1 h1, fun k v => ?_⟩
  unfold labelsSizes labelsSizesImpl
  rw [StdMap.mem_iff_lookup h1]
  have h3k := h3 k
  simp only [List.lookup, Option.getD_none, Int.zero_add] at h3k
  constructor
  · intro e
    have := h2 k v e
    rw [e] at h3k
    simp only [Option.getD_some] at h3k
    refine ⟨?_, h3k⟩
    rw [← List.count_pos_iff]
    omega
  · rintro ⟨hk, rfl⟩
    rw [← List.count_pos_iff] at hk
    cases he : List.lookup k (labels.foldl
        (fun (m : StdMap) l => if StdMap.contains l m then m.incr l else m.emplace l 1) []) with
    | none => rw [he] at h3k; simp at h3k; omega
    | some v => rw [he] at h3k; simpa using h3k

/-- C21. The sizes add up to the number of pixels. -/
theorem C21_labels_sizes_total (labels : List Int) :
    ((labelsSizes labels).map Prod.snd).sum = labels.length := by
  suffices h : ∀ (m : StdMap), m.WF → ((labels.foldl
      (fun m l => if StdMap.contains l m then m.incr l else m.emplace l 1) m).map Prod.snd).sum =
      (m.map Prod.snd).sum + labels.length by
    have := h [] (by simp [StdMap.WF])
    simpa [labelsSizes, labelsSizesImpl] using this
  induction labels with
  | nil => intro m _; simp
  | cons l labels ih =>
    intro m hm
    rw [List.foldl_cons]
    by_cases hc : StdMap.contains l m = true
    · rw [if_pos hc, ih _ (StdMap.incr_wf hm), StdMap.sum_incr hc]
      push_cast [List.length_cons]; ring
    · rw [if_neg hc, ih _ (StdMap.emplace_wf hm), StdMap.sum_emplace hm (by simpa using hc)]
      push_cast [List.length_cons]; ring

/-- C21. Sizes by name: the number of pixels of each name, 0 for an absent one. -/
theorem C21_labels_sizes_names (labels names : List Int) :
    labelsSizesNames labels names = names.map fun n => (labels.count n : Int) := by
  unfold labelsSizesNames labelsSizesImpl
  apply List.map_congr_left
  intro n _
  obtain ⟨h1, h2, h3⟩ := sizes_spec labels [] (by simp [StdMap.WF]) (by simp)
  rw [StdMap.at0_eq, h3]
  simp

example : labelsSizes [4, 0, 4, -1, 0, 4] = [(-1, 1), (0, 2), (4, 3)] := by decide
example : labelsSizesNames [4, 0, 4, -1, 0, 4] [9, 4, 0] = [0, 3, 2] := by decide

end Verif.Props
