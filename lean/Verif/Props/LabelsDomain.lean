import Verif.Props.Labels

/-!
# The domain of the functions on labels (C89)

For which images, tables and orders the functions return, throw, or access memory out of bounds, completely.
-/

namespace Verif.Props

open Verif Outcome Labels

/-! ### `labels_reorder` -/

theorem reorderLoop_ub : ∀ (order : List Int) (i : Int) (v : Vec Int),
    (∃ o ∈ order, ¬ (0 ≤ o ∧ o < v.size)) → reorderLoop order i v = ub
  | [], _, _, h => by obtain ⟨o, ho, -⟩ := h; cases ho
  | o :: order, i, v, h => by
    by_cases ho : 0 ≤ o ∧ o < v.size
    · have hw : v.write o i = ok ⟨v.size, fun k => if k = o.toNat then i else v.get k⟩ := by simp [Vec.write, ho]
      simp only [reorderLoop, hw, Outcome.bind]
      refine reorderLoop_ub order (i + 1) _ ?_
      obtain ⟨x, hx, h⟩ := h
      rcases List.mem_cons.1 hx with rfl | hx
      · exact absurd ho h
      · exact ⟨x, hx, h⟩
    · have hw : v.write o i = ub := by rw [Vec.write, if_neg ho]
      simp only [reorderLoop, hw, Outcome.bind]

theorem readAll_ub (v : Vec Int) : ∀ labels : List Int, (∃ l ∈ labels, ¬ (0 ≤ l ∧ l < v.size)) → readAll v labels = ub
  | [], h => by obtain ⟨o, ho, -⟩ := h; cases ho
  | l :: labels, h => by
    by_cases hl : 0 ≤ l ∧ l < v.size
    · have hr : v.read l = ok (v.get l.toNat) := by simp [Vec.read, hl]
      have : readAll v labels = ub := by
        refine readAll_ub v labels ?_
        obtain ⟨x, hx, h⟩ := h
        rcases List.mem_cons.1 hx with rfl | hx
        · exact absurd hl h
        · exact ⟨x, hx, h⟩
      simp only [readAll, hr, Outcome.bind, this]
    · have hr : v.read l = ub := by rw [Vec.read, if_neg hl]
      simp only [readAll, hr, Outcome.bind]

/-- The assertions reject the arguments. -/
def Rejected (dbg : Bool) (labels order : List Int) : Prop := dbg = true ∧ ¬ ∀ x, x ∈ labels ↔ x ∈ order

/-- All indices are within the table: `order` and `labels` are not negative, and no label exceeds all of `order`. -/
def InTable (labels order : List Int) : Prop :=
  (∀ x ∈ order, 0 ≤ x) ∧ ∀ l ∈ labels, 0 ≤ l ∧ ∃ x ∈ order, l ≤ x

theorem foldl_max_mem : ∀ (l : List Int) (x : Int), l.foldl max x ∈ x :: l
  | [], x => by simp
  | y :: l, x => by
    rw [List.foldl_cons]
    rcases List.mem_cons.1 (foldl_max_mem l (max x y)) with h | h
    · rw [h]
      rcases max_choice x y with e | e <;> rw [e] <;> simp
    · exact List.mem_cons_of_mem _ (List.mem_cons_of_mem _ h)

/-- `labels_reorder`, for any image and any order, with and without assertions. -/
theorem C89_reorder_partial (dbg : Bool) (labels order : List Int) :
    (Rejected dbg labels order → labelsReorder dbg labels order = throws) ∧
    (¬ Rejected dbg labels order →
      (order = [] → labelsReorder dbg labels order = ub) ∧
      (order ≠ [] → (∀ x ∈ order, x < -1) → labelsReorder dbg labels order = throws) ∧
      ((∃ x ∈ order, -1 ≤ x) → ¬ InTable labels order → labelsReorder dbg labels order = ub) ∧
      (order ≠ [] → InTable labels order → ∃ ret, labelsReorder dbg labels order = ok ret ∧ ret.length = labels.length ∧
        ∀ (i : Nat) (l : Int), labels[i]? = some l →
          (l ∉ order → ret[i]? = some 0) ∧
          (l ∈ order → ∃ j : Nat, ret[i]? = some (j : Int) ∧ order[j]? = some l ∧
            ∀ j', j < j' → order[j']? ≠ some l))) := by
  have hrej : Rejected dbg labels order ↔ (dbg && !(sortUnique labels == sortUnique order)) = true := by
    unfold Rejected
    rw [← sortUnique_eq_iff]
    simp
  refine ⟨fun h => by unfold labelsReorder; rw [if_pos (hrej.1 h)], fun h => ?_⟩
  have h' : ¬ (dbg && !(sortUnique labels == sortUnique order)) = true := fun k => h (hrej.2 k)
  unfold labelsReorder
  rw [if_neg h']
  refine ⟨fun e => by rw [e]; rfl, ?_, ?_, ?_⟩
  · intro hne hall
    obtain ⟨x, rest, rfl⟩ := List.exists_cons_of_ne_nil hne
    have := hall _ (foldl_max_mem rest x)
    show (if rest.foldl max x + 1 < 0 then _ else _) = _
    rw [if_pos (by omega)]
  · rintro ⟨y, hy, hy1⟩ hT
    obtain ⟨x, rest, rfl⟩ := List.exists_cons_of_ne_nil (List.ne_nil_of_mem hy)
    have hle : ∀ y ∈ x :: rest, y ≤ rest.foldl max x := by
      intro y hy
      rcases List.mem_cons.1 hy with rfl | hy
      · exact foldl_max_ge rest y
      · exact foldl_max_ge_mem rest x y hy
    have hmem := foldl_max_mem rest x
    have hm := hle y hy
    show (if rest.foldl max x + 1 < 0 then _ else _) = _
    rw [if_neg (by omega)]
    by_cases ho : ∀ o ∈ x :: rest, 0 ≤ o
    · obtain ⟨v, hv1, hv2, -⟩ := reorderLoop_ok (x :: rest) 0 (Vec.fill (rest.foldl max x + 1).toNat (0 : Int)) (by
        intro o k
        have := hle o k
        have := ho o k
        simp only [Vec.fill]
        omega)
      rw [hv1]
      refine readAll_ub v labels ?_
      by_contra hc
      refine hT ⟨ho, fun l hl => ?_⟩
      have hl' := Classical.not_not.1 (fun k => hc ⟨l, hl, k⟩)
      rw [hv2] at hl'
      simp only [Vec.fill] at hl'
      exact ⟨hl'.1, _, hmem, by omega⟩
    · rw [reorderLoop_ub]
      · rfl
      · push Not at ho
        obtain ⟨o, ho, h0⟩ := ho
        exact ⟨o, ho, fun k => by omega⟩
  · rintro hne ⟨ho, hl⟩
    obtain ⟨x, rest, rfl⟩ := List.exists_cons_of_ne_nil hne
    have hle : ∀ y ∈ x :: rest, y ≤ rest.foldl max x := by
      intro y hy
      rcases List.mem_cons.1 hy with rfl | hy
      · exact foldl_max_ge rest y
      · exact foldl_max_ge_mem rest x y hy
    have h0 := ho _ (foldl_max_mem rest x)
    show ∃ ret, (if rest.foldl max x + 1 < 0 then _ else _) = ok ret ∧ _
    rw [if_neg (by omega)]
    obtain ⟨v, hv1, hv2, hv3⟩ := reorderLoop_ok (x :: rest) 0 (Vec.fill (rest.foldl max x + 1).toNat (0 : Int)) (by
      intro o k
      have := hle o k
      have := ho o k
      simp only [Vec.fill]
      omega)
    rw [hv1]
    refine ⟨_, readAll_ok v labels ?_, by simp, ?_⟩
    · intro l k
      obtain ⟨k0, y, hy, k1⟩ := hl l k
      have := hle y hy
      rw [hv2]
      simp only [Vec.fill]
      omega
    · intro i l hi
      have k0 := (hl l (List.mem_of_getElem? hi)).1
      have hcast : ((l.toNat : Nat) : Int) = l := by omega
      have := hv3 l.toNat
      rw [hcast] at this
      rw [List.getElem?_map, hi, Option.map_some]
      refine ⟨fun hn => by rw [this.2 hn]; rfl, fun hm => ?_⟩
      obtain ⟨j, e1, e2, e3⟩ := this.1 hm
      exact ⟨j, by rw [e3]; simp, e1, e2⟩

example : ¬ Rejected true [0, 5, 2, 5] [2, 0, 5] ∧ InTable [0, 5, 2, 5] [2, 0, 5] ∧ Rejected true [1] [2] ∧
    ¬ Rejected false [3, 1] [0, 3] ∧ InTable [3, 1] [0, 3] ∧ ¬ InTable [4, 1] [0, 3] ∧
    labelsReorder false [3, 1] [0, 3] = ok [1, 0] := by
  unfold Rejected InTable
  refine ⟨?_, by decide, ?_, by simp, by decide, by decide, by decide⟩
  · rintro ⟨-, h⟩
    exact h fun x => by simp; tauto
  · exact ⟨rfl, fun h => by have := (h 1).1 (by simp); simp at this⟩

/-- With assertions enabled, and an order that lists the labels of the image: a negative label, and an empty image,
access memory out of bounds. -/
theorem C89_violated : labelsReorder true [-1, 0, 3] [-1, 0, 3] = ub ∧ labelsReorder true [] [] = ub := by decide

/-! ### The other functions on labels -/

/-- `labels_map` reads past the end of `b` exactly if `b` is smaller than `a`; it never throws. -/
theorem C89_map_partial (a b : List Int) :
    (b.length < a.length → labelsMap a b = ub) ∧ (a.length ≤ b.length → ∃ m, labelsMap a b = ok m) := by
  have : ∀ (a b : List Int) (m : StdMap),
      (b.length < a.length → mapLoop a b m = ub) ∧ (a.length ≤ b.length → ∃ m', mapLoop a b m = ok m') := by
    intro a
    induction a with
    | nil => exact fun b m => ⟨fun h => by simp at h, fun _ => ⟨m, rfl⟩⟩
    | cons x a ih =>
      intro b m
      cases b with
      | nil => exact ⟨fun _ => rfl, fun h => by simp at h⟩
      | cons y b =>
        have := ih b (m.emplace x y)
        simp only [List.length_cons, Nat.add_lt_add_iff_right, Nat.add_le_add_iff_right]
        exact this
  exact this a b []

/-- `labels_rename` returns, or, with assertions, throws if the table lacks a label of the image; `labels_prune` always
returns. -/
theorem C89_rename (dbg : Bool) (labels : List Int) (rename : List (Int × Int)) :
    (labelsRename dbg labels rename = throws ↔ dbg = true ∧ ∃ l ∈ labels, ∀ r ∈ rename, r.1 ≠ l) ∧
    (labelsRename dbg labels rename ≠ throws → ∃ ret, labelsRename dbg labels rename = ok ret ∧
      ret.length = labels.length) ∧ ∃ ret, labelsPrune dbg labels = ok ret ∧ ret.length = labels.length := by
  obtain ⟨p, hp, hl, -⟩ := C19_labels_prune_spec dbg labels
  have hrel := C18_labels_rename_release labels rename
  have hdbg := C18_labels_rename_throws labels rename
  refine ⟨?_, ?_, p, hp, hl⟩
  · cases dbg with
    | true => simpa using hdbg
    | false =>
      obtain ⟨r, hr, -⟩ := hrel
      rw [hr]
      simp
  · intro h
    rw [labelsRename_eq] at h ⊢
    split at h
    · exact absurd rfl h
    · rename_i hc
      exact ⟨_, if_neg hc, by simp⟩

example : labelsRename true [1, 2, 1] [(2, 5)] = throws ∧ labelsRename true [2, 2] [(2, 5)] = ok [5, 5] ∧
    labelsPrune true [] = ok [] := by decide

end Verif.Props
