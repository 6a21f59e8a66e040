import Verif.Model.LabelsTyped
import Verif.Props.LabelsAlgebra
import Mathlib.Order.Interval.Finset.Nat
import Mathlib.Data.Int.Interval

/-!
# Labels of any integral type (C109)

`labelsPruneIn t`, `labelsSizesIn t`, ... are the functions for images whose labels have type `t`; `labelsPrune`,
`labelsSizes`, ... the ones of unbounded integers, for which C17-C21 hold.
-/

namespace Verif

namespace IntType

variable {t : IntType}

theorem range_eq (hb : 8 ≤ t.bits) : t.highest - t.lowest = 2 ^ t.bits - 1 := by
  unfold highest lowest
  split
  · have : (2 : Int) ^ t.bits = 2 * 2 ^ (t.bits - 1) := by
      rw [← pow_succ']
      congr 1
      omega
    omega
  · omega

theorem pow_big (hb : 8 ≤ t.bits) : (256 : Int) ≤ 2 ^ t.bits ∧ (128 : Int) ≤ 2 ^ (t.bits - 1) := by
  constructor
  · calc (256 : Int) = 2 ^ 8 := by norm_num
      _ ≤ 2 ^ t.bits := pow_le_pow_right₀ (by norm_num) hb
  · calc (128 : Int) = 2 ^ 7 := by norm_num
      _ ≤ 2 ^ (t.bits - 1) := pow_le_pow_right₀ (by norm_num) (by omega)

theorem has_small (hb : 8 ≤ t.bits) {a : Int} (h0 : 0 ≤ a) (h1 : a ≤ 127) : t.Has a := by
  obtain ⟨p, q⟩ := pow_big hb
  unfold Has lowest highest
  split <;> constructor <;> omega

theorem lowest_nonpos : t.lowest ≤ 0 := by
  unfold lowest
  split
  · have : (0 : Int) < 2 ^ (t.bits - 1) := by positivity
    omega
  · exact le_refl 0

theorem conv_of_has (hb : 8 ≤ t.bits) {a : Int} (h : t.Has a) : t.conv a = a := by
  have := range_eq hb
  obtain ⟨h0, h1⟩ := h
  unfold conv
  rw [Int.emod_eq_of_lt (by omega) (by omega)]
  omega

theorem conv_has (hb : 8 ≤ t.bits) (a : Int) : t.Has (t.conv a) := by
  have := range_eq hb
  obtain ⟨p, q⟩ := pow_big hb
  have h0 := Int.emod_nonneg (a - t.lowest) (by omega : (2 : Int) ^ t.bits ≠ 0)
  have h1 := Int.emod_lt_of_pos (a - t.lowest) (by omega : (0 : Int) < 2 ^ t.bits)
  unfold conv Has
  constructor <;> omega

theorem conv_conv_succ (a : Int) : t.conv (t.conv a + 1) = t.conv (a + 1) := by
  unfold conv
  congr 1
  rw [show (a - t.lowest) % 2 ^ t.bits + t.lowest + 1 - t.lowest = (a - t.lowest) % 2 ^ t.bits + 1 by ring,
    Int.emod_add_emod]
  congr 1
  ring

end IntType

namespace Labels

open Outcome

/-- A map whose values are converted. -/
def stored (t : IntType) (m : StdMap) : StdMap := m.map fun p => (p.1, t.conv p.2)

theorem contains_stored (t : IntType) (l : Int) (m : StdMap) :
    StdMap.contains l (stored t m) = StdMap.contains l m := by
  unfold stored StdMap.contains
  rw [List.any_map]
  rfl

theorem at0_stored (t : IntType) {l : Int} : ∀ {m : StdMap}, StdMap.contains l m = true →
    StdMap.at0 l (stored t m) = t.conv (StdMap.at0 l m)
  | [], h => by simp [StdMap.contains] at h
  | (k, v) :: m, h => by
    unfold stored
    rw [List.map_cons, StdMap.at0, StdMap.at0]
    split
    · rfl
    · rename_i hk
      apply at0_stored
      unfold StdMap.contains at h ⊢
      rw [List.any_cons, Bool.or_eq_true] at h
      rcases h with h | h
      · simp at h; omega
      · exact h

theorem assign_stored (t : IntType) {l : Int} : ∀ {m : StdMap}, StdMap.contains l m = true →
    StdMap.assign l (t.conv (StdMap.at0 l m + 1)) (stored t m) = stored t (StdMap.incr l m)
  | [], h => by simp [StdMap.contains] at h
  | (k, v) :: m, h => by
    unfold stored
    rw [List.map_cons, StdMap.at0, StdMap.assign, StdMap.incr]
    split
    · rw [List.map_cons]
    · rename_i hk
      rw [List.map_cons]
      congr 1
      apply assign_stored
      unfold StdMap.contains at h ⊢
      rw [List.any_cons, Bool.or_eq_true] at h
      rcases h with h | h
      · simp at h; omega
      · exact h

theorem emplace_stored (t : IntType) (l v : Int) : ∀ m : StdMap,
    StdMap.emplace l (t.conv v) (stored t m) = stored t (StdMap.emplace l v m)
  | [] => rfl
  | (k, w) :: m => by
    unfold stored
    rw [List.map_cons, StdMap.emplace, StdMap.emplace]
    split
    · rfl
    · split
      · rfl
      · rw [List.map_cons]
        congr 1
        exact emplace_stored t l v m

/-- One pixel of the exact count. -/
def countStep (m : StdMap) (l : Int) : StdMap := if m.contains l then m.incr l else m.emplace l 1

theorem countStep_wf {m : StdMap} (h : m.WF) (l : Int) : (countStep m l).WF := by
  unfold countStep
  split
  · exact StdMap.incr_wf h
  · exact StdMap.emplace_wf h

theorem at0_countStep {m : StdMap} (h : m.WF) (l k : Int) :
    StdMap.at0 k (countStep m l) = StdMap.at0 k m + if k = l then 1 else 0 := by
  unfold countStep
  simp only [StdMap.at0_eq]
  split
  · rename_i hc
    rw [StdMap.contains_eq] at hc
    obtain ⟨c, hc⟩ := Option.isSome_iff_exists.1 hc
    rw [StdMap.lookup_incr]
    by_cases hk : k = l
    · subst hk; simp [hc]
    · simp [hk]
  · rename_i hc
    rw [StdMap.contains_eq] at hc
    have hc' := Option.not_isSome_iff_eq_none.1 hc
    rw [StdMap.lookup_emplace h]
    by_cases hk : k = l
    · subst hk; simp [hc']
    · simp [hk]

/-- A pixel that does not overflow. -/
theorem sizeStep_ok {t : IntType} {m : StdMap} {l : Int}
    (h : StdMap.contains l m = true →
      ¬ (t.signed = true ∧ 32 ≤ t.bits ∧ t.conv (StdMap.at0 l m) = t.highest)) :
    sizeStep t (stored t m) l = ok (stored t (countStep m l)) := by
  unfold sizeStep countStep
  rw [contains_stored]
  split
  · rename_i hc
    rw [at0_stored t hc, IntType.incr, if_neg (h hc)]
    simp only [Outcome.bind]
    rw [IntType.conv_conv_succ, assign_stored t hc]
  · rw [emplace_stored]

/-- The sizes modulo the range of the type, if it does not overflow. -/
theorem sizes_modulo {t : IntType} (ht : t.signed = false ∨ t.bits < 32) : ∀ (labels : List Int) (m : StdMap),
    forM labels (stored t m) (sizeStep t) = ok (stored t (labels.foldl countStep m))
  | [], m => rfl
  | l :: labels, m => by
    rw [forM, sizeStep_ok (fun _ h => by
      rcases ht with ht | ht
      · rw [ht] at h; exact Bool.false_ne_true h.1
      · omega)]
    exact sizes_modulo ht labels _

/-- The sizes, if they fit. -/
theorem sizes_fit {t : IntType} (hb : 8 ≤ t.bits) : ∀ (labels : List Int) (m : StdMap), m.WF →
    (∀ k, 0 ≤ StdMap.at0 k m) → (∀ k, StdMap.at0 k m + (labels.count k : Int) ≤ t.highest) →
    forM labels (stored t m) (sizeStep t) = ok (stored t (labels.foldl countStep m))
  | [], m, _, _, _ => rfl
  | l :: labels, m, hw, h0, h => by
    have hl := h l
    rw [List.count_cons_self] at hl
    push_cast at hl
    have hz := h0 l
    have hlow := t.lowest_nonpos
    rw [forM, sizeStep_ok (fun _ hh => by
      rw [IntType.conv_of_has hb ⟨by omega, by omega⟩] at hh
      omega)]
    refine sizes_fit hb labels _ (countStep_wf hw l) (fun k => ?_) (fun k => ?_)
    · rw [at0_countStep hw]
      have := h0 k
      split <;> omega
    · rw [at0_countStep hw]
      have := h k
      by_cases hk : k = l
      · subst hk
        rw [List.count_cons_self] at this
        push_cast at this
        rw [if_pos rfl]
        omega
      · rw [List.count_cons_of_ne (fun e => hk e.symm)] at this
        rw [if_neg hk]
        omega

/-- A size that does not fit in a wide signed type. -/
theorem sizes_overflow {t : IntType} (ht : t.signed = true) (hb : 32 ≤ t.bits) : ∀ (labels : List Int) (m : StdMap),
    m.WF → (∀ k, 0 ≤ StdMap.at0 k m ∧ StdMap.at0 k m ≤ t.highest) →
    (∃ k, t.highest < StdMap.at0 k m + (labels.count k : Int)) →
    forM labels (stored t m) (sizeStep t) = ub
  | [], m, _, h0, ⟨k, hk⟩ => by
    have := (h0 k).2
    simp at hk
    omega
  | l :: labels, m, hw, h0, ⟨k, hk⟩ => by
    have hl := h0 l
    have hlow := t.lowest_nonpos
    have hconv : t.conv (StdMap.at0 l m) = StdMap.at0 l m :=
      IntType.conv_of_has (by omega) ⟨by omega, by omega⟩
    rw [forM]
    by_cases hc : StdMap.contains l m = true ∧ StdMap.at0 l m = t.highest
    · unfold sizeStep
      rw [contains_stored, if_pos hc.1, at0_stored t hc.1, hconv, IntType.incr, if_pos ⟨ht, hb, hc.2⟩]
      rfl
    · rw [sizeStep_ok (fun h1 hh => hc ⟨h1, by rw [← hconv]; exact hh.2.2⟩)]
      have hz : StdMap.contains l m ≠ true → StdMap.at0 l m = 0 := fun h => by
        rw [StdMap.contains_eq] at h
        rw [StdMap.at0_eq, Option.not_isSome_iff_eq_none.1 h]
        rfl
      have hmax : 0 < t.highest := by
        have := (IntType.has_small (t := t) (by omega) (by omega : (0 : Int) ≤ 1) (by omega)).2
        omega
      have hlt : StdMap.at0 l m < t.highest := by
        by_cases h1 : StdMap.contains l m = true
        · have : StdMap.at0 l m ≠ t.highest := fun e => hc ⟨h1, e⟩
          omega
        · rw [hz h1]; exact hmax
      refine sizes_overflow ht hb labels _ (countStep_wf hw l) (fun k => ?_) ⟨k, ?_⟩
      · rw [at0_countStep hw]
        have := h0 k
        by_cases hk : k = l
        · subst hk; rw [if_pos rfl]; omega
        · rw [if_neg hk]; omega
      · rw [at0_countStep hw]
        by_cases e : k = l
        · subst e
          rw [List.count_cons_self] at hk
          push_cast at hk
          rw [if_pos rfl]
          omega
        · rw [List.count_cons_of_ne (fun e' => e e'.symm)] at hk
          rw [if_neg e]
          omega

theorem stored_of_has {t : IntType} (hb : 8 ≤ t.bits) {m : StdMap} (h : ∀ p ∈ m, t.Has p.2) : stored t m = m := by
  unfold stored
  conv_rhs => rw [← List.map_id m]
  apply List.map_congr_left
  intro p hp
  rw [IntType.conv_of_has hb (h p hp)]
  rfl

theorem reorderLoopIn_eq {u : IntType} (hb : 8 ≤ u.bits) : ∀ (order : List Int) (i : Int) (v : Vec Int),
    0 ≤ i → i + order.length ≤ u.highest + 1 → reorderLoopIn u order i v = reorderLoop order i v
  | [], _, _, _, _ => rfl
  | o :: order, i, v, h0, h => by
    have hlow := u.lowest_nonpos
    rw [List.length_cons] at h
    push_cast at h
    rw [reorderLoopIn, reorderLoop, IntType.conv_of_has hb ⟨by omega, by omega⟩]
    congr 1
    funext w
    exact reorderLoopIn_eq hb order (i + 1) w (by omega) (by omega)

theorem readAllIn_eq (t : IntType) (v : Vec Int) : ∀ labels : List Int,
    readAllIn t v labels = (readAll v labels).map (List.map t.conv)
  | [] => rfl
  | l :: labels => by
    rw [readAllIn, readAll, readAllIn_eq t v labels]
    cases v.read l <;> cases readAll v labels <;> rfl

/-- A list of different numbers between 0 and `h` has at most `h + 1` entries. -/
theorem length_le_of_nodup {l : List Int} (hn : l.Nodup) {h : Int} (hl : ∀ x ∈ l, 0 ≤ x ∧ x ≤ h) (hne : l ≠ []) :
    (l.length : Int) ≤ h + 1 := by
  have hs : l.toFinset ⊆ Finset.Icc 0 h := fun x hx => by
    rw [Finset.mem_Icc]
    exact hl x (List.mem_toFinset.1 hx)
  have hc := Finset.card_le_card hs
  rw [List.toFinset_card_of_nodup hn, Int.card_Icc] at hc
  obtain ⟨x, hx⟩ := List.exists_mem_of_ne_nil l hne
  have := hl x hx
  omega

end Labels

namespace Props

open Verif.Labels Outcome

/-- **C109**: `labels_rename` gives the same for any type of the image and any type of the table, if the type of the
table has the labels of the image and the type of the image has the new labels. -/
theorem C109_rename_partial {t u : IntType} (ht : 8 ≤ t.bits) (hu : 8 ≤ u.bits) (dbg : Bool) {labels : List Int}
    {rename : List (Int × Int)} (hl : ∀ l ∈ labels, u.Has l) (hr : ∀ r ∈ rename, t.Has r.2) :
    labelsRenameIn t u dbg labels rename = labelsRename dbg labels rename := by
  have hm := renameMap_spec rename [] (by simp [StdMap.WF])
  unfold labelsRenameIn labelsRename
  simp only
  set map : StdMap := rename.foldl (fun m r => StdMap.emplace r.1 r.2 m) [] with hmap
  have e1 : (sortUnique labels).any (fun l => !StdMap.contains (u.conv l) map) =
      (sortUnique labels).any (fun l => !StdMap.contains l map) := by
    rw [Bool.eq_iff_iff, List.any_eq_true, List.any_eq_true]
    constructor
    · rintro ⟨x, hx, h⟩
      rw [IntType.conv_of_has hu (hl x (mem_sortUnique.1 hx))] at h
      exact ⟨x, hx, h⟩
    · rintro ⟨x, hx, h⟩
      refine ⟨x, hx, ?_⟩
      rw [IntType.conv_of_has hu (hl x (mem_sortUnique.1 hx))]
      exact h
  have e2 : (labels.map fun l => t.conv (StdMap.at0 (u.conv l) map)) = labels.map fun l => StdMap.at0 l map := by
    apply List.map_congr_left
    intro l h
    rw [IntType.conv_of_has hu (hl l h)]
    apply IntType.conv_of_has ht
    rw [StdMap.at0_eq, hm.2]
    simp only [List.lookup, Option.none_or]
    cases e : List.lookup l rename with
    | none => exact IntType.has_small ht (le_refl _) (by simp)
    | some v => exact hr _ (lookup_mem e)
  rw [e1, e2]

/-- An image of `int`s that is renamed with a table of `unsigned char`s. -/
example : (∀ l ∈ [3, 0, 255], (IntType.mk 8 false).Has l) ∧ (∀ r ∈ [(3, 200), (0, 0), (255, 1)], (IntType.mk 32 true).Has r.2) ∧
    labelsRenameIn ⟨32, true⟩ ⟨8, false⟩ true [3, 0, 255] [(3, 200), (0, 0), (255, 1)] = ok [200, 0, 1] := by
  unfold IntType.Has
  decide

/-- The type of the table matters: label 256, which is not in the table, becomes label 0 in `unsigned char`. With
assertions the call does not fail. -/
theorem C109_rename_violated : labelsRenameIn ⟨32, true⟩ ⟨8, false⟩ true [256, 0] [(0, 7)] = ok [7, 7] ∧
    labelsRename true [256, 0] [(0, 7)] = throws := by
  decide

/-- **C109**: `labels_prune` gives the lowest labels for an image of type `t` exactly if the type has that many
labels. -/
theorem C109_prune {t : IntType} (ht : 8 ≤ t.bits) (dbg : Bool) {labels : List Int} (hl : ∀ l ∈ labels, t.Has l) :
    labelsPruneIn t dbg labels = labelsPrune dbg labels ↔ ((labels.toFinset.erase 0).card : Int) ≤ t.highest := by
  have hlow := t.lowest_nonpos
  have e : labelsPruneIn t dbg labels = ok (labels.map fun l => t.conv (if l = 0 then 0
      else (((labels.toFinset.erase 0).filter (· ≤ l)).card : Int))) := by
    unfold labelsPruneIn
    rw [C109_rename_partial ht ht dbg hl (fun r hr => by
      obtain ⟨x, -, rfl⟩ := List.mem_map.1 hr
      exact IntType.conv_has ht _)]
    exact rename_of_lookup dbg fun l h => by
      rw [lookup_map, lookup_pruneTable labels l h]
      rfl
  rw [e, C19_labels_prune, ok.injEq, List.map_inj_left]
  constructor
  · intro h
    by_contra hgt
    obtain ⟨x, hx, hxc⟩ := exists_rank (labels.toFinset.erase 0) (labels.toFinset.erase 0).card (by
      have := (IntType.has_small ht (le_refl _) (by simp)).2
      omega) le_rfl
    rw [Finset.mem_erase, List.mem_toFinset] at hx
    have := h x hx.2
    rw [if_neg hx.1, hxc] at this
    have h' := (IntType.conv_has ht ((labels.toFinset.erase 0).card : Int)).2
    omega
  · intro h l hl
    apply IntType.conv_of_has ht
    split
    · exact IntType.has_small ht (le_refl _) (by simp)
    · have := Finset.card_filter_le (labels.toFinset.erase 0) (· ≤ l)
      constructor <;> omega

/-- **C109**: in particular for every image without negative labels. -/
theorem C109_prune_nonneg {t : IntType} (ht : 8 ≤ t.bits) (dbg : Bool) {labels : List Int}
    (hl : ∀ l ∈ labels, 0 ≤ l ∧ l ≤ t.highest) : labelsPruneIn t dbg labels = labelsPrune dbg labels := by
  have hlow := t.lowest_nonpos
  rw [C109_prune ht dbg fun l h => ⟨by have := hl l h; omega, (hl l h).2⟩]
  have hs : labels.toFinset.erase 0 ⊆ Finset.Icc 1 t.highest := fun x hx => by
    rw [Finset.mem_erase, List.mem_toFinset] at hx
    have := hl x hx.2
    rw [Finset.mem_Icc]
    omega
  have hc := Finset.card_le_card hs
  rw [Int.card_Icc] at hc
  have := (IntType.has_small ht (le_refl (0 : Int)) (by simp)).2
  omega

example : ∀ l ∈ ([200, 0, 255, 7] : List Int), 0 ≤ l ∧ l ≤ (IntType.mk 8 false).highest := by decide
example : labelsPruneIn ⟨8, false⟩ true [200, 0, 255, 7] = ok [2, 0, 3, 1] := by decide

/-- With 128 different negative labels `signed char` has not enough labels: the highest becomes negative. -/
theorem C109_prune_violated :
    ∃ ret, labelsPruneIn ⟨8, true⟩ true ((List.range 128).map fun (k : Nat) => (k : Int) - 128) = ok ret ∧
      -128 ∈ ret := by
  refine ⟨(List.range 127).map (fun (k : Nat) => (k : Int) + 1) ++ [-128], ?_, by decide +kernel⟩
  decide +kernel

/-- **C109**: `labels_reorder` gives the same for any type of the image and any type of the order, if (for types of at
least 32 bits) the highest label of the order is not the highest of its type. -/
theorem C109_reorder_partial {t u : IntType} (ht : 8 ≤ t.bits) (hu : 8 ≤ u.bits) (dbg : Bool) {labels order : List Int}
    (hne : order ≠ []) (hnd : order.Nodup) (hset : ∀ x, x ∈ labels ↔ x ∈ order) (hpos : ∀ x ∈ order, 0 ≤ x)
    (hlt : ∀ x ∈ labels, t.Has x) (hou : ∀ x ∈ order, u.Has x)
    (hmax : u.bits < 32 ∨ ∀ x ∈ order, x < u.highest) :
    labelsReorderIn t u dbg labels order = labelsReorder dbg labels order := by
  have hlow := u.lowest_nonpos
  have htlow := t.lowest_nonpos
  have h20 := C20_labels_reorder dbg labels order hne hnd hset hpos
  have heq : sortUnique labels = sortUnique order := sortUnique_eq_iff.2 hset
  have hlu := length_le_of_nodup hnd (fun x hx => ⟨hpos x hx, (hou x hx).2⟩) hne
  have hlt' := length_le_of_nodup hnd (fun x hx => ⟨hpos x hx, (hlt x ((hset x).2 hx)).2⟩) hne
  have hsucc : ∀ m ∈ order, u.succ m = ok (m + 1) := fun m hm => by
    unfold IntType.succ
    split
    · rfl
    · rename_i h
      rcases hmax with hmax | hmax
      · omega
      · have h1 := hmax m hm
        have h2 := hpos m hm
        rw [if_neg (by rintro ⟨-, e⟩; omega), IntType.conv_of_has hu ⟨by omega, by omega⟩]
  obtain ⟨m, hm⟩ : ∃ m, maxElement order = ok m ∧ m ∈ order := by
    obtain ⟨x, rest, rfl⟩ := List.exists_cons_of_ne_nil hne
    refine ⟨_, rfl, ?_⟩
    rcases Labels.foldl_max_mem rest x with h | h
    · rw [h]; simp
    · simp [h]
  have hcode : labelsReorderIn t u dbg labels order = (labelsReorder dbg labels order).map (List.map t.conv) := by
    unfold labelsReorderIn labelsReorder
    rw [heq, hm.1]
    simp only [beq_self_eq_true, Bool.not_true, Bool.and_false, Bool.false_eq_true, if_false, Outcome.bind]
    rw [hsucc m hm.2]
    simp only
    have := hpos m hm.2
    rw [if_neg (by omega), if_neg (by omega), reorderLoopIn_eq hu order 0 _ (le_refl 0) (by omega)]
    cases reorderLoop order 0 (Vec.fill (m + 1).toNat 0) with
    | ok v => exact readAllIn_eq t v labels
    | throws => rfl
    | ub => rfl
    | diverge => rfl
  rw [hcode, h20]
  simp only [Outcome.map, ok.injEq, List.map_map]
  apply List.map_congr_left
  intro l hl
  have := List.idxOf_lt_length_of_mem ((hset l).1 hl)
  show t.conv (order.idxOf l : Int) = _
  exact IntType.conv_of_has ht ⟨by omega, by omega⟩

/-- Labels in `unsigned char`, the order in `long`; the highest label of a narrow type is allowed. -/
example : ([255, 0, 7] : List Int).Nodup ∧ (∀ x, x ∈ ([0, 255, 7, 255] : List Int) ↔ x ∈ [255, 0, 7]) ∧
    (∀ x ∈ ([0, 255, 7, 255] : List Int), (IntType.mk 8 false).Has x) ∧
    (∀ x ∈ ([255, 0, 7] : List Int), (IntType.mk 64 true).Has x ∧ x < (IntType.mk 64 true).highest) ∧
    labelsReorderIn ⟨8, false⟩ ⟨64, true⟩ true [0, 255, 7, 255] [255, 0, 7] = ok [1, 0, 2, 0] := by
  refine ⟨by decide, fun x => by simp; tauto, by unfold IntType.Has; decide, by unfold IntType.Has; decide, by decide⟩

/-- The highest label of `int` and of `unsigned int` cannot be in the order: the number of labels overflows. -/
theorem C109_reorder_violated :
    labelsReorderIn ⟨32, true⟩ ⟨32, true⟩ true [0, 2147483647] [0, 2147483647] = ub ∧
    labelsReorderIn ⟨32, false⟩ ⟨32, false⟩ true [0, 4294967295] [0, 4294967295] = ub := by
  decide

theorem sizes_fold (labels : List Int) : labels.foldl countStep [] = labelsSizes labels := rfl

/-- **C109** (partial): `labels_sizes` gives the number of pixels of every label if the type of the labels has these
numbers. -/
theorem C109_sizes_partial {t : IntType} (ht : 8 ≤ t.bits) {labels : List Int}
    (h : ∀ l, (labels.count l : Int) ≤ t.highest) : labelsSizesIn t labels = ok (labelsSizes labels) := by
  have := sizes_fit ht labels [] (by simp [StdMap.WF]) (by simp [StdMap.at0]) (by simpa [StdMap.at0] using h)
  unfold labelsSizesIn
  change forM labels (stored t []) (sizeStep t) = _
  rw [this, sizes_fold, stored_of_has ht]
  intro p hp
  have e := ((C21_labels_sizes labels).2 p.1 p.2).1 hp
  rw [e.2]
  have := t.lowest_nonpos
  exact ⟨by omega, h _⟩

example : ∀ l, (([4, 0, 4, 1, 0, 4] : List Int).count l : Int) ≤ (IntType.mk 8 true).highest := fun l => by
  have := List.count_le_length (a := l) (l := ([4, 0, 4, 1, 0, 4] : List Int))
  simp only [List.length_cons, List.length_nil] at this
  have h : (IntType.mk 8 true).highest = 127 := by decide
  omega

/-- **C109**: in unsigned types, and in types that are narrower than `int`, the numbers are modulo the range of the
type. -/
theorem C109_sizes_modulo {t : IntType} (ht : t.signed = false ∨ t.bits < 32) (labels : List Int) :
    labelsSizesIn t labels = ok ((labelsSizes labels).map fun p => (p.1, t.conv p.2)) :=
  sizes_modulo ht labels []

/-- **C109**: in `int` and wider signed types a number that does not fit is undefined behaviour. -/
theorem C109_sizes_overflow {t : IntType} (hs : t.signed = true) (ht : 32 ≤ t.bits) {labels : List Int}
    (h : ∃ l, t.highest < (labels.count l : Int)) : labelsSizesIn t labels = ub := by
  have h1 := (IntType.has_small (t := t) (by omega) (le_refl (0 : Int)) (by simp)).2
  exact sizes_overflow hs ht labels [] (by simp [StdMap.WF]) (by simp [StdMap.at0, h1]) (by simpa [StdMap.at0] using h)

example : ∃ l, (IntType.mk 32 true).highest < ((List.replicate 3000000000 (1 : Int)).count l : Int) := by
  refine ⟨1, ?_⟩
  rw [List.count_replicate_self]
  decide

/-- A label with 256 pixels in `unsigned char` has size 0, one with 200 pixels in `signed char` a negative size. -/
theorem C109_sizes_violated :
    labelsSizesIn ⟨8, false⟩ (List.replicate 256 1) = ok [(1, 0)] ∧
    labelsSizesIn ⟨8, true⟩ (List.replicate 200 1) = ok [(1, -56)] := by
  rw [C109_sizes_modulo (Or.inl rfl), C109_sizes_modulo (Or.inr (by decide))]
  decide +kernel

/-- **C109** (partial): the sizes by name. -/
theorem C109_names_partial {t : IntType} (ht : 8 ≤ t.bits) {labels names : List Int}
    (h : ∀ l, (labels.count l : Int) ≤ t.highest) (hn : ∀ n ∈ names, t.Has n) :
    labelsSizesNamesIn t labels names = ok (names.map fun n => (labels.count n : Int)) := by
  rw [← C21_labels_sizes_names]
  unfold labelsSizesNamesIn labelsSizesNames
  rw [C109_sizes_partial ht h]
  simp only [Outcome.bind, ok.injEq]
  apply List.map_congr_left
  intro n hn'
  rw [IntType.conv_of_has ht (hn n hn')]
  rfl

/-- The size of a name that the type of the labels does not have is the size of another label. -/
theorem C109_names_violated : labelsSizesNamesIn ⟨8, false⟩ [1, 1, 0] [257] = ok [2] ∧
    labelsSizesNames [1, 1, 0] [257] = [0] := by
  decide

example : labelsSizesNamesIn ⟨8, false⟩ [1, 1, 0, 255] [255, 1] = ok [1, 2] := by decide

end Props

end Verif
