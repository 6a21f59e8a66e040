import Verif.Props.Moments

/-!
# Which calls of `distance` throw, are undefined and return (C33)
-/

namespace Verif.Props

open Verif Outcome Spec Nd Ens

variable {K : Type} [Field K] [LinearOrder K] [IsStrictOrderedRing K]

/-- The axis, of the region of interest raised to three dimensions. -/
theorem axis_cases (dbg : Bool) {roi : List Nat} (hr : roi.length ≤ 3) (h0 : 0 ∉ roi) (axis : Nat) :
    Api.distanceAxis K dbg roi axis =
      if dbg = true ∧ roi.length ≤ axis then throws
      else if 3 ≤ axis + (if roi.length ≤ 1 then 1 else 0) then ub
      else Ens.distanceAxis false (fresh K roi true true .unset) axis := by
  have e : (fresh K roi true true .unset).shapeOrig = roi := rfl
  have h3 : (shape3 roi).length = 3 := by
    match roi, hr with
    | [], _ => rfl
    | [_], _ => rfl
    | [_, _], _ => rfl
    | [_, _, _], _ => rfl
  have hp : (fresh K roi true true .unset).pad.length = 3 := by
    simp [fresh, padWidth, h3]
  rw [Api.distanceAxis, make_ok dbg hr h0, ok_bind]
  by_cases ht : dbg = true ∧ roi.length ≤ axis
  · rw [if_pos ht]
    obtain ⟨rfl, h⟩ := ht
    simp only [Ens.distanceAxis, e, gassert, not_lt.2 h, decide_false, Bool.not_false, Bool.and_self, if_true]
    rfl
  · rw [if_neg ht]
    have hg : ∀ d, (d = true → axis < roi.length) → gassert d (decide (axis < roi.length)) = ok () := by
      intro d hd
      cases d with
      | true => simp [gassert, hd rfl]
      | false => simp [gassert]
    by_cases h3 : 3 ≤ axis + (if roi.length ≤ 1 then 1 else 0)
    · rw [if_pos h3]
      simp only [Ens.distanceAxis, e]
      rw [hg dbg fun h => by
        by_contra hn
        exact ht ⟨h, by omega⟩]
      rw [ok_bind, List.getElem?_eq_none (by rw [hp]; exact h3)]
    · rw [if_neg h3]
      simp only [Ens.distanceAxis, e]
      rw [hg dbg fun h => by
        by_contra hn
        exact ht ⟨h, by omega⟩, hg false fun h => (by cases h)]

/-- An axis behind the last one is that of one pixel, if there are no assertions. -/
theorem axis_behind {roi : List Nat} (hr : roi.length ≤ 3) {axis : Nat} (ha : roi.length ≤ axis)
    (h3 : axis + (if roi.length ≤ 1 then 1 else 0) < 3) :
    ∃ D : Nd K, Ens.distanceAxis false (fresh K roi true true .unset) axis = ok D ∧ D.shape = roi ∧
      ∀ i, val D i = 0 := by
  have key : ∀ i : Int, linspace (-1 * ((0 : Nat) : K)) ((0 : Nat) : K) 1 i = 0 := by
    intro i
    simp [linspace]
  match roi, hr with
  | [], _ =>
    have : axis = 0 ∨ axis = 1 := by simp at h3; omega
    rcases this with rfl | rfl
    · exact ⟨_, rfl, rfl, fun i => key _⟩
    · exact ⟨_, rfl, rfl, fun i => key _⟩
  | [a], _ =>
    have : axis = 1 := by simp at h3 ha; omega
    subst this
    exact ⟨_, rfl, rfl, fun i => key _⟩
  | [a, b], _ =>
    have : axis = 2 := by simp at h3 ha; omega
    subst this
    exact ⟨_, rfl, rfl, fun i => key _⟩
  | [a, b, c], _ => simp at h3 ha; omega

/-- `distance(axis)` throws exactly for an axis that the region of interest does not have, if there are assertions;
without them it is undefined exactly if that axis does not exist in three dimensions either, and zero otherwise. -/
theorem C33_axis_decided (dbg : Bool) {roi : List Nat} (hr : roi.length ≤ 3) (h0 : 0 ∉ roi) (axis : Nat) :
    (Api.distanceAxis K dbg roi axis = throws ↔ dbg = true ∧ roi.length ≤ axis) ∧
    (Api.distanceAxis K dbg roi axis = ub ↔ dbg = false ∧ 3 ≤ axis + (if roi.length ≤ 1 then 1 else 0)) ∧
    (dbg = false → roi.length ≤ axis → axis + (if roi.length ≤ 1 then 1 else 0) < 3 →
      ∃ D, Api.distanceAxis K dbg roi axis = ok D ∧ D.shape = roi ∧ ∀ i, val D i = 0) := by
  have hax := axis_cases (K := K) dbg hr h0 axis
  by_cases ha : axis < roi.length
  · obtain ⟨D, h1, -⟩ := C33_axis (K := K) dbg hr h0 ha
    have h3 : ¬ 3 ≤ axis + (if roi.length ≤ 1 then 1 else 0) := by split <;> omega
    rw [h1]
    exact ⟨⟨fun h => (by cases h), fun h => absurd h.2 (by omega)⟩, ⟨fun h => (by cases h), fun h => absurd h.2 h3⟩,
      fun _ h => absurd h (by omega)⟩
  · have ha' : roi.length ≤ axis := by omega
    cases dbg with
    | true =>
      rw [if_pos ⟨rfl, ha'⟩] at hax
      rw [hax]
      exact ⟨⟨fun _ => ⟨rfl, ha'⟩, fun _ => rfl⟩, ⟨fun h => (by cases h), fun h => (by cases h.1)⟩, fun h => (by cases h)⟩
    | false =>
      rw [if_neg (fun h => (by cases h.1))] at hax
      by_cases h3 : 3 ≤ axis + (if roi.length ≤ 1 then 1 else 0)
      · rw [if_pos h3] at hax
        rw [hax]
        exact ⟨⟨fun h => (by cases h), fun h => (by cases h.1)⟩, ⟨fun _ => ⟨rfl, h3⟩, fun _ => rfl⟩,
          fun _ _ h => absurd h (by omega)⟩
      · rw [if_neg h3] at hax
        obtain ⟨D, e1, e2, e3⟩ := axis_behind (K := K) hr ha' (by omega)
        rw [hax, e1]
        exact ⟨⟨fun h => (by cases h), fun h => (by cases h.1)⟩, ⟨fun h => (by cases h), fun h => absurd h.2 h3⟩,
          fun _ _ _ => ⟨D, rfl, e2, e3⟩⟩

/-- A line, of which the second axis does not exist and is that of one pixel; the third is undefined. -/
example : (0 : Nat) ∉ [3] ∧ [3].length ≤ 1 ∧ 1 + (if [3].length ≤ 1 then 1 else 0) < 3 ∧
    3 ≤ 2 + (if [3].length ≤ 1 then 1 else 0) := by decide

/-- `distance(h)` throws exactly if the number of pixel sizes is not the rank and there are assertions, and is undefined
exactly if there are too few of them and no assertions. -/
theorem C33_h_decided (pow05 : K → K) (dbg : Bool) {roi : List Nat} (hr : roi.length ≤ 3) (h0 : 0 ∉ roi) (h : List K) :
    (Api.distanceH pow05 dbg roi h = throws ↔ dbg = true ∧ h.length ≠ roi.length) ∧
    (Api.distanceH pow05 dbg roi h = ub ↔ dbg = false ∧ h.length < roi.length) := by
  by_cases hh : h.length = roi.length
  · obtain ⟨D, h1, -⟩ := C33_distance_h pow05 dbg hr h0 hh
    rw [h1]
    exact ⟨⟨fun c => (by cases c), fun c => absurd hh c.2⟩, ⟨fun c => (by cases c), fun c => by omega⟩⟩
  · cases dbg with
    | true =>
      rw [((C33_rejected pow05 hr h0 (axis := 0) (h := h)).2.1 hh).1]
      exact ⟨⟨fun _ => ⟨rfl, hh⟩, fun _ => rfl⟩, ⟨fun c => (by cases c), fun c => (by cases c.1)⟩⟩
    | false =>
      have e : (fresh K roi true true .unset).shapeOrig = roi := rfl
      obtain ⟨D, h1, -⟩ := distanceSum_ok (K := K) false (periodic := true) (variance := true) (st := .unset) hr h0
        fun a => h.getD a 0
      have hv : Api.distanceH pow05 false roi h = if h.length < roi.length then ub else ok (D.map pow05) := by
        simp only [Api.distanceH, make_ok false hr h0, ok_bind, Ens.distanceH, h1, e, gassert, Bool.false_and,
          Bool.false_eq_true, if_false, pure_eq]
      rw [hv]
      split
      · rename_i hl
        exact ⟨⟨fun c => (by cases c), fun c => (by cases c.1)⟩, ⟨fun _ => ⟨rfl, hl⟩, fun _ => rfl⟩⟩
      · rename_i hl
        exact ⟨⟨fun c => (by cases c), fun c => (by cases c.1)⟩, ⟨fun c => (by cases c), fun c => absurd c.2 hl⟩⟩

/-- `distance(h, axis)` throws exactly if there are assertions and the number of pixel sizes is not the rank or the axis
does not exist; without assertions it is undefined exactly if there is no pixel size of the axis, or the axis does not
exist in three dimensions. -/
theorem C33_axis_h_decided (pow05 : K → K) (dbg : Bool) {roi : List Nat} (hr : roi.length ≤ 3) (h0 : 0 ∉ roi)
    (h : List K) (axis : Nat) :
    (Api.distanceHAxis dbg roi h axis = throws ↔ dbg = true ∧ (h.length ≠ roi.length ∨ roi.length ≤ axis)) ∧
    (Api.distanceHAxis dbg roi h axis = ub ↔
      dbg = false ∧ (h.length ≤ axis ∨ 3 ≤ axis + (if roi.length ≤ 1 then 1 else 0))) := by
  cases dbg with
  | true =>
    have hrej := C33_rejected pow05 hr h0 (axis := axis) (h := h)
    by_cases hh : h.length = roi.length
    · by_cases ha : roi.length ≤ axis
      · rw [hrej.2.2 ha]
        exact ⟨⟨fun _ => ⟨rfl, Or.inr ha⟩, fun _ => rfl⟩, ⟨fun c => (by cases c), fun c => (by cases c.1)⟩⟩
      · obtain ⟨D, h1, -⟩ := C33_axis_h true hr h0 hh (axis := axis) (by omega)
        rw [h1]
        exact ⟨⟨fun c => (by cases c), fun c => absurd c.2 (by omega)⟩, ⟨fun c => (by cases c), fun c => (by cases c.1)⟩⟩
    · rw [(hrej.2.1 hh).2]
      exact ⟨⟨fun _ => ⟨rfl, Or.inl hh⟩, fun _ => rfl⟩, ⟨fun c => (by cases c), fun c => (by cases c.1)⟩⟩
  | false =>
    have hd := C33_axis_decided (K := K) false hr h0 axis
    have hv : Api.distanceHAxis false roi h axis =
        (Api.distanceAxis K false roi axis).bind fun d => match h[axis]? with
          | some a => ok (d.map fun x => x * a)
          | none => ub := by
      simp only [Api.distanceHAxis, Api.distanceAxis, make_ok false hr h0, ok_bind, Ens.distanceHAxis, gassert,
        Bool.false_and, Bool.false_eq_true, if_false, pure_eq]
      rfl
    rw [hv]
    by_cases h3 : 3 ≤ axis + (if roi.length ≤ 1 then 1 else 0)
    · rw [hd.2.1.2 ⟨rfl, h3⟩]
      exact ⟨⟨fun c => (by cases c), fun c => (by cases c.1)⟩, ⟨fun _ => ⟨rfl, Or.inr h3⟩, fun _ => rfl⟩⟩
    · obtain ⟨D, h1⟩ : ∃ D, Api.distanceAxis K false roi axis = ok D := by
        by_cases ha : axis < roi.length
        · obtain ⟨D, h1, -⟩ := C33_axis (K := K) false hr h0 ha
          exact ⟨D, h1⟩
        · obtain ⟨D, h1, -⟩ := hd.2.2 rfl (by omega) (by omega)
          exact ⟨D, h1⟩
      rw [h1]
      show ((match h[axis]? with
          | some a => ok (D.map fun x => x * a)
          | none => ub) = throws ↔ _) ∧ ((match h[axis]? with
          | some a => ok (D.map fun x => x * a)
          | none => ub) = ub ↔ _)
      by_cases hl : h.length ≤ axis
      · rw [List.getElem?_eq_none hl]
        exact ⟨⟨fun c => (by cases c), fun c => (by cases c.1)⟩, ⟨fun _ => ⟨rfl, Or.inl hl⟩, fun _ => rfl⟩⟩
      · rw [List.getElem?_eq_getElem (by omega)]
        exact ⟨⟨fun c => (by cases c), fun c => (by cases c.1)⟩, ⟨fun c => (by cases c), fun c => by
          rcases c.2 with c | c <;> omega⟩⟩

end Verif.Props
