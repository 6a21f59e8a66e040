import Verif.Props.Kernel

/-!
# Islands of pixels with the same value (C105)

`/repo/docs/theory_clusters.rst` calls clusters "islands of connected pixels with the same value".
-/

namespace Verif.Props

open Verif Outcome Spec Cluster

/-- `p` and `q` are in one island: they are joined by a path of pixels of value `v`, in which successive pixels share a
face. -/
def Island (periodic : Bool) (shape : List Nat) (f : List Int) (v : Int) (p q : Nat) : Prop :=
  Joined (FaceAdj periodic shape) (fun r => f.getD r 0 = v) p q

/-- No two pixels that share a face have different nonzero values. -/
def Separated (periodic : Bool) (shape : List Nat) (f : List Int) : Prop :=
  ∀ p q, FaceAdj periodic shape p q → f.getD p 0 ≠ 0 → f.getD q 0 ≠ 0 → f.getD p 0 = f.getD q 0

variable {shape : List Nat} {f : List Int}

/-- **C105** No island is split: all its pixels have one label. -/
theorem C105_whole (dbg periodic : Bool) (hn : 1 ≤ shape.length) (hn' : shape.length ≤ 3) (hsmall : shape.prod < 2 ^ 62)
    (hf : f.length = shape.prod) :
    ∃ labels, clusters dbg shape f periodic = ok labels ∧
      ∀ p < shape.prod, ∀ q < shape.prod, ∀ v ≠ 0, Island periodic shape f v p q →
        labels.getD p 0 = labels.getD q 0 := by
  obtain ⟨labels, e, -, -, h, -⟩ := C03_clusters dbg periodic hn hn' hsmall hf
  refine ⟨labels, e, fun p hp q hq v hv hi => ?_⟩
  have h1 := Naive.Joined.mem_left hi
  have h2 := Naive.Joined.mem_right hi
  exact (h p hp q hq (by rw [h1]; exact hv) (by rw [h2]; exact hv)).2
    (Naive.Joined.mono (fun r (hr : f.getD r 0 = v) => by rw [hr]; exact hv) hi)

/-- **C105** If islands of different values do not touch, the clusters are the islands. *Missing:* images in which they
touch, see `C105_violated`. -/
theorem C105_partial (dbg periodic : Bool) (hn : 1 ≤ shape.length) (hn' : shape.length ≤ 3) (hsmall : shape.prod < 2 ^ 62)
    (hf : f.length = shape.prod) (hs : Separated periodic shape f) :
    ∃ labels, clusters dbg shape f periodic = ok labels ∧
      ∀ p < shape.prod, ∀ q < shape.prod, f.getD p 0 ≠ 0 → f.getD q 0 ≠ 0 →
        (labels.getD p 0 = labels.getD q 0 ↔ Island periodic shape f (f.getD p 0) p q) := by
  obtain ⟨labels, e, -, -, h, -⟩ := C03_clusters dbg periodic hn hn' hsmall hf
  refine ⟨labels, e, fun p hp q hq h1 h2 => (h p hp q hq h1 h2).trans ⟨fun j => ?_, fun j => ?_⟩⟩
  · clear hq h2
    induction j with
    | refl => exact .refl rfl
    | @step q r j adj hr ih =>
      have hq : f.getD q 0 = f.getD p 0 := Naive.Joined.mem_right ih
      exact .step ih adj ((hs q r adj (by rw [hq]; exact h1) hr).symm.trans hq)
  · exact Naive.Joined.mono (fun r (hr : f.getD r 0 = f.getD p 0) => by rw [hr]; exact h1) j

/-- **C105** The clusters of the image of one value, `f == v`, are the islands of that value. -/
theorem C105_value (dbg periodic : Bool) (hn : 1 ≤ shape.length) (hn' : shape.length ≤ 3) (hsmall : shape.prod < 2 ^ 62)
    (hf : f.length = shape.prod) (v : Int) :
    ∃ labels, clusters dbg shape (f.map fun a => if a = v then 1 else 0) periodic = ok labels ∧
      (∀ p < shape.prod, labels.getD p 0 ≠ 0 ↔ f.getD p 0 = v) ∧
      ∀ p < shape.prod, ∀ q < shape.prod, f.getD p 0 = v → f.getD q 0 = v →
        (labels.getD p 0 = labels.getD q 0 ↔
          Joined (FaceAdj periodic shape) (fun r => r < shape.prod ∧ f.getD r 0 = v) p q) := by
  obtain ⟨labels, e, -, h0, h, -⟩ := C03_clusters dbg periodic hn hn' hsmall
    (f := f.map fun a => if a = v then 1 else 0) (by rw [List.length_map, hf])
  have key : ∀ p, (f.map fun a : Int => if a = v then (1 : Int) else 0).getD p 0 ≠ 0 ↔
      p < shape.prod ∧ f.getD p 0 = v := by
    intro p
    by_cases hp : p < f.length
    · have e1 : (f.map fun a : Int => if a = v then (1 : Int) else 0).getD p 0 = if f.getD p 0 = v then 1 else 0 := by
        simp [List.getD_eq_getElem?_getD, List.getElem?_map, List.getElem?_eq_getElem hp]
      rw [e1]
      by_cases hv : f.getD p 0 = v
      · rw [if_pos hv]
        exact ⟨fun _ => ⟨hf ▸ hp, hv⟩, fun _ => by norm_num⟩
      · rw [if_neg hv]
        exact ⟨fun h => absurd rfl h, fun h => absurd h.2 hv⟩
    · have e1 : (f.map fun a : Int => if a = v then (1 : Int) else 0).getD p 0 = 0 := by
        simp [List.getD_eq_getElem?_getD, List.getElem?_eq_none (not_lt.1 hp)]
      rw [e1]
      exact ⟨fun h => absurd rfl h, fun h => absurd (hf ▸ h.1) hp⟩
  refine ⟨labels, e, fun p hp => ?_, fun p hp q hq h1 h2 => ?_⟩
  · rw [Ne, h0 p hp, ← Ne, key]
    exact ⟨fun h => h.2, fun h => ⟨hp, h⟩⟩
  · rw [h p hp q hq ((key p).2 ⟨hp, h1⟩) ((key q).2 ⟨hq, h2⟩)]
    have : (fun r => (f.map fun a : Int => if a = v then (1 : Int) else 0).getD r 0 ≠ 0) =
        fun r => r < shape.prod ∧ f.getD r 0 = v := funext fun r => propext (key r)
    rw [this]

/-- **C105** Two pixels with different values: one cluster. -/
theorem C105_violated : ∃ (shape : List Nat) (f labels : List Int) (p q : Nat),
    clusters true shape f false = ok labels ∧ p < shape.prod ∧ q < shape.prod ∧ f.getD p 0 ≠ 0 ∧ f.getD q 0 ≠ 0 ∧
      labels.getD p 0 = labels.getD q 0 ∧ ∀ v, ¬ Island false shape f v p q := by
  refine ⟨[3], [1, 2, 0], [1, 1, 0], 0, 1, by decide +kernel, by decide, by decide, by decide, by decide, by decide, ?_⟩
  intro v h
  have h1 : (1 : Int) = v := Naive.Joined.mem_left h
  have h2 : (2 : Int) = v := Naive.Joined.mem_right h
  omega

/-- A row of pixels with islands of two values that do not touch. -/
example : Separated false [5] [3, 3, 0, 2, 2] := by
  rintro p q ⟨x, y, d, hd, h1, hx, hy, hs, ep, eq⟩ hp hq
  match x, y, d, hd with
  | [a], [b], [c], _ =>
    simp only [Shifted, and_true, Bool.false_eq_true, if_false] at hs
    simp only [List.map_cons, List.map_nil, List.sum_cons, List.sum_nil] at h1
    simp only [flat, List.prod_nil] at ep eq
    have hx := (List.forall₂_cons.1 hx).1
    have hy := (List.forall₂_cons.1 hy).1
    have hp5 : p < 5 := by push_cast at hx ep; omega
    have hq5 : q < 5 := by push_cast at hy eq; omega
    have hpq : q = p + 1 ∨ p = q + 1 := by push_cast at ep eq; omega
    clear hs h1 ep eq hx hy
    have key : ∀ p q : Fin 5, (q.1 = p.1 + 1 ∨ p.1 = q.1 + 1) → ([3, 3, 0, 2, 2] : List Int).getD p 0 ≠ 0 →
        ([3, 3, 0, 2, 2] : List Int).getD q 0 ≠ 0 →
          ([3, 3, 0, 2, 2] : List Int).getD p 0 = ([3, 3, 0, 2, 2] : List Int).getD q 0 := by decide
    exact key ⟨p, hp5⟩ ⟨q, hq5⟩ hpq hp hq
  | [], _, _, _ => cases hx
  | _ :: _ :: _, _, _, _ => cases hx; rename_i h; cases h
  | [_], [], _, _ => cases hy
  | [_], _ :: _ :: _, _, _ => cases hy; rename_i h; cases h

/-- Islands of two values that do not touch. -/
example : clusters true [2, 4] [3, 0, 2, 2, 3, 0, 0, 2] false = ok [1, 0, 2, 2, 1, 0, 0, 2] := by decide +kernel

end Verif.Props
