import Verif.Props.CenterMotion
import Verif.Props.DilatePadding

/-! # Centres of labels of an image in a larger one (C133) -/

namespace Verif.Props

open Verif Outcome Spec Ens Center

variable {n : Nat} {b : List Int} {labels labels' : Nd Int} {name : Int}

namespace Spec

/-- The pixels with label `name` in the large image are those in the small one, placed at `b`. -/
structure Located (b : List Int) (name : Int) (labels labels' : Nd Int) : Prop where
  room : Room false labels.shape labels'.shape b
  inside : ∀ x ∈ pixels labels.shape, (val labels' (move x b) = name ↔ val labels x = name)
  outside : ∀ y ∈ pixels labels'.shape, val labels' y = name → ∃ x ∈ pixels labels.shape, y = move x b

end Spec

open Spec

theorem located_enumerates (h : Spec.Located b name labels labels') {l : List (List Int)}
    (hl : Enumerates labels name l) : Enumerates labels' name (l.map (move · b)) := by
  obtain ⟨-, hb⟩ := room_length h.room
  refine ⟨?_, fun y => ?_⟩
  · refine List.Nodup.map_on (fun x hx y hy e => ?_) hl.1
    have h1 := ((hl.2 x).1 hx).1.length_eq
    have h2 := ((hl.2 y).1 hy).1.length_eq
    exact move_cancel (by omega) (by omega) e
  · rw [List.mem_map]
    constructor
    · rintro ⟨x, hx, rfl⟩
      obtain ⟨hx, hv⟩ := (hl.2 x).1 hx
      exact ⟨embed_inbox h.room hx, (h.inside x (mem_pixels.2 hx)).2 hv⟩
    · rintro ⟨hy, hv⟩
      obtain ⟨x, hx, rfl⟩ := h.outside y (mem_pixels.2 hy) hv
      exact ⟨x, (hl.2 x).2 ⟨mem_pixels.1 hx, (h.inside x hx).1 hv⟩, rfl⟩

theorem coords_move {x : List Int} (hb : b.length = n) (hx : x.length = n) (j : Fin n) :
    coords n (move x b) j = coords n x j + ((b.getD j 0 : Int) : ℝ) := by
  have h1 : (j : Nat) < x.length := by omega
  have h2 : (j : Nat) < b.length := by omega
  simp [coords, move, List.getD_eq_getElem?_getD, List.getElem?_zipWith, h1, h2]

/-- C133: without periodicity, the centre of a label moves with the place of the image in a larger one. -/
theorem C133_centers (dbg dbg' : Bool) (negative negative' : Nat → Fin n → Bool) (h : Spec.Located b name labels labels')
    (h0 : 0 < n) (hn : labels.shape.length = n) (hn' : labels'.shape.length = n)
    (hex : ∃ x ∈ pixels labels.shape, val labels x = name) {names names' : List Int} {i i' : Nat}
    (hi : names[i]? = some name) (hi' : names'[i']? = some name) :
    ∃ rows rows' row row', labelsCenters dbg negative labels hn names false = ok rows ∧
      labelsCenters dbg' negative' labels' hn' names' false = ok rows' ∧ rows[i]? = some row ∧ rows'[i']? = some row' ∧
      ∀ j : Fin n, row' j = row j + ((b.getD j 0 : Int) : ℝ) := by
  obtain ⟨rows, h1, h2, h3⟩ := C52_centers dbg negative labels hn h0 names false
  obtain ⟨rows', h1', h2', h3'⟩ := C52_centers dbg' negative' labels' hn' h0 names' false
  obtain ⟨l, hl⟩ := C52_enumerates labels name
  have hl' := located_enumerates h hl
  obtain ⟨ki, ei⟩ := List.getElem?_eq_some_iff.1 hi
  obtain ⟨ki', ei'⟩ := List.getElem?_eq_some_iff.1 hi'
  obtain ⟨row, a1, -, a2⟩ := h3 i ki l (by rw [ei]; exact hl)
  obtain ⟨row', b1, -, b2⟩ := h3' i' ki' _ (by rw [ei']; exact hl')
  refine ⟨rows, rows', row, row', h1, h1', a1, b1, fun j => ?_⟩
  obtain ⟨x0, hx0, hv0⟩ := hex
  have hne : l ≠ [] := List.ne_nil_of_mem ((hl.2 x0).2 ⟨mem_pixels.1 hx0, hv0⟩)
  have ra : row j = _ := a2 (fun _ => false) j
  have rb : row' j = _ := b2 (fun _ => false) j
  have e : (l.map (move · b)).map (coords n) = (l.map (coords n)).map fun p (j : Fin n) => p j + ((b.getD j 0 : Int) : ℝ) := by
    rw [List.map_map, List.map_map]
    refine List.map_congr_left fun x hx => funext fun k => ?_
    have := ((hl.2 x).1 hx).1.length_eq
    exact coords_move (by rw [(room_length h.room).2, hn]) (by omega) k
  rw [ra, rb, e, C49_mean _ (box n labels'.shape) _ (by simpa using hne), ← C49_mean (fun _ => false) (box n labels.shape) _
    (by simpa using hne)]
  exact C49_shift _ _ _ _ (by simpa using hne) (fun j => ((b.getD j 0 : Int) : ℝ)) j

theorem weighted_shift (t : ℝ) : ∀ (w q : List ℝ), w.length = q.length →
    ((List.zip w (q.map (· + t))).map fun p => p.1 * p.2).sum = ((List.zip w q).map fun p => p.1 * p.2).sum + w.sum * t
  | [], [], _ => by simp
  | a :: w, c :: q, h => by
    have ih := weighted_shift t w q (by simpa using h)
    simp only [List.map_cons, List.zip_cons_cons, List.sum_cons] at ih ⊢
    rw [ih]
    ring

/-- C133 for `labels_centers_of_mass`, if the pixels have the same weights; whatever the other weights. -/
theorem C133_mass (dbg dbg' : Bool) (negative negative' : Nat → Fin n → Bool) (h : Spec.Located b name labels labels')
    (h0 : 0 < n) (hn : labels.shape.length = n) (hn' : labels'.shape.length = n) {weights weights' : Nd ℝ}
    (hw : weights.shape = labels.shape) (hw' : weights'.shape = labels'.shape)
    (hww : ∀ x ∈ pixels labels.shape, val labels x = name → val weights' (move x b) = val weights x)
    (hex : ∀ l, Enumerates labels name l → (l.map (val weights)).sum ≠ 0) {names names' : List Int} {i i' : Nat}
    (hi : names[i]? = some name) (hi' : names'[i']? = some name) :
    ∃ rows rows' row row', labelsCentersOfMass dbg negative labels hn weights names false = ok rows ∧
      labelsCentersOfMass dbg' negative' labels' hn' weights' names' false = ok rows' ∧ rows[i]? = some row ∧
      rows'[i']? = some row' ∧ ∀ j : Fin n, row' j = row j + ((b.getD j 0 : Int) : ℝ) := by
  obtain ⟨rows, h1, h2, h3⟩ := C52_mass dbg negative labels hn h0 weights hw names false
  obtain ⟨rows', h1', h2', h3'⟩ := C52_mass dbg' negative' labels' hn' h0 weights' hw' names' false
  obtain ⟨l, hl⟩ := C52_enumerates labels name
  have hl' := located_enumerates h hl
  obtain ⟨ki, ei⟩ := List.getElem?_eq_some_iff.1 hi
  obtain ⟨ki', ei'⟩ := List.getElem?_eq_some_iff.1 hi'
  obtain ⟨row, a1, -, a2⟩ := h3 i ki l (by rw [ei]; exact hl)
  obtain ⟨row', b1, -, b2⟩ := h3' i' ki' _ (by rw [ei']; exact hl')
  refine ⟨rows, rows', row, row', h1, h1', a1, b1, fun j => ?_⟩
  have hsum := hex l hl
  have hne : l ≠ [] := by rintro rfl; simp at hsum
  have ra : row j = _ := a2 (fun _ => false) j
  have rb : row' j = _ := b2 (fun _ => false) j
  have ew : (l.map (move · b)).map (val weights') = l.map (val weights) := by
    rw [List.map_map]
    refine List.map_congr_left fun x hx => ?_
    have := (hl.2 x).1 hx
    exact hww x (mem_pixels.2 this.1) this.2
  have e : column ((l.map (move · b)).map (coords n)) j = (column (l.map (coords n)) j).map (· + ((b.getD j 0 : Int) : ℝ)) := by
    unfold column
    rw [List.map_map, List.map_map, List.map_map, List.map_map]
    refine List.map_congr_left fun x hx => ?_
    have := ((hl.2 x).1 hx).1.length_eq
    exact coords_move (by rw [(room_length h.room).2, hn]) (by omega) j
  rw [ra, rb, C51_flat _ _ _ _ (by simpa using hne), C51_flat _ _ _ _ (by simpa using hne), e, ew,
    weighted_shift _ _ _ (by simp [column])]
  field_simp

/-- A pixel in the corner, and the image in a larger one with other labels around it. -/
example : Spec.Located [1, 2] 7 (Nd.ofList [2, 2] [7, 0, 3, 7]) (Nd.ofList [3, 4] [0, 9, 0, 0, 1, 0, 7, 0, 0, 0, 3, 7]) ∧
    ∃ x ∈ pixels [2, 2], val (Nd.ofList [2, 2] [7, 0, 3, 7]) x = 7 := by
  refine ⟨⟨?_, ?_, ?_⟩, ?_⟩
  · show Room false [2, 2] [3, 4] [1, 2]
    simp [Room]
  · decide +kernel
  · decide +kernel
  · decide +kernel

/-- Weights one: the sum of the weights is not zero. -/
example : ∀ l, Enumerates (Nd.ofList [2, 2] [7, 0, 3, 7]) 7 l → (l.map (val (Nd.fill [2, 2] (1 : ℝ)))).sum ≠ 0 := by
  intro l hl
  have e : l.map (val (Nd.fill [2, 2] (1 : ℝ))) = l.map fun _ => (1 : ℝ) := List.map_congr_left fun _ _ => rfl
  have : l ≠ [] := List.ne_nil_of_mem ((hl.2 [0, 0]).2 ⟨mem_pixels.1 (by decide), by decide⟩)
  rw [e]
  simpa using this

end Verif.Props
