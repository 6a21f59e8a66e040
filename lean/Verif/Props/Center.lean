import Verif.Lemmas.Center
import Mathlib.Analysis.Real.Pi.Bounds
import Mathlib.Tactic.NormNum
import Mathlib.Tactic.FinCases

/-!
# Properties of `center`, `center_of_mass`, `labels_centers` and `labels_centers_of_mass`

Numbers are real. `s` (and `s'`) is the sign of the zeros that `atan2` gets: the theorems hold for every
choice.
-/

namespace Verif.Props

open Verif Spec Center Real

variable {n : Nat}

/-! ### C49: without periodicity -/

/-- Without periodicity: the mean of every coordinate. -/
theorem C49_mean (s : Fin n → Bool) (shape : Fin n → ℝ) (ps : List (Fin n → ℝ)) (h : ps ≠ []) (j : Fin n) :
    center s shape ps false j = (column ps j).sum / ps.length :=
  center_flat s shape h j

/-- The order of the positions does not matter. -/
theorem C49_perm (s s' : Fin n → Bool) (shape : Fin n → ℝ) (ps qs : List (Fin n → ℝ)) (h : ps.Perm qs) :
    center s shape ps false = center s' shape qs false := by
  rw [center_perm s shape false h]
  rfl

/-- A translation of all positions translates the centre. -/
theorem C49_shift (s s' : Fin n → Bool) (shape : Fin n → ℝ) (ps : List (Fin n → ℝ)) (h : ps ≠ []) (t : Fin n → ℝ)
    (j : Fin n) :
    center s shape (ps.map fun p j => p j + t j) false j = center s' shape ps false j + t j := by
  rw [center_flat s shape (by simpa using h), center_flat s' shape h]
  have hl : (0 : ℝ) < ps.length := by exact_mod_cast List.length_pos_iff.2 h
  have e : ∀ l : List (Fin n → ℝ), (column (l.map fun p j => p j + t j) j).sum =
      (column l j).sum + l.length * t j := by
    intro l
    induction l with
    | nil => simp [column]
    | cons p l ih =>
      simp only [column, List.map_cons, List.sum_cons, List.length_cons] at ih ⊢
      rw [ih]
      push_cast
      ring
  rw [e, List.length_map]
  field_simp

/-- No positions: zeros. -/
theorem C49_empty (s : Fin n → Bool) (shape : Fin n → ℝ) (periodic : Bool) (j : Fin n) :
    center s shape [] periodic j = 0 :=
  center_nil s shape periodic j

example : center (fun _ : Fin 2 => false) ![5, 5] [![0, 1], ![2, 4]] false = ![1, 5 / 2] := by
  funext j
  rw [C49_mean _ _ _ (by simp)]
  fin_cases j <;> norm_num [column]

/-! ### C50: periodic -/

/-- The centre is in the box. -/
theorem C50_range (s : Fin n → Bool) (shape : Fin n → ℝ) (ps : List (Fin n → ℝ)) (j : Fin n) (hL : 0 < shape j) :
    0 ≤ center s shape ps true j ∧ center s shape ps true j ≤ shape j := by
  by_cases h : ps = []
  · subst h
    rw [center_nil]
    exact ⟨le_refl _, hL.le⟩
  · rw [center_comp s shape h]
    exact circ_range _ hL _ _

/-- The centre is the direction of the sum of the positions as vectors on the circle. -/
theorem C50_mean (s : Fin n → Bool) (shape : Fin n → ℝ) (ps : List (Fin n → ℝ)) (j : Fin n) (hL : 0 < shape j)
    (hd : HasDirection (shape j) (unweighted (column ps j))) :
    IsCircularMean (shape j) (unweighted (column ps j)) (center s shape ps true j) := by
  have h : ps ≠ [] := by
    rintro rfl
    exact hd ⟨rfl, rfl⟩
  rw [center_comp s shape h]
  exact circ_isMean _ hL (by exact_mod_cast List.length_pos_iff.2 h) hd

/-- A translation of all positions translates the centre, modulo the box. -/
theorem C50_shift (s s' : Fin n → Bool) (shape : Fin n → ℝ) (ps : List (Fin n → ℝ)) (t : Fin n → ℝ) (j : Fin n)
    (hL : 0 < shape j) (hd : HasDirection (shape j) (unweighted (column ps j))) :
    SameMod (shape j) (center s shape (ps.map fun p j => p j + t j) true j) (center s' shape ps true j + t j) := by
  have h : ps ≠ [] := by
    rintro rfl
    exact hd ⟨rfl, rfl⟩
  have hl : (0 : ℝ) < ps.length := by exact_mod_cast List.length_pos_iff.2 h
  rw [center_comp s shape (by simpa using h), center_comp s' shape h]
  have e : unweighted (column (ps.map fun p j => p j + t j) j) =
      (unweighted (column ps j)).map fun p => (p.1, p.2 + t j) := by
    simp [unweighted, column]
  rw [e, List.length_map]
  exact circ_shift _ _ hL hl.ne' hd

/-- Moving positions by multiples of the box does not matter. -/
theorem C50_wrap (s s' : Fin n → Bool) (shape : Fin n → ℝ) (ps qs : List (Fin n → ℝ)) (j : Fin n)
    (hL : 0 < shape j) (h : List.Forall₂ (fun p q => SameMod (shape j) (p j) (q j)) ps qs) :
    SameMod (shape j) (center s shape ps true j) (center s' shape qs true j) := by
  by_cases hp : ps = []
  · subst hp
    cases h
    rw [center_nil, center_nil]
    exact SameMod.refl _ _
  · have hq : qs ≠ [] := by
      rintro rfl
      cases h
      exact hp rfl
    rw [center_comp s shape hp, center_comp s' shape hq]
    have hs : SameModList (shape j) (unweighted (column ps j)) (unweighted (column qs j)) := by
      unfold SameModList unweighted column
      rw [List.map_map, List.map_map, List.forall₂_map_left_iff, List.forall₂_map_right_iff]
      exact h.imp fun a b hab => ⟨rfl, hab⟩
    rw [(sums_same hL hs).1, (sums_same hL hs).2, h.length_eq]
    exact circ_sign _ _ hL _ _

/-- A position, repeated any number of times, is its own centre. -/
theorem C50_single (s : Fin n → Bool) (shape : Fin n → ℝ) (ps : List (Fin n → ℝ)) (h : ps ≠ []) (x : ℝ)
    (j : Fin n) (hL : 0 < shape j) (hx : ∀ p ∈ ps, SameMod (shape j) (p j) x) :
    SameMod (shape j) (center s shape ps true j) x := by
  have hl : (0 : ℝ) < ps.length := by exact_mod_cast List.length_pos_iff.2 h
  rw [center_comp s shape h]
  have e : ∀ l : List (Fin n → ℝ), (∀ p ∈ l, SameMod (shape j) (p j) x) →
      cosSum (shape j) (unweighted (column l j)) = l.length * cos (2 * π * x / shape j) ∧
      sinSum (shape j) (unweighted (column l j)) = l.length * sin (2 * π * x / shape j) := by
    intro l
    induction l with
    | nil => simp [column, unweighted, cosSum, sinSum]
    | cons p l ih =>
      intro hl
      have := ih fun q hq => hl q (List.mem_cons_of_mem _ hq)
      have hp := hl p List.mem_cons_self
      simp only [cosSum, sinSum, unweighted, column, List.map_cons, List.sum_cons, List.length_cons] at this ⊢
      rw [this.1, this.2, cos_same hL hp, sin_same hL hp]
      push_cast
      constructor <;> ring
  rw [(e ps hx).1, (e ps hx).2]
  refine circ_unique _ hL one_pos ?_ ?_
  · field_simp
  · field_simp

/-- The order of the positions does not matter. -/
theorem C50_perm (s s' : Fin n → Bool) (shape : Fin n → ℝ) (ps qs : List (Fin n → ℝ)) (h : ps.Perm qs) (j : Fin n)
    (hL : 0 < shape j) : SameMod (shape j) (center s shape ps true j) (center s' shape qs true j) := by
  rw [center_perm s shape true h]
  exact center_sign s s' shape qs true j hL

/-- Positions whose vectors cancel have no direction: the code returns the middle of the box. -/
theorem C50_cancel (s : Fin n → Bool) (shape : Fin n → ℝ) (ps : List (Fin n → ℝ)) (h : ps ≠ []) (j : Fin n)
    (hd : ¬ HasDirection (shape j) (unweighted (column ps j))) :
    center s shape ps true j = shape j / 2 := by
  have hd := not_not.1 hd
  rw [center_comp s shape h, hd.1, hd.2, zero_div, circ_zero]

/-- Two pixels on either side of the boundary of a box of size 8: there is a direction. -/
example : HasDirection 8 (unweighted (column [(![0] : Fin 1 → ℝ), ![6]] 0)) := by
  rintro ⟨-, h⟩
  simp only [sinSum, unweighted, column, List.map_cons, List.map_nil, List.sum_cons, List.sum_nil,
    Matrix.cons_val_zero] at h
  rw [show 2 * π * 6 / 8 = π / 2 + π by ring, sin_add_pi, sin_pi_div_two] at h
  norm_num at h

/-! ### C51: weights -/

/-- Without periodicity: the weighted mean of every coordinate. -/
theorem C51_flat (s : Fin n → Bool) (shape : Fin n → ℝ) (ps : List (Fin n → ℝ)) (w : List ℝ) (h : ps ≠ [])
    (j : Fin n) :
    centerOfMass s shape ps w false j = ((List.zip w (column ps j)).map fun p => p.1 * p.2).sum / w.sum :=
  com_flat s shape w h j

/-- Periodic: the direction of the weighted sum of the positions as vectors on the circle. -/
theorem C51_mean (s : Fin n → Bool) (shape : Fin n → ℝ) (ps : List (Fin n → ℝ)) (w : List ℝ) (j : Fin n)
    (hL : 0 < shape j) (hw : 0 < w.sum) (hd : HasDirection (shape j) (List.zip w (column ps j))) :
    IsCircularMean (shape j) (List.zip w (column ps j)) (centerOfMass s shape ps w true j) := by
  have h : ps ≠ [] := by
    rintro rfl
    refine hd ?_
    simp [column, cosSum, sinSum]
  rw [com_comp s shape w h]
  exact circ_isMean _ hL hw hd

/-- Equal weights: `center`. -/
theorem C51_equal (s s' : Fin n → Bool) (shape : Fin n → ℝ) (ps : List (Fin n → ℝ)) (c : ℝ) (hc : c ≠ 0)
    (periodic : Bool) (j : Fin n) (hL : 0 < shape j) :
    SameIn periodic (shape j) (centerOfMass s shape ps (List.replicate ps.length c) periodic j)
      (center s' shape ps periodic j) := by
  rw [com_equal s shape ps hc]
  exact center_sign s s' shape ps periodic j hL

/-- Scaling the weights does not matter. -/
theorem C51_scale (s s' : Fin n → Bool) (shape : Fin n → ℝ) (ps : List (Fin n → ℝ)) (w : List ℝ) (c : ℝ)
    (hc : c ≠ 0) (periodic : Bool) (j : Fin n) (hL : 0 < shape j) :
    SameIn periodic (shape j) (centerOfMass s shape ps (w.map fun a => c * a) periodic j)
      (centerOfMass s' shape ps w periodic j) := by
  have key : ∀ l : List ℝ, Center.average l (w.map fun a => c * a) = Center.average l w := by
    intro l
    unfold Center.average
    have e1 : (w.map fun a => c * a).sum = c * w.sum := by
      induction w with
      | nil => simp
      | cons a w ih => simp only [List.map_cons, List.sum_cons, ih]; ring
    have e2 : ∀ (w l : List ℝ), (List.zipWith (fun w x => w * x) (w.map fun a => c * a) l).sum =
        c * (List.zipWith (fun w x => w * x) w l).sum := by
      intro w
      induction w with
      | nil => simp
      | cons a w ih =>
        intro l
        cases l with
        | nil => simp
        | cons x l =>
          simp only [List.map_cons, List.zipWith_cons_cons, List.sum_cons, ih]
          ring
    rw [e1, e2, mul_div_mul_left _ _ hc]
  have e : centerOfMass s shape ps (w.map fun a => c * a) periodic = centerOfMass s shape ps w periodic := by
    unfold centerOfMass
    simp only [key]
  rw [e]
  exact com_sign s s' shape ps w periodic j hL

/-- A position of weight zero does not matter. -/
theorem C51_zero (s s' : Fin n → Bool) (shape : Fin n → ℝ) (ps qs : List (Fin n → ℝ)) (p : Fin n → ℝ)
    (u v : List ℝ) (hu : u.length = ps.length) (hv : v.length = qs.length) (hw : (u ++ v).sum ≠ 0)
    (periodic : Bool) (j : Fin n) (hL : 0 < shape j) :
    SameIn periodic (shape j) (centerOfMass s shape (ps ++ p :: qs) (u ++ 0 :: v) periodic j)
      (centerOfMass s' shape (ps ++ qs) (u ++ v) periodic j) := by
  have hne : ps ++ qs ≠ [] := by
    intro e
    rw [List.append_eq_nil_iff] at e
    rw [e.1, List.length_nil, List.length_eq_zero_iff] at hu
    rw [e.2, List.length_nil, List.length_eq_zero_iff] at hv
    rw [hu, hv] at hw
    exact hw rfl
  rw [com_ext s shape periodic (by simp) hne (v := u ++ v) (by simp) (fun f => by
    rw [List.zipWith_append hu, List.zipWith_append hu, List.zipWith_cons_cons]
    simp)]
  exact com_sign s s' shape _ _ periodic j hL

/-- Merging two positions that are equal, adding their weights, does not matter. -/
theorem C51_merge (s s' : Fin n → Bool) (shape : Fin n → ℝ) (ps qs rs : List (Fin n → ℝ)) (p : Fin n → ℝ)
    (u v w : List ℝ) (a b : ℝ) (hu : u.length = ps.length) (hv : v.length = qs.length)
    (periodic : Bool) (j : Fin n) (hL : 0 < shape j) :
    SameIn periodic (shape j)
      (centerOfMass s shape (ps ++ p :: qs ++ p :: rs) (u ++ a :: v ++ b :: w) periodic j)
      (centerOfMass s' shape (ps ++ p :: qs ++ rs) (u ++ (a + b) :: v ++ w) periodic j) := by
  rw [com_ext s shape periodic (by simp) (by simp) (qs := ps ++ p :: qs ++ rs) (v := u ++ (a + b) :: v ++ w)
    (by simp only [List.append_assoc, List.cons_append, List.sum_append, List.sum_cons]; ring) (fun f => by
    simp only [List.append_assoc, List.cons_append, List.zipWith_append hu, List.zipWith_cons_cons,
      List.zipWith_append hv, List.sum_append, List.sum_cons]
    ring)]
  exact com_sign s s' shape _ _ periodic j hL

/-- The order of the positions, with their weights, does not matter. -/
theorem C51_perm (s s' : Fin n → Bool) (shape : Fin n → ℝ) (ps qs : List (Fin n → ℝ)) (w v : List ℝ)
    (hw : w.length = ps.length) (hv : v.length = qs.length) (h : (List.zip w ps).Perm (List.zip v qs))
    (periodic : Bool) (j : Fin n) (hL : 0 < shape j) :
    SameIn periodic (shape j) (centerOfMass s shape ps w periodic j) (centerOfMass s' shape qs v periodic j) := by
  rw [com_perm s shape periodic hw hv h]
  exact com_sign s s' shape _ _ periodic j hL

/-- A translation of all positions translates the centre, modulo the box. -/
theorem C51_shift (s s' : Fin n → Bool) (shape : Fin n → ℝ) (ps : List (Fin n → ℝ)) (w : List ℝ) (t : Fin n → ℝ)
    (j : Fin n) (hL : 0 < shape j) (hw : w.sum ≠ 0) (hd : HasDirection (shape j) (List.zip w (column ps j))) :
    SameMod (shape j) (centerOfMass s shape (ps.map fun p j => p j + t j) w true j)
      (centerOfMass s' shape ps w true j + t j) := by
  have h : ps ≠ [] := by
    rintro rfl
    refine hd ?_
    simp [column, cosSum, sinSum]
  rw [com_comp s shape w (by simpa using h), com_comp s' shape w h]
  have e : List.zip w (column (ps.map fun p j => p j + t j) j) =
      (List.zip w (column ps j)).map fun p => (p.1, p.2 + t j) := by
    simp only [column, List.map_map, Function.comp_def, List.zip_map_right]
    simp [Prod.map]
  rw [e]
  exact circ_shift _ _ hL hw hd

example : centerOfMass (fun _ : Fin 1 => false) ![5] [![0], ![2]] [1, 3] false = ![3 / 2] := by
  funext j
  rw [C51_flat _ _ _ _ (by simp)]
  fin_cases j
  norm_num [column]

/-! ### C52: per label -/

/-- Row `i` of `labels_centers` is the centre of the pixels with label `names[i]`, whatever their order. -/
theorem C52_centers (dbg : Bool) (negative : Nat → Fin n → Bool) (labels : Nd Int)
    (hn : labels.shape.length = n) (h0 : 0 < n) (names : List Int) (periodic : Bool) :
    ∃ rows, labelsCenters dbg negative labels hn names periodic = .ok rows ∧ rows.length = names.length ∧
      ∀ i (hi : i < names.length) (l : List (List Int)), Enumerates labels names[i] l →
        ∃ row, rows[i]? = some row ∧ (l = [] → ∀ j, row j = 0) ∧ ∀ s j,
          SameIn periodic (box n labels.shape j) (row j)
            (center s (box n labels.shape) (l.map (coords n)) periodic j) := by
  obtain ⟨rows, h1, h2, h3⟩ := labelsCenters_ok dbg negative labels hn h0 names periodic
  refine ⟨rows, h1, h2, fun i hi l hl => ⟨_, h3 i hi, fun e j => ?_, fun s j => ?_⟩⟩
  · have := argwhere_perm hl
    rw [e, List.perm_nil] at this
    rw [this]
    exact center_nil _ _ _ _
  · rw [center_perm _ _ periodic ((argwhere_perm hl).map (coords n))]
    cases l with
    | nil =>
      rw [List.map_nil, center_nil, center_nil]
      exact SameIn.refl _ _ _
    | cons x l =>
      exact center_sign _ _ _ _ _ _ (box_pos hn ((hl.2 x).1 List.mem_cons_self).1 j)

/-- Row `i` of `labels_centers_of_mass` is the centre of mass of the pixels with label `names[i]`, with
their weights. -/
theorem C52_mass (dbg : Bool) (negative : Nat → Fin n → Bool) (labels : Nd Int)
    (hn : labels.shape.length = n) (h0 : 0 < n) (weights : Nd ℝ) (hw : weights.shape = labels.shape)
    (names : List Int) (periodic : Bool) :
    ∃ rows, labelsCentersOfMass dbg negative labels hn weights names periodic = .ok rows ∧
      rows.length = names.length ∧
      ∀ i (hi : i < names.length) (l : List (List Int)), Enumerates labels names[i] l →
        ∃ row, rows[i]? = some row ∧ (l = [] → ∀ j, row j = 0) ∧ ∀ s j,
          SameIn periodic (box n labels.shape j) (row j)
            (centerOfMass s (box n labels.shape) (l.map (coords n)) (l.map (val weights)) periodic j) := by
  obtain ⟨rows, h1, h2, h3⟩ := labelsCentersOfMass_ok dbg negative labels hn h0 weights hw names periodic
  refine ⟨rows, h1, h2, fun i hi l hl => ⟨_, h3 i hi, fun e j => ?_, fun s j => ?_⟩⟩
  · have := argwhere_perm hl
    rw [e, List.perm_nil] at this
    rw [this]
    exact com_nil _ _ _ _ _
  · have hp : ∀ l : List (List Int), List.zip (l.map (val weights)) (l.map (coords n)) =
        l.map fun x => (val weights x, coords n x) := by
      intro l
      rw [List.zip_map']
    rw [com_perm _ _ periodic (qs := l.map (coords n)) (v := l.map (val weights)) (by simp) (by simp) (by
      rw [hp, hp]
      exact (argwhere_perm hl).map _)]
    cases l with
    | nil =>
      rw [List.map_nil, com_nil, com_nil]
      exact SameIn.refl _ _ _
    | cons x l =>
      exact com_sign _ _ _ _ _ _ _ (box_pos hn ((hl.2 x).1 List.mem_cons_self).1 j)

/-- The pixels of a label can be enumerated (so that `C52_centers` and `C52_mass` say what every row is). -/
theorem C52_enumerates (labels : Nd Int) (name : Int) : ∃ l, Enumerates labels name l := by
  refine ⟨(pixels labels.shape).filter fun x => val labels x == name, (pixels_nodup _).filter _, fun x => ?_⟩
  rw [List.mem_filter, mem_pixels, beq_iff_eq]

/-- The row of a label depends only on the pixels that carry it: not on the other labels, nor on the other
names and their order. -/
theorem C52_independent (dbg dbg' : Bool) (negative negative' : Nat → Fin n → Bool) (labels labels' : Nd Int)
    (hn : labels.shape.length = n) (hn' : labels'.shape.length = n) (h0 : 0 < n) (names names' : List Int)
    (periodic : Bool) (hs : labels'.shape = labels.shape) (i i' : Nat) (name : Int) (hi : names[i]? = some name)
    (hi' : names'[i']? = some name)
    (hsame : ∀ x, InBox labels.shape x → (val labels x = name ↔ val labels' x = name)) :
    ∃ rows rows' row row', labelsCenters dbg negative labels hn names periodic = .ok rows ∧
      labelsCenters dbg' negative' labels' hn' names' periodic = .ok rows' ∧
      rows[i]? = some row ∧ rows'[i']? = some row' ∧
      ∀ j, SameIn periodic (box n labels.shape j) (row j) (row' j) := by
  obtain ⟨rows, h1, h2, h3⟩ := labelsCenters_ok dbg negative labels hn h0 names periodic
  obtain ⟨rows', h1', h2', h3'⟩ := labelsCenters_ok dbg' negative' labels' hn' h0 names' periodic
  rw [List.getElem?_eq_some_iff] at hi hi'
  obtain ⟨hl, rfl⟩ := hi
  obtain ⟨hl', e'⟩ := hi'
  refine ⟨rows, rows', _, _, h1, h1', h3 i hl, h3' i' hl', fun j => ?_⟩
  obtain ⟨l, hE⟩ := C52_enumerates labels names[i]
  have hE' : Enumerates labels' names'[i'] l := by
    refine ⟨hE.1, fun x => ?_⟩
    rw [hE.2, hs, e']
    constructor
    · rintro ⟨a, b⟩; exact ⟨a, (hsame x a).1 b⟩
    · rintro ⟨a, b⟩; exact ⟨a, (hsame x a).2 b⟩
  rw [center_perm _ _ periodic ((argwhere_perm hE).map (coords n)), hs,
    center_perm _ _ periodic ((argwhere_perm hE').map (coords n))]
  cases l with
  | nil =>
    rw [List.map_nil, center_nil, center_nil]
    exact SameIn.refl _ _ _
  | cons x l => exact center_sign _ _ _ _ _ _ (box_pos hn ((hE.2 x).1 List.mem_cons_self).1 j)

/-- Label 7 has two pixels. -/
example : Enumerates (Nd.ofList [2, 2] [7, 0, 3, 7]) 7 [[1, 1], [0, 0]] := by
  refine ⟨by decide, fun x => ?_⟩
  constructor
  · intro hx
    simp only [List.mem_cons, List.not_mem_nil, or_false] at hx
    rcases hx with rfl | rfl
    · exact ⟨.cons (by decide) (.cons (by decide) .nil), by decide⟩
    · exact ⟨.cons (by decide) (.cons (by decide) .nil), by decide⟩
  · rintro ⟨hx, hv⟩
    have hx := mem_pixels.2 hx
    have : ∀ y ∈ pixels [2, 2], val (Nd.ofList [2, 2] [7, 0, 3, 7]) y = (7 : Int) → y ∈ [[1, 1], [0, 0]] := by
      decide
    exact this x hx hv

/-! ### C61: the centre is among the positions -/

/-- If all positions are within `d`, less than a quarter of the box, of `a` (modulo the box), then so is the
centre. -/
theorem C61_arc (s : Fin n → Bool) (shape : Fin n → ℝ) (ps : List (Fin n → ℝ)) (h : ps ≠ []) (j : Fin n) (a d : ℝ)
    (hL : 0 < shape j) (h0 : 0 ≤ d) (h1 : d < shape j / 4)
    (hp : ∀ p ∈ ps, ∃ x, SameMod (shape j) (p j) x ∧ |x - a| ≤ d) :
    ∃ x, SameMod (shape j) (center s shape ps true j) x ∧ |x - a| ≤ d := by
  have hl : (0 : ℝ) < ps.length := by exact_mod_cast List.length_pos_iff.2 h
  rw [center_comp s shape h]
  refine circ_arc _ hL hl h0 h1 ?_ ?_
  · have : ((unweighted (column ps j)).map fun p => p.1).sum = (ps.length : ℝ) := by
      simp [unweighted, column, Function.comp_def]
    rw [this]
    exact hl
  · intro p hp'
    simp only [unweighted, column, List.map_map, List.mem_map, Function.comp] at hp'
    obtain ⟨q, hq, rfl⟩ := hp'
    exact ⟨zero_le_one, hp q hq⟩

/-- The same with weights. -/
theorem C61_mass (s : Fin n → Bool) (shape : Fin n → ℝ) (ps : List (Fin n → ℝ)) (w : List ℝ) (j : Fin n) (a d : ℝ)
    (hlen : w.length = ps.length) (hw : ∀ x ∈ w, 0 ≤ x) (hs : 0 < w.sum)
    (hL : 0 < shape j) (h0 : 0 ≤ d) (h1 : d < shape j / 4)
    (hp : ∀ p ∈ ps, ∃ x, SameMod (shape j) (p j) x ∧ |x - a| ≤ d) :
    ∃ x, SameMod (shape j) (centerOfMass s shape ps w true j) x ∧ |x - a| ≤ d := by
  have h : ps ≠ [] := by
    rintro rfl
    rw [List.length_nil, List.length_eq_zero_iff] at hlen
    rw [hlen] at hs
    exact lt_irrefl _ hs
  rw [com_comp s shape w h]
  refine circ_arc _ hL hs h0 h1 ?_ ?_
  · rw [List.map_fst_zip (by simp [column, hlen])]
    exact hs
  · intro p hp'
    have h1 := (List.of_mem_zip hp').1
    have h2 := (List.of_mem_zip hp').2
    simp only [column, List.mem_map] at h2
    obtain ⟨q, hq, e⟩ := h2
    rw [← e]
    exact ⟨hw _ h1, hp q hq⟩

/-- Pixels 7, 0, 1 of a box of size 8: within 1 of the boundary. -/
example : ∀ p ∈ [(![7] : Fin 1 → ℝ), ![0], ![1]], ∃ x, SameMod 8 (p 0) x ∧ |x - 0| ≤ 1 := by
  intro p hp
  simp only [List.mem_cons, List.not_mem_nil, or_false] at hp
  rcases hp with rfl | rfl | rfl
  · exact ⟨-1, ⟨1, by norm_num⟩, by norm_num⟩
  · exact ⟨0, ⟨0, by norm_num⟩, by norm_num⟩
  · exact ⟨1, ⟨0, by norm_num⟩, by norm_num⟩

/-! ### C62: periodicity and clusters away from the boundary -/

/-- Positions that are symmetric about `a`, within a quarter of the box, have their centre at `a` with and
without periodicity. *Missing:* positions that are not symmetric, see `C62_violated`. -/
theorem C62_partial (s s' : Fin n → Bool) (shape : Fin n → ℝ) (ps : List (Fin n → ℝ)) (h : ps ≠ []) (j : Fin n)
    (a d : ℝ) (hL : 0 < shape j) (h1 : d < shape j / 4) (hp : ∀ x ∈ column ps j, |x - a| ≤ d)
    (hsym : ((column ps j).map fun x => 2 * a - x).Perm (column ps j)) :
    center s' shape ps false j = a ∧
    SameMod (shape j) (center s shape ps true j) (center s' shape ps false j) := by
  have hl : (0 : ℝ) < ps.length := by exact_mod_cast List.length_pos_iff.2 h
  have hm : center s' shape ps false j = a := by
    rw [center_flat s' shape h]
    have e : ∀ l : List ℝ, (l.map fun x => 2 * a - x).sum = l.length * (2 * a) - l.sum := by
      intro l
      induction l with
      | nil => simp
      | cons x l ih =>
        simp only [List.map_cons, List.sum_cons, List.length_cons, ih]
        push_cast
        ring
    have := hsym.sum_eq
    rw [e, show (column ps j).length = ps.length by simp [column]] at this
    rw [div_eq_iff hl.ne']
    linarith
  refine ⟨hm, ?_⟩
  rw [hm]
  set l := unweighted (column ps j) with hl'
  set L := shape j
  have hc := cosSum_shift L (-a) l
  have hs := sinSum_shift L (-a) l
  have s0 : sinSum L (l.map fun p => (p.1, p.2 + -a)) = 0 := by
    have e1 : sinSum L (l.map fun p => (p.1, p.2 + -a)) =
        ((column ps j).map fun x => sin (2 * π * (x - a) / L)).sum := by
      simp only [sinSum, hl', unweighted, List.map_map, Function.comp_def, one_mul, sub_eq_add_neg]
    have e2 := (hsym.map fun x => sin (2 * π * (x - a) / L)).sum_eq
    rw [List.map_map] at e2
    have e3 : ((fun x => sin (2 * π * (x - a) / L)) ∘ fun x => 2 * a - x) =
        fun x => -sin (2 * π * (x - a) / L) := by
      funext x
      simp only [Function.comp]
      rw [← sin_neg]
      congr 1
      ring
    rw [e3] at e2
    have e4 : ∀ (m : List ℝ) (f : ℝ → ℝ), (m.map fun x => -f x).sum = -(m.map f).sum := by
      intro m f
      induction m with
      | nil => simp
      | cons x m ih => simp only [List.map_cons, List.sum_cons, ih]; ring
    rw [e4] at e2
    rw [e1]
    linarith
  have c0 : 0 < cosSum L (l.map fun p => (p.1, p.2 + -a)) := by
    have pp := pi_pos
    have e1 : cosSum L (l.map fun p => (p.1, p.2 + -a)) =
        ((column ps j).map fun x => cos (2 * π * (x - a) / L)).sum := by
      simp only [cosSum, hl', unweighted, List.map_map, Function.comp_def, one_mul, sub_eq_add_neg]
    rw [e1]
    refine List.sum_pos _ ?_ ?_
    · intro y hy
      rw [List.mem_map] at hy
      obtain ⟨x, hx, rfl⟩ := hy
      have hb := abs_le.1 (hp x hx)
      refine cos_pos_of_mem_Ioo ⟨?_, ?_⟩
      · rw [lt_div_iff₀ hL]
        nlinarith
      · rw [div_lt_iff₀ hL]
        nlinarith
    · simpa [column] using h
  rw [s0] at hs
  rw [hc] at c0
  rw [center_comp s shape h]
  set C := cosSum L l
  set S := sinSum L l
  set u := 2 * π * (-a) / L with hu
  have hua : 2 * π * a / L = -u := by rw [hu]; ring
  refine circ_unique (ρ := (cos u * C - sin u * S) / ps.length) _ hL (div_pos c0 hl) ?_ ?_
  · rw [hua, cos_neg, div_mul_eq_mul_div]
    congr 1
    have := sin_sq_add_cos_sq u
    linear_combination (-C) * this - sin u * hs
  · rw [hua, sin_neg, div_mul_eq_mul_div]
    congr 1
    have := sin_sq_add_cos_sq u
    linear_combination (-S) * this - cos u * hs

/-- Positions within `d`, less than a quarter of the box, of some `a`: the centre with periodicity differs from the centre
without by at most `16 π² d³ / (3 L²)`. *Missing:* equality, see `C62_violated`. -/
theorem C62_near_partial (s s' : Fin n → Bool) (shape : Fin n → ℝ) (ps : List (Fin n → ℝ)) (h : ps ≠ []) (j : Fin n)
    (a d : ℝ) (hL : 0 < shape j) (h0 : 0 ≤ d) (h1 : d < shape j / 4) (hp : ∀ p ∈ ps, |p j - a| ≤ d) :
    ∃ x, SameMod (shape j) (center s shape ps true j) x ∧
      |x - center s' shape ps false j| ≤ 16 * π ^ 2 / 3 * (d ^ 3 / shape j ^ 2) := by
  have hl : (0 : ℝ) < ps.length := by exact_mod_cast List.length_pos_iff.2 h
  have hw : ((unweighted (column ps j)).map fun p => p.1).sum = (ps.length : ℝ) := by
    simp [unweighted, column, Function.comp_def]
  have hx : ((unweighted (column ps j)).map fun p => p.1 * p.2).sum = (column ps j).sum := by
    simp [unweighted, Function.comp_def]
  rw [center_comp s shape h, center_flat s' shape h, ← hx, ← hw]
  refine circ_near (a := a) _ hL (by rw [hw]; exact hl) h0 h1 (by rw [hw]; exact hl) ?_
  intro p hp'
  simp only [unweighted, column, List.map_map, List.mem_map, Function.comp] at hp'
  obtain ⟨q, hq, rfl⟩ := hp'
  exact ⟨zero_le_one, hp q hq⟩

/-- The same with weights. -/
theorem C62_mass_partial (s s' : Fin n → Bool) (shape : Fin n → ℝ) (ps : List (Fin n → ℝ)) (w : List ℝ) (j : Fin n)
    (a d : ℝ) (hlen : w.length = ps.length) (hw : ∀ x ∈ w, 0 ≤ x) (hs : 0 < w.sum)
    (hL : 0 < shape j) (h0 : 0 ≤ d) (h1 : d < shape j / 4) (hp : ∀ p ∈ ps, |p j - a| ≤ d) :
    ∃ x, SameMod (shape j) (centerOfMass s shape ps w true j) x ∧
      |x - centerOfMass s' shape ps w false j| ≤ 16 * π ^ 2 / 3 * (d ^ 3 / shape j ^ 2) := by
  have h : ps ≠ [] := by
    rintro rfl
    rw [List.length_nil, List.length_eq_zero_iff] at hlen
    rw [hlen] at hs
    exact lt_irrefl _ hs
  have hz : ((List.zip w (column ps j)).map fun p => p.1).sum = w.sum := by
    rw [List.map_fst_zip (by simp [column, hlen])]
  rw [com_comp s shape w h, com_flat s' shape w h, ← hz]
  refine circ_near (a := a) _ hL (by rw [hz]; exact hs) h0 h1 (by rw [hz]; exact hs) ?_
  intro p hp'
  have h1 := (List.of_mem_zip hp').1
  have h2 := (List.of_mem_zip hp').2
  simp only [column, List.mem_map] at h2
  obtain ⟨q, hq, e⟩ := h2
  rw [← e]
  exact ⟨hw _ h1, hp q hq⟩

/-- Pixels 40 to 44 of 100: the difference is less than 0.05. -/
example : (∀ p ∈ [(![40] : Fin 1 → ℝ), ![41], ![44]], |p 0 - 42| ≤ 2) ∧ 16 * π ^ 2 / 3 * (2 ^ 3 / 100 ^ 2) < (0.05 : ℝ) := by
  refine ⟨?_, ?_⟩
  · intro p hp
    simp only [List.mem_cons, List.not_mem_nil, or_false] at hp
    rcases hp with rfl | rfl | rfl <;> norm_num [abs_le]
  · nlinarith [pi_le_four, pi_pos, Real.pi_lt_d2]

/-- The violated claim: for a cluster that stays away from the boundary periodicity does not matter. For
three pixels (1,1), (1,2), (2,1) in an image of 4 by 4 the periodic centre differs from the mean. -/
theorem C62_violated (s s' : Fin 2 → Bool) :
    ¬ SameMod 4 (center s ![4, 4] [![1, 1], ![1, 2], ![2, 1]] true 0)
      (center s' ![4, 4] [![1, 1], ![1, 2], ![2, 1]] false 0) := by
  rintro hk
  have hm : center s' ![4, 4] [![1, 1], ![1, 2], ![2, 1]] false 0 = 4 / 3 := by
    rw [C49_mean _ _ _ (by simp)]
    norm_num [column]
  rw [hm] at hk
  have c1 : cosSum 4 (unweighted (column [(![1, 1] : Fin 2 → ℝ), ![1, 2], ![2, 1]] 0)) = -1 := by
    simp only [cosSum, unweighted, column, List.map_cons, List.map_nil, List.sum_cons, List.sum_nil,
      Matrix.cons_val_zero]
    rw [show 2 * π * 1 / 4 = π / 2 by ring, show 2 * π * 2 / 4 = π by ring, cos_pi_div_two, cos_pi]
    norm_num
  have c2 : sinSum 4 (unweighted (column [(![1, 1] : Fin 2 → ℝ), ![1, 2], ![2, 1]] 0)) = 2 := by
    simp only [sinSum, unweighted, column, List.map_cons, List.map_nil, List.sum_cons, List.sum_nil,
      Matrix.cons_val_zero]
    rw [show 2 * π * 1 / 4 = π / 2 by ring, show 2 * π * 2 / 4 = π by ring, sin_pi_div_two, sin_pi]
    norm_num
  have hd : HasDirection 4 (unweighted (column [(![1, 1] : Fin 2 → ℝ), ![1, 2], ![2, 1]] 0)) := by
    rintro ⟨e, -⟩
    rw [c1] at e
    norm_num at e
  obtain ⟨-, -, ρ, hρ, m1, m2⟩ := C50_mean s ![4, 4] [![1, 1], ![1, 2], ![2, 1]] 0 (by norm_num) hd
  simp only [Matrix.cons_val_zero] at m1 m2
  rw [c1, cos_same (by norm_num) hk] at m1
  rw [c2, sin_same (by norm_num) hk] at m2
  rw [show 2 * π * (4 / 3) / 4 = π - π / 3 by ring] at m1 m2
  rw [cos_pi_sub, cos_pi_div_three] at m1
  rw [sin_pi_sub, sin_pi_div_three] at m2
  have hρ2 : ρ = 2 := by linarith
  rw [hρ2] at m2
  have h3 : √3 = 2 := by linarith
  have := Real.sq_sqrt (show (0 : ℝ) ≤ 3 by norm_num)
  rw [h3] at this
  norm_num at this

/-- A symmetric set that meets the hypotheses of `C62_partial`. -/
example : ((column [(![2] : Fin 1 → ℝ), ![3], ![4]] 0).map fun x => 2 * 3 - x).Perm
    (column [(![2] : Fin 1 → ℝ), ![3], ![4]] 0) := by
  have : ((column [(![2] : Fin 1 → ℝ), ![3], ![4]] 0).map fun x => 2 * 3 - x) = [4, 3, 2] := by
    norm_num [column]
  rw [this]
  have : column [(![2] : Fin 1 → ℝ), ![3], ![4]] 0 = [2, 3, 4] := by norm_num [column]
  rw [this]
  exact (List.reverse_perm [2, 3, 4])

end Verif.Props
