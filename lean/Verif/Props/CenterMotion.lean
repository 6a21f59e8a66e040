import Verif.Props.Center
import Verif.Props.Orientation

/-!
# Centres follow the image (C90)

If an image of labels is shifted (periodically), reflected along any axes, or its axes are permuted, the centres of its
labels are shifted, reflected, or permuted: modulo the box if periodic. The same for the clusters of an image, whose
numbers may change.
-/

namespace Verif.Props

open Verif Outcome Spec Ens Center Real

/-! ### Along one axis -/

theorem cosSum_neg (L : ℝ) (l : List (ℝ × ℝ)) : cosSum L (l.map fun p => (p.1, -p.2)) = cosSum L l := by
  unfold cosSum
  rw [List.map_map]
  congr 1
  refine List.map_congr_left fun p _ => ?_
  show p.1 * cos (2 * π * -p.2 / L) = _
  rw [show 2 * π * -p.2 / L = -(2 * π * p.2 / L) by ring, cos_neg]

theorem sinSum_neg (L : ℝ) (l : List (ℝ × ℝ)) : sinSum L (l.map fun p => (p.1, -p.2)) = -sinSum L l := by
  unfold sinSum
  rw [List.map_map]
  induction l with
  | nil => simp
  | cons p l ih =>
    rw [List.map_cons, List.sum_cons, ih, List.map_cons, List.sum_cons]
    show p.1 * sin (2 * π * -p.2 / L) + _ = _
    rw [show 2 * π * -p.2 / L = -(2 * π * p.2 / L) by ring, sin_neg]
    ring

theorem circ_neg (s s' : Bool) {L ξ ζ : ℝ} (hL : 0 < L) (h : ¬ (ξ = 0 ∧ ζ = 0)) :
    SameMod L (circ s L ξ (-ζ)) (-circ s' L ξ ζ) := by
  obtain ⟨ρ, hρ, h1, h2⟩ := circ_dir s' hL h
  generalize circ s' L ξ ζ = c at h1 h2
  refine circ_unique s hL hρ ?_ ?_
  · rw [show 2 * π * -c / L = -(2 * π * c / L) by ring, cos_neg, ← h1]
  · rw [show 2 * π * -c / L = -(2 * π * c / L) by ring, sin_neg, mul_neg, ← h2]

/-- Kept (`1`) or reflected (`-1`). -/
def IsSign (ε : ℝ) : Prop := ε = 1 ∨ ε = -1

theorem circ_moved (s s' : Bool) {L σ ε t : ℝ} (hL : 0 < L) (hσ : σ ≠ 0) (hε : IsSign ε) {l l' : List (ℝ × ℝ)}
    (hd : ¬ (ε = 1 ∧ t = 0) → HasDirection L l) (h : List.Forall₂ (fun p q => q.1 = p.1 ∧ SameMod L q.2 (ε * p.2 + t)) l l') :
    SameMod L (circ s L (cosSum L l' / σ) (sinSum L l' / σ)) (ε * circ s' L (cosSum L l / σ) (sinSum L l / σ) + t) := by
  have hsame : SameModList L l' (l.map fun p => (p.1, ε * p.2 + t)) := by
    unfold SameModList
    rw [List.forall₂_map_right_iff]
    exact h.flip
  obtain ⟨e1, e2⟩ := sums_same hL hsame
  by_cases hdir : HasDirection L l
  swap
  · obtain ⟨rfl, rfl⟩ := Classical.not_not.1 (fun k => hdir (hd k))
    have h0 := Classical.not_not.1 hdir
    have : (l.map fun p : ℝ × ℝ => (p.1, 1 * p.2 + 0)) = l := by simp
    rw [e1, e2, this, h0.1, h0.2, zero_div, circ_zero, circ_zero]
    exact ⟨0, by simp⟩
  replace hd := hdir
  have hd' : ¬ (cosSum L l / σ = 0 ∧ sinSum L l / σ = 0) := by
    rintro ⟨a, b⟩
    exact hd ⟨(div_eq_zero_iff.1 a).resolve_right hσ, (div_eq_zero_iff.1 b).resolve_right hσ⟩
  have hsplit : (l.map fun p => (p.1, ε * p.2 + t)) = ((l.map fun p => (p.1, ε * p.2)).map fun p => (p.1, p.2 + t)) := by
    rw [List.map_map]; rfl
  rw [e1, e2, hsplit, cosSum_shift, sinSum_shift]
  rcases hε with rfl | rfl
  · have : (l.map fun p : ℝ × ℝ => (p.1, 1 * p.2)) = l := by simp
    rw [this, one_mul]
    have := circ_rotate s s' (t := t) hL hd'
    convert this using 2 <;> ring
  · have e : (l.map fun p : ℝ × ℝ => (p.1, -1 * p.2)) = l.map fun p => (p.1, -p.2) := by simp
    rw [e, cosSum_neg, sinSum_neg]
    have h1 := circ_neg false s' hL hd'
    have h2 := circ_rotate s false (t := t) hL (ξ := cosSum L l / σ) (ζ := -(sinSum L l / σ)) (by simpa using hd')
    obtain ⟨k, hk⟩ := h1
    obtain ⟨m, hm⟩ := h2
    refine ⟨k + m, ?_⟩
    rw [hk] at hm
    push_cast
    have : circ s L ((cos (2 * π * t / L) * cosSum L l - sin (2 * π * t / L) * -sinSum L l) / σ)
        ((cos (2 * π * t / L) * -sinSum L l + sin (2 * π * t / L) * cosSum L l) / σ) =
        circ s L (cos (2 * π * t / L) * (cosSum L l / σ) - sin (2 * π * t / L) * -(sinSum L l / σ))
        (cos (2 * π * t / L) * -(sinSum L l / σ) + sin (2 * π * t / L) * (cosSum L l / σ)) := by
      congr 1 <;> ring
    rw [this, hm]
    ring

/-! ### Positions -/

variable {n n' : Nat}

/-- Component `j'` of the centre of mass of `qs` follows component `j` of that of `ps`, if the positions do. -/
theorem com_moved (s : Fin n → Bool) (s' : Fin n' → Bool) {shape : Fin n → ℝ} {shape' : Fin n' → ℝ} {j : Fin n}
    {j' : Fin n'} (hs : shape' j' = shape j) (hL : 0 < shape j) {ε t : ℝ} (hε : IsSign ε) {periodic : Bool}
    {ps : List (Fin n → ℝ)} {qs : List (Fin n' → ℝ)} {w : List ℝ} (hne : ps ≠ []) (hlen : w.length = ps.length)
    (hw : w.sum ≠ 0) (hd : periodic = true → ¬ (ε = 1 ∧ t = 0) → HasDirection (shape j) (List.zip w (column ps j)))
    (h : List.Forall₂ (fun p q => SameIn periodic (shape j) (q j') (ε * p j + t)) ps qs) :
    SameIn periodic (shape j) (centerOfMass s' shape' qs w periodic j')
      (ε * centerOfMass s shape ps w periodic j + t) := by
  have hl := h.length_eq
  have hne' : qs ≠ [] := by
    rintro rfl
    exact hne (List.length_eq_zero_iff.1 hl)
  cases periodic with
  | true =>
    show SameMod _ _ _
    rw [com_comp s shape w hne, com_comp s' shape' w hne', hs]
    refine circ_moved _ _ hL hw hε (hd rfl) ?_
    clear hd hne hne' hw
    induction h generalizing w with
    | nil => simp [column]
    | cons hp _ ih =>
      cases w with
      | nil => simp at hlen
      | cons a w =>
        simp only [column, List.map_cons, List.zip_cons_cons]
        exact .cons ⟨rfl, hp⟩ (ih (by simpa using hlen) (by simpa using hl))
  | false =>
    show _ = _
    rw [com_flat s shape w hne, com_flat s' shape' w hne']
    have : ((List.zip w (column qs j')).map fun p => p.1 * p.2).sum =
        ε * ((List.zip w (column ps j)).map fun p => p.1 * p.2).sum + t * w.sum := by
      clear hd hne hne' hw
      induction h generalizing w with
      | nil =>
        have : w = [] := List.length_eq_zero_iff.1 (by simpa using hlen)
        simp [column, this]
      | cons hp _ ih =>
        cases w with
        | nil => simp at hlen
        | cons a w =>
          have := ih (w := w) (by simpa using hlen) (by simpa using hl)
          simp only [column, List.map_cons, List.zip_cons_cons, List.sum_cons] at this ⊢
          rw [this, show _ = _ from hp]
          ring
    rw [this]
    field_simp

/-- The same for the centre. -/
theorem center_moved (s : Fin n → Bool) (s' : Fin n' → Bool) {shape : Fin n → ℝ} {shape' : Fin n' → ℝ} {j : Fin n}
    {j' : Fin n'} (hs : shape' j' = shape j) (hL : 0 < shape j) {ε t : ℝ} (hε : IsSign ε) {periodic : Bool}
    {ps : List (Fin n → ℝ)} {qs : List (Fin n' → ℝ)} (hne : ps ≠ [])
    (hd : periodic = true → ¬ (ε = 1 ∧ t = 0) → HasDirection (shape j) (unweighted (column ps j)))
    (h : List.Forall₂ (fun p q => SameIn periodic (shape j) (q j') (ε * p j + t)) ps qs) :
    SameIn periodic (shape j) (center s' shape' qs periodic j') (ε * center s shape ps periodic j + t) := by
  have hz : List.zip (List.replicate ps.length (1 : ℝ)) (column ps j) = unweighted (column ps j) := by
    have : ∀ l : List (Fin n → ℝ), List.zip (List.replicate l.length (1 : ℝ)) (column l j) = unweighted (column l j) := by
      intro l
      induction l with
      | nil => rfl
      | cons p l ih =>
        simp only [column, unweighted, List.map_cons, List.length_cons, List.replicate_succ, List.zip_cons_cons] at ih ⊢
        rw [ih]
    exact this ps
  have := com_moved s s' hs hL hε (w := List.replicate ps.length 1) hne (by simp) (by simpa using hne)
    (fun k k' => by rw [hz]; exact hd k k') h
  rw [com_equal s shape ps one_ne_zero] at this
  rw [h.length_eq, com_equal s' shape' qs one_ne_zero] at this
  exact this

/-! ### Images of labels -/

/-- The pixels of the label have a direction along axis `j`: as vectors on a circle, they do not cancel. -/
def Directed (labels : Nd Int) (name : Int) (j : Nat) : Prop :=
  ∀ l, Enumerates labels name l →
    HasDirection (labels.shape.getD j 0) (unweighted (l.map fun x => ((x.getD j 0 : Int) : ℝ)))

/-- The same for pixels with weights. -/
def DirectedMass (labels : Nd Int) (weights : Nd ℝ) (name : Int) (j : Nat) : Prop :=
  ∀ l, Enumerates labels name l →
    HasDirection (labels.shape.getD j 0) (l.map fun x => (val weights x, ((x.getD j 0 : Int) : ℝ)))

/-- `τ` moves the pixels of label `name` of the first image to those of label `name'` of the second. -/
structure Follows (labels labels' : Nd Int) (name name' : Int) (τ τ' : List Int → List Int) : Prop where
  map : ∀ x, InBox labels.shape x → InBox labels'.shape (τ x)
  map' : ∀ y, InBox labels'.shape y → InBox labels.shape (τ' y)
  inv : ∀ x, InBox labels.shape x → τ' (τ x) = x
  inv' : ∀ y, InBox labels'.shape y → τ (τ' y) = y
  label : ∀ x, InBox labels.shape x → (val labels' (τ x) = name' ↔ val labels x = name)

theorem Follows.enumerates {labels labels' : Nd Int} {name name' : Int} {τ τ' : List Int → List Int}
    (h : Follows labels labels' name name' τ τ') {l : List (List Int)} (hl : Enumerates labels name l) :
    Enumerates labels' name' (l.map τ) := by
  refine ⟨?_, fun y => ?_⟩
  · refine List.Nodup.map_on ?_ hl.1
    intro x hx y hy e
    rw [← h.inv x ((hl.2 x).1 hx).1, ← h.inv y ((hl.2 y).1 hy).1, e]
  · rw [List.mem_map]
    constructor
    · rintro ⟨x, hx, rfl⟩
      have := (hl.2 x).1 hx
      exact ⟨h.map x this.1, (h.label x this.1).2 this.2⟩
    · rintro ⟨hy, hv⟩
      refine ⟨τ' y, (hl.2 _).2 ⟨h.map' y hy, ?_⟩, h.inv' y hy⟩
      rw [← h.label _ (h.map' y hy), h.inv' y hy, hv]

variable {labels labels' : Nd Int} {name name' : Int} {τ τ' : List Int → List Int} {names names' : List Int}
  {dbg dbg' periodic : Bool} {negative : Nat → Fin n → Bool} {negative' : Nat → Fin n' → Bool}

theorem SameIn.trans {p : Bool} {L a b c : ℝ} (h : SameIn p L a b) (h' : SameIn p L b c) : SameIn p L a c := by
  cases p with
  | true => exact SameMod.trans h h'
  | false => exact Eq.trans h h'

theorem SameIn.affine {p : Bool} {L a b ε t : ℝ} (hε : IsSign ε) (h : SameIn p L a b) :
    SameIn p L (ε * a + t) (ε * b + t) := by
  cases p with
  | true =>
    obtain ⟨k, hk⟩ := h
    rcases hε with rfl | rfl
    · exact ⟨k, by rw [hk]; ring⟩
    · exact ⟨-k, by rw [hk]; push_cast; ring⟩
  | false =>
    show _ = _
    rw [show a = b from h]

theorem SameIn.symm {p : Bool} {L a b : ℝ} (h : SameIn p L a b) : SameIn p L b a := by
  cases p with
  | true => exact SameMod.symm h
  | false => exact Eq.symm h

/-- With weights: the row of a label depends only on the pixels that carry it and on their weights. -/
theorem C52_mass_independent (dbg dbg' : Bool) (negative negative' : Nat → Fin n → Bool) (labels labels' : Nd Int)
    (hn : labels.shape.length = n) (hn' : labels'.shape.length = n) (h0 : 0 < n) (weights weights' : Nd ℝ)
    (hw : weights.shape = labels.shape) (hw' : weights'.shape = labels'.shape) (names names' : List Int)
    (periodic : Bool) (hs : labels'.shape = labels.shape) (i i' : Nat) (name : Int) (hi : names[i]? = some name)
    (hi' : names'[i']? = some name)
    (hsame : ∀ x, InBox labels.shape x → (val labels x = name ↔ val labels' x = name))
    (hsame' : ∀ x, InBox labels.shape x → val labels x = name → val weights x = val weights' x) :
    ∃ rows rows' row row', labelsCentersOfMass dbg negative labels hn weights names periodic = .ok rows ∧
      labelsCentersOfMass dbg' negative' labels' hn' weights' names' periodic = .ok rows' ∧
      rows[i]? = some row ∧ rows'[i']? = some row' ∧
      ∀ j, SameIn periodic (box n labels.shape j) (row j) (row' j) := by
  obtain ⟨rows, h1, -, h3⟩ := C52_mass dbg negative labels hn h0 weights hw names periodic
  obtain ⟨rows', h1', -, h3'⟩ := C52_mass dbg' negative' labels' hn' h0 weights' hw' names' periodic
  rw [List.getElem?_eq_some_iff] at hi hi'
  obtain ⟨hl, rfl⟩ := hi
  obtain ⟨hl', e'⟩ := hi'
  obtain ⟨l, hE⟩ := C52_enumerates labels names[i]
  have hE' : Enumerates labels' names'[i'] l := by
    refine ⟨hE.1, fun x => ?_⟩
    rw [hE.2, hs, e']
    constructor
    · rintro ⟨a, b⟩; exact ⟨a, (hsame x a).1 b⟩
    · rintro ⟨a, b⟩; exact ⟨a, (hsame x a).2 b⟩
  obtain ⟨row, r1, -, r2⟩ := h3 i hl l hE
  obtain ⟨row', r1', -, r2'⟩ := h3' i' hl' l hE'
  refine ⟨rows, rows', row, row', h1, h1', r1, r1', fun j => ?_⟩
  have e : l.map (val weights') = l.map (val weights) :=
    List.map_congr_left fun x hx => (hsame' x ((hE.2 x).1 hx).1 ((hE.2 x).1 hx).2).symm
  have k := r2' (fun _ => true) j
  rw [hs, e] at k
  exact SameIn.trans (r2 (fun _ => true) j) (SameIn.symm k)

/-- Two images with the same pixels of label 7, which have the same weights. -/
example : ∀ x, InBox [2, 2] x →
    (val (Nd.ofList [2, 2] [7, 0, 3, 7]) x = 7 ↔ val (Nd.ofList [2, 2] [7, 1, 1, 7]) x = 7) := by
  intro x hx
  exact (by decide : ∀ x ∈ pixels [2, 2], val (Nd.ofList [2, 2] [7, 0, 3, 7]) x = 7 ↔
    val (Nd.ofList [2, 2] [7, 1, 1, 7]) x = 7) x (mem_pixels.2 hx)

/-- The centre of a label follows its pixels: component `j'` of its row in the second image is that of component `j` of
its row in the first. -/
theorem C90_centers (hτ : Follows labels labels' name name' τ τ') (hn : labels.shape.length = n)
    (hn' : labels'.shape.length = n') {j : Fin n} {j' : Fin n'} (hs : labels'.shape.getD j' 0 = labels.shape.getD j 0)
    {ε t : ℝ} (hε : IsSign ε)
    (hc : ∀ x, InBox labels.shape x →
      SameIn periodic (labels.shape.getD j 0) ((τ x).getD j' 0 : Int) (ε * (x.getD j 0 : Int) + t))
    (hex : ∃ x, InBox labels.shape x ∧ val labels x = name) (hd : periodic = true → ¬ (ε = 1 ∧ t = 0) → Directed labels name j)
    {i i' : Nat} (hi : names[i]? = some name) (hi' : names'[i']? = some name') :
    ∃ rows rows' row row', labelsCenters dbg negative labels hn names periodic = ok rows ∧
      labelsCenters dbg' negative' labels' hn' names' periodic = ok rows' ∧ rows[i]? = some row ∧
      rows'[i']? = some row' ∧ SameIn periodic (labels.shape.getD j 0) (row' j') (ε * row j + t) := by
  obtain ⟨rows, h1, h2, h3⟩ := C52_centers dbg negative labels hn j.pos names periodic
  obtain ⟨rows', h1', h2', h3'⟩ := C52_centers dbg' negative' labels' hn' j'.pos names' periodic
  obtain ⟨l, hl⟩ := C52_enumerates labels name
  have hl' := hτ.enumerates hl
  obtain ⟨ki, ei⟩ := List.getElem?_eq_some_iff.1 hi
  obtain ⟨ki', ei'⟩ := List.getElem?_eq_some_iff.1 hi'
  obtain ⟨row, a1, -, a2⟩ := h3 i ki l (by rw [ei]; exact hl)
  obtain ⟨row', b1, -, b2⟩ := h3' i' ki' (l.map τ) (by rw [ei']; exact hl')
  refine ⟨rows, rows', row, row', h1, h1', a1, b1, ?_⟩
  obtain ⟨x0, hx0, hv0⟩ := hex
  have hL : 0 < box n labels.shape j := box_pos hn hx0 j
  have hne : l ≠ [] := List.ne_nil_of_mem ((hl.2 x0).2 ⟨hx0, hv0⟩)
  have hs' : box n' labels'.shape j' = box n labels.shape j := by
    unfold box
    rw [hs]
  have key := center_moved (fun _ => false) (fun _ => false) hs' hL hε (periodic := periodic)
    (ps := l.map (coords n)) (qs := (l.map τ).map (coords n')) (t := t) (by simpa using hne) (fun k k' => by
      have := hd k k' l hl
      unfold column
      rw [List.map_map]
      exact this) (by
      rw [List.map_map, List.forall₂_map_left_iff, List.forall₂_map_right_iff]
      have : ∀ l : List (List Int), (∀ x ∈ l, InBox labels.shape x) → List.Forall₂ (fun p q =>
          SameIn periodic (box n labels.shape j) ((coords n' ∘ τ) q j') (ε * coords n p j + t)) l l := by
        intro l
        induction l with
        | nil => exact fun _ => .nil
        | cons x l ih =>
          exact fun h => .cons (hc x (h x List.mem_cons_self)) (ih fun y hy => h y (List.mem_cons_of_mem _ hy))
      exact this l fun x hx => ((hl.2 x).1 hx).1)
  have b2' := b2 (fun _ => false) j'
  rw [hs'] at b2'
  exact (SameIn.trans b2' key).trans (SameIn.affine hε (SameIn.symm (a2 (fun _ => false) j)))

/-- The same for `labels_centers_of_mass`, if the weights are moved too. -/
theorem C90_mass (hτ : Follows labels labels' name name' τ τ') {weights weights' : Nd ℝ}
    (hw : weights.shape = labels.shape) (hw' : weights'.shape = labels'.shape)
    (hww : ∀ x, InBox labels.shape x → val weights' (τ x) = val weights x) (hn : labels.shape.length = n)
    (hn' : labels'.shape.length = n') {j : Fin n} {j' : Fin n'} (hs : labels'.shape.getD j' 0 = labels.shape.getD j 0)
    {ε t : ℝ} (hε : IsSign ε)
    (hc : ∀ x, InBox labels.shape x →
      SameIn periodic (labels.shape.getD j 0) ((τ x).getD j' 0 : Int) (ε * (x.getD j 0 : Int) + t))
    (hex : ∀ l, Enumerates labels name l → (l.map (val weights)).sum ≠ 0)
    (hd : periodic = true → ¬ (ε = 1 ∧ t = 0) → DirectedMass labels weights name j)
    {i i' : Nat} (hi : names[i]? = some name) (hi' : names'[i']? = some name') :
    ∃ rows rows' row row', labelsCentersOfMass dbg negative labels hn weights names periodic = ok rows ∧
      labelsCentersOfMass dbg' negative' labels' hn' weights' names' periodic = ok rows' ∧ rows[i]? = some row ∧
      rows'[i']? = some row' ∧ SameIn periodic (labels.shape.getD j 0) (row' j') (ε * row j + t) := by
  obtain ⟨rows, h1, h2, h3⟩ := C52_mass dbg negative labels hn j.pos weights hw names periodic
  obtain ⟨rows', h1', h2', h3'⟩ := C52_mass dbg' negative' labels' hn' j'.pos weights' hw' names' periodic
  obtain ⟨l, hl⟩ := C52_enumerates labels name
  have hl' := hτ.enumerates hl
  obtain ⟨ki, ei⟩ := List.getElem?_eq_some_iff.1 hi
  obtain ⟨ki', ei'⟩ := List.getElem?_eq_some_iff.1 hi'
  obtain ⟨row, a1, -, a2⟩ := h3 i ki l (by rw [ei]; exact hl)
  obtain ⟨row', b1, -, b2⟩ := h3' i' ki' (l.map τ) (by rw [ei']; exact hl')
  refine ⟨rows, rows', row, row', h1, h1', a1, b1, ?_⟩
  have hsum := hex l hl
  have hne : l ≠ [] := by
    rintro rfl
    simp at hsum
  obtain ⟨x0, hx0⟩ := List.exists_mem_of_ne_nil l hne
  have hL : 0 < box n labels.shape j := box_pos hn ((hl.2 x0).1 hx0).1 j
  have hs' : box n' labels'.shape j' = box n labels.shape j := by
    unfold box
    rw [hs]
  have hwl : (l.map τ).map (val weights') = l.map (val weights) := by
    rw [List.map_map]
    exact List.map_congr_left fun x hx => hww x ((hl.2 x).1 hx).1
  have key := com_moved (fun _ => false) (fun _ => false) hs' hL hε (periodic := periodic)
    (ps := l.map (coords n)) (qs := (l.map τ).map (coords n')) (w := l.map (val weights)) (t := t)
    (by simpa using hne) (by simp) hsum (fun k k' => by
      have := hd k k' l hl
      unfold column
      rw [List.map_map, List.zip_map']
      exact this) (by
      rw [List.map_map, List.forall₂_map_left_iff, List.forall₂_map_right_iff]
      have : ∀ l : List (List Int), (∀ x ∈ l, InBox labels.shape x) → List.Forall₂ (fun p q =>
          SameIn periodic (box n labels.shape j) ((coords n' ∘ τ) q j') (ε * coords n p j + t)) l l := by
        intro l
        induction l with
        | nil => exact fun _ => .nil
        | cons x l ih =>
          exact fun h => .cons (hc x (h x List.mem_cons_self)) (ih fun y hy => h y (List.mem_cons_of_mem _ hy))
      exact this l fun x hx => ((hl.2 x).1 hx).1)
  have b2' := b2 (fun _ => false) j'
  rw [hs', hwl] at b2'
  exact (SameIn.trans b2' key).trans (SameIn.affine hε (SameIn.symm (a2 (fun _ => false) j)))

/-! ### Shifts, reflections, permutations of the axes -/

theorem shift_coord {shape : List Nat} {x s : List Int} (hx : InBox shape x) (hs : s.length = shape.length) (j : Nat) :
    SameMod (shape.getD j 0) ((wrap shape (move x s)).getD j 0 : Int) (1 * (x.getD j 0 : Int) + (s.getD j 0 : Int)) := by
  have hl := inbox_length hx
  by_cases hj : j < shape.length
  · have e : (wrap shape (move x s)).getD j 0 = (x.getD j 0 + s.getD j 0) % (shape.getD j 0 : Int) := by
      have h1 : j < x.length := by omega
      have h2 : j < s.length := by omega
      simp [wrap, move, List.getD, hj, h1, h2]
    rw [e]
    refine ⟨-((x.getD j 0 + s.getD j 0) / (shape.getD j 0 : Int)), ?_⟩
    have := Int.emod_add_mul_ediv (x.getD j 0 + s.getD j 0) (shape.getD j 0 : Int)
    have : ((x.getD j 0 + s.getD j 0) % (shape.getD j 0 : Int) : Int) =
        x.getD j 0 + s.getD j 0 - (shape.getD j 0 : Int) * ((x.getD j 0 + s.getD j 0) / (shape.getD j 0 : Int)) := by
      linarith
    rw [this]
    push_cast
    ring
  · have h1 : (wrap shape (move x s)).getD j 0 = 0 := by
      simp [wrap, move, List.getD, hj]
    have h2 : x.getD j 0 = 0 := by simp [List.getD, hl, hj]
    have h3 : s.getD j 0 = 0 := by simp [List.getD, hs, hj]
    rw [h1, h2, h3]
    exact ⟨0, by simp⟩

theorem mirror_coord : ∀ {shape : List Nat} {r : List Bool} {x : List Int}, r.length = shape.length → InBox shape x →
    ∀ {j : Nat}, j < shape.length →
    (mirror shape r x).getD j 0 = if r.getD j false then (shape.getD j 0 : Int) - 1 - x.getD j 0 else x.getD j 0
  | _ :: _, _ :: _, _ :: _, _, .cons _ _, 0, _ => by simp [mirror]
  | _ :: shape, _ :: r, _ :: x, h, .cons _ t, j + 1, hj => by
    have := mirror_coord (r := r) (by simpa using h) t (j := j) (by simpa using hj)
    simpa [mirror] using this

/-- The position of a centre after reflection (`b`) of an axis of size `L`. -/
noncomputable def reflected (b : Bool) (L c : ℝ) : ℝ := if b then L - 1 - c else c

theorem Symmetry.moves {p : Bool} (hτ : Symmetry p labels.shape labels'.shape τ τ')
    (h : ∀ x, InBox labels.shape x → val labels' (τ x) = val labels x) : Follows labels labels' name name τ τ' :=
  ⟨hτ.map, hτ.map', hτ.inv, hτ.inv', fun x hx => by rw [h x hx]⟩


/-- A periodic shift of the image shifts the centres, modulo the box. -/
theorem C90_shift {shift : List Int} (hshape : labels'.shape = labels.shape) (hshift : shift.length = labels.shape.length)
    (hlab : ∀ x, InBox labels.shape x → val labels' (wrap labels.shape (move x shift)) = val labels x)
    (hn : labels.shape.length = n) (hn' : labels'.shape.length = n) {negative' : Nat → Fin n → Bool}
    (hex : ∃ x, InBox labels.shape x ∧ val labels x = name) {i i' : Nat} (hi : names[i]? = some name)
    (hi' : names'[i']? = some name) {rows rows' : List (Fin n → ℝ)}
    (e : labelsCenters dbg negative labels hn names true = ok rows)
    (e' : labelsCenters dbg' negative' labels' hn' names' true = ok rows') {j : Fin n}
    (hd : Directed labels name j) :
    ∃ row row', rows[i]? = some row ∧ rows'[i']? = some row' ∧
      SameMod (labels.shape.getD j 0) (row' j) (row j + (shift.getD j 0 : Int)) := by
  have hτ := Symmetry.moves (name := name) (p := true) (labels := labels) (labels' := labels')
    (by rw [hshape]; exact shift_symmetry hshift) hlab
  obtain ⟨R, R', row, row', h1, h2, h3, h4, h5⟩ := C90_centers (dbg := dbg) (dbg' := dbg') (negative := negative)
    (negative' := negative') (periodic := true) hτ hn hn' (j := j) (j' := j) (by rw [hshape]) (.inl rfl)
    (fun x hx => shift_coord hx hshift j) hex (fun _ _ => hd) hi hi'
  rw [e] at h1
  rw [e'] at h2
  cases h1
  cases h2
  refine ⟨row, row', h3, h4, ?_⟩
  rw [one_mul] at h5
  exact h5

/-- A reflection of the image along any axes reflects the centres. -/
theorem C90_reflect {r : List Bool} (hshape : labels'.shape = labels.shape) (hr : r.length = labels.shape.length)
    (hlab : ∀ x, InBox labels.shape x → val labels' (mirror labels.shape r x) = val labels x)
    (hn : labels.shape.length = n) (hn' : labels'.shape.length = n) {negative' : Nat → Fin n → Bool}
    (hex : ∃ x, InBox labels.shape x ∧ val labels x = name) {i i' : Nat} (hi : names[i]? = some name)
    (hi' : names'[i']? = some name) {rows rows' : List (Fin n → ℝ)}
    (e : labelsCenters dbg negative labels hn names periodic = ok rows)
    (e' : labelsCenters dbg' negative' labels' hn' names' periodic = ok rows') {j : Fin n}
    (hd : periodic = true → r.getD j false = true → Directed labels name j) :
    ∃ row row', rows[i]? = some row ∧ rows'[i']? = some row' ∧
      SameIn periodic (labels.shape.getD j 0) (row' j) (reflected (r.getD j false) (labels.shape.getD j 0) (row j)) := by
  have hτ := Symmetry.moves (name := name) (p := periodic) (labels := labels) (labels' := labels')
    (by rw [hshape]; exact mirror_symmetry hr) hlab
  have hj : (j : Nat) < labels.shape.length := by omega
  cases hb : r.getD j false with
  | false =>
    obtain ⟨R, R', row, row', h1, h2, h3, h4, h5⟩ := C90_centers (dbg := dbg) (dbg' := dbg') (negative := negative)
      (negative' := negative') (periodic := periodic) hτ hn hn' (j := j) (j' := j) (by rw [hshape])
      (ε := 1) (t := 0) (.inl rfl) (fun x hx => by
        rw [mirror_coord hr hx hj, hb, one_mul, add_zero]
        exact SameIn.refl _ _ _) hex (fun _ k => absurd ⟨rfl, rfl⟩ k) hi hi'
    rw [e] at h1
    rw [e'] at h2
    cases h1
    cases h2
    refine ⟨row, row', h3, h4, ?_⟩
    rw [one_mul, add_zero] at h5
    exact h5
  | true =>
    obtain ⟨R, R', row, row', h1, h2, h3, h4, h5⟩ := C90_centers (dbg := dbg) (dbg' := dbg') (negative := negative)
      (negative' := negative') (periodic := periodic) hτ hn hn' (j := j) (j' := j) (by rw [hshape])
      (ε := -1) (t := labels.shape.getD j 0 - 1) (.inr rfl) (fun x hx => by
        rw [mirror_coord hr hx hj, hb, if_pos rfl]
        push_cast
        rw [show (-1 * (x.getD j 0 : ℝ) + ((labels.shape.getD j 0 : Nat) - 1) : ℝ) =
          (labels.shape.getD j 0 : Nat) - 1 - (x.getD j 0 : ℝ) by ring]
        exact SameIn.refl _ _ _) hex (fun h _ => hd h hb) hi hi'
    rw [e] at h1
    rw [e'] at h2
    cases h1
    cases h2
    refine ⟨row, row', h3, h4, ?_⟩
    unfold reflected
    rw [if_pos rfl]
    rw [show (labels.shape.getD j 0 - 1 - row j : ℝ) = -1 * row j + (labels.shape.getD j 0 - 1) by ring]
    exact h5

/-- With the axes in another order, so are the components of the centres. -/
theorem C90_axes {σ : List Nat} (hσ : σ.Perm (List.range labels.shape.length)) (hshape : labels'.shape = axes σ labels.shape)
    (hlab : ∀ x, InBox labels.shape x → val labels' (axes σ x) = val labels x)
    (hn : labels.shape.length = n) (hn' : labels'.shape.length = n) {negative' : Nat → Fin n → Bool}
    (hex : ∃ x, InBox labels.shape x ∧ val labels x = name) {i i' : Nat} (hi : names[i]? = some name)
    (hi' : names'[i']? = some name) {rows rows' : List (Fin n → ℝ)}
    (e : labelsCenters dbg negative labels hn names periodic = ok rows)
    (e' : labelsCenters dbg' negative' labels' hn' names' periodic = ok rows') {j k : Fin n}
    (hk : σ[k.val]? = some j.val) :
    ∃ row row', rows[i]? = some row ∧ rows'[i']? = some row' ∧
      SameIn periodic (labels.shape.getD j 0) (row' k) (row j) := by
  have hτ := Symmetry.moves (name := name) (p := periodic) (labels := labels) (labels' := labels')
    (by rw [hshape]; exact axes_symmetry hσ) hlab
  obtain ⟨hk1, hk2⟩ := List.getElem?_eq_some_iff.1 hk
  obtain ⟨R, R', row, row', h1, h2, h3, h4, h5⟩ := C90_centers (dbg := dbg) (dbg' := dbg') (negative := negative)
    (negative' := negative') (periodic := periodic) hτ hn hn' (j := j) (j' := k)
    (by
      rw [hshape]
      have := axes_getD labels.shape hk1
      rw [hk2] at this
      exact this)
    (ε := 1) (t := 0) (.inl rfl) (fun x hx => by
      have := axes_getD x hk1
      rw [hk2] at this
      rw [one_mul, add_zero, show (axes σ x).getD k 0 = x.getD j 0 from this]
      exact SameIn.refl _ _ _) hex (fun _ h => absurd ⟨rfl, rfl⟩ h) hi hi'
  rw [e] at h1
  rw [e'] at h2
  cases h1
  cases h2
  refine ⟨row, row', h3, h4, ?_⟩
  rw [one_mul, add_zero] at h5
  exact h5

/-- A periodic shift of the image and the weights shifts the centres of mass, modulo the box. -/
theorem C90_shift_mass {shift : List Int} (hshape : labels'.shape = labels.shape) (hshift : shift.length = labels.shape.length)
    {weights weights' : Nd ℝ} (hw : weights.shape = labels.shape) (hw' : weights'.shape = labels'.shape)
    (hlab : ∀ x, InBox labels.shape x → val labels' (wrap labels.shape (move x shift)) = val labels x)
    (hww : ∀ x, InBox labels.shape x → val weights' (wrap labels.shape (move x shift)) = val weights x)
    (hn : labels.shape.length = n) (hn' : labels'.shape.length = n) {negative' : Nat → Fin n → Bool}
    (hex : ∀ l, Enumerates labels name l → (l.map (val weights)).sum ≠ 0) {i i' : Nat} (hi : names[i]? = some name)
    (hi' : names'[i']? = some name) {rows rows' : List (Fin n → ℝ)}
    (e : labelsCentersOfMass dbg negative labels hn weights names true = ok rows)
    (e' : labelsCentersOfMass dbg' negative' labels' hn' weights' names' true = ok rows') {j : Fin n}
    (hd : DirectedMass labels weights name j) :
    ∃ row row', rows[i]? = some row ∧ rows'[i']? = some row' ∧
      SameMod (labels.shape.getD j 0) (row' j) (row j + (shift.getD j 0 : Int)) := by
  have hτ := Symmetry.moves (name := name) (p := true) (labels := labels) (labels' := labels')
    (by rw [hshape]; exact shift_symmetry hshift) hlab
  obtain ⟨R, R', row, row', h1, h2, h3, h4, h5⟩ := C90_mass (dbg := dbg) (dbg' := dbg') (negative := negative)
    (negative' := negative') (periodic := true) hτ hw hw' hww hn hn' (j := j) (j' := j) (by rw [hshape]) (.inl rfl)
    (fun x hx => shift_coord hx hshift j) hex (fun _ _ => hd) hi hi'
  rw [e] at h1
  rw [e'] at h2
  cases h1
  cases h2
  refine ⟨row, row', h3, h4, ?_⟩
  rw [one_mul] at h5
  exact h5

/-- A reflection of the image and the weights along any axes reflects the centres of mass. -/
theorem C90_reflect_mass {r : List Bool} (hshape : labels'.shape = labels.shape) (hr : r.length = labels.shape.length)
    {weights weights' : Nd ℝ} (hw : weights.shape = labels.shape) (hw' : weights'.shape = labels'.shape)
    (hlab : ∀ x, InBox labels.shape x → val labels' (mirror labels.shape r x) = val labels x)
    (hww : ∀ x, InBox labels.shape x → val weights' (mirror labels.shape r x) = val weights x)
    (hn : labels.shape.length = n) (hn' : labels'.shape.length = n) {negative' : Nat → Fin n → Bool}
    (hex : ∀ l, Enumerates labels name l → (l.map (val weights)).sum ≠ 0) {i i' : Nat} (hi : names[i]? = some name)
    (hi' : names'[i']? = some name) {rows rows' : List (Fin n → ℝ)}
    (e : labelsCentersOfMass dbg negative labels hn weights names periodic = ok rows)
    (e' : labelsCentersOfMass dbg' negative' labels' hn' weights' names' periodic = ok rows') {j : Fin n}
    (hd : periodic = true → r.getD j false = true → DirectedMass labels weights name j) :
    ∃ row row', rows[i]? = some row ∧ rows'[i']? = some row' ∧
      SameIn periodic (labels.shape.getD j 0) (row' j) (reflected (r.getD j false) (labels.shape.getD j 0) (row j)) := by
  have hτ := Symmetry.moves (name := name) (p := periodic) (labels := labels) (labels' := labels')
    (by rw [hshape]; exact mirror_symmetry hr) hlab
  have hj : (j : Nat) < labels.shape.length := by omega
  cases hb : r.getD j false with
  | false =>
    obtain ⟨R, R', row, row', h1, h2, h3, h4, h5⟩ := C90_mass (dbg := dbg) (dbg' := dbg') (negative := negative)
      (negative' := negative') (periodic := periodic) hτ hw hw' hww hn hn' (j := j) (j' := j) (by rw [hshape])
      (ε := 1) (t := 0) (.inl rfl) (fun x hx => by
        rw [mirror_coord hr hx hj, hb, one_mul, add_zero]
        exact SameIn.refl _ _ _) hex (fun _ k => absurd ⟨rfl, rfl⟩ k) hi hi'
    rw [e] at h1
    rw [e'] at h2
    cases h1
    cases h2
    refine ⟨row, row', h3, h4, ?_⟩
    rw [one_mul, add_zero] at h5
    exact h5
  | true =>
    obtain ⟨R, R', row, row', h1, h2, h3, h4, h5⟩ := C90_mass (dbg := dbg) (dbg' := dbg') (negative := negative)
      (negative' := negative') (periodic := periodic) hτ hw hw' hww hn hn' (j := j) (j' := j) (by rw [hshape])
      (ε := -1) (t := labels.shape.getD j 0 - 1) (.inr rfl) (fun x hx => by
        rw [mirror_coord hr hx hj, hb, if_pos rfl]
        push_cast
        rw [show (-1 * (x.getD j 0 : ℝ) + ((labels.shape.getD j 0 : Nat) - 1) : ℝ) =
          (labels.shape.getD j 0 : Nat) - 1 - (x.getD j 0 : ℝ) by ring]
        exact SameIn.refl _ _ _) hex (fun h _ => hd h hb) hi hi'
    rw [e] at h1
    rw [e'] at h2
    cases h1
    cases h2
    refine ⟨row, row', h3, h4, ?_⟩
    unfold reflected
    rw [if_pos rfl]
    rw [show (labels.shape.getD j 0 - 1 - row j : ℝ) = -1 * row j + (labels.shape.getD j 0 - 1) by ring]
    exact h5

/-- With the axes in another order, so are the components of the centres of mass. -/
theorem C90_axes_mass {σ : List Nat} (hσ : σ.Perm (List.range labels.shape.length)) (hshape : labels'.shape = axes σ labels.shape)
    {weights weights' : Nd ℝ} (hw : weights.shape = labels.shape) (hw' : weights'.shape = labels'.shape)
    (hlab : ∀ x, InBox labels.shape x → val labels' (axes σ x) = val labels x)
    (hww : ∀ x, InBox labels.shape x → val weights' (axes σ x) = val weights x)
    (hn : labels.shape.length = n) (hn' : labels'.shape.length = n) {negative' : Nat → Fin n → Bool}
    (hex : ∀ l, Enumerates labels name l → (l.map (val weights)).sum ≠ 0) {i i' : Nat} (hi : names[i]? = some name)
    (hi' : names'[i']? = some name) {rows rows' : List (Fin n → ℝ)}
    (e : labelsCentersOfMass dbg negative labels hn weights names periodic = ok rows)
    (e' : labelsCentersOfMass dbg' negative' labels' hn' weights' names' periodic = ok rows') {j k : Fin n}
    (hk : σ[k.val]? = some j.val) :
    ∃ row row', rows[i]? = some row ∧ rows'[i']? = some row' ∧
      SameIn periodic (labels.shape.getD j 0) (row' k) (row j) := by
  have hτ := Symmetry.moves (name := name) (p := periodic) (labels := labels) (labels' := labels')
    (by rw [hshape]; exact axes_symmetry hσ) hlab
  obtain ⟨hk1, hk2⟩ := List.getElem?_eq_some_iff.1 hk
  obtain ⟨R, R', row, row', h1, h2, h3, h4, h5⟩ := C90_mass (dbg := dbg) (dbg' := dbg') (negative := negative)
    (negative' := negative') (periodic := periodic) hτ hw hw' hww hn hn' (j := j) (j' := k)
    (by
      rw [hshape]
      have := axes_getD labels.shape hk1
      rw [hk2] at this
      exact this)
    (ε := 1) (t := 0) (.inl rfl) (fun x hx => by
      have := axes_getD x hk1
      rw [hk2] at this
      rw [one_mul, add_zero, show (axes σ x).getD k 0 = x.getD j 0 from this]
      exact SameIn.refl _ _ _) hex (fun _ h => absurd ⟨rfl, rfl⟩ h) hi hi'
  rw [e] at h1
  rw [e'] at h2
  cases h1
  cases h2
  refine ⟨row, row', h3, h4, ?_⟩
  rw [one_mul, add_zero] at h5
  exact h5

/-! ### Clusters of an image -/

/-- The centres of the clusters of an image follow a symmetry of the grid: the centre of the cluster of pixel `τ x` is
that of the cluster of `x`, moved, whatever the numbers of the clusters are. -/
theorem C90_clusters {shape shape' : List Nat} {f g L L' : List Int} (hτ : Symmetry periodic shape shape' τ τ')
    (hn : shape.length = n) (hn' : shape'.length = n') (hn3 : n ≤ 3) (hn3' : n' ≤ 3)
    (hsmall : shape.prod < 2 ^ 62) (hsmall' : shape'.prod < 2 ^ 62) (hf : f.length = shape.prod)
    (hg : g.length = shape'.prod) (hfg : ∀ x, InBox shape x → entry shape' g (τ x) = entry shape f x)
    (e : Cluster.clusters dbg shape f periodic = ok L) (e' : Cluster.clusters dbg' shape' g periodic = ok L')
    {x : List Int} (hx : InBox shape x) {j : Fin n} {j' : Fin n'} (hs : shape'.getD j' 0 = shape.getD j 0)
    {ε t : ℝ} (hε : IsSign ε)
    (hc : ∀ x, InBox shape x →
      SameIn periodic (shape.getD j 0) ((τ x).getD j' 0 : Int) (ε * (x.getD j 0 : Int) + t))
    (hd : periodic = true → ¬ (ε = 1 ∧ t = 0) → Directed (Nd.ofList shape L) (entry shape L x) j)
    {i i' : Nat} (hi : names[i]? = some (entry shape L x)) (hi' : names'[i']? = some (entry shape' L' (τ x))) :
    ∃ rows rows' row row', labelsCenters dbg negative (Nd.ofList shape L) hn names periodic = ok rows ∧
      labelsCenters dbg' negative' (Nd.ofList shape' L') hn' names' periodic = ok rows' ∧ rows[i]? = some row ∧
      rows'[i']? = some row' ∧ SameIn periodic (shape.getD j 0) (row' j') (ε * row j + t) := by
  have h1 : 1 ≤ n := j.pos
  have h1' : 1 ≤ n' := j'.pos
  refine C90_centers (labels := Nd.ofList shape L) (labels' := Nd.ofList shape' L') (τ := τ) (τ' := τ')
    ⟨hτ.map, hτ.map', hτ.inv, hτ.inv', fun y hy => ?_⟩ hn hn' hs hε hc ⟨x, hx, rfl⟩ hd hi hi'
  exact C71_symmetry hτ (by omega) (by omega) hsmall (by omega) (by omega) hsmall' hf hg
    (fun x hx => by rw [hfg x hx]) e e' hy hx

/-- A periodic shift of an image shifts the centres of its clusters. -/
theorem C90_clusters_shift {shape : List Nat} {f g L L' shift : List Int} (hshift : shift.length = shape.length)
    (hn : shape.length = n) (hn3 : n ≤ 3) (hsmall : shape.prod < 2 ^ 62) (hf : f.length = shape.prod)
    (hg : g.length = shape.prod) (hfg : ∀ x, InBox shape x → entry shape g (wrap shape (move x shift)) = entry shape f x)
    (e : Cluster.clusters dbg shape f true = ok L) (e' : Cluster.clusters dbg' shape g true = ok L')
    {x : List Int} (hx : InBox shape x) {j : Fin n} (hd : Directed (Nd.ofList shape L) (entry shape L x) j)
    {negative' : Nat → Fin n → Bool} {i i' : Nat} (hi : names[i]? = some (entry shape L x))
    (hi' : names'[i']? = some (entry shape L' (wrap shape (move x shift)))) :
    ∃ rows rows' row row', labelsCenters dbg negative (Nd.ofList shape L) hn names true = ok rows ∧
      labelsCenters dbg' negative' (Nd.ofList shape L') hn names' true = ok rows' ∧ rows[i]? = some row ∧
      rows'[i']? = some row' ∧ SameMod (shape.getD j 0) (row' j) (row j + (shift.getD j 0 : Int)) := by
  obtain ⟨rows, rows', row, row', a1, a2, a3, a4, a5⟩ := C90_clusters (dbg := dbg) (dbg' := dbg') (negative := negative)
    (negative' := negative') (shift_symmetry hshift) hn hn hn3 hn3 hsmall hsmall hf hg hfg e e' hx (j := j) (j' := j) rfl
    (.inl rfl) (fun x hx => shift_coord hx hshift j) (fun _ _ => hd) hi hi'
  refine ⟨rows, rows', row, row', a1, a2, a3, a4, ?_⟩
  rw [one_mul] at a5
  exact a5

/-! ### The hypotheses are met -/

/-- The label 7 of an image of one row of eight pixels, across the boundary, has a direction. -/
example : Directed (Nd.ofList [8] [7, 0, 0, 0, 0, 0, 7, 7]) 7 0 := by
  intro l hl h
  have hp : l.Perm [[0], [6], [7]] := by
    refine (List.perm_ext_iff_of_nodup hl.1 (by decide)).2 fun x => ?_
    rw [hl.2]
    have key : ∀ y ∈ pixels [8], val (Nd.ofList [8] [7, 0, 0, 0, 0, 0, 7, 7]) y = (7 : Int) ↔ y ∈ [[0], [6], [7]] := by
      decide
    constructor
    · rintro ⟨hx, hv⟩
      exact (key x (mem_pixels.2 hx)).1 hv
    · intro hx
      have hb : InBox [8] x := by
        simp only [List.mem_cons, List.not_mem_nil, or_false] at hx
        rcases hx with rfl | rfl | rfl <;> exact .cons (by decide) .nil
      exact ⟨hb, (key x (mem_pixels.2 hb)).2 hx⟩
  have hc : cosSum 8 (unweighted (l.map fun x => ((x.getD 0 0 : Int) : ℝ))) =
      cosSum 8 (unweighted (([[0], [6], [7]] : List (List Int)).map fun x => ((x.getD 0 0 : Int) : ℝ))) := by
    unfold cosSum unweighted
    exact (((hp.map _).map _).map _).sum_eq
  have h1 := h.1
  have e8 : (((Nd.ofList [8] [7, 0, 0, 0, 0, 0, 7, 7] : Nd Int).shape.getD 0 0 : Nat) : ℝ) = 8 := by
    norm_num [Nd.ofList]
  rw [e8, hc] at h1
  simp only [cosSum, unweighted, List.map_cons, List.map_nil, List.sum_cons, List.sum_nil, List.getD_cons_zero] at h1
  norm_num at h1
  rw [show 2 * π * 6 / 8 = 3 * π / 2 by ring, show 2 * π * 7 / 8 = 2 * π - π / 4 by ring, cos_two_pi_sub, cos_pi_div_four,
    show 3 * π / 2 = 2 * π - π / 2 by ring, cos_two_pi_sub, cos_pi_div_two] at h1
  have : 0 ≤ √2 := Real.sqrt_nonneg 2
  linarith

/-- The second image is the first, shifted by three pixels, reflected, transposed. -/
example : (∀ x ∈ pixels [8], val (Nd.ofList [8] [0, 7, 7, 7, 0, 0, 0, 0]) (wrap [8] (move x [3])) =
      val (Nd.ofList [8] [7, 0, 0, 0, 0, 0, 7, 7]) x) ∧
    (∀ x ∈ pixels [2, 3], val (Nd.ofList [2, 3] [0, 5, 5, 2, 0, 1]) (mirror [2, 3] [false, true] x) =
      val (Nd.ofList [2, 3] [5, 5, 0, 1, 0, 2]) x) ∧
    ∀ x ∈ pixels [2, 3], val (Nd.ofList [3, 2] [5, 1, 5, 0, 0, 2]) (axes [1, 0] x) =
      val (Nd.ofList [2, 3] [5, 5, 0, 1, 0, 2]) x := by decide +kernel

end Verif.Props
