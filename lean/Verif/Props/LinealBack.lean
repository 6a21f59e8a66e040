import Verif.Props.Segment
import Verif.Props.PathBack
import Verif.Props.PathExact

/-! # The lineal-path function at opposite displacements that are farthest from the centre, and at opposite corners (C94) -/

set_option linter.unusedSectionVars false

namespace Verif.Props

open Verif Outcome Spec Ens

variable {K : Type} [Field K] [LinearOrder K] [IsStrictOrderedRing K]
variable {roi : List Nat} {periodic : Bool} {f : Nd K}

/-- On the way to `d`, from the origin, the line is nowhere midway between two pixels. -/
def NeverMidway (d : List Int) : Prop :=
  ∀ k ≤ chebyshev (List.replicate d.length 0) d, ∀ i < d.length,
    ¬ Midway 0 (d.getD i 0) (chebyshev (List.replicate d.length 0) d) k

/-- In particular if the largest coordinate is odd. -/
theorem neverMidway_odd {d : List Int} (h : chebyshev (List.replicate d.length 0) d % 2 = 1) : NeverMidway d := by
  rintro k - i - ⟨m, hm⟩
  have h2 : ((chebyshev (List.replicate d.length 0) d : Nat) : Int) % 2 = 1 := by omega
  have := congrArg (· % 2) hm
  simp only [Int.mul_emod_right, Int.mul_emod (2 * m + 1)] at this
  rw [h2] at this
  omega

theorem chebyshev_neg (d : List Int) :
    chebyshev (List.replicate (neg d).length 0) (neg d) = chebyshev (List.replicate d.length 0) d := by
  unfold chebyshev
  congr 1
  induction d with
  | nil => rfl
  | cons a d ih => simpa [neg, List.replicate_succ] using ih

theorem neg_getD (d : List Int) (i : Nat) : (neg d).getD i 0 = -d.getD i 0 := by
  simp only [neg, List.getD_eq_getElem?_getD, List.getElem?_map]
  cases d[i]? <;> simp

theorem neverMidway_neg {d : List Int} (h : NeverMidway d) : NeverMidway (neg d) := by
  intro k hk i hi
  rw [chebyshev_neg] at hk ⊢
  rw [neg_length] at hi
  rintro ⟨m, hm⟩
  refine h k hk i hi ⟨-m - 1, ?_⟩
  rw [neg_getD] at hm
  linarith

theorem chebyshev_space {d : List Int} (h : d.length ≤ 3) :
    chebyshev [0, 0, 0] (inSpace d) = chebyshev (List.replicate d.length 0) d := by
  match d, h with
  | [], _ => rfl
  | [_], _ => simp [chebyshev, inSpace]
  | [_, _], _ => simp [chebyshev, inSpace]
  | [_, _, _], _ => rfl

theorem inSpace_length {d : List Int} (h : d.length ≤ 3) : (inSpace d).length = 3 := by
  match d, h with
  | [], _ => rfl
  | [_], _ => rfl
  | [_, _], _ => rfl
  | [_, _, _], _ => rfl

theorem inSpace_getD {d : List Int} (h : d.length ≤ 3) {i : Nat} (hi : i < 3) :
    (inSpace d).getD i 0 = 0 ∨ ∃ j < d.length, (inSpace d).getD i 0 = d.getD j 0 := by
  match d, h, i, hi with
  | [], _, 0, _ => exact Or.inl rfl
  | [], _, 1, _ => exact Or.inl rfl
  | [], _, 2, _ => exact Or.inl rfl
  | [_], _, 0, _ => exact Or.inl rfl
  | [_], _, 1, _ => exact Or.inr ⟨0, by simp, rfl⟩
  | [_], _, 2, _ => exact Or.inl rfl
  | [_, _], _, 0, _ => exact Or.inr ⟨0, by simp, rfl⟩
  | [_, _], _, 1, _ => exact Or.inr ⟨1, by simp, rfl⟩
  | [_, _], _, 2, _ => exact Or.inl rfl
  | [_, _, _], _, 0, _ => exact Or.inr ⟨0, by simp, rfl⟩
  | [_, _, _], _, 1, _ => exact Or.inr ⟨1, by simp, rfl⟩
  | [_, _, _], _, 2, _ => exact Or.inr ⟨2, by simp, rfl⟩

theorem neg_space {d : List Int} (h : d.length ≤ 3) : neg (inSpace d) = inSpace (neg d) := by
  match d, h with
  | [], _ => rfl
  | [_], _ => rfl
  | [_, _], _ => rfl
  | [_, _, _], _ => rfl

theorem move_neg_self : ∀ d : List Int, move d (neg d) = List.replicate d.length 0
  | [] => rfl
  | a :: d => by
    have := move_neg_self d
    simp only [move, neg, List.map_cons, List.zipWith_cons_cons, List.length_cons, List.replicate_succ] at this ⊢
    rw [this]
    simp

theorem zero_move : ∀ {n : Nat} {d : List Int}, d.length = n → move (List.replicate n 0) d = d
  | 0, [], _ => rfl
  | n + 1, a :: d, h => by
    have := zero_move (n := n) (d := d) (by simpa using h)
    simp only [move, List.replicate_succ, List.zipWith_cons_cons] at this ⊢
    rw [this]
    simp

/-- The path to `-d` is the path to `d` that is followed from its end. -/
theorem path_opposite (junk : ℚ) (fuel : Nat) {d : List Int} (h3 : d.length ≤ 3) (hd : inSpace d ≠ [0, 0, 0])
    (hn : NeverMidway d) {p : List (List Int)}
    (hp : Verif.Path.path junk fuel [0, 0, 0] (inSpace d) .bresenham = ok p) :
    Verif.Path.path junk fuel [0, 0, 0] (inSpace (neg d)) .bresenham =
      ok (p.reverse.map fun x => move x (neg (inSpace d))) := by
  have l3 := inSpace_length h3
  obtain ⟨p', e, hiff⟩ := C106_iff junk fuel (x0 := [0, 0, 0]) (x1 := inSpace d) (by simp) (by simp [l3]) (Ne.symm hd)
  rw [hp] at e
  cases e
  have hpos : 0 < chebyshev [0, 0, 0] (inSpace d) := Verif.Path.chebyshev_pos (by simp [l3]) (Ne.symm hd)
  have hback := hiff.2 (by
    intro k hk i hi hmid
    have h00 : ([0, 0, 0] : List Int).getD i 0 = 0 := by
      match i, hi with
      | 0, _ => rfl
      | 1, _ => rfl
      | 2, _ => rfl
    rw [h00] at hmid
    rcases inSpace_getD h3 (i := i) (by simpa using hi) with h | ⟨j, hj, h⟩
    · rw [h] at hmid
      obtain ⟨m, hm⟩ := hmid
      have : (2 * m + 1) * ((chebyshev [0, 0, 0] (inSpace d) : Nat) : Int) = 0 := by linarith
      rcases mul_eq_zero.1 this with h | h <;> omega
    · rw [h, chebyshev_space h3] at hmid
      rw [chebyshev_space h3] at hk
      exact hn k hk j hj hmid)
  have ht := C28_translate junk fuel (x0 := inSpace d) (x1 := [0, 0, 0]) (c := neg (inSpace d)) (by simp [l3])
    (by simp [l3]) (by rw [neg_length]) hd
  rw [hback] at ht
  have e0 : addPt (inSpace d) (neg (inSpace d)) = [0, 0, 0] := by
    have := move_neg_self (inSpace d)
    rw [l3] at this
    exact this
  have e1 : addPt [0, 0, 0] (neg (inSpace d)) = inSpace (neg d) := by
    rw [← neg_space h3]
    exact zero_move (n := 3) (by rw [neg_length, l3])
  rw [e0, e1] at ht
  exact ht

/-- At least as many pixels are lit along a path that consists of pixels of another one, seen from a pixel `d` of it. -/
theorem lit_count_of {d : List Int} (hd : d.length = f.shape.length) {p q : List (List Int)}
    (hpl : ∀ e ∈ p, e.length = f.shape.length) (hend : d ∈ p) (hback : ∀ e' ∈ q, ∃ e ∈ p, e' = move e (neg d)) :
    ((pixels f.shape).filter fun x => LitAlong periodic f p x).length ≤
      ((pixels f.shape).filter fun x => LitAlong periodic f q x).length := by
  set T : List Int → List Int := fun x => target periodic f.shape x d
  have hnd : (((pixels f.shape).filter fun x => LitAlong periodic f p x).map T).Nodup := by
    refine List.Nodup.map_on ?_ ((pixels_nodup _).filter _)
    intro x hx y hy e
    have hx' := mem_pixels.1 (List.mem_filter.1 hx).1
    have hy' := mem_pixels.1 (List.mem_filter.1 hy).1
    have := congrArg (fun z => target periodic f.shape z (neg d)) e
    simpa only [T, target_neg hx' hd, target_neg hy' hd] using this
  have := hnd.subperm (l₂ := (pixels f.shape).filter fun x => LitAlong periodic f q x) (by
    intro y hy
    obtain ⟨x, hx, rfl⟩ := List.mem_map.1 hy
    obtain ⟨hx1, hx2⟩ := List.mem_filter.1 hx
    rw [decide_eq_true_eq] at hx2
    have hxl := inbox_length (mem_pixels.1 hx1)
    refine List.mem_filter.2 ⟨(hx2 d hend).1, ?_⟩
    rw [decide_eq_true_eq]
    intro e' he'
    obtain ⟨e, he, rfl⟩ := hback e' he'
    have hel := hpl e he
    have := hx2 e he
    unfold Lit at this ⊢
    simp only [T]
    rw [target_target hxl hd (by rw [move_length (by rw [neg_length]; omega)]; omega)]
    have em : move d (move e (neg d)) = e := by
      refine List.ext_getElem (by simp [move, neg]; omega) fun i h1 h2 => ?_
      simp [move, neg]
    rw [em]
    exact this)
  simpa using this.length_le

/-- As many pixels are lit along the path to `d` as along the path to `-d`. -/
theorem lit_count_le (hr : f.shape.length ≤ 3) (junk : ℚ) (fuel : Nat) {d : List Int} (hd : d.length = f.shape.length)
    (hd0 : inSpace d ≠ [0, 0, 0]) (hn : NeverMidway d) {p q : List (List Int)}
    (hp : Verif.Path.path junk fuel [0, 0, 0] (inSpace d) .bresenham = ok (p.map inSpace))
    (hpl : ∀ e ∈ p, e.length = f.shape.length)
    (hq : Verif.Path.path junk fuel [0, 0, 0] (inSpace (neg d)) .bresenham = ok (q.map inSpace))
    (hql : ∀ e ∈ q, e.length = f.shape.length) :
    ((pixels f.shape).filter fun x => LitAlong periodic f p x).length ≤
      ((pixels f.shape).filter fun x => LitAlong periodic f q x).length := by
  have h3 : d.length ≤ 3 := by omega
  have l3 := inSpace_length h3
  have hop := path_opposite junk fuel h3 hd0 hn hp
  rw [hq] at hop
  injection hop with hop
  refine lit_count_of hd hpl ?_ ?_
  · obtain ⟨ret, e, -, -, hlast, -⟩ := C26_bresenham junk fuel (x0 := [0, 0, 0]) (x1 := inSpace d) (by simp)
      (by simp [l3]) (Ne.symm hd0)
    rw [hp] at e
    injection e with e
    have hm := List.mem_of_getLast? hlast
    rw [← e] at hm
    obtain ⟨e', he', ee⟩ := List.mem_map.1 hm
    rw [inSpace_eq, inSpace_eq] at ee
    have h1 := hpl e' he'
    rwa [(raise_inj (by omega) (by omega)).1 ee] at he'
  · -- a pixel of the way back is a pixel of the path, seen from its end
    intro e' he'
    have : inSpace e' ∈ q.map inSpace := List.mem_map.2 ⟨e', he', rfl⟩
    rw [hop] at this
    obtain ⟨w, hw, ew⟩ := List.mem_map.1 this
    obtain ⟨e, he, rfl⟩ := List.mem_map.1 (List.mem_reverse.1 hw)
    refine ⟨e, he, ?_⟩
    have h1 := hpl e he
    have h2 := hql e' he'
    rw [neg_space h3, inSpace_eq, inSpace_eq, inSpace_eq, move_raise (by omega) (by rw [neg_length]; omega)] at ew
    exact ((raise_inj (by rw [move_length (by rw [neg_length]; omega)]; omega)
      (by rw [move_length (by rw [neg_length]; omega)]; omega)).1 ew).symm

theorem same_index {i i' : List Int} (hi : InBox roi i) (hi' : InBox roi i')
    (hneg : displacement roi i' = neg (displacement roi i)) (h0 : IsZero (displacement roi i)) : i = i' := by
  have hil := inbox_length hi
  have hl := displacement_length hil
  have e : displacement roi i' = displacement roi i := by
    rw [hneg]
    rw [isZero_iff_replicate hl] at h0
    rw [h0]
    simp [neg]
  refine List.ext_getElem (by rw [hil, inbox_length hi']) fun k h1 h2 => ?_
  have e1 := displacement_getD hil (b := k) (by omega)
  have e2 := displacement_getD (inbox_length hi') (b := k) (by omega)
  rw [e, e1] at e2
  simp only [List.getD_eq_getElem?_getD, List.getElem?_eq_getElem h1, List.getElem?_eq_getElem h2,
    Option.getD_some] at e2
  omega

theorem not_zero_neg {d d' : List Int} (h : d' = neg d) (h0 : ¬ IsZero d) : ¬ IsZero d' := by
  intro hz
  apply h0
  rw [isZero_iff_replicate (by rw [h, neg_length])] at hz
  rw [isZero_iff_replicate rfl, ← neg_neg' d, ← h, hz]
  simp [neg]

theorem space_ne_zero {d : List Int} (hr : d.length ≤ 3) (hz : ¬ IsZero d) : inSpace d ≠ [0, 0, 0] := by
  intro e
  apply hz
  rw [isZero_iff_replicate rfl]
  rw [inSpace_eq, ← raise_zero hr] at e
  exact (raise_inj hr (by simp)).1 e

/-- L with Bresenham paths is the same at opposite displacements that are as far from the centre as the region of
interest extends, periodic or not, if on the way there the line is nowhere midway between two pixels (for example if
the largest coordinate is odd, `neverMidway_odd`).

Missing: other displacements; C94_violated is one where the line is midway between two pixels. -/
theorem C94_farthest_partial (L : Legal periodic f.shape roi) (junk : ℚ) (fuel : Nat) (pow05 : K → K) (dbg : Bool) :
    ∃ r, Api.L pow05 dbg junk fuel roi f periodic .bresenham = ok r ∧ r.shape = roi ∧
      ∀ i i', InBox roi i → InBox roi i' → displacement roi i' = neg (displacement roi i) →
        IsFarthest roi i → NeverMidway (displacement roi i) → val r i = val r i' := by
  obtain ⟨r, hr, hs, h⟩ := C116_farthest_partial (f := f) L junk fuel pow05 dbg
  refine ⟨r, hr, hs, fun i i' hi hi' hneg hfar hn => ?_⟩
  have hil := inbox_length hi
  have hl := displacement_length hil
  have hr3 := L.rank
  by_cases h0 : IsZero (displacement roi i)
  · rw [same_index hi hi' hneg h0]
  · have h0' := not_zero_neg hneg h0
    have hfar' : IsFarthest roi i' := by
      obtain ⟨a, ha, hb⟩ := hfar
      refine ⟨a, ha, fun j hj b hb' => (hb j hj b hb').trans ?_⟩
      rw [hneg, neg_getD, Int.natAbs_neg]
    obtain ⟨p, hp, hpl, ep⟩ := h i hi hfar h0
    obtain ⟨q, hq, hql, eq⟩ := h i' hi' hfar' h0'
    have hsame := L.same
    rw [hneg] at hq
    have c1 := lit_count_le (periodic := periodic) (f := f) (by omega) junk fuel (by omega)
      (space_ne_zero (by omega) h0) hn hp (by rwa [hsame]) hq (by rwa [hsame])
    have c2 := lit_count_le (periodic := periodic) (f := f) (by omega) junk fuel (d := neg (displacement roi i))
      (by rw [neg_length]; omega) (by rw [← hneg]; exact space_ne_zero (by rw [hneg, neg_length]; omega) h0')
      (neverMidway_neg hn) hq (by rwa [hsame]) (by rw [neg_neg']; exact hp) (by rwa [hsame])
    rw [ep, eq, le_antisymm c1 c2]

/-! ### Mode actual -/

theorem crosses_turn {v y : List Int} (h : Crosses (neg v) y) : Crosses v (move y v) := by
  obtain ⟨t, t0, t1, hy⟩ := h
  refine ⟨1 - t, by linarith, by linarith, ?_⟩
  clear t0 t1
  induction v generalizing y with
  | nil => cases hy; exact List.Forall₂.nil
  | cons a v ih =>
    cases hy with
    | cons h1 h2 =>
      refine List.Forall₂.cons ?_ (ih h2)
      push_cast at h1 ⊢
      rw [show ∀ b : ℚ, b + a - (1 - t) * a = b - t * -a by intro b; ring]
      exact h1

theorem crosses_end (v : List Int) : Crosses v v := by
  refine ⟨1, by norm_num, le_refl _, ?_⟩
  rw [List.forall₂_same]
  intro a _
  norm_num

theorem space_bound {d : List Int} (h3 : d.length ≤ 3) {n : Nat} (hd : ∀ a ∈ d, a.natAbs ≤ n) :
    ∀ a ∈ inSpace d, a.natAbs ≤ n := by
  match d, h3 with
  | [], _ => simp [inSpace]
  | [a], _ => simpa [inSpace] using hd
  | [a, b], _ => simpa [inSpace] using hd
  | [a, b, c], _ => simpa [inSpace] using hd

theorem manhattan_zero : ∀ {n : Nat} {d : List Int}, d.length = n → manhattan (List.replicate n 0) d = 0 →
    d = List.replicate n 0
  | 0, [], _, _ => rfl
  | n + 1, a :: d, hl, h => by
    have h' : a.natAbs + manhattan (List.replicate n 0) d = 0 := by
      simpa [manhattan, List.replicate_succ] using h
    rw [List.replicate_succ, ← manhattan_zero (n := n) (by simpa using hl) (by omega)]
    congr 1
    omega

theorem lit_count_actual (hr : f.shape.length ≤ 3) (junk : ℚ) (fuel : Nat) {d : List Int}
    (hd : d.length = f.shape.length) (hd0 : inSpace d ≠ [0, 0, 0]) (hb : ∀ a ∈ d, a.natAbs ≤ 707)
    (hf : manhattan [0, 0, 0] (inSpace d) ≤ fuel) {p q : List (List Int)}
    (hp : Verif.Path.path junk fuel [0, 0, 0] (inSpace d) .actual = ok (p.map inSpace))
    (hpl : ∀ e ∈ p, e.length = f.shape.length)
    (hq : Verif.Path.path junk fuel [0, 0, 0] (inSpace (neg d)) .actual = ok (q.map inSpace))
    (hql : ∀ e ∈ q, e.length = f.shape.length) :
    ((pixels f.shape).filter fun x => LitAlong periodic f p x).length ≤
      ((pixels f.shape).filter fun x => LitAlong periodic f q x).length := by
  have h3 : d.length ≤ 3 := by omega
  have h3' : (neg d).length ≤ 3 := by rw [neg_length]; omega
  have exactly : ∀ {d : List Int} {p : List (List Int)}, d.length ≤ 3 → inSpace d ≠ [0, 0, 0] →
      (∀ a ∈ d, a.natAbs ≤ 707) → manhattan [0, 0, 0] (inSpace d) ≤ fuel →
      Verif.Path.path junk fuel [0, 0, 0] (inSpace d) .actual = ok (p.map inSpace) →
      ∀ y, y ∈ p.map inSpace ↔ Crosses (inSpace d) y := by
    intro d p h3 hd0 hb hf hp
    have l3 := inSpace_length h3
    have eo : origin (inSpace d).length = [0, 0, 0] := by rw [l3]; rfl
    obtain ⟨ret, e, h⟩ := C56_actual_exactly_partial junk (fuel := fuel) (x1 := inSpace d) (by omega)
      (space_bound h3 hb) (fun h => hd0 (by rw [eo] at h; exact manhattan_zero (n := 3) l3 h)) (by rw [eo]; exact hf)
    rw [eo, hp] at e
    injection e with e
    rw [e]
    exact h
  have hneg0 : inSpace (neg d) ≠ [0, 0, 0] := by
    rw [← neg_space h3]
    intro h
    apply hd0
    rw [← neg_neg' (inSpace d), h]
    rfl
  have hmn : manhattan [0, 0, 0] (inSpace (neg d)) = manhattan [0, 0, 0] (inSpace d) := by
    match d, h3 with
    | [], _ => rfl
    | [_], _ => simp [manhattan, inSpace, neg]
    | [_, _], _ => simp [manhattan, inSpace, neg]
    | [_, _, _], _ => simp [manhattan, inSpace, neg]
  have xp := exactly h3 hd0 hb hf hp
  have xq := exactly h3' hneg0 (by
    intro a ha
    obtain ⟨b, hb', rfl⟩ := List.mem_map.1 ha
    rw [Int.natAbs_neg]
    exact hb b hb') (by rw [hmn]; exact hf) hq
  have back : ∀ e : List Int, e.length = f.shape.length → inSpace e ∈ p.map inSpace → e ∈ p := by
    intro e he hm
    obtain ⟨e', he', ee⟩ := List.mem_map.1 hm
    rw [inSpace_eq, inSpace_eq] at ee
    have h1 := hpl e' he'
    rwa [(raise_inj (by omega) (by omega)).1 ee] at he'
  refine lit_count_of hd hpl (back d hd ((xp _).2 (crosses_end _))) fun e' he' => ?_
  have h2 := hql e' he'
  have hl : (move e' d).length = f.shape.length := by rw [move_length (by omega)]; omega
  refine ⟨move e' d, back _ hl ?_, ?_⟩
  · rw [xp, inSpace_eq (move e' d), ← move_raise (by omega) (by omega), ← inSpace_eq, ← inSpace_eq]
    apply crosses_turn
    rw [neg_space h3]
    exact (xq _).1 (List.mem_map.2 ⟨e', he', rfl⟩)
  · refine List.ext_getElem (by simp [move, neg]; omega) fun i h1 h2 => ?_
    simp [move, neg]

/-- L with paths of mode actual is the same at opposite corners of the region of interest, periodic or not, for regions
of at most 1415 pixels along each axis.

Missing: other displacements, and mode full. -/
theorem C94_corner_actual_partial (L : Legal periodic f.shape roi) (junk : ℚ) {fuel : Nat}
    (hm : Enough fuel roi .actual) (hroi : ∀ n ∈ roi, n ≤ 1415) (pow05 : K → K) (dbg : Bool) :
    ∃ r, Api.L pow05 dbg junk fuel roi f periodic .actual = ok r ∧ r.shape = roi ∧
      ∀ i i', InBox roi i → InBox roi i' → IsCorner roi i → IsCorner roi i' →
        displacement roi i' = neg (displacement roi i) → val r i = val r i' := by
  obtain ⟨r, hr, hs, h⟩ := C116_corner_partial (f := f) L junk hm pow05 dbg
  refine ⟨r, hr, hs, fun i i' hi hi' hc hc' hneg => ?_⟩
  have hil := inbox_length hi
  have hl := displacement_length hil
  have hr3 := L.rank
  by_cases h0 : IsZero (displacement roi i)
  · rw [same_index hi hi' hneg h0]
  · have h0' := not_zero_neg hneg h0
    obtain ⟨p, hp, hpl, ep⟩ := h i hi hc h0
    obtain ⟨q, hq, hql, eq⟩ := h i' hi' hc' h0'
    have hsame := L.same
    have bound : ∀ {j : List Int}, InBox roi j → ∀ a ∈ displacement roi j, a.natAbs ≤ 707 := by
      intro j hj a ha
      obtain ⟨k, hk, rfl⟩ := List.mem_iff_getElem.1 ha
      have hk' : k < roi.length := by rw [displacement_length (inbox_length hj)] at hk; exact hk
      have e := displacement_getD (inbox_length hj) hk'
      rw [List.getD_eq_getElem?_getD, List.getElem?_eq_getElem hk, Option.getD_some] at e
      rw [e]
      have h1 := inbox_getD hj hk'
      have h2 := hroi (roi.getD k 0) (by simp [List.getD_eq_getElem?_getD, hk'])
      omega
    have fuelled : ∀ {j : List Int}, InBox roi j → manhattan [0, 0, 0] (inSpace (displacement roi j)) ≤ fuel := by
      intro j hj
      rw [inSpace_eq]
      exact (enough_bounds hr3 hm (by simp) hj).2.le
    rw [hneg] at hq
    have c1 := lit_count_actual (periodic := periodic) (f := f) (by omega) junk fuel (by omega)
      (space_ne_zero (by omega) h0) (bound hi) (fuelled hi) hp (by rwa [hsame]) hq (by rwa [hsame])
    have c2 := lit_count_actual (periodic := periodic) (f := f) (by omega) junk fuel (d := neg (displacement roi i))
      (by rw [neg_length]; omega) (by rw [← hneg]; exact space_ne_zero (by rw [hneg, neg_length]; omega) h0')
      (by rw [← hneg]; exact bound hi') (by rw [← hneg]; exact fuelled hi') hq (by rwa [hsame])
      (by rw [neg_neg']; exact hp) (by rwa [hsame])
    rw [ep, eq, le_antisymm c1 c2]

/-- Corners (2, 1) and (-2, -1) of a region of five by three pixels: with Bresenham paths L can differ
there (as in `C94_violated`), but not with paths of mode actual. -/
example : Legal true [3, 5] [5, 3] ∧ Enough 9 [5, 3] .actual ∧ InBox [5, 3] [4, 2] ∧ InBox [5, 3] [0, 0] ∧
    IsCorner [5, 3] [4, 2] ∧ IsCorner [5, 3] [0, 0] ∧
    displacement [5, 3] [0, 0] = neg (displacement [5, 3] [4, 2]) :=
  ⟨⟨by decide, by decide, rfl, fun _ => by simp⟩, fun _ => ⟨by decide, by decide⟩, by simp [InBox], by simp [InBox],
    by unfold IsCorner; decide, by unfold IsCorner; decide, by decide⟩

/-- Displacements `(3, 1)` and `(-3, -1)` of a region of seven by seven pixels. -/
example : Legal false [5, 6] [7, 7] ∧ InBox [7, 7] [6, 4] ∧ InBox [7, 7] [0, 2] ∧
    displacement [7, 7] [6, 4] = [3, 1] ∧ displacement [7, 7] [0, 2] = neg (displacement [7, 7] [6, 4]) ∧
    IsFarthest [7, 7] [6, 4] ∧ NeverMidway [3, 1] := by
  refine ⟨⟨by decide, by decide, rfl, fun h => by cases h⟩, by simp [InBox], by simp [InBox], by decide, by decide,
    ⟨0, by decide, fun j hj b hb => ?_⟩, neverMidway_odd (by decide)⟩
  rw [displacement_getD (inbox_length hj) hb]
  have h1 := inbox_getD hj hb
  have e : ([7, 7] : List Nat).getD b 0 = 7 := by
    match b, hb with
    | 0, _ => rfl
    | 1, _ => rfl
  rw [e] at h1 ⊢
  have e2 : (displacement [7, 7] [6, 4]).getD 0 0 = 3 := by decide
  rw [e2]
  omega

end Verif.Props
