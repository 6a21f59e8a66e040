import Verif.Model.PythonRest
import Verif.Props.PythonSession
import Verif.Props.Path
import Verif.Props.PathLine32
import Verif.Props.FloatStart
import Verif.Props.Center
import Verif.Props.Dummy32All

/-! # Paths, circles and centers in Python (C103) -/

namespace Verif.Props

open Verif Outcome Spec Python

/-! ### Paths and circles -/

theorem toInt32_trunc {x : ℚ} (h : -2147483648 ≤ trunc x ∧ trunc x < 2147483648) : toInt32 x = trunc x := by
  unfold toInt32
  omega

theorem map_toInt32 {l : List ℚ} (h : ∀ x ∈ l, -2147483648 ≤ trunc x ∧ trunc x < 2147483648) :
    l.map toInt32 = l.map trunc := List.map_congr_left fun x hx => toInt32_trunc (h x hx)

/-- The array is one-dimensional, and its values fit in 32 bits. -/
def Fits32 (a : Arr) : Prop := a.shape.length = 1 ∧ ∀ x ∈ a.values, -2147483648 ≤ trunc x ∧ trunc x < 2147483648

private theorem ints_fit {a : Arr} (h : Fits32 a) : ∀ c ∈ a.values.map trunc, -2 ^ 31 ≤ c ∧ c < 2 ^ 31 := by
  intro c hc
  obtain ⟨x, hx, rfl⟩ := List.mem_map.1 hc
  have := h.2 x hx
  norm_num
  exact this

/-- `path` in Python: between the points whose coordinates are those of the arrays without their fractional part, of
whatever type the arrays are. Missing: coordinates beyond 32 bits are taken modulo `2 ** 32`, `C103_violated`. -/
theorem C103_path_partial (junk : ℚ) (fuel : Nat) {xa xb : Arr} (ha : Fits32 xa) (hb : Fits32 xb)
    (h3 : xa.values.length ≤ 3) (hl : xa.values.length = xb.values.length)
    (hne : xa.values.map trunc ≠ xb.values.map trunc)
    (hd : ∀ i < xa.values.length, |(xb.values.map trunc).getD i 0 - (xa.values.map trunc).getD i 0| < 2 ^ 30) :
    Python.path junk fuel xa xb .bresenham =
      Path.path junk fuel (xa.values.map trunc) (xb.values.map trunc) .bresenham ∧
    ∃ ret, Python.path junk fuel xa xb .bresenham = ok ret ∧
      ret.length = chebyshev (xa.values.map trunc) (xb.values.map trunc) + 1 ∧
      ret.head? = some (xa.values.map trunc) ∧ ret.getLast? = some (xb.values.map trunc) := by
  have e : Python.path junk fuel xa xb .bresenham =
      Path.path junk fuel (xa.values.map trunc) (xb.values.map trunc) .bresenham := by
    unfold Python.path
    rw [if_neg (by rw [ha.1, hb.1]; simp), map_toInt32 ha.2, map_toInt32 hb.2]
    exact C76_path junk fuel (by simpa using h3) (by simpa using hl) hne (ints_fit ha) (ints_fit hb) (by simpa using hd)
  refine ⟨e, ?_⟩
  rw [e]
  obtain ⟨ret, e', h1, h2, h4, -⟩ := C26_bresenham junk fuel (x0 := xa.values.map trunc) (x1 := xb.values.map trunc)
    (by simpa using h3) (by simpa using hl) hne
  exact ⟨ret, e', h1, h2, h4⟩

/-- `path` in Python, modes `actual` and `full`: the path between the points without their fractional part, if all of it
fits in 32 bits; otherwise there is none. -/
theorem C103_line_partial (junk : ℚ) (fuel : Nat) {xa xb : Arr} (ha : Fits32 xa) (hb : Fits32 xb)
    (h3 : xa.values.length ≤ 3) (hl : xa.values.length = xb.values.length) {mode : Path.Mode}
    (hm : mode = .actual ∨ mode = .full) (p : List (List Int)) :
    Python.path junk fuel xa xb mode = ok p ↔
      Path.path junk fuel (xa.values.map trunc) (xb.values.map trunc) mode = ok p ∧
        PathFits (xa.values.map trunc) (xb.values.map trunc) p := by
  unfold Python.path
  rw [if_neg (by rw [ha.1, hb.1]; simp), map_toInt32 ha.2, map_toInt32 hb.2]
  exact C123_same junk fuel (by simpa using h3) (by simpa using hl) (ints_fit ha) hm p

/-- The same in `double`, as the module computes it: with coordinates of the first point up to 65536 and points at most
707 apart the call returns the path of exact arithmetic if the line through both passes through the inside of the
pixel of the origin, and is undefined behaviour otherwise (`C112_endless`). -/
theorem C103_double_partial {rnd : ℚ → ℚ} (hr : Path.Rounding rnd) (junk : Fl rnd) (junk' : ℚ) {fuel : Nat}
    (hf : 2 ^ 31 ≤ fuel) {xa xb : Arr} (ha : Fits32 xa) (hb : Fits32 xb) (h3 : xa.values.length ≤ 3)
    (hl : xa.values.length = xb.values.length) (hne : xa.values.map trunc ≠ xb.values.map trunc)
    (h0 : ∀ x ∈ xa.values, (trunc x).natAbs ≤ 65536)
    (hd : chebyshev (xa.values.map trunc) (xb.values.map trunc) ≤ 707) {mode : Path.Mode}
    (hm : mode = .actual ∨ mode = .full) :
    (ThroughOrigin (xa.values.map trunc) (xb.values.map trunc) → ∃ p, Python.path junk fuel xa xb mode = ok p ∧
      Path.path junk' fuel (xa.values.map trunc) (xb.values.map trunc) mode = ok p) ∧
    (¬ ThroughOrigin (xa.values.map trunc) (xb.values.map trunc) → Python.path junk fuel xa xb mode = ub) := by
  unfold Python.path
  rw [if_neg (by rw [ha.1, hb.1]; simp), map_toInt32 ha.2, map_toInt32 hb.2]
  refine C123_double hr junk junk' hf (by simpa using h3) (by simpa using hl) hne ?_ hd hm
  intro c hc
  obtain ⟨x, hx, rfl⟩ := List.mem_map.1 hc
  exact h0 x hx

/-- From `(1.5, 0)` to `(2, 1)`. -/
example (junk : Fl rnd64) : Python.path junk (2 ^ 31) ⟨.float64, [2], [3 / 2, 0]⟩ ⟨.int64, [2], [2, 1]⟩ .full = ub := by
  have e0 : [(3 / 2 : ℚ), 0].map trunc = [1, 0] := by decide +kernel
  have e1 : [(2 : ℚ), 1].map trunc = [2, 1] := by decide +kernel
  refine (C103_double_partial (xa := ⟨.float64, [2], [3 / 2, 0]⟩) (xb := ⟨.int64, [2], [2, 1]⟩) rnd64_rounding junk 0
    (le_refl _) ⟨rfl, by decide +kernel⟩ ⟨rfl, by decide +kernel⟩ (by decide) rfl (by decide +kernel)
    (by decide +kernel) (by decide +kernel) (Or.inr rfl)).2 ?_
  dsimp only
  rw [e0, e1]
  rintro ⟨l, h⟩
  have h0 := h 0 (by decide) (by decide)
  have h1 := h 1 (by decide) (by decide)
  norm_num [List.getD, abs_lt] at h0 h1
  linarith [h0.2, h1.1]

/-- From `(0.5, -0.5)` to `(3, 2)`. -/
example : ∃ p, Python.path (0 : ℚ) 5 ⟨.float64, [2], [1 / 2, -1 / 2]⟩ ⟨.int64, [2], [3, 2]⟩ .full = ok p ∧
    Path.path (0 : ℚ) 5 [0, 0] [3, 2] .full = ok p := by
  have e0 : [(1 / 2 : ℚ), -1 / 2].map trunc = [0, 0] := by decide +kernel
  have e1 : [(3 : ℚ), 2].map trunc = [3, 2] := by decide +kernel
  obtain ⟨p, h1, h2⟩ := C123_right (fuel := 5) (x0 := [0, 0]) (x1 := [3, 2]) 0 (by decide) rfl (by decide) (by decide)
    (C112_origin [3, 2]) (by decide) (by decide) (by decide) (mode := .full) (Or.inr rfl)
  refine ⟨p, (C103_line_partial 0 5 (xa := ⟨.float64, [2], [1 / 2, -1 / 2]⟩) (xb := ⟨.int64, [2], [3, 2]⟩)
    ⟨rfl, by decide +kernel⟩ ⟨rfl, by decide +kernel⟩ (by decide) rfl (Or.inr rfl) p).2
    ⟨?_, ?_⟩, h2⟩
  · dsimp only
    rw [e0, e1]
    exact h2
  · dsimp only
    rw [e0, e1]
    exact ((C123_same 0 5 (x0 := [0, 0]) (x1 := [3, 2]) (by decide) rfl (by decide) (Or.inr rfl) p).1 h1).2

/-- From `(0.5, -1.5)` to `(3, 2)`. -/
example : Fits32 ⟨.float64, [2], [1 / 2, -3 / 2]⟩ ∧ Fits32 ⟨.int64, [2], [3, 2]⟩ ∧
    [(1 / 2 : ℚ), -3 / 2].map trunc = [0, -1] ∧
    Python.path (0 : ℚ) 9 ⟨.float64, [2], [1 / 2, -3 / 2]⟩ ⟨.int64, [2], [3, 2]⟩ .bresenham =
      ok [[0, -1], [1, 0], [2, 1], [3, 2]] := by
  refine ⟨⟨rfl, by decide +kernel⟩, ⟨rfl, by decide +kernel⟩, by decide +kernel, by decide +kernel⟩

/-- Points of another dimension are refused. -/
theorem C103_path_rejected (junk : ℚ) (fuel : Nat) (xa xb : Arr) (mode : Path.Mode)
    (h : xa.shape.length ≠ 1 ∨ xb.shape.length ≠ 1) : Python.path junk fuel xa xb mode = throws := by
  unfold Python.path
  rw [if_pos h]

/-- Coordinates beyond 32 bits are not refused: the path ends elsewhere, the circle is drawn elsewhere. -/
theorem C103_violated :
    Python.path (0 : ℚ) 9 ⟨.int64, [1], [0]⟩ ⟨.int64, [1], [4294967298]⟩ .bresenham = ok [[0], [1], [2]] ∧
    (Python.dummyCircles true [1, 2] ⟨.int64, [1], [0]⟩ ⟨.int64, [1], [4294967296]⟩ ⟨.int64, [1], [1]⟩ false).map
      Nd.toList = ok [1, 0] := by
  constructor <;> decide +kernel

/-- `dummy_circles` in Python: the positions and radii without their fractional part. -/
theorem C103_circles_partial (dbg : Bool) (m n : Nat) {row col r : Arr} (h1 : Fits32 row) (h2 : Fits32 col)
    (h3 : Fits32 r) (hc : row.values.length = col.values.length) (hr : row.values.length = r.values.length)
    (periodic : Bool) (h0 : periodic = true → 0 < m ∧ 0 < n)
    (hf : ∀ i < row.values.length, CircleFitsAny periodic m n ((row.values.map trunc).getD i 0)
      ((col.values.map trunc).getD i 0) ((r.values.map trunc).getD i 0)) :
    ∃ out, Python.dummyCircles dbg [m, n] row col r periodic = ok out ∧ out.shape = [m, n] ∧ ∀ x, InBox [m, n] x →
      (Covered periodic [m, n] (circlesOf (row.values.map trunc) (col.values.map trunc) (r.values.map trunc)) x →
        val out x = 1) ∧
      (¬ Covered periodic [m, n] (circlesOf (row.values.map trunc) (col.values.map trunc) (r.values.map trunc)) x →
        val out x = 0) := by
  unfold Python.dummyCircles
  rw [if_neg (by rw [h1.1, h2.1, h3.1]; simp), map_toInt32 h1.2, map_toInt32 h2.2, map_toInt32 h3.2,
    (C110_decided dbg m n periodic (by simpa using hc) (by simpa using hr)).1 (by simpa using hf)]
  exact C53_pixels dbg m n _ _ _ periodic (by simpa using hc) (by simpa using hr) h0

/-- Positions in an array of type `float64`. -/
example : Fits32 ⟨.float64, [2], [1 / 2, 7]⟩ ∧ Fits32 ⟨.int64, [2], [3, -2]⟩ ∧ Fits32 ⟨.int32, [2], [2, 4]⟩ := by
  refine ⟨⟨rfl, by decide +kernel⟩, ⟨rfl, by decide +kernel⟩, ⟨rfl, by decide +kernel⟩⟩

/-! ### Centers -/

theorem rowsOf_flatMap {α : Type} (n : Nat) (l : List α) (g : α → List ℚ) (hg : ∀ a ∈ l, (g a).length = n) :
    rowsOf n l.length (l.flatMap g) = l.map fun a => vector n (g a) := by
  induction l with
  | nil => rfl
  | cons a l ih =>
    have ih := ih fun b hb => hg b (List.mem_cons_of_mem _ hb)
    have ha := hg a List.mem_cons_self
    unfold rowsOf at ih ⊢
    rw [List.length_cons, List.range_succ_eq_map, List.map_cons, List.map_cons, List.map_map, ← ih, List.flatMap_cons]
    congr 1
    · funext j
      unfold vector
      simp [List.getD, List.getElem?_append_left (show (j : Nat) < (g a).length by rw [ha]; exact j.2)]
    · refine List.map_congr_left fun i _ => ?_
      funext j
      simp only [Function.comp_apply, List.getD]
      rw [List.getElem?_append_right (by rw [ha, Nat.succ_mul]; omega), ha]
      congr 4
      rw [Nat.succ_mul]
      omega

theorem unravel_len (shape : List Nat) (k : Nat) : (unravel shape k).length = shape.length := by
  induction shape generalizing k with
  | nil => rfl
  | cons n s ih => simp [unravel, ih]

theorem where_eq {labels : Arr} {v : List Int} (hv : Holds labels v)
    (hr : ∀ n ∈ v, -9223372036854775808 ≤ n ∧ n < 9223372036854775808) (name : Int) :
    (Center.argwhere (loadInt64 labels) name) = (where_ labels (name : ℚ)).map (unravel labels.shape) := by
  unfold Center.argwhere where_
  show ((List.range (prodShape labels.shape)).filter _).map _ = _
  congr 1
  refine List.filter_congr fun k _ => ?_
  show ((labels.values.map toInt64).getD k 0 == name) = _
  rw [holds_int64 hv hr, show labels.values = v.map (Int.cast : Int → ℚ) from hv, Bool.eq_iff_iff, beq_iff_eq, beq_iff_eq]
  by_cases hk : k < v.length
  · simp [List.getD, List.getElem?_eq_getElem hk]
  · simp only [List.getD, List.getElem?_map, List.getElem?_eq_none (not_lt.1 hk), Option.map_none, Option.getD_none]
    exact_mod_cast Iff.rfl

theorem rows_eq {labels : Arr} {v : List Int} (hv : Holds labels v)
    (hr : ∀ n ∈ v, -9223372036854775808 ≤ n ∧ n < 9223372036854775808) (name : Int) :
    rowsOf labels.shape.length (where_ labels (name : ℚ)).length (argwhere labels name).values =
      (Center.argwhere (loadInt64 labels) name).map (coords labels.shape.length) := by
  have e : (argwhere labels name).values = (where_ labels (name : ℚ)).flatMap fun k =>
      (unravel labels.shape k).map fun i : Int => (i : ℚ) := by
    unfold argwhere
    rw [List.map_flatMap]
  rw [e, rowsOf_flatMap _ _ _ fun k _ => by rw [List.length_map, unravel_len], where_eq hv hr, List.map_map]
  refine List.map_congr_left fun k _ => ?_
  funext j
  simp only [vector, coords, Function.comp_apply, List.getD, List.getElem?_map]
  cases (unravel labels.shape k)[(j : Nat)]? <;> simp

theorem vector_shape (labels : Arr) :
    vector labels.shape.length (shapeArr labels).values = box labels.shape.length labels.shape := by
  funext j
  unfold vector shapeArr box
  simp only [List.getD, List.getElem?_map]
  cases labels.shape[(j : Nat)]? <;> simp

/-- What the documentation says: `center(shape=labels.shape, positions=np.argwhere(labels == name), periodic)` is
`labels_centers(labels=labels, names=[name], periodic)[0, :]`, for whole labels in an array of any type. -/
theorem C103_equivalent (dbg : Bool) (labels : Arr) {v : List Int} (hv : Holds labels v)
    (hr : ∀ n ∈ v, -9223372036854775808 ≤ n ∧ n < 9223372036854775808) (h0 : 0 < labels.shape.length) (dtype : Dtype)
    {name : Int} (hname : -9223372036854775808 ≤ name ∧ name < 9223372036854775808)
    (negative : Nat → Fin labels.shape.length → Bool) (periodic : Bool) :
    ∃ row, Python.labelsCenters dbg labels negative ⟨dtype, [1], [(name : ℚ)]⟩ periodic = ok [row] ∧
      Python.center labels.shape.length (negative 0) (shapeArr labels) (argwhere labels name) periodic = ok row := by
  obtain ⟨rows, e, hlen, hrow⟩ := Center.labelsCenters_ok dbg negative (loadInt64 labels) rfl h0 [name] periodic
  match rows, hlen with
  | [row], _ =>
    have hrow := hrow 0 (by simp)
    simp only [List.getElem?_cons_zero, Option.some.injEq, List.getElem_cons_zero] at hrow
    refine ⟨row, ?_, ?_⟩
    · unfold Python.labelsCenters
      rw [if_neg (by simp)]
      show Center.labelsCenters dbg negative (loadInt64 labels) rfl [toInt64 (name : ℚ)] periodic = _
      rw [toInt64_int hname.1 hname.2]
      exact e
    · unfold Python.center
      rw [if_neg (by simp [shapeArr, argwhere]), if_neg (by simp [shapeArr, argwhere])]
      rw [hrow, vector_shape]
      have := rows_eq hv hr name
      show ok (Center.center _ _ (rowsOf _ (where_ labels (name : ℚ)).length (argwhere labels name).values) _) = _
      rw [this]
      rfl

/-- Likewise, with the weights of the pixels: `center_of_mass(labels.shape, np.argwhere(labels == name),
weights[labels == name], periodic)` is `labels_centers_of_mass(labels, weights, [name], periodic)[0, :]`. -/
theorem C103_equivalent_mass (dbg : Bool) (labels : Arr) {v : List Int} (hv : Holds labels v)
    (hr : ∀ n ∈ v, -9223372036854775808 ≤ n ∧ n < 9223372036854775808) (h0 : 0 < labels.shape.length) (dtype : Dtype)
    (weights : Arr) (hw : weights.shape = labels.shape)
    {name : Int} (hname : -9223372036854775808 ≤ name ∧ name < 9223372036854775808)
    (negative : Nat → Fin labels.shape.length → Bool) (periodic : Bool) :
    ∃ row, Python.labelsCentersOfMass dbg labels negative weights ⟨dtype, [1], [(name : ℚ)]⟩ periodic = ok [row] ∧
      Python.centerOfMass labels.shape.length (negative 0) (shapeArr labels) (argwhere labels name)
        (select weights labels name) periodic = ok row := by
  obtain ⟨rows, e, hlen, hrow⟩ := Center.labelsCentersOfMass_ok dbg negative (loadInt64 labels) rfl h0
    (loadDouble weights) hw [name] periodic
  match rows, hlen with
  | [row], _ =>
    have hrow := hrow 0 (by simp)
    simp only [List.getElem?_cons_zero, Option.some.injEq, List.getElem_cons_zero] at hrow
    refine ⟨row, ?_, ?_⟩
    · unfold Python.labelsCentersOfMass
      rw [if_neg (by simp)]
      show Center.labelsCentersOfMass dbg negative (loadInt64 labels) rfl (loadDouble weights) [toInt64 (name : ℚ)]
        periodic = _
      rw [toInt64_int hname.1 hname.2]
      exact e
    · unfold Python.centerOfMass
      rw [if_neg (by simp [shapeArr, argwhere, select]), if_neg (by simp [shapeArr, argwhere]), hrow, vector_shape]
      have e1 := rows_eq hv hr name
      have e2 : ((select weights labels name).values.map fun x : ℚ => (x : ℝ)) =
          (Center.argwhere (loadInt64 labels) name).map (val (loadDouble weights)) := by
        rw [where_eq hv hr, List.map_map]
        unfold select
        rw [List.map_map]
        refine List.map_congr_left fun k hk => ?_
        have hk : k < labels.shape.prod := by
          unfold where_ at hk
          rw [List.mem_filter, List.mem_range, Cluster.prodShape_eq] at hk
          exact hk.1
        rw [← hw] at hk
        simp only [Function.comp_apply]
        rw [← hw, val]
        show _ = (weights.values.map fun x : ℚ => (x : ℝ)).getD (flat weights.shape _).toNat 0
        rw [(unravel_inbox hk).2]
        simp only [List.getD, List.getElem?_map]
        cases weights.values[k]? <;> simp
      show ok (Center.centerOfMass _ _ (rowsOf _ (where_ labels (name : ℚ)).length (argwhere labels name).values) _ _) = _
      rw [e1, e2]
      rfl

/-- Labels in an array of type `float64`, one of them negative. -/
example : Holds ⟨.float64, [2, 2], [3, 0, -1, 3]⟩ [3, 0, -1, 3] ∧
    (argwhere ⟨.float64, [2, 2], [3, 0, -1, 3]⟩ 3).values = [0, 0, 1, 1] ∧
    (select ⟨.int64, [2, 2], [5, 6, 7, 8]⟩ ⟨.float64, [2, 2], [3, 0, -1, 3]⟩ 3).values = [5, 8] := by
  refine ⟨by simp [Holds], by decide +kernel, by decide +kernel⟩

/-- For labels that are not whole the two differ: the label `3 / 2` is `1` for `labels_centers`, but not for
`numpy.argwhere`. -/
theorem C103_fraction_violated (dbg : Bool) (negative : Nat → Fin 1 → Bool) :
    (∃ row, Python.labelsCenters dbg ⟨.float64, [2], [0, 3 / 2]⟩ negative ⟨.int64, [1], [1]⟩ false = ok [row] ∧
      row 0 = 1) ∧
    ∃ row, Python.center 1 (negative 0) (shapeArr ⟨.float64, [2], [0, 3 / 2]⟩) (argwhere ⟨.float64, [2], [0, 3 / 2]⟩ 1)
      false = ok row ∧ row 0 = 0 := by
  constructor
  · obtain ⟨rows, e, hlen, hrow⟩ := Center.labelsCenters_ok dbg negative (loadInt64 ⟨.float64, [2], [0, 3 / 2]⟩) rfl
      (by decide) [1] false
    match rows, hlen with
    | [row], _ =>
      have hrow := hrow 0 (by simp)
      simp only [List.getElem?_cons_zero, Option.some.injEq, List.getElem_cons_zero] at hrow
      refine ⟨row, ?_, ?_⟩
      · unfold Python.labelsCenters
        rw [if_neg (by simp)]
        have : toInt64 1 = 1 := by decide +kernel
        show Center.labelsCenters dbg negative _ rfl [toInt64 1] false = _
        rw [this]
        exact e
      · rw [hrow]
        have : Center.argwhere (loadInt64 ⟨.float64, [2], [0, 3 / 2]⟩) 1 = [[1]] := by decide +kernel
        rw [this]
        simp [Center.center, Center.mean, coords]
  · have : (where_ ⟨.float64, [2], [0, 3 / 2]⟩ 1) = [] := by decide +kernel
    refine ⟨fun _ => 0, ?_, rfl⟩
    unfold Python.center
    rw [if_neg (by simp [shapeArr, argwhere]), if_neg (by simp [shapeArr, argwhere])]
    have e2 : (argwhere ⟨.float64, [2], [0, 3 / 2]⟩ 1).shape.getD 0 0 = 0 := by
      simp [argwhere, this]
    rw [e2]
    simp [rowsOf, Center.center]

end Verif.Props
