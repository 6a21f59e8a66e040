import Verif.Model.NdArray
import Mathlib.Analysis.SpecialFunctions.Complex.Arg

/-!
# Model of `center`, `center_of_mass`, `labels_centers` and `labels_centers_of_mass`

`/repo/include/GooseEYE/GooseEYE.h:1246-1390`. Numbers are real: rounding is not modelled. The positions are
a list of rows of the same length `n` as the shape (`Fin n → ℝ`); arrays whose numbers of columns differ are
not modelled. Division by zero gives zero (in the code: `nan` or infinity).
-/

namespace Verif.Center

/-- `std::atan2(y, x)` (external). For `y = 0` and `x < 0` the result depends on the sign of the zero:
`negative` says that it is negative. -/
noncomputable def atan2 (negative : Bool) (y x : ℝ) : ℝ :=
  if negative = true ∧ y = 0 ∧ x < 0 then -Real.pi else Complex.arg ⟨x, y⟩

/-- `xt::mean(·, 0)` of one column (external). -/
noncomputable def mean (l : List ℝ) : ℝ := l.sum / l.length

/-- `xt::average(·, weights, 0)` of one column (external). -/
noncomputable def average (l w : List ℝ) : ℝ := (List.zipWith (fun w x => w * x) w l).sum / w.sum

variable {n : Nat}

/-- `center(shape, positions, periodic)`, `GooseEYE.h:1246-1268`. The signs of zeros are arbitrary. -/
noncomputable def center (negative : Fin n → Bool) (shape : Fin n → ℝ) (positions : List (Fin n → ℝ))
    (periodic : Bool) : Fin n → ℝ :=
  if positions.length * n = 0 then fun _ => 0
  else if !periodic then fun j => mean (positions.map fun p => p j)
  else fun j =>
    let theta := positions.map fun p => 2 * Real.pi * p j / shape j
    let xiBar := mean (theta.map Real.cos)
    let zetaBar := mean (theta.map Real.sin)
    let thetaBar := atan2 (negative j) (-zetaBar) (-xiBar) + Real.pi
    shape j * thetaBar / (2 * Real.pi)

/-- `center_of_mass(shape, positions, weights, periodic)`, `GooseEYE.h:1274-1297`. -/
noncomputable def centerOfMass (negative : Fin n → Bool) (shape : Fin n → ℝ) (positions : List (Fin n → ℝ))
    (weights : List ℝ) (periodic : Bool) : Fin n → ℝ :=
  if positions.length * n = 0 then fun _ => 0
  else if !periodic then fun j => average (positions.map fun p => p j) weights
  else fun j =>
    let theta := positions.map fun p => 2 * Real.pi * p j / shape j
    let xiBar := average (theta.map Real.cos) weights
    let zetaBar := average (theta.map Real.sin) weights
    let thetaBar := atan2 (negative j) (-zetaBar) (-xiBar) + Real.pi
    shape j * thetaBar / (2 * Real.pi)

/-- `xt::argwhere(xt::equal(labels, name))` (external): the indices in row-major order. -/
def argwhere (labels : Nd Int) (name : Int) : List (List Int) :=
  ((List.range labels.size).filter fun k => labels.get k == name).map (unravel labels.shape)

/-- `xt::from_indices` (external), converted to `double`. -/
noncomputable def fromIndices (n : Nat) (l : List (List Int)) : List (Fin n → ℝ) :=
  l.map fun x j => ((x.getD j 0 : Int) : ℝ)

/-- `array_type::tensor<double, 1> shape = xt::adapt(labels.shape())`, `GooseEYE.h:1347`. -/
noncomputable def adapt (shape : List Nat) : Fin shape.length → ℝ := fun j => (shape[j] : ℝ)

/-- `xt::view(ret, l, xt::all()) = row` for a legal `l`. `GooseEYE.h:1356`, `1385`. -/
def setRow {α : Type} (ret : List α) (l : Nat) (row : α) : List α := ret.set l row

/-- `labels_centers(labels, names, periodic)`, `GooseEYE.h:1338-1360`. `names` is one-dimensional: that
assertion is not modelled. -/
noncomputable def labelsCenters (dbg : Bool) (negative : Nat → Fin n → Bool) (labels : Nd Int)
    (hn : labels.shape.length = n) (names : List Int) (periodic : Bool) : Outcome (List (Fin n → ℝ)) := do
  gassert dbg (decide (0 < labels.shape.length))
  let shape : Fin n → ℝ := fun j => adapt labels.shape (j.cast hn.symm)
  forM (names.zipIdx) (List.replicate names.length fun _ => 0) fun ret l =>
    let positions := fromIndices n (argwhere labels l.1)
    if positions.length * n = 0 then pure ret
    else pure (setRow ret l.2 (center (negative l.2) shape positions periodic))

/-- `labels_centers_of_mass(labels, weights, names, periodic)`, `GooseEYE.h:1366-1390`. `w[pos[i]]` reads
the element of `weights` at the same index. -/
noncomputable def labelsCentersOfMass (dbg : Bool) (negative : Nat → Fin n → Bool) (labels : Nd Int)
    (hn : labels.shape.length = n) (weights : Nd ℝ) (names : List Int) (periodic : Bool) :
    Outcome (List (Fin n → ℝ)) := do
  gassert dbg (decide (labels.shape = weights.shape))
  gassert dbg (decide (0 < labels.shape.length))
  let shape : Fin n → ℝ := fun j => adapt labels.shape (j.cast hn.symm)
  forM (names.zipIdx) (List.replicate names.length fun _ => 0) fun ret l => do
    let pos := argwhere labels l.1
    let w ← forM pos ([] : List ℝ) fun w x => do
      let v ← weights.read x
      pure (w ++ [v])
    let positions := fromIndices n pos
    if positions.length * n = 0 then pure ret
    else pure (setRow ret l.2 (centerOfMass (negative l.2) shape positions w periodic))

end Verif.Center
