import Verif.Model.PythonLabels
import Verif.Model.Center
import Verif.Model.Path32
import Verif.Model.Dummy32

/-!
# Model of `path`, `dummy_circles`, `center`, `labels_centers`, ... in the Python module

`/repo/python/main.cpp:90-119` and `192-222`. External (assumed): as in `Verif.Model.PythonCluster`; an array of another
dimension than that of the parameter is refused. Numbers are converted to `double` without error. `numpy.argwhere` and
the selection by a condition are those with which the documentation of `center` (`GooseEYE.h:1225-1235`) states to what
the functions are equivalent.
-/

namespace Verif.Python

open Verif Outcome

/-- `GooseEYE.path(xa, xb, mode)`, `main.cpp:90-95`: the points are `xt::pytensor<int, 1>`. `K` is the arithmetic of
`double` (`Fl rnd`) or exact arithmetic (`ℚ`). -/
def path {K : Type} [Zero K] [One K] [Add K] [Sub K] [Neg K] [Mul K] [Div K] [NatCast K] [IntCast K] [DecidableEq K]
    [LT K] [DecidableLT K] (junk : K) (fuel : Nat) (xa xb : Arr) (mode : Path.Mode) : Outcome (List (List Int)) :=
  if xa.shape.length ≠ 1 ∨ xb.shape.length ≠ 1 then throws
  else Path.path32 junk fuel (xa.values.map toInt32) (xb.values.map toInt32) mode

/-- `GooseEYE.dummy_circles(shape, row, col, r, periodic)`, `main.cpp:104-117`: `row`, `col` and `r` are
`xt::pytensor<int, 1>`. -/
def dummyCircles (dbg : Bool) (shape : List Nat) (row col r : Arr) (periodic : Bool) : Outcome (Nd Int) :=
  if row.shape.length ≠ 1 ∨ col.shape.length ≠ 1 ∨ r.shape.length ≠ 1 then throws
  else Dummy.dummyCircles32 dbg shape (row.values.map toInt32) (col.values.map toInt32) (r.values.map toInt32) periodic

/-- A vector of `n` numbers. External (numpy, xtensor-python); as used in `python/main.cpp`. -/
noncomputable def vector (n : Nat) (values : List ℚ) : Fin n → ℝ := fun j => (values.getD j 0 : ℝ)

/-- The rows of an array of `n` columns. External (numpy, xtensor-python); as used in `python/main.cpp`. -/
noncomputable def rowsOf (n rows : Nat) (values : List ℚ) : List (Fin n → ℝ) :=
  (List.range rows).map fun i j => (values.getD (i * n + j) 0 : ℝ)

/-- `GooseEYE.center(shape, positions, periodic)`, `main.cpp:192-197`: `xt::pytensor<double, 1>` and
`xt::pytensor<double, 2>`. Numbers of columns that differ are not modelled (`ub`). -/
noncomputable def center (n : Nat) (negative : Fin n → Bool) (shape positions : Arr) (periodic : Bool) :
    Outcome (Fin n → ℝ) :=
  if shape.shape.length ≠ 1 ∨ positions.shape.length ≠ 2 then throws
  else if shape.shape ≠ [n] ∨ positions.shape.getD 1 0 ≠ n then ub
  else ok (Center.center negative (vector n shape.values) (rowsOf n (positions.shape.getD 0 0) positions.values) periodic)

/-- `GooseEYE.center_of_mass(shape, positions, weights, periodic)`, `main.cpp:199-205`. -/
noncomputable def centerOfMass (n : Nat) (negative : Fin n → Bool) (shape positions weights : Arr) (periodic : Bool) :
    Outcome (Fin n → ℝ) :=
  if shape.shape.length ≠ 1 ∨ positions.shape.length ≠ 2 ∨ weights.shape.length ≠ 1 then throws
  else if shape.shape ≠ [n] ∨ positions.shape.getD 1 0 ≠ n then ub
  else ok (Center.centerOfMass negative (vector n shape.values) (rowsOf n (positions.shape.getD 0 0) positions.values)
    (weights.values.map fun x : ℚ => (x : ℝ)) periodic)

/-- An array as received by a parameter `xt::pyarray<ptrdiff_t>`.
External (numpy, xtensor-python); as used in `python/main.cpp`. -/
def loadInt64 (a : Arr) : Nd Int := Nd.ofList a.shape (a.values.map toInt64)

/-- An array as received by a parameter `xt::pyarray<double>`.
External (numpy, xtensor-python); as used in `python/main.cpp`. -/
noncomputable def loadDouble (a : Arr) : Nd ℝ := Nd.ofList a.shape (a.values.map fun x : ℚ => (x : ℝ))

/-- `GooseEYE.labels_centers(labels, names, periodic)`, `main.cpp:207-212`. -/
noncomputable def labelsCenters (dbg : Bool) (labels : Arr) (negative : Nat → Fin labels.shape.length → Bool) (names : Arr)
    (periodic : Bool) : Outcome (List (Fin labels.shape.length → ℝ)) :=
  if names.shape.length ≠ 1 then throws
  else Center.labelsCenters dbg negative (loadInt64 labels) rfl (names.values.map toInt64) periodic

/-- `GooseEYE.labels_centers_of_mass(labels, weights, names, periodic)`, `main.cpp:214-222`. -/
noncomputable def labelsCentersOfMass (dbg : Bool) (labels : Arr) (negative : Nat → Fin labels.shape.length → Bool)
    (weights names : Arr) (periodic : Bool) : Outcome (List (Fin labels.shape.length → ℝ)) :=
  if names.shape.length ≠ 1 then throws
  else Center.labelsCentersOfMass dbg negative (loadInt64 labels) rfl (loadDouble weights) (names.values.map toInt64)
    periodic

/-- The elements of an array that are equal to `name`, as numbers of the element.
External (numpy, xtensor-python); as used in `python/main.cpp`. -/
def where_ (a : Arr) (name : ℚ) : List Nat := (List.range (prodShape a.shape)).filter fun k => a.values.getD k 0 == name

/-- `numpy.argwhere(a == name)` (external): one row per element, in row-major order. -/
def argwhere (a : Arr) (name : ℚ) : Arr :=
  ⟨.int64, [(where_ a name).length, a.shape.length],
    ((where_ a name).flatMap fun k => unravel a.shape k).map fun i : Int => (i : ℚ)⟩

/-- `w[a == name]` (external). -/
def select (w a : Arr) (name : ℚ) : Arr :=
  ⟨w.dtype, [(where_ a name).length], (where_ a name).map fun k => w.values.getD k 0⟩

/-- `a.shape`, a tuple of integers, as an array. External (numpy, xtensor-python); as used in `python/main.cpp`. -/
def shapeArr (a : Arr) : Arr := ⟨.int64, [a.shape.length], a.shape.map fun n : Nat => (n : ℚ)⟩

end Verif.Python
