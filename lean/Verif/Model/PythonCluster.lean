import Verif.Model.Python
import Verif.Model.Cluster

/-!
# Model of the cluster labeller and of `clusters` in the Python module

`/repo/python/GooseEYE/__init__.py:11-31` and `/repo/python/main.cpp:27-69,151-160`. External (assumed): a
parameter `xt::pytensor<T, N>` or `xt::pyarray<T>` accepts every array (of dimension `N`) and casts its elements to
`T`, to an integer type by truncation, modulo the range of the type.
-/

namespace Verif.Python

open Verif Outcome

/-- The conversion of a value to `int` (32 bits). External (pybind11, numpy); as used in `python/main.cpp`. -/
def toInt32 (x : ℚ) : Int := (trunc x + 2147483648) % 4294967296 - 2147483648

/-- The conversion of a value to `ptrdiff_t` (64 bits). External (pybind11, numpy); as used in `python/main.cpp`. -/
def toInt64 (x : ℚ) : Int := (trunc x + 9223372036854775808) % 18446744073709551616 - 9223372036854775808

/-- `GooseEYE.ClusterLabeller(shape, periodic)`, `__init__.py:11-31`; the classes `ClusterLabeller1`,
`ClusterLabeller1p`, ... are the instances of the template, `main.cpp:151-154`. -/
def clusterLabeller (shape : List Nat) (periodic : Bool) : Outcome Cluster.State :=
  if shape.length = 1 then
    if periodic then Cluster.construct true shape
    else Cluster.construct false shape
  else if shape.length = 2 then
    if periodic then Cluster.construct true shape
    else Cluster.construct false shape
  else if shape.length = 3 then
    if periodic then Cluster.construct true shape
    else Cluster.construct false shape
  else throws

/-- The method `add_image`, `main.cpp:50-54`: the parameter is `xt::pytensor<int, Dim>`, an array of another
dimension is refused. -/
def addImage (dbg : Bool) (s : Cluster.State) (img : Arr) : Outcome Cluster.State :=
  if img.shape.length = s.shape.length then Cluster.addImage dbg s img.shape (img.values.map toInt32)
  else throws

/-- The property `labels`, `main.cpp:47`. -/
def labels (s : Cluster.State) : List Int := s.label.toList

/-- `GooseEYE.clusters(f, periodic)`, `main.cpp:156-160`: the parameter is `xt::pyarray<ptrdiff_t>`. -/
def clusters (dbg : Bool) (f : Arr) (periodic : Bool) : Outcome (List Int) :=
  Cluster.clusters dbg f.shape (f.values.map toInt64) periodic

/-- The conversion of a value to `size_t`. External (pybind11, numpy); as used in `python/main.cpp`. -/
def toUsize (x : ℚ) : Int := trunc x % 18446744073709551616

/-- The constructor `ClusterLabeller2(shape, kernel)`, `ClusterLabeller2p(shape, kernel)`, ..., `main.cpp:38-42`: the
kernel is `xt::pytensor<int, Dim>`. (The factory of `__init__.py` does not take a kernel.) -/
def labellerKernel (dbg : Bool) (shape : List Nat) (kernel : Arr) (periodic : Bool) : Outcome Cluster.State :=
  if kernel.shape.length = shape.length then
    Cluster.constructKernel dbg periodic shape ⟨kernel.shape, kernel.values.map toInt32⟩
  else throws

/-- The method `add_points`, `main.cpp:56-60`: the parameter is `xt::pytensor<size_t, 1>`. -/
def addPoints (dbg : Bool) (s : Cluster.State) (idx : Arr) : Outcome Cluster.State :=
  if idx.shape.length = 1 then Cluster.addPoints dbg s (idx.values.map toUsize) else throws

/-- The method `add_sequence`, `main.cpp:62-66`: the parameter is `xt::pytensor<size_t, 1>`. -/
def addSequence (dbg : Bool) (s : Cluster.State) (idx : Arr) : Outcome (Cluster.State × List Nat) :=
  if idx.shape.length = 1 then Cluster.addSequence dbg s (idx.values.map toUsize) else throws

/-- A value of Python: a number or a list of numbers (`std::array` becomes a list).
External (pybind11, numpy); as used in `python/main.cpp`. -/
inductive Value where
  | number (n : Int)
  | list (l : List Int)
deriving DecidableEq, Repr

/-- The property `shape`, `main.cpp:45`. -/
def shapeAttr (s : Cluster.State) : Value := .list (s.shape.map fun n : Nat => (n : Int))

/-- The property `size`, `main.cpp:46`, which calls `shape()`. -/
def sizeAttr (s : Cluster.State) : Value := .list (s.shape.map fun n : Nat => (n : Int))

/-- The calls of a labeller in Python. `python/main.cpp` (the members of the class); no code of its own. -/
inductive Method where
  | addImage (img : Arr)
  | addPoints (idx : Arr)
  | addSequence (idx : Arr)
  | prune
  | reset

/-- One call, with what it returns (`main.cpp:48-66`). -/
def Method.call (dbg : Bool) (s : Cluster.State) : Method → Outcome (Cluster.State × List Nat)
  | .addImage img => (Python.addImage dbg s img).bind fun s => ok (s, [])
  | .addPoints idx => (Python.addPoints dbg s idx).bind fun s => ok (s, [])
  | .addSequence idx => Python.addSequence dbg s idx
  | .prune => (Cluster.prune s).bind fun s => ok (s, [])
  | .reset => ok (Cluster.reset s, [])

/-- A sequence of calls on one labeller. `python/main.cpp` (the members of the class); no code of its own. -/
def session (dbg : Bool) (s : Cluster.State) : List Method → Outcome (Cluster.State × List (List Nat))
  | [] => ok (s, [])
  | m :: ms =>
    (m.call dbg s).bind fun r =>
    (session dbg r.1 ms).bind fun t => ok (t.1, r.2 :: t.2)

end Verif.Python
