import Verif.Model.PythonCluster
import Verif.Model.Labels

/-!
# Model of the functions on labels in the Python module

`/repo/python/main.cpp:163-190`. External (assumed): as in `Verif.Model.PythonCluster`. Not modelled: the shape of the
result, which is that of the labels.
-/

namespace Verif.Python

open Verif Outcome

/-- The rows of an array of two columns. External (xtensor-python); as used in `python/main.cpp`. -/
def rows2 : List Int → List (Int × Int)
  | a :: b :: l => (a, b) :: rows2 l
  | _ => []

/-- `GooseEYE.labels_map(a, b)`, `main.cpp:163`. -/
def labelsMap (a b : Arr) : Outcome (List (Int × Int)) :=
  Labels.labelsMap (a.values.map toInt64) (b.values.map toInt64)

/-- `GooseEYE.labels_rename(labels, rename)`, `main.cpp:165-169`: the table is `xt::xtensor<ptrdiff_t, 2>`. The
assertion on the number of columns is `GooseEYE.h:459`; without it a table of another number of columns is not
modelled (`ub`). -/
def labelsRename (dbg : Bool) (labels rename : Arr) : Outcome (List Int) :=
  if rename.shape.length ≠ 2 then throws
  else if rename.shape.getD 1 0 = 2 then
    Labels.labelsRename dbg (labels.values.map toInt64) (rows2 (rename.values.map toInt64))
  else if dbg then throws
  else ub

/-- `GooseEYE.labels_prune(labels)`, `main.cpp:171`. -/
def labelsPrune (dbg : Bool) (labels : Arr) : Outcome (List Int) :=
  Labels.labelsPrune dbg (labels.values.map toInt64)

/-- `GooseEYE.labels_reorder(labels, order)`, `main.cpp:173-177`: the order is `xt::xtensor<ptrdiff_t, 1>`. -/
def labelsReorder (dbg : Bool) (labels order : Arr) : Outcome (List Int) :=
  if order.shape.length ≠ 1 then throws
  else Labels.labelsReorder dbg (labels.values.map toInt64) (order.values.map toInt64)

/-- `GooseEYE.labels_sizes(labels)`, `main.cpp:179-183`. -/
def labelsSizes (labels : Arr) : List (Int × Int) := Labels.labelsSizes (labels.values.map toInt64)

/-- `GooseEYE.labels_sizes(labels, names)`, `main.cpp:185-190`: the names are `xt::pytensor<ptrdiff_t, 1>`. -/
def labelsSizesNames (labels names : Arr) : Outcome (List Int) :=
  if names.shape.length ≠ 1 then throws
  else ok (Labels.labelsSizesNames (labels.values.map toInt64) (names.values.map toInt64))

end Verif.Python
