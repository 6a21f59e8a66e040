import Verif.Model.XTensor

/-!
# Model of the `labels_*` functions, `/repo/include/GooseEYE/GooseEYE.h:421-621`

An image of labels enters these functions only through `.size()` and `.flat(i)`, and the returned
image has the shape of the input (`xt::empty_like`), so an image is the list of its elements in
row-major order. Label values (`int` or `ptrdiff_t`) are unbounded integers: overflow is not
modelled. A two-column array is a list of pairs.
-/

namespace Verif.Labels

open Verif Outcome

/-- The loop of `labels_map`, `GooseEYE.h:433-435`: `map.try_emplace(a.flat(i), b.flat(i))` for
`i < a.size()`. There is no check on the size of `b`: reading past its end is undefined. -/
def mapLoop : List Int → List Int → StdMap → Outcome StdMap
  | [], _, m => ok m
  | _ :: _, [], _ => ub
  | x :: a, y :: b, m => mapLoop a b (m.emplace x y)

/-- `labels_map(a, b)`, `GooseEYE.h:427-448`. -/
def labelsMap (a b : List Int) : Outcome (List (Int × Int)) := mapLoop a b []

/-- `labels_rename(labels, rename)`, `GooseEYE.h:456-480`. The assertions on the rank and the
number of columns of `rename` hold by typing. `map[l]` of a missing label gives 0. -/
def labelsRename (dbg : Bool) (labels : List Int) (rename : List (Int × Int)) :
    Outcome (List Int) :=
  let map : StdMap := rename.foldl (fun m r => m.emplace r.1 r.2) []
  if dbg && (sortUnique labels).any (fun l => !map.contains l) then throws
  else ok (labels.map fun l => map.at0 l)

/-- Rows `(unq(i), first + i)`; loops of `GooseEYE.h:502-505` and `519-522`. -/
def numberFrom : Int → List Int → List (Int × Int)
  | _, [] => []
  | i, u :: unq => (u, i) :: numberFrom (i + 1) unq

/-- The table `rename` of `labels_prune`, `GooseEYE.h:493-525`. The three branches are those of the
code: background and lowest label 0; background and lowest label negative (rows for the nonzero
labels, in order, after the row `(0, 0)`); no background. -/
def pruneTable (labels : List Int) : List (Int × Int) :=
  let unq := sortUnique labels
  if unq.any (fun u => u == 0) then
    if unq.head? == some 0 then
      (0, 0) :: numberFrom 1 unq.tail
    else
      (0, 0) :: numberFrom 1 (unq.filter (fun u => u != 0))
  else
    numberFrom 1 unq

/-- `labels_prune(labels)`, `GooseEYE.h:489-527`. -/
def labelsPrune (dbg : Bool) (labels : List Int) : Outcome (List Int) :=
  labelsRename dbg labels (pruneTable labels)

/-- `*std::max_element(l.begin(), l.end())`: dereferencing `end()` is undefined. `GooseEYE.h:545`. -/
def maxElement : List Int → Outcome Int
  | [] => ub
  | x :: l => ok (l.foldl max x)

/-- `renum[order[i]] = i` for all `i`, `GooseEYE.h:548-550`. -/
def reorderLoop : List Int → Int → Vec Int → Outcome (Vec Int)
  | [], _, renum => ok renum
  | o :: order, i, renum => (renum.write o i).bind (reorderLoop order (i + 1))

/-- `ret.flat(i) = renum[labels.flat(i)]` for all `i`, `GooseEYE.h:553-555`. -/
def readAll (renum : Vec Int) : List Int → Outcome (List Int)
  | [] => ok []
  | l :: labels => (renum.read l).bind fun v => (readAll renum labels).bind fun r => ok (v :: r)

/-- `labels_reorder(labels, order)`, `GooseEYE.h:535-558`. A negative `maxlab + 1` is a
`std::length_error` of the vector's constructor. -/
def labelsReorder (dbg : Bool) (labels order : List Int) : Outcome (List Int) :=
  if dbg && !(sortUnique labels == sortUnique order) then throws
  else
    (maxElement order).bind fun maxlab =>
      if maxlab + 1 < 0 then throws
      else
        (reorderLoop order 0 (Vec.fill (maxlab + 1).toNat 0)).bind fun renum =>
          readAll renum labels

/-- `labels_sizes_impl(labels)`, `GooseEYE.h:562-578`. -/
def labelsSizesImpl (labels : List Int) : StdMap :=
  labels.foldl (fun m l => if m.contains l then m.incr l else m.emplace l 1) []

/-- `labels_sizes(labels)`, `GooseEYE.h:587-603`. -/
def labelsSizes (labels : List Int) : List (Int × Int) := labelsSizesImpl labels

/-- `labels_sizes(labels, names)`, `GooseEYE.h:611-621`. (`map[names(i)]` inserts a missing name
with value 0, which does not change what later names read.) -/
def labelsSizesNames (labels names : List Int) : List Int :=
  names.map fun n => (labelsSizesImpl labels).at0 n

end Verif.Labels
