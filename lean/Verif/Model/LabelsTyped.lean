import Verif.Model.Labels

/-!
# The functions on labels with the integral type of the image

`/repo/include/GooseEYE/GooseEYE.h:421-621`, as `Verif.Labels`, but every label, size and position is converted to the
type in which the code stores it. The functions are templates: the image, the table and the order can have any
integral type.

External (assumed): two's complement; a conversion to an integral type is modulo `2 ^ bits` (the standard as of C++20;
what the compilers did before); an overflow of a signed type of at least 32 bits (`int`) is undefined; narrower types
are promoted to `int`. `bool` is not included.
-/

namespace Verif

/-- An integral type of C++: its number of bits and whether it is signed.
The template parameters of `GooseEYE.h:421-625`. -/
structure IntType where
  bits : Nat
  signed : Bool
deriving DecidableEq, Repr

namespace IntType

open Outcome

/-- `std::numeric_limits<T>::min()`. External. -/
def lowest (t : IntType) : Int := if t.signed then -2 ^ (t.bits - 1) else 0

/-- `std::numeric_limits<T>::max()`. External. -/
def highest (t : IntType) : Int := if t.signed then 2 ^ (t.bits - 1) - 1 else 2 ^ t.bits - 1

/-- The values of the type. External. -/
def Has (t : IntType) (a : Int) : Prop := t.lowest ≤ a ∧ a ≤ t.highest

/-- `static_cast<T>(a)`. External. -/
def conv (t : IntType) (a : Int) : Int := (a - t.lowest) % 2 ^ t.bits + t.lowest

/-- `++a`. External. -/
def incr (t : IntType) (a : Int) : Outcome Int :=
  if t.signed = true ∧ 32 ≤ t.bits ∧ a = t.highest then ub else ok (t.conv (a + 1))

/-- `a + 1`: an `int` for narrow types. External. -/
def succ (t : IntType) (a : Int) : Outcome Int :=
  if t.bits < 32 then ok (a + 1)
  else if t.signed = true ∧ a = t.highest then ub
  else ok (t.conv (a + 1))

end IntType

/-- `map[k] = v` for an existing key. External (`std::map`). -/
def StdMap.assign (k v : Int) : StdMap → StdMap
  | [] => []
  | (k', v') :: m => if k = k' then (k', v) :: m else (k', v') :: StdMap.assign k v m

namespace Labels

open Outcome

/-- `labels_rename(labels, rename)`, `GooseEYE.h:456-480`, for an image of type `t` and a table of type `u`: the map is
from `u` to `u` (`GooseEYE.h:461-465`). -/
def labelsRenameIn (t u : IntType) (dbg : Bool) (labels : List Int) (rename : List (Int × Int)) :
    Outcome (List Int) :=
  let map : StdMap := rename.foldl (fun m r => m.emplace r.1 r.2) []
  if dbg && (sortUnique labels).any (fun l => !map.contains (u.conv l)) then throws
  else ok (labels.map fun l => t.conv (map.at0 (u.conv l)))

/-- `labels_prune(labels)`, `GooseEYE.h:489-527`, for an image of type `t`: the table has the same type, so `i` and
`row` are converted (`GooseEYE.h:504`, `514`, `521`). -/
def labelsPruneIn (t : IntType) (dbg : Bool) (labels : List Int) : Outcome (List Int) :=
  labelsRenameIn t t dbg labels ((pruneTable labels).map fun r => (r.1, t.conv r.2))

/-- `renum[order[i]] = i`, `GooseEYE.h:548-550`, for an order of type `u`. -/
def reorderLoopIn (u : IntType) : List Int → Int → Vec Int → Outcome (Vec Int)
  | [], _, renum => ok renum
  | o :: order, i, renum => (renum.write o (u.conv i)).bind (reorderLoopIn u order (i + 1))

/-- `ret.flat(i) = renum[labels.flat(i)]`, `GooseEYE.h:553-555`, for an image of type `t`. -/
def readAllIn (t : IntType) (renum : Vec Int) : List Int → Outcome (List Int)
  | [] => ok []
  | l :: labels =>
    (renum.read l).bind fun v => (readAllIn t renum labels).bind fun r => ok (t.conv v :: r)

/-- `labels_reorder(labels, order)`, `GooseEYE.h:535-558`, for an image of type `t` and an order of type `u`.
Simplification: the assertions compare values (the code converts to a common type, which makes a difference for
negative labels only). -/
def labelsReorderIn (t u : IntType) (dbg : Bool) (labels order : List Int) : Outcome (List Int) :=
  if dbg && !(sortUnique labels == sortUnique order) then throws
  else
    (maxElement order).bind fun maxlab =>
      (u.succ maxlab).bind fun n =>
        if n < 0 then throws
        else
          (reorderLoopIn u order 0 (Vec.fill n.toNat 0)).bind fun renum =>
            readAllIn t renum labels

/-- One pixel of `labels_sizes_impl`, `GooseEYE.h:568-575`: the sizes are in a `std::map<value_type, value_type>`. -/
def sizeStep (t : IntType) (m : StdMap) (l : Int) : Outcome StdMap :=
  if m.contains l then (t.incr (m.at0 l)).bind fun v => ok (m.assign l v)
  else ok (m.emplace l (t.conv 1))

/-- `labels_sizes(labels)`, `GooseEYE.h:562-603`, for an image of type `t`. -/
def labelsSizesIn (t : IntType) (labels : List Int) : Outcome (List (Int × Int)) :=
  forM labels [] (sizeStep t)

/-- `labels_sizes(labels, names)`, `GooseEYE.h:611-621`, for an image of type `t`: `names(i)` is converted to the type
of the keys. -/
def labelsSizesNamesIn (t : IntType) (labels names : List Int) : Outcome (List Int) :=
  (labelsSizesIn t labels).bind fun m => ok (names.map fun n => StdMap.at0 (t.conv n) m)

end Labels

end Verif
