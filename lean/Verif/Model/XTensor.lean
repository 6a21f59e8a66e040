import Verif.Basic

/-!
# The parts of the C++ standard library and of xtensor that GooseEYE calls

These are *external* functions: they are not in `/repo`; the definitions below state the semantics
that the model assumes for them (they belong to the trusted base, see DESIGN.md).
-/

namespace Verif

open Outcome

/-- `shape[0] * shape[1] * ...` (1 for rank 0). External (xtensor); as used in `GooseEYE.h:672-1170`. -/
def prodShape : List Nat → Nat
  | [] => 1
  | n :: s => n * prodShape s

/-- Row-major strides of an xtensor container; xtensor sets the stride of a dimension of size 1 to
zero (`xt::compute_strides`, `adapt_strides`). External (xtensor); as used in `GooseEYE.h:672-1170`. -/
def xstrides : List Nat → List Nat
  | [] => []
  | n :: s => (if n = 1 then 0 else prodShape s) :: xstrides s

/-- `xt::unravel_from_strides(idx, strides, row_major)`: a zero stride gives index 0.
External (xtensor); as used in `GooseEYE.h:672-1170`. -/
def unravelFromStrides : Int → List Nat → List Int
  | _, [] => []
  | idx, st :: strides =>
    if st = 0 then 0 :: unravelFromStrides idx strides
    else (idx.tdiv st) :: unravelFromStrides (idx.tmod st) strides

/-- `xt::ravel_index(index, shape, row_major)`. External (xtensor); as used in `GooseEYE.h:672-1170`. -/
def ravelIndex : List Int → List Nat → Int
  | i :: index, n :: shape =>
    (if n = 1 then 0 else i * (prodShape shape : Int)) + ravelIndex index shape
  | _, _ => 0

/-- `a(i)` of a one-dimensional container: the element at offset `i` times the stride, which is 0 if there is one
element; `none` outside of the storage. External (xtensor); as used in `GooseEYE.h:672-1170`. -/
def at1 (a : List α) (i : Int) : Option α :=
  if a.length = 1 then a[0]? else if i < 0 then none else a[i.toNat]?

/-- Conversion of a (mathematical) integer to `size_t`: modulo 2^64.
External (C++); as used in `GooseEYE.h:895-1019`. -/
def toSize (a : Int) : Int := a % 18446744073709551616

/-- `a % n` evaluated in `size_t`. Division by zero is undefined. External (C++); as used in `GooseEYE.h:895-1019`. -/
def usizeMod (a : Int) (n : Int) : Outcome Int :=
  if n = 0 then ub else ok (toSize a % toSize n)

/-- `a / n` in `size_t` (or on non-negative operands). Division by zero is undefined.
External (C++); as used in `GooseEYE.h:895-1019`. -/
def usizeDiv (a : Int) (n : Int) : Outcome Int :=
  if n = 0 then ub else ok (toSize a / toSize n)

/-- Insert in a strictly sorted list, dropping duplicates. External; as used in `GooseEYE.h:421-625`, `858-869`. -/
def insertUniq (x : Int) : List Int → List Int
  | [] => [x]
  | y :: l => if x < y then x :: y :: l else if x = y then y :: l else y :: insertUniq x l

/-- `std::sort` followed by `std::unique`; also `xt::unique` (sorted distinct values).
External; as used in `GooseEYE.h:421-625`, `858-869`. -/
def sortUnique (l : List Int) : List Int := l.foldr insertUniq []

/-- `std::map`, as the list of its (key, value) pairs in increasing key order.
External (`std::map`); as used in `GooseEYE.h:421-625`. -/
abbrev StdMap := List (Int × Int)

namespace StdMap

/-- `map.emplace(k, v)` / `map.try_emplace(k, v)`: no effect if the key exists.
External (`std::map`); as used in `GooseEYE.h:421-625`. -/
def emplace (k v : Int) : StdMap → StdMap
  | [] => [(k, v)]
  | (k', v') :: m =>
    if k < k' then (k, v) :: (k', v') :: m
    else if k = k' then (k', v') :: m
    else (k', v') :: emplace k v m

/-- `map.count(k) > 0`. External (`std::map`); as used in `GooseEYE.h:421-625`. -/
def contains (k : Int) (m : StdMap) : Bool := m.any (fun kv => kv.1 == k)

/-- `map[k]`, for reading: a missing key is inserted with value 0 (so reads 0).
External (`std::map`); as used in `GooseEYE.h:421-625`. -/
def at0 (k : Int) : StdMap → Int
  | [] => 0
  | (k', v') :: m => if k = k' then v' else at0 k m

/-- `map[k]++` for an existing key. External (`std::map`); as used in `GooseEYE.h:421-625`. -/
def incr (k : Int) : StdMap → StdMap
  | [] => []
  | (k', v') :: m => if k = k' then (k', v' + 1) :: m else (k', v') :: incr k m

end StdMap

end Verif
