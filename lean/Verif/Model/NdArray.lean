import Verif.Model.XTensor
import Mathlib.Algebra.BigOperators.Group.List.Defs

/-!
# xtensor containers and the functions on them that GooseEYE calls

*External* functions (xtensor): the definitions below state the semantics that the model assumes. They
belong to the trusted base, see DESIGN.md.
-/

namespace Verif

open Outcome

/-- A row-major xtensor container: its shape, and the `prodShape shape` elements of its storage.
External (xtensor); as used in `Ensemble_*.hpp` and `GooseEYE.h:212-419`. -/
structure Nd (α : Type u) where
  shape : List Nat
  get : Nat → α

/-- Inverse of `ravelIndex`: the index of the `k`-th element.
External (xtensor); as used in `Ensemble_*.hpp` and `GooseEYE.h:212-419`. -/
def unravel : List Nat → Nat → List Int
  | [], _ => []
  | _ :: shape, k => ((k / prodShape shape : Nat) : Int) :: unravel shape (k % prodShape shape)

namespace Nd

variable {α : Type u} {β : Type v} {γ : Type w}

/-- `a.size()`. External (xtensor); as used in `Ensemble_*.hpp` and `GooseEYE.h:212-419`. -/
def size (a : Nd α) : Nat := prodShape a.shape

/-- The element at an index: at offset `index * strides`, where the stride of an axis of size 1 is 0.
External (xtensor); as used in `Ensemble_*.hpp` and `GooseEYE.h:212-419`. -/
def at_ (a : Nd α) (idx : List Int) : α := a.get (ravelIndex idx a.shape).toNat

/-- The offset is in the storage (and there are as many indices as axes).
External (xtensor); as used in `Ensemble_*.hpp` and `GooseEYE.h:212-419`. -/
def valid (a : Nd α) (idx : List Int) : Bool :=
  decide (idx.length = a.shape.length ∧ 0 ≤ ravelIndex idx a.shape ∧ ravelIndex idx a.shape < a.size)

/-- `a(i, j, ...)`, read. Indices are not checked: only an offset outside the storage is undefined.
External (xtensor); as used in `Ensemble_*.hpp` and `GooseEYE.h:212-419`. -/
def read (a : Nd α) (idx : List Int) : Outcome α := if a.valid idx then ok (a.at_ idx) else ub

/-- `a(i, j, ...) += v`. External (xtensor); as used in `Ensemble_*.hpp` and `GooseEYE.h:212-419`. -/
def addAt [Add α] (a : Nd α) (idx : List Int) (v : α) : Outcome (Nd α) :=
  if a.valid idx then
    ok ⟨a.shape, fun k => if k = (ravelIndex idx a.shape).toNat then a.get k + v else a.get k⟩
  else ub

/-- `a(i, j, ...) = v`. External (xtensor); as used in `Ensemble_*.hpp` and `GooseEYE.h:212-419`. -/
def write (a : Nd α) (idx : List Int) (v : α) : Outcome (Nd α) :=
  if a.valid idx then
    ok ⟨a.shape, fun k => if k = (ravelIndex idx a.shape).toNat then v else a.get k⟩
  else ub

/-- The container whose element at `idx` is `φ idx`.
External (xtensor); as used in `Ensemble_*.hpp` and `GooseEYE.h:212-419`. -/
def ofFn (shape : List Nat) (φ : List Int → α) : Nd α := ⟨shape, fun k => φ (unravel shape k)⟩

/-- The container with the given elements.
External (xtensor); as used in `Ensemble_*.hpp` and `GooseEYE.h:212-419`. -/
def ofList [Inhabited α] (shape : List Nat) (l : List α) : Nd α := ⟨shape, fun k => l.getD k default⟩

/-- `xt::zeros`, `xt::ones`, ... External (xtensor); as used in `Ensemble_*.hpp` and `GooseEYE.h:212-419`. -/
def fill (shape : List Nat) (v : α) : Nd α := ⟨shape, fun _ => v⟩

/-- The elements in row-major order. External (xtensor); as used in `Ensemble_*.hpp` and `GooseEYE.h:212-419`. -/
def toList (a : Nd α) : List α := (List.range a.size).map a.get

/-- Elementwise function of one array. External (xtensor); as used in `Ensemble_*.hpp` and `GooseEYE.h:212-419`. -/
def map (φ : α → β) (a : Nd α) : Nd β := ⟨a.shape, fun k => φ (a.get k)⟩

/-- Elementwise function of two arrays of the same shape (broadcasting does not occur; conservatively
undefined). External (xtensor); as used in `Ensemble_*.hpp` and `GooseEYE.h:212-419`. -/
def map₂ (φ : α → β → γ) (a : Nd α) (b : Nd β) : Outcome (Nd γ) :=
  if a.shape = b.shape then ok ⟨a.shape, fun k => φ (a.get k) (b.get k)⟩ else ub

/-- `xt::sum(a)[0]`. External (xtensor); as used in `Ensemble_*.hpp` and `GooseEYE.h:212-419`. -/
def sum [Add α] [Zero α] (a : Nd α) : α := a.toList.sum

/-- `xt::all(cond)` for an elementwise condition.
External (xtensor); as used in `Ensemble_*.hpp` and `GooseEYE.h:212-419`. -/
def all (cond : α → Bool) (a : Nd α) : Bool := a.toList.all cond

/-- The shape of `xt::atleast_3d` of an array: axes of size 1 are added behind, and for rank 1 (and 0)
one in front. External (xtensor); as used in `Ensemble_*.hpp` and `GooseEYE.h:212-419`. -/
def shape3 : List Nat → List Nat
  | [] => [1, 1, 1]
  | [n] => [1, n, 1]
  | [m, n] => [m, n, 1]
  | s => s

/-- `xt::atleast_3d(a)`: the elements do not move.
External (xtensor); as used in `Ensemble_*.hpp` and `GooseEYE.h:212-419`. -/
def atleast3d (a : Nd α) : Nd α := ⟨shape3 a.shape, a.get⟩

/-- `a.reshape(shape)`: the elements do not move.
External (xtensor); as used in `Ensemble_*.hpp` and `GooseEYE.h:212-419`. -/
def reshape (a : Nd α) (shape : List Nat) : Nd α := ⟨shape, a.get⟩

/-- Index arithmetic. External (xtensor); as used in `Ensemble_*.hpp` and `GooseEYE.h:212-419`. -/
def plus (x y : List Int) : List Int := List.zipWith (fun a b => a + b) x y

/-- Index arithmetic. External (xtensor); as used in `Ensemble_*.hpp` and `GooseEYE.h:212-419`. -/
def minus (x y : List Int) : List Int := List.zipWith (fun a b => a - b) x y

/-- The index is inside the array, along every axis.
External (xtensor); as used in `Ensemble_*.hpp` and `GooseEYE.h:212-419`. -/
def inside (shape : List Nat) (x : List Int) : Bool :=
  match shape, x with
  | [], [] => true
  | n :: shape, i :: x => decide (0 ≤ i ∧ i < n) && inside shape x
  | _, _ => false

/-- `xt::pad_mode`. External (xtensor); as used in `Ensemble_*.hpp` and `GooseEYE.h:212-419`. -/
inductive PadMode where
  | constant
  | periodic
deriving DecidableEq, Repr

/-- The value that `xt::pad` uses at index `x` relative to the array.
External (xtensor); as used in `Ensemble_*.hpp` and `GooseEYE.h:212-419`. -/
def extend (a : Nd α) (mode : PadMode) (v : α) (x : List Int) : α :=
  match mode with
  | .constant => if inside a.shape x then a.at_ x else v
  | .periodic => a.at_ (List.zipWith (fun (n : Nat) (i : Int) => i % n) a.shape x)

/-- `xt::pad(a, pad_width, mode, v)`. In periodic mode xtensor assumes (`XTENSOR_ASSERT`) that no pad is
wider than the array: undefined otherwise.
External (xtensor); as used in `Ensemble_*.hpp` and `GooseEYE.h:212-419`. -/
def pad (a : Nd α) (width : List (Nat × Nat)) (mode : PadMode) (v : α) : Outcome (Nd α) :=
  if width.length ≠ a.shape.length then ub
  else if mode = .periodic ∧ (List.zipWith (fun n (p : Nat × Nat) => decide (p.1 ≤ n ∧ p.2 ≤ n)) a.shape width).any (! ·) then ub
  else ok (ofFn (List.zipWith (fun n (p : Nat × Nat) => p.1 + n + p.2) a.shape width)
    fun x => a.extend mode v (minus x (width.map fun p => (p.1 : Int))))

/-- `xt::view(a, range(start, stop), ...)`; a range that is not inside the array is conservatively
undefined. External (xtensor); as used in `Ensemble_*.hpp` and `GooseEYE.h:212-419`. -/
def view (a : Nd α) (ranges : List (Int × Int)) : Outcome (Nd α) :=
  if ranges.length ≠ a.shape.length then ub
  else if (List.zipWith (fun (n : Nat) (r : Int × Int) => decide (0 ≤ r.1 ∧ r.1 ≤ r.2 ∧ r.2 ≤ n)) a.shape ranges).any (! ·) then ub
  else ok (ofFn (ranges.map fun r => (r.2 - r.1).toNat) fun x => a.at_ (plus x (ranges.map Prod.fst)))

/-- The indices of nested loops `for (i = start; i < stop; ++i)`, outermost first.
For example `Ensemble_S2.hpp:53-55`. -/
def loops : List (Nat × Nat) → List (List Int)
  | [] => [[]]
  | r :: rs => (List.range' r.1 (r.2 - r.1)).flatMap fun (i : Nat) => (loops rs).map fun x => (i : Int) :: x

end Nd

end Verif
