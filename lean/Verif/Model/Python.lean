import Verif.Model.Measure
import Mathlib.Algebra.Order.Ring.Rat
import Mathlib.Data.Rat.Floor

/-!
# Model of the overloads of the Python module

`/repo/python/main.cpp:452-689`: the functions `S2`, `C2`, `W2`, `W2c`, `heightheight` and `L` of the Python module.
Several signatures are registered under one name; which one is called depends on the types of the arrays.

External (assumed): `pybind11` tries the signatures in the order of registration, first without conversion of
arguments and then, if none accepts, with conversion. `xt::pyarray<T>` accepts an array without conversion only if
its elements are of type `T`; with conversion it accepts every array, and casts its elements (`NPY_ARRAY_FORCECAST`):
to `int` by truncation (modulo 2^32).

Simplifications: values are rational; casts to `double` are exact; of the arguments only the arrays take part in the
selection (`roi`, `periodic` and `mode` are passed by name or are at their default).
-/

namespace Verif.Python

open Verif Outcome Ens

/-- The type of the elements of a numpy array. -/
inductive Dtype where
  | bool
  | int32
  | int64
  | uint64
  | float32
  | float64
deriving DecidableEq, Repr

/-- A numpy array: type, shape, and values in row-major order. -/
structure Arr where
  dtype : Dtype
  shape : List Nat
  values : List ℚ

/-- The array of the values. External (pybind11, xtensor-python); as used in `python/main.cpp`. -/
def Arr.nd (a : Arr) : Nd ℚ := Nd.ofList a.shape a.values

/-- The element types of the signatures: `xt::pyarray<int>` and `xt::pyarray<double>`.
External (pybind11, xtensor-python); as used in `python/main.cpp`. -/
inductive Elem where
  | int
  | double
deriving DecidableEq, Repr

/-- Accepted without conversion (external). -/
def Elem.exact : Elem → Dtype → Bool
  | .int, .int32 => true
  | .double, .float64 => true
  | _, _ => false

/-- The integer part, towards zero. External (pybind11, xtensor-python); as used in `python/main.cpp`. -/
def trunc (x : ℚ) : Int := if x < 0 then -⌊-x⌋ else ⌊x⌋

/-- Conversion of one value (external). -/
def Elem.cast : Elem → ℚ → ℚ
  | .int, x => (((trunc x + 2147483648) % 4294967296 - 2147483648 : Int) : ℚ)
  | .double, x => x

/-- The array that the function receives. External (pybind11, xtensor-python); as used in `python/main.cpp`. -/
def Elem.load (e : Elem) (a : Arr) : Nd ℚ := (Arr.mk a.dtype a.shape (a.values.map e.cast)).nd

/-- A registered signature and its function, with results of type `β`.
External (pybind11, xtensor-python); as used in `python/main.cpp`. -/
structure Overload (β : Type) where
  elems : List Elem
  call : List (Nd ℚ) → Outcome β

/-- All arguments are accepted (external). -/
def Overload.accepts {β : Type} (convert : Bool) (o : Overload β) (args : List Arr) : Bool :=
  decide (o.elems.length = args.length) && (List.zipWith (fun e (a : Arr) => convert || e.exact a.dtype) o.elems args).all id

/-- A call of a function with several signatures (external); a `TypeError` if none accepts the arguments. -/
def dispatch {β : Type} (overloads : List (Overload β)) (args : List Arr) : Outcome β :=
  match overloads.find? fun o => o.accepts false args with
  | some o => o.call (List.zipWith Elem.load o.elems args)
  | none =>
    match overloads.find? fun o => o.accepts true args with
    | some o => o.call (List.zipWith Elem.load o.elems args)
    | none => throws

/-- An array of integers, as received by a parameter `xt::pyarray<int>`.
External (pybind11, xtensor-python); as used in `python/main.cpp`. -/
def ints (a : Nd ℚ) : Nd Int := a.map fun x => ⌊x⌋

/-- `S2(roi, f, g, periodic)`, `main.cpp:452-465` and `467-480` (the element types differ, the text is the same). -/
def s2 (pow05 : ℚ → ℚ) (dbg : Bool) (roi : List Nat) (periodic : Bool) : List (Nd ℚ) → Outcome (Nd ℚ)
  | [f, g] => do
    let E ← make ℚ dbg roi periodic true
    let E ← Ens.S2' dbg E f g
    result pow05 E
  | _ => ub

/-- `S2(roi, f, g, fmask, gmask, periodic)`, `main.cpp:482-501`. -/
def s2Mask (pow05 : ℚ → ℚ) (dbg : Bool) (roi : List Nat) (periodic : Bool) : List (Nd ℚ) → Outcome (Nd ℚ)
  | [f, g, fmask, gmask] => do
    let E ← make ℚ dbg roi periodic true
    let E ← Ens.S2 dbg E f g (ints fmask) (ints gmask)
    result pow05 E
  | _ => ub

/-- `GooseEYE.S2`, `main.cpp:452-501`. -/
def S2 (pow05 : ℚ → ℚ) (dbg : Bool) (roi : List Nat) (periodic : Bool) (args : List Arr) : Outcome (Nd ℚ) :=
  dispatch [⟨[.int, .int], s2 pow05 dbg roi periodic⟩, ⟨[.double, .double], s2 pow05 dbg roi periodic⟩,
    ⟨[.double, .double, .int, .int], s2Mask pow05 dbg roi periodic⟩] args

/-- `C2(roi, f, g, periodic)`, `main.cpp:503-516`. -/
def c2 (pow05 : ℚ → ℚ) (dbg : Bool) (roi : List Nat) (periodic : Bool) : List (Nd ℚ) → Outcome (Nd ℚ)
  | [f, g] => do
    let E ← make ℚ dbg roi periodic true
    let E ← Ens.C2' dbg E f g
    result pow05 E
  | _ => ub

/-- `C2(roi, f, g, fmask, gmask, periodic)`, `main.cpp:518-537`. -/
def c2Mask (pow05 : ℚ → ℚ) (dbg : Bool) (roi : List Nat) (periodic : Bool) : List (Nd ℚ) → Outcome (Nd ℚ)
  | [f, g, fmask, gmask] => do
    let E ← make ℚ dbg roi periodic true
    let E ← Ens.C2 dbg E f g (ints fmask) (ints gmask)
    result pow05 E
  | _ => ub

/-- `GooseEYE.C2`, `main.cpp:503-537`. -/
def C2 (pow05 : ℚ → ℚ) (dbg : Bool) (roi : List Nat) (periodic : Bool) (args : List Arr) : Outcome (Nd ℚ) :=
  dispatch [⟨[.int, .int], c2 pow05 dbg roi periodic⟩,
    ⟨[.int, .int, .int, .int], c2Mask pow05 dbg roi periodic⟩] args

/-- `W2(roi, w, f, periodic)`, `main.cpp:539-552` and `554-567`. -/
def w2 (pow05 : ℚ → ℚ) (dbg : Bool) (roi : List Nat) (periodic : Bool) : List (Nd ℚ) → Outcome (Nd ℚ)
  | [w, f] => do
    let E ← make ℚ dbg roi periodic true
    let E ← Ens.W2' dbg E w f
    result pow05 E
  | _ => ub

/-- `W2(roi, w, f, fmask, periodic)`, `main.cpp:569-586`. -/
def w2Mask (pow05 : ℚ → ℚ) (dbg : Bool) (roi : List Nat) (periodic : Bool) : List (Nd ℚ) → Outcome (Nd ℚ)
  | [w, f, fmask] => do
    let E ← make ℚ dbg roi periodic true
    let E ← Ens.W2 dbg E w f (ints fmask)
    result pow05 E
  | _ => ub

/-- `GooseEYE.W2`, `main.cpp:539-586`. -/
def W2 (pow05 : ℚ → ℚ) (dbg : Bool) (roi : List Nat) (periodic : Bool) (args : List Arr) : Outcome (Nd ℚ) :=
  dispatch [⟨[.int, .int], w2 pow05 dbg roi periodic⟩, ⟨[.double, .double], w2 pow05 dbg roi periodic⟩,
    ⟨[.double, .double, .int], w2Mask pow05 dbg roi periodic⟩] args

/-- `W2c(roi, clusters, centers, f, mode, periodic)`, `main.cpp:588-605` and `607-624`. -/
def w2c (pow05 : ℚ → ℚ) (dbg : Bool) (junk : ℚ) (fuel : Nat) (roi : List Nat) (mode : Path.Mode) (periodic : Bool) :
    List (Nd ℚ) → Outcome (Nd ℚ)
  | [clusters, centers, f] => do
    let E ← make ℚ dbg roi periodic true
    let E ← Ens.W2c' dbg junk fuel E (ints clusters) (ints centers) f mode
    result pow05 E
  | _ => ub

/-- `W2c(roi, clusters, centers, f, fmask, mode, periodic)`, `main.cpp:626-645`. -/
def w2cMask (pow05 : ℚ → ℚ) (dbg : Bool) (junk : ℚ) (fuel : Nat) (roi : List Nat) (mode : Path.Mode) (periodic : Bool) :
    List (Nd ℚ) → Outcome (Nd ℚ)
  | [clusters, centers, f, fmask] => do
    let E ← make ℚ dbg roi periodic true
    let E ← Ens.W2c dbg junk fuel E (ints clusters) (ints centers) f (ints fmask) mode
    result pow05 E
  | _ => ub

/-- `GooseEYE.W2c`, `main.cpp:588-645`. -/
def W2c (pow05 : ℚ → ℚ) (dbg : Bool) (junk : ℚ) (fuel : Nat) (roi : List Nat) (mode : Path.Mode) (periodic : Bool)
    (args : List Arr) : Outcome (Nd ℚ) :=
  dispatch [⟨[.int, .int, .int], w2c pow05 dbg junk fuel roi mode periodic⟩,
    ⟨[.int, .int, .double], w2c pow05 dbg junk fuel roi mode periodic⟩,
    ⟨[.int, .int, .double, .int], w2cMask pow05 dbg junk fuel roi mode periodic⟩] args

/-- `heightheight(roi, f, periodic)`, `main.cpp:649-658`. -/
def hh (pow05 : ℚ → ℚ) (dbg : Bool) (roi : List Nat) (periodic : Bool) : List (Nd ℚ) → Outcome (Nd ℚ)
  | [f] => do
    let E ← make ℚ dbg roi periodic true
    let E ← Ens.heightheight' dbg E f
    result pow05 E
  | _ => ub

/-- `heightheight(roi, f, fmask, periodic)`, `main.cpp:660-673`. -/
def hhMask (pow05 : ℚ → ℚ) (dbg : Bool) (roi : List Nat) (periodic : Bool) : List (Nd ℚ) → Outcome (Nd ℚ)
  | [f, fmask] => do
    let E ← make ℚ dbg roi periodic true
    let E ← Ens.heightheight dbg E f (ints fmask)
    result pow05 E
  | _ => ub

/-- `GooseEYE.heightheight`, `main.cpp:649-673`. -/
def heightheight (pow05 : ℚ → ℚ) (dbg : Bool) (roi : List Nat) (periodic : Bool) (args : List Arr) : Outcome (Nd ℚ) :=
  dispatch [⟨[.double], hh pow05 dbg roi periodic⟩, ⟨[.double, .int], hhMask pow05 dbg roi periodic⟩] args

/-- `GooseEYE.L`, `main.cpp:675-688`. -/
def L (pow05 : ℚ → ℚ) (dbg : Bool) (junk : ℚ) (fuel : Nat) (roi : List Nat) (mode : Path.Mode) (periodic : Bool)
    (args : List Arr) : Outcome (Nd ℚ) :=
  dispatch [⟨[.int], fun a =>
    match a with
    | [f] => do
      let E ← make ℚ dbg roi periodic true
      let E ← Ens.L dbg junk fuel E f mode
      result pow05 E
    | _ => ub⟩] args

end Verif.Python
