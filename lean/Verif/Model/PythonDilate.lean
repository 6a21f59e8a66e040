import Verif.Model.PythonCluster
import Verif.Model.Dilate

/-!
# Model of `dilate` in the Python module

`/repo/python/main.cpp:115-150`: four signatures are registered under one name.

External (assumed), as in `Verif.Model.Python`: `pybind11` tries the signatures in the order of registration, first
without conversion of arguments and then, if none accepts, with conversion. A signature gets the positional arguments
in the order of its parameters, then the named ones, then the defaults; it does not accept too many arguments, names
that it does not have, or a parameter that is left without a value. What the parameters accept is `Param.accepts`.

Simplifications: numbers are not negative; arrays of one element, which Python converts to a number if it has to, are not
accepted for a number.
-/

namespace Verif.Python

open Verif Outcome

/-- The arguments of a call. External (pybind11); as used for `dilate` in `python/main.cpp`. -/
inductive Arg where
  | bool (b : Bool)
  | number (n : Nat)
  | array (a : Arr)

/-- The types of the parameters: `xt::pyarray<int>`, `xt::pytensor<size_t, 1>`, `size_t` and `bool`.
External (pybind11); as used for `dilate` in `python/main.cpp`. -/
inductive Param where
  | ints
  | sizes
  | size
  | bool
deriving DecidableEq, Repr

/-- Which arguments a parameter accepts, without and with conversion (external). An array of any dimension is made of a
number; arrays of another dimension than that of the parameter are not accepted; a truth value is a number, and a number
is converted to a truth value. -/
def Param.accepts (convert : Bool) : Param → Arg → Bool
  | .ints, .array a => convert || decide (a.dtype = .int32)
  | .ints, _ => convert
  | .sizes, .array a => (convert || decide (a.dtype = .uint64)) && decide (a.shape.length = 1)
  | .sizes, _ => false
  | .size, .array _ => false
  | .size, _ => true
  | .bool, .bool _ => true
  | .bool, .number _ => convert
  | .bool, .array _ => false

/-- The array that a parameter `xt::pyarray<int>` receives (external). -/
def Arg.ints : Arg → Nd Int
  | .array a => Nd.ofList a.shape (a.values.map toInt32)
  | .number n => Nd.ofList [] [toInt32 n]
  | .bool b => Nd.ofList [] [if b then 1 else 0]

/-- The array that a parameter `xt::pytensor<size_t, 1>` receives (external). -/
def Arg.sizes : Arg → List Nat
  | .array a => a.values.map fun x => (toUsize x).toNat
  | _ => []

/-- The number that a parameter `size_t` receives (external). -/
def Arg.size : Arg → Nat
  | .number n => n
  | .bool b => if b then 1 else 0
  | .array _ => 0

/-- The truth value that a parameter `bool` receives (external). -/
def Arg.truth : Arg → Bool
  | .bool b => b
  | .number n => decide (n ≠ 0)
  | .array _ => false

/-- The names of the parameters. External (pybind11); as used for `dilate` in `python/main.cpp`. -/
inductive Name where
  | f
  | kernel
  | iterations
  | periodic
deriving DecidableEq, Repr

/-- A parameter: `py::arg("name")` or `py::arg("name") = default`.
External (pybind11); as used for `dilate` in `python/main.cpp`. -/
structure Par where
  name : Name
  type : Param
  default : Option Arg := none

/-- The arguments in the order of the parameters, or none if the signature does not accept them (external). -/
def bindPars : List Par → List Arg → List (Name × Arg) → Option (List Arg)
  | [], [], kw => if kw.isEmpty then some [] else none
  | [], _ :: _, _ => none
  | _ :: ps, a :: as, kw => (bindPars ps as kw).map (a :: ·)
  | p :: ps, [], kw =>
    match kw.find? fun q => q.1 = p.name with
    | some q => (bindPars ps [] (kw.filter fun q => q.1 ≠ p.name)).map (q.2 :: ·)
    | none =>
      match p.default with
      | some a => (bindPars ps [] kw).map (a :: ·)
      | none => none

/-- A registered signature and its function. External (pybind11); as used for `dilate` in `python/main.cpp`. -/
structure Signature (β : Type) where
  pars : List Par
  call : List Arg → Outcome β

/-- The call of one signature, or none if it does not accept the arguments (external). -/
def Signature.attempt {β : Type} (convert : Bool) (pos : List Arg) (kw : List (Name × Arg)) (s : Signature β) :
    Option (Outcome β) :=
  match bindPars s.pars pos kw with
  | none => none
  | some args =>
    if (List.zipWith (fun (p : Par) a => p.type.accepts convert a) s.pars args).all id then some (s.call args) else none

/-- A call with positional and named arguments; a `TypeError` if no signature accepts them (external). -/
def invoke {β : Type} (signatures : List (Signature β)) (pos : List Arg) (kw : List (Name × Arg)) : Outcome β :=
  match signatures.findSome? (Signature.attempt false pos kw) with
  | some r => r
  | none =>
    match signatures.findSome? (Signature.attempt true pos kw) with
    | some r => r
    | none => throws

/-- `dilate(f, kernel, iterations, periodic)`, `main.cpp:115-125`. -/
def dilate1 (dbg : Bool) : Signature (Nd Int) where
  pars := [⟨.f, .ints, none⟩, ⟨.kernel, .ints, none⟩, ⟨.iterations, .sizes, none⟩, ⟨.periodic, .bool, some (.bool true)⟩]
  call
    | [f, kernel, iterations, periodic] => Dilate.dilate dbg f.ints kernel.ints iterations.sizes periodic.truth
    | _ => ub

/-- `dilate(f, iterations, periodic)`, `main.cpp:127-133`. -/
def dilate2 (dbg : Bool) : Signature (Nd Int) where
  pars := [⟨.f, .ints, none⟩, ⟨.iterations, .sizes, none⟩, ⟨.periodic, .bool, some (.bool true)⟩]
  call
    | [f, iterations, periodic] => Dilate.dilateNearest dbg f.ints iterations.sizes periodic.truth
    | _ => ub

/-- `dilate(f, kernel, iterations, periodic)` with one number of iterations, `main.cpp:135-142`. -/
def dilate3 (dbg : Bool) : Signature (Nd Int) where
  pars := [⟨.f, .ints, none⟩, ⟨.kernel, .ints, none⟩, ⟨.iterations, .size, some (.number 1)⟩,
    ⟨.periodic, .bool, some (.bool true)⟩]
  call
    | [f, kernel, iterations, periodic] => Dilate.dilateSame dbg f.ints kernel.ints iterations.size periodic.truth
    | _ => ub

/-- `dilate(f, iterations, periodic)` with one number of iterations, `main.cpp:144-150`. -/
def dilate4 (dbg : Bool) : Signature (Nd Int) where
  pars := [⟨.f, .ints, none⟩, ⟨.iterations, .size, some (.number 1)⟩, ⟨.periodic, .bool, some (.bool true)⟩]
  call
    | [f, iterations, periodic] => Dilate.dilateNearestSame dbg f.ints iterations.size periodic.truth
    | _ => ub

/-- `GooseEYE.dilate`, `main.cpp:115-150`. -/
def dilate (dbg : Bool) (pos : List Arg) (kw : List (Name × Arg)) : Outcome (Nd Int) :=
  invoke [dilate1 dbg, dilate2 dbg, dilate3 dbg, dilate4 dbg] pos kw

end Verif.Python
