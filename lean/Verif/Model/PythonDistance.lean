import Verif.Model.PythonEnsemble

/-!
# Model of `distance` in the Python module

`/repo/python/main.cpp:422-448` (the function of the module) and `main.cpp:248-261` (the method of `Ensemble`): four
signatures are registered under one name. Those of the method have no names of parameters.

External (assumed), as in `Verif.Model.PythonDilate`: `pybind11` tries the signatures in the order of registration, first
without conversion of arguments and then, if none accepts, with conversion. A signature gets the positional arguments in
the order of its parameters and then the named ones; it does not accept too many arguments, names that it does not have,
or a parameter that is left without a value. What the parameters accept is `Param.accepts`.

Simplifications: arguments are numbers and sequences of numbers (lists, tuples or arrays of one dimension); a real number
is exact (`ℚ`, as in `Verif.Model.Python`).
-/

namespace Verif.Python.Dist

open Verif Outcome Ens

/-- A number of Python: an integer (or truth value), or a real number. External (Python). -/
inductive Num where
  | int (n : Int)
  | float (x : ℚ)
deriving DecidableEq

/-- The `double` that is made of a number (external). -/
def Num.value : Num → ℚ
  | .int n => n
  | .float x => x

/-- The `size_t` that is made of a number (external). -/
def Num.nat : Num → Nat
  | .int n => n.toNat
  | .float _ => 0

/-- Whether a number is accepted for a `size_t` (external): an integer that is not negative and fits in 64 bits. -/
def Num.isSize : Num → Bool
  | .int n => decide (0 ≤ n) && decide (n < 18446744073709551616)
  | .float _ => false

/-- Whether a number is accepted for a `double` (external): an integer has to be converted. -/
def Num.isDouble (convert : Bool) : Num → Bool
  | .int _ => convert
  | .float _ => true

/-- The arguments of a call. External (Python); as used for `distance` in `main.cpp:422-448`. -/
inductive Arg where
  | num (x : Num)
  | seq (l : List Num)
deriving DecidableEq

/-- The types of the parameters: `std::vector<size_t>`, `std::vector<double>` and `size_t`, `main.cpp:424-448`. -/
inductive Param where
  | sizes
  | doubles
  | size
deriving DecidableEq

/-- Which arguments a parameter accepts, without and with conversion (external). -/
def Param.accepts (convert : Bool) : Param → Arg → Bool
  | .sizes, .seq l => l.all Num.isSize
  | .doubles, .seq l => l.all (Num.isDouble convert)
  | .size, .num x => x.isSize
  | _, _ => false

/-- The vector that a parameter `std::vector<size_t>` receives (external). -/
def Arg.sizes : Arg → List Nat
  | .seq l => l.map Num.nat
  | .num _ => []

/-- The vector that a parameter `std::vector<double>` receives (external). -/
def Arg.doubles : Arg → List ℚ
  | .seq l => l.map Num.value
  | .num _ => []

/-- The number that a parameter `size_t` receives (external). -/
def Arg.size : Arg → Nat
  | .num x => x.nat
  | .seq _ => 0

/-- The names of the parameters, `py::arg` in `main.cpp:424-448`. -/
inductive Name where
  | roi
  | h
  | dim
deriving DecidableEq

/-- A parameter, with a name (`py::arg`) or without, `main.cpp:248-261`, `main.cpp:424-448`. -/
structure Par where
  name : Option Name
  type : Param

/-- The arguments in the order of the parameters, or none if the signature does not accept them (external). -/
def bindPars : List Par → List Arg → List (Name × Arg) → Option (List Arg)
  | [], [], kw => if kw.isEmpty then some [] else none
  | [], _ :: _, _ => none
  | _ :: ps, a :: as, kw => (bindPars ps as kw).map (a :: ·)
  | p :: ps, [], kw =>
    match kw.find? fun q => some q.1 = p.name with
    | some q => (bindPars ps [] (kw.filter fun q => some q.1 ≠ p.name)).map (q.2 :: ·)
    | none => none

/-- A registered signature and its function. External (pybind11); as used in `main.cpp:248-261`, `main.cpp:424-448`. -/
structure Signature where
  pars : List Par
  call : List Arg → Outcome (Nd ℚ)

/-- The call of one signature, or none if it does not accept the arguments (external). -/
def Signature.attempt (convert : Bool) (pos : List Arg) (kw : List (Name × Arg)) (s : Signature) :
    Option (Outcome (Nd ℚ)) :=
  match bindPars s.pars pos kw with
  | none => none
  | some args =>
    if (List.zipWith (fun (p : Par) a => p.type.accepts convert a) s.pars args).all id then some (s.call args) else none

/-- A call with positional and named arguments; a `TypeError` if no signature accepts them (external). -/
def invoke (signatures : List Signature) (pos : List Arg) (kw : List (Name × Arg)) : Outcome (Nd ℚ) :=
  match signatures.findSome? (Signature.attempt false pos kw) with
  | some r => r
  | none =>
    match signatures.findSome? (Signature.attempt true pos kw) with
    | some r => r
    | none => throws

/-- `distance(roi)`, `main.cpp:424-427`. -/
def distance1 (pow05 : ℚ → ℚ) (dbg : Bool) : Signature where
  pars := [⟨some .roi, .sizes⟩]
  call
    | [roi] => Api.distance pow05 dbg roi.sizes
    | _ => ub

/-- `distance(roi, dim)`, `main.cpp:429-433`. -/
def distance2 (dbg : Bool) : Signature where
  pars := [⟨some .roi, .sizes⟩, ⟨some .dim, .size⟩]
  call
    | [roi, dim] => Api.distanceAxis ℚ dbg roi.sizes dim.size
    | _ => ub

/-- `distance(roi, h)`, `main.cpp:435-440`. -/
def distance3 (pow05 : ℚ → ℚ) (dbg : Bool) : Signature where
  pars := [⟨some .roi, .sizes⟩, ⟨some .h, .doubles⟩]
  call
    | [roi, h] => Api.distanceH pow05 dbg roi.sizes h.doubles
    | _ => ub

/-- `distance(roi, h, dim)`, `main.cpp:442-448`. -/
def distance4 (dbg : Bool) : Signature where
  pars := [⟨some .roi, .sizes⟩, ⟨some .h, .doubles⟩, ⟨some .dim, .size⟩]
  call
    | [roi, h, dim] => Api.distanceHAxis dbg roi.sizes h.doubles dim.size
    | _ => ub

/-- `GooseEYE.distance`, `main.cpp:422-448`. -/
def distance (pow05 : ℚ → ℚ) (dbg : Bool) (pos : List Arg) (kw : List (Name × Arg)) : Outcome (Nd ℚ) :=
  invoke [distance1 pow05 dbg, distance2 dbg, distance3 pow05 dbg, distance4 dbg] pos kw

/-- `Ensemble.distance()`, `main.cpp:248`. -/
def method1 (pow05 : ℚ → ℚ) (dbg : Bool) (E : Ensemble ℚ) : Signature where
  pars := []
  call
    | [] => Ens.distance pow05 dbg E
    | _ => ub

/-- `Ensemble.distance(axis)`, `main.cpp:250`. -/
def method2 (dbg : Bool) (E : Ensemble ℚ) : Signature where
  pars := [⟨none, .size⟩]
  call
    | [axis] => Ens.distanceAxis dbg E axis.size
    | _ => ub

/-- `Ensemble.distance(h)`, `main.cpp:252-255`. -/
def method3 (pow05 : ℚ → ℚ) (dbg : Bool) (E : Ensemble ℚ) : Signature where
  pars := [⟨none, .doubles⟩]
  call
    | [h] => Ens.distanceH pow05 dbg E h.doubles
    | _ => ub

/-- `Ensemble.distance(h, axis)`, `main.cpp:257-261`. -/
def method4 (dbg : Bool) (E : Ensemble ℚ) : Signature where
  pars := [⟨none, .doubles⟩, ⟨none, .size⟩]
  call
    | [h, axis] => Ens.distanceHAxis dbg E h.doubles axis.size
    | _ => ub

/-- The method `distance` of `GooseEYE.Ensemble`, `main.cpp:248-261`. -/
def method (pow05 : ℚ → ℚ) (dbg : Bool) (E : Ensemble ℚ) (pos : List Arg) (kw : List (Name × Arg)) : Outcome (Nd ℚ) :=
  invoke [method1 pow05 dbg E, method2 dbg E, method3 pow05 dbg E, method4 dbg E] pos kw

end Verif.Python.Dist
