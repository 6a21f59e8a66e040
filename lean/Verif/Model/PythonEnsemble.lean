import Verif.Model.Python

/-!
# Model of the class `Ensemble` of the Python module

`/repo/python/main.cpp:225-420`. As for the functions (`Verif.Model.Python`), several signatures are registered under
one name; the same assumptions on `pybind11` and the same simplifications apply.
-/

namespace Verif.Python

open Verif Outcome Ens

/-- `Ensemble(roi, periodic, variance)`, `main.cpp:229-234`. The defaults are `periodic = true` and
`variance = false`; those of the class in C++ (`GooseEYE.h:1415`) are `true` and `true`. -/
def Ensemble.init (dbg : Bool) (roi : List Nat) (periodic : Bool := true) (variance : Bool := false) :
    Outcome (Ensemble ℚ) := make ℚ dbg roi periodic variance

/-- `Ensemble.mean`, `main.cpp:264-275`. -/
def Ensemble.mean (dbg : Bool) (E : Ensemble ℚ) (args : List Arr) : Outcome (Ensemble ℚ) :=
  dispatch [
    ⟨[.double], fun a => match a with | [f] => Ens.mean dbg E f | _ => ub⟩,
    ⟨[.double, .int], fun a => match a with | [f, fmask] => Ens.meanMask dbg E f (ints fmask) | _ => ub⟩] args

/-- `Ensemble.S2`, `main.cpp:279-304`. -/
def Ensemble.S2 (dbg : Bool) (E : Ensemble ℚ) (args : List Arr) : Outcome (Ensemble ℚ) :=
  dispatch [
    ⟨[.int, .int], fun a => match a with | [f, g] => Ens.S2' dbg E f g | _ => ub⟩,
    ⟨[.double, .double], fun a => match a with | [f, g] => Ens.S2' dbg E f g | _ => ub⟩,
    ⟨[.double, .double, .int, .int], fun a => match a with
      | [f, g, fmask, gmask] => Ens.S2 dbg E f g (ints fmask) (ints gmask) | _ => ub⟩] args

/-- `Ensemble.heightheight`, `main.cpp:308-319`. -/
def Ensemble.heightheight (dbg : Bool) (E : Ensemble ℚ) (args : List Arr) : Outcome (Ensemble ℚ) :=
  dispatch [
    ⟨[.double], fun a => match a with | [f] => Ens.heightheight' dbg E f | _ => ub⟩,
    ⟨[.double, .int], fun a => match a with | [f, fmask] => Ens.heightheight dbg E f (ints fmask) | _ => ub⟩] args

/-- `Ensemble.C2`, `main.cpp:323-341`. -/
def Ensemble.C2 (dbg : Bool) (E : Ensemble ℚ) (args : List Arr) : Outcome (Ensemble ℚ) :=
  dispatch [
    ⟨[.int, .int], fun a => match a with | [f, g] => Ens.C2' dbg E f g | _ => ub⟩,
    ⟨[.int, .int, .int, .int], fun a => match a with
      | [f, g, fmask, gmask] => Ens.C2 dbg E f g (ints fmask) (ints gmask) | _ => ub⟩] args

/-- `Ensemble.W2`, `main.cpp:345-368`. -/
def Ensemble.W2 (dbg : Bool) (E : Ensemble ℚ) (args : List Arr) : Outcome (Ensemble ℚ) :=
  dispatch [
    ⟨[.int, .int], fun a => match a with | [w, f] => Ens.W2' dbg E w f | _ => ub⟩,
    ⟨[.double, .double], fun a => match a with | [w, f] => Ens.W2' dbg E w f | _ => ub⟩,
    ⟨[.double, .double, .int], fun a => match a with
      | [w, f, fmask] => Ens.W2 dbg E w f (ints fmask) | _ => ub⟩] args

/-- `Ensemble.W2c`, `main.cpp:372-410`. -/
def Ensemble.W2c (dbg : Bool) (junk : ℚ) (fuel : Nat) (mode : Path.Mode) (E : Ensemble ℚ) (args : List Arr) :
    Outcome (Ensemble ℚ) :=
  dispatch [
    ⟨[.int, .int, .int], fun a => match a with
      | [clusters, centers, f] => Ens.W2c' dbg junk fuel E (ints clusters) (ints centers) f mode | _ => ub⟩,
    ⟨[.int, .int, .double], fun a => match a with
      | [clusters, centers, f] => Ens.W2c' dbg junk fuel E (ints clusters) (ints centers) f mode | _ => ub⟩,
    ⟨[.int, .int, .double, .int], fun a => match a with
      | [clusters, centers, f, fmask] =>
        Ens.W2c dbg junk fuel E (ints clusters) (ints centers) f (ints fmask) mode | _ => ub⟩] args

/-- `Ensemble.L`, `main.cpp:414-418`. -/
def Ensemble.L (dbg : Bool) (junk : ℚ) (fuel : Nat) (mode : Path.Mode) (E : Ensemble ℚ) (args : List Arr) :
    Outcome (Ensemble ℚ) :=
  dispatch [⟨[.int], fun a => match a with | [f] => Ens.L dbg junk fuel E f mode | _ => ub⟩] args

end Verif.Python
