import Verif.Model.Ensemble

/-!
# Model of an ensemble that is constructed without arguments

`/repo/include/GooseEYE/GooseEYE.h:1404-1408` (only in C++, the Python module has no such constructor).
-/

namespace Verif.Ens

open Verif Outcome

/-- `Ensemble() = default`, `GooseEYE.h:1408`, with the data members of `GooseEYE.h:1599-1630`: the vectors are empty and
the arrays have no elements (external: `xt::xtensor` of three dimensions of size zero). The two switches are not
initialised: they are arguments here. -/
def default (K : Type) [Zero K] (periodic variance : Bool) : Ensemble K :=
  { stat := .unset
    periodic := periodic
    variance := variance
    first := Nd.fill [0, 0, 0] 0
    second := Nd.fill [0, 0, 0] 0
    norm := Nd.fill [0, 0, 0] 0
    shapeOrig := []
    shape := []
    pad := [] }

end Verif.Ens
