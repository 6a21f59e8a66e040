import Verif.Model.Cluster

/-! # The conversion of the labels by `clusters` -/

namespace Verif.Cluster

/-- The conversion of a `ptrdiff_t` to `int` (32 bits): modulo `2 ^ 32`.
The return type of `clusters`, `GooseEYE.h:1197-1222`. -/
def narrow (l : Int) : Int := (l + 2147483648) % 4294967296 - 2147483648

/-- `clusters(f, periodic)`, `GooseEYE.h:1197-1222`, with the conversion of the labels (`ptrdiff_t`) to the type of the
result, `array_type::array<int>`. -/
def clusters32 (dbg : Bool) (shape : List Nat) (f : List Int) (periodic : Bool) : Outcome (List Int) :=
  (clusters dbg shape f periodic).bind fun labels => .ok (labels.map narrow)

end Verif.Cluster
