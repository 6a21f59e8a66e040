import Verif.Model.Ensemble
import Verif.Model.Path32

/-! # `Ensemble::mean` of an image of type `int`

The sum of the pixels is computed in the type of the image (`xt::sum`: the type of `T() + T()`), and converted to `double`
afterwards. The sum of the squares is computed in `double` (`xt::pow(f, 2.0)`). -/

namespace Verif.Ens

open Verif Outcome

/-- An order in which the elements of an array are added (xtensor does not promise one). `Ensemble_mean.hpp:22`. -/
inductive Order where
  | pixel (k : Nat)
  | plus (a b : Order)

/-- The elements that are added. `Ensemble_mean.hpp:22`. -/
def Order.pixels : Order → List Nat
  | .pixel k => [k]
  | .plus a b => a.pixels ++ b.pixels

/-- The sum in `int`: signed overflow is undefined. `Ensemble_mean.hpp:22`. -/
def Order.sum (f : Nd Int) : Order → Outcome Int
  | .pixel k => ok (f.get k)
  | .plus a b => (a.sum f).bind fun x => (b.sum f).bind fun y => Path.i32 (x + y)

variable {K : Type} [Zero K] [Add K] [Pow K Nat] [NatCast K] [IntCast K]

/-- `mean(f)`, `Ensemble_mean.hpp:15-26`, for an image of type `int` that is not empty, with the additions of `xt::sum(f)` in
the given order. -/
def meanInt (dbg : Bool) (order : Order) (E : Ensemble K) (f : Nd Int) : Outcome (Ensemble K) := do
  gassert dbg (decide (E.shape = [1, 1, 1]))
  gassert dbg (decide (E.stat = .mean ∨ E.stat = .unset))
  let s ← order.sum f
  let first ← addTo0 E.first (s : K)
  let second ← addTo0 E.second (f.map fun (x : Int) => (x : K) ^ 2).sum
  let norm ← addTo0 E.norm (f.size : K)
  pure { E with stat := .mean, first := first, second := second, norm := norm }

end Verif.Ens
