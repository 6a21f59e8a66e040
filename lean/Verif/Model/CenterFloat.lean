import Verif.Model.Center
import Verif.Model.Float

/-!
# Model of the functions for centers, in any arithmetic

`/repo/include/GooseEYE/GooseEYE.h:1246-1390`, as `Verif.Model.Center`, but with the operations of the type `K`: with real
numbers these are the definitions of that module (proved in `Verif.Props.CenterFloat`), with `Fl rnd` every operation is
rounded. Operations are written in the order in which the code makes them. The functions of the standard library are
parameters.
-/

namespace Verif.Center

/-- `xt::numeric_constants<double>::PI`, `std::cos`, `std::sin` and `std::atan2` (external). -/
structure Trig (K : Type) where
  pi : K
  cos : K → K
  sin : K → K
  atan2 : K → K → K

variable {K : Type} [Zero K] [Add K] [Mul K] [Div K] [Neg K] [NatCast K] [IntCast K] {n : Nat}

/-- `xt::sum(·, 0)` of one column (external): in the order of the rows. -/
def sumIn (l : List K) : K := l.foldl (fun s x => s + x) 0

/-- `xt::mean(·, 0)` of one column (external). -/
def meanIn (l : List K) : K := sumIn l / (l.length : K)

/-- `xt::average(·, weights, 0)` of one column (external). -/
def averageIn (l w : List K) : K := sumIn (List.zipWith (fun w x => w * x) w l) / sumIn w

/-- `center(shape, positions, periodic)`, `GooseEYE.h:1246-1268`. The functions are those of each column because the sign
of a zero, on which `std::atan2` depends, is not modelled. -/
def centerIn (T : Fin n → Trig K) (shape : Fin n → K) (positions : List (Fin n → K)) (periodic : Bool) : Fin n → K :=
  if positions.length * n = 0 then fun _ => 0
  else if !periodic then fun j => meanIn (positions.map fun p => p j)
  else fun j =>
    let theta := positions.map fun p => ((2 : ℕ) : K) * (T j).pi * p j / shape j
    let xiBar := meanIn (theta.map (T j).cos)
    let zetaBar := meanIn (theta.map (T j).sin)
    let thetaBar := (T j).atan2 (-zetaBar) (-xiBar) + (T j).pi
    shape j * thetaBar / (((2 : ℕ) : K) * (T j).pi)

/-- `center_of_mass(shape, positions, weights, periodic)`, `GooseEYE.h:1274-1297`. -/
def centerOfMassIn (T : Fin n → Trig K) (shape : Fin n → K) (positions : List (Fin n → K)) (weights : List K)
    (periodic : Bool) : Fin n → K :=
  if positions.length * n = 0 then fun _ => 0
  else if !periodic then fun j => averageIn (positions.map fun p => p j) weights
  else fun j =>
    let theta := positions.map fun p => ((2 : ℕ) : K) * (T j).pi * p j / shape j
    let xiBar := averageIn (theta.map (T j).cos) weights
    let zetaBar := averageIn (theta.map (T j).sin) weights
    let thetaBar := (T j).atan2 (-zetaBar) (-xiBar) + (T j).pi
    shape j * thetaBar / (((2 : ℕ) : K) * (T j).pi)

/-- `xt::from_indices` (external), converted to `double`. -/
def fromIndicesIn (n : Nat) (l : List (List Int)) : List (Fin n → K) := l.map fun x j => ((x.getD j 0 : Int) : K)

/-- `array_type::tensor<double, 1> shape = xt::adapt(labels.shape())`, `GooseEYE.h:1347`. -/
def adaptIn (shape : List Nat) : Fin shape.length → K := fun j => ((shape[j] : Nat) : K)

/-- `labels_centers(labels, names, periodic)`, `GooseEYE.h:1338-1360`. `names` is one-dimensional: that
assertion is not modelled. -/
def labelsCentersIn (dbg : Bool) (T : Nat → Fin n → Trig K) (labels : Nd Int) (hn : labels.shape.length = n)
    (names : List Int) (periodic : Bool) : Outcome (List (Fin n → K)) := do
  gassert dbg (decide (0 < labels.shape.length))
  let shape : Fin n → K := fun j => adaptIn labels.shape (j.cast hn.symm)
  forM (names.zipIdx) (List.replicate names.length fun _ => 0) fun ret l =>
    let positions := fromIndicesIn n (argwhere labels l.1)
    if positions.length * n = 0 then pure ret
    else pure (setRow ret l.2 (centerIn (T l.2) shape positions periodic))

/-- `labels_centers_of_mass(labels, weights, names, periodic)`, `GooseEYE.h:1366-1390`. -/
def labelsCentersOfMassIn (dbg : Bool) (T : Nat → Fin n → Trig K) (labels : Nd Int) (hn : labels.shape.length = n)
    (weights : Nd K) (names : List Int) (periodic : Bool) : Outcome (List (Fin n → K)) := do
  gassert dbg (decide (labels.shape = weights.shape))
  gassert dbg (decide (0 < labels.shape.length))
  let shape : Fin n → K := fun j => adaptIn labels.shape (j.cast hn.symm)
  forM (names.zipIdx) (List.replicate names.length fun _ => 0) fun ret l => do
    let pos := argwhere labels l.1
    let w ← forM pos ([] : List K) fun w x => do
      let v ← weights.read x
      pure (w ++ [v])
    let positions := fromIndicesIn n pos
    if positions.length * n = 0 then pure ret
    else pure (setRow ret l.2 (centerOfMassIn (T l.2) shape positions w periodic))

end Verif.Center
