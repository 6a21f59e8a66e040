import Verif.Model.Ensemble
import Verif.Model.Kernel

/-!
# Model of `dilate`

`/repo/include/GooseEYE/GooseEYE.h:210-419`. Labels are (signed) integers. They are only copied,
compared with zero and used as index: the result is the same in every integral type that has the labels, signed or not
(but for an array without pixels, of which `xt::amax` is the lowest number of the type).
-/

namespace Verif

open Outcome Nd

namespace Nd

variable {α : Type u}

/-- `xt::view(a, ranges...) = v` (external); conservatively undefined if a range is not inside the array
or if the shapes differ. The right-hand side is evaluated before it is assigned. -/
def setView (a : Nd α) (ranges : List (Int × Int)) (v : Nd α) : Outcome (Nd α) :=
  if ranges.length ≠ a.shape.length then ub
  else if (List.zipWith (fun (n : Nat) (r : Int × Int) => decide (0 ≤ r.1 ∧ r.1 ≤ r.2 ∧ r.2 ≤ n)) a.shape ranges).any (! ·) then ub
  else if v.shape ≠ ranges.map (fun r => (r.2 - r.1).toNat) then ub
  else ok (ofFn a.shape fun x =>
    let y := minus x (ranges.map Prod.fst)
    if inside v.shape y then v.at_ y else a.at_ x)

end Nd

namespace Dilate

open Ens

/-- The slices of `xt::strided_view`: `range` along axis `ax`, `xt::all()` along the other axes,
`GooseEYE.h:223-234`. -/
def slab (shape : List Nat) (ax : Nat) (range : Int × Int) : List (Int × Int) :=
  shape.mapIdx fun i (n : Nat) => if i = ax then range else (0, (n : Int))

/-- `dst = xt::where(xt::not_equal(src, 0), src, dst)` for two views of `F`, `GooseEYE.h:236-239`. -/
def copyNonzero (F : Nd Int) (src dst : List (Int × Int)) : Outcome (Nd Int) := do
  let s ← F.view src
  let d ← F.view dst
  let v ← map₂ (fun a b => if a ≠ 0 then a else b) s d
  F.setView dst v

/-- `detail::periodic_copy_below_to_above`, `GooseEYE.h:212-241`. -/
def copyBelowToAbove (F : Nd Int) (pad : List (Nat × Nat)) : Outcome (Nd Int) :=
  forM (List.range F.shape.length) F fun F ax =>
    match F.shape[ax]?, pad[ax]? with
    | some n, some p =>
      if n ≤ 1 then pure F
      else
        copyNonzero F (slab F.shape ax (0, (p.1 : Int)))
          (slab F.shape ax ((n : Int) - p.2 - p.1, (n : Int) - p.2))
    | _, _ => ub

/-- `detail::periodic_copy_above_to_below`, `GooseEYE.h:243-272`. -/
def copyAboveToBelow (F : Nd Int) (pad : List (Nat × Nat)) : Outcome (Nd Int) :=
  forM (List.range F.shape.length) F fun F ax =>
    match F.shape[ax]?, pad[ax]? with
    | some n, some p =>
      if n ≤ 1 then pure F
      else
        copyNonzero F (slab F.shape ax ((n : Int) - p.2, (n : Int)))
          (slab F.shape ax ((p.1 : Int), (p.1 : Int) + p.2))
    | _, _ => ub

/-- `detail::periodic_copy`, `GooseEYE.h:274-279`. -/
def periodicCopy (F : Nd Int) (pad : List (Nat × Nat)) : Outcome (Nd Int) := do
  let F ← copyAboveToBelow F pad
  copyBelowToAbove F pad

/-- One pixel, `GooseEYE.h:329-356`: `iterations(l)` outside the array is undefined (`at1`: an array of one element
gives that element for every label, also a negative one). -/
def pixel (pad : List (Nat × Nat)) (K : Nd Int) (iterations : List Nat) (iter : Nat) (F : Nd Int)
    (G : Nd Int) (x : List Int) : Outcome (Nd Int) := do
  let l ← F.read x
  if l = 0 then pure G
  else
    match at1 iterations l with
    | none => ub
    | some n =>
      if n ≤ iter then pure G
      else
        let Fi ← F.view (around pad x)
        let Gi ← G.view (around pad x)
        let c ← map₂ (fun (f k : Int) => decide (f = 0) && decide (k = 1)) Fi K
        let v ← map₂ (fun (c : Bool) (g : Int) => if c then l else g) c Gi
        G.setView (around pad x) v

/-- One iteration, `GooseEYE.h:323-369`: `G` starts as a copy of `F` and replaces it at the end. -/
def iteration (pad : List (Nat × Nat)) (K : Nd Int) (iterations : List Nat) (periodic : Bool) (F : Nd Int)
    (iter : Nat) : Outcome (Nd Int) := do
  let G ← forM (pixelLoop F.shape pad) F (pixel pad K iterations iter F)
  if periodic then periodicCopy G pad else pure G

/-- `xt::amax` of signed integers (external): the smallest value of the type, here any negative number, if
there are none. -/
def amax (l : List Int) : Int := l.foldl max (-2147483648)

/-- `dilate(f, kernel, iterations, periodic)`, `GooseEYE.h:292-381`. A kernel with an axis of size zero is
not modelled (`ub`). The assertion on the labels casts to `size_t`: a negative value becomes larger than
any size. -/
def dilate (dbg : Bool) (f kernel : Nd Int) (iterations : List Nat) (periodic : Bool) :
    Outcome (Nd Int) := do
  gassert dbg (decide (f.shape.length ≤ 3))
  gassert dbg (decide (f.shape.length = kernel.shape.length))
  gassert dbg (binary kernel)
  gassert dbg (decide (0 ≤ amax f.toList ∧ amax f.toList ≤ iterations.length + 1))
  if 3 < f.shape.length ∨ 3 < kernel.shape.length ∨ 0 ∈ kernel.shape then ub
  else
    let K := kernel.atleast3d
    let pad := padWidth K.shape
    let F ← f.atleast3d.pad pad (padMode periodic) 0
    let F ← forM (List.range (iterations.foldl max 0)) F (iteration pad K iterations periodic)
    let F ← F.view (List.zipWith (fun (n : Nat) (p : Nat × Nat) => ((p.1 : Int), (n : Int) - p.2)) F.shape pad)
    if F.size = f.size then pure (F.reshape f.shape) else ub

/-- `kernel::nearest` as an array. `GooseEYE.h:62-86`, as used in `390` and `418`. -/
def nearest (dbg : Bool) (ndim : Nat) : Outcome (Nd Int) := do
  let k ← Kernel.nearest dbg ndim
  pure (Nd.ofList k.shape k.flat)

/-- `dilate(f, iterations, periodic)`, `GooseEYE.h:387-391`. -/
def dilateNearest (dbg : Bool) (f : Nd Int) (iterations : List Nat) (periodic : Bool) :
    Outcome (Nd Int) := do
  let k ← nearest dbg f.shape.length
  dilate dbg f k iterations periodic

/-- `iterations * xt::ones<size_t>({xt::amax(f)(0) + 1ul})`, `GooseEYE.h:406`, `417`; a size that is
negative wraps to an array that cannot be allocated: conservatively undefined. -/
def sameIterations (f : Nd Int) (iterations : Nat) : Outcome (List Nat) :=
  if amax f.toList + 1 < 0 then ub else ok (List.replicate (amax f.toList + 1).toNat iterations)

/-- `dilate(f, kernel, iterations, periodic)` with one number of iterations, `GooseEYE.h:398-409`. -/
def dilateSame (dbg : Bool) (f kernel : Nd Int) (iterations : Nat) (periodic : Bool) :
    Outcome (Nd Int) := do
  let iter ← sameIterations f iterations
  dilate dbg f kernel iter periodic

/-- `dilate(f, iterations, periodic)` with one number of iterations, `GooseEYE.h:415-419`. -/
def dilateNearestSame (dbg : Bool) (f : Nd Int) (iterations : Nat) (periodic : Bool) :
    Outcome (Nd Int) := do
  let iter ← sameIterations f iterations
  let k ← nearest dbg f.shape.length
  dilate dbg f k iter periodic

end Dilate

end Verif
