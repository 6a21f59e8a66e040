import Verif.Model.NdArray
import Verif.Model.Path
import Mathlib.Algebra.Order.Field.Basic

/-!
# Model of the class `Ensemble`

`/repo/include/GooseEYE/Ensemble*.hpp`, declared in `GooseEYE.h:1402-1631`.

Simplifications:

* `double` and the integral value types of images are one type `K` with its own arithmetic: an exact linearly
  ordered field in most theorems, rounded numbers (`Verif.Model.Float`) in C73;
* `pow(x, 0.5)` is a parameter `pow05`, to be instantiated with the square root;
* a ROI with an axis of size zero (or of rank above 3 without assertions) is not modelled: the
  constructor is `ub`.
-/

namespace Verif.Ens

open Verif Outcome Nd

/-- `Ensemble::Type`, `GooseEYE.h:1596`. -/
inductive Stat where
  | unset
  | mean
  | S2
  | C2
  | W2
  | W2c
  | L
  | heightheight
deriving DecidableEq, Repr

/-- `detail::pad_width(shape)`, `detail.hpp:100-116`. -/
def padWidth (shape : List Nat) : List (Nat × Nat) :=
  shape.map fun n => if n % 2 = 0 then (n / 2 - 1, n / 2) else ((n - 1) / 2, (n - 1) / 2)

/-- The data members, `GooseEYE.h:1595-1630`. -/
structure Ensemble (K : Type) where
  stat : Stat
  periodic : Bool
  variance : Bool
  first : Nd K
  second : Nd K
  norm : Nd K
  shapeOrig : List Nat
  shape : List Nat
  pad : List (Nat × Nat)

variable {K : Type} [Zero K] [One K] [Add K] [Sub K] [Neg K] [Mul K] [Div K] [Pow K Nat] [NatCast K] [IntCast K] [LE K]
  [DecidableLE K] [Max K] [DecidableEq K]
variable {P : Type} [Zero P] [One P] [Add P] [Sub P] [Neg P] [Mul P] [Div P] [NatCast P] [IntCast P] [DecidableEq P]
  [LT P] [DecidableLT P]

/-- The constructor, `Ensemble.hpp:14-24`. -/
def make (K : Type) [Zero K] (dbg : Bool) (roi : List Nat) (periodic variance : Bool) : Outcome (Ensemble K) := do
  gassert dbg (decide (roi.length ≤ 3))
  if roi.length > 3 ∨ 0 ∈ roi then ub
  else
    let first := (Nd.fill roi (0 : K)).atleast3d
    pure {
      stat := .unset
      periodic := periodic
      variance := variance
      first := first
      second := Nd.fill first.shape 0
      norm := Nd.fill first.shape 0
      shapeOrig := roi
      shape := first.shape
      pad := padWidth first.shape }

/-- `xt::where(m_norm <= 0, 1.0, m_norm)`. `Ensemble.hpp:28`, `39`. -/
def norm1 (n : K) : K := if n ≤ 0 then 1 else n

/-- `result()`, `Ensemble.hpp:26-35`. -/
def result (pow05 : K → K) (E : Ensemble K) : Outcome (Nd K) := do
  let ret ← map₂ (fun a n => a / norm1 n) E.first E.norm
  let ret := if E.stat = .heightheight then ret.map pow05 else ret
  pure (ret.reshape E.shapeOrig)

/-- One element of the array computed in `variance()`, `Ensemble.hpp:39-41`. -/
def varianceOf (first second norm : K) : K :=
  let n := norm1 norm
  (second / n - (first / n) ^ 2) * n / (n - 1)

/-- `variance()`, `Ensemble.hpp:37-51`. A norm of 1 gives a division of zero by zero in the code; in
the model a division by zero is 0. -/
def varianceResult (pow05 : K → K) (E : Ensemble K) : Outcome (Nd K) := do
  let fs ← map₂ Prod.mk E.first E.second
  let ret ← map₂ (fun (p : K × K) n => varianceOf p.1 p.2 n) fs E.norm
  if E.stat = .heightheight then pure ((ret.map pow05).reshape E.shapeOrig)
  else if E.stat ≠ .mean then throws
  else pure (ret.reshape E.shapeOrig)

/-- `data_first()`, `Ensemble.hpp:53-57`. -/
def dataFirst (E : Ensemble K) : Nd K := E.first.reshape E.shapeOrig

/-- `data_second()`, `Ensemble.hpp:59-63`. -/
def dataSecond (E : Ensemble K) : Nd K := E.second.reshape E.shapeOrig

/-- `norm()`, `Ensemble.hpp:65-69`. -/
def dataNorm (E : Ensemble K) : Nd K := E.norm.reshape E.shapeOrig

/-! ### distance -/

/-- `detail::atleast_3d_axis(rank, axis)`, `detail.hpp:23-30`: `end = round((3 - rank) / 3)`. Simplified: the two
`assert`s of the C library are taken to be off (`NDEBUG`). With `GOOSEEYE_ENABLE_ASSERT` they cannot fail; without it,
and without `NDEBUG`, the first aborts the program if there is no such axis. -/
def atleast3dAxis (rank axis : Nat) : Nat := axis + (if rank ≤ 1 then 1 else 0)

/-- `xt::linspace(start, stop, n)[i]` (external). -/
def linspace (start stop : K) (n : Nat) (i : Int) : K :=
  start + (i : K) * ((stop - start) / (max 1 ((n : K) - 1)))

/-- `distance(axis)`, `Ensemble.hpp:71-101`. -/
def distanceAxis (dbg : Bool) (E : Ensemble K) (axis : Nat) : Outcome (Nd K) := do
  gassert dbg (decide (axis < E.shapeOrig.length))
  let axis := atleast3dAxis E.shapeOrig.length axis
  match E.pad[axis]?, E.shape[axis]? with
  | some p, some n =>
    let D := linspace (-1 * (p.1 : K)) (p.2 : K) n
    pure ((Nd.ofFn E.shape fun x => D (x.getD axis 0)).reshape E.shapeOrig)
  | _, _ => ub

/-- The loop of `distance()` and `distance(h)`, `Ensemble.hpp:107-109`, `120-122`: `scale i` is 1 or
`h[i]`. -/
def distanceSum (dbg : Bool) (E : Ensemble K) (scale : Nat → K) : Outcome (Nd K) :=
  forM (List.range E.shapeOrig.length) (Nd.fill E.shapeOrig 0) fun ret i => do
    let d ← distanceAxis dbg E i
    map₂ (fun a b => a + (b * scale i) ^ 2) ret d

/-- `distance()`, `Ensemble.hpp:103-112`. -/
def distance (pow05 : K → K) (dbg : Bool) (E : Ensemble K) : Outcome (Nd K) := do
  let ret ← distanceSum dbg E fun _ => 1
  pure (ret.map pow05)

/-- `distance(h)`, `Ensemble.hpp:114-125`. `h` too short: out of bounds. -/
def distanceH (pow05 : K → K) (dbg : Bool) (E : Ensemble K) (h : List K) : Outcome (Nd K) := do
  gassert dbg (decide (E.shapeOrig.length = h.length))
  if h.length < E.shapeOrig.length then ub
  else
    let ret ← distanceSum dbg E fun i => h.getD i 0
    pure (ret.map pow05)

/-- `distance(h, axis)`, `Ensemble.hpp:127-131`. -/
def distanceHAxis (dbg : Bool) (E : Ensemble K) (h : List K) (axis : Nat) : Outcome (Nd K) := do
  gassert dbg (decide (E.shapeOrig.length = h.length))
  let d ← distanceAxis dbg E axis
  match h[axis]? with
  | some a => pure (d.map fun x => x * a)
  | none => ub

/-! ### mean -/

/-- `m_first(0) += v`, ...: one argument is the last index of the array. `Ensemble_mean.hpp:22-24`, `39-44`. -/
def addTo0 (a : Nd K) (v : K) : Outcome (Nd K) := a.addAt [0, 0, 0] v

/-- `mean(f)`, `Ensemble_mean.hpp:15-26`. -/
def mean (dbg : Bool) (E : Ensemble K) (f : Nd K) : Outcome (Ensemble K) := do
  gassert dbg (decide (E.shape = [1, 1, 1]))
  gassert dbg (decide (E.stat = .mean ∨ E.stat = .unset))
  let first ← addTo0 E.first f.sum
  let second ← addTo0 E.second (f.map fun x => x ^ 2).sum
  let norm ← addTo0 E.norm (f.size : K)
  pure { E with stat := .mean, first := first, second := second, norm := norm }

/-- `xt::all(xt::equal(mask, 0) || xt::equal(mask, 1))`.
`Ensemble_S2.hpp:26-27` (and the same in the other measures). -/
def binary (mask : Nd Int) : Bool := mask.all fun m => m == 0 || m == 1

/-- `mean(f, fmask)`, `Ensemble_mean.hpp:28-47`. -/
def meanMask (dbg : Bool) (E : Ensemble K) (f : Nd K) (fmask : Nd Int) : Outcome (Ensemble K) := do
  gassert dbg (decide (f.shape = fmask.shape))
  gassert dbg (binary fmask)
  gassert dbg (decide (E.shape = [1, 1, 1]))
  gassert dbg (decide (E.stat = .mean ∨ E.stat = .unset))
  let v1 ← map₂ (fun (m : Int) x => if m = 0 then x else 0) fmask f
  let first ← addTo0 E.first v1.sum
  let v2 ← map₂ (fun (m : Int) x => if m = 0 then x ^ 2 else 0) fmask f
  let second ← addTo0 E.second v2.sum
  let norm ← addTo0 E.norm (fmask.map fun m => ((1 - m : Int) : K)).sum
  pure { E with stat := .mean, first := first, second := second, norm := norm }

/-! ### The loops shared by S2, C2, W2, heightheight -/

/-- The `pad_mode` of the images, `Ensemble_S2.hpp:34-41` (and the same in the other measures). -/
def padMode (periodic : Bool) : PadMode := if periodic then .periodic else .constant

/-- The value with which masks are padded, `Ensemble_S2.hpp:34-41`. -/
def maskValue (periodic : Bool) : Int := if periodic then 0 else 1

/-- The indices `h`, `i`, `j` of the loops over the pixels, `Ensemble_S2.hpp:53-55`. -/
def pixelLoop (shape : List Nat) (pad : List (Nat × Nat)) : List (List Int) :=
  loops (List.zipWith (fun n (p : Nat × Nat) => (p.1, n - p.2)) shape pad)

/-- The ranges of the view around a pixel, `Ensemble_S2.hpp:61-65`. -/
def around (pad : List (Nat × Nat)) (x : List Int) : List (Int × Int) :=
  List.zipWith (fun (p : Nat × Nat) i => (i - p.1, i + p.2 + 1)) pad x

/-- `m_first += a`.
`Ensemble_S2.hpp:74`, `Ensemble_C2.hpp:74`, `Ensemble_W2.hpp:66`, `Ensemble_heightheight.hpp:67`. -/
def addFirst (E : Ensemble K) (a : Nd K) : Outcome (Ensemble K) := do
  let first ← map₂ (fun x y => x + y) E.first a
  pure { E with first := first }

/-- `m_second += a`. `Ensemble_heightheight.hpp:70`. -/
def addSecond (E : Ensemble K) (a : Nd K) : Outcome (Ensemble K) := do
  let second ← map₂ (fun x y => x + y) E.second a
  pure { E with second := second }

/-- `m_norm += a`.
`Ensemble_S2.hpp:77`, `Ensemble_C2.hpp:77`, `Ensemble_W2.hpp:69`, `Ensemble_heightheight.hpp:73`. -/
def addNorm (E : Ensemble K) (a : Nd K) : Outcome (Ensemble K) := do
  let norm ← map₂ (fun x y => x + y) E.norm a
  pure { E with norm := norm }

/-- `1.0 - xt::view(Gmask, ...)`, `Ensemble_S2.hpp:67-71`. -/
def unmasked (Gmask : Nd Int) (pad : List (Nat × Nat)) (x : List Int) : Outcome (Nd K) := do
  let v ← Gmask.view (around pad x)
  pure (v.map fun (m : Int) => 1 - (m : K))

/-! ### S2 -/

/-- The body of the loop, `Ensemble_S2.hpp:56-78`. -/
def bodyS2 (pad : List (Nat × Nat)) (F G : Nd K) (Fmask Gmask : Nd Int) (E : Ensemble K)
    (x : List Int) : Outcome (Ensemble K) := do
  let m ← Fmask.read x
  if m ≠ 0 then pure E
  else
    let Gi ← G.view (around pad x)
    let Gmii ← unmasked Gmask pad x
    let fx ← F.read x
    let E ← if fx ≠ 0 then (do
        let c ← map₂ (fun g m => fx * g * m) Gi Gmii
        addFirst E c)
      else pure E
    addNorm E Gmii

/-- `S2(f, g, fmask, gmask)`, `Ensemble_S2.hpp:14-82`. -/
def S2 (dbg : Bool) (E : Ensemble K) (f g : Nd K) (fmask gmask : Nd Int) : Outcome (Ensemble K) := do
  gassert dbg (decide (f.shape = g.shape))
  gassert dbg (decide (f.shape = fmask.shape))
  gassert dbg (decide (f.shape = gmask.shape))
  gassert dbg (decide (f.shape.length = E.shapeOrig.length))
  gassert dbg (binary fmask)
  gassert dbg (binary gmask)
  gassert dbg (decide (E.stat = .S2 ∨ E.stat = .unset))
  let E := { E with stat := .S2 }
  let F ← f.atleast3d.pad E.pad (padMode E.periodic) 0
  let G ← g.atleast3d.pad E.pad (padMode E.periodic) 0
  let Fmask ← fmask.atleast3d.pad E.pad .constant (maskValue E.periodic)
  let Gmask ← gmask.atleast3d.pad E.pad .constant (maskValue E.periodic)
  forM (pixelLoop F.shape E.pad) E (bodyS2 E.pad F G Fmask Gmask)

/-- `xt::zeros<int>(f.shape())`. `Ensemble_S2.hpp:86` (and the same in the other measures). -/
def noMask (f : Nd K) : Nd Int := Nd.fill f.shape 0

/-- `S2(f, g)`, `Ensemble_S2.hpp:84-89`. -/
def S2' (dbg : Bool) (E : Ensemble K) (f g : Nd K) : Outcome (Ensemble K) :=
  S2 dbg E f g (noMask f) (noMask f)

/-! ### C2 -/

/-- The body of the loop, `Ensemble_C2.hpp:56-78`. -/
def bodyC2 (pad : List (Nat × Nat)) (F G : Nd K) (Fmask Gmask : Nd Int) (E : Ensemble K)
    (x : List Int) : Outcome (Ensemble K) := do
  let m ← Fmask.read x
  if m ≠ 0 then pure E
  else
    let Gi ← G.view (around pad x)
    let Gmii ← unmasked Gmask pad x
    let fx ← F.read x
    let E ← if fx ≠ 0 then (do
        let c ← map₂ (fun g m => if fx = g then m else 0) Gi Gmii
        addFirst E c)
      else pure E
    addNorm E Gmii

/-- `C2(f, g, fmask, gmask)`, `Ensemble_C2.hpp:14-82`. -/
def C2 (dbg : Bool) (E : Ensemble K) (f g : Nd K) (fmask gmask : Nd Int) : Outcome (Ensemble K) := do
  gassert dbg (decide (f.shape = g.shape))
  gassert dbg (decide (f.shape = fmask.shape))
  gassert dbg (decide (f.shape = gmask.shape))
  gassert dbg (decide (f.shape.length = E.shapeOrig.length))
  gassert dbg (binary fmask)
  gassert dbg (binary gmask)
  gassert dbg (decide (E.stat = .C2 ∨ E.stat = .unset))
  let E := { E with stat := .C2 }
  let F ← f.atleast3d.pad E.pad (padMode E.periodic) 0
  let G ← g.atleast3d.pad E.pad (padMode E.periodic) 0
  let Fmask ← fmask.atleast3d.pad E.pad .constant (maskValue E.periodic)
  let Gmask ← gmask.atleast3d.pad E.pad .constant (maskValue E.periodic)
  forM (pixelLoop F.shape E.pad) E (bodyC2 E.pad F G Fmask Gmask)

/-- `C2(f, g)`, `Ensemble_C2.hpp:84-89`. -/
def C2' (dbg : Bool) (E : Ensemble K) (f g : Nd K) : Outcome (Ensemble K) :=
  C2 dbg E f g (noMask f) (noMask f)

/-! ### W2 -/

/-- The body of the loop, `Ensemble_W2.hpp:50-69`. -/
def bodyW2 (pad : List (Nat × Nat)) (F G : Nd K) (Gmask : Nd Int) (E : Ensemble K)
    (x : List Int) : Outcome (Ensemble K) := do
  let Gi ← G.view (around pad x)
  let Gmii ← unmasked Gmask pad x
  let fx ← F.read x
  let E ← if fx ≠ 0 then (do
      let c ← map₂ (fun g m => fx * g * m) Gi Gmii
      addFirst E c)
    else pure E
  addNorm E (Gmii.map fun m => fx * m)

/-- `W2(f, g, gmask)`, `Ensemble_W2.hpp:14-73`. -/
def W2 (dbg : Bool) (E : Ensemble K) (f g : Nd K) (gmask : Nd Int) : Outcome (Ensemble K) := do
  gassert dbg (decide (f.shape = g.shape))
  gassert dbg (decide (f.shape = gmask.shape))
  gassert dbg (decide (f.shape.length = E.shapeOrig.length))
  gassert dbg (binary gmask)
  gassert dbg (decide (E.stat = .W2 ∨ E.stat = .unset))
  let E := { E with stat := .W2 }
  let F ← f.atleast3d.pad E.pad (padMode E.periodic) 0
  let G ← g.atleast3d.pad E.pad (padMode E.periodic) 0
  let Gmask ← gmask.atleast3d.pad E.pad .constant (maskValue E.periodic)
  forM (pixelLoop F.shape E.pad) E (bodyW2 E.pad F G Gmask)

/-- `W2(f, g)`, `Ensemble_W2.hpp:75-80`. -/
def W2' (dbg : Bool) (E : Ensemble K) (f g : Nd K) : Outcome (Ensemble K) :=
  W2 dbg E f g (noMask f)

/-! ### heightheight -/

/-- The body of the loop, `Ensemble_heightheight.hpp:49-76`. -/
def bodyHH (pad : List (Nat × Nat)) (F : Nd K) (Fmask : Nd Int) (E : Ensemble K)
    (x : List Int) : Outcome (Ensemble K) := do
  let m ← Fmask.read x
  if m ≠ 0 then pure E
  else
    let Fi ← F.view (around pad x)
    let Fmii ← unmasked Fmask pad x
    let fx ← F.read x
    let c1 ← map₂ (fun g m => (g - fx) ^ 2 * m) Fi Fmii
    let E ← addFirst E c1
    let E ← if E.variance then (do
        let c2 ← map₂ (fun g m => (g - fx) ^ 4 * m) Fi Fmii
        addSecond E c2)
      else pure E
    addNorm E Fmii

/-- `heightheight(f, fmask)`, `Ensemble_heightheight.hpp:14-80`. -/
def heightheight (dbg : Bool) (E : Ensemble K) (f : Nd K) (fmask : Nd Int) : Outcome (Ensemble K) := do
  gassert dbg (decide (f.shape = fmask.shape))
  gassert dbg (decide (f.shape.length = E.shapeOrig.length))
  gassert dbg (binary fmask)
  gassert dbg (decide (E.stat = .heightheight ∨ E.stat = .unset))
  let E := { E with stat := .heightheight }
  let F ← f.atleast3d.pad E.pad (padMode E.periodic) 0
  let Fmask ← fmask.atleast3d.pad E.pad .constant (maskValue E.periodic)
  forM (pixelLoop F.shape E.pad) E (bodyHH E.pad F Fmask)

/-- `heightheight(f)`, `Ensemble_heightheight.hpp:82-87`. -/
def heightheight' (dbg : Bool) (E : Ensemble K) (f : Nd K) : Outcome (Ensemble K) :=
  heightheight dbg E f (noMask f)

/-! ### L and W2c: the end points of the paths -/

/-- Interior indices of an axis of the ROI, `Ensemble_L.hpp:44-46`: `range(1, n - 1)` if `n > 1`, else
`range(0, n)`. -/
def interior (n : Nat) (i : Int) : Bool :=
  if n > 1 then decide (1 ≤ i ∧ i < (n : Int) - 1) else decide (0 ≤ i ∧ i < (n : Int))

/-- `r(x) != 0`: `x` is not interior along all axes, `Ensemble_L.hpp:41-48`. -/
def onBoundary (shape : List Nat) (x : List Int) : Bool :=
  !((List.zipWith interior shape x).all id)

/-- `stamp`, `Ensemble_L.hpp:50-54`: `xt::argwhere(r)` (row-major order), minus the pad. -/
def stamps (shape : List Nat) (pad : List (Nat × Nat)) : List (List Int) :=
  ((loops (shape.map fun n => (0, n))).filter (onBoundary shape)).map fun x =>
    minus x (pad.map fun p => (p.1 : Int))

/-- `pad[0][0], pad[1][0], pad[2][0]`. `Ensemble_L.hpp:77`, `88`. -/
def origin (pad : List (Nat × Nat)) : List Int := pad.map fun p => (p.1 : Int)

/-! ### L -/

/-- The loop along the path, `Ensemble_L.hpp:69-82`. -/
def walkL (pad : List (Nat × Nat)) (F : Nd K) (x : List Int) :
    List (List Int) → Ensemble K → Outcome (Ensemble K)
  | [], E => ok E
  | d :: path, E => do
    let v ← F.read (plus x d)
    if v = 0 then pure E
    else
      let first ← E.first.addAt (plus (origin pad) d) 1
      walkL pad F x path { E with first := first }

/-- One stamp point, `Ensemble_L.hpp:58-94`. `pathTo` is `path({0, 0, 0}, stamp, mode)`. -/
def stampL (pathTo : List Int → Outcome (List (List Int))) (pad : List (Nat × Nat)) (F : Nd K)
    (size : Nat) (E : Ensemble K) (stamp : List Int) : Outcome (Ensemble K) := do
  let path ← pathTo stamp
  let E ← forM (pixelLoop F.shape pad) E fun E x => walkL pad F x path E
  forM path E fun E d => do
    let norm ← E.norm.addAt (plus (origin pad) d) (size : K)
    pure { E with norm := norm }

/-- `L(f, mode)`, `Ensemble_L.hpp:14-95`. `junk`, `fuel`: see `Path.path`; `P`:
the numbers that the path is computed with. -/
def L (dbg : Bool) (junk : P) (fuel : Nat) (E : Ensemble K) (f : Nd K) (mode : Path.Mode) :
    Outcome (Ensemble K) := do
  gassert dbg (decide (f.shape.length = E.shapeOrig.length))
  gassert dbg (decide (E.stat = .L ∨ E.stat = .unset))
  let E := { E with stat := .L }
  let F ← f.atleast3d.pad E.pad (padMode E.periodic) 0
  forM (stamps E.shape E.pad) E
    (stampL (fun s => Path.path junk fuel [0, 0, 0] s mode) E.pad F f.size)

/-! ### W2c -/

/-- `m_pad[0][0], m_pad[1][0], m_pad[1][0]`, `Ensemble_W2c.hpp:99-107` (the third is not
`m_pad[2][0]`). -/
def originW2c (pad : List (Nat × Nat)) : List Int :=
  match pad with
  | [p0, p1, _] => [(p0.1 : Int), (p1.1 : Int), (p1.1 : Int)]
  | _ => []

/-- The loop along the path, `Ensemble_W2c.hpp:83-112`. `path`: the whole path; the list argument: the
part still to be visited. -/
def walkW2c (pad : List (Nat × Nat)) (F : Nd K) (Fmask Clusters : Nd Int) (label : Int) (x : List Int)
    (path : List (List Int)) : List (List Int) → Int → Ensemble K → Outcome (Ensemble K)
  | [], _, E => ok E
  | d :: todo, q, E => do
    let c ← Clusters.read (plus x d)
    let q := if c ≠ label ∧ q < 0 then 0 else q
    let E ← if 0 ≤ q then (do
        let m ← Fmask.read (plus x d)
        if m = 0 then do
          match path[q.toNat]? with
          | none => ub
          | some dq =>
            let norm ← E.norm.addAt (plus (originW2c pad) dq) 1
            let v ← F.read (plus x d)
            let first ← E.first.addAt (plus (originW2c pad) dq) v
            pure { E with norm := norm, first := first }
        else pure E)
      else pure E
    walkW2c pad F Fmask Clusters label x path todo (q + 1) E

/-- One pixel, `Ensemble_W2c.hpp:73-113`. -/
def bodyW2c (pad : List (Nat × Nat)) (F : Nd K) (Fmask Clusters Centers : Nd Int)
    (path : List (List Int)) (E : Ensemble K) (x : List Int) : Outcome (Ensemble K) := do
  let label ← Centers.read x
  if label = 0 then pure E
  else
    let c ← Clusters.read x
    if c ≠ label then pure E
    else walkW2c pad F Fmask Clusters label x path path (-1) E

/-- One stamp point, `Ensemble_W2c.hpp:63-116`. `pathTo` is `path({0, 0, 0}, stamp, mode)`. -/
def stampW2c (pathTo : List Int → Outcome (List (List Int))) (pad : List (Nat × Nat)) (F : Nd K)
    (Fmask Clusters Centers : Nd Int) (E : Ensemble K) (stamp : List Int) : Outcome (Ensemble K) := do
  let path ← pathTo stamp
  forM (pixelLoop F.shape pad) E (bodyW2c pad F Fmask Clusters Centers path)

/-- `W2c(clusters, centers, f, fmask, mode)`, `Ensemble_W2c.hpp:14-118`. -/
def W2c (dbg : Bool) (junk : P) (fuel : Nat) (E : Ensemble K) (clusters centers : Nd Int) (f : Nd K)
    (fmask : Nd Int) (mode : Path.Mode) : Outcome (Ensemble K) := do
  gassert dbg (decide (f.shape = clusters.shape))
  gassert dbg (decide (f.shape = centers.shape))
  gassert dbg (decide (f.shape = fmask.shape))
  gassert dbg (decide (f.shape.length = E.shapeOrig.length))
  gassert dbg (binary fmask)
  gassert dbg (decide (E.stat = .W2c ∨ E.stat = .unset))
  let E := { E with stat := .W2c }
  let F ← f.atleast3d.pad E.pad (padMode E.periodic) 0
  let Fmask ← fmask.atleast3d.pad E.pad (padMode E.periodic) 0
  let Clusters ← clusters.atleast3d.pad E.pad (padMode E.periodic) 0
  let Centers ← centers.atleast3d.pad E.pad (padMode E.periodic) 0
  forM (stamps E.shape E.pad) E
    (stampW2c (fun s => Path.path junk fuel [0, 0, 0] s mode) E.pad F Fmask Clusters Centers)

/-- `W2c(clusters, centers, f, mode)`, `Ensemble_W2c.hpp:120-125`. -/
def W2c' (dbg : Bool) (junk : P) (fuel : Nat) (E : Ensemble K) (clusters centers : Nd Int) (f : Nd K)
    (mode : Path.Mode) : Outcome (Ensemble K) :=
  W2c dbg junk fuel E clusters centers f (noMask f) mode

end Verif.Ens
