import Verif.Model.Measure
import Verif.Model.Path32

/-!
# The measures along pixel paths with the integers of the code

As `Ens.L`, `Ens.W2c` and the free functions on top of them, but the paths are those of `path` with `int`s of 32 bits
(`Path.path32`): a sum or difference that does not fit is undefined behaviour. (Theorems C125 say when the two agree.)
The other integers (positions in the image, `int dh`, ...) are unbounded, as in `Ens.L` and `Ens.W2c`.
-/

namespace Verif.Ens

open Verif Outcome

variable {K : Type} [Zero K] [One K] [Add K] [Sub K] [Neg K] [Mul K] [Div K] [Pow K Nat] [NatCast K] [IntCast K] [LE K]
  [DecidableLE K] [Max K] [DecidableEq K]
variable {P : Type} [Zero P] [One P] [Add P] [Sub P] [Neg P] [Mul P] [Div P] [NatCast P] [IntCast P] [DecidableEq P]
  [LT P] [DecidableLT P]

/-- `L(f, mode)`, `Ensemble_L.hpp:14-95`, with paths of `int`s. -/
def L32 (dbg : Bool) (junk : P) (fuel : Nat) (E : Ensemble K) (f : Nd K) (mode : Path.Mode) :
    Outcome (Ensemble K) := do
  gassert dbg (decide (f.shape.length = E.shapeOrig.length))
  gassert dbg (decide (E.stat = .L ∨ E.stat = .unset))
  let E := { E with stat := .L }
  let F ← f.atleast3d.pad E.pad (padMode E.periodic) 0
  forM (stamps E.shape E.pad) E
    (stampL (fun s => Path.path32 junk fuel [0, 0, 0] s mode) E.pad F f.size)

/-- `W2c(clusters, centers, f, fmask, mode)`, `Ensemble_W2c.hpp:14-118`, with paths of `int`s. -/
def W2c32 (dbg : Bool) (junk : P) (fuel : Nat) (E : Ensemble K) (clusters centers : Nd Int) (f : Nd K)
    (fmask : Nd Int) (mode : Path.Mode) : Outcome (Ensemble K) := do
  gassert dbg (decide (f.shape = clusters.shape))
  gassert dbg (decide (f.shape = centers.shape))
  gassert dbg (decide (f.shape = fmask.shape))
  gassert dbg (decide (f.shape.length = E.shapeOrig.length))
  gassert dbg (binary fmask)
  gassert dbg (decide (E.stat = .W2c ∨ E.stat = .unset))
  let E := { E with stat := .W2c }
  let F ← f.atleast3d.pad E.pad (padMode E.periodic) 0
  let Fmask ← fmask.atleast3d.pad E.pad (padMode E.periodic) 0
  let Clusters ← clusters.atleast3d.pad E.pad (padMode E.periodic) 0
  let Centers ← centers.atleast3d.pad E.pad (padMode E.periodic) 0
  forM (stamps E.shape E.pad) E
    (stampW2c (fun s => Path.path32 junk fuel [0, 0, 0] s mode) E.pad F Fmask Clusters Centers)

end Verif.Ens

namespace Verif.Api

open Verif Outcome Ens

variable {K : Type} [Zero K] [One K] [Add K] [Sub K] [Neg K] [Mul K] [Div K] [Pow K Nat] [NatCast K] [IntCast K] [LE K]
  [DecidableLE K] [Max K] [DecidableEq K]
variable {P : Type} [Zero P] [One P] [Add P] [Sub P] [Neg P] [Mul P] [Div P] [NatCast P] [IntCast P] [DecidableEq P]
  [LT P] [DecidableLT P]

/-- `L(roi, f, periodic, mode)`, `GooseEYE.hpp:158-166`, with paths of `int`s. -/
def L32 (pow05 : K → K) (dbg : Bool) (junk : P) (fuel : Nat) (roi : List Nat) (f : Nd K) (periodic : Bool)
    (mode : Path.Mode) : Outcome (Nd K) := do
  let E ← make K dbg roi periodic true
  let E ← Ens.L32 dbg junk fuel E f mode
  result pow05 E

/-- `W2c(roi, clusters, centers, f, mode, periodic)`, `GooseEYE.hpp:113-125`, with paths of `int`s. -/
def W2c32 (pow05 : K → K) (dbg : Bool) (junk : P) (fuel : Nat) (roi : List Nat) (clusters centers : Nd Int)
    (f : Nd K) (mode : Path.Mode) (periodic : Bool) : Outcome (Nd K) := do
  let E ← make K dbg roi periodic true
  let E ← Ens.W2c32 dbg junk fuel E clusters centers f (noMask f) mode
  result pow05 E

/-- `W2c(roi, clusters, centers, f, fmask, mode, periodic)`, `GooseEYE.hpp:127-140`, with paths of `int`s. -/
def W2cMask32 (pow05 : K → K) (dbg : Bool) (junk : P) (fuel : Nat) (roi : List Nat)
    (clusters centers : Nd Int) (f : Nd K) (fmask : Nd Int) (mode : Path.Mode) (periodic : Bool) :
    Outcome (Nd K) := do
  let E ← make K dbg roi periodic true
  let E ← Ens.W2c32 dbg junk fuel E clusters centers f fmask mode
  result pow05 E

end Verif.Api
