import Verif.Model.Ensemble

/-!
# Model of the free functions that compute a statistic of one image

`/repo/include/GooseEYE/GooseEYE.hpp:28-166`. The constructor is called as `Ensemble ensemble(roi, periodic)`
(or `ensemble(roi)`): the defaults are `periodic = true`, `variance = true`, `GooseEYE.h:1415`.
-/

namespace Verif.Api

open Verif Outcome Ens

variable {K : Type} [Zero K] [One K] [Add K] [Sub K] [Neg K] [Mul K] [Div K] [Pow K Nat] [NatCast K] [IntCast K] [LE K]
  [DecidableLE K] [Max K] [DecidableEq K]
variable {P : Type} [Zero P] [One P] [Add P] [Sub P] [Neg P] [Mul P] [Div P] [NatCast P] [IntCast P] [DecidableEq P]
  [LT P] [DecidableLT P]

/-- `distance(roi)`, `GooseEYE.hpp:28-32`. -/
def distance (pow05 : K → K) (dbg : Bool) (roi : List Nat) : Outcome (Nd K) := do
  let E ← make K dbg roi true true
  Ens.distance pow05 dbg E

/-- `distance(roi, dim)`, `GooseEYE.hpp:34-38`. -/
def distanceAxis (K : Type) [Zero K] [One K] [Add K] [Sub K] [Neg K] [Mul K] [Div K] [Pow K Nat] [NatCast K] [IntCast K] [LE K]
  [DecidableLE K] [Max K] [DecidableEq K] (dbg : Bool) (roi : List Nat) (dim : Nat) :
    Outcome (Nd K) := do
  let E ← make K dbg roi true true
  Ens.distanceAxis dbg E dim

/-- `distance(roi, h)`, `GooseEYE.hpp:40-44`. -/
def distanceH (pow05 : K → K) (dbg : Bool) (roi : List Nat) (h : List K) : Outcome (Nd K) := do
  let E ← make K dbg roi true true
  Ens.distanceH pow05 dbg E h

/-- `distance(roi, h, dim)`, `GooseEYE.hpp:46-50`. -/
def distanceHAxis (dbg : Bool) (roi : List Nat) (h : List K) (dim : Nat) : Outcome (Nd K) := do
  let E ← make K dbg roi true true
  Ens.distanceHAxis dbg E h dim

/-- `S2(roi, f, g, periodic)`, `GooseEYE.hpp:52-58`. -/
def S2 (pow05 : K → K) (dbg : Bool) (roi : List Nat) (f g : Nd K) (periodic : Bool) : Outcome (Nd K) := do
  let E ← make K dbg roi periodic true
  let E ← Ens.S2' dbg E f g
  result pow05 E

/-- `S2(roi, f, g, fmask, gmask, periodic)`, `GooseEYE.hpp:60-72`. -/
def S2Mask (pow05 : K → K) (dbg : Bool) (roi : List Nat) (f g : Nd K) (fmask gmask : Nd Int)
    (periodic : Bool) : Outcome (Nd K) := do
  let E ← make K dbg roi periodic true
  let E ← Ens.S2 dbg E f g fmask gmask
  result pow05 E

/-- `C2(roi, f, g, periodic)`, `GooseEYE.hpp:74-80`. -/
def C2 (pow05 : K → K) (dbg : Bool) (roi : List Nat) (f g : Nd K) (periodic : Bool) : Outcome (Nd K) := do
  let E ← make K dbg roi periodic true
  let E ← Ens.C2' dbg E f g
  result pow05 E

/-- `C2(roi, f, g, fmask, gmask, periodic)`, `GooseEYE.hpp:82-94`. -/
def C2Mask (pow05 : K → K) (dbg : Bool) (roi : List Nat) (f g : Nd K) (fmask gmask : Nd Int)
    (periodic : Bool) : Outcome (Nd K) := do
  let E ← make K dbg roi periodic true
  let E ← Ens.C2 dbg E f g fmask gmask
  result pow05 E

/-- `W2(roi, w, f, periodic)`, `GooseEYE.hpp:96-102`. -/
def W2 (pow05 : K → K) (dbg : Bool) (roi : List Nat) (w f : Nd K) (periodic : Bool) : Outcome (Nd K) := do
  let E ← make K dbg roi periodic true
  let E ← Ens.W2' dbg E w f
  result pow05 E

/-- `W2(roi, w, f, fmask, periodic)`, `GooseEYE.hpp:104-111`. -/
def W2Mask (pow05 : K → K) (dbg : Bool) (roi : List Nat) (w f : Nd K) (fmask : Nd Int)
    (periodic : Bool) : Outcome (Nd K) := do
  let E ← make K dbg roi periodic true
  let E ← Ens.W2 dbg E w f fmask
  result pow05 E

/-- `W2c(roi, clusters, centers, f, mode, periodic)`, `GooseEYE.hpp:113-125`. -/
def W2c (pow05 : K → K) (dbg : Bool) (junk : P) (fuel : Nat) (roi : List Nat) (clusters centers : Nd Int)
    (f : Nd K) (mode : Path.Mode) (periodic : Bool) : Outcome (Nd K) := do
  let E ← make K dbg roi periodic true
  let E ← Ens.W2c' dbg junk fuel E clusters centers f mode
  result pow05 E

/-- `W2c(roi, clusters, centers, f, fmask, mode, periodic)`, `GooseEYE.hpp:127-140`. -/
def W2cMask (pow05 : K → K) (dbg : Bool) (junk : P) (fuel : Nat) (roi : List Nat)
    (clusters centers : Nd Int) (f : Nd K) (fmask : Nd Int) (mode : Path.Mode) (periodic : Bool) :
    Outcome (Nd K) := do
  let E ← make K dbg roi periodic true
  let E ← Ens.W2c dbg junk fuel E clusters centers f fmask mode
  result pow05 E

/-- `heightheight(roi, f, periodic)`, `GooseEYE.hpp:142-148`. -/
def heightheight (pow05 : K → K) (dbg : Bool) (roi : List Nat) (f : Nd K) (periodic : Bool) :
    Outcome (Nd K) := do
  let E ← make K dbg roi periodic true
  let E ← Ens.heightheight' dbg E f
  result pow05 E

/-- `heightheight(roi, f, fmask, periodic)`, `GooseEYE.hpp:150-156`. -/
def heightheightMask (pow05 : K → K) (dbg : Bool) (roi : List Nat) (f : Nd K) (fmask : Nd Int)
    (periodic : Bool) : Outcome (Nd K) := do
  let E ← make K dbg roi periodic true
  let E ← Ens.heightheight dbg E f fmask
  result pow05 E

/-- `L(roi, f, periodic, mode)`, `GooseEYE.hpp:158-164`. -/
def L (pow05 : K → K) (dbg : Bool) (junk : P) (fuel : Nat) (roi : List Nat) (f : Nd K) (periodic : Bool)
    (mode : Path.Mode) : Outcome (Nd K) := do
  let E ← make K dbg roi periodic true
  let E ← Ens.L dbg junk fuel E f mode
  result pow05 E

end Verif.Api
