import Verif.Model.Dummy
import Verif.Model.Path32

/-!
# `dummy_circles` with the integers of the code

`/repo/include/GooseEYE/GooseEYE.h:120-162`, as `Verif.Dummy.circlesWith`, but all variables are `int` of 32 bits: a
result that does not fit is undefined behaviour, and so is the conversion to `int` of a distance that does not fit.
-/

namespace Verif.Dummy

open Outcome Path

/-- `for (int d = -r; d <= r; ++d)`, `GooseEYE.h:135-136,148-149`. The last `++d` overflows for the highest `int`; it
is evaluated beforehand, which makes no difference: the bodies return or are undefined. -/
def range32 (r : Int) : Outcome (List Int) :=
  (i32 (-r)).bind fun _ => if r < 0 then ok [] else (i32 (r + 1)).bind fun _ => ok (range r)

/-- The body of the loop of the periodic case, `GooseEYE.h:137-140`. -/
def stampPeriodic32 (root : Nat → Int) (out : Nd Int) (row col r di dj : Int) : Outcome (Nd Int) :=
  (i32 (distance root di dj)).bind fun dr =>
  if dr < r then
    (i32 (row + di)).bind fun a => (i32 (col + dj)).bind fun b =>
    (periodicIndex out.shape [a, b]).bind fun x => out.write x 1
  else ok out

/-- The body of the loop of the non-periodic case, `GooseEYE.h:150-155`. -/
def stamp32 (root : Nat → Int) (out : Nd Int) (row col r di dj : Int) : Outcome (Nd Int) :=
  (i32 (row + di)).bind fun a => (i32 (col + dj)).bind fun b =>
  if Nd.inside out.shape [a, b] then
    (i32 (distance root di dj)).bind fun dr => if dr < r then out.write [a, b] 1 else ok out
  else ok out

/-- One circle, `GooseEYE.h:135-142,148-157`. -/
def circle32 (root : Nat → Int) (periodic : Bool) (c : Int × Int × Int) (out : Nd Int) : Outcome (Nd Int) :=
  (range32 c.2.2).bind fun ds => forM ds out fun out di => (range32 c.2.2).bind fun ds => forM ds out fun out dj =>
    if periodic then stampPeriodic32 root out c.1 c.2.1 c.2.2 di dj else stamp32 root out c.1 c.2.1 c.2.2 di dj

/-- `dummy_circles(shape, row, col, r, periodic)`, `GooseEYE.h:120-162`, with `int`s. -/
def circlesWith32 (root : Nat → Int) (dbg : Bool) (shape : List Nat) (row col r : List Int) (periodic : Bool) :
    Outcome (Nd Int) := do
  gassert dbg (decide (row.length = col.length))
  gassert dbg (decide (row.length = r.length))
  gassert dbg (decide (shape.length = 2))
  if shape.length ≠ 2 then ub
  else
    forM (List.range row.length) (Nd.fill shape 0) fun out i =>
      (circle row col r i).bind fun c => circle32 root periodic c out

/-- `dummy_circles(shape, row, col, r, periodic)`, `GooseEYE.h:120-162`, with `int`s and exact roots. -/
def dummyCircles32 (dbg : Bool) (shape : List Nat) (row col r : List Int) (periodic : Bool) : Outcome (Nd Int) :=
  circlesWith32 (fun m => ceilSqrt m) dbg shape row col r periodic

end Verif.Dummy
