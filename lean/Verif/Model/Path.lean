import Verif.Basic
import Mathlib.Algebra.Order.Ring.Rat
import Mathlib.Algebra.Order.Field.Basic

/-!
# Model of `path`, `/repo/include/GooseEYE/detail.hpp:138-407` and `GooseEYE.hpp:14-26`

Simplifications:

* `int` is unbounded (no overflow);
* `double` is a type `K` with arithmetic: the rationals (exact), or numbers of which every operation is rounded
  (`Verif.Model.Float`); `1.e-6` is `1 / 1000000`;
* the loops `while (true)` have fuel.
-/

namespace Verif.Path

open Verif Outcome

/-! ### Bresenham -/

/-- The macro `SIGN`, `/repo/include/GooseEYE/config.h:59`. -/
def SIGN (a : Int) : Int := if a < 0 then -1 else if a > 0 then 1 else 0

/-- Assignment to an element of a local array. `detail.hpp:138-407`. -/
def upd (f : Nat → Int) (i : Nat) (v : Int) : Nat → Int := fun k => if k = i then v else f k

/-- The loop that finds the dominant direction, `detail.hpp:166-178`. 3: the loop ended without
`break`. -/
def dominant (a : Nat → Int) : Nat :=
  if a 0 ≥ max (a 1) (a 2) then 0
  else if a 1 ≥ max (a 0) (a 2) then 1
  else if a 2 ≥ max (a 0) (a 1) then 2
  else 3

/-- `in[0]`, `in[1]`: the directions other than `j`, `detail.hpp:168-174`. -/
def others (j : Nat) : List Nat := if j = 0 then [1, 2] else if j = 1 then [0, 2] else [0, 1]

/-- One increment in a direction that is not dominant, `detail.hpp:195-198`. -/
def bCheck (s : Nat → Int) (aj : Int) (st : (Nat → Int) × (Nat → Int)) (i : Nat) :
    (Nat → Int) × (Nat → Int) :=
  if st.2 i ≥ 0 then (upd st.1 i (st.1 i + s i), upd st.2 i (st.2 i - aj)) else st

/-- The body of the loop, `detail.hpp:193-203`, on the arrays `x` and `d`. -/
def bStep (a s : Nat → Int) (j : Nat) (st : (Nat → Int) × (Nat → Int)) :
    (Nat → Int) × (Nat → Int) :=
  let st := (others j).foldl (bCheck s (a j)) st
  (upd st.1 j (st.1 j + s j), (others j).foldl (fun d i => upd d i (d i + a i)) st.2)

/-- The loop `while (true)`, `detail.hpp:184-204`. `xb[j]` is undefined outside the array. -/
def bLoop (ndim : Nat) (xb : List Int) (a s : Nat → Int) (j : Nat) :
    Nat → (Nat → Int) × (Nat → Int) → List (List Int) → Outcome (List (List Int))
  | 0, _, _ => diverge
  | fuel + 1, st, ret =>
    let ret := ret ++ [(List.range ndim).map st.1]
    match xb[j]? with
    | none => ub
    | some b => if st.1 j = b then ok ret else bLoop ndim xb a s j fuel (bStep a s j st) ret

/-- `path::bresenham(xa, xb)`, `detail.hpp:138-207`. More than three dimensions, or `xb` shorter than
`xa`: out of bounds. -/
def bresenham (xa xb : List Int) : Outcome (List (List Int)) :=
  let ndim := xa.length
  if ndim > 3 ∨ xb.length < ndim then ub
  else
    let delta := fun i : Nat => xb.getD i 0 - xa.getD i 0
    let a := fun i : Nat => if i < ndim then 2 * |delta i| else 1
    let s := fun i : Nat => if i < ndim then SIGN (delta i) else 0
    let x := fun i : Nat => if i < ndim then xa.getD i 0 else 0
    let j := dominant a
    if j = 3 then ub
    else
      let d := (others j).foldl (fun d i => upd d i (a i - a j / 2)) fun _ => 0
      bLoop ndim xb a s j (((xa.zip xb).map fun p => (p.2 - p.1).natAbs).sum + 1) (x, d) []

/-! ### actual and full -/

variable {K : Type} [Zero K] [One K] [Add K] [Sub K] [Neg K] [Mul K] [Div K] [NatCast K] [IntCast K]
  [DecidableEq K] [LT K] [DecidableLT K]

/-- `fabs`. External; `detail.hpp:219-407`. -/
def fabs (x : K) : K := if x < 0 then -x else x

/-- The variables of one axis: `xa`, `xb`, `cindex`, `next` and `x`, `detail.hpp:225-236`. -/
structure Axis (K : Type) where
  xa : Int
  xb : Int
  c : Int
  next : K
  x : K

namespace Axis

/-- `v[i]`, `detail.hpp:246`. -/
def v (a : Axis K) : K := ((a.xb - a.xa : Int) : K)

/-- `sign[i]`, `detail.hpp:251` (not used if `v` is zero). -/
def sign (a : Axis K) : K := a.v / fabs a.v

/-- `t[iin]`, `detail.hpp:265`. -/
def t (a : Axis K) : K := (a.next - a.x) / a.v

/-- `fabs(t[iin] - t[imin]) < 1.e-6` for an active axis, `detail.hpp:279`. -/
def selected (a : Axis K) (tmin : K) : Bool := decide (a.v ≠ 0) && decide (fabs (a.t - tmin) < 1 / (1000000 : Nat))

/-- `cindex[i] += isign[i]; next[i] += sign[i]`, `detail.hpp:280-281`, for a selected axis. `isign` is
`(int)sign`, here the sign of the integer `xb - xa`. -/
def advance (a : Axis K) : Axis K := { a with c := a.c + (a.xb - a.xa).sign, next := a.next + a.sign }

/-- `x[i] = xa[i] + v[i] * t[imin]`, `detail.hpp:290-292`. -/
def place (a : Axis K) (tmin : K) : Axis K := { a with x := a.xa + a.v * tmin }

end Axis

/-- Initialisation of one axis, `detail.hpp:240-256`. -/
def axis (K : Type) [Zero K] [One K] [Neg K] [Mul K] [Div K] [NatCast K] [IntCast K] [LT K] [DecidableLT K]
    (xa xb : Int) : Axis K :=
  let a : Axis K := ⟨xa, xb, xa, 0, xa⟩
  { a with next := a.sign * (1 / (2 : Nat)) }

/-- `t[imin]`: the first lowest `t` of the active axes, `detail.hpp:263-274`. If no axis is active it
is `t[0]`, which was never written: `junk` is what that memory holds. -/
def tmin (junk : K) (axes : List (Axis K)) : K :=
  match (axes.filter fun a => a.v ≠ 0).map Axis.t with
  | [] => junk
  | t :: ts => ts.foldl (fun m t => if t < m then t else m) t

/-- The stored row: `cindex`. `detail.hpp:219-407`. -/
def row (axes : List (Axis K)) : List Int := axes.map Axis.c

/-- The update of mode `actual`, `detail.hpp:278-288`: all selected axes, then one row. -/
def actualRows (tm : K) (axes : List (Axis K)) : List (Axis K) × List (List Int) :=
  let axes := axes.map fun a => if a.selected tm then a.advance else a
  (axes, [row axes])

/-- The update of mode `full`, `detail.hpp:378-388`: a row after each selected axis. `done`: axes
already treated. -/
def fullRows (tm : K) : List (Axis K) → List (Axis K) → List (Axis K) × List (List Int)
  | done, [] => (done, [])
  | done, a :: todo =>
    if a.selected tm then
      let r := fullRows tm (done ++ [a.advance]) todo
      (r.1, row (done ++ a.advance :: todo) :: r.2)
    else fullRows tm (done ++ [a]) todo

/-- The loop `while (true)`, `detail.hpp:260-303` (`actual`), `360-403` (`full`); `rows` is the update. -/
def lineLoop (rows : K → List (Axis K) → List (Axis K) × List (List Int)) (junk : K) :
    Nat → List (Axis K) → List (List Int) → Outcome (List (List Int))
  | 0, _, _ => diverge
  | fuel + 1, axes, ret =>
    let tm := tmin junk axes
    let r := rows tm axes
    let axes := r.1.map fun a => a.place tm
    let ret := ret ++ r.2
    if axes.all fun a => a.c == a.xb then ok ret else lineLoop rows junk fuel axes ret

/-- `path::actual(xa, xb)`, `detail.hpp:219-307`, and `path::full(xa, xb)`, `319-407`. -/
def line (rows : K → List (Axis K) → List (Axis K) × List (List Int)) (junk : K) (fuel : Nat)
    (xa xb : List Int) : Outcome (List (List Int)) :=
  if xa.length > 3 ∨ xb.length < xa.length then ub
  else
    let axes := List.zipWith (axis K) xa xb
    lineLoop rows junk fuel axes [row axes]

/-- `path_mode`, `GooseEYE.h:93-97`. -/
inductive Mode where
  | bresenham
  | actual
  | full
deriving DecidableEq, Repr

/-- `path(x0, x1, mode)`, `GooseEYE.hpp:14-26`. `fuel`: for the loops of `actual` and `full`; `junk`:
content of memory that was never written. -/
def path (junk : K) (fuel : Nat) (x0 x1 : List Int) : Mode → Outcome (List (List Int))
  | .bresenham => bresenham x0 x1
  | .actual => line actualRows junk fuel x0 x1
  | .full => line (fun tm => fullRows tm []) junk fuel x0 x1

end Verif.Path
