import Verif.Model.Path

/-!
# `path` with the integers of the code

`/repo/include/GooseEYE/detail.hpp:138-207`, as `Verif.Path.bresenham`, but all variables are `int` of 32 bits: a
result that does not fit is undefined behaviour. (`bresenham` is the same function with unbounded integers; the
theorems C76 say when the two agree.) Likewise `path::actual` and `path::full`, `detail.hpp:219-407`: as `Verif.Path.line`,
but the pixel and the number of rows are `int` (theorems C123). Memory is unlimited.
-/

namespace Verif.Path

open Verif Outcome

/-- The result of an operation on `int`s: signed overflow is undefined. `detail.hpp:138-207`. -/
def i32 (a : Int) : Outcome Int := if -2147483648 ≤ a ∧ a ≤ 2147483647 then ok a else ub

/-- `std::abs((int)xb[i] - (int)xa[i]) << 1`, `detail.hpp:160`. -/
def twice32 (xa xb : Int) : Outcome Int :=
  (i32 (xb - xa)).bind fun d => (i32 |d|).bind fun m => i32 (2 * m)

/-- `a[i]` for all `i`, `detail.hpp:147-163`. -/
def twices32 (xa xb : List Int) : Outcome (Nat → Int) :=
  forM (List.range xa.length) (fun _ => 1) fun a i => (twice32 (xa.getD i 0) (xb.getD i 0)).bind fun v => ok (upd a i v)

/-- `d[in[i]] = a[in[i]] - (a[j] >> 1)`, `detail.hpp:181-182`. -/
def errors32 (a : Nat → Int) (j : Nat) : Outcome (Nat → Int) :=
  forM (others j) (fun _ => 0) fun d i => (i32 (a i - a j / 2)).bind fun v => ok (upd d i v)

/-- `bCheck` (`detail.hpp:195-198`) with `int`s. -/
def check32 (s : Nat → Int) (aj : Int) (st : (Nat → Int) × (Nat → Int)) (i : Nat) :
    Outcome ((Nat → Int) × (Nat → Int)) :=
  if st.2 i ≥ 0 then
    (i32 (st.1 i + s i)).bind fun x => (i32 (st.2 i - aj)).bind fun d => ok (upd st.1 i x, upd st.2 i d)
  else ok st

/-- `bStep` (`detail.hpp:193-203`) with `int`s. -/
def step32 (a s : Nat → Int) (j : Nat) (st : (Nat → Int) × (Nat → Int)) : Outcome ((Nat → Int) × (Nat → Int)) :=
  (forM (others j) st (check32 s (a j))).bind fun st =>
  (i32 (st.1 j + s j)).bind fun x =>
  (forM (others j) st.2 fun d i => (i32 (d i + a i)).bind fun v => ok (upd d i v)).bind fun d =>
    ok (upd st.1 j x, d)

/-- `bLoop` (`detail.hpp:184-204`) with `int`s; `nnz` is the counter of rows. -/
def loop32 (ndim : Nat) (xb : List Int) (a s : Nat → Int) (j : Nat) :
    Nat → Int → (Nat → Int) × (Nat → Int) → List (List Int) → Outcome (List (List Int))
  | 0, _, _, _ => diverge
  | fuel + 1, nnz, st, ret =>
    let ret := ret ++ [(List.range ndim).map st.1]
    (i32 (nnz + 1)).bind fun nnz =>
    match xb[j]? with
    | none => ub
    | some b =>
      if st.1 j = b then ok ret
      else (step32 a s j st).bind fun st => loop32 ndim xb a s j fuel nnz st ret

/-- `path::bresenham(xa, xb)`, `detail.hpp:138-207`, with `int`s. -/
def bresenham32 (xa xb : List Int) : Outcome (List (List Int)) :=
  let ndim := xa.length
  if ndim > 3 ∨ xb.length < ndim then ub
  else
    (twices32 xa xb).bind fun a =>
    let s := fun i : Nat => if i < ndim then SIGN (xb.getD i 0 - xa.getD i 0) else 0
    let x := fun i : Nat => if i < ndim then xa.getD i 0 else 0
    let j := dominant a
    if j = 3 then ub
    else
      (errors32 a j).bind fun d =>
        loop32 ndim xb a s j (((xa.zip xb).map fun p => (p.2 - p.1).natAbs).sum + 1) 0 (x, d) []

/-! ### actual and full -/

variable {K : Type} [Zero K] [One K] [Add K] [Sub K] [Neg K] [Mul K] [Div K] [NatCast K] [IntCast K]
  [DecidableEq K] [LT K] [DecidableLT K]

/-- `Axis.advance` (`detail.hpp:280-281`, `380-381`) with `int`s. -/
def Axis.advance32 (a : Axis K) : Outcome (Axis K) :=
  (i32 (a.c + (a.xb - a.xa).sign)).bind fun c => ok { a with c := c, next := a.next + a.sign }

/-- The loop over the axes in mode `actual`, `detail.hpp:278-283`. -/
def actualAxes32 (tm : K) : List (Axis K) → Outcome (List (Axis K))
  | [] => ok []
  | a :: axes =>
    (if a.selected tm then a.advance32 else ok a).bind fun a =>
    (actualAxes32 tm axes).bind fun axes => ok (a :: axes)

/-- `actualRows` (`detail.hpp:278-288`) with `int`s; the last component is `nnz`. -/
def actualRows32 (tm : K) (nnz : Int) (axes : List (Axis K)) : Outcome (List (Axis K) × List (List Int) × Int) :=
  (actualAxes32 tm axes).bind fun axes => (i32 (nnz + 1)).bind fun nnz => ok (axes, [row axes], nnz)

/-- `fullRows` (`detail.hpp:378-388`) with `int`s; the last component is `nnz`. -/
def fullRows32 (tm : K) (nnz : Int) (done : List (Axis K)) :
    List (Axis K) → Outcome (List (Axis K) × List (List Int) × Int)
  | [] => ok (done, [], nnz)
  | a :: todo =>
    if a.selected tm then
      a.advance32.bind fun b => (i32 (nnz + 1)).bind fun nnz =>
      (fullRows32 tm nnz (done ++ [b]) todo).bind fun r => ok (r.1, row (done ++ b :: todo) :: r.2.1, r.2.2)
    else fullRows32 tm nnz (done ++ [a]) todo

/-- `lineLoop` (`detail.hpp:260-303`, `360-403`) with `int`s. -/
def lineLoop32 (rows : K → Int → List (Axis K) → Outcome (List (Axis K) × List (List Int) × Int)) (junk : K) :
    Nat → Int → List (Axis K) → List (List Int) → Outcome (List (List Int))
  | 0, _, _, _ => diverge
  | fuel + 1, nnz, axes, ret =>
    let tm := tmin junk axes
    (rows tm nnz axes).bind fun r =>
    let axes := r.1.map fun a => a.place tm
    let ret := ret ++ r.2.1
    if axes.all fun a => a.c == a.xb then ok ret else lineLoop32 rows junk fuel r.2.2 axes ret

/-- `xb[i] - xa[i]` for all `i`, `detail.hpp:246`, `346`. -/
def slopes32 : List Int → List Int → Outcome Unit
  | a :: xa, b :: xb => (i32 (b - a)).bind fun _ => slopes32 xa xb
  | _, _ => ok ()

/-- `line` (`path::actual(xa, xb)`, `detail.hpp:219-307`, and `path::full(xa, xb)`, `319-407`) with `int`s. -/
def line32 (rows : K → Int → List (Axis K) → Outcome (List (Axis K) × List (List Int) × Int)) (junk : K) (fuel : Nat)
    (xa xb : List Int) : Outcome (List (List Int)) :=
  if xa.length > 3 ∨ xb.length < xa.length then ub
  else
    (slopes32 xa xb).bind fun _ =>
    let axes := List.zipWith (axis K) xa xb
    lineLoop32 rows junk fuel 1 axes [row axes]

/-- `path(x0, x1, mode)`, `GooseEYE.hpp:14-26`, with `int`s. -/
def path32 (junk : K) (fuel : Nat) (x0 x1 : List Int) : Mode → Outcome (List (List Int))
  | .bresenham => bresenham32 x0 x1
  | .actual => line32 actualRows32 junk fuel x0 x1
  | .full => line32 (fun tm nnz => fullRows32 tm nnz []) junk fuel x0 x1

end Verif.Path
