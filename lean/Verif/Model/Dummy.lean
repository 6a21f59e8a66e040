import Verif.Model.NdArray
import Mathlib.Data.Nat.Sqrt
import Mathlib.Analysis.SpecialFunctions.Trigonometric.Basic

/-!
# Model of `dummy_circles`

`/repo/include/GooseEYE/GooseEYE.h:120-208`. The integers are unbounded. The rounded root
`(int)(ceil(pow((double)m, 0.5)))` is a parameter; `ceilSqrt` is the exact one. Shapes of another rank than two are undefined without assertions (conservatively).
-/

namespace Verif.Dummy

open Outcome

/-- `(int)(ceil(pow((double)(m), 0.5)))`, `GooseEYE.h:137,151`, with an exact root. -/
def ceilSqrt (m : Nat) : Nat := if Nat.sqrt m * Nat.sqrt m = m then Nat.sqrt m else Nat.sqrt m + 1

/-- `int dr = (int)(ceil(pow((double)(pow(di, 2) + pow(dj, 2)), 0.5)))`, `GooseEYE.h:137,151`. `root m` is
`(int)(ceil(pow((double)m, 0.5)))`. -/
def distance (root : Nat → Int) (di dj : Int) : Int := root (di ^ 2 + dj ^ 2).toNat

/-- `for (int d = -r; d <= r; ++d)`, `GooseEYE.h:135-136,148-149` -/
def range (r : Int) : List Int := (List.range (2 * r + 1).toNat).map fun (k : Nat) => (k : Int) - r

/-- `out.periodic(i, j)` (external): the indices modulo the shape; division by zero for an empty array. -/
def periodicIndex (shape : List Nat) (idx : List Int) : Outcome (List Int) :=
  if 0 ∈ shape then ub else ok (List.zipWith (fun (n : Nat) (i : Int) => i % n) shape idx)

/-- The circles: `row(i), col(i), r(i)` for `i < row.size()`. Undefined if `col` or `r` is shorter, unless
it has one element, which then is that of all circles (`at1`). `GooseEYE.h:134-154`. -/
def circle (row col r : List Int) (i : Nat) : Outcome (Int × Int × Int) :=
  match row[i]?, at1 col i, at1 r i with
  | some a, some b, some c => ok (a, b, c)
  | _, _, _ => ub

/-- The body of the loop of the periodic case, `GooseEYE.h:137-140`. -/
def stampPeriodic (root : Nat → Int) (out : Nd Int) (row col r di dj : Int) : Outcome (Nd Int) :=
  if distance root di dj < r then do
    let x ← periodicIndex out.shape [row + di, col + dj]
    out.write x 1
  else ok out

/-- The body of the loop of the non-periodic case, `GooseEYE.h:150-155`. -/
def stamp (root : Nat → Int) (out : Nd Int) (row col r di dj : Int) : Outcome (Nd Int) :=
  if Nd.inside out.shape [row + di, col + dj] then
    if distance root di dj < r then out.write [row + di, col + dj] 1 else ok out
  else ok out

/-- `dummy_circles(shape, row, col, r, periodic)`, `GooseEYE.h:120-162`, for a way of computing roots. -/
def circlesWith (root : Nat → Int) (dbg : Bool) (shape : List Nat) (row col r : List Int) (periodic : Bool) : Outcome (Nd Int) := do
  gassert dbg (decide (row.length = col.length))
  gassert dbg (decide (row.length = r.length))
  gassert dbg (decide (shape.length = 2))
  if shape.length ≠ 2 then ub
  else
    forM (List.range row.length) (Nd.fill shape 0) fun out i => do
      let c ← circle row col r i
      forM (range c.2.2) out fun out di =>
        forM (range c.2.2) out fun out dj =>
          if periodic then stampPeriodic root out c.1 c.2.1 c.2.2 di dj else stamp root out c.1 c.2.1 c.2.2 di dj

/-- `dummy_circles(shape, row, col, r, periodic)`, `GooseEYE.h:120-162`, with exact roots. -/
def dummyCircles (dbg : Bool) (shape : List Nat) (row col r : List Int) (periodic : Bool) : Outcome (Nd Int) :=
  circlesWith (fun m => ceilSqrt m) dbg shape row col r periodic

/-- The circles of `dummy_circles(shape, periodic, seed)`, `GooseEYE.h:171-208`. `randint k i` and `random i`
are the numbers of the generator (external). A conversion of an infinite or undefined number to an integer
is undefined behaviour: `M_PI * N * M = 0`. -/
noncomputable def randomCircles (randint : Int → Nat → Int) (random : Nat → ℝ) (n0 n1 : Nat) :
    Outcome (List Int × List Int × List Int) :=
  let N := n0 / 20
  let M := n1 / 20
  if N * M = 0 then ub
  else
    let R := ⌊Real.sqrt (0.3 * (n0 * n1 : ℝ) / (Real.pi * (N * M : ℝ)))⌋
    let dN : Int := ((n0 / (2 * N) : Nat) : Int)
    let dM : Int := ((n1 / (2 * M) : Nat) : Int)
    let is := (List.range N).flatMap fun i => (List.range M).map fun j => (i, j)
    let row := is.map fun p => ((p.1 * n0 / N : Nat) : Int) + randint (2 * dN) (3 * (p.1 * M + p.2)) - dN
    let col := is.map fun p => ((p.2 * n1 / M : Nat) : Int) + randint (2 * dM) (3 * (p.1 * M + p.2) + 1) - dM
    let r := is.map fun p => ⌊(R : ℝ) * 2 * random (3 * (p.1 * M + p.2) + 2)⌋
    ok (row, col, r)

/-- `dummy_circles(shape, periodic, seed)`, `GooseEYE.h:171-208`. -/
noncomputable def randomDummyCircles (dbg : Bool) (randint : Int → Nat → Int) (random : Nat → ℝ)
    (shape : List Nat) (periodic : Bool) : Outcome (Nd Int) := do
  gassert dbg (decide (shape.length = 2))
  match shape with
  | [n0, n1] => do
    let c ← randomCircles randint random n0 n1
    dummyCircles dbg shape c.1 c.2.1 c.2.2 periodic
  | _ => ub

end Verif.Dummy
