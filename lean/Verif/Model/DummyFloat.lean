import Verif.Model.Dummy
import Verif.Model.Float

/-!
# The random circles, with the arithmetic of the code

`/repo/include/GooseEYE/GooseEYE.h:171-208`, as `Verif.Dummy.randomCircles`, but the result of every operation on
`double`s is rounded by `rnd`. `pi` is `M_PI` and `pow05 x` is `pow(x, 0.5)` (external). The conversion of a `double` to an
integer drops the fractional part.
-/

namespace Verif.Dummy

open Outcome

/-- `(size_t)(0.05 * (double)n)`, `GooseEYE.h:178-179`. -/
def cells (rnd : ℚ → ℚ) (n : Nat) : Nat := ⌊rnd (rnd (5 / 100) * rnd n)⌋.toNat

/-- `(int)((double)i * (double)n / (double)N)`, `GooseEYE.h:189-190`. -/
def corner (rnd : ℚ → ℚ) (i n N : Nat) : Int := ⌊rnd (rnd (rnd i * rnd n) / rnd N)⌋

/-- `(int)(0.5 * (double)n / (double)N)`, `GooseEYE.h:196-197`. -/
def halfCell (rnd : ℚ → ℚ) (n N : Nat) : Int := ⌊rnd (rnd (1 / 2 * rnd n) / rnd N)⌋

/-- `(size_t)(pow((0.3 * (double)(n0 * n1)) / (M_PI * (double)(N * M)), 0.5))`, `GooseEYE.h:180`. -/
def radius (rnd : ℚ → ℚ) (pi : ℚ) (pow05 : ℚ → ℚ) (n0 n1 N M : Nat) : Nat :=
  ⌊pow05 (rnd (rnd (rnd (3 / 10) * rnd (n0 * n1 : Nat)) / rnd (pi * rnd (N * M : Nat))))⌋.toNat

/-- The circles of `dummy_circles(shape, periodic, seed)`, `GooseEYE.h:171-208`. -/
def randomCirclesIn (rnd : ℚ → ℚ) (pi : ℚ) (pow05 : ℚ → ℚ) (randint : Int → Nat → Int) (random : Nat → ℚ) (n0 n1 : Nat) :
    Outcome (List Int × List Int × List Int) :=
  let N := cells rnd n0
  let M := cells rnd n1
  if N * M = 0 then ub
  else
    let R := radius rnd pi pow05 n0 n1 N M
    let dN := halfCell rnd n0 N
    let dM := halfCell rnd n1 M
    let is := (List.range N).flatMap fun i => (List.range M).map fun j => (i, j)
    let row := is.map fun p => corner rnd p.1 n0 N + randint (2 * dN) (3 * (p.1 * M + p.2)) - dN
    let col := is.map fun p => corner rnd p.2 n1 M + randint (2 * dM) (3 * (p.1 * M + p.2) + 1) - dM
    let r := is.map fun p => ⌊rnd (rnd (rnd R * 2) * random (3 * (p.1 * M + p.2) + 2))⌋
    ok (row, col, r)

end Verif.Dummy
