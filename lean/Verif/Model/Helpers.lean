import Verif.Model.Ensemble
import Verif.Model.Float

/-!
# Helpers for axes and shapes

`/repo/include/GooseEYE/detail.hpp:23-86`, with the arithmetic of `double` and of `size_t`. The library only calls
`atleast_3d_axis`.
-/

namespace Verif.Helpers

/-- `std::round` of a number that is not negative: halves away from zero. `detail.hpp:23-30`. -/
def stdRound (x : ℚ) : Int := ⌊x + 1 / 2⌋

/-- `detail::atleast_3d_axis(rank, axis)`, `detail.hpp:23-30`. `N - rank` is a `size_t` (modulo `2 ^ 64`); the two
conversions and the quotient are rounded by `rnd`. The two `assert` are taken to be off. -/
def atleast3dAxis (rnd : ℚ → ℚ) (rank axis : Nat) : Nat :=
  let n : Int := (3 - (rank : Int)) % 2 ^ 64
  let e := stdRound ((n : Fl rnd) / ((3 : Nat) : Fl rnd)).val
  ((axis + e) % 2 ^ 64).toNat

/-- `detail::atleast_3d_axes(rank, axes)`, `detail.hpp:40-48`. -/
def atleast3dAxes (rnd : ℚ → ℚ) (rank : Nat) (axes : List Nat) : List Nat := axes.map (atleast3dAxis rnd rank)

/-- `detail::atleast_3d_axes(rank)`, `detail.hpp:57-60`. -/
def atleast3dAllAxes (rnd : ℚ → ℚ) (rank : Nat) : List Nat := atleast3dAxes rnd rank (List.range rank)

/-- `detail::half_shape(shape)`, `detail.hpp:80-89`. -/
def halfShape (shape : List Nat) : List Nat := shape.map fun n => (n - n % 2) / 2

end Verif.Helpers
