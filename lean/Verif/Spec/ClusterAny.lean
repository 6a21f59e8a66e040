import Verif.Spec.Cluster

/-!
# Specification: the pixel that a labeller looks at, for every shape and every kernel

Where this differs from the pixel at the offset (`Adj`), the labeller does not do what its documentation says. There
are two such cases. An image of one row or one column that is not periodic is treated as a line: only the component of
the offset along the line counts. Along a periodic axis of an image of rank 1 or 2, a coordinate more than the length
of the axis below zero is increased by `2 ^ 64` before the remainder is taken.
-/

namespace Verif.Spec

/-- A shape and offsets that can occur: the offsets have the rank of the image, and nothing is so large that it
overflows 64 bits. -/
structure AnyConfig (shape : List Nat) (offsets : List (List Int)) : Prop where
  rank : 1 ≤ shape.length
  len : ∀ d ∈ offsets, d.length = shape.length
  small : shape.prod < 2 ^ 62
  range : ∀ d ∈ offsets, ∀ i ∈ d, -2 ^ 62 ≤ i ∧ i ≤ 2 ^ 62

/-- The offset that counts if the image is not periodic: on one row or one column only the component along it. -/
def alongLine : List Nat → List Int → List Int
  | [1, _], [_, d1] => [0, d1]
  | [_, 1], [d0, _] => [d0, 0]
  | _, d => d

/-- The coordinate along a periodic axis of `n` pixels, rank 1 and 2: the remainder of `a`, of which a value below `-n`
is increased by `2 ^ 64` first. -/
def wrapped (n : Nat) (a : Int) : Int := if a < -(n : Int) then (a + 2 ^ 64) % n else a % n

/-- For the offset `d`, a labeller compares the pixel `x` with the pixel `y`. -/
def Looks (periodic : Bool) (shape : List Nat) (x d y : List Int) : Prop :=
  if periodic = false then Shifted false shape x (alongLine shape d) y
  else if shape.length ≤ 2 then y = List.zipWith wrapped shape (List.zipWith (· + ·) x d)
  else Shifted true shape x d y

/-- For one of the offsets, a labeller compares the pixel with row-major index `p` with the pixel `q`. -/
def Sees (periodic : Bool) (shape : List Nat) (offsets : List (List Int)) (p q : Nat) : Prop :=
  ∃ x y, ∃ d ∈ offsets, InBox shape x ∧ InBox shape y ∧ Looks periodic shape x d y ∧
    flat shape x = p ∧ flat shape y = q

end Verif.Spec
