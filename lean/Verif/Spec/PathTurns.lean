import Mathlib.Algebra.Order.Field.Rat
import Mathlib.Data.List.Basic

/-!
# Where a moving point is just before and just after a moment

A point moves along a straight line, from the origin at time 0 to `v` at time 1. Along one axis, with displacement `a`,
it is in the pixel `c` at time `s` if `|c - s a| < 1 / 2`.
-/

namespace Verif.Spec

/-- Along an axis with displacement `a` the point is in the pixel `c` just after time `t`. -/
def JustAfter (t : ℚ) (a c : Int) : Prop := ∃ e > 0, ∀ s, t < s → s < t + e → |(c : ℚ) - s * a| < 1 / 2

/-- Along an axis with displacement `a` the point is in the pixel `c` just before time `t`. -/
def JustBefore (t : ℚ) (a c : Int) : Prop := ∃ e > 0, ∀ s, t - e < s → s < t → |(c : ℚ) - s * a| < 1 / 2

/-- The pixels that are visited if the point, each time it leaves a pixel, makes one step after the other, along the
first axis first: at some time the first axes of `y` are those of the pixel just after, the others those of the pixel just
before. -/
def Turns (v y : List Int) : Prop :=
  y.length = v.length ∧ ∃ t : ℚ, 0 ≤ t ∧ t ≤ 1 ∧ ∃ k : Nat, ∀ i < v.length,
    (i < k → JustAfter t (v.getD i 0) (y.getD i 0)) ∧ (k ≤ i → JustBefore t (v.getD i 0) (y.getD i 0))

end Verif.Spec
