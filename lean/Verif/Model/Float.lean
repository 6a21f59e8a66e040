import Mathlib.Data.Int.Log
import Mathlib.Data.Rat.Floor
import Mathlib.Algebra.Order.Field.Rat

/-!
# Floating-point arithmetic

The accumulators and results of an `Ensemble` are `double` (`/repo/include/GooseEYE/GooseEYE.h:1609-1617`). The model
of `Ensemble` (and of `path`) takes its arithmetic from the type of the values; with the type `Fl rnd` the result of every
operation is the exact result, rounded by `rnd`.

Simplifications: no infinities and NaNs (no overflow); a division by zero gives `rnd 0`; `pow` with an integral
exponent is rounded correctly.
-/

namespace Verif

/-- Numbers of which every operation is rounded by `rnd`. External (arithmetic of `double`): no code of its own. -/
@[ext] structure Fl (rnd : ℚ → ℚ) where
  val : ℚ
deriving DecidableEq

namespace Fl

variable {rnd : ℚ → ℚ}

instance : Zero (Fl rnd) := ⟨⟨0⟩⟩
instance : One (Fl rnd) := ⟨⟨1⟩⟩
instance : Add (Fl rnd) := ⟨fun a b => ⟨rnd (a.val + b.val)⟩⟩
instance : Sub (Fl rnd) := ⟨fun a b => ⟨rnd (a.val - b.val)⟩⟩
instance : Neg (Fl rnd) := ⟨fun a => ⟨-a.val⟩⟩
instance : Mul (Fl rnd) := ⟨fun a b => ⟨rnd (a.val * b.val)⟩⟩
instance : Div (Fl rnd) := ⟨fun a b => ⟨rnd (a.val / b.val)⟩⟩
instance : Pow (Fl rnd) Nat := ⟨fun a n => ⟨rnd (a.val ^ n)⟩⟩
instance : NatCast (Fl rnd) := ⟨fun n => ⟨rnd n⟩⟩
instance : IntCast (Fl rnd) := ⟨fun n => ⟨rnd n⟩⟩
instance : LE (Fl rnd) := ⟨fun a b => a.val ≤ b.val⟩
instance : DecidableLE (Fl rnd) := fun a b => inferInstanceAs (Decidable (a.val ≤ b.val))
instance : LT (Fl rnd) := ⟨fun a b => a.val < b.val⟩
instance : DecidableLT (Fl rnd) := fun a b => inferInstanceAs (Decidable (a.val < b.val))
instance : Max (Fl rnd) := ⟨fun a b => ⟨max a.val b.val⟩⟩

end Fl

/-- Rounding to the nearest integer, halves to the even one. External (IEEE 754). -/
def roundEven (x : ℚ) : ℤ :=
  if x - ⌊x⌋ < 1 / 2 then ⌊x⌋ else if 1 / 2 < x - ⌊x⌋ then ⌊x⌋ + 1 else if ⌊x⌋ % 2 = 0 then ⌊x⌋ else ⌊x⌋ + 1

/-- The distance of neighbouring `double`s at `x`: 53 significant bits. External (IEEE 754). -/
def ulp (x : ℚ) : ℚ := (2 : ℚ) ^ (Int.log 2 |x| - 52)

/-- IEEE 754 `double`, round to nearest, ties to even. Simplification: all exponents (neither overflow nor
underflow). External (IEEE 754). -/
def rnd64 (x : ℚ) : ℚ := if x = 0 then 0 else roundEven (x / ulp x) * ulp x

end Verif
