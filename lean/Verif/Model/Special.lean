import Verif.Model.Measure
import Verif.Model.CenterFloat

/-!
# Arithmetic in which a division by zero is not a number

In an exact field of Lean a division by zero is 0; in the code it is an infinity or not a number
(`Ensemble.hpp:28`, `Ensemble.hpp:41`, `GooseEYE.h:1255-1296`). `Special K` has the numbers of `K` and one further value
`bad`, that stands for `nan` and for both infinities. Every function of the model that is written for any arithmetic can be
run with it. Numbers of `K` are not rounded.
-/

namespace Verif

/-- A number, or a value that is infinite or not a number. External (arithmetic of `double`): no code of its own. -/
inductive Special (K : Type) where
  | num (x : K)
  | bad
deriving DecidableEq

namespace Special

variable {K : Type}

/-- An operation on numbers: `bad` if an argument is `bad`. (In the code `1 / inf = 0`: the theorems prove that no
such value is ever an argument.). External (arithmetic of `double`): no code of its own. -/
def lift (op : K → K → K) : Special K → Special K → Special K
  | num a, num b => num (op a b)
  | _, _ => bad

/-- A function of a number. External (arithmetic of `double`): no code of its own. -/
def lift₁ (op : K → K) : Special K → Special K
  | num a => num (op a)
  | bad => bad

/-- Division: `bad` if the divisor is zero. External (arithmetic of `double`): no code of its own. -/
def div [Zero K] [Div K] [DecidableEq K] : Special K → Special K → Special K
  | num a, num b => if b = 0 then bad else num (a / b)
  | _, _ => bad

/-- Comparison: false if an argument is `bad`. External (arithmetic of `double`): no code of its own. -/
def le [LE K] : Special K → Special K → Prop
  | num a, num b => a ≤ b
  | _, _ => False

/-- `std::pow(x, 0.5)` (external), for a root `root` of the numbers that are not negative: `nan` for negative numbers. -/
def pow05 [Zero K] [LE K] [DecidableLE K] (root : K → K) : Special K → Special K
  | num a => if 0 ≤ a then num (root a) else bad
  | bad => bad

instance [Zero K] : Zero (Special K) := ⟨num 0⟩
instance [One K] : One (Special K) := ⟨num 1⟩
instance [Add K] : Add (Special K) := ⟨lift (· + ·)⟩
instance [Sub K] : Sub (Special K) := ⟨lift (· - ·)⟩
instance [Mul K] : Mul (Special K) := ⟨lift (· * ·)⟩
instance [Neg K] : Neg (Special K) := ⟨lift₁ (- ·)⟩
instance [Zero K] [Div K] [DecidableEq K] : Div (Special K) := ⟨div⟩
instance [Pow K Nat] : Pow (Special K) Nat := ⟨fun a n => lift₁ (· ^ n) a⟩
instance [NatCast K] : NatCast (Special K) := ⟨fun n => num n⟩
instance [IntCast K] : IntCast (Special K) := ⟨fun n => num n⟩
instance [Max K] : Max (Special K) := ⟨lift max⟩
instance [LE K] : LE (Special K) := ⟨le⟩
instance [LE K] [DecidableLE K] : DecidableLE (Special K) := fun a b =>
  match a, b with
  | num x, num y => inferInstanceAs (Decidable (x ≤ y))
  | num _, bad => isFalse fun h => h
  | bad, num _ => isFalse fun h => h
  | bad, bad => isFalse fun h => h

/-- The value is a number. External (arithmetic of `double`): no code of its own. -/
def IsNumber (a : Special K) : Prop := ∃ x, a = num x

end Special

end Verif
