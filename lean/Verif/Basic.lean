/-!
# Outcomes of a C++ call, and bounds-checked storage

Nothing in this file models a particular function of `/repo`; it fixes what the outcome of running
a piece of C++ can be.

* `ok a`     : the call returns (or the statement completes) with value `a`.
* `throws`   : a C++ exception leaves the call.
* `ub`       : undefined behaviour: a read or a write outside an array, an integer division by
               zero, a read of memory that was never written.
* `diverge`  : the fuel of a `while` loop ran out.

A theorem that says `f x = .ok r` therefore also says that the call is memory-safe and terminates.
-/

namespace Verif

/-- Outcome of a C++ call. -/
inductive Outcome (α : Type u) where
  | ok (a : α)
  | throws
  | ub
  | diverge
deriving DecidableEq, Repr

namespace Outcome

/-- Sequencing: the first outcome that is not `ok` ends the call. -/
def bind {α : Type u} {β : Type v} (x : Outcome α) (f : α → Outcome β) : Outcome β :=
  match x with
  | ok a => f a
  | throws => throws
  | ub => ub
  | diverge => diverge

instance : Monad Outcome where
  pure := ok
  bind := bind

instance : LawfulMonad Outcome := LawfulMonad.mk'
  (id_map := by intro α x; cases x <;> rfl)
  (pure_bind := by intros; rfl)
  (bind_assoc := by intro α β γ x f g; cases x <;> rfl)

@[simp] theorem pure_eq {α : Type u} (a : α) : (pure a : Outcome α) = ok a := rfl
@[simp] theorem ok_bind {α β : Type u} (a : α) (f : α → Outcome β) : (ok a >>= f) = f a := rfl
@[simp] theorem ub_bind {α β : Type u} (f : α → Outcome β) : (ub >>= f) = ub := rfl
@[simp] theorem throws_bind {α β : Type u} (f : α → Outcome β) : (throws >>= f) = throws := rfl
@[simp] theorem diverge_bind {α β : Type u} (f : α → Outcome β) : (diverge >>= f) = diverge := rfl

/-- Apply a function to the value of a completed call. -/
def map {α : Type u} {β : Type v} (f : α → β) : Outcome α → Outcome β
  | ok a => ok (f a)
  | throws => throws
  | ub => ub
  | diverge => diverge

/-- The value of a completed call, for use in examples. -/
def get? {α : Type u} : Outcome α → Option α
  | ok a => some a
  | _ => none

end Outcome

open Outcome

/-- `GOOSEEYE_ASSERT(cond, std::out_of_range)`, `/repo/include/GooseEYE/config.h`: throws only when
the assertions are compiled in (`dbg`, macro `GOOSEEYE_ENABLE_ASSERT`). -/
def gassert (dbg : Bool) (cond : Bool) : Outcome Unit :=
  if dbg && !cond then throws else ok ()

/-- Contiguous storage of `size` elements (`std::vector`, the storage of an xtensor container). -/
structure Vec (α : Type u) where
  size : Nat
  get : Nat → α

namespace Vec

/-- `v[i]` : undefined behaviour outside `[0, size)`. -/
def read {α : Type u} (v : Vec α) (i : Int) : Outcome α :=
  if 0 ≤ i ∧ i < (v.size : Int) then ok (v.get i.toNat) else ub

/-- `v[i] = a` : undefined behaviour outside `[0, size)`. -/
def write {α : Type u} (v : Vec α) (i : Int) (a : α) : Outcome (Vec α) :=
  if 0 ≤ i ∧ i < (v.size : Int) then
    ok ⟨v.size, fun k => if k = i.toNat then a else v.get k⟩
  else ub

/-- `std::fill` of `n` elements. -/
def fill {α : Type u} (n : Nat) (a : α) : Vec α := ⟨n, fun _ => a⟩

/-- The elements, in order. -/
def toList {α : Type u} (v : Vec α) : List α := (List.range v.size).map v.get

/-- Storage holding the elements of a list. -/
def ofList {α : Type u} [Inhabited α] (l : List α) : Vec α := ⟨l.length, fun i => l.getD i default⟩

end Vec

/-- `for (auto x : l) s = f(s, x)` -/
def forM {σ : Type u} {α : Type v} (l : List α) (s : σ) (f : σ → α → Outcome σ) : Outcome σ :=
  match l with
  | [] => ok s
  | x :: l => (f s x).bind fun s' => forM l s' f

end Verif
