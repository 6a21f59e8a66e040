import Verif.Spec.Dilate

/-!
# Specification of the regions grown by a dilation

Independent of the model.
-/

namespace Verif.Spec

/-- `y` is reached from `x` by at most `n` steps in the image, each by an element of the kernel, without
leaving the region `P`. -/
inductive ReachIn (periodic : Bool) (shape : List Nat) (kernel : Nd Int) (P : List Int → Prop) (x : List Int) :
    Nat → List Int → Prop
  | here (n : Nat) : P x → ReachIn periodic shape kernel P x n x
  | step (n : Nat) (y d : List Int) : ReachIn periodic shape kernel P x n y → Offset kernel d →
      target periodic shape y d ∈ pixels shape → P (target periodic shape y d) →
      ReachIn periodic shape kernel P x (n + 1) (target periodic shape y d)

/-- `y` is a pixel with a label that is nearest to `x`: `x` is reached from `y` in `n` steps, and from no
pixel with a label in fewer. -/
def Nearest (periodic : Bool) (f kernel : Nd Int) (x y : List Int) (n : Nat) : Prop :=
  y ∈ pixels f.shape ∧ val f y ≠ 0 ∧ Reach periodic f.shape kernel y n x ∧
    ∀ z ∈ pixels f.shape, val f z ≠ 0 → ∀ m, Reach periodic f.shape kernel z m x → n ≤ m

end Verif.Spec
