import Verif.Spec.Lineal

/-!
# Specification of runs of pixels along an axis

Independent of the model.
-/

namespace Verif.Spec

/-- The displacement by `k` pixels along axis `a`, in an image of rank `n`. -/
def axial (n a : Nat) (k : Int) : List Int := (List.replicate n 0).set a k

/-- Pixel `x` and the `|k|` pixels next to it along axis `a`, in the direction of `k`, are all in the image and
nonzero. -/
def Run {K : Type} [Zero K] (periodic : Bool) (f : Nd K) (a : Nat) (k : Int) (x : List Int) : Prop :=
  ∀ j : Nat, j ≤ k.natAbs → Lit periodic f x (axial f.shape.length a (k.sign * j))

instance {K : Type} [Zero K] [DecidableEq K] (periodic : Bool) (f : Nd K) (a : Nat) (k : Int) (x : List Int) :
    Decidable (Run periodic f a k x) := by
  unfold Run; infer_instance

end Verif.Spec
