import Verif.Spec.Ensemble

/-!
# Specification of dilation

Independent of the model. A kernel is an array of zeros and ones; its centre is at `(n - 1) / 2`, rounded
down, along each axis of size `n`.
-/

namespace Verif.Spec

/-- `d` is the displacement from the centre of the kernel to an element equal to one. -/
def Offset (kernel : Nd Int) (d : List Int) : Prop :=
  ∃ i ∈ pixels kernel.shape, val kernel i = 1 ∧ displacement kernel.shape i = d

/-- `y` is reached from `x` by at most `n` steps in the image, each by an element of the kernel. -/
inductive Reach (periodic : Bool) (shape : List Nat) (kernel : Nd Int) (x : List Int) :
    Nat → List Int → Prop
  | here (n : Nat) : Reach periodic shape kernel x n x
  | step (n : Nat) (y d : List Int) : Reach periodic shape kernel x n y → Offset kernel d →
      target periodic shape y d ∈ pixels shape →
      Reach periodic shape kernel x (n + 1) (target periodic shape y d)

/-- The arguments of dilate are legal: an image that is not empty and a kernel of the same rank, at most
three; if periodic the kernel fits; the kernel holds zeros and ones; every label (the background included)
has a number of iterations, or there is one number of iterations, for all labels, negative ones included (then
the largest label, the background included, is 0, 1 or 2). -/
structure DilateArgs (periodic : Bool) (f kernel : Nd Int) (iterations : List Nat) : Prop where
  legal : Legal periodic f.shape kernel.shape
  image : 0 ∉ f.shape
  mask : IsMask kernel
  label : (∀ x ∈ pixels f.shape, 0 ≤ val f x ∧ val f x < iterations.length) ∨
    iterations.length = 1 ∧ (∃ x ∈ pixels f.shape, 0 ≤ val f x) ∧ ∀ x ∈ pixels f.shape, val f x ≤ 2

/-- The number of iterations of a label: if there is one number, it is that of all labels. -/
def iterationsOf (iterations : List Nat) (label : Int) : Nat :=
  if iterations.length = 1 then iterations.getD 0 0 else iterations.getD label.toNat 0

/-- The kernel at `x` covers `z`. -/
def Covers (kernel : Nd Int) (x z : List Int) : Prop :=
  ∃ i ∈ pixels kernel.shape, val kernel i = 1 ∧ move x (displacement kernel.shape i) = z

instance (kernel : Nd Int) (x z : List Int) : Decidable (Covers kernel x z) := by
  unfold Covers; infer_instance

/-- One layer: a pixel without a label takes the label of the last pixel, in row-major order, that has a
label that grows and whose kernel covers it. -/
def spread (shape : List Nat) (kernel : Nd Int) (grows : Int → Bool) (labels : List Int → Int)
    (z : List Int) : Int :=
  if labels z ≠ 0 then labels z
  else (((pixels shape).filter fun x =>
    labels x ≠ 0 ∧ grows (labels x) ∧ Covers kernel x z).getLast?.map labels).getD 0

/-- `T` layers; label `l` grows in the first `iterations l` of them. -/
def layers (shape : List Nat) (kernel : Nd Int) (iterations : Int → Nat) (labels : List Int → Int) :
    Nat → List Int → Int
  | 0 => labels
  | T + 1 => spread shape kernel (fun l => decide (T < iterations l))
      (layers shape kernel iterations labels T)

end Verif.Spec
