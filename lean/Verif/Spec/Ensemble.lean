import Verif.Spec.Cluster
import Verif.Model.NdArray
import Mathlib.Algebra.Order.Field.Basic

/-!
# Specification of spatial statistics

Independent of the model (only the type `Nd` of arrays is used). A pixel is a list of coordinates, an
image a function on pixels.
-/

namespace Verif.Spec

/-- All pixels of an image of this shape. -/
def pixels : List Nat → List (List Int)
  | [] => [[]]
  | n :: shape => (List.range n).flatMap fun (i : Nat) => (pixels shape).map fun x => (i : Int) :: x

/-- The value of an array at a pixel. -/
def val {α : Type} (a : Nd α) (x : List Int) : α := a.get (flat a.shape x).toNat

/-- `x + d`. -/
def move (x d : List Int) : List Int := List.zipWith (fun a b => a + b) x d

/-- `x` modulo the shape. -/
def wrap (shape : List Nat) (x : List Int) : List Int :=
  List.zipWith (fun (n : Nat) (i : Int) => i % n) shape x

/-- The pixel at displacement `d` of `x`: modulo the shape if periodic. -/
def target (periodic : Bool) (shape : List Nat) (x d : List Int) : List Int :=
  if periodic then wrap shape (move x d) else move x d

/-- The pairs of a pixel and the pixel at displacement `d` of it (if it is in the image), restricted to
the admissible ones. -/
def pairs (periodic : Bool) (shape : List Nat) (admissible : List Int → List Int → Prop)
    [∀ x y, Decidable (admissible x y)] (d : List Int) : List (List Int × List Int) :=
  ((pixels shape).map fun x => (x, target periodic shape x d)).filter fun p =>
    p.2 ∈ pixels shape ∧ admissible p.1 p.2

variable {K : Type} [Field K] [LinearOrder K] [IsStrictOrderedRing K]

/-- Sum over the pairs. -/
def total (l : List (List Int × List Int)) (φ : List Int → List Int → K) : K :=
  (l.map fun p => φ p.1 p.2).sum

/-- Average over the pairs; 0 if there are none. -/
def average (l : List (List Int × List Int)) (φ : List Int → List Int → K) : K :=
  if l.length = 0 then 0 else total l φ / (l.length : K)

/-- The displacement that corresponds to index `i` of a region of interest of shape `roi`: the centre is
at `(n - 1) / 2`, rounded down. -/
def displacement (roi : List Nat) (i : List Int) : List Int :=
  List.zipWith (fun (n : Nat) (a : Int) => a - ((n - 1) / 2 : Nat)) roi i

/-- The mask as it enters the average of the code: a pixel `y` reached from `x` by displacement `d` is
excluded if it is masked, except, in the periodic case, if it is reached through the boundary. -/
def Seen (periodic : Bool) (m : Nd Int) (d x y : List Int) : Prop :=
  if periodic = true ∧ move x d ∉ pixels m.shape then True else val m y = 0

instance (periodic : Bool) (m : Nd Int) (d x y : List Int) : Decidable (Seen periodic m d x y) := by
  unfold Seen; infer_instance

/-- A periodic image can be extended to the ROI: the image is at least half as large. -/
def Fits (periodic : Bool) (shape roi : List Nat) : Prop :=
  periodic = true → List.Forall₂ (fun n r => r / 2 ≤ n) shape roi

/-- The region of interest and the image are legal: at most three dimensions, the same number of
dimensions, no axis of size zero in the ROI. -/
structure Legal (periodic : Bool) (shape roi : List Nat) : Prop where
  rank : roi.length ≤ 3
  pos : 0 ∉ roi
  same : shape.length = roi.length
  fits : Fits periodic shape roi

/-- A mask holds zeros and ones. -/
def IsMask (m : Nd Int) : Prop := ∀ k < m.size, m.get k = 0 ∨ m.get k = 1

/-- The values of the pixels that are not masked. -/
def unmaskedValues (f : Nd K) : Option (Nd Int) → List K
  | none => (pixels f.shape).map (val f)
  | some m => ((pixels f.shape).filter fun x => val m x = 0).map (val f)

/-- The arithmetic mean of a list of values. -/
def arithmeticMean (l : List K) : K := l.sum / (l.length : K)

/-- The unbiased sample variance of a list of values. -/
def sampleVariance (l : List K) : K :=
  (l.map fun v => (v - arithmeticMean l) ^ 2).sum / ((l.length : K) - 1)

end Verif.Spec
