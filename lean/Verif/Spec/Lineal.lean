import Verif.Spec.Ensemble
import Verif.Model.Path

/-!
# Specification of the lineal-path function

Independent of the model (but for the names of the path modes).
-/

namespace Verif.Spec

/-- Index `i` is on the edge of a region of interest: first or last along an axis of more than one
pixel. -/
def OnEdge (roi : List Nat) (i : List Int) : Prop :=
  ∃ k < roi.length, 1 < roi.getD k 0 ∧ (i.getD k 0 = 0 ∨ i.getD k 0 = roi.getD k 0 - 1)

instance (roi : List Nat) (i : List Int) : Decidable (OnEdge roi i) := by
  unfold OnEdge; infer_instance

/-- The displacements, from the centre of the region of interest, of the pixels on its edge. -/
def edge (roi : List Nat) : List (List Int) :=
  ((pixels roi).filter fun i => OnEdge roi i).map (displacement roi)

/-- The pixel at displacement `d` of `x` is in the image and is nonzero. -/
def Lit {K : Type} [Zero K] (periodic : Bool) (f : Nd K) (x d : List Int) : Prop :=
  target periodic f.shape x d ∈ pixels f.shape ∧ val f (target periodic f.shape x d) ≠ 0

instance {K : Type} [Zero K] [DecidableEq K] (periodic : Bool) (f : Nd K) (x d : List Int) :
    Decidable (Lit periodic f x d) := by
  unfold Lit; infer_instance

/-- How often the paths pass displacement `d`. -/
def visits (paths : List (List (List Int))) (d : List Int) : Nat := (paths.map fun p => p.count d).sum

/-- How often displacement `d` is reached if the paths are followed from each pixel of the image, up to
the first pixel that is not lit. -/
def reached {K : Type} [Zero K] [DecidableEq K] (periodic : Bool) (f : Nd K)
    (paths : List (List (List Int))) (d : List Int) : Nat :=
  (paths.map fun p =>
    ((pixels f.shape).map fun x => (p.takeWhile fun e => Lit periodic f x e).count d).sum).sum

/-- Coordinates in three dimensions of a point of an image of lower rank: a one-dimensional image is along
the second axis, a two-dimensional image along the first two. -/
def inSpace : List Int → List Int
  | [] => [0, 0, 0]
  | [i] => [0, i, 0]
  | [i, j] => [i, j, 0]
  | x => x

/-- Sufficient for the modes `actual` and `full`: the ROI is not larger than a million pixels along an
axis, and the loops are given enough iterations. -/
def Enough (fuel : Nat) (roi : List Nat) (mode : Path.Mode) : Prop :=
  mode ≠ .bresenham → (∀ n ∈ roi, n ≤ 1000000) ∧ roi.sum < fuel

end Verif.Spec
