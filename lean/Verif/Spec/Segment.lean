import Verif.Spec.Lineal

/-!
# Specification: displacements that are not passed on the way to another one

Independent of the model.
-/

namespace Verif.Spec

/-- Index `i` is a corner of the region of interest: along every axis it is the pixel that is farthest from
the centre in its direction (along an axis of two pixels the centre is the first, and it is not). -/
def IsCorner (roi : List Nat) (i : List Int) : Prop :=
  ∀ k < roi.length, i.getD k 0 = roi.getD k 0 - 1 ∨ (i.getD k 0 = 0 ∧ 2 < roi.getD k 0)

/-- No pixel of the region of interest is, along any axis, farther from its centre than index `i` is along
some axis. -/
def IsFarthest (roi : List Nat) (i : List Int) : Prop :=
  ∃ a < roi.length, ∀ j, InBox roi j → ∀ b < roi.length,
    ((displacement roi j).getD b 0).natAbs ≤ ((displacement roi i).getD a 0).natAbs

/-- All pixels of the path `p`, followed from `x`, are in the image and nonzero. -/
def LitAlong {K : Type} [Zero K] (periodic : Bool) (f : Nd K) (p : List (List Int)) (x : List Int) : Prop :=
  ∀ e ∈ p, Lit periodic f x e

instance {K : Type} [Zero K] [DecidableEq K] (periodic : Bool) (f : Nd K) (p : List (List Int)) (x : List Int) :
    Decidable (LitAlong periodic f p x) := by
  unfold LitAlong; infer_instance

end Verif.Spec
