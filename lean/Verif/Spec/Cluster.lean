import Mathlib.Data.List.Basic
import Mathlib.Data.List.Forall2

/-!
# Specification: neighbours, clusters and histories of a labeller

Independent of the model. Pixels are given by coordinates, or by their row-major index.
-/

namespace Verif.Spec

/-- `x` is a pixel of an image of this shape. -/
def InBox (shape : List Nat) (x : List Int) : Prop :=
  List.Forall₂ (fun (n : Nat) (i : Int) => 0 ≤ i ∧ i < n) shape x

/-- Row-major index of the pixel with coordinates `x`. -/
def flat : List Nat → List Int → Int
  | _ :: shape, i :: x => i * (shape.prod : Nat) + flat shape x
  | _, _ => 0

/-- `y = x + d`, modulo the shape if periodic. -/
def Shifted (periodic : Bool) : List Nat → List Int → List Int → List Int → Prop
  | n :: shape, i :: x, d :: ds, j :: y =>
    (if periodic then (n : Int) ∣ (i + d - j) else j = i + d) ∧ Shifted periodic shape x ds y
  | [], [], [], [] => True
  | _, _, _, _ => False

/-- The pixels with row-major index `p` and `q` differ by one of the offsets. -/
def Adj (periodic : Bool) (shape : List Nat) (offsets : List (List Int)) (p q : Nat) : Prop :=
  ∃ x y, ∃ d ∈ offsets, InBox shape x ∧ InBox shape y ∧ Shifted periodic shape x d y ∧
    flat shape x = p ∧ flat shape y = q

/-- `p` and `q` are joined by a path inside `S` whose steps are adjacent. -/
inductive Joined (adj : Nat → Nat → Prop) (S : Nat → Prop) : Nat → Nat → Prop
  | refl {p} : S p → Joined adj S p p
  | step {p q r} : Joined adj S p q → adj q r → S r → Joined adj S p r

/-- A labeller's shape and offsets to which the claims apply:

* the offsets have the rank of the image and come in opposite pairs;
* periodic, rank 1 and 2: along an axis longer than 1 no offset is more negative than the axis is
  long (`size_t` arithmetic of the code), and no overflow;
* not periodic, shape `[1, n]` or `[n, 1]`: no diagonal offset (the code ignores one axis). -/
structure ValidConfig (periodic : Bool) (shape : List Nat) (offsets : List (List Int)) : Prop where
  rank : 1 ≤ shape.length
  len : ∀ d ∈ offsets, d.length = shape.length
  sym : ∀ d ∈ offsets, d.map (fun i => -i) ∈ offsets
  small : shape.prod < 2 ^ 62
  wrap : periodic = true → shape.length ≤ 2 → ∀ d ∈ offsets,
    List.Forall₂ (fun (n : Nat) (i : Int) => n ≤ 1 ∨ (-(n : Int) ≤ i ∧ i ≤ 2 ^ 62)) shape d
  thin : periodic = false → ∀ n, (shape = [1, n] ∨ shape = [n, 1]) → ∀ d0 d1, [d0, d1] ∈ offsets →
    d0 = 0 ∨ d1 = 0

/-- A shape and offsets that the labeller can work with: as `ValidConfig`, but the offsets need not come in opposite
pairs. -/
structure SafeConfig (periodic : Bool) (shape : List Nat) (offsets : List (List Int)) : Prop where
  rank : 1 ≤ shape.length
  len : ∀ d ∈ offsets, d.length = shape.length
  small : shape.prod < 2 ^ 62
  wrap : periodic = true → shape.length ≤ 2 → ∀ d ∈ offsets,
    List.Forall₂ (fun (n : Nat) (i : Int) => n ≤ 1 ∨ (-(n : Int) ≤ i ∧ i ≤ 2 ^ 62)) shape d
  thin : periodic = false → ∀ n, (shape = [1, n] ∨ shape = [n, 1]) → ∀ d0 d1, [d0, d1] ∈ offsets →
    d0 = 0 ∨ d1 = 0

theorem ValidConfig.safe {periodic : Bool} {shape : List Nat} {offsets : List (List Int)}
    (h : ValidConfig periodic shape offsets) : SafeConfig periodic shape offsets :=
  ⟨h.rank, h.len, h.small, h.wrap, h.thin⟩

/-! ### histories -/

/-- The calls a client can make on a labeller. Points are row-major indices. -/
inductive Call where
  | addImage (img : List Int)
  | addPoints (points : List Nat)
  | addSequence (points : List Nat)
  | prune
  | reset

/-- The preconditions of the calls: images of the right size, points in the image, and a
non-empty sequence. -/
def Call.Valid (npix : Nat) : Call → Prop
  | addImage img => img.length = npix
  | addPoints points => ∀ p ∈ points, p < npix
  | addSequence points => points ≠ [] ∧ ∀ p ∈ points, p < npix
  | prune => True
  | reset => True

/-- The pixels that a call visits, in order. -/
def Call.visits : Call → List Nat
  | addImage img => (List.range img.length).filter fun p => img.getD p 0 ≠ 0
  | addPoints points => points
  | addSequence points => points
  | prune => []
  | reset => []

/-- First-visit order: append the pixels that are not in the list yet. -/
def visitAll : List Nat → List Nat → List Nat
  | hist, [] => hist
  | hist, p :: ps => visitAll (if p ∈ hist then hist else hist ++ [p]) ps

/-- The pixels added since the start or the last `reset`, in the order of their first visit. -/
def added : List Nat → List Call → List Nat
  | hist, [] => hist
  | _, Call.reset :: calls => added [] calls
  | hist, c :: calls => added (visitAll hist c.visits) calls

/-- `p` was added before `q`. -/
def Before (hist : List Nat) (p q : Nat) : Prop := hist.idxOf p < hist.idxOf q

/-- The one of `p` and `q` that was added last has the other one as a neighbour. -/
def LaterSees (adj : Nat → Nat → Prop) (hist : List Nat) (p q : Nat) : Prop :=
  (Before hist q p ∧ adj p q) ∨ (Before hist p q ∧ adj q p)

/-! ### kernels and the neighbours of `clusters` -/

/-- The centre of an array of odd sizes. -/
def centre (shape : List Nat) : List Int := shape.map fun (n : Nat) => ((n / 2 : Nat) : Int)

/-- The element at coordinates `x` of an array given by its shape and its row-major elements. -/
def entry (shape : List Nat) (elements : List Int) (x : List Int) : Int :=
  elements.getD (flat shape x).toNat 0

/-- A kernel (shape, row-major elements) of the documented form: odd sizes, the centre is 1. -/
structure ValidKernel (shape : List Nat) (elements : List Int) : Prop where
  odd : ∀ n ∈ shape, n % 2 = 1 ∧ n < 2 ^ 64
  len : elements.length = shape.prod
  centre : entry shape elements (centre shape) = 1

/-- Offsets of kernel entries: `d` leads from the centre to an element that is not zero and not the
centre. -/
def IsOffset (shape : List Nat) (elements : List Int) (d : List Int) : Prop :=
  ∃ x, InBox shape x ∧ x ≠ Spec.centre shape ∧ entry shape elements x ≠ 0 ∧
    d = List.zipWith (· - ·) x (Spec.centre shape)

/-- Point symmetry: opposite elements are both zero or both nonzero. -/
def SymmetricKernel (shape : List Nat) (elements : List Int) : Prop :=
  ∀ x, InBox shape x → entry shape elements x ≠ 0 →
    entry shape elements (List.zipWith (fun (n : Nat) (i : Int) => n - 1 - i) shape x) ≠ 0

/-- `p` and `q` share a face: one coordinate differs by 1 (modulo the shape if periodic). -/
def FaceAdj (periodic : Bool) (shape : List Nat) (p q : Nat) : Prop :=
  ∃ x y d, d.length = shape.length ∧ (d.map Int.natAbs).sum = 1 ∧
    InBox shape x ∧ InBox shape y ∧ Shifted periodic shape x d y ∧ flat shape x = p ∧ flat shape y = q

end Verif.Spec
