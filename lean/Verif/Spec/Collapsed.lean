import Verif.Spec.Lineal

/-!
# Specification of the collapsed weighted correlation (W2c)

Independent of the model.
-/

namespace Verif.Spec

/-- The value at displacement `d` of `x`; zero outside the image. -/
def valueAt {α : Type} [Zero α] (periodic : Bool) (a : Nd α) (x d : List Int) : α :=
  if target periodic a.shape x d ∈ pixels a.shape then val a (target periodic a.shape x d) else 0

/-- `x` is the centre of a cluster: it has a label, that of the cluster that it is part of. -/
def IsCentre (clusters centers : Nd Int) (x : List Int) : Prop :=
  val centers x ≠ 0 ∧ val clusters x = val centers x

instance (clusters centers : Nd Int) (x : List Int) : Decidable (IsCentre clusters centers x) := by
  unfold IsCentre; infer_instance

/-- The values that are averaged at displacement `d`: from each centre `x`, along each path `p`, the value
at row `j` of `rows x p` contributes to the displacement of row `j` of `p`, unless it is masked. -/
def samples {K : Type} [Zero K] (periodic : Bool) (f : Nd K) (fmask clusters centers : Nd Int)
    (rows : List Int → List (List Int) → List (List Int)) (paths : List (List (List Int))) (d : List Int) :
    List K :=
  paths.flatMap fun p =>
    ((pixels f.shape).filter fun x => IsCentre clusters centers x).flatMap fun x =>
      ((p.zip (rows x p)).filter fun ab => ab.1 = d ∧ valueAt periodic fmask x ab.2 = 0).map fun ab =>
        valueAt periodic f x ab.2

/-- The values that are averaged over the centres at displacement `e`. -/
def atCentres {K : Type} [Zero K] (periodic : Bool) (f : Nd K) (fmask clusters centers : Nd Int) (e : List Int) :
    List K :=
  ((pixels f.shape).filter fun x => IsCentre clusters centers x ∧ valueAt periodic fmask x e = 0).map fun x =>
    valueAt periodic f x e

/-- On a line: the displacements one pixel farther from the centre than displacement `k`; for the centre
itself the two next to it. -/
def oneFarther (k : Int) : List (List Int) := if k = 0 then [[-1], [1]] else [[k + k.sign]]

/-- The path without the leading part that is inside the cluster of `x`. -/
def outside (periodic : Bool) (clusters centers : Nd Int) (x : List Int) (p : List (List Int)) :
    List (List Int) :=
  p.dropWhile fun e => valueAt periodic clusters x e = val centers x

/-- As `samples`, along `p.tail`, with the values of all rows that are stored `here`. -/
def samplesWhere {K : Type} [Zero K] (periodic : Bool) (f : Nd K) (fmask clusters centers : Nd Int)
    (paths : List (List (List Int))) (here : List Int → Prop) [DecidablePred here] : List K :=
  paths.flatMap fun p =>
    ((pixels f.shape).filter fun x => IsCentre clusters centers x).flatMap fun x =>
      ((p.zip p.tail).filter fun ab => here ab.1 ∧ valueAt periodic fmask x ab.2 = 0).map fun ab =>
        valueAt periodic f x ab.2

/-- The number of places, in row-major order, by which the values of W2c are displaced: in three dimensions
(with more than one pixel along the third axis) the pad of the second axis minus that of the third. -/
def drift : List Nat → Int
  | [_, b, c] => if c = 1 then 0 else (((b - 1) / 2 : Nat) : Int) - (((c - 1) / 2 : Nat) : Int)
  | _ => 0

/-- The place, in row-major order, at which W2c stores the value of displacement `d`. -/
def slot (roi : List Nat) (d : List Int) : Int :=
  flat roi (move (roi.map fun n => (((n - 1) / 2 : Nat) : Int)) d) + drift roi

/-- Everything that is stored, along each path from each centre, has its place in the result. -/
def Within (periodic : Bool) (fmask clusters centers : Nd Int) (roi : List Nat)
    (paths : List (List (List Int))) : Prop :=
  ∀ p ∈ paths, ∀ x ∈ pixels clusters.shape, IsCentre clusters centers x → ∀ ab ∈ p.zip p.tail,
    valueAt periodic fmask x ab.2 = 0 → 0 ≤ slot roi ab.1 ∧ slot roi ab.1 < (roi.prod : Nat)

end Verif.Spec
