import Verif.Model.XTensor

/-!
# A naive incremental labeller

One label per pixel, the next label to hand out, and nothing else: a merge relabels the whole
image. `nb p` lists the neighbours of pixel `p`.
-/

namespace Verif

/-- State of the naive labeller. -/
structure Naive where
  lab : Nat → Int
  new : Int

namespace Naive

/-- No pixel labelled. -/
def empty : Naive := ⟨fun _ => 0, 1⟩

/-- The distinct labels of the labelled neighbours of `p`, increasing. -/
def around (nb : Nat → List Nat) (s : Naive) (p : Nat) : List Int :=
  sortUnique (((nb p).map s.lab).filter (· ≠ 0))

/-- Add a pixel: nothing if it has a label; a new label if no neighbour has one; otherwise the
lowest label around, to which all clusters around are relabelled. -/
def add (nb : Nat → List Nat) (s : Naive) (p : Nat) : Naive :=
  if s.lab p ≠ 0 then s
  else
    match s.around nb p with
    | [] => ⟨fun q => if q = p then s.new else s.lab q, s.new + 1⟩
    | m :: rest => ⟨fun q => if q = p then m else if s.lab q ∈ rest then m else s.lab q, s.new⟩

/-- Adding `p` starts a cluster or merges clusters. -/
def Event (nb : Nat → List Nat) (s : Naive) (p : Nat) : Prop :=
  s.lab p = 0 ∧ (s.around nb p).length ≠ 1

/-- Renumber: every label becomes its rank among the labels in use. `N` is the number of pixels. -/
def prune (N : Nat) (s : Naive) : Naive :=
  let used := sortUnique (((List.range N).map s.lab).filter (· ≠ 0))
  ⟨fun q => if s.lab q = 0 then 0 else ((used.filter (· ≤ s.lab q)).length : Int),
    (used.length : Int) + 1⟩

end Naive

end Verif
