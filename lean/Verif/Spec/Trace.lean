import Verif.Spec.Cluster

/-!
# Specification: what a labeller remembers of the calls

Which pixels were added for the first time since the last `reset`, and when `prune` was called in between; not how the
pixels were grouped into calls, which call they were added by, or which pixels were added again.
-/

namespace Verif.Spec

/-- A pixel is added that had no label, or the labels are pruned. -/
inductive Step where
  | new (p : Nat)
  | prune
deriving DecidableEq

/-- The pixels of a call, after the steps `t`. -/
def traceVisits : List Step → List Nat → List Step
  | t, [] => t
  | t, p :: ps => traceVisits (if .new p ∈ t then t else t ++ [.new p]) ps

/-- The steps since the start or the last `reset`. -/
def trace : List Step → List Call → List Step
  | t, [] => t
  | _, .reset :: calls => trace [] calls
  | t, .prune :: calls => trace (t ++ [.prune]) calls
  | t, c :: calls => trace (traceVisits t c.visits) calls

end Verif.Spec
