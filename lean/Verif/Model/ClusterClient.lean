import Verif.Model.Cluster
import Verif.Spec.Cluster

/-!
# A client of `ClusterLabeller`: a sequence of calls on one object

`Spec.Call` lists the public mutating members of the class (`GooseEYE.h:776-801, 1024-1129`); the
model runs them in order on the state of the object. The points given to the class are integers
(`size_t`).
-/

namespace Verif.Cluster

open Verif Outcome Spec

/-- One call; the second component is the return value of `add_sequence` (`GooseEYE.h:1092-1129`),
empty for the other members, which return nothing. -/
def stepCall (dbg : Bool) (s : State) : Call → Outcome (State × List Nat)
  | .addImage img => (addImage dbg s s.shape img).bind fun s => ok (s, [])
  | .addPoints pts => (addPoints dbg s (pts.map fun p : Nat => (p : Int))).bind fun s => ok (s, [])
  | .addSequence pts => addSequence dbg s (pts.map fun p : Nat => (p : Int))
  | .prune => (prune s).bind fun s => ok (s, [])
  | .reset => ok (reset s, [])

/-- A sequence of calls, with the list of return values. `GooseEYE.h:776-801, 1024-1129`. -/
def run (dbg : Bool) (s : State) : List Call → Outcome (State × List (List Nat))
  | [] => ok (s, [])
  | c :: calls =>
    (stepCall dbg s c).bind fun r =>
    (run dbg r.1 calls).bind fun t => ok (t.1, r.2 :: t.2)

/-- `labels()`, `GooseEYE.h:1160-1167`, as a function of the row-major index. -/
def labelAt (s : State) (p : Nat) : Int := s.label.get p

end Verif.Cluster
