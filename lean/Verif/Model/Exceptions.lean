import Verif.Model.Cluster
import Verif.Model.Ensemble
import Verif.Model.Structure

/-!
# The state that a call leaves behind

In the other models a call that throws has no result. Here the member functions are written as programs on the
object: assertions, assignments and loops in the order of the source, so that the object after an exception is
known. A loop that would throw leaves the object in any state (`any`).

Exceptions of the allocation of memory (`std::bad_alloc`) are not modelled.
-/

namespace Verif

open Outcome

/-- A program on an object of type `S`: the object that it leaves behind and how it ends.
No code of its own: the language in which the member functions below are written. -/
def Exec (S : Type) : Type := S → S × Outcome Unit

namespace Exec

variable {S : Type}

/-- `GOOSEEYE_ASSERT(cond, ...)`. `config.h:88-91`. -/
def check (dbg : Bool) (cond : S → Bool) : Exec S := fun s => (s, gassert dbg (cond s))

/-- An assignment to a member. For example `Ensemble_S2.hpp:31`. -/
def assign (g : S → S) : Exec S := fun s => (g s, ok ())

/-- Statements that are modelled by a function `f`: if they do not complete, the object is in any state.
No code of its own. -/
def run (any : S) (f : S → Outcome S) : Exec S := fun s =>
  match f s with
  | ok s => (s, ok ())
  | throws => (any, throws)
  | ub => (any, ub)
  | diverge => (any, diverge)

/-- `p; q`. No code of its own. -/
def andThen (p q : Exec S) : Exec S := fun s =>
  match p s with
  | (s, ok ()) => q s
  | (s, throws) => (s, throws)
  | (s, ub) => (s, ub)
  | (s, diverge) => (s, diverge)

/-- `p; q; ...`. No code of its own. -/
def seq : List (Exec S) → Exec S
  | [] => fun s => (s, ok ())
  | p :: ps => andThen p (seq ps)

end Exec

namespace Ens

open Exec Nd

variable {K : Type} [Zero K] [One K] [Add K] [Sub K] [Mul K] [Div K] [Pow K Nat] [NatCast K] [IntCast K] [LE K]
  [DecidableLE K] [Neg K] [Max K] [DecidableEq K]
variable {P : Type} [Zero P] [One P] [Add P] [Sub P] [Neg P] [Mul P] [Div P] [NatCast P] [IntCast P] [DecidableEq P]
  [LT P] [DecidableLT P]

/-- `m_stat = ...`. `Ensemble_S2.hpp:31` (and the same in the other measures). -/
def lock (stat : Stat) : Exec (Ensemble K) := assign fun E => { E with stat := stat }

/-- `m_first(0) += v`. `Ensemble_mean.hpp:22`, `39`. -/
def first0 (any : Ensemble K) (v : Outcome K) : Exec (Ensemble K) := run any fun E => do
  let v ← v
  let first ← addTo0 E.first v
  pure { E with first := first }

/-- `m_second(0) += v`. `Ensemble_mean.hpp:23`, `41`. -/
def second0 (any : Ensemble K) (v : Outcome K) : Exec (Ensemble K) := run any fun E => do
  let v ← v
  let second ← addTo0 E.second v
  pure { E with second := second }

/-- `m_norm(0) += v`. `Ensemble_mean.hpp:24`, `44`. -/
def norm0 (any : Ensemble K) (v : Outcome K) : Exec (Ensemble K) := run any fun E => do
  let v ← v
  let norm ← addTo0 E.norm v
  pure { E with norm := norm }

/-- `mean(f)`, `Ensemble_mean.hpp:14-25`. -/
def meanX (any : Ensemble K) (dbg : Bool) (f : Nd K) : Exec (Ensemble K) := seq [
  check dbg fun E => decide (E.shape = [1, 1, 1]),
  check dbg fun E => decide (E.stat = .mean ∨ E.stat = .unset),
  lock .mean,
  first0 any (ok f.sum),
  second0 any (ok (f.map fun x => x ^ 2).sum),
  norm0 any (ok (f.size : K))]

/-- `mean(f, fmask)`, `Ensemble_mean.hpp:28-47`. -/
def meanMaskX (any : Ensemble K) (dbg : Bool) (f : Nd K) (fmask : Nd Int) : Exec (Ensemble K) := seq [
  check dbg fun _ => decide (f.shape = fmask.shape),
  check dbg fun _ => binary fmask,
  check dbg fun E => decide (E.shape = [1, 1, 1]),
  check dbg fun E => decide (E.stat = .mean ∨ E.stat = .unset),
  lock .mean,
  first0 any ((map₂ (fun (m : Int) x => if m = 0 then x else 0) fmask f).map Nd.sum),
  second0 any ((map₂ (fun (m : Int) x => if m = 0 then x ^ 2 else 0) fmask f).map Nd.sum),
  norm0 any (ok (fmask.map fun m => ((1 - m : Int) : K)).sum)]

/-- `S2(f, g, fmask, gmask)`, `Ensemble_S2.hpp:14-82`. -/
def S2X (any : Ensemble K) (dbg : Bool) (f g : Nd K) (fmask gmask : Nd Int) : Exec (Ensemble K) := seq [
  check dbg fun _ => decide (f.shape = g.shape),
  check dbg fun _ => decide (f.shape = fmask.shape),
  check dbg fun _ => decide (f.shape = gmask.shape),
  check dbg fun E => decide (f.shape.length = E.shapeOrig.length),
  check dbg fun _ => binary fmask,
  check dbg fun _ => binary gmask,
  check dbg fun E => decide (E.stat = .S2 ∨ E.stat = .unset),
  lock .S2,
  run any fun E => do
    let F ← f.atleast3d.pad E.pad (padMode E.periodic) 0
    let G ← g.atleast3d.pad E.pad (padMode E.periodic) 0
    let Fmask ← fmask.atleast3d.pad E.pad .constant (maskValue E.periodic)
    let Gmask ← gmask.atleast3d.pad E.pad .constant (maskValue E.periodic)
    forM (pixelLoop F.shape E.pad) E (bodyS2 E.pad F G Fmask Gmask)]

/-- `C2(f, g, fmask, gmask)`, `Ensemble_C2.hpp:14-82`. -/
def C2X (any : Ensemble K) (dbg : Bool) (f g : Nd K) (fmask gmask : Nd Int) : Exec (Ensemble K) := seq [
  check dbg fun _ => decide (f.shape = g.shape),
  check dbg fun _ => decide (f.shape = fmask.shape),
  check dbg fun _ => decide (f.shape = gmask.shape),
  check dbg fun E => decide (f.shape.length = E.shapeOrig.length),
  check dbg fun _ => binary fmask,
  check dbg fun _ => binary gmask,
  check dbg fun E => decide (E.stat = .C2 ∨ E.stat = .unset),
  lock .C2,
  run any fun E => do
    let F ← f.atleast3d.pad E.pad (padMode E.periodic) 0
    let G ← g.atleast3d.pad E.pad (padMode E.periodic) 0
    let Fmask ← fmask.atleast3d.pad E.pad .constant (maskValue E.periodic)
    let Gmask ← gmask.atleast3d.pad E.pad .constant (maskValue E.periodic)
    forM (pixelLoop F.shape E.pad) E (bodyC2 E.pad F G Fmask Gmask)]

/-- `W2(f, g, gmask)`, `Ensemble_W2.hpp:14-73`. -/
def W2X (any : Ensemble K) (dbg : Bool) (f g : Nd K) (gmask : Nd Int) : Exec (Ensemble K) := seq [
  check dbg fun _ => decide (f.shape = g.shape),
  check dbg fun _ => decide (f.shape = gmask.shape),
  check dbg fun E => decide (f.shape.length = E.shapeOrig.length),
  check dbg fun _ => binary gmask,
  check dbg fun E => decide (E.stat = .W2 ∨ E.stat = .unset),
  lock .W2,
  run any fun E => do
    let F ← f.atleast3d.pad E.pad (padMode E.periodic) 0
    let G ← g.atleast3d.pad E.pad (padMode E.periodic) 0
    let Gmask ← gmask.atleast3d.pad E.pad .constant (maskValue E.periodic)
    forM (pixelLoop F.shape E.pad) E (bodyW2 E.pad F G Gmask)]

/-- `heightheight(f, fmask)`, `Ensemble_heightheight.hpp:14-80`. -/
def heightheightX (any : Ensemble K) (dbg : Bool) (f : Nd K) (fmask : Nd Int) : Exec (Ensemble K) := seq [
  check dbg fun _ => decide (f.shape = fmask.shape),
  check dbg fun E => decide (f.shape.length = E.shapeOrig.length),
  check dbg fun _ => binary fmask,
  check dbg fun E => decide (E.stat = .heightheight ∨ E.stat = .unset),
  lock .heightheight,
  run any fun E => do
    let F ← f.atleast3d.pad E.pad (padMode E.periodic) 0
    let Fmask ← fmask.atleast3d.pad E.pad .constant (maskValue E.periodic)
    forM (pixelLoop F.shape E.pad) E (bodyHH E.pad F Fmask)]

/-- `L(f, mode)`, `Ensemble_L.hpp:14-95`. -/
def LX (any : Ensemble K) (dbg : Bool) (junk : P) (fuel : Nat) (f : Nd K) (mode : Path.Mode) :
    Exec (Ensemble K) := seq [
  check dbg fun E => decide (f.shape.length = E.shapeOrig.length),
  check dbg fun E => decide (E.stat = .L ∨ E.stat = .unset),
  lock .L,
  run any fun E => do
    let F ← f.atleast3d.pad E.pad (padMode E.periodic) 0
    forM (stamps E.shape E.pad) E
      (stampL (fun s => Path.path junk fuel [0, 0, 0] s mode) E.pad F f.size)]

/-- `W2c(clusters, centers, f, fmask, mode)`, `Ensemble_W2c.hpp:14-118`. -/
def W2cX (any : Ensemble K) (dbg : Bool) (junk : P) (fuel : Nat) (clusters centers : Nd Int) (f : Nd K)
    (fmask : Nd Int) (mode : Path.Mode) : Exec (Ensemble K) := seq [
  check dbg fun _ => decide (f.shape = clusters.shape),
  check dbg fun _ => decide (f.shape = centers.shape),
  check dbg fun _ => decide (f.shape = fmask.shape),
  check dbg fun E => decide (f.shape.length = E.shapeOrig.length),
  check dbg fun _ => binary fmask,
  check dbg fun E => decide (E.stat = .W2c ∨ E.stat = .unset),
  lock .W2c,
  run any fun E => do
    let F ← f.atleast3d.pad E.pad (padMode E.periodic) 0
    let Fmask ← fmask.atleast3d.pad E.pad (padMode E.periodic) 0
    let Clusters ← clusters.atleast3d.pad E.pad (padMode E.periodic) 0
    let Centers ← centers.atleast3d.pad E.pad (padMode E.periodic) 0
    forM (stamps E.shape E.pad) E
      (stampW2c (fun s => Path.path junk fuel [0, 0, 0] s mode) E.pad F Fmask Clusters Centers)]

end Ens

namespace Cluster

open Exec

/-- `add_image(img)`, `GooseEYE.h:1024-1039`. -/
def addImageX (any : State) (dbg : Bool) (imgShape : List Nat) (img : List Int) : Exec State := seq [
  check dbg fun s => imgShape == s.shape,
  run any fun s => forM ((List.range img.length).zip img) s addPixel,
  run any applyMerge]

/-- `add_points(begin, end)`, `GooseEYE.h:1060-1071`. -/
def addPointsX (any : State) (dbg : Bool) (points : List Int) : Exec State := seq [
  check dbg fun s => legalPoints s points,
  run any fun s => forM points s addPoint,
  run any applyMerge]

/-- `add_sequence(idx)`, `GooseEYE.h:1092-1129`, without the array that is returned. -/
def addSequenceX (any : State) (dbg : Bool) (points : List Int) : Exec State := seq [
  check dbg fun _ => !points.isEmpty,
  check dbg fun s => legalPoints s points,
  run any fun s => (seqOuter points (2 * points.length + 2) 0 s []).map Prod.fst,
  run any applyMerge]

/-- `prune()`, `GooseEYE.h:788-801`. -/
def pruneX (any : State) : Exec State := run any prune

/-- `reset()`, `GooseEYE.h:776-783`. -/
def resetX : Exec State := assign reset

end Cluster

namespace Structure

open Exec

/-- `super()._allocate(shape, dtype)` (external): the arrays, filled with zeros. -/
noncomputable def zeros (m n : Nat) : State2 := ⟨⟨m, n, fun _ _ => some 0⟩, ⟨m, n, fun _ _ => some 0⟩, 0⟩

/-- `_allocate(shape, dtype)` for two dimensions, `__init__.py:157-182`: the arrays are allocated before the
assertion on the shape. -/
noncomputable def allocate2X (m n : Nat) : Exec (Option State2) := seq [
  Exec.assign fun _ => some (zeros m n),
  check true fun _ => decide (m % 2 = n % 2),
  Exec.assign fun st => st.map fun st =>
    if m % 2 ≠ 0 then st
    else
      let nan (a : Mat (Option ℝ)) : Mat (Option ℝ) :=
        ⟨a.rows, a.cols, fun k l => if k = m / 2 ∨ l = n / 2 then none else a.get k l⟩
      { st with first := nan st.first, second := nan st.second }]

/-- `add_sample(data)` for two dimensions, `__init__.py:243-277`; that of `enstat.static` (external) allocates if
there is nothing yet, and accumulates. -/
noncomputable def addSample2X (any : Option State2) (cast : ℝ → ℝ) (junk : Nat → Nat → ℝ) (data : Mat ℝ) :
    Exec (Option State2) := fun st =>
  match sample2 cast junk data with
  | ok x => seq [
      fun st => if st.isNone then allocate2X x.rows x.cols st else (st, ok ()),
      check true fun st => st.any fun st => decide (st.first.rows = x.rows ∧ st.first.cols = x.cols),
      Exec.assign fun st => st.map fun st =>
        ⟨⟨st.first.rows, st.first.cols, fun k l => plus (st.first.get k l) (some (x.get k l))⟩,
          ⟨st.second.rows, st.second.cols, fun k l => plus (st.second.get k l) (some (x.get k l ^ 2))⟩,
          st.norm + 1⟩] st
  | throws => (st, throws)
  | ub => (any, ub)
  | diverge => (any, diverge)

end Structure

end Verif
