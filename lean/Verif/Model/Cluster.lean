import Verif.Model.Kernel

/-!
# Model of `ClusterLabeller` and `clusters`, `/repo/include/GooseEYE/GooseEYE.h:666-1222`

The model is an interpreter of the class, member by member: the same arrays, the same loops in the
same order, every array access bounds-checked (`ub` when out of range), every `while` loop with
fuel (`diverge` when it runs out). Simplifications:

* `ptrdiff_t` values are unbounded integers, except in the expressions that the code evaluates in
  `size_t`, where the reduction modulo 2^64 is modelled (`usizeMod`, `usizeDiv`);
* the scratch array `m_connected` (of size `m_dx.shape(0)`, filled from the front by a loop of
  `m_dx.shape(0)` iterations, so never overrun) is a local list;
* the image `m_label` enters only through `.flat(i)`, `.size()` and its strides.
-/

namespace Verif.Cluster

open Verif Outcome Kernel

/-- Members of `ClusterLabeller<Dimension, Periodicity>`, `GooseEYE.h:678-705`. The rank `Dimension`
is `shape.length`; which `get_compare_*` is selected (`GooseEYE.h:759-769`) depends on the shape
only and is decided in `getCompare`. -/
structure State where
  periodic : Bool
  shape : List Nat
  dx : List (List Int)
  label : Vec Int
  newLabel : Int
  nmerge : Nat
  renum : Vec Int
  next : Vec Int

/-- The part of `get_compare_default` for rank ≥ 3: the loop over the dimensions,
`GooseEYE.h:960-974`. `none` is the early `return -1`. -/
def shiftLoop (periodic : Bool) : List Nat → List Int → List Int → Outcome (Option (List Int))
  | n :: shape, i :: index, d :: dx =>
    if periodic then
      if n = 0 then ub
      else
        (shiftLoop periodic shape index dx).bind fun r =>
          ok (r.map fun l => ((n : Int) + (i + d).tmod n).tmod n :: l)
    else if i + d < 0 ∨ i + d ≥ n then ok none
    else (shiftLoop periodic shape index dx).bind fun r => ok (r.map fun l => (i + d) :: l)
  | [], [], [] => ok (some [])
  | _, _, _ => ub

/-- `(this->*get_compare)(idx, j)` with `d` the row `m_dx(j, ·)`: `get_compare_2d_1n`
(`GooseEYE.h:895-907`) for shape `[1, n]`, `get_compare_2d_n1` (`913-925`) for shape `[n, 1]`,
otherwise `get_compare_default` (`935-976`). Returns -1 for "out of bounds". -/
def getCompare (periodic : Bool) (shape : List Nat) (idx : Int) (d : List Int) : Outcome Int :=
  match shape, d with
  | [n], [d0] =>
    if periodic then usizeMod (n + idx + d0) n
    else if idx + d0 < 0 ∨ idx + d0 ≥ n then ok (-1) else ok (idx + d0)
  | [n0, n1], [d0, d1] =>
    if n0 = 1 then
      -- get_compare_2d_1n
      if periodic then usizeMod (n1 + idx + d1) n1
      else if idx + d1 < 0 ∨ idx + d1 ≥ n1 then ok (-1) else ok (idx + d1)
    else if n1 = 1 then
      -- get_compare_2d_n1
      if periodic then usizeMod (n0 + idx + d0) n0
      else if idx + d0 < 0 ∨ idx + d0 ≥ n0 then ok (-1) else ok (idx + d0)
    else
      let st := ((xstrides [n0, n1]).getD 0 0 : Int)
      (usizeDiv idx st).bind fun q =>
      (usizeMod idx st).bind fun r =>
        if periodic then
          (usizeMod (n0 + q + d0) n0).bind fun ii =>
          (usizeMod (n1 + r + d1) n1).bind fun jj =>
            ok (ii * n1 + jj)
        else if q + d0 < 0 ∨ q + d0 ≥ n0 ∨ r + d1 < 0 ∨ r + d1 ≥ n1 then ok (-1)
        else ok ((q + d0) * n1 + (r + d1))
  | shape, d =>
    (shiftLoop periodic shape (unravelFromStrides idx (xstrides shape)) d).bind fun r =>
      match r with
      | none => ok (-1)
      | some index => ok (ravelIndex index shape)

/-- `reset()`, `GooseEYE.h:776-782`. -/
def reset (s : State) : State :=
  { s with
    label := Vec.fill s.label.size 0
    renum := ⟨s.renum.size, fun i => (i : Int)⟩
    newLabel := 1
    next := Vec.fill s.next.size (-1) }

/-- `init(shape)`, `GooseEYE.h:745-770`, after the constructor has set `m_dx`. -/
def init (periodic : Bool) (shape : List Nat) (dx : List (List Int)) : State :=
  reset
    { periodic := periodic, shape := shape, dx := dx
      label := Vec.fill (prodShape shape) 0
      newLabel := 1, nmerge := 0
      renum := Vec.fill (prodShape shape + 1) 0
      next := Vec.fill (prodShape shape + 1) 0 }

/-- `ClusterLabeller(shape)`, `GooseEYE.h:712-730`. -/
def construct (periodic : Bool) (shape : List Nat) : Outcome State :=
  (defaultDx shape.length).bind fun dx => ok (init periodic shape dx)

/-- `ClusterLabeller(shape, kernel)`, `GooseEYE.h:736-741`. The rank of the kernel is that of the
labeller (`kernel_to_dx<Dim>`); other ranks are not modelled (`ub`). -/
def constructKernel (dbg periodic : Bool) (shape : List Nat) (kernel : Kern) : Outcome State :=
  if kernel.shape.length ≠ shape.length then ub
  else (kernelToDx dbg kernel).bind fun dx => ok (init periodic shape dx)

/-- `private_renumber(renum)`, `GooseEYE.h:816-822`: `m_label.flat(i) = renum[m_label.flat(i)]`. -/
def renumberLoop (renum : Vec Int) : List Nat → Vec Int → Outcome (Vec Int)
  | [], label => ok label
  | i :: is, label =>
    (label.read i).bind fun l =>
    (renum.read l).bind fun r =>
    (label.write i r).bind (renumberLoop renum is)

/-- `private_renumber(m_renum)` on the state. `GooseEYE.h:799`, `816-829`, `886`. -/
def privateRenumber (s : State) : Outcome State :=
  (renumberLoop s.renum (List.range s.label.size) s.label).bind fun label =>
    ok { s with label := label }

/-- The loop of `prune()` over the labels `1 .. n - 1`, `GooseEYE.h:793-798`. -/
def pruneLoop : List Nat → Int → Vec Int → Outcome (Int × Vec Int)
  | [], newLabel, renum => ok (newLabel, renum)
  | i :: is, newLabel, renum =>
    (renum.read i).bind fun r =>
      if r = i then (renum.write i newLabel).bind fun renum => pruneLoop is (newLabel + 1) renum
      else pruneLoop is newLabel renum

/-- `std::iota(m_renum.begin(), m_renum.begin() + n, 0)`, `GooseEYE.h:800`. -/
def iotaPrefix (renum : Vec Int) (n : Nat) : Outcome (Vec Int) :=
  if n ≤ renum.size then ok ⟨renum.size, fun i => if i < n then (i : Int) else renum.get i⟩ else ub

/-- `prune()`, `GooseEYE.h:788-801`. -/
def prune (s : State) : Outcome State :=
  let n := s.newLabel.toNat
  (s.renum.write 0 0).bind fun renum =>
  (pruneLoop ((List.range n).tail) 1 renum).bind fun p =>
  (privateRenumber { s with newLabel := p.1, renum := p.2 }).bind fun s =>
  (iotaPrefix s.renum n).bind fun renum =>
    ok { s with renum := renum }

/-- First loop of `merge_detail`, `GooseEYE.h:838-844`: walk the linked list from `i` and set
`m_renum` to `target`. -/
def setLoop (next : Vec Int) (target : Int) : Nat → Int → Vec Int → Outcome (Vec Int)
  | 0, _, _ => diverge
  | fuel + 1, i, renum =>
    (next.read i).bind fun i =>
      if i = -1 then ok renum
      else (renum.write i target).bind (setLoop next target fuel i)

/-- Second loop of `merge_detail`, `GooseEYE.h:846-848`: go to the end of the list of `a`. -/
def lastLoop (next : Vec Int) : Nat → Int → Outcome Int
  | 0, _ => diverge
  | fuel + 1, a =>
    (next.read a).bind fun n => if n ≠ -1 then lastLoop next fuel n else ok a

/-- `merge_detail(a, b)`, `GooseEYE.h:832-850`. The two `while` loops get `m_next.size() + 1` units of
fuel. -/
def mergeDetail (s : State) (a b : Int) : Outcome State :=
  (s.renum.read b).bind fun i =>
  (s.renum.read a).bind fun target =>
  (s.renum.write b target).bind fun renum =>
  (setLoop s.next target (s.next.size + 1) i renum).bind fun renum =>
  (lastLoop s.next (s.next.size + 1) a).bind fun last =>
  (s.next.write last b).bind fun next =>
    ok { s with renum := renum, next := next }

/-- The loop of `merge(labels, nlabels)`, `GooseEYE.h:874-876`. -/
def mergeLoop (target : Int) : List Int → State → Outcome State
  | [], s => ok s
  | b :: bs, s => (mergeDetail s target b).bind (mergeLoop target bs)

/-- `apply_merge()`, `GooseEYE.h:880-889`. -/
def applyMerge (s : State) : Outcome State :=
  if s.nmerge = 0 then ok s
  else
    (privateRenumber s).bind fun s =>
      ok { s with next := Vec.fill s.next.size (-1), nmerge := 0 }

/-- The loop of `label_impl` that fills `m_connected`, `GooseEYE.h:982-993`. -/
def connectedLoop (s : State) (idx : Int) : List (List Int) → Outcome (List Int)
  | [] => ok []
  | d :: dx =>
    (getCompare s.periodic s.shape idx d).bind fun compare =>
      if !s.periodic && compare == -1 then connectedLoop s idx dx
      else
        (s.label.read compare).bind fun l =>
          if l ≠ 0 then
            (s.renum.read l).bind fun r =>
            (connectedLoop s idx dx).bind fun c => ok (r :: c)
          else connectedLoop s idx dx

/-- `label_impl(idx)`, `GooseEYE.h:978-1017`. -/
def labelImpl (s : State) (idx : Int) : Outcome State :=
  (connectedLoop s idx s.dx).bind fun connected =>
    match connected with
    | [] =>
      (s.label.write idx s.newLabel).bind fun label =>
        ok { s with label := label, newLabel := s.newLabel + 1 }
    | [c] => (s.label.write idx c).bind fun label => ok { s with label := label }
    | _ =>
      match sortUnique connected with
      | [] => ub
      | [c] => (s.label.write idx c).bind fun label => ok { s with label := label }
      | target :: rest =>
        (mergeLoop target rest s).bind fun s =>
        (s.label.write idx target).bind fun label =>
          ok { s with label := label, nmerge := s.nmerge + 1 }

/-- One step of the loop of `add_points` (`GooseEYE.h:1064-1069`): skip a labelled point. -/
def addPoint (s : State) (idx : Int) : Outcome State :=
  (s.label.read idx).bind fun l => if l ≠ 0 then ok s else labelImpl s idx

/-- One step of the loop of `add_image` (`GooseEYE.h:1029-1037`): skip background. -/
def addPixel (s : State) (p : Nat × Int) : Outcome State :=
  if p.2 = 0 then ok s else addPoint s p.1

/-- `add_image(img)`, `GooseEYE.h:1024-1039`. `imgShape`, `img`: shape and row-major elements. -/
def addImage (dbg : Bool) (s : State) (imgShape : List Nat) (img : List Int) : Outcome State :=
  if dbg && imgShape != s.shape then throws
  else (forM ((List.range img.length).zip img) s addPixel).bind applyMerge

/-- `legal_points(begin, end)`, `GooseEYE.h:1042-1052`. The points are converted to `size_t`, so a
negative point is at least `n` as well. -/
def legalPoints (s : State) (points : List Int) : Bool :=
  !points.any fun i => decide (toSize i ≥ s.label.size)

/-- `add_points(begin, end)`, `GooseEYE.h:1060-1071` (and the overload of `1077-1082`). -/
def addPoints (dbg : Bool) (s : State) (points : List Int) : Outcome State :=
  if dbg && !legalPoints s points then throws
  else (forM points s addPoint).bind applyMerge

/-- The inner loop of `add_sequence`, `GooseEYE.h:1105-1119`, for fixed `nl`, `nm`, `lab`, from
index `i` on (`rest` are the points from index `i`). Returns the state, and the index at which
the loop ended by a `break` (`none` if it ran to the end). -/
def seqInner (nl : Int) (nm : Nat) (lab : Int) : List Int → Nat → State →
    Outcome (State × Option Nat)
  | [], _, s => ok (s, none)
  | p :: rest, i, s =>
    (s.label.read p).bind fun l =>
      if l ≠ lab ∧ l ≠ 0 then ok (s, some i)
      else if l ≠ 0 then seqInner nl nm lab rest (i + 1) s
      else
        (labelImpl s p).bind fun s =>
          if s.newLabel ≠ nl ∨ s.nmerge ≠ nm then ok (s, some i)
          else seqInner nl nm lab rest (i + 1) s

/-- The outer `while (true)` loop of `add_sequence`, `GooseEYE.h:1100-1124`. `idx(i)` is read at the
head of the loop (undefined if `i` is not an index of the sequence). `i == idx.size()` holds exactly
when the inner loop ran to the end. -/
def seqOuter (points : List Int) : Nat → Nat → State → List Nat → Outcome (State × List Nat)
  | 0, _, _, _ => diverge
  | fuel + 1, i, s, ret =>
    match points[i]? with
    | none => ub
    | some p =>
      (s.label.read p).bind fun lab =>
      (seqInner s.newLabel s.nmerge lab (points.drop i) i s).bind fun r =>
        match r.2 with
        | none => ok (r.1, ret)
        | some j => seqOuter points fuel j r.1 (ret ++ [j])

/-- `add_sequence(idx)`, `GooseEYE.h:1092-1129`. Every pass of the outer loop that starts at `i`
ends at the end or at some `j`; the loop gets `2 * size + 2` units of fuel. -/
def addSequence (dbg : Bool) (s : State) (points : List Int) : Outcome (State × List Nat) :=
  if dbg && points.isEmpty then throws
  else if dbg && !legalPoints s points then throws
  else
    (seqOuter points (2 * points.length + 2) 0 s []).bind fun r =>
    (applyMerge r.1).bind fun s => ok (s, r.2 ++ [points.length])

/-- `clusters(f, periodic)`, `GooseEYE.h:1197-1222` with `ClusterLabellerOverload`
(`1173-1187`): construct, `add_image`, `prune`, `labels()`. The final conversion of the labels to
`int` is in `Model/Clusters32.lean`. -/
def clusters (dbg : Bool) (shape : List Nat) (f : List Int) (periodic : Bool) :
    Outcome (List Int) :=
  if shape.length = 1 ∨ shape.length = 2 ∨ shape.length = 3 then
    (construct periodic shape).bind fun s =>
    (addImage dbg s shape f).bind fun s =>
    (prune s).bind fun s =>
      ok s.label.toList
  else throws

end Verif.Cluster
