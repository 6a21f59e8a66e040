import Verif.Model.Measure
import Verif.Model.Dummy
import Verif.Model.Cluster
import Verif.Model.Labels
import Verif.Model.Dilate
import Mathlib.Data.Rat.Defs

/-!
# The tests of the repository, run on the model

These examples are no proofs of properties. They compare the model with what the tests of the repository say about
the code, so that a mistake in the model shows up here. (The larger images of `tests/test_historic.py` are run by
`tools/replay.sh`, the kernel is too slow for them.)
-/

namespace Verif.RepoTests

open Outcome

/-- The elements of the result. -/
def list {α : Type} (r : Outcome (Nd α)) : Outcome (List α) := r.bind fun a => ok a.toList

/-- The elements of the result, times the number of pixels of the image. -/
def list49 (r : Outcome (Nd ℚ)) : Outcome (List ℚ) := r.bind fun a => ok (a.toList.map fun x => x * 49)

/-- An array of one axis. -/
def line (l : List Int) : Nd Int := Nd.ofList [l.length] l

/-- A new labeller (periodic, as by default) with `add_sequence`. -/
def sequence (shape : List Nat) (idx : List Int) : Outcome (List Int × List Nat) := do
  let s ← Cluster.construct true shape
  let r ← Cluster.addSequence true s idx
  ok (r.1.label.toList, r.2)

/-- A new labeller with several calls of `add_points`: the labels after every call. -/
def pointsLoop (s : Cluster.State) : List (List Int) → Outcome (List (List Int))
  | [] => ok []
  | p :: l => do
    let s ← Cluster.addPoints true s p
    let r ← pointsLoop s l
    ok (s.label.toList :: r)

/-- The same. -/
def points (shape : List Nat) (l : List (List Int)) : Outcome (List (List Int)) := do
  pointsLoop (← Cluster.construct true shape) l

/-- `add_points`, `prune`. -/
def pruned (shape : List Nat) (p : List Int) : Outcome (List Int) := do
  let s ← Cluster.construct true shape
  let s ← Cluster.addPoints true s p
  let s ← Cluster.prune s
  ok s.label.toList

/-- The image of some labels. -/
def image (t : List Int) : List Int := t.map fun l => if l > 0 then 1 else 0

/-- `labels = clusters(img); labels == labels_rename(t, labels_map(t, labels))` -/
def renamed (t : List Int) : Outcome Bool := do
  let labels ← Cluster.clusters true [4, 4] (image t) true
  let m ← Labels.labelsMap t labels
  let r ← Labels.labelsRename true t m
  ok (decide (labels = r))

/-- `add_image` of every image, each time compared with the labels expected. -/
def imagesLoop (s : Cluster.State) : List (List Int) → Outcome Bool
  | [] => ok true
  | t :: l => do
    let s ← Cluster.addImage true s [4, 4] (image t)
    let r ← imagesLoop s l
    ok (decide (s.label.toList = t) && r)

/-- The same, with a labeller that is reset. -/
def images (l : List (List Int)) : Outcome Bool := do
  imagesLoop (Cluster.reset (← Cluster.construct true [4, 4])) l

/-! ### `tests/detail.cpp` -/

/-- `periodic_copy - 1` -/
example : list (Dilate.copyBelowToAbove (line [-1, 0, 0, 0, 0]) [(1, 1)]) = ok [-1, 0, 0, -1, 0] ∧
    list (Dilate.copyAboveToBelow (line [-1, 0, 0, 0, 0]) [(1, 1)]) = ok [-1, 0, 0, 0, 0] ∧
    list (Dilate.periodicCopy (line [-1, 0, 0, 0, 0]) [(1, 1)]) = ok [-1, 0, 0, -1, 0] := by decide +kernel

/-- `periodic_copy - 2` -/
example : list (Dilate.copyAboveToBelow (line [0, 0, 0, 0, -1]) [(1, 1)]) = ok [0, -1, 0, 0, -1] ∧
    list (Dilate.copyBelowToAbove (line [0, 0, 0, 0, -1]) [(1, 1)]) = ok [0, 0, 0, 0, -1] ∧
    list (Dilate.periodicCopy (line [0, 0, 0, 0, -1]) [(1, 1)]) = ok [0, -1, 0, 0, -1] := by decide +kernel

/-- `atleast_3d_axis - 3d`, `2d`, `1d` -/
example : (Nd.fill [3, 4, 5] 0).atleast3d.shape = [3, 4, 5] ∧ (Nd.fill [3, 4] 0).atleast3d.shape = [3, 4, 1] ∧
    (Nd.fill [3] 0).atleast3d.shape = [1, 3, 1] ∧ [0, 1, 2].map (Ens.atleast3dAxis 3) = [0, 1, 2] ∧
    [0, 1].map (Ens.atleast3dAxis 2) = [0, 1] ∧ Ens.atleast3dAxis 1 0 = 1 := by decide +kernel

/-! ### `tests/dilate.cpp` -/

/-- `dilate - basic` -/
example : list (Dilate.dilateNearestSame true (Nd.ofList [5, 5] [0, 0, 0, 0, 0, 0, 0, 1, 0, 0, 0, 1, 1, 1, 0, 0, 0,
      1, 0, 0, 0, 0, 0, 0, 0]) 1 true) =
    ok [0, 0, 1, 0, 0, 0, 1, 1, 1, 0, 1, 1, 1, 1, 1, 0, 1, 1, 1, 0, 0, 0, 1, 0, 0] := by decide +kernel

/-- `dilate - 1d` -/
example : list (Dilate.dilateNearestSame true (Nd.ofList [5] [2, 0, 0, 0, 0]) 1 true) =
    ok [2, 2, 0, 0, 2] := by decide +kernel

/-- `dilate - 2d - 1` -/
example : list (Dilate.dilateNearestSame true (Nd.ofList [5, 5] [-1, 0, 0, 0, 0, 0, 0, 0, 0, 0, 0, 0, 0, 0, 0, 0, 0,
      0, 0, 0, 0, 0, 0, 0, 0]) 1 true) =
    ok [-1, -1, 0, 0, -1, -1, 0, 0, 0, 0, 0, 0, 0, 0, 0, 0, 0, 0, 0, 0, -1, 0, 0, 0, 0] := by decide +kernel

/-- `dilate - 2d - 2` -/
example : list (Dilate.dilateNearestSame true (Nd.ofList [6, 6] [2, 0, 0, 0, 0, 0, 0, 0, 0, 0, 0, 0, 0, 0, 0, 0, 0,
      0, 0, 0, 0, 0, 0, 0, 0, 0, 0, 0, 0, 0, 0, 0, 0, 0, 0, 0]) 2 true) =
    ok [2, 2, 2, 0, 2, 2, 2, 2, 0, 0, 0, 2, 2, 0, 0, 0, 0, 0, 0, 0, 0, 0, 0, 0, 2, 0, 0, 0, 0, 0, 2, 2, 0, 0, 0,
      2] := by decide +kernel

/-! ### `tests/Ensemble.cpp` -/

/-- `distance - (a)`: the squares -/
example : list (Api.distance (K := ℚ) (fun x => x) true [5, 5]) =
    ok [8, 5, 4, 5, 8, 5, 2, 1, 2, 5, 4, 1, 0, 1, 4, 5, 2, 1, 2, 5, 8, 5, 4, 5, 8] := by decide +kernel

/-- `distance - (b)` -/
example : list (Api.distanceAxis ℚ true [5, 5] 0) =
      ok [-2, -2, -2, -2, -2, -1, -1, -1, -1, -1, 0, 0, 0, 0, 0, 1, 1, 1, 1, 1, 2, 2, 2, 2, 2] ∧
    list (Api.distanceAxis ℚ true [5, 5] 1) =
      ok [-2, -1, 0, 1, 2, -2, -1, 0, 1, 2, -2, -1, 0, 1, 2, -2, -1, 0, 1, 2, -2, -1, 0, 1, 2] := by decide +kernel

/-- `S2` -/
example : list49 (Api.S2 (K := ℚ) (fun x => x) true [5, 5] (Nd.ofList [7, 7] [0, 0, 0, 0, 0, 0, 0, 0, 0, 0, 0, 0, 0,
      0, 0, 0, 0, 0, 0, 0, 0, 0, 0, 1, 1, 1, 0, 0, 0, 0, 0, 0, 0, 0, 0, 0, 0, 0, 0, 0, 0, 0, 0, 0, 0, 0, 0, 0, 0])
    (Nd.ofList [7, 7] [0, 0, 0, 0, 0, 0, 0, 0, 0, 0, 0, 0, 0, 0, 0, 0, 0, 0, 0, 0, 0, 0, 0, 1, 1, 1, 0, 0, 0, 0, 0,
      0, 0, 0, 0, 0, 0, 0, 0, 0, 0, 0, 0, 0, 0, 0, 0, 0, 0]) true) =
    ok [0, 0, 0, 0, 0, 0, 0, 0, 0, 0, 1, 2, 3, 2, 1, 0, 0, 0, 0, 0, 0, 0, 0, 0, 0] := by decide +kernel

/-- `L - (a)` -/
example : list49 (Api.L (K := ℚ) (P := ℚ) (fun x => x) true 0 10 [7, 7] (Nd.ofList [7, 7] [0, 0, 0, 0, 0, 0, 0, 0, 0,
      0, 0, 0, 0, 0, 0, 0, 0, 0, 0, 0, 0, 0, 0, 1, 1, 1, 0, 0, 0, 0, 0, 0, 0, 0, 0, 0, 0, 0, 0, 0, 0, 0, 0, 0, 0, 0,
      0, 0, 0]) true
    Path.Mode.bresenham) = ok [0, 0, 0, 0, 0, 0, 0, 0, 0, 0, 0, 0, 0, 0, 0, 0, 0, 0, 0, 0, 0, 0, 1, 2, 3, 2, 1, 0, 0,
      0, 0, 0, 0, 0, 0, 0, 0, 0, 0, 0, 0, 0, 0, 0, 0, 0, 0, 0, 0] := by decide +kernel

/-- `L - (b)` -/
example : list49 (Api.L (K := ℚ) (P := ℚ) (fun x => x) true 0 10 [7, 7] (Nd.ofList [7, 7] [0, 0, 0, 0, 0, 0, 0, 0, 0,
      0, 0, 0, 0, 0, 0, 0, 0, 0, 0, 0, 0, 0, 0, 1, 0, 1, 0, 0, 0, 0, 0, 0, 0, 0, 0, 0, 0, 0, 0, 0, 0, 0, 0, 0, 0, 0,
      0, 0, 0]) true
    Path.Mode.bresenham) = ok [0, 0, 0, 0, 0, 0, 0, 0, 0, 0, 0, 0, 0, 0, 0, 0, 0, 0, 0, 0, 0, 0, 0, 0, 2, 0, 0, 0, 0,
      0, 0, 0, 0, 0, 0, 0, 0, 0, 0, 0, 0, 0, 0, 0, 0, 0, 0, 0, 0] := by decide +kernel

/-! ### `tests/test_clusters.py` -/

/-- `test_init` -/
example : Cluster.clusters true [4, 4] [0, 0, 0, 0, 0, 0, 0, 0, 0, 0, 0, 0, 0, 0, 0, 0] true =
    ok [0, 0, 0, 0, 0, 0, 0, 0, 0, 0, 0, 0, 0, 0, 0, 0] := by decide +kernel

/-- `test_clusters_sequence` -/
example : sequence [5, 5] [15, 20, 21, 6, 7, 11, 12, 9, 14] =
    ok ([0, 0, 0, 0, 0, 0, 2, 2, 0, 3, 0, 2, 2, 0, 3, 1, 0, 0, 0, 0, 1, 1, 0, 0, 0], [0, 3, 7, 9]) := by decide +kernel

example : sequence [5, 5] [15, 20, 21, 6, 7, 11, 12, 9, 14, 8, 13, 18] =
    ok ([0, 0, 0, 0, 0, 0, 2, 2, 2, 2, 0, 2, 2, 2, 2, 1, 0, 0, 2, 0, 1, 1, 0, 0, 0], [0, 3, 7, 9,
      12]) := by decide +kernel

/-- `test_labels_prune` -/
example : Labels.labelsPrune true [-2, -2, 0, 0, 0, 0, 8, 8, 3, 3, 0, 0, 0, 0, 6, 6] =
    ok [1, 1, 0, 0, 0, 0, 4, 4, 2, 2, 0, 0, 0, 0, 3, 3] := by decide +kernel

example : Labels.labelsPrune true [-2, -2, 9, 9, 9, 9, 8, 8, 3, 3, 9, 9, 9, 9, 6, 6] =
    ok [1, 1, 5, 5, 5, 5, 4, 4, 2, 2, 5, 5, 5, 5, 3, 3] := by decide +kernel

example : Labels.labelsPrune true [1, 1, 0, 0, 0, 0, 8, 8, 3, 3, 0, 0, 0, 0, 6, 6] =
    ok [1, 1, 0, 0, 0, 0, 4, 4, 2, 2, 0, 0, 0, 0, 3, 3] := by decide +kernel

example : Labels.labelsPrune true [1, 1, 9, 9, 9, 9, 8, 8, 3, 3, 9, 9, 9, 9, 6, 6] =
    ok [1, 1, 5, 5, 5, 5, 4, 4, 2, 2, 5, 5, 5, 5, 3, 3] := by decide +kernel

/-- `test_labels_map` -/
example : Labels.labelsMap [1, 1, 0, 0, 0, 0, 3, 3, 2, 2, 0, 0, 0, 0, 4, 4] [-3, -3, 0, 0, 0, 0, 1, 1, 5, 5, 0, 0, 0,
      0, 7, 7] = ok [(0, 0), (1, -3), (2, 5), (3, 1), (4, 7)] ∧
    Labels.labelsMap [-3, -3, 0, 0, 0, 0, 1, 1, 5, 5, 0, 0, 0, 0, 7, 7] [1, 1, 0, 0, 0, 0, 3, 3, 2, 2, 0, 0, 0, 0, 4,
      4] = ok [(-3, 1), (0, 0), (1, 3), (5, 2), (7, 4)] ∧
    Labels.labelsRename true [1, 1, 0, 0, 0, 0, 3, 3, 2, 2, 0, 0, 0, 0, 4, 4] [(0, 0), (1, -3), (2, 5), (3, 1), (4,
      7)] = ok [-3, -3, 0, 0, 0, 0, 1, 1, 5, 5, 0, 0, 0, 0, 7, 7] ∧
    Labels.labelsRename true [-3, -3, 0, 0, 0, 0, 1, 1, 5, 5, 0, 0, 0, 0, 7, 7] [(-3, 1), (0, 0), (1, 3), (5, 2), (7,
      4)] = ok [1, 1, 0, 0, 0, 0, 3, 3, 2, 2, 0, 0, 0, 0, 4, 4] := by decide +kernel

example : Labels.labelsMap [1, 1, 0, 0, 1, 1, 0, 0, 0, 0, 0, 0, 3, 3, 0, 0, 0, 3, 0, 0, 1, 0, 0, 0, 1]
    [4, 4, 0, 0, 4, 4, 0, 0, 0, 0, 0, 0, 7, 7, 0, 0, 0, 7, 0, 0, 4, 0, 0, 0, 4] = ok [(0, 0), (1, 4), (3,
      7)] := by decide +kernel

/-- `test_clusters_simple`: `clusters` of every image -/
example : ∀ t ∈ [[1, 0, 0, 0, 0, 0, 0, 0, 0, 0, 0, 0, 0, 0, 0, 0],
    [1, 1, 0, 0, 0, 0, 0, 0, 0, 0, 0, 0, 0, 0, 0, 0],
    [1, 1, 0, 0, 0, 0, 0, 0, 0, 0, 0, 0, 0, 0, 0, 0],
    [1, 1, 0, 0, 1, 0, 0, 0, 0, 0, 0, 0, 0, 0, 0, 0],
    [1, 1, 0, 0, 1, 0, 0, 0, 0, 0, 2, 0, 0, 0, 0, 0],
    [1, 1, 0, 0, 1, 0, 0, 0, 0, 0, 2, 2, 0, 0, 0, 0],
    [1, 1, 0, 0, 1, 0, 2, 0, 0, 0, 2, 2, 0, 0, 0, 0],
    [1, 1, 0, 0, 1, 1, 1, 0, 0, 0, 1, 1, 0, 0, 0, 0],
    [1, 1, 0, 0, 1, 1, 1, 0, 0, 0, 1, 1, 0, 0, 0, 0],
    [1, 1, 0, 0, 1, 1, 1, 0, 0, 0, 1, 1, 0, 0, 0, 1],
    [1, 1, 0, 0, 1, 1, 1, 0, 0, 0, 1, 1, 0, 0, 1, 1],
    [1, 0, 0, 0, 0, 0, 0, 0, 0, 0, 0, 0, 0, 0, 0, 0],
    [1, 1, 0, 0, 0, 0, 0, 0, 0, 0, 0, 0, 0, 0, 0, 0],
    [1, 1, 0, 0, 0, 0, 0, 0, 2, 0, 0, 0, 0, 0, 0, 0],
    [1, 1, 0, 0, 0, 0, 0, 0, 2, 2, 0, 0, 0, 0, 0, 0],
    [1, 1, 0, 0, 0, 0, 3, 0, 2, 2, 0, 0, 0, 0, 0, 0],
    [1, 1, 0, 0, 0, 0, 3, 3, 2, 2, 0, 0, 0, 0, 0, 0],
    [1, 1, 0, 0, 0, 0, 3, 3, 2, 2, 0, 0, 0, 0, 4, 0],
    [1, 1, 0, 0, 0, 0, 3, 3, 2, 2, 0, 0, 0, 0, 4, 4],
    [1, 1, 0, 1, 0, 0, 1, 1, 2, 2, 0, 0, 0, 0, 1, 1],
    [1, 1, 0, 1, 1, 0, 1, 1, 1, 1, 0, 0, 0, 0, 1, 1],
    [1, 0, 0, 0, 0, 0, 0, 0, 0, 0, 0, 0, 0, 0, 0, 0],
    [1, 0, 2, 0, 0, 0, 0, 0, 0, 0, 0, 0, 0, 0, 0, 0],
    [1, 0, 2, 0, 0, 3, 0, 0, 0, 0, 0, 0, 0, 0, 0, 0],
    [1, 0, 2, 0, 0, 3, 0, 4, 0, 0, 0, 0, 0, 0, 0, 0],
    [1, 0, 2, 0, 0, 3, 0, 4, 5, 0, 0, 0, 0, 0, 0, 0],
    [1, 0, 2, 0, 0, 3, 0, 4, 5, 0, 6, 0, 0, 0, 0, 0],
    [1, 0, 2, 0, 1, 1, 0, 1, 1, 0, 6, 0, 0, 0, 0, 0],
    [1, 0, 1, 0, 1, 1, 1, 1, 1, 0, 1, 0, 0, 0, 0, 0]],
    renamed t = ok true := by decide +kernel

/-- `add_image` of a sequence of images -/
example : images [[1, 0, 0, 0, 0, 0, 0, 0, 0, 0, 0, 0, 0, 0, 0, 0],
    [1, 1, 0, 0, 0, 0, 0, 0, 0, 0, 0, 0, 0, 0, 0, 0],
    [1, 1, 0, 0, 0, 0, 0, 0, 0, 0, 0, 0, 0, 0, 0, 0],
    [1, 1, 0, 0, 1, 0, 0, 0, 0, 0, 0, 0, 0, 0, 0, 0],
    [1, 1, 0, 0, 1, 0, 0, 0, 0, 0, 2, 0, 0, 0, 0, 0],
    [1, 1, 0, 0, 1, 0, 0, 0, 0, 0, 2, 2, 0, 0, 0, 0],
    [1, 1, 0, 0, 1, 0, 2, 0, 0, 0, 2, 2, 0, 0, 0, 0],
    [1, 1, 0, 0, 1, 1, 1, 0, 0, 0, 1, 1, 0, 0, 0, 0],
    [1, 1, 0, 0, 1, 1, 1, 0, 0, 0, 1, 1, 0, 0, 0, 0],
    [1, 1, 0, 0, 1, 1, 1, 0, 0, 0, 1, 1, 0, 0, 0, 1],
    [1, 1, 0, 0, 1, 1, 1, 0, 0, 0, 1, 1, 0, 0, 1, 1]] = ok true := by decide +kernel

/-- `add_image` of a sequence of images -/
example : images [[1, 0, 0, 0, 0, 0, 0, 0, 0, 0, 0, 0, 0, 0, 0, 0],
    [1, 1, 0, 0, 0, 0, 0, 0, 0, 0, 0, 0, 0, 0, 0, 0],
    [1, 1, 0, 0, 0, 0, 0, 0, 2, 0, 0, 0, 0, 0, 0, 0],
    [1, 1, 0, 0, 0, 0, 0, 0, 2, 2, 0, 0, 0, 0, 0, 0],
    [1, 1, 0, 0, 0, 0, 3, 0, 2, 2, 0, 0, 0, 0, 0, 0],
    [1, 1, 0, 0, 0, 0, 3, 3, 2, 2, 0, 0, 0, 0, 0, 0],
    [1, 1, 0, 0, 0, 0, 3, 3, 2, 2, 0, 0, 0, 0, 4, 0],
    [1, 1, 0, 0, 0, 0, 3, 3, 2, 2, 0, 0, 0, 0, 4, 4],
    [1, 1, 0, 1, 0, 0, 1, 1, 2, 2, 0, 0, 0, 0, 1, 1],
    [1, 1, 0, 1, 1, 0, 1, 1, 1, 1, 0, 0, 0, 0, 1, 1]] = ok true := by decide +kernel

/-- `add_image` of a sequence of images -/
example : images [[1, 0, 0, 0, 0, 0, 0, 0, 0, 0, 0, 0, 0, 0, 0, 0],
    [1, 0, 2, 0, 0, 0, 0, 0, 0, 0, 0, 0, 0, 0, 0, 0],
    [1, 0, 2, 0, 0, 3, 0, 0, 0, 0, 0, 0, 0, 0, 0, 0],
    [1, 0, 2, 0, 0, 3, 0, 4, 0, 0, 0, 0, 0, 0, 0, 0],
    [1, 0, 2, 0, 0, 3, 0, 4, 5, 0, 0, 0, 0, 0, 0, 0],
    [1, 0, 2, 0, 0, 3, 0, 4, 5, 0, 6, 0, 0, 0, 0, 0],
    [1, 0, 2, 0, 1, 1, 0, 1, 1, 0, 6, 0, 0, 0, 0, 0],
    [1, 0, 1, 0, 1, 1, 1, 1, 1, 0, 1, 0, 0, 0, 0, 0]] = ok true := by decide +kernel

/-- `test_clusters_simple2` -/
example : Cluster.clusters true [5, 5] [1, 0, 0, 1, 1, 0, 0, 0, 0, 0, 0, 0, 0, 0, 0, 1, 0, 0, 1, 1, 0, 0, 0, 0,
      0] true =
    ok [1, 0, 0, 1, 1, 0, 0, 0, 0, 0, 0, 0, 0, 0, 0, 2, 0, 0, 2, 2, 0, 0, 0, 0, 0] := by decide +kernel

/-- `test_clusters_simple3` -/
example : Cluster.clusters true [6, 10] [0, 0, 0, 0, 0, 0, 1, 0, 0, 0, 0, 1, 0, 0, 1, 1, 1, 0, 1, 0, 0, 1, 1, 1, 0,
      1, 1, 0, 1, 1, 0, 1, 1, 1, 1, 1, 1, 0, 0, 1, 0, 1, 1, 1, 0, 1, 1, 0, 0, 0, 0, 0, 0, 0, 0, 0, 0, 0, 0, 0] true =
    ok [0, 0, 0, 0, 0, 0, 1, 0, 0, 0, 0, 1, 0, 0, 1, 1, 1, 0, 2, 0, 0, 1, 1, 1, 0, 1, 1, 0, 2, 2, 0, 1, 1, 1, 1, 1,
      1, 0, 0, 2, 0, 1, 1, 1, 0, 1, 1, 0, 0, 0, 0, 0, 0, 0, 0, 0, 0, 0, 0, 0] := by decide +kernel

/-- `test_clusters_one` -/
example : Cluster.clusters true [1, 12] [1, 1, 0, 1, 1, 1, 0, 1, 1, 1, 0, 1] true =
    ok [1, 1, 0, 2, 2, 2, 0, 3, 3, 3, 0, 1] := by decide +kernel

example : Cluster.clusters true [12, 1] [1, 1, 0, 1, 1, 1, 0, 1, 1, 1, 0, 1] true =
    ok [1, 1, 0, 2, 2, 2, 0, 3, 3, 3, 0, 1] := by decide +kernel

/-- `test_labels_reorder` -/
example : Cluster.clusters true [4, 4] [1, 0, 1, 0, 0, 0, 0, 0, 1, 0, 1, 0, 0, 0, 0, 0] true =
    ok [1, 0, 2, 0, 0, 0, 0, 0, 3, 0, 4, 0, 0, 0, 0, 0] := by decide +kernel

example : Labels.labelsReorder true [1, 0, 2, 0, 0, 0, 0, 0, 3, 0, 4, 0, 0, 0, 0, 0] [0, 4, 1, 2, 3] =
      ok [2, 0, 3, 0, 0, 0, 0, 0, 4, 0, 1, 0, 0, 0, 0, 0] ∧
    Labels.labelsReorder true [2, 0, 3, 0, 0, 0, 0, 0, 4, 0, 1, 0, 0, 0, 0, 0] [0, 4, 1,
      2] = throws := by decide +kernel

/-- `test_labels_rename` -/
example : Labels.labelsRename true [1, 0, 2, 0, 0, 0, 0, 0, 3, 0, 4, 0, 0, 0, 0, 0] [(0, 0), (1, 4), (2, 1), (3, 2),
      (4, 3)] =
      ok [4, 0, 1, 0, 0, 0, 0, 0, 2, 0, 3, 0, 0, 0, 0, 0] ∧
    Labels.labelsRename true [4, 0, 1, 0, 0, 0, 0, 0, 2, 0, 3, 0, 0, 0, 0, 0] [(0, 0), (3,
      2)] = throws := by decide +kernel

/-- `test_labels_rename2` -/
example : points [4, 4] [[0, 2, 8, 10]] = ok [[1, 0, 2, 0, 0, 0, 0, 0, 3, 0, 4, 0, 0, 0, 0, 0]] ∧
    Labels.labelsRename true [1, 0, 2, 0, 0, 0, 0, 0, 3, 0, 4, 0, 0, 0, 0, 0] [(0, 0), (1, 6), (2, 1), (3, 2), (4, 3)] =
      ok [6, 0, 1, 0, 0, 0, 0, 0, 2, 0, 3, 0, 0, 0, 0, 0] := by decide +kernel

/-- `test_labels_sizes` -/
example : Labels.labelsSizes [1, 1, 0, 0, 1, 0, 0, 0, 0, 0, 2, 0, 0, 0, 0, 0] = [(0, 12), (1, 3), (2,
      1)] := by decide +kernel

/-- `test_prune` -/
example : points [4, 4] [[0, 2, 8, 10, 1]] = ok [[1, 1, 1, 0, 0, 0, 0, 0, 3, 0, 4, 0, 0, 0, 0, 0]] ∧
    pruned [4, 4] [0, 2, 8, 10, 1] = ok [1, 1, 1, 0, 0, 0, 0, 0, 2, 0, 3, 0, 0, 0, 0, 0] := by decide +kernel

/-- The pixels of `test_bug_a`. -/
def bug : List Int := [19, 5, 10, 69, 68, 24, 22, 87, 47, 8, 35, 7, 66, 92, 56, 27, 46, 55, 27, 37, 45, 9, 46, 59,
      58, 48, 67, 36, 26, 97, 38, 17, 98, 49, 12, 99, 8, 6, 2, 94, 57, 3, 16, 0, 18, 1, 25, 64, 91, 4, 13, 84, 44, 65]

/-- The labels that `test_bug_a` expects after every pixel. -/
def bugLabels : List (List Int) := [  [0, 0, 0, 0, 0, 0, 0, 0, 0, 0, 0, 0, 0, 0, 0, 0, 0, 0, 0, 1, 0, 0, 0, 0, 0, 0,
      0, 0, 0, 0, 0, 0, 0, 0, 0, 0,
    0, 0, 0, 0, 0, 0, 0, 0, 0, 0, 0, 0, 0, 0, 0, 0, 0, 0, 0, 0, 0, 0, 0, 0, 0, 0, 0, 0, 0, 0, 0, 0, 0, 0, 0,
    0, 0, 0, 0, 0, 0, 0, 0, 0, 0, 0, 0, 0, 0, 0, 0, 0, 0, 0, 0, 0, 0, 0, 0, 0, 0, 0, 0, 0],
  [0, 0, 0, 0, 0, 2, 0, 0, 0, 0, 0, 0, 0, 0, 0, 0, 0, 0, 0, 1, 0, 0, 0, 0, 0, 0, 0, 0, 0, 0, 0, 0, 0, 0, 0, 0,
    0, 0, 0, 0, 0, 0, 0, 0, 0, 0, 0, 0, 0, 0, 0, 0, 0, 0, 0, 0, 0, 0, 0, 0, 0, 0, 0, 0, 0, 0, 0, 0, 0, 0, 0,
    0, 0, 0, 0, 0, 0, 0, 0, 0, 0, 0, 0, 0, 0, 0, 0, 0, 0, 0, 0, 0, 0, 0, 0, 0, 0, 0, 0, 0],
  [0, 0, 0, 0, 0, 2, 0, 0, 0, 0, 1, 0, 0, 0, 0, 0, 0, 0, 0, 1, 0, 0, 0, 0, 0, 0, 0, 0, 0, 0, 0, 0, 0, 0, 0, 0,
    0, 0, 0, 0, 0, 0, 0, 0, 0, 0, 0, 0, 0, 0, 0, 0, 0, 0, 0, 0, 0, 0, 0, 0, 0, 0, 0, 0, 0, 0, 0, 0, 0, 0, 0,
    0, 0, 0, 0, 0, 0, 0, 0, 0, 0, 0, 0, 0, 0, 0, 0, 0, 0, 0, 0, 0, 0, 0, 0, 0, 0, 0, 0, 0],
  [0, 0, 0, 0, 0, 2, 0, 0, 0, 0, 1, 0, 0, 0, 0, 0, 0, 0, 0, 1, 0, 0, 0, 0, 0, 0, 0, 0, 0, 0, 0, 0, 0, 0, 0, 0,
    0, 0, 0, 0, 0, 0, 0, 0, 0, 0, 0, 0, 0, 0, 0, 0, 0, 0, 0, 0, 0, 0, 0, 0, 0, 0, 0, 0, 0, 0, 0, 0, 0, 3, 0,
    0, 0, 0, 0, 0, 0, 0, 0, 0, 0, 0, 0, 0, 0, 0, 0, 0, 0, 0, 0, 0, 0, 0, 0, 0, 0, 0, 0, 0],
  [0, 0, 0, 0, 0, 2, 0, 0, 0, 0, 1, 0, 0, 0, 0, 0, 0, 0, 0, 1, 0, 0, 0, 0, 0, 0, 0, 0, 0, 0, 0, 0, 0, 0, 0, 0,
    0, 0, 0, 0, 0, 0, 0, 0, 0, 0, 0, 0, 0, 0, 0, 0, 0, 0, 0, 0, 0, 0, 0, 0, 0, 0, 0, 0, 0, 0, 0, 0, 3, 3, 0,
    0, 0, 0, 0, 0, 0, 0, 0, 0, 0, 0, 0, 0, 0, 0, 0, 0, 0, 0, 0, 0, 0, 0, 0, 0, 0, 0, 0, 0],
  [0, 0, 0, 0, 0, 2, 0, 0, 0, 0, 1, 0, 0, 0, 0, 0, 0, 0, 0, 1, 0, 0, 0, 0, 4, 0, 0, 0, 0, 0, 0, 0, 0, 0, 0, 0,
    0, 0, 0, 0, 0, 0, 0, 0, 0, 0, 0, 0, 0, 0, 0, 0, 0, 0, 0, 0, 0, 0, 0, 0, 0, 0, 0, 0, 0, 0, 0, 0, 3, 3, 0,
    0, 0, 0, 0, 0, 0, 0, 0, 0, 0, 0, 0, 0, 0, 0, 0, 0, 0, 0, 0, 0, 0, 0, 0, 0, 0, 0, 0, 0],
  [0, 0, 0, 0, 0, 2, 0, 0, 0, 0, 1, 0, 0, 0, 0, 0, 0, 0, 0, 1, 0, 0, 5, 0, 4, 0, 0, 0, 0, 0, 0, 0, 0, 0, 0, 0,
    0, 0, 0, 0, 0, 0, 0, 0, 0, 0, 0, 0, 0, 0, 0, 0, 0, 0, 0, 0, 0, 0, 0, 0, 0, 0, 0, 0, 0, 0, 0, 0, 3, 3, 0,
    0, 0, 0, 0, 0, 0, 0, 0, 0, 0, 0, 0, 0, 0, 0, 0, 0, 0, 0, 0, 0, 0, 0, 0, 0, 0, 0, 0, 0],
  [0, 0, 0, 0, 0, 2, 0, 0, 0, 0, 1, 0, 0, 0, 0, 0, 0, 0, 0, 1, 0, 0, 5, 0, 4, 0, 0, 0, 0, 0, 0, 0, 0, 0, 0, 0,
    0, 0, 0, 0, 0, 0, 0, 0, 0, 0, 0, 0, 0, 0, 0, 0, 0, 0, 0, 0, 0, 0, 0, 0, 0, 0, 0, 0, 0, 0, 0, 0, 3, 3, 0,
    0, 0, 0, 0, 0, 0, 0, 0, 0, 0, 0, 0, 0, 0, 0, 0, 6, 0, 0, 0, 0, 0, 0, 0, 0, 0, 0, 0, 0],
  [0, 0, 0, 0, 0, 2, 0, 0, 0, 0, 1, 0, 0, 0, 0, 0, 0, 0, 0, 1, 0, 0, 5, 0, 4, 0, 0, 0, 0, 0, 0, 0, 0, 0, 0, 0,
    0, 0, 0, 0, 0, 0, 0, 0, 0, 0, 0, 7, 0, 0, 0, 0, 0, 0, 0, 0, 0, 0, 0, 0, 0, 0, 0, 0, 0, 0, 0, 0, 3, 3, 0,
    0, 0, 0, 0, 0, 0, 0, 0, 0, 0, 0, 0, 0, 0, 0, 0, 6, 0, 0, 0, 0, 0, 0, 0, 0, 0, 0, 0, 0],
  [0, 0, 0, 0, 0, 2, 0, 0, 8, 0, 1, 0, 0, 0, 0, 0, 0, 0, 0, 1, 0, 0, 5, 0, 4, 0, 0, 0, 0, 0, 0, 0, 0, 0, 0, 0,
    0, 0, 0, 0, 0, 0, 0, 0, 0, 0, 0, 7, 0, 0, 0, 0, 0, 0, 0, 0, 0, 0, 0, 0, 0, 0, 0, 0, 0, 0, 0, 0, 3, 3, 0,
    0, 0, 0, 0, 0, 0, 0, 0, 0, 0, 0, 0, 0, 0, 0, 0, 6, 0, 0, 0, 0, 0, 0, 0, 0, 0, 0, 0, 0],
  [0, 0, 0, 0, 0, 2, 0, 0, 8, 0, 1, 0, 0, 0, 0, 0, 0, 0, 0, 1, 0, 0, 5, 0, 4, 0, 0, 0, 0, 0, 0, 0, 0, 0, 0, 9,
    0, 0, 0, 0, 0, 0, 0, 0, 0, 0, 0, 7, 0, 0, 0, 0, 0, 0, 0, 0, 0, 0, 0, 0, 0, 0, 0, 0, 0, 0, 0, 0, 3, 3, 0,
    0, 0, 0, 0, 0, 0, 0, 0, 0, 0, 0, 0, 0, 0, 0, 0, 6, 0, 0, 0, 0, 0, 0, 0, 0, 0, 0, 0, 0],
  [0, 0, 0, 0, 0, 2, 0, 8, 8, 0, 1, 0, 0, 0, 0, 0, 0, 0, 0, 1, 0, 0, 5, 0, 4, 0, 0, 0, 0, 0, 0, 0, 0, 0, 0, 9,
    0, 0, 0, 0, 0, 0, 0, 0, 0, 0, 0, 7, 0, 0, 0, 0, 0, 0, 0, 0, 0, 0, 0, 0, 0, 0, 0, 0, 0, 0, 0, 0, 3, 3, 0,
    0, 0, 0, 0, 0, 0, 0, 0, 0, 0, 0, 0, 0, 0, 0, 0, 6, 0, 0, 0, 0, 0, 0, 0, 0, 0, 0, 0, 0],
  [0, 0, 0, 0, 0, 2, 0, 8, 8, 0, 1, 0, 0, 0, 0, 0, 0, 0, 0, 1, 0, 0, 5, 0, 4, 0, 0, 0, 0, 0, 0, 0, 0, 0, 0, 9,
    0, 0, 0, 0, 0, 0, 0, 0, 0, 0, 0, 7, 0, 0, 0, 0, 0, 0, 0, 0, 0, 0, 0, 0, 0, 0, 0, 0, 0, 0, 10, 0, 3, 3, 0,
    0, 0, 0, 0, 0, 0, 0, 0, 0, 0, 0, 0, 0, 0, 0, 0, 6, 0, 0, 0, 0, 0, 0, 0, 0, 0, 0, 0, 0],
  [0, 0, 0, 0, 0, 2, 0, 8, 8, 0, 1, 0, 0, 0, 0, 0, 0, 0, 0, 1, 0, 0, 5, 0, 4, 0, 0, 0, 0, 0, 0, 0, 0, 0, 0, 9,
    0, 0, 0, 0, 0, 0, 0, 0, 0, 0, 0, 7, 0, 0, 0, 0, 0, 0, 0, 0, 0, 0, 0, 0, 0, 0, 0, 0, 0, 0, 10, 0, 3, 3, 0,
    0, 0, 0, 0, 0, 0, 0, 0, 0, 0, 0, 0, 0, 0, 0, 0, 6, 0, 0, 0, 0, 11, 0, 0, 0, 0, 0, 0, 0],
  [0, 0, 0, 0, 0, 2, 0, 8, 8, 0, 1, 0, 0, 0, 0, 0, 0, 0, 0, 1, 0, 0, 5, 0, 4, 0, 0, 0, 0, 0, 0, 0, 0, 0, 0, 9,
    0, 0, 0, 0, 0, 0, 0, 0, 0, 0, 0, 7, 0, 0, 0, 0, 0, 0, 0, 0, 10, 0, 0, 0, 0, 0, 0, 0, 0, 0, 10, 0, 3, 3, 0,
    0, 0, 0, 0, 0, 0, 0, 0, 0, 0, 0, 0, 0, 0, 0, 0, 6, 0, 0, 0, 0, 11, 0, 0, 0, 0, 0, 0, 0],
  [0, 0, 0, 0, 0, 2, 0, 8, 8, 0, 1, 0, 0, 0, 0, 0, 0, 0, 0, 1, 0, 0, 5, 0, 4, 0, 0, 12, 0, 0, 0, 0, 0, 0, 0,
    9, 0, 0, 0, 0, 0, 0, 0, 0, 0, 0, 0, 7, 0, 0, 0, 0, 0, 0, 0, 0, 10, 0, 0, 0, 0, 0, 0, 0, 0, 0, 10, 0, 3, 3,
    0, 0, 0, 0, 0, 0, 0, 0, 0, 0, 0, 0, 0, 0, 0, 0, 0, 6, 0, 0, 0, 0, 11, 0, 0, 0, 0, 0, 0, 0],
  [0, 0, 0, 0, 0, 2, 0, 8, 8, 0, 1, 0, 0, 0, 0, 0, 0, 0, 0, 1, 0, 0, 5, 0, 4, 0, 0, 12, 0, 0, 0, 0, 0, 0, 0,
    9, 0, 0, 0, 0, 0, 0, 0, 0, 0, 0, 7, 7, 0, 0, 0, 0, 0, 0, 0, 0, 7, 0, 0, 0, 0, 0, 0, 0, 0, 0, 7, 0, 3, 3,
    0, 0, 0, 0, 0, 0, 0, 0, 0, 0, 0, 0, 0, 0, 0, 0, 0, 6, 0, 0, 0, 0, 11, 0, 0, 0, 0, 0, 0, 0],
  [0, 0, 0, 0, 0, 2, 0, 8, 8, 0, 1, 0, 0, 0, 0, 0, 0, 0, 0, 1, 0, 0, 5, 0, 4, 0, 0, 12, 0, 0, 0, 0, 0, 0, 0,
    9, 0, 0, 0, 0, 0, 0, 0, 0, 0, 0, 7, 7, 0, 0, 0, 0, 0, 0, 0, 7, 7, 0, 0, 0, 0, 0, 0, 0, 0, 0, 7, 0, 3, 3,
    0, 0, 0, 0, 0, 0, 0, 0, 0, 0, 0, 0, 0, 0, 0, 0, 0, 6, 0, 0, 0, 0, 11, 0, 0, 0, 0, 0, 0, 0],
  [0, 0, 0, 0, 0, 2, 0, 8, 8, 0, 1, 0, 0, 0, 0, 0, 0, 0, 0, 1, 0, 0, 5, 0, 4, 0, 0, 12, 0, 0, 0, 0, 0, 0, 0,
    9, 0, 0, 0, 0, 0, 0, 0, 0, 0, 0, 7, 7, 0, 0, 0, 0, 0, 0, 0, 7, 7, 0, 0, 0, 0, 0, 0, 0, 0, 0, 7, 0, 3, 3,
    0, 0, 0, 0, 0, 0, 0, 0, 0, 0, 0, 0, 0, 0, 0, 0, 0, 6, 0, 0, 0, 0, 11, 0, 0, 0, 0, 0, 0, 0],
  [0, 0, 0, 0, 0, 2, 0, 8, 8, 0, 1, 0, 0, 0, 0, 0, 0, 0, 0, 1, 0, 0, 5, 0, 4, 0, 0, 7, 0, 0, 0, 0, 0, 0, 0, 9,
    0, 7, 0, 0, 0, 0, 0, 0, 0, 0, 7, 7, 0, 0, 0, 0, 0, 0, 0, 7, 7, 0, 0, 0, 0, 0, 0, 0, 0, 0, 7, 0, 3, 3, 0,
    0, 0, 0, 0, 0, 0, 0, 0, 0, 0, 0, 0, 0, 0, 0, 0, 6, 0, 0, 0, 0, 11, 0, 0, 0, 0, 0, 0, 0],
  [0, 0, 0, 0, 0, 2, 0, 8, 8, 0, 1, 0, 0, 0, 0, 0, 0, 0, 0, 1, 0, 0, 5, 0, 4, 0, 0, 7, 0, 0, 0, 0, 0, 0, 0, 7,
    0, 7, 0, 0, 0, 0, 0, 0, 0, 7, 7, 7, 0, 0, 0, 0, 0, 0, 0, 7, 7, 0, 0, 0, 0, 0, 0, 0, 0, 0, 7, 0, 3, 3, 0,
    0, 0, 0, 0, 0, 0, 0, 0, 0, 0, 0, 0, 0, 0, 0, 0, 6, 0, 0, 0, 0, 11, 0, 0, 0, 0, 0, 0, 0],
  [0, 0, 0, 0, 0, 2, 0, 1, 1, 1, 1, 0, 0, 0, 0, 0, 0, 0, 0, 1, 0, 0, 5, 0, 4, 0, 0, 7, 0, 0, 0, 0, 0, 0, 0, 7,
    0, 7, 0, 0, 0, 0, 0, 0, 0, 7, 7, 7, 0, 0, 0, 0, 0, 0, 0, 7, 7, 0, 0, 0, 0, 0, 0, 0, 0, 0, 7, 0, 3, 3, 0,
    0, 0, 0, 0, 0, 0, 0, 0, 0, 0, 0, 0, 0, 0, 0, 0, 6, 0, 0, 0, 0, 11, 0, 0, 0, 0, 0, 0, 0],
  [0, 0, 0, 0, 0, 2, 0, 1, 1, 1, 1, 0, 0, 0, 0, 0, 0, 0, 0, 1, 0, 0, 5, 0, 4, 0, 0, 7, 0, 0, 0, 0, 0, 0, 0, 7,
    0, 7, 0, 0, 0, 0, 0, 0, 0, 7, 7, 7, 0, 0, 0, 0, 0, 0, 0, 7, 7, 0, 0, 0, 0, 0, 0, 0, 0, 0, 7, 0, 3, 3, 0,
    0, 0, 0, 0, 0, 0, 0, 0, 0, 0, 0, 0, 0, 0, 0, 0, 6, 0, 0, 0, 0, 11, 0, 0, 0, 0, 0, 0, 0],
  [0, 0, 0, 0, 0, 2, 0, 1, 1, 1, 1, 0, 0, 0, 0, 0, 0, 0, 0, 1, 0, 0, 5, 0, 4, 0, 0, 7, 0, 0, 0, 0, 0, 0, 0, 7,
    0, 7, 0, 0, 0, 0, 0, 0, 0, 7, 7, 7, 0, 0, 0, 0, 0, 0, 0, 7, 7, 0, 0, 3, 0, 0, 0, 0, 0, 0, 7, 0, 3, 3, 0,
    0, 0, 0, 0, 0, 0, 0, 0, 0, 0, 0, 0, 0, 0, 0, 0, 6, 0, 0, 0, 0, 11, 0, 0, 0, 0, 0, 0, 0],
  [0, 0, 0, 0, 0, 2, 0, 1, 1, 1, 1, 0, 0, 0, 0, 0, 0, 0, 0, 1, 0, 0, 5, 0, 4, 0, 0, 7, 0, 0, 0, 0, 0, 0, 0, 7,
    0, 7, 0, 0, 0, 0, 0, 0, 0, 7, 7, 7, 0, 0, 0, 0, 0, 0, 0, 7, 7, 0, 3, 3, 0, 0, 0, 0, 0, 0, 7, 0, 3, 3, 0,
    0, 0, 0, 0, 0, 0, 0, 0, 0, 0, 0, 0, 0, 0, 0, 0, 6, 0, 0, 0, 0, 11, 0, 0, 0, 0, 0, 0, 0],
  [0, 0, 0, 0, 0, 2, 0, 1, 1, 1, 1, 0, 0, 0, 0, 0, 0, 0, 0, 1, 0, 0, 5, 0, 4, 0, 0, 3, 0, 0, 0, 0, 0, 0, 0, 3,
    0, 3, 0, 0, 0, 0, 0, 0, 0, 3, 3, 3, 3, 0, 0, 0, 0, 0, 0, 3, 3, 0, 3, 3, 0, 0, 0, 0, 0, 0, 3, 0, 3, 3, 0,
    0, 0, 0, 0, 0, 0, 0, 0, 0, 0, 0, 0, 0, 0, 0, 0, 6, 0, 0, 0, 0, 11, 0, 0, 0, 0, 0, 0, 0],
  [0, 0, 0, 0, 0, 2, 0, 1, 1, 1, 1, 0, 0, 0, 0, 0, 0, 0, 0, 1, 0, 0, 5, 0, 4, 0, 0, 3, 0, 0, 0, 0, 0, 0, 0, 3,
    0, 3, 0, 0, 0, 0, 0, 0, 0, 3, 3, 3, 3, 0, 0, 0, 0, 0, 0, 3, 3, 0, 3, 3, 0, 0, 0, 0, 0, 0, 3, 3, 3, 3, 0,
    0, 0, 0, 0, 0, 0, 0, 0, 0, 0, 0, 0, 0, 0, 0, 0, 6, 0, 0, 0, 0, 11, 0, 0, 0, 0, 0, 0, 0],
  [0, 0, 0, 0, 0, 2, 0, 1, 1, 1, 1, 0, 0, 0, 0, 0, 0, 0, 0, 1, 0, 0, 5, 0, 4, 0, 0, 3, 0, 0, 0, 0, 0, 0, 0, 3,
    3, 3, 0, 0, 0, 0, 0, 0, 0, 3, 3, 3, 3, 0, 0, 0, 0, 0, 0, 3, 3, 0, 3, 3, 0, 0, 0, 0, 0, 0, 3, 3, 3, 3, 0,
    0, 0, 0, 0, 0, 0, 0, 0, 0, 0, 0, 0, 0, 0, 0, 0, 6, 0, 0, 0, 0, 11, 0, 0, 0, 0, 0, 0, 0],
  [0, 0, 0, 0, 0, 2, 0, 1, 1, 1, 1, 0, 0, 0, 0, 0, 0, 0, 0, 1, 0, 0, 5, 0, 4, 0, 3, 3, 0, 0, 0, 0, 0, 0, 0, 3,
    3, 3, 0, 0, 0, 0, 0, 0, 0, 3, 3, 3, 3, 0, 0, 0, 0, 0, 0, 3, 3, 0, 3, 3, 0, 0, 0, 0, 0, 0, 3, 3, 3, 3, 0,
    0, 0, 0, 0, 0, 0, 0, 0, 0, 0, 0, 0, 0, 0, 0, 0, 6, 0, 0, 0, 0, 11, 0, 0, 0, 0, 0, 0, 0],
  [0, 0, 0, 0, 0, 2, 0, 1, 1, 1, 1, 0, 0, 0, 0, 0, 0, 0, 0, 1, 0, 0, 5, 0, 4, 0, 3, 3, 0, 0, 0, 0, 0, 0, 0, 3,
    3, 3, 0, 0, 0, 0, 0, 0, 0, 3, 3, 3, 3, 0, 0, 0, 0, 0, 0, 3, 3, 0, 3, 3, 0, 0, 0, 0, 0, 0, 3, 3, 3, 3, 0,
    0, 0, 0, 0, 0, 0, 0, 0, 0, 0, 0, 0, 0, 0, 0, 0, 1, 0, 0, 0, 0, 11, 0, 0, 0, 0, 1, 0, 0],
  [0, 0, 0, 0, 0, 2, 0, 1, 1, 1, 1, 0, 0, 0, 0, 0, 0, 0, 0, 1, 0, 0, 5, 0, 4, 0, 3, 3, 0, 0, 0, 0, 0, 0, 0, 3,
    3, 3, 3, 0, 0, 0, 0, 0, 0, 3, 3, 3, 3, 0, 0, 0, 0, 0, 0, 3, 3, 0, 3, 3, 0, 0, 0, 0, 0, 0, 3, 3, 3, 3, 0,
    0, 0, 0, 0, 0, 0, 0, 0, 0, 0, 0, 0, 0, 0, 0, 0, 1, 0, 0, 0, 0, 11, 0, 0, 0, 0, 1, 0, 0],
  [0, 0, 0, 0, 0, 2, 0, 1, 1, 1, 1, 0, 0, 0, 0, 0, 0, 1, 0, 1, 0, 0, 5, 0, 4, 0, 1, 1, 0, 0, 0, 0, 0, 0, 0, 1,
    1, 1, 1, 0, 0, 0, 0, 0, 0, 1, 1, 1, 1, 0, 0, 0, 0, 0, 0, 1, 1, 0, 1, 1, 0, 0, 0, 0, 0, 0, 1, 1, 1, 1, 0,
    0, 0, 0, 0, 0, 0, 0, 0, 0, 0, 0, 0, 0, 0, 0, 0, 1, 0, 0, 0, 0, 11, 0, 0, 0, 0, 1, 0, 0],
  [0, 0, 0, 0, 0, 2, 0, 1, 1, 1, 1, 0, 0, 0, 0, 0, 0, 1, 0, 1, 0, 0, 5, 0, 4, 0, 1, 1, 0, 0, 0, 0, 0, 0, 0, 1,
    1, 1, 1, 0, 0, 0, 0, 0, 0, 1, 1, 1, 1, 0, 0, 0, 0, 0, 0, 1, 1, 0, 1, 1, 0, 0, 0, 0, 0, 0, 1, 1, 1, 1, 0,
    0, 0, 0, 0, 0, 0, 0, 0, 0, 0, 0, 0, 0, 0, 0, 0, 1, 0, 0, 0, 0, 11, 0, 0, 0, 0, 1, 1, 0],
  [0, 0, 0, 0, 0, 2, 0, 1, 1, 1, 1, 0, 0, 0, 0, 0, 0, 1, 0, 1, 0, 0, 5, 0, 4, 0, 1, 1, 0, 0, 0, 0, 0, 0, 0, 1,
    1, 1, 1, 0, 0, 0, 0, 0, 0, 1, 1, 1, 1, 1, 0, 0, 0, 0, 0, 1, 1, 0, 1, 1, 0, 0, 0, 0, 0, 0, 1, 1, 1, 1, 0,
    0, 0, 0, 0, 0, 0, 0, 0, 0, 0, 0, 0, 0, 0, 0, 0, 1, 0, 0, 0, 0, 11, 0, 0, 0, 0, 1, 1, 0],
  [0, 0, 0, 0, 0, 2, 0, 1, 1, 1, 1, 0, 5, 0, 0, 0, 0, 1, 0, 1, 0, 0, 5, 0, 4, 0, 1, 1, 0, 0, 0, 0, 0, 0, 0, 1,
    1, 1, 1, 0, 0, 0, 0, 0, 0, 1, 1, 1, 1, 1, 0, 0, 0, 0, 0, 1, 1, 0, 1, 1, 0, 0, 0, 0, 0, 0, 1, 1, 1, 1, 0,
    0, 0, 0, 0, 0, 0, 0, 0, 0, 0, 0, 0, 0, 0, 0, 0, 1, 0, 0, 0, 0, 11, 0, 0, 0, 0, 1, 1, 0],
  [0, 0, 0, 0, 0, 2, 0, 1, 1, 1, 1, 0, 5, 0, 0, 0, 0, 1, 0, 1, 0, 0, 5, 0, 4, 0, 1, 1, 0, 0, 0, 0, 0, 0, 0, 1,
    1, 1, 1, 0, 0, 0, 0, 0, 0, 1, 1, 1, 1, 1, 0, 0, 0, 0, 0, 1, 1, 0, 1, 1, 0, 0, 0, 0, 0, 0, 1, 1, 1, 1, 0,
    0, 0, 0, 0, 0, 0, 0, 0, 0, 0, 0, 0, 0, 0, 0, 0, 1, 0, 0, 0, 0, 11, 0, 0, 0, 0, 1, 1, 1],
  [0, 0, 0, 0, 0, 2, 0, 1, 1, 1, 1, 0, 5, 0, 0, 0, 0, 1, 0, 1, 0, 0, 5, 0, 4, 0, 1, 1, 0, 0, 0, 0, 0, 0, 0, 1,
    1, 1, 1, 0, 0, 0, 0, 0, 0, 1, 1, 1, 1, 1, 0, 0, 0, 0, 0, 1, 1, 0, 1, 1, 0, 0, 0, 0, 0, 0, 1, 1, 1, 1, 0,
    0, 0, 0, 0, 0, 0, 0, 0, 0, 0, 0, 0, 0, 0, 0, 0, 1, 0, 0, 0, 0, 11, 0, 0, 0, 0, 1, 1, 1],
  [0, 0, 0, 0, 0, 1, 1, 1, 1, 1, 1, 0, 5, 0, 0, 0, 0, 1, 0, 1, 0, 0, 5, 0, 4, 0, 1, 1, 0, 0, 0, 0, 0, 0, 0, 1,
    1, 1, 1, 0, 0, 0, 0, 0, 0, 1, 1, 1, 1, 1, 0, 0, 0, 0, 0, 1, 1, 0, 1, 1, 0, 0, 0, 0, 0, 0, 1, 1, 1, 1, 0,
    0, 0, 0, 0, 0, 0, 0, 0, 0, 0, 0, 0, 0, 0, 0, 0, 1, 0, 0, 0, 0, 11, 0, 0, 0, 0, 1, 1, 1],
  [0, 0, 5, 0, 0, 1, 1, 1, 1, 1, 1, 0, 5, 0, 0, 0, 0, 1, 0, 1, 0, 0, 5, 0, 4, 0, 1, 1, 0, 0, 0, 0, 0, 0, 0, 1,
    1, 1, 1, 0, 0, 0, 0, 0, 0, 1, 1, 1, 1, 1, 0, 0, 0, 0, 0, 1, 1, 0, 1, 1, 0, 0, 0, 0, 0, 0, 1, 1, 1, 1, 0,
    0, 0, 0, 0, 0, 0, 0, 0, 0, 0, 0, 0, 0, 0, 0, 0, 1, 0, 0, 0, 0, 5, 0, 0, 0, 0, 1, 1, 1],
  [0, 0, 5, 0, 0, 1, 1, 1, 1, 1, 1, 0, 5, 0, 0, 0, 0, 1, 0, 1, 0, 0, 5, 0, 4, 0, 1, 1, 0, 0, 0, 0, 0, 0, 0, 1,
    1, 1, 1, 0, 0, 0, 0, 0, 0, 1, 1, 1, 1, 1, 0, 0, 0, 0, 0, 1, 1, 0, 1, 1, 0, 0, 0, 0, 0, 0, 1, 1, 1, 1, 0,
    0, 0, 0, 0, 0, 0, 0, 0, 0, 0, 0, 0, 0, 0, 0, 0, 1, 0, 0, 0, 0, 5, 0, 13, 0, 0, 1, 1, 1],
  [0, 0, 5, 0, 0, 1, 1, 1, 1, 1, 1, 0, 5, 0, 0, 0, 0, 1, 0, 1, 0, 0, 5, 0, 4, 0, 1, 1, 0, 0, 0, 0, 0, 0, 0, 1,
    1, 1, 1, 0, 0, 0, 0, 0, 0, 1, 1, 1, 1, 1, 0, 0, 0, 0, 0, 1, 1, 1, 1, 1, 0, 0, 0, 0, 0, 0, 1, 1, 1, 1, 0,
    0, 0, 0, 0, 0, 0, 0, 0, 0, 0, 0, 0, 0, 0, 0, 0, 1, 0, 0, 0, 0, 5, 0, 13, 0, 0, 1, 1, 1],
  [0, 0, 5, 5, 0, 1, 1, 1, 1, 1, 1, 0, 5, 0, 0, 0, 0, 1, 0, 1, 0, 0, 5, 0, 4, 0, 1, 1, 0, 0, 0, 0, 0, 0, 0, 1,
    1, 1, 1, 0, 0, 0, 0, 0, 0, 1, 1, 1, 1, 1, 0, 0, 0, 0, 0, 1, 1, 1, 1, 1, 0, 0, 0, 0, 0, 0, 1, 1, 1, 1, 0,
    0, 0, 0, 0, 0, 0, 0, 0, 0, 0, 0, 0, 0, 0, 0, 0, 1, 0, 0, 0, 0, 5, 0, 13, 0, 0, 1, 1, 1],
  [0, 0, 5, 5, 0, 1, 1, 1, 1, 1, 1, 0, 5, 0, 0, 0, 1, 1, 0, 1, 0, 0, 5, 0, 4, 0, 1, 1, 0, 0, 0, 0, 0, 0, 0, 1,
    1, 1, 1, 0, 0, 0, 0, 0, 0, 1, 1, 1, 1, 1, 0, 0, 0, 0, 0, 1, 1, 1, 1, 1, 0, 0, 0, 0, 0, 0, 1, 1, 1, 1, 0,
    0, 0, 0, 0, 0, 0, 0, 0, 0, 0, 0, 0, 0, 0, 0, 0, 1, 0, 0, 0, 0, 5, 0, 13, 0, 0, 1, 1, 1],
  [1, 0, 5, 5, 0, 1, 1, 1, 1, 1, 1, 0, 5, 0, 0, 0, 1, 1, 0, 1, 0, 0, 5, 0, 4, 0, 1, 1, 0, 0, 0, 0, 0, 0, 0, 1,
    1, 1, 1, 0, 0, 0, 0, 0, 0, 1, 1, 1, 1, 1, 0, 0, 0, 0, 0, 1, 1, 1, 1, 1, 0, 0, 0, 0, 0, 0, 1, 1, 1, 1, 0,
    0, 0, 0, 0, 0, 0, 0, 0, 0, 0, 0, 0, 0, 0, 0, 0, 1, 0, 0, 0, 0, 5, 0, 13, 0, 0, 1, 1, 1],
  [1, 0, 5, 5, 0, 1, 1, 1, 1, 1, 1, 0, 5, 0, 0, 0, 1, 1, 1, 1, 0, 0, 5, 0, 4, 0, 1, 1, 0, 0, 0, 0, 0, 0, 0, 1,
    1, 1, 1, 0, 0, 0, 0, 0, 0, 1, 1, 1, 1, 1, 0, 0, 0, 0, 0, 1, 1, 1, 1, 1, 0, 0, 0, 0, 0, 0, 1, 1, 1, 1, 0,
    0, 0, 0, 0, 0, 0, 0, 0, 0, 0, 0, 0, 0, 0, 0, 0, 1, 0, 0, 0, 0, 5, 0, 13, 0, 0, 1, 1, 1],
  [1, 1, 1, 1, 0, 1, 1, 1, 1, 1, 1, 0, 1, 0, 0, 0, 1, 1, 1, 1, 0, 0, 1, 0, 4, 0, 1, 1, 0, 0, 0, 0, 0, 0, 0, 1,
    1, 1, 1, 0, 0, 0, 0, 0, 0, 1, 1, 1, 1, 1, 0, 0, 0, 0, 0, 1, 1, 1, 1, 1, 0, 0, 0, 0, 0, 0, 1, 1, 1, 1, 0,
    0, 0, 0, 0, 0, 0, 0, 0, 0, 0, 0, 0, 0, 0, 0, 0, 1, 0, 0, 0, 0, 1, 0, 13, 0, 0, 1, 1, 1],
  [1, 1, 1, 1, 0, 1, 1, 1, 1, 1, 1, 0, 1, 0, 0, 0, 1, 1, 1, 1, 0, 0, 1, 0, 1, 1, 1, 1, 0, 0, 0, 0, 0, 0, 0, 1,
    1, 1, 1, 0, 0, 0, 0, 0, 0, 1, 1, 1, 1, 1, 0, 0, 0, 0, 0, 1, 1, 1, 1, 1, 0, 0, 0, 0, 0, 0, 1, 1, 1, 1, 0,
    0, 0, 0, 0, 0, 0, 0, 0, 0, 0, 0, 0, 0, 0, 0, 0, 1, 0, 0, 0, 0, 1, 0, 13, 0, 0, 1, 1, 1],
  [1, 1, 1, 1, 0, 1, 1, 1, 1, 1, 1, 0, 1, 0, 0, 0, 1, 1, 1, 1, 0, 0, 1, 0, 1, 1, 1, 1, 0, 0, 0, 0, 0, 0, 0, 1,
    1, 1, 1, 0, 0, 0, 0, 0, 0, 1, 1, 1, 1, 1, 0, 0, 0, 0, 0, 1, 1, 1, 1, 1, 0, 0, 0, 0, 14, 0, 1, 1, 1, 1, 0,
    0, 0, 0, 0, 0, 0, 0, 0, 0, 0, 0, 0, 0, 0, 0, 0, 1, 0, 0, 0, 0, 1, 0, 13, 0, 0, 1, 1, 1],
  [1, 1, 1, 1, 0, 1, 1, 1, 1, 1, 1, 0, 1, 0, 0, 0, 1, 1, 1, 1, 0, 0, 1, 0, 1, 1, 1, 1, 0, 0, 0, 0, 0, 0, 0, 1,
    1, 1, 1, 0, 0, 0, 0, 0, 0, 1, 1, 1, 1, 1, 0, 0, 0, 0, 0, 1, 1, 1, 1, 1, 0, 0, 0, 0, 14, 0, 1, 1, 1, 1, 0,
    0, 0, 0, 0, 0, 0, 0, 0, 0, 0, 0, 0, 0, 0, 0, 0, 1, 0, 0, 0, 1, 1, 0, 13, 0, 0, 1, 1, 1],
  [1, 1, 1, 1, 1, 1, 1, 1, 1, 1, 1, 0, 1, 0, 0, 0, 1, 1, 1, 1, 0, 0, 1, 0, 1, 1, 1, 1, 0, 0, 0, 0, 0, 0, 0, 1,
    1, 1, 1, 0, 0, 0, 0, 0, 0, 1, 1, 1, 1, 1, 0, 0, 0, 0, 0, 1, 1, 1, 1, 1, 0, 0, 0, 0, 14, 0, 1, 1, 1, 1, 0,
    0, 0, 0, 0, 0, 0, 0, 0, 0, 0, 0, 0, 0, 0, 0, 0, 1, 0, 0, 0, 1, 1, 0, 1, 0, 0, 1, 1, 1],
  [1, 1, 1, 1, 1, 1, 1, 1, 1, 1, 1, 0, 1, 1, 0, 0, 1, 1, 1, 1, 0, 0, 1, 0, 1, 1, 1, 1, 0, 0, 0, 0, 0, 0, 0, 1,
    1, 1, 1, 0, 0, 0, 0, 0, 0, 1, 1, 1, 1, 1, 0, 0, 0, 0, 0, 1, 1, 1, 1, 1, 0, 0, 0, 0, 14, 0, 1, 1, 1, 1, 0,
    0, 0, 0, 0, 0, 0, 0, 0, 0, 0, 0, 0, 0, 0, 0, 0, 1, 0, 0, 0, 1, 1, 0, 1, 0, 0, 1, 1, 1],
  [1, 1, 1, 1, 1, 1, 1, 1, 1, 1, 1, 0, 1, 1, 0, 0, 1, 1, 1, 1, 0, 0, 1, 0, 1, 1, 1, 1, 0, 0, 0, 0, 0, 0, 0, 1,
    1, 1, 1, 0, 0, 0, 0, 0, 0, 1, 1, 1, 1, 1, 0, 0, 0, 0, 0, 1, 1, 1, 1, 1, 0, 0, 0, 0, 14, 0, 1, 1, 1, 1, 0,
    0, 0, 0, 0, 0, 0, 0, 0, 0, 0, 0, 0, 0, 1, 0, 0, 1, 0, 0, 0, 1, 1, 0, 1, 0, 0, 1, 1, 1],
  [1, 1, 1, 1, 1, 1, 1, 1, 1, 1, 1, 0, 1, 1, 0, 0, 1, 1, 1, 1, 0, 0, 1, 0, 1, 1, 1, 1, 0, 0, 0, 0, 0, 0, 0, 1,
    1, 1, 1, 0, 0, 0, 0, 0, 1, 1, 1, 1, 1, 1, 0, 0, 0, 0, 0, 1, 1, 1, 1, 1, 0, 0, 0, 0, 14, 0, 1, 1, 1, 1, 0,
    0, 0, 0, 0, 0, 0, 0, 0, 0, 0, 0, 0, 0, 1, 0, 0, 1, 0, 0, 0, 1, 1, 0, 1, 0, 0, 1, 1, 1],
  [1, 1, 1, 1, 1, 1, 1, 1, 1, 1, 1, 0, 1, 1, 0, 0, 1, 1, 1, 1, 0, 0, 1, 0, 1, 1, 1, 1, 0, 0, 0, 0, 0, 0, 0, 1,
    1, 1, 1, 0, 0, 0, 0, 0, 1, 1, 1, 1, 1, 1, 0, 0, 0, 0, 0, 1, 1, 1, 1, 1, 0, 0, 0, 0, 1, 1, 1, 1, 1, 1, 0,
    0, 0, 0, 0, 0, 0, 0, 0, 0, 0, 0, 0, 0, 1, 0, 0, 1, 0, 0, 0, 1, 1, 0, 1, 0, 0, 1, 1, 1]]

/-- The pixels in groups, and the number of pixels up to the end of the group. -/
def groups (steps : Nat) : List (List Int × Nat) :=
  (List.range (bug.length / steps + 1)).map fun i =>
    (bug.extract (min (i * steps) bug.length) (min ((i + 1) * steps) bug.length), min ((i + 1) * steps) bug.length)

/-- The loop of `test_bug_a`. -/
def bugRun (steps : Nat) : Bool :=
  match points [10, 10] ((groups steps).map Prod.fst) with
  | ok r => decide (r = (groups steps).map fun g => bugLabels.getD (g.2 - 1) [])
  | _ => false

/-- `test_bug_a` -/
example : ∀ steps ∈ [3, 53], bugRun steps = true := by decide +kernel

/-! ### `tests/test_historic.py` -/

/-- `test_pixel_path` -/
example : Path.path (0 : ℚ) 20 [0, 0] [-6, 3] Path.Mode.bresenham = ok [[0, 0], [-1, 1], [-2, 1], [-3, 2], [-4, 2],
      [-5, 3], [-6, 3]] ∧
    Path.path (0 : ℚ) 20 [0, 0] [-6, 3] Path.Mode.actual =
      ok [[0, 0], [-1, 0], [-1, 1], [-2, 1], [-3, 1], [-3, 2], [-4, 2], [-5, 2], [-5, 3], [-6, 3]] ∧
    Path.path (0 : ℚ) 20 [0, 0] [-6, 3] Path.Mode.full =
      ok [[0, 0], [-1, 0], [-1, 1], [-2, 1], [-3, 1], [-3, 2], [-4, 2], [-5, 2], [-5, 3], [-6, 3]] ∧
    ∀ m ∈ [Path.Mode.bresenham, Path.Mode.full, Path.Mode.actual],
      Path.path (0 : ℚ) 20 [0, 0] [0, 2] m = ok [[0, 0], [0, 1], [0, 2]] := by decide +kernel

/-! ### `docs/examples`: what the code has left in `*.h5` -/

/-- The loop of `docs/examples/pixel_path.py`: the pixels of the paths in an image. -/
def drawLoop (m : Path.Mode) : List (Int × List Int) → List Int → Option (List Int)
  | [], img => some img
  | (i, x) :: l, img =>
    match Path.path (0 : ℚ) 40 [0, 0] x m with
    | ok p => drawLoop m l (p.foldl (fun img y => img.set ((y.getD 0 0 + 9) * 19 + (y.getD 1 0 + 9)).toNat i) img)
    | _ => none

/-- The same. -/
def drawn (m : Path.Mode) : Option (List Int) :=
  drawLoop m [(1, [9, 2]), (2, [-3, 9]), (3, [-8, 9]), (4, [-9, 0]), (5, [-9, -3]), (6, [-2, -9]), (7, [9, -2])]
    (List.replicate 361 0)

/-- `pixel_path.h5`, `Bresenham` -/
example : drawn Path.Mode.bresenham = some [0, 0, 0, 0, 0, 0, 5, 0, 0, 4, 0, 0, 0, 0, 0, 0, 0, 0, 0, 0, 0, 0, 0, 0,
      0, 5, 0, 0, 4, 0, 0, 0, 0, 0, 0, 0, 0, 3, 0, 0, 0, 0, 0, 0, 0, 5, 0, 4, 0, 0, 0, 0, 0, 0, 0, 3, 0, 0, 0, 0, 0,
      0, 0, 0, 5, 0, 4, 0, 0, 0, 0, 0, 0, 3, 0, 0, 0, 0, 0, 0, 0, 0, 0, 5, 0, 4, 0, 0, 0, 0, 0, 3, 0, 0, 0, 0, 0, 0,
      0, 0, 0, 0, 0, 5, 4, 0, 0, 0, 3, 3, 0, 0, 0, 0, 0, 0, 0, 0, 0, 0, 0, 0, 5, 4, 0, 0, 3, 0, 0, 0, 0, 2, 2, 6, 6,
      6, 0, 0, 0, 0, 0, 5, 4, 0, 3, 0, 0, 2, 2, 2, 0, 0, 0, 0, 0, 6, 6, 6, 6, 0, 0, 5, 3, 2, 2, 2, 0, 0, 0, 0, 0, 0,
      0, 0, 0, 0, 0, 0, 6, 6, 7, 2, 0, 0, 0, 0, 0, 0, 0, 0, 0, 0, 0, 0, 0, 0, 0, 0, 0, 7, 0, 0, 0, 0, 0, 0, 0, 0, 0,
      0, 0, 0, 0, 0, 0, 0, 0, 0, 7, 0, 0, 0, 0, 0, 0, 0, 0, 0, 0, 0, 0, 0, 0, 0, 0, 0, 7, 0, 1, 0, 0, 0, 0, 0, 0, 0,
      0, 0, 0, 0, 0, 0, 0, 0, 0, 7, 0, 1, 0, 0, 0, 0, 0, 0, 0, 0, 0, 0, 0, 0, 0, 0, 0, 0, 7, 0, 1, 0, 0, 0, 0, 0, 0,
      0, 0, 0, 0, 0, 0, 0, 0, 0, 0, 7, 0, 1, 0, 0, 0, 0, 0, 0, 0, 0, 0, 0, 0, 0, 0, 0, 0, 7, 0, 0, 0, 1, 0, 0, 0, 0,
      0, 0, 0, 0, 0, 0, 0, 0, 0, 0, 7, 0, 0, 0, 1, 0, 0, 0, 0, 0, 0, 0, 0, 0, 0, 0, 0, 0, 0, 7, 0, 0, 0, 1, 0, 0, 0,
      0, 0, 0, 0] := by decide +kernel

/-- `pixel_path.h5`, `actual` -/
example : drawn Path.Mode.actual = some [0, 0, 0, 0, 0, 0, 5, 0, 0, 4, 0, 0, 0, 0, 0, 0, 0, 0, 0, 0, 0, 0, 0, 0, 0,
      5, 0, 0, 4, 0, 0, 0, 0, 0, 0, 0, 3, 3, 0, 0, 0, 0, 0, 0, 0, 5, 0, 4, 0, 0, 0, 0, 0, 0, 3, 3, 0, 0, 0, 0, 0, 0,
      0, 0, 5, 0, 4, 0, 0, 0, 0, 0, 3, 3, 0, 0, 0, 0, 0, 0, 0, 0, 0, 5, 0, 4, 0, 0, 0, 0, 3, 3, 0, 0, 0, 0, 0, 0, 0,
      0, 0, 0, 0, 5, 4, 0, 0, 0, 3, 3, 0, 0, 0, 0, 0, 0, 0, 0, 0, 0, 0, 0, 5, 4, 0, 0, 3, 3, 0, 0, 0, 2, 2, 6, 6, 6,
      0, 0, 0, 0, 0, 5, 4, 0, 3, 3, 0, 2, 2, 2, 0, 0, 0, 0, 6, 6, 6, 6, 6, 6, 0, 5, 3, 3, 2, 2, 0, 0, 0, 0, 0, 0, 0,
      0, 0, 0, 0, 0, 6, 6, 7, 3, 0, 0, 0, 0, 0, 0, 0, 0, 0, 0, 0, 0, 0, 0, 0, 0, 0, 7, 0, 0, 0, 0, 0, 0, 0, 0, 0, 0,
      0, 0, 0, 0, 0, 0, 0, 7, 7, 1, 0, 0, 0, 0, 0, 0, 0, 0, 0, 0, 0, 0, 0, 0, 0, 0, 7, 0, 1, 0, 0, 0, 0, 0, 0, 0, 0,
      0, 0, 0, 0, 0, 0, 0, 0, 7, 0, 1, 0, 0, 0, 0, 0, 0, 0, 0, 0, 0, 0, 0, 0, 0, 0, 0, 7, 0, 1, 0, 0, 0, 0, 0, 0, 0,
      0, 0, 0, 0, 0, 0, 0, 0, 0, 7, 0, 1, 0, 0, 0, 0, 0, 0, 0, 0, 0, 0, 0, 0, 0, 0, 0, 7, 7, 0, 1, 1, 0, 0, 0, 0, 0,
      0, 0, 0, 0, 0, 0, 0, 0, 0, 7, 0, 0, 0, 1, 0, 0, 0, 0, 0, 0, 0, 0, 0, 0, 0, 0, 0, 0, 7, 0, 0, 0, 1, 0, 0, 0, 0,
      0, 0, 0] := by decide +kernel

/-- `pixel_path.h5`, `full` -/
example : drawn Path.Mode.full = some [0, 0, 0, 0, 0, 0, 5, 0, 0, 4, 0, 0, 0, 0, 0, 0, 0, 0, 0, 0, 0, 0, 0, 0, 0, 5,
      5, 0, 4, 0, 0, 0, 0, 0, 0, 0, 3, 3, 0, 0, 0, 0, 0, 0, 0, 5, 0, 4, 0, 0, 0, 0, 0, 0, 3, 3, 0, 0, 0, 0, 0, 0, 0,
      0, 5, 0, 4, 0, 0, 0, 0, 0, 3, 3, 0, 0, 0, 0, 0, 0, 0, 0, 0, 5, 5, 4, 0, 0, 0, 0, 3, 3, 0, 0, 0, 0, 0, 0, 0, 0,
      0, 0, 0, 5, 4, 0, 0, 0, 3, 3, 0, 0, 0, 0, 0, 0, 0, 0, 0, 0, 0, 0, 5, 4, 0, 0, 3, 3, 0, 0, 2, 2, 2, 6, 6, 6, 0,
      0, 0, 0, 0, 5, 5, 0, 3, 3, 2, 2, 2, 2, 0, 0, 0, 0, 6, 6, 6, 6, 6, 6, 0, 5, 3, 3, 2, 2, 0, 0, 0, 0, 0, 0, 0, 0,
      0, 0, 0, 0, 6, 6, 7, 3, 0, 0, 0, 0, 0, 0, 0, 0, 0, 0, 0, 0, 0, 0, 0, 0, 0, 7, 0, 0, 0, 0, 0, 0, 0, 0, 0, 0, 0,
      0, 0, 0, 0, 0, 0, 7, 7, 1, 0, 0, 0, 0, 0, 0, 0, 0, 0, 0, 0, 0, 0, 0, 0, 0, 7, 0, 1, 0, 0, 0, 0, 0, 0, 0, 0, 0,
      0, 0, 0, 0, 0, 0, 0, 7, 0, 1, 0, 0, 0, 0, 0, 0, 0, 0, 0, 0, 0, 0, 0, 0, 0, 0, 7, 0, 1, 0, 0, 0, 0, 0, 0, 0, 0,
      0, 0, 0, 0, 0, 0, 0, 0, 7, 0, 1, 0, 0, 0, 0, 0, 0, 0, 0, 0, 0, 0, 0, 0, 0, 0, 7, 7, 0, 1, 1, 0, 0, 0, 0, 0, 0,
      0, 0, 0, 0, 0, 0, 0, 0, 7, 0, 0, 0, 1, 0, 0, 0, 0, 0, 0, 0, 0, 0, 0, 0, 0, 0, 0, 7, 0, 0, 0, 1, 0, 0, 0, 0, 0,
      0, 0] := by decide +kernel

end Verif.RepoTests
