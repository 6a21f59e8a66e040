import Verif.Model.PythonCluster
import Verif.Lemmas.Python
import Verif.Props.Kernel

/-! # The labeller and `clusters` in Python (C80) -/

namespace Verif.Props

open Verif Outcome Spec Python

variable {dbg dbg' periodic : Bool} {f : Arr}

/-- The labels of the image: create a labeller of the shape of the image, add the image, prune, get the labels. -/
def labelInPython (dbg : Bool) (f : Arr) (periodic : Bool) : Outcome (List Int) := do
  let s ← clusterLabeller f.shape periodic
  let s ← Python.addImage dbg s f
  let s ← Cluster.prune s
  ok (Python.labels s)

theorem toInt32_int {n : Int} (h1 : -2147483648 ≤ n) (h2 : n < 2147483648) : toInt32 (n : ℚ) = n := by
  unfold toInt32
  rw [trunc_int]
  omega

theorem toInt64_int {n : Int} (h1 : -9223372036854775808 ≤ n) (h2 : n < 9223372036854775808) :
    toInt64 (n : ℚ) = n := by
  unfold toInt64
  rw [trunc_int]
  omega

theorem construct_shape {s : Cluster.State} {shape : List Nat} (h : Cluster.construct periodic shape = ok s) :
    s.shape = shape := by
  unfold Cluster.construct at h
  cases hd : Kernel.defaultDx shape.length with
  | ok dx =>
    rw [hd] at h
    cases h
    rfl
  | _ => rw [hd] at h; cases h

/-- The factory gives the labeller of the rank and the periodicity that are asked for. -/
theorem clusterLabeller_eq (shape : List Nat) : clusterLabeller shape periodic =
    if shape.length = 1 ∨ shape.length = 2 ∨ shape.length = 3 then Cluster.construct periodic shape else throws := by
  unfold clusterLabeller
  have e : (if periodic = true then Cluster.construct true shape else Cluster.construct false shape) =
      Cluster.construct periodic shape := by
    cases periodic <;> rfl
  rw [e]
  by_cases h1 : shape.length = 1
  · rw [if_pos h1, if_pos (Or.inl h1)]
  · by_cases h2 : shape.length = 2
    · rw [if_neg h1, if_pos h2, if_pos (Or.inr (Or.inl h2))]
    · by_cases h3 : shape.length = 3
      · rw [if_neg h1, if_neg h2, if_pos h3, if_pos (Or.inr (Or.inr h3))]
      · rw [if_neg h1, if_neg h2, if_neg h3, if_neg (by tauto)]

/-- In Python the labeller labels the image as converted to `int`. -/
theorem label_eq : labelInPython dbg f periodic = Cluster.clusters dbg f.shape (f.values.map toInt32) periodic := by
  unfold labelInPython Cluster.clusters
  rw [clusterLabeller_eq]
  split
  · cases hs : Cluster.construct periodic f.shape with
    | ok s =>
      have := construct_shape hs
      show (Python.addImage dbg s f).bind _ = (Cluster.addImage dbg s f.shape _).bind _
      unfold Python.addImage
      rw [if_pos (by rw [this])]
      rfl
    | _ => rfl
  · rfl

/-- For images of whole numbers that fit in `int`, the labeller and `clusters` give the clusters of the image, of
whatever type the array is, and also agree on which ranks are refused. *Missing:* other values, see
`C80_violated`. -/
theorem C80_whole_partial {v : List Int} (hv : f.values = v.map (Int.cast : Int → ℚ))
    (hr : ∀ n ∈ v, -2147483648 ≤ n ∧ n < 2147483648) :
    labelInPython dbg f periodic = Cluster.clusters dbg f.shape v periodic ∧
    Python.clusters dbg f periodic = Cluster.clusters dbg f.shape v periodic := by
  have h1 : f.values.map toInt32 = v := by
    rw [hv, List.map_map]
    conv_rhs => rw [← List.map_id v]
    exact List.map_congr_left fun n hn => toInt32_int (hr n hn).1 (hr n hn).2
  have h2 : f.values.map toInt64 = v := by
    rw [hv, List.map_map]
    conv_rhs => rw [← List.map_id v]
    refine List.map_congr_left fun n hn => toInt64_int ?_ ?_ <;> have := hr n hn <;> omega
  rw [label_eq, h1]
  unfold Python.clusters
  rw [h2]
  exact ⟨rfl, rfl⟩

example : (Arr.mk .bool [2, 2] [1, 0, 0, 1]).values = ([1, 0, 0, 1] : List Int).map (Int.cast : Int → ℚ) := by
  simp

/-- Pixels in the clusters, whatever the values: those of which the integer part is not zero, for `clusters`
modulo 2^64, for the labeller modulo 2^32. -/
theorem C80_background (hn : 1 ≤ f.shape.length) (hn' : f.shape.length ≤ 3) (hsmall : f.shape.prod < 2 ^ 62)
    (hf : f.values.length = f.shape.prod) {L L' : List Int} (e : labelInPython dbg f periodic = ok L)
    (e' : Python.clusters dbg' f periodic = ok L') {p : Nat} (hp : p < f.shape.prod) :
    (L.getD p 0 = 0 ↔ (4294967296 : Int) ∣ trunc (f.values.getD p 0)) ∧
    (L'.getD p 0 = 0 ↔ (18446744073709551616 : Int) ∣ trunc (f.values.getD p 0)) := by
  rw [label_eq] at e
  unfold Python.clusters at e'
  obtain ⟨L0, e0, hl0, b0, -⟩ := C03_clusters dbg periodic hn hn' hsmall
    (f := f.values.map toInt32) (by rw [List.length_map, hf])
  obtain ⟨L1, e1, hl1, b1, -⟩ := C03_clusters dbg' periodic hn hn' hsmall
    (f := f.values.map toInt64) (by rw [List.length_map, hf])
  rw [e] at e0
  rw [e'] at e1
  obtain rfl := Outcome.ok.inj e0
  obtain rfl := Outcome.ok.inj e1
  have hp' : p < f.values.length := by omega
  have hd : ∀ g : ℚ → Int, (f.values.map g).getD p 0 = g (f.values.getD p 0) := by
    intro g
    simp [List.getD_eq_getElem?_getD, List.getElem?_eq_getElem hp']
  rw [b0 p hp, b1 p hp, hd, hd]
  unfold toInt32 toInt64
  omega

example : (Arr.mk .int64 [2, 2] [4294967296, 0, 0, -5]).values.length = [2, 2].prod ∧
    (4294967296 : Int) ∣ trunc 4294967296 ∧ ¬ (4294967296 : Int) ∣ trunc (-5) := by decide +kernel

/-- The claim is false in general. A pixel of value 2^32 is background for the labeller, not for `clusters`; a pixel
of value 1/2 is background for both. -/
theorem C80_violated :
    labelInPython true ⟨.int64, [2], [4294967296, 0]⟩ true = ok [0, 0] ∧
    Python.clusters true ⟨.int64, [2], [4294967296, 0]⟩ true = ok [1, 0] ∧
    labelInPython true ⟨.float64, [2], [1 / 2, 1]⟩ false = ok [0, 1] ∧
    Python.clusters true ⟨.float64, [2], [1 / 2, 1]⟩ false = ok [0, 1] := by
  refine ⟨?_, ?_, ?_, ?_⟩ <;> decide +kernel

/-- The factory refuses other ranks, as `clusters` does. -/
theorem C80_rank (h : f.shape.length = 0 ∨ 3 < f.shape.length) :
    clusterLabeller f.shape periodic = throws ∧ Python.clusters dbg f periodic = throws := by
  have : ¬ (f.shape.length = 1 ∨ f.shape.length = 2 ∨ f.shape.length = 3) := by omega
  refine ⟨?_, ?_⟩
  · rw [clusterLabeller_eq, if_neg this]
  · unfold Python.clusters Cluster.clusters
    rw [if_neg this]

example : 3 < (Arr.mk .int32 [1, 2, 1, 2] [0, 1, 1, 0]).shape.length := by decide

end Verif.Props
