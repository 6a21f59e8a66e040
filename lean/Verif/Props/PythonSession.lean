import Verif.Model.PythonLabels
import Verif.Props.PythonCluster
import Verif.Props.Cluster
import Verif.Props.Labels

/-! # Sessions with a labeller, and the functions on labels, in Python (C95, C96) -/

namespace Verif.Props

open Verif Outcome Spec Python Cluster

variable {periodic : Bool} {shape : List Nat} {offsets : List (List Int)}

/-! ### Arrays of whole numbers -/

/-- The array holds these whole numbers (its type does not matter). -/
def Holds (a : Arr) (v : List Int) : Prop := a.values = v.map (Int.cast : Int → ℚ)

/-- A call of Python with the arguments of a call: an image of the shape of the labeller with values that fit in
32 bits, or a one-dimensional array of points. -/
inductive Passes (shape : List Nat) : Method → Call → Prop
  | addImage {a : Arr} {v : List Int} : a.shape = shape → Holds a v → (∀ n ∈ v, -2147483648 ≤ n ∧ n < 2147483648) →
      Passes shape (.addImage a) (.addImage v)
  | addPoints {a : Arr} {p : List Nat} : a.shape.length = 1 → Holds a (p.map fun i : Nat => (i : Int)) →
      Passes shape (.addPoints a) (.addPoints p)
  | addSequence {a : Arr} {p : List Nat} : a.shape.length = 1 → Holds a (p.map fun i : Nat => (i : Int)) →
      Passes shape (.addSequence a) (.addSequence p)
  | prune : Passes shape .prune .prune
  | reset : Passes shape .reset .reset

theorem holds_int32 {a : Arr} {v : List Int} (h : Holds a v) (hr : ∀ n ∈ v, -2147483648 ≤ n ∧ n < 2147483648) :
    a.values.map toInt32 = v := by
  rw [h, List.map_map]
  conv_rhs => rw [← List.map_id v]
  exact List.map_congr_left fun n hn => toInt32_int (hr n hn).1 (hr n hn).2

theorem holds_int64 {a : Arr} {v : List Int} (h : Holds a v)
    (hr : ∀ n ∈ v, -9223372036854775808 ≤ n ∧ n < 9223372036854775808) : a.values.map toInt64 = v := by
  rw [h, List.map_map]
  conv_rhs => rw [← List.map_id v]
  exact List.map_congr_left fun n hn => toInt64_int (hr n hn).1 (hr n hn).2

theorem holds_usize {a : Arr} {v : List Int} (h : Holds a v)
    (hr : ∀ n ∈ v, 0 ≤ n ∧ n < 18446744073709551616) : a.values.map toUsize = v := by
  rw [h, List.map_map]
  conv_rhs => rw [← List.map_id v]
  refine List.map_congr_left fun n hn => ?_
  have := hr n hn
  simp only [Function.comp_apply, toUsize, trunc_int, id]
  omega

/-! ### C95: sessions -/

/-- One call in Python does what the call does in C++. -/
theorem call_eq (dbg : Bool) (hv : ValidConfig periodic shape offsets) {hist : List Nat} {s : State} {n : Naive}
    (g : Good periodic shape offsets hist s n) {m : Method} {c : Call} (h : Passes shape m c)
    (hc : c.Valid shape.prod) : m.call dbg s = stepCall dbg s c := by
  have hsm := hv.small
  have big : ∀ p : List Nat, (∀ i ∈ p, i < shape.prod) →
      ∀ k ∈ p.map (fun i : Nat => (i : Int)), 0 ≤ k ∧ k < 18446744073709551616 := by
    intro p hp k hk
    obtain ⟨i, hi, rfl⟩ := List.mem_map.1 hk
    have := hp i hi
    omega
  cases h with
  | addImage h1 h2 h3 =>
    show (Python.addImage dbg s _).bind _ = (Cluster.addImage dbg s s.shape _).bind _
    unfold Python.addImage
    rw [if_pos (by rw [h1, g.sh]), holds_int32 h2 h3, h1, g.sh]
  | addPoints h1 h2 =>
    show (Python.addPoints dbg s _).bind _ = (Cluster.addPoints dbg s _).bind _
    unfold Python.addPoints
    rw [if_pos h1, holds_usize h2 (big _ hc)]
  | addSequence h1 h2 =>
    show Python.addSequence dbg s _ = Cluster.addSequence dbg s _
    unfold Python.addSequence
    rw [if_pos h1, holds_usize h2 (big _ hc.2)]
  | prune => rfl
  | reset => rfl

theorem session_eq (dbg : Bool) (hv : ValidConfig periodic shape offsets) :
    ∀ {ms : List Method} {calls : List Call} {hist : List Nat} {s : State} {n : Naive},
      Good periodic shape offsets hist s n → List.Forall₂ (Passes shape) ms calls →
      (∀ c ∈ calls, c.Valid shape.prod) → session dbg s ms = run dbg s calls
  | [], [], _, _, _, _, _, _ => rfl
  | m :: ms, c :: calls, hist, s, n, g, .cons h hs, hc => by
    obtain ⟨s1, ret, e1, g1⟩ := step_ok dbg hv g (hc c (by simp))
    have e2 := session_eq dbg hv g1 hs fun c' h' => hc c' (by simp [h'])
    show (m.call dbg s).bind _ = (stepCall dbg s c).bind _
    rw [call_eq dbg hv g h (hc c (by simp)), e1]
    show (session dbg s1 ms).bind _ = (run dbg s1 calls).bind _
    rw [e2]

/-- A session with a labeller in Python ends in the same state, with the same returned values, as the session in
C++, of whatever types the arrays of images and points are. -/
theorem C95_session (dbg : Bool) (hv : ValidConfig periodic shape offsets) {ms : List Method} {calls : List Call}
    (h : List.Forall₂ (Passes shape) ms calls) (hc : ∀ c ∈ calls, c.Valid shape.prod) :
    session dbg (init periodic shape offsets) ms = run dbg (init periodic shape offsets) calls :=
  session_eq dbg hv (good_init hv) h hc

/-- Points of type `float`, image of type `bool`. -/
example : List.Forall₂ (Passes [2, 2])
    [.addImage ⟨.bool, [2, 2], [1, 0, 0, 0]⟩, .addPoints ⟨.float64, [2], [3, 0]⟩, .prune]
    [.addImage [1, 0, 0, 0], .addPoints [3, 0], .prune] ∧
    ∀ c ∈ [Call.addImage [1, 0, 0, 0], .addPoints [3, 0], .prune], c.Valid [2, 2].prod := by
  refine ⟨.cons (.addImage rfl (by simp [Holds]) (by decide)) (.cons (.addPoints rfl (by simp [Holds]))
    (.cons .prune .nil)), ?_⟩
  intro c hc
  fin_cases hc
  · simp [Call.Valid]
  · simp [Call.Valid]
  · trivial

/-- With assertions, after every session: negative and too large points are refused (a negative point is not an
index from the end), as are points of another dimension and images of another shape. -/
theorem C95_rejected (hv : ValidConfig periodic shape offsets) {ms : List Method} {calls : List Call}
    (h : List.Forall₂ (Passes shape) ms calls) (hc : ∀ c ∈ calls, c.Valid shape.prod) {s : State}
    {rets : List (List Nat)} (hs : session true (init periodic shape offsets) ms = ok (s, rets)) (a : Arr) :
    (∀ v, Holds a v → (∃ p ∈ v, -2 ^ 63 ≤ p ∧ p < 2 ^ 63 ∧ ¬ (0 ≤ p ∧ p < shape.prod)) →
      Python.addPoints true s a = throws ∧ Python.addSequence true s a = throws) ∧
    (a.shape.length ≠ 1 → Python.addPoints true s a = throws ∧ Python.addSequence true s a = throws) ∧
    (a.shape ≠ shape → Python.addImage true s a = throws) := by
  rw [C95_session true hv h hc] at hs
  refine ⟨fun v hv' ⟨p, hp, h1, h2, h3⟩ => ?_, fun hl => ?_, fun hsh => ?_⟩
  · have hsm := hv.small
    have hmem : toUsize (p : ℚ) ∈ a.values.map toUsize := by
      rw [hv', List.map_map]
      exact List.mem_map.2 ⟨p, hp, rfl⟩
    obtain ⟨s', rets', n, e, g⟩ := run_ok true hv calls (good_init hv) hc
    rw [hs] at e
    cases e
    have hsz : s.label.size = shape.prod := by
      have hwf := g.rest.mid.wf
      rw [g.size] at hwf
      exact hwf.lsz
    have hl : legalPoints s (a.values.map toUsize) = false := by
      unfold legalPoints
      rw [Bool.not_eq_false', List.any_eq_true]
      refine ⟨_, hmem, ?_⟩
      rw [decide_eq_true_eq, hsz]
      unfold toSize toUsize
      rw [trunc_int]
      omega
    unfold Python.addPoints Python.addSequence
    constructor
    · split
      · simp [Cluster.addPoints, hl]
      · rfl
    · split
      · simp [Cluster.addSequence, hl]
      · rfl
  · unfold Python.addPoints Python.addSequence
    rw [if_neg hl, if_neg hl]
    exact ⟨rfl, rfl⟩
  · unfold Python.addImage
    split
    · exact (C57_rejected (points := []) hv hc hs).2.2 hsh
    · rfl

/-- -1 is refused in a labeller of shape (2, 2). -/
example : Holds ⟨.int64, [1], [-1]⟩ [-1] ∧ ∃ p ∈ [(-1 : Int)], -2 ^ 63 ≤ p ∧ p < 2 ^ 63 ∧
    ¬ (0 ≤ p ∧ p < ([2, 2] : List Nat).prod) := by
  refine ⟨by simp [Holds], by decide⟩

/-- A labeller with a kernel is that of C++; a kernel of another rank is refused. -/
theorem C95_kernel (dbg : Bool) (kernel : Arr) {v : List Int} (h : Holds kernel v)
    (hr : ∀ n ∈ v, -2147483648 ≤ n ∧ n < 2147483648) : labellerKernel dbg shape kernel periodic =
      if kernel.shape.length = shape.length then constructKernel dbg periodic shape ⟨kernel.shape, v⟩ else throws := by
  unfold labellerKernel
  rw [holds_int32 h hr]

example : Holds ⟨.bool, [3], [1, 1, 1]⟩ [1, 1, 1] := by simp [Holds]

/-- After every session `shape` is the shape of the labeller. -/
theorem C95_shape_partial (dbg : Bool) (hv : ValidConfig periodic shape offsets) {ms : List Method}
    {calls : List Call} (h : List.Forall₂ (Passes shape) ms calls) (hc : ∀ c ∈ calls, c.Valid shape.prod) {s : State}
    {rets : List (List Nat)} (hs : session dbg (init periodic shape offsets) ms = ok (s, rets)) :
    shapeAttr s = .list (shape.map fun n : Nat => (n : Int)) := by
  rw [C95_session dbg hv h hc] at hs
  obtain ⟨s', rets', n, e, g⟩ := run_ok dbg hv calls (good_init hv) hc
  rw [hs] at e
  cases e
  unfold shapeAttr
  rw [g.sh]

/-- `size` is never the number of pixels: it is the shape. -/
theorem C95_violated (s : State) : sizeAttr s ≠ .number s.label.size ∧ sizeAttr s = shapeAttr s :=
  ⟨by simp [sizeAttr], rfl⟩

/-! ### C96: the functions on labels -/

/-- The numbers fit in 64 bits. -/
def Word (v : List Int) : Prop := ∀ n ∈ v, -9223372036854775808 ≤ n ∧ n < 9223372036854775808

instance (v : List Int) : Decidable (Word v) := by unfold Word; infer_instance

/-- The functions on labels give the same as in C++, of whatever type the arrays are, if they hold whole numbers that
fit in 64 bits. -/
theorem C96_labels_partial (dbg : Bool) {labels other : Arr} {v w : List Int} (h : Holds labels v) (hr : Word v)
    (h' : Holds other w) (hr' : Word w) :
    Python.labelsMap labels other = Labels.labelsMap v w ∧
    Python.labelsPrune dbg labels = Labels.labelsPrune dbg v ∧
    Python.labelsSizes labels = Labels.labelsSizes v ∧
    (other.shape.length = 1 → Python.labelsReorder dbg labels other = Labels.labelsReorder dbg v w) ∧
    (other.shape.length = 1 → Python.labelsSizesNames labels other = ok (Labels.labelsSizesNames v w)) := by
  unfold Python.labelsMap Python.labelsPrune Python.labelsSizes Python.labelsReorder Python.labelsSizesNames
  rw [holds_int64 h hr, holds_int64 h' hr']
  exact ⟨rfl, rfl, rfl, fun hl => by rw [if_neg (by omega)], fun hl => by rw [if_neg (by omega)]⟩

theorem rows2_flat (r : List (Int × Int)) : rows2 (r.flatMap fun p => [p.1, p.2]) = r := by
  induction r with
  | nil => rfl
  | cons p r ih => simpa [rows2] using ih

/-- The same for `labels_rename`, with a table of two columns. -/
theorem C96_rename_partial (dbg : Bool) {labels table : Arr} {v : List Int} {r : List (Int × Int)}
    (h : Holds labels v) (hr : Word v) (hs : table.shape = [r.length, 2])
    (h' : Holds table (r.flatMap fun p => [p.1, p.2])) (hr' : Word (r.flatMap fun p => [p.1, p.2])) :
    Python.labelsRename dbg labels table = Labels.labelsRename dbg v r := by
  unfold Python.labelsRename
  rw [holds_int64 h hr, holds_int64 h' hr', hs, rows2_flat]
  simp

/-- A table of another rank, or (with assertions) of another number of columns, is refused; and so are an order or
names of another rank. -/
theorem C96_rejected (labels other : Arr) :
    (other.shape.length ≠ 2 ∨ other.shape.getD 1 0 ≠ 2 → Python.labelsRename true labels other = throws) ∧
    (other.shape.length ≠ 1 → Python.labelsReorder true labels other = throws ∧
      Python.labelsSizesNames labels other = throws) := by
  refine ⟨fun h => ?_, fun h => ?_⟩
  · unfold Python.labelsRename
    by_cases h2 : other.shape.length = 2
    · rw [if_neg (by omega), if_neg (by tauto), if_pos rfl]
    · rw [if_pos h2]
  · unfold Python.labelsReorder Python.labelsSizesNames
    rw [if_pos h, if_pos h]
    exact ⟨rfl, rfl⟩

example : Holds ⟨.float64, [2, 2], [0, 3, 3, 5]⟩ [0, 3, 3, 5] ∧ Word [0, 3, 3, 5] ∧
    Holds ⟨.int32, [3, 2], [0, 0, 3, 1, 5, 2]⟩ ([(0, 0), (3, 1), (5, 2)].flatMap fun p => [p.1, p.2]) := by
  refine ⟨by simp [Holds], by decide, by simp [Holds]⟩

/-- Labels that are not whole are truncated: 1/2 counts as background, and 3/2 and 1 as the same label. -/
theorem C96_violated : Python.labelsPrune true ⟨.float64, [3], [1 / 2, 1, 3 / 2]⟩ = ok [0, 1, 1] ∧
    Python.labelsSizes ⟨.float64, [3], [1 / 2, 1, 3 / 2]⟩ = [(0, 1), (1, 2)] := by
  constructor <;> decide +kernel

end Verif.Props
