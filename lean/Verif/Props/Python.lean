import Verif.Lemmas.Python

/-!
# C77: the Python functions and the types of their arrays

From Python, a statistic is that of the values that are passed, whatever the types of the arrays (true for whole numbers
and for images of type `float64`, false in general).
-/

namespace Verif.Props

open Verif Outcome Python

variable (pow05 : ℚ → ℚ) (dbg : Bool) (junk : ℚ) (fuel : Nat) (roi : List Nat) (mode : Path.Mode) (periodic : Bool)

/-- C77: images of whole numbers (binary images, labels, masks) of any type: the functions give the statistics of the
values. -/
theorem C77_whole_partial {f g fmask gmask : Arr} (hf : f.Whole) (hg : g.Whole) (hfm : fmask.Whole) (hgm : gmask.Whole) :
    Python.S2 pow05 dbg roi periodic [f, g] = Api.S2 pow05 dbg roi f.nd g.nd periodic ∧
    Python.S2 pow05 dbg roi periodic [f, g, fmask, gmask]
      = Api.S2Mask pow05 dbg roi f.nd g.nd (ints fmask.nd) (ints gmask.nd) periodic ∧
    Python.C2 pow05 dbg roi periodic [f, g] = Api.C2 pow05 dbg roi f.nd g.nd periodic ∧
    Python.C2 pow05 dbg roi periodic [f, g, fmask, gmask]
      = Api.C2Mask pow05 dbg roi f.nd g.nd (ints fmask.nd) (ints gmask.nd) periodic ∧
    Python.W2 pow05 dbg roi periodic [f, g] = Api.W2 pow05 dbg roi f.nd g.nd periodic ∧
    Python.W2 pow05 dbg roi periodic [f, g, fmask] = Api.W2Mask pow05 dbg roi f.nd g.nd (ints fmask.nd) periodic ∧
    Python.heightheight pow05 dbg roi periodic [f] = Api.heightheight pow05 dbg roi f.nd periodic ∧
    Python.heightheight pow05 dbg roi periodic [f, fmask]
      = Api.heightheightMask pow05 dbg roi f.nd (ints fmask.nd) periodic ∧
    Python.L pow05 dbg junk fuel roi mode periodic [f] = Api.L pow05 dbg junk fuel roi f.nd periodic mode := by
  refine ⟨?_, ?_, ?_, ?_, ?_, ?_, ?_, ?_, ?_⟩ <;>
  · refine dispatch_call (by simp) ?_
    simp [load_whole hf, load_whole hg, load_whole hfm, load_whole hgm]
    try rfl

/-- A binary image of type `bool`, an image of type `int64`, a mask of type `float64`: all of whole numbers. -/
example : (Arr.mk .bool [2, 2] [0, 1, 1, 0]).Whole ∧ (Arr.mk .int64 [2, 2] [3, -1, 2, 0]).Whole ∧
    (Arr.mk .float64 [2, 2] [0, 0, 1, 0]).Whole := by
  refine ⟨?_, ?_, ?_⟩ <;>
  · intro x hx
    simp only [List.mem_cons, List.not_mem_nil, or_false] at hx
    refine ⟨x.num, ?_⟩
    rcases hx with rfl | rfl | rfl | rfl <;> decide +kernel

/-- C77: `W2c`, for labels and centres of whole numbers of any type, and an image of whole numbers of any type. -/
theorem C77_W2c_whole_partial {clusters centers f fmask : Arr} (hcl : clusters.Whole) (hce : centers.Whole) (hf : f.Whole)
    (hfm : fmask.Whole) :
    Python.W2c pow05 dbg junk fuel roi mode periodic [clusters, centers, f]
      = Api.W2c pow05 dbg junk fuel roi (ints clusters.nd) (ints centers.nd) f.nd mode periodic ∧
    Python.W2c pow05 dbg junk fuel roi mode periodic [clusters, centers, f, fmask]
      = Api.W2cMask pow05 dbg junk fuel roi (ints clusters.nd) (ints centers.nd) f.nd (ints fmask.nd) mode periodic := by
  refine ⟨?_, ?_⟩ <;>
  · refine dispatch_call (by simp) ?_
    simp [load_whole hf, load_whole hcl, load_whole hce, load_whole hfm]
    try rfl

/-- C77: images of type `float64` of arbitrary values. -/
theorem C77_float64_partial {f g : Arr} (hf : f.dtype = .float64) (hg : g.dtype = .float64) :
    Python.S2 pow05 dbg roi periodic [f, g] = Api.S2 pow05 dbg roi f.nd g.nd periodic ∧
    Python.W2 pow05 dbg roi periodic [f, g] = Api.W2 pow05 dbg roi f.nd g.nd periodic := by
  rw [← load_double f, ← load_double g]
  obtain ⟨d, s, v⟩ := f
  obtain ⟨d', s', v'⟩ := g
  subst hf hg
  exact ⟨rfl, rfl⟩

/-- C77: images of any type and of arbitrary values, in the functions that have no overload for integers: with masks (of
whole numbers of any type), and `heightheight`. -/
theorem C77_masked {f g fmask gmask clusters centers : Arr} (hfm : fmask.Whole) (hgm : gmask.Whole)
    (hcl : clusters.Whole) (hce : centers.Whole) :
    Python.S2 pow05 dbg roi periodic [f, g, fmask, gmask]
      = Api.S2Mask pow05 dbg roi f.nd g.nd (ints fmask.nd) (ints gmask.nd) periodic ∧
    Python.W2 pow05 dbg roi periodic [f, g, fmask] = Api.W2Mask pow05 dbg roi f.nd g.nd (ints fmask.nd) periodic ∧
    Python.W2c pow05 dbg junk fuel roi mode periodic [clusters, centers, f, fmask]
      = Api.W2cMask pow05 dbg junk fuel roi (ints clusters.nd) (ints centers.nd) f.nd (ints fmask.nd) mode periodic ∧
    Python.heightheight pow05 dbg roi periodic [f] = Api.heightheight pow05 dbg roi f.nd periodic ∧
    Python.heightheight pow05 dbg roi periodic [f, fmask]
      = Api.heightheightMask pow05 dbg roi f.nd (ints fmask.nd) periodic := by
  refine ⟨?_, ?_, ?_, ?_, ?_⟩ <;>
  · refine dispatch_call (by simp) ?_
    simp [load_double, load_whole hfm, load_whole hgm, load_whole hcl, load_whole hce]
    try rfl

/-- C77: `W2c` with an image of type `float64` of arbitrary values needs labels and centres of type `int32` (as returned by
`clusters` and `labels_centers_of_mass`, say). -/
theorem C77_W2c_float64_partial {clusters centers f : Arr} (hcl : clusters.Whole) (hce : centers.Whole)
    (h1 : clusters.dtype = .int32) (h2 : centers.dtype = .int32) (hf : f.dtype = .float64) :
    Python.W2c pow05 dbg junk fuel roi mode periodic [clusters, centers, f]
      = Api.W2c pow05 dbg junk fuel roi (ints clusters.nd) (ints centers.nd) f.nd mode periodic := by
  rw [← load_double f, ← load_int hcl, ← load_int hce]
  obtain ⟨d, s, v⟩ := f
  obtain ⟨d', s', v'⟩ := clusters
  obtain ⟨d'', s'', v''⟩ := centers
  subst h1 h2 hf
  rfl

/-- C77: all pairs of types other than `float64`, `float64`: the unmasked functions use the integer parts of the values.
So a `float64` image together with weights of another type is truncated. -/
theorem C77_truncated {f g : Arr} (h : ¬ (f.dtype = .float64 ∧ g.dtype = .float64)) :
    Python.S2 pow05 dbg roi periodic [f, g] = Api.S2 pow05 dbg roi (Elem.int.load f) (Elem.int.load g) periodic ∧
    Python.W2 pow05 dbg roi periodic [f, g] = Api.W2 pow05 dbg roi (Elem.int.load f) (Elem.int.load g) periodic := by
  obtain ⟨d, s, v⟩ := f
  obtain ⟨d', s', v'⟩ := g
  refine ⟨?_, ?_⟩ <;> cases d <;> cases d' <;>
    first
    | exact absurd ⟨rfl, rfl⟩ h
    | rfl

/-- A `float32` image of two halves, and a `float64` image of the same values. -/
def halves (d : Dtype) : Arr := ⟨d, [2], [1 / 2, 1 / 2]⟩

/-- Two weights of one, of type `int32`. -/
def onesInt : Arr := ⟨.int32, [2], [1, 1]⟩

/-- C77 is false in general: the autocorrelation of a `float32` image of halves is 0, that of the same values in a
`float64` image is 1/4; the average of a `float64` image of halves with integer weights is 0, not 1/2. (The root `pow05` plays no role
in these statistics.) -/
theorem C77_violated :
    (Python.S2 id true [1] true [halves .float32, halves .float32]).map (fun r => r.get 0) = ok 0 ∧
    (Python.S2 id true [1] true [halves .float64, halves .float64]).map (fun r => r.get 0) = ok (1 / 4) ∧
    (Python.W2 id true [1] true [onesInt, halves .float64]).map (fun r => r.get 0) = ok 0 ∧
    (Api.W2 id true [1] onesInt.nd (halves .float64).nd true).map (fun r => r.get 0) = ok (1 / 2) := by
  refine ⟨?_, ?_, ?_, ?_⟩ <;> decide +kernel

/-- Masks of type `bool` with images of halves of type `float64`; images of halves of type `float32`. -/
example : (Arr.mk .bool [2] [0, 1]).Whole ∧ (halves .float64).dtype = .float64 ∧
    ¬ ((halves .float32).dtype = .float64 ∧ (halves .float64).dtype = .float64) := by
  refine ⟨?_, rfl, by decide⟩
  intro x hx
  simp only [List.mem_cons, List.not_mem_nil, or_false] at hx
  refine ⟨x.num, ?_⟩
  rcases hx with rfl | rfl <;> decide +kernel

end Verif.Props
