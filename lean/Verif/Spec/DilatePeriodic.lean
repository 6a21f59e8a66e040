import Verif.Spec.Dilate

/-!
# What dilate computes with periodicity

Independent of the model. The image has margins as wide as the kernel, in which labels grow as in the image. The labels of
the margins are not those of the image: after each layer labels are copied from the margins to the image, never back.
-/

namespace Verif.Spec

/-- `z` moved by `s` along axis `a`. -/
def along (z : List Int) (a : Nat) (s : Int) : List Int := z.set a (z.getD a 0 + s)

/-- The labels in the margin of `width` beyond the last pixel along axis `a` (of size `n`) are copied to the first pixels. -/
def fromAbove (n width a : Nat) (labels : List Int → Int) (z : List Int) : Int :=
  if 0 ≤ z.getD a 0 ∧ z.getD a 0 < width ∧ labels (along z a n) ≠ 0 then labels (along z a n) else labels z

/-- The labels in the margin of `width` before the first pixel along axis `a` (of size `n`) are copied to the last pixels. -/
def fromBelow (n width a : Nat) (labels : List Int → Int) (z : List Int) : Int :=
  if n - width ≤ z.getD a 0 ∧ z.getD a 0 < n ∧ labels (along z a (-n)) ≠ 0 then labels (along z a (-n)) else labels z

/-- Both, for all axes: first from above, axis by axis, then from below. The margins are those of the kernel. -/
def exchange (shape kernel : List Nat) (labels : List Int → Int) : List Int → Int :=
  let above := (List.range shape.length).foldl
    (fun l a => fromAbove (shape.getD a 0) (kernel.getD a 0 / 2) a l) labels
  (List.range shape.length).foldl (fun l a => fromBelow (shape.getD a 0) ((kernel.getD a 0 - 1) / 2) a l) above

/-- `T` layers, from the periodic image; label `l` grows in the first `iterations l` of them. -/
def layersPeriodic (shape : List Nat) (kernel : Nd Int) (iterations : Int → Nat) (labels : List Int → Int) :
    Nat → List Int → Int
  | 0 => fun z => labels (wrap shape z)
  | T + 1 => exchange shape kernel.shape (spread shape kernel (fun l => decide (T < iterations l))
      (layersPeriodic shape kernel iterations labels T))

end Verif.Spec
