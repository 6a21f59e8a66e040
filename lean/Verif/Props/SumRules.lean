import Verif.Props.RawData
import Mathlib.Algebra.BigOperators.Group.Finset.Basic
import Mathlib.Tactic.Ring
import Mathlib.Tactic.FieldSimp

/-!
# Sum rules of the correlations of a periodic image (C85)

The region of interest has the shape of the image, so that each displacement, modulo the image, occurs
once.
-/

set_option linter.unusedSectionVars false

namespace Verif.Props

open Verif Outcome Spec Ens Cluster

variable {K : Type} [Field K] [LinearOrder K] [IsStrictOrderedRing K]

/-- The sum of the values of an image. -/
def sumOf (f : Nd K) : K := ((pixels f.shape).map (val f)).sum

/-- The values of an image. -/
def values (f : Nd K) : List K := (pixels f.shape).map (val f)

theorem fits_self (periodic : Bool) (shape : List Nat) : Fits periodic shape shape := by
  intro _
  induction shape with
  | nil => exact .nil
  | cons n s ih => exact .cons (Nat.div_le_self _ _) ih

theorem legal_self {periodic : Bool} {shape : List Nat} (hr : shape.length ≤ 3) (h0 : 0 ∉ shape) :
    Legal periodic shape shape := ⟨hr, h0, rfl, fits_self _ _⟩

theorem move_displacement : ∀ {shape : List Nat} {x i : List Int}, x.length = shape.length →
    i.length = shape.length → move x (displacement shape i) = move i (displacement shape x)
  | [], [], [], _, _ => rfl
  | n :: s, a :: x, b :: i, h1, h2 => by
    have ih := move_displacement (shape := s) (x := x) (i := i) (by simpa using h1) (by simpa using h2)
    simp only [move, displacement, List.zipWith_cons_cons, List.cons.injEq] at ih ⊢
    exact ⟨by omega, ih⟩

/-- From a pixel every pixel is reached by one of the displacements. -/
theorem sum_displacements {shape : List Nat} {x : List Int} (hx : InBox shape x) (φ : List Int → K) :
    ((pixels shape).map fun i => φ (wrap shape (move x (displacement shape i)))).sum =
      ((pixels shape).map φ).sum := by
  have e := inbox_length hx
  rw [← sum_shift (d := displacement shape x) (displacement_length e) φ]
  refine congrArg List.sum (List.map_congr_left fun i hi => ?_)
  rw [move_displacement e (inbox_length (mem_pixels.1 hi))]

theorem sum_comm' {α β : Type} (l : List α) (l' : List β) (φ : α → β → K) :
    (l.map fun a => (l'.map fun b => φ a b).sum).sum = (l'.map fun b => (l.map fun a => φ a b).sum).sum := by
  induction l with
  | nil => simp
  | cons a l ih => simp only [List.map_cons, List.sum_cons, ih, List.sum_map_add]

theorem sum_div' {α : Type} (l : List α) (φ : α → K) (c : K) :
    (l.map fun a => φ a / c).sum = (l.map φ).sum / c := by
  induction l with
  | nil => simp
  | cons a l ih => simp only [List.map_cons, List.sum_cons, ih, add_div]

theorem sum_mul_left' {α : Type} (l : List α) (φ : α → K) (c : K) :
    (l.map fun a => c * φ a).sum = c * (l.map φ).sum := by
  induction l with
  | nil => simp
  | cons a l ih => simp only [List.map_cons, List.sum_cons, ih, mul_add]

theorem sum_mul_right' {α : Type} (l : List α) (φ : α → K) (c : K) :
    (l.map fun a => φ a * c).sum = (l.map φ).sum * c := by
  induction l with
  | nil => simp
  | cons a l ih => simp only [List.map_cons, List.sum_cons, ih, add_mul]

/-- The averages over the pairs at each displacement add up to the average over the pixels of the sum over
all pixels. -/
theorem sum_averages {shape : List Nat} (φ : List Int → List Int → K) :
    ((pixels shape).map fun i => average (pairs true shape (fun _ _ => True) (displacement shape i)) φ).sum =
      ((pixels shape).map fun x => ((pixels shape).map fun y => φ x y).sum).sum / (shape.prod : K) := by
  rw [List.map_congr_left fun i hi => average_periodic
    (displacement_length (inbox_length (mem_pixels.1 hi))) (fun _ _ => trivial) φ, sum_div', sum_comm']
  congr 2
  exact List.map_congr_left fun x hx => sum_displacements (mem_pixels.1 hx) (φ x)

theorem total_wrapped {shape : List Nat} {d : List Int} (hd : d.length = shape.length)
    (φ : List Int → List Int → K) : total (pairs true shape (fun _ _ => True) d) φ =
      ((pixels shape).map fun x => φ x (wrap shape (move x d))).sum := by
  rw [total_pairs]
  refine congrArg List.sum (List.map_congr_left fun x hx => ?_)
  rw [if_pos ⟨target_mem (mem_pixels.1 hx) hd, trivial⟩]
  rfl

variable {f g : Nd K}

/-- **C85** The two-point correlation of periodic images adds up to the product of the sums of the images
over the number of pixels: no correlation is lost or counted twice. -/
theorem C85_S2 (hr : f.shape.length ≤ 3) (h0 : 0 ∉ f.shape) (hg : g.shape = f.shape) (pow05 : K → K)
    (dbg : Bool) :
    ∃ r, Api.S2 pow05 dbg f.shape f g true = ok r ∧ r.shape = f.shape ∧
      sumOf r = sumOf f * sumOf g / (f.shape.prod : K) := by
  obtain ⟨r, h1, h2, h3⟩ := C34_unmasked (legal_self (periodic := true) hr h0) hg pow05 dbg
  refine ⟨r, h1, h2, ?_⟩
  unfold sumOf
  rw [h2, List.map_congr_left fun i hi => h3 i (mem_pixels.1 hi), sum_averages, hg]
  congr 1
  rw [← sum_mul_right']
  exact congrArg List.sum (List.map_congr_left fun x _ => sum_mul_left' _ _ _)

/-- **C85** The cluster correlation of periodic images adds up to the sum over the nonzero labels of the
product of the numbers of pixels with that label, over the number of pixels. -/
theorem C85_C2 (hr : f.shape.length ≤ 3) (h0 : 0 ∉ f.shape) (hg : g.shape = f.shape) (pow05 : K → K)
    (dbg : Bool) :
    ∃ r, Api.C2 pow05 dbg f.shape f g true = ok r ∧ r.shape = f.shape ∧
      sumOf r = (∑ v ∈ (values f).toFinset.filter (· ≠ 0),
        ((values f).count v : K) * ((values g).count v : K)) / (f.shape.prod : K) := by
  obtain ⟨r, h1, h2, h3⟩ := C38_unmasked (legal_self (periodic := true) hr h0) hg pow05 dbg
  refine ⟨r, h1, h2, ?_⟩
  rw [sumOf, h2, List.map_congr_left fun i hi => h3 i (mem_pixels.1 hi), sum_averages]
  congr 1
  have e : ∀ v : K, ((pixels f.shape).map fun y => if v ≠ 0 ∧ v = val g y then (1 : K) else 0).sum =
      if v ≠ 0 then ((values g).count v : K) else 0 := by
    intro v
    unfold values
    rw [hg]
    generalize pixels f.shape = l
    induction l with
    | nil => simp
    | cons y l ih =>
      rw [List.map_cons, List.sum_cons, ih, List.map_cons, List.count_cons]
      by_cases hv : v = 0
      · simp [hv]
      · by_cases hy : v = val g y
        · simp [← hy, hv, add_comm]
        · simp [hv, hy, Ne.symm hy]
  rw [show (fun x => ((pixels f.shape).map fun y => if val f x ≠ 0 ∧ val f x = val g y then (1 : K) else 0).sum) =
    (fun v => if v ≠ 0 then ((values g).count v : K) else 0) ∘ val f from funext fun x => e (val f x),
    ← List.map_map]
  change ((values f).map _).sum = _
  rw [Finset.sum_list_map_count, Finset.sum_filter]
  refine Finset.sum_congr rfl fun v _ => ?_
  by_cases hv : v = 0 <;> simp [hv]

/-- **C85** The weighted correlation of periodic images adds up to the sum of the image. -/
theorem C85_W2 {w : Nd K} (hr : w.shape.length ≤ 3) (h0 : 0 ∉ w.shape) (hf : f.shape = w.shape)
    (hw : 0 < sumOf w) (pow05 : K → K) (dbg : Bool) :
    ∃ r, Api.W2 pow05 dbg w.shape w f true = ok r ∧ r.shape = w.shape ∧ sumOf r = sumOf f := by
  obtain ⟨r, h1, h2, h3⟩ := C39_unmasked (legal_self (periodic := true) hr h0) hf pow05 dbg
  refine ⟨r, h1, h2, ?_⟩
  have e : ∀ i ∈ pixels w.shape, val r i = ((pixels w.shape).map fun x =>
      val w x * val f (wrap w.shape (move x (displacement w.shape i)))).sum / sumOf w := by
    intro i hi
    have hd := displacement_length (inbox_length (mem_pixels.1 hi))
    have h := h3 i (mem_pixels.1 hi)
    simp only [total_wrapped hd] at h
    change val r i = _ / (if sumOf w ≤ 0 then 1 else sumOf w) at h
    rw [h, if_neg (not_le.2 hw)]
  rw [sumOf, h2, List.map_congr_left e, sum_div', sum_comm', div_eq_iff hw.ne', mul_comm, sumOf, sumOf, hf,
    ← sum_mul_right']
  refine congrArg List.sum (List.map_congr_left fun x hx => ?_)
  rw [sum_mul_left', sum_displacements (mem_pixels.1 hx)]

/-- **C85** The squares of the height-height correlation of a periodic image add up to twice the number of
pixels times the variance of the heights. -/
theorem C85_heightheight (hr : f.shape.length ≤ 3) (h0 : 0 ∉ f.shape) {pow05 : K → K}
    (hpow : ∀ v, 0 ≤ v → pow05 v ^ 2 = v) (dbg : Bool) :
    ∃ r, Api.heightheight pow05 dbg f.shape f true = ok r ∧ r.shape = f.shape ∧
      ((pixels f.shape).map fun i => val r i ^ 2).sum =
        2 * (((pixels f.shape).map fun x => (val f x - meanOf f) ^ 2).sum) := by
  obtain ⟨r, h1, h2, h3⟩ := C40_unmasked (legal_self (periodic := true) hr h0) pow05 dbg
  refine ⟨r, h1, h2, ?_⟩
  have hN : (f.shape.prod : K) ≠ 0 := by
    rw [Nat.cast_ne_zero]
    exact fun h => h0 (List.prod_eq_zero_iff.1 h)
  rw [List.map_congr_left fun i hi => by
    rw [h3 i (mem_pixels.1 hi), hpow _ (average_nonneg fun p _ => by positivity)], sum_averages, div_eq_iff hN,
    meanOf, ← pixels_length] at *
  generalize pixels f.shape = l at *
  have e : ∀ l' : List (List Int), ∀ c : K, (l'.map fun x => (val f x - c) ^ 2).sum =
      (l'.map fun x => val f x ^ 2).sum - 2 * c * (l'.map (val f)).sum + l'.length * c ^ 2 := by
    intro l' c
    induction l' with
    | nil => simp
    | cons a l' ih =>
      simp only [List.map_cons, List.sum_cons, ih, List.length_cons, Nat.cast_add, Nat.cast_one]
      ring
  simp only [e]
  generalize hS : (l.map (val f)).sum = S at *
  generalize hQ : (l.map fun x => val f x ^ 2).sum = Q at *
  have e2 : ∀ l' : List (List Int), (l'.map fun x => Q - 2 * val f x * S + (l.length : K) * val f x ^ 2).sum =
      (l'.length : K) * Q - 2 * S * (l'.map (val f)).sum + l.length * (l'.map fun x => val f x ^ 2).sum := by
    intro l'
    induction l' with
    | nil => simp
    | cons a l' ih =>
      simp only [List.map_cons, List.sum_cons, ih, List.length_cons, Nat.cast_add, Nat.cast_one]
      ring
  rw [e2, hS, hQ]
  field_simp
  ring

/-- The square root meets the condition of `C85_heightheight`. -/
example : ∀ v : ℝ, 0 ≤ v → Real.sqrt v ^ 2 = v := fun _ => Real.sq_sqrt

/-- Images of five pixels: the correlations add up as stated. -/
example : ((Api.S2 id true [5] (im [1, 2, 0, 3, 1]) (im [0, 1, 1, 4, 2]) true).map sumOf) = ok (7 * 8 / 5) := by
  decide +kernel

example : ((Api.C2 id true [5] (im [1, 2, 2, 0, 1]) (im [2, 1, 2, 2, 0]) true).map sumOf) =
    ok ((2 * 1 + 2 * 3) / 5) := by
  decide +kernel

example : 0 < sumOf (im [1, -2, 0, 3, 1]) := by decide +kernel

example : ((Api.W2 id true [5] (im [1, -2, 0, 3, 1]) (im [0, 1, 1, 4, 2]) true).map sumOf) = ok 8 := by
  decide +kernel

/-- The condition of `C85_W2` is needed: with weights that add up to zero the sum is lost. -/
example : ((Api.W2 id true [2] (im [1, -1]) (im [3, 1]) true).map sumOf) = ok 0 := by
  decide +kernel

end Verif.Props
