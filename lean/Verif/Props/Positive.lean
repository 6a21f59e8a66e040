import Verif.Props.Inequalities
import Mathlib.Algebra.BigOperators.Field

/-!
# Quadratic forms of correlations (C104)

Which functions of the displacement can be a correlation of an image: for every choice of points `p a` and of
coefficients `c a`, the sum of `c a * c b` times the correlation at the displacement from `p a` to `p b` has a sign.
-/

namespace Verif.Props

open Verif Outcome Spec Ens

variable {K : Type} [Field K] [LinearOrder K] [IsStrictOrderedRing K]
variable {roi : List Nat} {f : Nd K}

/-- `idx a b` is the index in a region of interest of the displacement from point `a` to point `b` of a periodic image. -/
def Differences {k : Nat} (shape roi : List Nat) (p : Fin k → List Int) (idx : Fin k → Fin k → List Int) : Prop :=
  ∀ a b, (p a).length = shape.length ∧ InBox roi (idx a b) ∧
    wrap shape (move (p a) (displacement roi (idx a b))) = wrap shape (p b)

theorem sum_finset_list {α ι : Type} (s : Finset ι) (u : ι → α → K) : ∀ l : List α,
    ∑ a ∈ s, (l.map fun x => u a x).sum = (l.map fun x => ∑ a ∈ s, u a x).sum
  | [] => by simp
  | x :: l => by
    simp only [List.map_cons, List.sum_cons, Finset.sum_add_distrib, sum_finset_list s u l]

/-- The quadratic form of an average over pairs is an average over the pixels of quadratic forms. -/
theorem quadratic {k : Nat} (φ : K → K → K) (hs : f.shape.length = roi.length) {p : Fin k → List Int}
    {idx : Fin k → Fin k → List Int} (hp : Differences f.shape roi p idx) (c : Fin k → K) :
    ∑ a, ∑ b, c a * c b * average (pairs true f.shape (fun _ _ => True) (displacement roi (idx a b)))
        (fun x y => φ (val f x) (val f y)) =
      ((pixels f.shape).map fun x => ∑ a, ∑ b, c a * c b *
        φ (val f (wrap f.shape (move x (p a)))) (val f (wrap f.shape (move x (p b))))).sum / (f.shape.prod : K) := by
  have key : ∀ a b, c a * c b * average (pairs true f.shape (fun _ _ => True) (displacement roi (idx a b)))
        (fun x y => φ (val f x) (val f y)) = ((pixels f.shape).map fun x => c a * c b *
        φ (val f (wrap f.shape (move x (p a)))) (val f (wrap f.shape (move x (p b))))).sum / (f.shape.prod : K) := by
    intro a b
    obtain ⟨h1, h2, h3⟩ := hp a b
    have hb := (hp b b).1
    have hd : (displacement roi (idx a b)).length = f.shape.length := by
      rw [displacement_length (inbox_length h2), hs]
    rw [average_periodic hd (fun _ _ => trivial),
      ← sum_shift h1 fun x => φ (val f x) (val f (wrap f.shape (move x (displacement roi (idx a b))))),
      mul_div_assoc', ← List.sum_map_mul_left]
    congr 2
    refine List.map_congr_left fun x hx => ?_
    have el := inbox_length (mem_pixels.1 hx)
    rw [shift_shift el h1 hd, wrap_add_congr el (by rw [move_length (by omega), h1]) hb h3]
  simp only [key, ← Finset.sum_div, sum_finset_list]

/-- **C104** The periodic two-point correlation of an image with itself is positive semidefinite. -/
theorem C104_S2 (L : Legal true f.shape roi) (pow05 : K → K) (dbg : Bool) :
    ∃ r, Api.S2 pow05 dbg roi f f true = ok r ∧
      ∀ (k : Nat) (p : Fin k → List Int) (idx : Fin k → Fin k → List Int) (c : Fin k → K),
        Differences f.shape roi p idx → 0 ≤ ∑ a, ∑ b, c a * c b * val r (idx a b) := by
  obtain ⟨r, h1, h2, h3⟩ := C34_unmasked L rfl pow05 dbg
  refine ⟨r, h1, fun k p idx c hp => ?_⟩
  simp only [fun a b => h3 (idx a b) (hp a b).2.1]
  rw [quadratic (fun u v => u * v) L.same hp]
  refine div_nonneg (List.sum_nonneg fun y hy => ?_) (Nat.cast_nonneg _)
  obtain ⟨x, -, rfl⟩ := List.mem_map.1 hy
  have e : ∑ a, ∑ b, c a * c b * (val f (wrap f.shape (move x (p a))) * val f (wrap f.shape (move x (p b)))) =
      (∑ a, c a * val f (wrap f.shape (move x (p a)))) * ∑ b, c b * val f (wrap f.shape (move x (p b))) := by
    rw [Finset.sum_mul_sum]
    exact Finset.sum_congr rfl fun a _ => Finset.sum_congr rfl fun b _ => by ring
  rw [e]
  exact mul_self_nonneg _

/-- **C104** The periodic cluster correlation of an image with itself is positive semidefinite. -/
theorem C104_C2 (L : Legal true f.shape roi) (pow05 : K → K) (dbg : Bool) :
    ∃ r, Api.C2 pow05 dbg roi f f true = ok r ∧
      ∀ (k : Nat) (p : Fin k → List Int) (idx : Fin k → Fin k → List Int) (c : Fin k → K),
        Differences f.shape roi p idx → 0 ≤ ∑ a, ∑ b, c a * c b * val r (idx a b) := by
  obtain ⟨r, h1, h2, h3⟩ := C38_unmasked L rfl pow05 dbg
  refine ⟨r, h1, fun k p idx c hp => ?_⟩
  simp only [fun a b => h3 (idx a b) (hp a b).2.1]
  rw [quadratic (fun u v => if u ≠ 0 ∧ u = v then (1 : K) else 0) L.same hp]
  refine div_nonneg (List.sum_nonneg fun y hy => ?_) (Nat.cast_nonneg _)
  obtain ⟨x, -, rfl⟩ := List.mem_map.1 hy
  show 0 ≤ ∑ a, ∑ b, c a * c b *
    if val f (wrap f.shape (move x (p a))) ≠ 0 ∧
      val f (wrap f.shape (move x (p a))) = val f (wrap f.shape (move x (p b))) then (1 : K) else 0
  generalize hu : (fun a => val f (wrap f.shape (move x (p a)))) = u
  have hu' : ∀ a, val f (wrap f.shape (move x (p a))) = u a := fun a => congrFun hu a
  simp only [hu']
  have e : ∑ a, ∑ b, c a * c b * (if u a ≠ 0 ∧ u a = u b then (1 : K) else 0) =
      ∑ v ∈ (Finset.univ.image u).filter (· ≠ 0), (∑ a, if u a = v then c a else 0) * ∑ a, if u a = v then c a else 0 := by
    simp only [Finset.sum_mul_sum]
    rw [Finset.sum_comm (s := (Finset.univ.image u).filter (· ≠ 0))]
    refine Finset.sum_congr rfl fun a _ => ?_
    rw [Finset.sum_comm (s := (Finset.univ.image u).filter (· ≠ 0))]
    refine Finset.sum_congr rfl fun b _ => ?_
    by_cases h0 : u a = 0
    · rw [if_neg (by tauto), mul_zero]
      refine (Finset.sum_eq_zero fun v hv => ?_).symm
      have : u a ≠ v := fun h => (Finset.mem_filter.1 hv).2 (h ▸ h0)
      rw [if_neg this, zero_mul]
    · rw [Finset.sum_eq_single (u a)]
      · by_cases h : u a = u b
        · rw [if_pos ⟨h0, h⟩, if_pos rfl, if_pos h.symm, mul_one]
        · rw [if_neg (by tauto), if_pos rfl, if_neg (fun h' => h h'.symm), mul_zero, mul_zero]
      · intro v _ hv
        rw [if_neg (fun h => hv h.symm), zero_mul]
      · intro h
        exact absurd (Finset.mem_filter.2 ⟨Finset.mem_image_of_mem u (Finset.mem_univ a), h0⟩) h
  rw [e]
  exact Finset.sum_nonneg fun v _ => mul_self_nonneg _

/-- **C104** The square of the height-height correlation of a periodic image is conditionally negative semidefinite: the
sum is not positive if the coefficients add up to zero. -/
theorem C104_heightheight (L : Legal true f.shape roi) {pow05 : K → K} (hpow : ∀ v, 0 ≤ v → pow05 v ^ 2 = v) (dbg : Bool) :
    ∃ r, Api.heightheight pow05 dbg roi f true = ok r ∧
      ∀ (k : Nat) (p : Fin k → List Int) (idx : Fin k → Fin k → List Int) (c : Fin k → K),
        Differences f.shape roi p idx → ∑ a, c a = 0 → ∑ a, ∑ b, c a * c b * val r (idx a b) ^ 2 ≤ 0 := by
  obtain ⟨r, h1, h2, h3⟩ := C40_unmasked L pow05 dbg
  refine ⟨r, h1, fun k p idx c hp hc => ?_⟩
  have e1 : ∀ a b, val r (idx a b) ^ 2 = average (pairs true f.shape (fun _ _ => True) (displacement roi (idx a b)))
      fun x y => (val f y - val f x) ^ 2 := fun a b => by
    rw [h3 (idx a b) (hp a b).2.1, hpow _ (average_nonneg fun _ _ => sq_nonneg _)]
  simp only [e1]
  rw [quadratic (fun u v => (v - u) ^ 2) L.same hp]
  have nonpos : ∀ l : List K, (∀ y ∈ l, y ≤ 0) → l.sum ≤ 0 := fun l hl => by
    induction l with
    | nil => simp
    | cons a l ih =>
      rw [List.sum_cons]
      exact add_nonpos (hl a List.mem_cons_self) (ih fun y hy => hl y (List.mem_cons_of_mem _ hy))
  refine div_nonpos_of_nonpos_of_nonneg (nonpos _ fun y hy => ?_) (Nat.cast_nonneg _)
  obtain ⟨x, -, rfl⟩ := List.mem_map.1 hy
  show ∑ a, ∑ b, c a * c b *
    (val f (wrap f.shape (move x (p b))) - val f (wrap f.shape (move x (p a)))) ^ 2 ≤ 0
  generalize hu : (fun a => val f (wrap f.shape (move x (p a)))) = u
  have hu' : ∀ a, val f (wrap f.shape (move x (p a))) = u a := fun a => congrFun hu a
  simp only [hu']
  have e : ∑ a, ∑ b, c a * c b * (u b - u a) ^ 2 =
      (∑ a, c a) * (∑ b, c b * u b ^ 2) + (∑ a, c a * u a ^ 2) * (∑ b, c b) - 2 * ((∑ a, c a * u a) * ∑ b, c b * u b) := by
    rw [Finset.sum_mul_sum, Finset.sum_mul_sum, Finset.sum_mul_sum, Finset.mul_sum]
    simp only [Finset.mul_sum, ← Finset.sum_add_distrib, ← Finset.sum_sub_distrib]
    exact Finset.sum_congr rfl fun a _ => Finset.sum_congr rfl fun b _ => by ring
  rw [e, hc]
  nlinarith [mul_self_nonneg (∑ a, c a * u a)]

/-- Three points of the periodic row of five pixels, and the indices of their differences. -/
example : Legal true phaseRow.shape [5] ∧ Differences (k := 3) phaseRow.shape [5] ![[0], [1], [3]]
    ![![[2], [3], [0]], ![[1], [2], [4]], ![[4], [0], [2]]] := by
  refine ⟨legal_self (by decide) (by decide), ?_⟩
  unfold Differences InBox
  decide +kernel

/-- The form is not identically zero. -/
example : ((Api.S2 (fun a => a) true [5] phaseRow phaseRow true).map fun r => ∑ a : Fin 3, ∑ b : Fin 3,
    (![1, -1, 2] : Fin 3 → ℚ) a * (![1, -1, 2] : Fin 3 → ℚ) b *
      val r ((![![[2], [3], [0]], ![[1], [2], [4]], ![[4], [0], [2]]] : Fin 3 → Fin 3 → List Int) a b)) = ok (16 / 5) := by
  decide +kernel

end Verif.Props
