import Verif.Props.Orientation
import Verif.Props.Algebra

/-!
# Correlations of a repeated periodic image (C83)

A periodic image and the image that consists of several copies of it, next to each other, describe the
same pattern.
-/

set_option linter.unusedSectionVars false

namespace Verif.Props

open Verif Outcome Spec Ens

variable {K : Type} [Field K] [LinearOrder K] [IsStrictOrderedRing K]
variable {roi copies : List Nat} {f g f' g' : Nd K}

/-- `f'` consists of copies of `f`: `copies[k]` along axis `k`. -/
def Tiled (copies : List Nat) (f f' : Nd K) : Prop :=
  copies.length = f.shape.length ∧ 0 ∉ copies ∧ f'.shape = List.zipWith (fun c n => c * n) copies f.shape ∧
    ∀ y, InBox f'.shape y → val f' y = val f (wrap f.shape y)

theorem sum_range_mod {M : Type*} [AddCommMonoid M] (φ : Int → M) (c n : Nat) :
    ((List.range (c * n)).map fun i : Nat => φ ((i : Int) % n)).sum =
      c • ((List.range n).map fun i : Nat => φ (i : Int)).sum := by
  induction c with
  | zero => simp
  | succ c ih =>
    rw [Nat.succ_mul, List.range_add, List.map_append, List.sum_append, ih, succ_nsmul, List.map_map]
    congr 2
    refine List.map_congr_left fun i hi => ?_
    rw [List.mem_range] at hi
    simp only [Function.comp]
    congr 1
    push_cast
    rw [add_comm, Int.add_mul_emod_self_right]
    exact Int.emod_eq_of_lt (by omega) (by omega)

theorem sum_smul' {α M : Type*} [AddCommMonoid M] (l : List α) (c : Nat) (φ : α → M) :
    (l.map fun a => c • φ a).sum = c • (l.map φ).sum := by
  induction l with
  | nil => simp
  | cons a l ih => simp [ih]

theorem sum_flatMap {α β M : Type*} [AddCommMonoid M] (l : List α) (h : α → List β) (φ : β → M) :
    ((l.flatMap h).map φ).sum = (l.map fun a => ((h a).map φ).sum).sum := by
  induction l with
  | nil => rfl
  | cons a l ih => simp [ih]

/-- A sum over the copies. -/
theorem sum_tiled {M : Type*} [AddCommMonoid M] : ∀ {copies shape : List Nat}, copies.length = shape.length →
    ∀ φ : List Int → M,
    ((pixels (List.zipWith (fun c n => c * n) copies shape)).map fun y => φ (wrap shape y)).sum =
      copies.prod • ((pixels shape).map φ).sum
  | [], [], _, φ => by simp [pixels, wrap]
  | c :: copies, n :: shape, h, φ => by
    have ih := sum_tiled (M := M) (copies := copies) (shape := shape) (by simpa using h)
    have e : ∀ i : Nat, ((pixels (List.zipWith (fun c n => c * n) copies shape)).map fun y =>
        φ (wrap (n :: shape) ((i : Int) :: y))).sum =
        copies.prod • ((pixels shape).map fun x => φ ((i : Int) % n :: x)).sum := by
      intro i
      rw [← ih]
      rfl
    rw [List.zipWith_cons_cons, pixels, sum_flatMap, pixels, sum_flatMap]
    simp only [List.map_map, Function.comp_def]
    rw [List.map_congr_left fun i _ => e i,
      sum_range_mod (fun j => copies.prod • ((pixels shape).map fun x => φ (j :: x)).sum) c n, List.prod_cons,
      sum_smul' _ _ fun i : Nat => ((pixels shape).map fun x => φ ((i : Int) :: x)).sum, ← mul_nsmul']

theorem wrap_tiled : ∀ {copies shape : List Nat} {y d : List Int}, copies.length = shape.length →
    y.length = shape.length → d.length = shape.length →
    wrap shape (wrap (List.zipWith (fun c n => c * n) copies shape) (move y d)) =
      wrap shape (move (wrap shape y) d)
  | [], [], [], [], _, _, _ => rfl
  | c :: copies, n :: shape, i :: y, k :: d, h1, h2, h3 => by
    have ih := wrap_tiled (copies := copies) (shape := shape) (y := y) (d := d) (by simpa using h1)
      (by simpa using h2) (by simpa using h3)
    simp only [wrap, move, List.zipWith_cons_cons, List.cons.injEq] at ih ⊢
    refine ⟨?_, ih⟩
    rw [Int.emod_add_emod]
    push_cast
    exact Int.emod_emod_of_dvd _ (Dvd.intro_left _ rfl)

theorem tiled_length (h : Tiled copies f f') : f'.shape.length = f.shape.length := by
  rw [h.2.2.1]; simp [h.1]

theorem tiled_target (h : Tiled copies f f') {y d : List Int} (hy : InBox f'.shape y)
    (hd : d.length = f.shape.length) :
    val f' (wrap f'.shape (move y d)) = val f (wrap f.shape (move (wrap f.shape y) d)) := by
  have hl := tiled_length h
  have hy' := inbox_length hy
  rw [h.2.2.2 _ (shift_inbox hy (by omega)), h.2.2.1, wrap_tiled h.1 (by omega) hd]

theorem prod_tiled : ∀ {copies shape : List Nat}, copies.length = shape.length →
    (List.zipWith (fun c n => c * n) copies shape).prod = copies.prod * shape.prod
  | [], [], _ => rfl
  | c :: copies, n :: shape, h => by
    rw [List.zipWith_cons_cons, List.prod_cons, List.prod_cons, List.prod_cons,
      prod_tiled (copies := copies) (shape := shape) (by simpa using h)]
    ring

theorem tiled_inbox (h : Tiled copies f f') {y : List Int} (hy : InBox f'.shape y) :
    InBox f.shape (wrap f.shape y) := by
  refine wrap_inbox (by rw [inbox_length hy, tiled_length h]) fun hn => ?_
  have h1 : f'.shape.prod = 0 := by rw [h.2.2.1, prod_tiled h.1, List.prod_eq_zero hn, Nat.mul_zero]
  have := flat_lt hy
  omega

theorem copies_pos (h : Tiled copies f f') : (copies.prod : K) ≠ 0 := by
  exact_mod_cast (List.prod_ne_zero h.2.1)

/-- A sum over the pairs of the copies. -/
theorem total_tiled (h : Tiled copies f f') (h' : Tiled copies g g') (hg : g.shape = f.shape) {d : List Int}
    (hd : d.length = f.shape.length) (φ : K → K → K) :
    total (pairs true f'.shape (fun _ _ => True) d) (fun x y => φ (val f' x) (val g' y)) =
      copies.prod * total (pairs true f.shape (fun _ _ => True) d) fun x y => φ (val f x) (val g y) := by
  have hl := tiled_length h
  have hs : g'.shape = f'.shape := by rw [h'.2.2.1, h.2.2.1, hg]
  rw [total_pairs, total_pairs, ← nsmul_eq_mul, ← sum_tiled h.1, ← h.2.2.1]
  congr 1
  refine List.map_congr_left fun y hy => ?_
  have hy' := mem_pixels.1 hy
  have hw := tiled_inbox h hy'
  simp only [target_mem hy' (by omega : d.length = f'.shape.length), target_mem hw hd, and_self, if_true]
  rw [h.2.2.2 y hy']
  unfold target
  simp only [if_true]
  rw [← hs, tiled_target h' (hs ▸ hy') (by rw [hg, hd]), hg]

theorem average_tiled (h : Tiled copies f f') (h' : Tiled copies g g') (hg : g.shape = f.shape) {d : List Int}
    (hd : d.length = f.shape.length) (φ : K → K → K) :
    average (pairs true f'.shape (fun _ _ => True) d) (fun x y => φ (val f' x) (val g' y)) =
      average (pairs true f.shape (fun _ _ => True) d) fun x y => φ (val f x) (val g y) := by
  rw [average_eq_div, average_eq_div, total_tiled h h' hg hd, length_eq_total, length_eq_total,
    total_tiled h h' hg hd fun _ _ => 1, mul_div_mul_left _ _ (copies_pos h)]

/-- S2 of copies of periodic images is S2 of the images. -/
theorem C83_S2 (L : Legal true f.shape roi) (L' : Legal true f'.shape roi) (hg : g.shape = f.shape)
    (h : Tiled copies f f') (h' : Tiled copies g g') (pow05 : K → K) (dbg : Bool) :
    ∃ r r', Api.S2 pow05 dbg roi f g true = ok r ∧ Api.S2 pow05 dbg roi f' g' true = ok r' ∧
      r.shape = roi ∧ r'.shape = roi ∧ ∀ i, InBox roi i → val r' i = val r i := by
  obtain ⟨r, h1, h2, h3⟩ := C34_unmasked L hg pow05 dbg
  obtain ⟨r', h1', h2', h3'⟩ := C34_unmasked (g := g') L' (by rw [h'.2.2.1, h.2.2.1, hg]) pow05 dbg
  refine ⟨r, r', h1, h1', h2, h2', fun i hi => ?_⟩
  rw [h3 i hi, h3' i hi]
  exact average_tiled h h' hg (displacement_len L hi) fun a b => a * b

/-- C2 of copies of periodic images is C2 of the images. -/
theorem C83_C2 (L : Legal true f.shape roi) (L' : Legal true f'.shape roi) (hg : g.shape = f.shape)
    (h : Tiled copies f f') (h' : Tiled copies g g') (pow05 : K → K) (dbg : Bool) :
    ∃ r r', Api.C2 pow05 dbg roi f g true = ok r ∧ Api.C2 pow05 dbg roi f' g' true = ok r' ∧
      r.shape = roi ∧ r'.shape = roi ∧ ∀ i, InBox roi i → val r' i = val r i := by
  obtain ⟨r, h1, h2, h3⟩ := C38_unmasked L hg pow05 dbg
  obtain ⟨r', h1', h2', h3'⟩ := C38_unmasked (g := g') L' (by rw [h'.2.2.1, h.2.2.1, hg]) pow05 dbg
  refine ⟨r, r', h1, h1', h2, h2', fun i hi => ?_⟩
  rw [h3 i hi, h3' i hi]
  exact average_tiled h h' hg (displacement_len L hi) fun a b => if a ≠ 0 ∧ a = b then 1 else 0

/-- The height-height correlation of copies of a periodic image is that of the image. -/
theorem C83_heightheight (L : Legal true f.shape roi) (L' : Legal true f'.shape roi)
    (h : Tiled copies f f') (pow05 : K → K) (dbg : Bool) :
    ∃ r r', Api.heightheight pow05 dbg roi f true = ok r ∧ Api.heightheight pow05 dbg roi f' true = ok r' ∧
      r.shape = roi ∧ r'.shape = roi ∧ ∀ i, InBox roi i → val r' i = val r i := by
  obtain ⟨r, h1, h2, h3⟩ := C40_unmasked L pow05 dbg
  obtain ⟨r', h1', h2', h3'⟩ := C40_unmasked L' pow05 dbg
  refine ⟨r, r', h1, h1', h2, h2', fun i hi => ?_⟩
  rw [h3 i hi, h3' i hi]
  exact congrArg pow05 (average_tiled h h rfl (displacement_len L hi) fun a b => (b - a) ^ 2)

/-- W2 of copies of periodic weights (not negative) and a periodic image is W2 of the originals. -/
theorem C83_W2 (L : Legal true f.shape roi) (L' : Legal true f'.shape roi) (hg : g.shape = f.shape)
    (h : Tiled copies f f') (h' : Tiled copies g g') (h0 : ∀ x ∈ pixels f.shape, 0 ≤ val f x)
    (pow05 : K → K) (dbg : Bool) :
    ∃ r r', Api.W2 pow05 dbg roi f g true = ok r ∧ Api.W2 pow05 dbg roi f' g' true = ok r' ∧
      r.shape = roi ∧ r'.shape = roi ∧ ∀ i, InBox roi i → val r' i = val r i := by
  obtain ⟨r, h1, h2, h3⟩ := C39_unmasked L hg pow05 dbg
  obtain ⟨r', h1', h2', h3'⟩ := C39_unmasked (g := g') L' (by rw [h'.2.2.1, h.2.2.1, hg]) pow05 dbg
  refine ⟨r, r', h1, h1', h2, h2', fun i hi => ?_⟩
  have hd := displacement_len L hi
  have e1 := total_tiled h h' hg hd fun a b => a * b
  have e2 := total_tiled h h' hg hd fun a _ => a
  have hp : (0 : K) < copies.prod := lt_of_le_of_ne (Nat.cast_nonneg _) (copies_pos h).symm
  rw [h3 i hi, h3' i hi]
  rw [e1, e2]
  have hx : ∀ p ∈ pairs true f.shape (fun _ _ => True) (displacement roi i), 0 ≤ val f p.1 :=
    fun p hp => h0 _ (mem_pairs.1 hp).1
  by_cases ht : total (pairs true f.shape (fun _ _ => True) (displacement roi i)) (fun x _ => val f x) ≤ 0
  · -- all weights are zero
    have hz : ∀ p ∈ pairs true f.shape (fun _ _ => True) (displacement roi i), val f p.1 = 0 := by
      have hs := le_antisymm ht (total_nonneg hx)
      unfold total at hs
      intro p hp
      exact (List.all_zero_of_le_zero_le_of_sum_eq_zero (l := (pairs true f.shape (fun _ _ => True)
        (displacement roi i)).map fun p => val f p.1) (by
          intro a ha
          obtain ⟨p, hp, rfl⟩ := List.mem_map.1 ha
          exact hx p hp) hs) (List.mem_map.2 ⟨p, hp, rfl⟩)
    have e3 : total (pairs true f.shape (fun _ _ => True) (displacement roi i)) (fun x y => val f x * val g y) = 0 := by
      rw [total_congr (ψ := fun _ _ => 0) fun p hp => by rw [hz p hp, zero_mul], total_const, mul_zero]
    rw [e3, mul_zero, zero_div, zero_div]
  · have ht' := not_le.1 ht
    rw [if_neg ht, if_neg (not_le.2 (mul_pos hp ht')), mul_div_mul_left _ _ (copies_pos h)]

/-- The lineal-path function of copies of a periodic image is that of the image. -/
theorem C83_L (L : Legal true f.shape roi) (L' : Legal true f'.shape roi) (h : Tiled copies f f')
    (junk : ℚ) {fuel : Nat} {mode : Path.Mode} (hm : Enough fuel roi mode) (pow05 : K → K) (dbg : Bool) :
    ∃ r r', Api.L pow05 dbg junk fuel roi f true mode = ok r ∧ Api.L pow05 dbg junk fuel roi f' true mode = ok r' ∧
      r.shape = roi ∧ r'.shape = roi ∧ ∀ i, InBox roi i → val r' i = val r i := by
  obtain ⟨P, hP⟩ := choose_paths junk L.rank hm
  obtain ⟨r, h1, h2, h3⟩ := L_value L hP pow05 dbg
  obtain ⟨r', h1', h2', h3'⟩ := L_value L' hP pow05 dbg
  refine ⟨r, r', h1, h1', h2, h2', fun i hi => ?_⟩
  have hl := tiled_length h
  have hp := List.prod_ne_zero h.2.1
  have e1 : (pixels f'.shape).length = copies.prod * (pixels f.shape).length := by
    rw [pixels_length, pixels_length, h.2.2.1, prod_tiled h.1]
  have e2 : reached true f' ((edge roi).map P) (displacement roi i) =
      copies.prod * reached true f ((edge roi).map P) (displacement roi i) := by
    unfold reached
    rw [← smul_eq_mul, List.smul_sum, List.map_map, List.map_map, List.map_map]
    congr 1
    refine List.map_congr_left fun s hs => ?_
    simp only [Function.comp]
    rw [← sum_tiled h.1, ← h.2.2.1]
    congr 1
    refine List.map_congr_left fun y hy => ?_
    have hy' := mem_pixels.1 hy
    have hw := tiled_inbox h hy'
    refine congrArg (List.count _) (takeWhile_congr' fun e he => ?_)
    have hd : e.length = f.shape.length := by rw [((hP s hs).mem e he).1, L.same]
    simp only [decide_eq_decide, Lit, target_mem hw hd, target_mem hy' (by omega : e.length = f'.shape.length),
      true_and]
    unfold target
    simp only [if_true]
    rw [tiled_target h hy' hd]
  have a := h3 i hi
  have b := h3' i hi
  dsimp only at a b
  have hc := copies_pos h
  rw [a, b, e1, e2, ← Nat.cast_mul, ← Nat.cast_mul, norm1_nat, norm1_nat, mul_left_comm]
  by_cases hz : visits ((edge roi).map P) (displacement roi i) * (pixels f.shape).length = 0
  · have := reached_le true f ((edge roi).map P) (displacement roi i)
    have e0 : reached true f ((edge roi).map P) (displacement roi i) = 0 := by omega
    simp [e0]
  · rw [if_neg hz, if_neg (Nat.mul_ne_zero hp hz), Nat.cast_mul, Nat.cast_mul copies.prod, mul_div_mul_left _ _ hc]

/-- Two copies of an image of three pixels. -/
example : Tiled [2] (im [1, 2, 4]) (im [1, 2, 4, 1, 2, 4]) ∧ Legal true (im [1, 2, 4]).shape [3] ∧
    Legal true (im [1, 2, 4, 1, 2, 4]).shape [3] ∧ (∀ x ∈ pixels (im [1, 2, 4]).shape, 0 ≤ val (im [1, 2, 4]) x) ∧
    Enough 100 [3] .full ∧
    ((Api.S2 id true [3] (im [1, 2, 4]) (im [1, 2, 4]) true).map fun r => val r [2]) = ok (14 / 3) ∧
    ((Api.S2 id true [3] (im [1, 2, 4, 1, 2, 4]) (im [1, 2, 4, 1, 2, 4]) true).map fun r => val r [2]) =
      ok (14 / 3) := by
  refine ⟨⟨rfl, by decide, rfl, ?_⟩, ⟨by decide, by decide, rfl, by unfold Fits; decide⟩,
    ⟨by decide, by decide, rfl, by unfold Fits; decide⟩, by decide +kernel, fun _ => ⟨by decide, by decide⟩,
    by decide +kernel, by decide +kernel⟩
  have : ∀ y ∈ pixels [6], val (im [1, 2, 4, 1, 2, 4]) y = val (im [1, 2, 4]) (wrap [3] y) := by decide +kernel
  exact fun y hy => this y (mem_pixels.2 hy)

/-- Not so without periodicity. -/
example : ((Api.S2 id true [3] (im [1, 2, 4]) (im [1, 2, 4]) false).map fun r => val r [2]) = ok 5 ∧
    ((Api.S2 id true [3] (im [1, 2, 4, 1, 2, 4]) (im [1, 2, 4, 1, 2, 4]) false).map fun r => val r [2]) =
      ok (24 / 5) := by
  refine ⟨by decide +kernel, by decide +kernel⟩

end Verif.Props
