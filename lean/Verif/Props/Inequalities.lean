import Verif.Props.SumRules
import Verif.Props.Weighted

/-!
# Inequalities between the values of a correlation (C100)

What every two-point correlation of an image has to satisfy, whatever the image: the inequality of Cauchy
and Schwarz, monotonicity, the triangle inequalities, and the relation between the correlation of a phase
and that of its complement.
-/

set_option linter.unusedSectionVars false

namespace Verif.Props

open Verif Outcome Spec Ens

variable {K : Type} [Field K] [LinearOrder K] [IsStrictOrderedRing K]
variable {roi : List Nat} {periodic : Bool} {f g f' g' : Nd K} {fmask gmask : Nd Int}

/-! ### Sums -/

theorem sum_squares_nonneg {α : Type} (u : α → K) (l : List α) : 0 ≤ (l.map fun x => u x * u x).sum :=
  List.sum_nonneg fun y hy => by
    obtain ⟨x, -, rfl⟩ := List.mem_map.1 hy
    exact mul_self_nonneg _

theorem cauchy_schwarz {α : Type} (u v : α → K) : ∀ l : List α, (l.map fun x => u x * v x).sum ^ 2 ≤
    (l.map fun x => u x * u x).sum * (l.map fun x => v x * v x).sum
  | [] => by simp
  | x :: l => by
    have ih := cauchy_schwarz u v l
    have hA := sum_squares_nonneg u l
    have hB := sum_squares_nonneg v l
    simp only [List.map_cons, List.sum_cons]
    generalize (l.map fun x => u x * v x).sum = S at ih ⊢
    generalize (l.map fun x => u x * u x).sum = A at ih hA ⊢
    generalize (l.map fun x => v x * v x).sum = B at ih hB ⊢
    generalize u x = a
    generalize v x = b
    have key : 2 * (a * b * S) ≤ a * a * B + b * b * A := by
      refine le_of_sq_le_sq ?_ (add_nonneg (mul_nonneg (mul_self_nonneg a) hB) (mul_nonneg (mul_self_nonneg b) hA))
      have h1 : (a * b) ^ 2 * S ^ 2 ≤ (a * b) ^ 2 * (A * B) := mul_le_mul_of_nonneg_left ih (sq_nonneg _)
      have h2 := sq_nonneg (a * a * B - b * b * A)
      nlinarith
    nlinarith

theorem wrap_add_congr : ∀ {s : List Nat} {x d e : List Int}, x.length = s.length → d.length = s.length →
    e.length = s.length → wrap s d = wrap s e → wrap s (move x d) = wrap s (move x e)
  | [], [], [], [], _, _, _, _ => rfl
  | n :: s, a :: x, b :: d, c :: e, h1, h2, h3, h => by
    simp only [wrap, List.zipWith_cons_cons, List.cons.injEq] at h
    have ih := wrap_add_congr (s := s) (x := x) (d := d) (e := e) (by simpa using h1) (by simpa using h2)
      (by simpa using h3) h.2
    simp only [wrap, move, List.zipWith_cons_cons, List.cons.injEq] at ih ⊢
    exact ⟨by rw [Int.add_emod, h.1, ← Int.add_emod], ih⟩

theorem sqrt_sum_le {A B S : ℝ} (hA : 0 ≤ A) (hB : 0 ≤ B) (h : S ^ 2 ≤ A * B) :
    Real.sqrt (A + B + 2 * S) ≤ Real.sqrt A + Real.sqrt B := by
  refine Real.sqrt_le_iff.2 ⟨add_nonneg (Real.sqrt_nonneg _) (Real.sqrt_nonneg _), ?_⟩
  have h1 : S ≤ Real.sqrt A * Real.sqrt B := by
    rw [← Real.sqrt_mul hA]
    exact Real.le_sqrt_of_sq_le h
  have h2 := Real.sq_sqrt hA
  have h3 := Real.sq_sqrt hB
  nlinarith

/-! ### C100 -/

/-- **C100** The inequality of Cauchy and Schwarz: nowhere does the periodic correlation of two images
exceed what the correlations of each with itself at displacement zero allow. -/
theorem C100_cauchy_schwarz (L : Legal true f.shape roi) (hg : g.shape = f.shape) (pow05 : K → K) (dbg : Bool) :
    ∃ r a b, Api.S2 pow05 dbg roi f g true = ok r ∧ Api.S2 pow05 dbg roi f f true = ok a ∧
      Api.S2 pow05 dbg roi g g true = ok b ∧
      ∀ i j, InBox roi i → InBox roi j → IsZero (displacement roi j) → val r i ^ 2 ≤ val a j * val b j := by
  obtain ⟨r, h1, h2, h3⟩ := C34_unmasked L hg pow05 dbg
  obtain ⟨a, a1, a2, a3⟩ := C34_unmasked L rfl pow05 dbg
  obtain ⟨b, b1, b2, b3⟩ := C34_unmasked (f := g) (g := g) (hg ▸ L) rfl pow05 dbg
  refine ⟨r, a, b, h1, a1, b1, fun i j hi hj hz => ?_⟩
  have hd : (displacement roi i).length = f.shape.length := by
    rw [displacement_length (inbox_length hi), L.same]
  have hd' : (displacement roi j).length = f.shape.length := by
    rw [displacement_length (inbox_length hj), L.same]
  rw [h3 i hi, a3 j hj, b3 j hj, hg, average_zero hd' hz, average_zero hd' hz,
    average_periodic hd (fun _ _ => trivial)]
  have cs := cauchy_schwarz (fun x => val f x) (fun x => val g (wrap f.shape (move x (displacement roi i))))
    (pixels f.shape)
  rw [sum_shift hd fun x => val g x * val g x] at cs
  rw [div_pow, div_mul_div_comm, ← pow_two]
  exact div_le_div_of_nonneg_right cs (sq_nonneg _)

/-- **C100** S2 is monotone: images that are larger, pixel by pixel, have larger correlations, with the
same masks and periodic or not. -/
theorem C100_monotone (L : Legal periodic f.shape roi) (hg : g.shape = f.shape) (hf' : f'.shape = f.shape)
    (hg' : g'.shape = f.shape) (hfm : fmask.shape = f.shape) (hgm : gmask.shape = f.shape) (bf : IsMask fmask)
    (bg : IsMask gmask) (mf : ∀ x ∈ pixels f.shape, 0 ≤ val f x ∧ val f x ≤ val f' x)
    (mg : ∀ x ∈ pixels f.shape, 0 ≤ val g x ∧ val g x ≤ val g' x) (pow05 : K → K) (dbg : Bool) :
    ∃ r r', Api.S2Mask pow05 dbg roi f g fmask gmask periodic = ok r ∧
      Api.S2Mask pow05 dbg roi f' g' fmask gmask periodic = ok r' ∧
      ∀ i, InBox roi i → 0 ≤ val r i ∧ val r i ≤ val r' i := by
  obtain ⟨r, h1, h2, h3⟩ := S2_value L hg hfm hgm bf bg pow05 dbg
  obtain ⟨r', h1', h2', h3'⟩ := S2_value (f := f') (g := g') (hf' ▸ L) (by rw [hg', hf'])
    (hfm.trans hf'.symm) (hgm.trans hf'.symm) bf bg pow05 dbg
  refine ⟨r, r', h1, h1', fun i hi => ?_⟩
  rw [h3 i hi, h3' i hi, hf']
  constructor
  · refine average_nonneg fun p hp => ?_
    obtain ⟨m1, -, m3, -⟩ := mem_pairs.1 hp
    exact mul_nonneg (mf _ m1).1 (mg _ m3).1
  · rw [average_eq_div, average_eq_div]
    refine div_le_div_of_nonneg_right (total_le fun p hp => ?_) (Nat.cast_nonneg _)
    obtain ⟨m1, -, m3, -⟩ := mem_pairs.1 hp
    exact mul_le_mul (mf _ m1).2 (mg _ m3).2 (mg _ m3).1 ((mf _ m1).1.trans (mf _ m1).2)

/-- The values of the correlation at two displacements and at their sum, as sums over the pixels. -/
theorem sum_composed {s : List Nat} {d e c : List Int} (hd : d.length = s.length) (he : e.length = s.length)
    (hc : c.length = s.length) (h : wrap s c = wrap s (move d e)) (φ : List Int → List Int → K) :
    ((pixels s).map fun x => φ x (wrap s (move x c))).sum =
      ((pixels s).map fun x => φ x (wrap s (move (wrap s (move x d)) e))).sum := by
  refine congrArg List.sum (List.map_congr_left fun x hx => ?_)
  have el := inbox_length (mem_pixels.1 hx)
  rw [shift_shift el hd he, wrap_add_congr el hc (by rw [move_length (by omega), hd]) h]

theorem sum_combine {α : Type} (u v : α → K) (l : List α) :
    (l.map fun x => u x + v x).sum = (l.map u).sum + (l.map v).sum := List.sum_map_add

/-- **C100** The triangle inequality of the correlation of a phase: `S2(0) - S2(d)` is the probability
that two pixels at displacement `d` are not in the same phase (half of it), and this cannot be larger for
`d + e` than for `d` and `e` together. -/
theorem C100_triangle (L : Legal true f.shape roi) (hb : IsBinary f) (pow05 : K → K) (dbg : Bool) :
    ∃ r, Api.S2 pow05 dbg roi f f true = ok r ∧
      ∀ i j k o, InBox roi i → InBox roi j → InBox roi k → InBox roi o → IsZero (displacement roi o) →
        wrap f.shape (displacement roi k) =
          wrap f.shape (move (displacement roi i) (displacement roi j)) →
        val r o - val r k ≤ (val r o - val r i) + (val r o - val r j) := by
  obtain ⟨r, h1, h2, h3⟩ := C34_unmasked L rfl pow05 dbg
  refine ⟨r, h1, fun i j k o hi hj hk ho hz h => ?_⟩
  have len : ∀ {i}, InBox roi i → (displacement roi i).length = f.shape.length := fun hi => by
    rw [displacement_length (inbox_length hi), L.same]
  rw [h3 i hi, h3 j hj, h3 k hk, h3 o ho, average_zero (len ho) hz, average_periodic (len hi) (fun _ _ => trivial),
    average_periodic (len hj) (fun _ _ => trivial), average_periodic (len hk) (fun _ _ => trivial),
    ← sub_div, ← sub_div, ← sub_div, ← add_div]
  refine div_le_div_of_nonneg_right ?_ (Nat.cast_nonneg _)
  rw [sum_composed (len hi) (len hj) (len hk) h fun x y => val f x * val f y]
  have e1 := sum_shift (len hi) fun x => val f x * val f x
  have e2 := sum_shift (len hi) fun x => val f x * val f (wrap f.shape (move x (displacement roi j)))
  have key : ((pixels f.shape).map fun x => val f x * val f (wrap f.shape (move x (displacement roi i))) +
        val f (wrap f.shape (move x (displacement roi i))) *
          val f (wrap f.shape (move (wrap f.shape (move x (displacement roi i))) (displacement roi j)))).sum ≤
      ((pixels f.shape).map fun x => val f (wrap f.shape (move x (displacement roi i))) *
          val f (wrap f.shape (move x (displacement roi i))) +
        val f x *
          val f (wrap f.shape (move (wrap f.shape (move x (displacement roi i))) (displacement roi j)))).sum := by
    refine List.sum_le_sum fun x hx => ?_
    have hx1 := mem_pixels.2 (shift_inbox (mem_pixels.1 hx) (len hi))
    have hx2 := mem_pixels.2 (shift_inbox (mem_pixels.1 hx1) (len hj))
    rcases hb _ hx with a | a <;> rcases hb _ hx1 with b | b <;> rcases hb _ hx2 with c | c <;>
      simp only [a, b, c] <;> norm_num
  rw [sum_combine, sum_combine, e1, e2] at key
  linarith

/-- **C100** The complement of an image: with `f' = 1 - f`, the periodic correlation of the complement is
that of the image plus `1 - 2 <f>`. -/
theorem C100_complement (L : Legal true f.shape roi) (h0 : 0 ∉ f.shape) (hf' : f'.shape = f.shape)
    (hc : ∀ x ∈ pixels f.shape, val f' x = 1 - val f x) (pow05 : K → K) (dbg : Bool) :
    ∃ r r', Api.S2 pow05 dbg roi f f true = ok r ∧ Api.S2 pow05 dbg roi f' f' true = ok r' ∧
      ∀ i, InBox roi i → val r' i = val r i + 1 - 2 * meanOf f := by
  obtain ⟨r, h1, h2, h3⟩ := C34_unmasked L rfl pow05 dbg
  obtain ⟨r', h1', h2', h3'⟩ := C34_unmasked (f := f') (g := f') (hf' ▸ L) rfl pow05 dbg
  refine ⟨r, r', h1, h1', fun i hi => ?_⟩
  have hd : (displacement roi i).length = f.shape.length := by
    rw [displacement_length (inbox_length hi), L.same]
  rw [h3 i hi, h3' i hi, hf', average_periodic hd (fun _ _ => trivial), average_periodic hd (fun _ _ => trivial),
    meanOf]
  have hp : (f.shape.prod : K) ≠ 0 := by
    simpa [List.prod_eq_zero_iff] using h0
  have e1 := sum_shift hd fun x => val f x
  have e2 : ((pixels f.shape).map fun x => val f' x * val f' (wrap f.shape (move x (displacement roi i)))).sum =
      ((pixels f.shape).map fun x => val f x * val f (wrap f.shape (move x (displacement roi i))) +
        ((1 - val f x) - val f (wrap f.shape (move x (displacement roi i))))).sum := by
    refine congrArg List.sum (List.map_congr_left fun x hx => ?_)
    rw [hc _ hx, hc _ (mem_pixels.2 (shift_inbox (mem_pixels.1 hx) hd))]
    ring
  have e3 : ∀ l : List (List Int), (l.map fun x => (1 - val f x) -
      val f (wrap f.shape (move x (displacement roi i)))).sum =
      (l.length : K) - (l.map fun x => val f x).sum -
        (l.map fun x => val f (wrap f.shape (move x (displacement roi i)))).sum := by
    intro l
    induction l with
    | nil => simp
    | cons a l ih =>
      simp only [List.map_cons, List.sum_cons, ih, List.length_cons]
      push_cast
      ring
  rw [e2, sum_combine, e3, e1, pixels_length]
  field_simp
  ring

/-- **C100** The triangle inequality of the height-height correlation: it is a distance between the image
and its shifted copies. -/
theorem C100_heightheight {f : Nd ℝ} (L : Legal true f.shape roi) (dbg : Bool) :
    ∃ r, Api.heightheight Real.sqrt dbg roi f true = ok r ∧
      ∀ i j k, InBox roi i → InBox roi j → InBox roi k →
        wrap f.shape (displacement roi k) =
          wrap f.shape (move (displacement roi i) (displacement roi j)) →
        val r k ≤ val r i + val r j := by
  obtain ⟨r, h1, h2, h3⟩ := C40_unmasked L Real.sqrt dbg
  refine ⟨r, h1, fun i j k hi hj hk h => ?_⟩
  have len : ∀ {i}, InBox roi i → (displacement roi i).length = f.shape.length := fun hi => by
    rw [displacement_length (inbox_length hi), L.same]
  rw [h3 i hi, h3 j hj, h3 k hk, average_periodic (len hi) (fun _ _ => trivial),
    average_periodic (len hj) (fun _ _ => trivial), average_periodic (len hk) (fun _ _ => trivial),
    sum_composed (len hi) (len hj) (len hk) h fun x y => (val f y - val f x) ^ 2,
    ← sum_shift (len hi) fun x => (val f (wrap f.shape (move x (displacement roi j))) - val f x) ^ 2]
  rw [Real.sqrt_div' _ (Nat.cast_nonneg _), Real.sqrt_div' _ (Nat.cast_nonneg _),
    Real.sqrt_div' _ (Nat.cast_nonneg _), ← add_div]
  refine div_le_div_of_nonneg_right ?_ (Real.sqrt_nonneg _)
  have cs := cauchy_schwarz (fun x => val f (wrap f.shape (move x (displacement roi i))) - val f x)
    (fun x => val f (wrap f.shape (move (wrap f.shape (move x (displacement roi i))) (displacement roi j))) -
      val f (wrap f.shape (move x (displacement roi i)))) (pixels f.shape)
  have hA := sum_squares_nonneg (fun x => val f (wrap f.shape (move x (displacement roi i))) - val f x)
    (pixels f.shape)
  have hB := sum_squares_nonneg (fun x =>
    val f (wrap f.shape (move (wrap f.shape (move x (displacement roi i))) (displacement roi j))) -
      val f (wrap f.shape (move x (displacement roi i)))) (pixels f.shape)
  have e : ∀ (u v w : List Int → ℝ) (l : List (List Int)), (l.map fun x => (w x - u x) ^ 2).sum =
      (l.map fun x => (v x - u x) * (v x - u x)).sum + (l.map fun x => (w x - v x) * (w x - v x)).sum +
        2 * (l.map fun x => (v x - u x) * (w x - v x)).sum := by
    intro u v w l
    induction l with
    | nil => simp
    | cons a l ih =>
      simp only [List.map_cons, List.sum_cons, ih]
      ring
  rw [e (fun x => val f x) (fun x => val f (wrap f.shape (move x (displacement roi i))))]
  have m := sqrt_sum_le hA hB cs
  simp only [pow_two] at m ⊢
  exact m

/-! ### The hypotheses are met -/

/-- A periodic row of five pixels of two phases, and its complement. -/
def phaseRow : Nd ℚ := Nd.ofList [5] [1, 1, 0, 1, 0]

def phaseRow' : Nd ℚ := Nd.ofList [5] [0, 0, 1, 0, 1]

example : Legal true phaseRow.shape [5] ∧ IsBinary phaseRow ∧ phaseRow'.shape = phaseRow.shape ∧
    0 ∉ phaseRow.shape ∧ (∀ x ∈ pixels phaseRow.shape, val phaseRow' x = 1 - val phaseRow x) ∧
    InBox [5] [3] ∧ InBox [5] [4] ∧ InBox [5] [0] ∧ IsZero (displacement [5] [2]) ∧
    wrap phaseRow.shape (displacement [5] [0]) =
      wrap phaseRow.shape (move (displacement [5] [3]) (displacement [5] [4])) := by
  refine ⟨legal_self (by decide) (by decide), ?_, rfl, by decide, ?_, by simp [InBox], by simp [InBox],
    by simp [InBox], ?_, by decide⟩
  · unfold IsBinary
    decide +kernel
  · decide +kernel
  · have : displacement [5] [2] = [0] := by decide
    rw [this]
    simp [IsZero]

/-- The values of the correlation: the bounds are not met with equality. -/
example : ((Api.S2 (fun a => a) true [5] phaseRow phaseRow true).map fun r => (List.range 5).map r.get) =
    ok [2 / 5, 1 / 5, 3 / 5, 1 / 5, 2 / 5] := by
  decide +kernel

end Verif.Props
