import Verif.Lemmas.BresenhamRows
import Verif.Lemmas.LineVisits
import Verif.Lemmas.LineShift

/-!
# Pixel paths (C26-C32, C56)

Throughout, `junk` is the content of memory that was never written and `fuel` bounds the number of
iterations of `while (true)` (a result `ok` for all sufficient `fuel` means that the call terminates,
`diverge` for all `fuel` that it does not).
-/

namespace Verif.Props

open Verif Verif.Path Outcome Spec

/-! ### C26 -/

/-- A Bresenham path: from `x0` to `x1`, in the bounding box, with steps of at most one pixel along each
axis, towards `x1`, and of exactly one pixel along every dominant axis. -/
theorem C26_bresenham (junk : ℚ) (fuel : Nat) {x0 x1 : List Int} (h3 : x0.length ≤ 3)
    (hl : x0.length = x1.length) (hne : x0 ≠ x1) :
    ∃ ret, path junk fuel x0 x1 .bresenham = ok ret ∧
      ret.length = chebyshev x0 x1 + 1 ∧ ret.head? = some x0 ∧ ret.getLast? = some x1 ∧
      (∀ x ∈ ret, InSpan x0 x1 x) ∧
      ret.IsChain (fun x y => StepTowards x1 x y ∧ ∀ i < x0.length,
        |x1.getD i 0 - x0.getD i 0| = chebyshev x0 x1 →
          y.getD i 0 = x.getD i 0 + (x1.getD i 0 - x0.getD i 0).sign) := by
  have hn := chebyshev_pos hl hne
  refine ⟨_, bresenham_ok h3 hl (Or.inl hne), by simp, ?_, ?_, ?_, ?_⟩
  · rw [List.range_succ_eq_map, List.map_cons]
    exact congrArg some (brow_zero hn)
  · rw [List.range_succ, List.map_append, List.getLast?_append]
    exact congrArg some (brow_last hl hn)
  · intro x hx
    obtain ⟨k, hk, rfl⟩ := List.mem_map.1 hx
    rw [List.mem_range] at hk
    exact brow_inSpan hl hn (by omega)
  · rw [List.isChain_iff_getElem]
    intro k hk
    simp only [List.length_map, List.length_range] at hk
    simp only [List.getElem_map, List.getElem_range]
    have hstep : ∀ i < x0.length, _ := fun i hi => brow_step (k := k) hl hn (by omega) hi
    refine ⟨⟨?_, by simp, fun i hi => (hstep i (by omega)).1⟩, fun i hi => (hstep i hi).2⟩
    -- the dominant axis moves
    intro he
    have hne' : ((x0.zip x1).map fun p => (p.2 - p.1).natAbs) ≠ [] := by
      intro h
      have : chebyshev x0 x1 = 0 := by rw [chebyshev, h]; rfl
      omega
    obtain ⟨i, hi, e⟩ := (mem_delta hl).1 (foldr_max_mem hne')
    have e' : chebyshev x0 x1 = (x1.getD i 0 - x0.getD i 0).natAbs := e
    have h1 := (hstep i hi).2 (by rw [Int.abs_eq_natAbs]; omega)
    have he' : brow x0 x1 (k + 1) = brow x0 x1 k := he
    rw [he'] at h1
    have h2 : (x1.getD i 0 - x0.getD i 0).sign = 0 := by omega
    rw [Int.sign_eq_zero_iff_zero] at h2
    omega

/-- Two points in three dimensions meet the hypotheses. -/
example : [1, -2, 0].length ≤ 3 ∧ [1, -2, 0].length = [-3, 1, 2].length ∧
    ([1, -2, 0] : List Int) ≠ [-3, 1, 2] := by decide

example (junk : ℚ) : path junk 0 [1, -2, 0] [-3, 1, 2] .bresenham =
    ok [[1, -2, 0], [0, -1, 1], [-1, 0, 1], [-2, 0, 2], [-3, 1, 2]] := by
  have : bresenham [1, -2, 0] [-3, 1, 2] =
      ok [[1, -2, 0], [0, -1, 1], [-1, 0, 1], [-2, 0, 2], [-3, 1, 2]] := by decide +kernel
  exact this

/-! ### C27 -/

/-- Row `k` is the point at `k / n` of the straight line, each coordinate rounded to the nearest integer
(ties away from `x0`). -/
theorem C27_line (junk : ℚ) (fuel : Nat) {x0 x1 : List Int} (h3 : x0.length ≤ 3)
    (hl : x0.length = x1.length) (hne : x0 ≠ x1) :
    ∃ ret, path junk fuel x0 x1 .bresenham = ok ret ∧ ret.length = chebyshev x0 x1 + 1 ∧
      ∀ k < ret.length, (ret.getD k []).length = x0.length ∧ ∀ i < x0.length,
        Rounded (x0.getD i 0) (x1.getD i 0) (chebyshev x0 x1) k ((ret.getD k []).getD i 0) := by
  have hn := chebyshev_pos hl hne
  refine ⟨_, bresenham_ok h3 hl (Or.inl hne), by simp, fun k hk => ?_⟩
  simp only [List.length_map, List.length_range] at hk
  have e : ((List.range (chebyshev x0 x1 + 1)).map fun k : Nat =>
      (List.range x0.length).map (at_ x0 x1 (chebyshev x0 x1) k)).getD k [] = brow x0 x1 k := by
    simp [List.getD, hk, brow]
  rw [e]
  exact ⟨brow_length _ _ _, fun i hi => brow_rounded hn k hi⟩

/-- This determines the path. -/
theorem C27_unique {a b : Int} {n k : Nat} {r r' : Int} (hn : 0 < n) (h : Rounded a b n k r)
    (h' : Rounded a b n k r') : r = r' := rounded_unique hn h h'

/-- `r` is at most half a pixel from the line. -/
theorem C27_half {a b : Int} {n k : Nat} {r : Int} (hn : 0 < n) (h : Rounded a b n k r) :
    |(r : ℚ) - (a + (k / n : ℚ) * (b - a))| ≤ 1 / 2 := by
  have hn' : (0 : ℚ) < n := by exact_mod_cast hn
  have key : |(2 * n * (r - a) - 2 * k * (b - a) : Int)| ≤ (n : Int) := by
    rw [abs_le]
    rcases le_total a b with hab | hab
    · obtain ⟨-, h1, h2⟩ := h.1 hab
      exact ⟨h1.le, h2⟩
    · obtain ⟨-, h1, h2⟩ := h.2 hab
      constructor
      · have : 2 * (n : Int) * (r - a) - 2 * k * (b - a) = -(2 * n * (a - r) - 2 * k * (a - b)) := by ring
        omega
      · have : 2 * (n : Int) * (r - a) - 2 * k * (b - a) = -(2 * n * (a - r) - 2 * k * (a - b)) := by ring
        omega
  have key' : |(2 * n * (r - a) - 2 * k * (b - a) : ℚ)| ≤ n := by exact_mod_cast key
  have e : (r : ℚ) - (a + (k / n : ℚ) * (b - a)) = (2 * n * (r - a) - 2 * k * (b - a)) / (2 * n) := by
    field_simp
    ring
  rw [e, abs_div, abs_of_pos (show (0 : ℚ) < 2 * n by positivity), div_le_iff₀ (by positivity)]
  linarith

/-- Half of the way from 0 to 3 is rounded to 2, half of the way from 0 to -3 to -2. -/
example : Rounded 0 3 4 2 2 ∧ Rounded 0 (-3) 4 2 (-2) := by
  constructor <;> constructor <;> omega

/-! ### C28 -/

theorem path_rows {junk : ℚ} {fuel : Nat} {x0 x1 : List Int} (h3 : x0.length ≤ 3)
    (hl : x0.length = x1.length) (hne : x0 ≠ x1) :
    path junk fuel x0 x1 .bresenham =
      ok ((List.range (chebyshev x0 x1 + 1)).map (brow x0 x1)) :=
  bresenham_ok h3 hl (Or.inl hne)

theorem getD_addPt {x c : List Int} (hc : c.length = x.length) {i : Nat} (hi : i < x.length) :
    (addPt x c).getD i 0 = x.getD i 0 + c.getD i 0 := by
  simp [addPt, List.getD, hi, hc]

theorem getD_reflectPt {s x : List Int} (hs : s.length = x.length) {i : Nat} (hi : i < x.length) :
    (reflectPt s x).getD i 0 = s.getD i 0 * x.getD i 0 := by
  simp [reflectPt, List.getD, hi, hs]

/-- Translating both end points translates the path. -/
theorem C28_translate (junk : ℚ) (fuel : Nat) {x0 x1 c : List Int} (h3 : x0.length ≤ 3)
    (hl : x0.length = x1.length) (hc : c.length = x0.length) (hne : x0 ≠ x1) :
    path junk fuel (addPt x0 c) (addPt x1 c) .bresenham =
      (path junk fuel x0 x1 .bresenham).map fun ret => ret.map fun x => addPt x c := by
  have l0 : (addPt x0 c).length = x0.length := by simp [addPt, hc]
  have l1 : (addPt x1 c).length = x0.length := by simp [addPt]; omega
  have hd : ∀ i < x0.length, (addPt x1 c).getD i 0 - (addPt x0 c).getD i 0 =
      x1.getD i 0 - x0.getD i 0 := by
    intro i hi
    rw [getD_addPt (by omega) (by omega), getD_addPt hc hi]
    omega
  have hne' : addPt x0 c ≠ addPt x1 c := by
    intro h
    apply hne
    apply List.ext_getElem hl
    intro i h1 h2
    have := hd i h1
    rw [h] at this
    simp [List.getD, h1, h2] at this
    omega
  have hn : chebyshev (addPt x0 c) (addPt x1 c) = chebyshev x0 x1 := by
    apply chebyshev_congr (by omega) hl
    · intro i hi
      exact ⟨i, by omega, by rw [hd i (by omega)]⟩
    · intro i hi
      exact ⟨i, by omega, by rw [hd i (by omega)]⟩
  rw [path_rows (by omega) (by omega) hne', path_rows h3 hl hne, hn]
  simp only [Outcome.map, List.map_map]
  congr 1
  apply List.map_congr_left
  intro k _
  simp only [Function.comp]
  apply List.ext_getElem
  · rw [brow_length, l0]; simp [addPt, brow_length, hc]
  · intro i h1 h2
    have hi : i < x0.length := by rw [brow_length, l0] at h1; exact h1
    have e1 := brow_getD (xa := addPt x0 c) (xb := addPt x1 c) (k := k) (i := i) (by omega)
    have e2 := getD_addPt (x := brow x0 x1 k) (c := c) (by rw [brow_length, hc]) (i := i)
      (by rw [brow_length]; exact hi)
    rw [brow_getD hi] at e2
    rw [hn] at e1
    unfold at_ at e1 e2
    rw [hd i hi, getD_addPt hc hi] at e1
    have f1 : (brow (addPt x0 c) (addPt x1 c) k).getD i 0 = (brow (addPt x0 c) (addPt x1 c) k)[i] := by
      simp [List.getD, h1]
    have f2 : (addPt (brow x0 x1 k) c).getD i 0 = (addPt (brow x0 x1 k) c)[i] := by
      simp only [List.getD, h2, List.getElem?_eq_getElem, Option.getD_some]
    rw [← f1, ← f2, e1, e2]
    ring

/-- Reflecting both end points reflects the path. -/
theorem C28_reflect (junk : ℚ) (fuel : Nat) {x0 x1 s : List Int} (h3 : x0.length ≤ 3)
    (hl : x0.length = x1.length) (hc : s.length = x0.length) (hs : ∀ a ∈ s, a = 1 ∨ a = -1)
    (hne : x0 ≠ x1) :
    path junk fuel (reflectPt s x0) (reflectPt s x1) .bresenham =
      (path junk fuel x0 x1 .bresenham).map fun ret => ret.map fun x => reflectPt s x := by
  have l0 : (reflectPt s x0).length = x0.length := by simp [reflectPt, hc]
  have l1 : (reflectPt s x1).length = x0.length := by simp [reflectPt]; omega
  have hs' : ∀ i < x0.length, s.getD i 0 = 1 ∨ s.getD i 0 = -1 := by
    intro i hi
    have h : i < s.length := by omega
    have e : s.getD i 0 = s[i] := by simp [List.getD, h]
    rw [e]
    exact hs _ (List.getElem_mem h)
  have hd : ∀ i < x0.length, (reflectPt s x1).getD i 0 - (reflectPt s x0).getD i 0 =
      s.getD i 0 * (x1.getD i 0 - x0.getD i 0) := by
    intro i hi
    rw [getD_reflectPt (by omega) (by omega), getD_reflectPt hc hi]
    ring
  have habs : ∀ i < x0.length, |(reflectPt s x1).getD i 0 - (reflectPt s x0).getD i 0| =
      |x1.getD i 0 - x0.getD i 0| := by
    intro i hi
    rw [hd i hi]
    rcases hs' i hi with h | h <;> rw [h]
    · rw [one_mul]
    · rw [neg_one_mul, abs_neg]
  have hn : chebyshev (reflectPt s x0) (reflectPt s x1) = chebyshev x0 x1 := by
    have key : ∀ i < x0.length, ((reflectPt s x1).getD i 0 - (reflectPt s x0).getD i 0).natAbs =
        (x1.getD i 0 - x0.getD i 0).natAbs := by
      intro i hi
      have := habs i hi
      rw [Int.abs_eq_natAbs, Int.abs_eq_natAbs] at this
      omega
    apply chebyshev_congr (by omega) hl
    · intro i hi
      exact ⟨i, by omega, key i (by omega)⟩
    · intro i hi
      exact ⟨i, by omega, key i (by omega)⟩
  have hne' : reflectPt s x0 ≠ reflectPt s x1 := by
    intro h
    have h1 := chebyshev_pos hl hne
    rw [← hn, h] at h1
    have h2 : chebyshev (reflectPt s x1) (reflectPt s x1) = 0 := by
      by_contra h0
      have hne0 : (((reflectPt s x1).zip (reflectPt s x1)).map fun p => (p.2 - p.1).natAbs) ≠ [] := by
        intro h
        apply h0
        rw [chebyshev, h]; rfl
      obtain ⟨i, hi, e⟩ := (mem_delta rfl).1 (foldr_max_mem hne0)
      have e' : chebyshev (reflectPt s x1) (reflectPt s x1) = _ := e
      omega
    omega
  rw [path_rows (by omega) (by omega) hne', path_rows h3 hl hne, hn]
  simp only [Outcome.map, List.map_map]
  congr 1
  apply List.map_congr_left
  intro k _
  simp only [Function.comp]
  apply List.ext_getElem
  · rw [brow_length, l0]; simp [reflectPt, brow_length, hc]
  · intro i h1 h2
    have hi : i < x0.length := by rw [brow_length, l0] at h1; exact h1
    have e1 := brow_getD (xa := reflectPt s x0) (xb := reflectPt s x1) (k := k) (i := i) (by omega)
    have e2 := getD_reflectPt (x := brow x0 x1 k) (s := s) (by rw [brow_length, hc]) (i := i)
      (by rw [brow_length]; exact hi)
    rw [brow_getD hi] at e2
    rw [hn] at e1
    unfold at_ at e1 e2
    rw [habs i hi, hd i hi, getD_reflectPt hc hi] at e1
    have f1 : (brow (reflectPt s x0) (reflectPt s x1) k).getD i 0 =
        (brow (reflectPt s x0) (reflectPt s x1) k)[i] := by
      simp [List.getD, h1]
    have f2 : (reflectPt s (brow x0 x1 k)).getD i 0 = (reflectPt s (brow x0 x1 k))[i] := by
      simp only [List.getD, h2, List.getElem?_eq_getElem, Option.getD_some]
    rw [← f1, ← f2, e1, e2]
    rcases hs' i hi with h | h <;> rw [h]
    · rw [one_mul, one_mul, one_mul]
    · rw [neg_one_mul, neg_one_mul, neg_one_mul, Int.sign_neg]
      ring

/-- Permuting the axes permutes the axes of the path (although the dominant axis is chosen by a rule
that depends on the order). -/
theorem C28_permute (junk : ℚ) (fuel : Nat) {x0 x1 : List Int} {σ : List Nat} (h3 : x0.length ≤ 3)
    (hl : x0.length = x1.length) (hσ : σ.Perm (List.range x0.length)) (hne : x0 ≠ x1) :
    path junk fuel (permutePt σ x0) (permutePt σ x1) .bresenham =
      (path junk fuel x0 x1 .bresenham).map fun ret => ret.map fun x => permutePt σ x := by
  have hlen : σ.length = x0.length := by rw [hσ.length_eq]; simp
  have l0 : (permutePt σ x0).length = x0.length := by simp [permutePt, hlen]
  have l1 : (permutePt σ x1).length = x0.length := by simp [permutePt, hlen]
  have hget : ∀ (x : List Int) (i : Nat) (h : i < σ.length), (permutePt σ x).getD i 0 = x.getD σ[i] 0 := by
    intro x i h
    simp [permutePt, List.getD, h]
  have hlt : ∀ (i : Nat) (h : i < σ.length), σ[i] < x0.length := by
    intro i h
    have := hσ.mem_iff.1 (List.getElem_mem h)
    simpa using this
  have hn : chebyshev (permutePt σ x0) (permutePt σ x1) = chebyshev x0 x1 := by
    apply chebyshev_congr (by omega) hl
    · intro i hi
      have h : i < σ.length := by omega
      exact ⟨σ[i], hlt i h, by rw [hget _ i h, hget _ i h]⟩
    · intro j hj
      have : j ∈ σ := hσ.mem_iff.2 (by simpa using hj)
      obtain ⟨i, hi, rfl⟩ := List.mem_iff_getElem.1 this
      exact ⟨i, by omega, by rw [hget _ i hi, hget _ i hi]⟩
  have hne' : permutePt σ x0 ≠ permutePt σ x1 := by
    intro h
    apply hne
    apply List.ext_getElem hl
    intro j h1 h2
    have : j ∈ σ := hσ.mem_iff.2 (by simpa using h1)
    obtain ⟨i, hi, rfl⟩ := List.mem_iff_getElem.1 this
    have e1 := hget x0 i hi
    have e2 := hget x1 i hi
    rw [h, e2] at e1
    simp only [List.getD, h1, h2, List.getElem?_eq_getElem, Option.getD_some] at e1
    exact e1.symm
  rw [path_rows (by omega) (by omega) hne', path_rows h3 hl hne, hn]
  simp only [Outcome.map, List.map_map]
  congr 1
  apply List.map_congr_left
  intro k _
  simp only [Function.comp]
  apply List.ext_getElem
  · rw [brow_length, l0]; simp [permutePt, hlen]
  · intro i h1 h2
    have hi : i < σ.length := by rw [brow_length, l0] at h1; omega
    have e1 := brow_getD (xa := permutePt σ x0) (xb := permutePt σ x1) (k := k) (i := i) (by omega)
    have e2 := hget (brow x0 x1 k) i hi
    rw [brow_getD (hlt i hi)] at e2
    rw [hn] at e1
    unfold at_ at e1 e2
    rw [hget x0 i hi, hget x1 i hi] at e1
    have f1 : (brow (permutePt σ x0) (permutePt σ x1) k).getD i 0 =
        (brow (permutePt σ x0) (permutePt σ x1) k)[i] := by
      simp [List.getD, h1]
    have f2 : (permutePt σ (brow x0 x1 k)).getD i 0 = (permutePt σ (brow x0 x1 k))[i] := by
      simp only [List.getD, h2, List.getElem?_eq_getElem, Option.getD_some]
    rw [← f1, ← f2, e1, e2]

/-- Cyclic permutation, reflection of the second axis, translation. -/
example : [1, 2, 0].Perm (List.range 3) ∧ (∀ a ∈ ([1, -1, 1] : List Int), a = 1 ∨ a = -1) ∧
    ([1, -2, 0] : List Int) ≠ [-3, 1, 2] := by decide

/-! ### C29 -/

/-- What holds: Bresenham in 3D, and `full` in every dimension, return the single pixel. -/
theorem C29_single_partial (junk : ℚ) (fuel : Nat) {x : List Int} (h3 : x.length ≤ 3) :
    (x.length = 3 → path junk fuel x x .bresenham = ok [x]) ∧
    path junk (fuel + 1) x x .full = ok [x] := by
  constructor
  · intro h
    have hn : chebyshev x x = 0 := by
      by_contra h0
      have hne0 : ((x.zip x).map fun p => (p.2 - p.1).natAbs) ≠ [] := by
        intro h
        apply h0
        rw [chebyshev, h]; rfl
      obtain ⟨i, hi, e⟩ := (mem_delta rfl).1 (foldr_max_mem hne0)
      have e' : chebyshev x x = _ := e
      omega
    show bresenham x x = _
    rw [bresenham_ok h3 rfl (Or.inr h), hn]
    simp only [Nat.zero_add, List.range_one, List.map_cons, List.map_nil]
    congr 2
    apply List.ext_getElem (by simp)
    intro i h1 h2
    simp [at_, h2]
  · show line _ junk (fuel + 1) x x = _
    unfold line
    rw [if_neg (by omega)]
    simp only
    have hz : ∀ a ∈ List.zipWith (axis ℚ) x x, a.v = 0 ∧ a.c = a.xb := by
      intro a ha
      obtain ⟨i, hi, rfl⟩ := List.mem_iff_getElem.1 ha
      rw [List.getElem_zipWith]
      simp [axis, Axis.v]
    have hrow : row (List.zipWith (axis ℚ) x x) = x := by
      apply List.ext_getElem (by simp [row])
      intro i h1 h2
      simp [row, axis]
    have hf : ∀ (tm : ℚ) (P D : List (Axis ℚ)), (∀ a ∈ P, a.v = 0) → fullRows tm D P = (D ++ P, []) := by
      intro tm P
      induction P with
      | nil => intro D _; simp [fullRows]
      | cons a P ih =>
        intro D h
        rw [fullRows, if_neg (by simp [Axis.selected, h a (by simp)]), ih _ fun b hb => h b (by simp [hb])]
        simp
    unfold lineLoop
    simp only [hf _ _ _ fun a ha => (hz a ha).1]
    rw [if_pos, hrow]
    · rfl
    · rw [List.all_eq_true]
      intro a ha
      obtain ⟨b, hb, rfl⟩ := List.mem_map.1 ha
      have := (hz b (by simpa using hb)).2
      simp [Axis.place, this]

example : ([4, -1, 7] : List Int).length = 3 := rfl

/-- What fails: in one and two dimensions Bresenham reads out of bounds, and `actual` stores the pixel
twice. -/
theorem C29_violated (junk : ℚ) (fuel : Nat) {x : List Int} (h1 : 0 < x.length) :
    (x.length < 3 → path junk fuel x x .bresenham = ub) ∧
    (x.length ≤ 3 → path junk (fuel + 1) x x .actual = ok [x, x]) := by
  constructor
  · intro h
    show bresenham x x = _
    obtain ⟨a, rfl⟩ | ⟨a, b, rfl⟩ : (∃ a, x = [a]) ∨ ∃ a b, x = [a, b] := by
      match x, h1, h with
      | [a], _, _ => exact Or.inl ⟨a, rfl⟩
      | [a, b], _, _ => exact Or.inr ⟨a, b, rfl⟩
      | _ :: _ :: _ :: _, _, h => simp at h; omega
    · have hd : dominant (fun i : Nat => if i < [a].length then
          2 * |([a].getD i 0 : Int) - [a].getD i 0| else 1) = 1 := by
        simp [dominant]
      unfold bresenham
      rw [if_neg (by simp)]
      simp only [hd]
      rw [if_neg (by decide)]
      unfold bLoop
      rfl
    · have hd : dominant (fun i : Nat => if i < [a, b].length then
          2 * |([a, b].getD i 0 : Int) - [a, b].getD i 0| else 1) = 2 := by
        simp [dominant]
      unfold bresenham
      rw [if_neg (by simp)]
      simp only [hd]
      rw [if_neg (by decide)]
      unfold bLoop
      rfl
  · intro h3
    show line _ junk (fuel + 1) x x = _
    unfold line
    rw [if_neg (by omega)]
    simp only
    have hz : ∀ a ∈ List.zipWith (axis ℚ) x x, a.v = 0 ∧ a.c = a.xb := by
      intro a ha
      obtain ⟨i, hi, rfl⟩ := List.mem_iff_getElem.1 ha
      rw [List.getElem_zipWith]
      simp [axis, Axis.v]
    have hrow : row (List.zipWith (axis ℚ) x x) = x := by
      apply List.ext_getElem (by simp [row])
      intro i h1 h2
      simp [row, axis]
    have hf : ∀ tm : ℚ, actualRows tm (List.zipWith (axis ℚ) x x) = (List.zipWith (axis ℚ) x x, [x]) := by
      intro tm
      have : ((List.zipWith (axis ℚ) x x).map fun a => if a.selected tm then a.advance else a) =
          List.zipWith (axis ℚ) x x := by
        conv_rhs => rw [← List.map_id (List.zipWith (axis ℚ) x x)]
        apply List.map_congr_left
        intro a ha
        rw [if_neg (by simp [Axis.selected, (hz a ha).1])]
        rfl
      simp only [actualRows, this, hrow]
    unfold lineLoop
    simp only [hf]
    rw [if_pos, hrow]
    · rfl
    · rw [List.all_eq_true]
      intro a ha
      obtain ⟨b, hb, rfl⟩ := List.mem_map.1 ha
      have := (hz b (by simpa using hb)).2
      simp [Axis.place, this]

/-! ### C30-C32 -/

/-- The origin. -/
abbrev origin (n : Nat) : List Int := List.replicate n 0

/-- What holds of C30: from the origin, `actual` and `full` terminate within `Σ |x1_i|` iterations and
lead from the origin to `x1`. -/
theorem C30_origin_partial (junk : ℚ) {fuel : Nat} {x1 : List Int} (h3 : x1.length ≤ 3)
    (hb : ∀ a ∈ x1, a.natAbs ≤ 1000000) (hne : manhattan (origin x1.length) x1 ≠ 0)
    (hf : manhattan (origin x1.length) x1 ≤ fuel) {mode : Mode} (hm : mode = .actual ∨ mode = .full) :
    ∃ ret, path junk fuel (origin x1.length) x1 mode = ok ret ∧
      ret.head? = some (origin x1.length) ∧ ret.getLast? = some x1 := by
  have hB : 1000000 ≤ 1000000 := le_refl _
  have hlast : ∀ out : List (List Int), out.getLast? = some x1 →
      (origin x1.length :: out).getLast? = some x1 := by
    intro out h
    rw [List.getLast?_cons, h]; rfl
  rcases hm with rfl | rfl
  · obtain ⟨out, h1, h2, -⟩ := line_ok (L := fun a b => a ≤ b) hB h3 hb (fun a b c d h h' => by omega)
      (actual_rows hB) junk hne hf
    exact ⟨_, h1, rfl, hlast out h2⟩
  · obtain ⟨out, h1, h2, -⟩ := line_ok (rows := fun tm => fullRows tm []) (L := fun a b => a = b) hB h3 hb (fun a b c d h h' => by omega)
      (full_rows hB) junk hne hf
    exact ⟨_, h1, rfl, hlast out h2⟩

/-- A displacement with a zero, a positive and a negative component meets the hypotheses. -/
example : (∀ a ∈ ([0, 3, -2] : List Int), a.natAbs ≤ 1000000) ∧ manhattan (origin 3) [0, 3, -2] = 5 := by
  decide

/-- The segment is on the line through the origin, as far as the axes along which it moves are
concerned. In particular, all segments along one axis are. -/
def OnLine (x0 v : List Int) : Prop :=
  ∃ l : ℚ, ∀ i < v.length, v.getD i 0 ≠ 0 → (x0.getD i 0 : ℚ) = l * v.getD i 0

/-- From `x0 ≠ 0` the path is the path from the origin, shifted, if the line passes through the
origin. -/
theorem C30_translate_partial (junk junk' : ℚ) (fuel : Nat) {x0 v : List Int} (h3 : v.length ≤ 3)
    (hl : x0.length = v.length) (hc : OnLine x0 v) (hne : ∃ a ∈ v, a ≠ 0) {mode : Mode}
    (hm : mode = .actual ∨ mode = .full) :
    path junk' fuel x0 (addPt v x0) mode =
      (path junk fuel (origin v.length) v mode).map fun ret => ret.map fun y => addPt y x0 := by
  obtain ⟨l, hc⟩ := hc
  rcases hm with rfl | rfl
  · exact line_shift actual_shifts junk junk' fuel h3 hl hc hne
  · exact line_shift full_shifts junk junk' fuel h3 hl hc hne

/-- Every segment along one axis meets the hypothesis: there `actual` and `full` are correct from every
start. -/
example (a b c d : Int) (h : d ≠ 0) : OnLine [a, b, c] [0, d, 0] := by
  refine ⟨b / d, fun i hi h0 => ?_⟩
  have : (d : ℚ) ≠ 0 := by exact_mod_cast h
  match i, hi with
  | 0, _ => simp at h0
  | 1, _ => simp; field_simp
  | 2, _ => simp at h0
  | i + 3, hi => simp at hi

/-- C30 fails: from (1, 0) to (2, 1) neither mode terminates. -/
theorem C30_violated (junk : ℚ) (fuel : Nat) {mode : Mode} (hm : mode = .actual ∨ mode = .full) :
    path junk fuel [1, 0] [2, 1] mode = diverge := by
  -- the state after some steps: the end point was missed
  have key : ∀ (rows : ℚ → List (Axis ℚ) → List (Axis ℚ) × List (List Int)),
      (∀ (tm : ℚ) (a b : Axis ℚ), a.selected tm →
        ((rows tm [a, b]).1 = [a.advance, if b.selected tm then b.advance else b])) →
      ∀ (fuel m : Nat) (τ : ℚ) (ret : List (List Int)),
        lineLoop rows junk fuel [⟨1, 2, 3 + m, 5 / 2 + m, 1 + τ⟩, ⟨0, 1, 1 + m, 3 / 2 + m, τ⟩] ret =
          diverge := by
    intro rows hr fuel
    induction fuel with
    | zero => intro m τ ret; rfl
    | succ fuel ih =>
      intro m τ ret
      unfold lineLoop
      have va : (⟨1, 2, 3 + m, 5 / 2 + m, 1 + τ⟩ : Axis ℚ).v = 1 := by simp only [Axis.v]; norm_num
      have vb : (⟨0, 1, 1 + m, 3 / 2 + m, τ⟩ : Axis ℚ).v = 1 := by simp only [Axis.v]; norm_num
      have ta : (⟨1, 2, 3 + m, 5 / 2 + m, 1 + τ⟩ : Axis ℚ).t = 3 / 2 + m - τ := by
        simp only [Axis.t, va]; ring
      have tb : (⟨0, 1, 1 + m, 3 / 2 + m, τ⟩ : Axis ℚ).t = 3 / 2 + m - τ := by
        simp only [Axis.t, vb]; ring
      have ht : tmin junk [⟨1, 2, 3 + m, 5 / 2 + m, 1 + τ⟩, ⟨0, 1, 1 + m, 3 / 2 + m, τ⟩] = 3 / 2 + m - τ := by
        simp [tmin, va, vb, ta, tb]
      have e := hr (3 / 2 + m - τ) ⟨1, 2, 3 + m, 5 / 2 + m, 1 + τ⟩ ⟨0, 1, 1 + m, 3 / 2 + m, τ⟩
        (by simp [Axis.selected, va, ta])
      rw [if_pos (by simp [Axis.selected, vb, tb])] at e
      simp only [ht, e]
      have ea : ((⟨1, 2, 3 + m, 5 / 2 + m, 1 + τ⟩ : Axis ℚ).advance).place (3 / 2 + m - τ) =
          ⟨1, 2, 3 + (m + 1 : Nat), 5 / 2 + (m + 1 : Nat), 1 + (3 / 2 + m - τ)⟩ := by
        simp only [Axis.advance, Axis.place, Axis.sign, Axis.v]
        norm_num
        constructor <;> ring
      have eb : ((⟨0, 1, 1 + m, 3 / 2 + m, τ⟩ : Axis ℚ).advance).place (3 / 2 + m - τ) =
          ⟨0, 1, 1 + (m + 1 : Nat), 3 / 2 + (m + 1 : Nat), 3 / 2 + m - τ⟩ := by
        simp only [Axis.advance, Axis.place, Axis.sign, Axis.v]
        norm_num
        constructor <;> ring
      simp only [List.map_cons, List.map_nil, ea, eb]
      rw [if_neg (by simp; omega)]
      exact ih (m + 1) _ _
  have start : ∀ (rows : ℚ → List (Axis ℚ) → List (Axis ℚ) × List (List Int)),
      (∀ (tm : ℚ) (a b : Axis ℚ), a.selected tm →
        ((rows tm [a, b]).1 = [a.advance, if b.selected tm then b.advance else b])) →
      line rows junk fuel [1, 0] [2, 1] = diverge := by
    intro rows hr
    unfold line
    rw [if_neg (by simp)]
    simp only [List.zipWith_cons_cons, List.zipWith_nil_left]
    have ea : axis ℚ 1 2 = ⟨1, 2, 1, 1 / 2, 1⟩ := by simp [axis, Axis.sign, Axis.v]
    have eb : axis ℚ 0 1 = ⟨0, 1, 0, 1 / 2, 0⟩ := by simp [axis, Axis.sign, Axis.v]
    rw [ea, eb]
    match fuel with
    | 0 => rfl
    | 1 =>
      have ht : tmin junk [⟨1, 2, 1, 1 / 2, 1⟩, ⟨0, 1, 0, 1 / 2, 0⟩] = -1 / 2 := by
        simp [tmin, Axis.v]; unfold Axis.t Axis.v; norm_num
      have e := hr (-1 / 2) ⟨1, 2, 1, 1 / 2, 1⟩ ⟨0, 1, 0, 1 / 2, 0⟩
        (by simp only [Axis.selected, Axis.v, Axis.t]; norm_num)
      rw [if_neg (by simp only [Axis.selected, Axis.v, Axis.t]; norm_num)] at e
      unfold lineLoop
      simp only [ht, e]
      rw [if_neg (by simp [Axis.place, Axis.advance])]
      rfl
    | fuel + 2 =>
      have ht : tmin junk [⟨1, 2, 1, 1 / 2, 1⟩, ⟨0, 1, 0, 1 / 2, 0⟩] = -1 / 2 := by
        simp [tmin, Axis.v]; unfold Axis.t Axis.v; norm_num
      have e := hr (-1 / 2) ⟨1, 2, 1, 1 / 2, 1⟩ ⟨0, 1, 0, 1 / 2, 0⟩
        (by simp only [Axis.selected, Axis.v, Axis.t]; norm_num)
      rw [if_neg (by simp only [Axis.selected, Axis.v, Axis.t]; norm_num)] at e
      unfold lineLoop
      simp only [ht, e]
      rw [if_neg (by simp [Axis.place, Axis.advance])]
      have e1 : List.map (fun a : Axis ℚ => a.place (-1 / 2))
          [(⟨1, 2, 1, 1 / 2, 1⟩ : Axis ℚ).advance, ⟨0, 1, 0, 1 / 2, 0⟩] =
          [⟨1, 2, 2, 3 / 2, 1 / 2⟩, ⟨0, 1, 0, 1 / 2, -1 / 2⟩] := by
        simp only [List.map_cons, List.map_nil, Axis.advance, Axis.place, Axis.sign, Axis.v]
        norm_num
      rw [e1]
      have ht2 : tmin junk [⟨1, 2, 2, 3 / 2, 1 / 2⟩, ⟨0, 1, 0, 1 / 2, -1 / 2⟩] = 1 := by
        simp [tmin, Axis.v]; unfold Axis.t Axis.v; norm_num
      have e2 := hr 1 ⟨1, 2, 2, 3 / 2, 1 / 2⟩ ⟨0, 1, 0, 1 / 2, -1 / 2⟩
        (by simp only [Axis.selected, Axis.v, Axis.t]; norm_num)
      rw [if_pos (by simp only [Axis.selected, Axis.v, Axis.t]; norm_num)] at e2
      unfold lineLoop
      simp only [ht2, e2]
      rw [if_neg (by simp [Axis.place, Axis.advance])]
      have e3 : List.map (fun a : Axis ℚ => a.place 1)
          [(⟨1, 2, 2, 3 / 2, 1 / 2⟩ : Axis ℚ).advance, (⟨0, 1, 0, 1 / 2, -1 / 2⟩ : Axis ℚ).advance] =
          [⟨1, 2, 3 + (0 : Nat), 5 / 2 + (0 : Nat), 1 + 1⟩, ⟨0, 1, 1 + (0 : Nat), 3 / 2 + (0 : Nat), 1⟩] := by
        simp only [List.map_cons, List.map_nil, Axis.advance, Axis.place, Axis.sign, Axis.v]
        norm_num
      rw [e3]
      exact key rows hr fuel 0 1 _
  rcases hm with rfl | rfl
  · exact start actualRows fun tm a b ha => by simp [actualRows, ha]
  · refine start (fun tm => fullRows tm []) fun tm a b ha => ?_
    by_cases hb : b.selected tm <;> simp [fullRows, ha, hb]

/-- `full` from the origin: one unit along one axis at a time, towards `x1`, `Σ |x1_i|` times. -/
theorem C31_full_partial (junk : ℚ) {fuel : Nat} {x1 : List Int} (h3 : x1.length ≤ 3)
    (hb : ∀ a ∈ x1, a.natAbs ≤ 1000000) (hne : manhattan (origin x1.length) x1 ≠ 0)
    (hf : manhattan (origin x1.length) x1 ≤ fuel) :
    ∃ ret, path junk fuel (origin x1.length) x1 .full = ok ret ∧
      ret.length = 1 + manhattan (origin x1.length) x1 ∧ ret.IsChain (UnitStep x1) ∧
      ∀ x ∈ ret, InSpan (origin x1.length) x1 x := by
  obtain ⟨out, h1, -, h2, h4, h5⟩ := line_ok (rows := fun tm => fullRows tm []) (L := fun a b => a = b)
    (le_refl 1000000) h3 hb (fun a b c d h h' => by omega) (full_rows (le_refl _)) junk hne hf
  refine ⟨_, h1, by rw [List.length_cons, h5, Nat.add_comm], h2, fun x hx => ?_⟩
  rcases List.mem_cons.1 hx with rfl | hx
  · refine ⟨rfl, fun i hi => ?_⟩
    constructor
    · exact min_le_left _ _
    · exact le_max_left _ _
  · exact (h4 x hx).1

/-- `actual` from the origin: at most one unit along each axis at a time, never away from `x1`. -/
theorem C31_actual_partial (junk : ℚ) {fuel : Nat} {x1 : List Int} (h3 : x1.length ≤ 3)
    (hb : ∀ a ∈ x1, a.natAbs ≤ 1000000) (hne : manhattan (origin x1.length) x1 ≠ 0)
    (hf : manhattan (origin x1.length) x1 ≤ fuel) :
    ∃ ret, path junk fuel (origin x1.length) x1 .actual = ok ret ∧
      ret.length ≤ 1 + manhattan (origin x1.length) x1 ∧ ret.IsChain (StepTowards x1) ∧
      ∀ x ∈ ret, InSpan (origin x1.length) x1 x := by
  obtain ⟨out, h1, -, h2, h4, h5⟩ := line_ok (L := fun a b => a ≤ b)
    (le_refl 1000000) h3 hb (fun a b c d h h' => by omega) (actual_rows (le_refl _)) junk hne hf
  refine ⟨_, h1, by rw [List.length_cons, Nat.add_comm]; exact Nat.add_le_add_left h5 1, h2, fun x hx => ?_⟩
  rcases List.mem_cons.1 hx with rfl | hx
  · refine ⟨rfl, fun i hi => ?_⟩
    constructor
    · exact min_le_left _ _
    · exact le_max_left _ _
  · exact (h4 x hx).1

/-- From the origin to (1, 1): `full` makes two steps, `actual` one. -/
example : path (0 : ℚ) 2 [0, 0] [1, 1] .full = ok [[0, 0], [1, 0], [1, 1]] ∧
    path (0 : ℚ) 2 [0, 0] [1, 1] .actual = ok [[0, 0], [1, 1]] := by decide +kernel

theorem meets_origin (x1 : List Int) : Meets x1 (origin x1.length) := by
  refine ⟨0, le_refl _, by norm_num, ?_⟩
  induction x1 with
  | nil => exact List.Forall₂.nil
  | cons a x ih => exact List.Forall₂.cons (by norm_num) ih

/-- Every row of `actual` is a pixel that the segment meets. -/
theorem C32_actual_partial (junk : ℚ) {fuel : Nat} {x1 : List Int} (h3 : x1.length ≤ 3)
    (hb : ∀ a ∈ x1, a.natAbs ≤ 1000000) (hne : manhattan (origin x1.length) x1 ≠ 0)
    (hf : manhattan (origin x1.length) x1 ≤ fuel) :
    ∃ ret, path junk fuel (origin x1.length) x1 .actual = ok ret ∧ ∀ x ∈ ret, Meets x1 x := by
  obtain ⟨out, h1, -, h2, h4, h5⟩ := line_ok (L := fun a b => a ≤ b)
    (le_refl 1000000) h3 hb (fun a b c d h h' => by omega) (actual_rows (le_refl _)) junk hne hf
  refine ⟨_, h1, fun x hx => ?_⟩
  rcases List.mem_cons.1 hx with rfl | hx
  · exact meets_origin x1
  · exact (h4 x hx).2

/-- Every row of `full` is a pixel that the segment meets. -/
theorem C32_full_partial (junk : ℚ) {fuel : Nat} {x1 : List Int} (h3 : x1.length ≤ 3)
    (hb : ∀ a ∈ x1, a.natAbs ≤ 707) (hne : manhattan (origin x1.length) x1 ≠ 0)
    (hf : manhattan (origin x1.length) x1 ≤ fuel) :
    ∃ ret, path junk fuel (origin x1.length) x1 .full = ok ret ∧ ∀ x ∈ ret, Meets x1 x := by
  obtain ⟨out, h1, -, h2, h4, h5⟩ := line_ok (rows := fun tm => fullRows tm []) (L := fun a b => a = b)
    (show 707 ≤ 1000000 by omega) h3 hb (fun a b c d h h' => by omega) (full_rows (by omega)) junk hne hf
  refine ⟨_, h1, fun x hx => ?_⟩
  rcases List.mem_cons.1 hx with rfl | hx
  · exact meets_origin x1
  · exact (h4 x hx).2 hb

/-! ### C56 -/

/-- Every pixel whose interior the segment crosses is a row, in both modes. -/
theorem C56_crossed_partial (junk : ℚ) {fuel : Nat} {x1 : List Int} (h3 : x1.length ≤ 3)
    (hb : ∀ a ∈ x1, a.natAbs ≤ 707) (hne : manhattan (origin x1.length) x1 ≠ 0)
    (hf : manhattan (origin x1.length) x1 ≤ fuel) {mode : Mode} (hm : mode = .actual ∨ mode = .full) :
    ∃ ret, path junk fuel (origin x1.length) x1 mode = ok ret ∧ ∀ y, Crosses x1 y → y ∈ ret := by
  have hB : 707 ≤ 1000000 := by omega
  have hlast : ∀ {out : List (List Int)} {x : List Int}, out.getLast? = some x → x ∈ out :=
    fun h => List.mem_of_getLast? h
  obtain ⟨ret, h1, -, -⟩ := C30_origin_partial junk h3 (fun a ha => (hb a ha).trans hB) hne hf hm
  refine ⟨ret, h1, fun y hy => ?_⟩
  rcases hm with rfl | rfl
  · obtain ⟨ret', h2, h4⟩ := line_visits h3 hb (fun ps τ T a b c d => by
      obtain ⟨out, e, hl, -⟩ := actual_rows hB ps τ T a b c d
      exact ⟨out, e, hlast hl⟩) junk hne hf hy
    have h1' : line actualRows junk fuel (List.replicate x1.length 0) x1 = ok ret := h1
    rw [h1'] at h2
    cases h2
    exact h4
  · obtain ⟨ret', h2, h4⟩ := line_visits (rows := fun tm => fullRows tm []) h3 hb (fun ps τ T a b c d => by
      obtain ⟨out, e, hl, -⟩ := full_rows hB ps τ T a b c d
      exact ⟨out, e, hlast hl⟩) junk hne hf hy
    have h1' : line (fun tm => fullRows tm []) junk fuel (List.replicate x1.length 0) x1 = ok ret := h1
    rw [h1'] at h2
    cases h2
    exact h4

/-- The segment to (3, 1) crosses the pixel (2, 1), at parameter 2/3. -/
example : Crosses [3, 1] [2, 1] := by
  refine ⟨2 / 3, by norm_num, by norm_num, ?_⟩
  refine List.Forall₂.cons ?_ (List.Forall₂.cons ?_ List.Forall₂.nil) <;> rw [abs_lt] <;> norm_num

end Verif.Props
