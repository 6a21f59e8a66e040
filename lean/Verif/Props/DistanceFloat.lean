import Verif.Props.Moments
import Verif.Props.FloatPath
import Mathlib.Analysis.Real.Sqrt

/-!
# Distances in `double` (C122)

`Api.distance…` over `Fl rnd`: every operation is rounded by `rnd`; `Verif.Path.Rounding` and `ExactInts` hold for IEEE 754
`double` (`rnd64_rounding`, `rnd64_exact`).
-/

set_option linter.unusedSectionVars false

namespace Verif.Props

open Verif Outcome Spec Nd Ens

section

variable {K : Type} [Zero K] [One K] [Add K] [Sub K] [Neg K] [Mul K] [Div K] [Pow K Nat] [NatCast K] [IntCast K] [LE K]
  [DecidableLE K] [Max K] [DecidableEq K]

/-- The ensemble of the constructor. -/
def freshFl (K : Type) [Zero K] (roi : List Nat) : Ensemble K :=
  { stat := .unset
    periodic := true
    variance := true
    first := (Nd.fill roi (0 : K)).atleast3d
    second := Nd.fill (Nd.fill roi (0 : K)).atleast3d.shape 0
    norm := Nd.fill (Nd.fill roi (0 : K)).atleast3d.shape 0
    shapeOrig := roi
    shape := (Nd.fill roi (0 : K)).atleast3d.shape
    pad := padWidth (Nd.fill roi (0 : K)).atleast3d.shape }

theorem make_fl (dbg : Bool) {roi : List Nat} (h3 : roi.length ≤ 3) (h0 : 0 ∉ roi) :
    make K dbg roi true true = ok (freshFl K roi) := by
  have : ¬ (roi.length > 3 ∨ 0 ∈ roi) := by
    rintro (h | h)
    · omega
    · exact h0 h
  simp only [make, gassert, h3, decide_true, Bool.not_true, Bool.and_false, Bool.false_eq_true,
    if_false, ok_bind, if_neg this]
  rfl

/-- `distance(axis)`, whatever the arithmetic: the values of `linspace`. -/
theorem distanceAxis_gen (dbg : Bool) {roi : List Nat} (hr : roi.length ≤ 3) {axis : Nat} (ha : axis < roi.length)
    (c : Int → K) (key : ∀ n ∈ roi, ∀ i : Int, 0 ≤ i ∧ i < n →
      linspace (-1 * ((if n % 2 = 0 then (n / 2 - 1, n / 2) else ((n - 1) / 2, (n - 1) / 2)).1 : K))
        ((if n % 2 = 0 then (n / 2 - 1, n / 2) else ((n - 1) / 2, (n - 1) / 2)).2 : K) n i =
        c (i - ((n - 1) / 2 : Nat))) :
    ∃ D : Nd K, Ens.distanceAxis dbg (freshFl K roi) axis = ok D ∧ D.shape = roi ∧
      ∀ k < roi.prod, D.get k = c ((displacement roi (unravel roi k)).getD axis 0) := by
  have hg : gassert dbg (decide (axis < (freshFl K roi).shapeOrig.length)) = ok () := by
    show gassert dbg (decide (axis < roi.length)) = _
    simp [gassert, ha]
  have hu : ∀ k < roi.prod, unravel (Nd.shape3 roi) k = raise (unravel roi k) := by
    intro k hk
    obtain ⟨b1, b2⟩ := unravel_inbox hk
    rw [← unravel_shape3 hr b1, b2]
  unfold Ens.distanceAxis
  rw [hg, ok_bind]
  rcases length_cases hr with rfl | ⟨a, rfl⟩ | ⟨a, b, rfl⟩ | ⟨a, b, d, rfl⟩
  · simp at ha
  · have hax : axis = 0 := by simp at ha; omega
    subst hax
    refine ⟨_, rfl, rfl, fun k hk => ?_⟩
    show linspace _ _ _ ((unravel (Nd.shape3 [a]) k).getD 1 0) = _
    have hb := (unravel_inbox hk).1
    rw [hu k hk]
    generalize unravel [a] k = x at hb
    match x, hb with
    | [x], .cons h1 .nil => exact key a (by simp) x h1
  · have hax : axis = 0 ∨ axis = 1 := by simp at ha; omega
    rcases hax with rfl | rfl
    · refine ⟨_, rfl, rfl, fun k hk => ?_⟩
      show linspace _ _ _ ((unravel (Nd.shape3 [a, b]) k).getD 0 0) = _
      have hb := (unravel_inbox hk).1
      rw [hu k hk]
      generalize unravel [a, b] k = x at hb
      match x, hb with
      | [x, y], .cons h1 (.cons h2 .nil) => exact key a (by simp) x h1
    · refine ⟨_, rfl, rfl, fun k hk => ?_⟩
      show linspace _ _ _ ((unravel (Nd.shape3 [a, b]) k).getD 1 0) = _
      have hb := (unravel_inbox hk).1
      rw [hu k hk]
      generalize unravel [a, b] k = x at hb
      match x, hb with
      | [x, y], .cons h1 (.cons h2 .nil) => exact key b (by simp) y h2
  · have hax : axis = 0 ∨ axis = 1 ∨ axis = 2 := by simp at ha; omega
    rcases hax with rfl | rfl | rfl
    · refine ⟨_, rfl, rfl, fun k hk => ?_⟩
      show linspace _ _ _ ((unravel (Nd.shape3 [a, b, d]) k).getD 0 0) = _
      have hb := (unravel_inbox hk).1
      rw [hu k hk]
      generalize unravel [a, b, d] k = x at hb
      match x, hb with
      | [x, y, z], .cons h1 (.cons h2 (.cons h3 .nil)) => exact key a (by simp) x h1
    · refine ⟨_, rfl, rfl, fun k hk => ?_⟩
      show linspace _ _ _ ((unravel (Nd.shape3 [a, b, d]) k).getD 1 0) = _
      have hb := (unravel_inbox hk).1
      rw [hu k hk]
      generalize unravel [a, b, d] k = x at hb
      match x, hb with
      | [x, y, z], .cons h1 (.cons h2 (.cons h3 .nil)) => exact key b (by simp) y h2
    · refine ⟨_, rfl, rfl, fun k hk => ?_⟩
      show linspace _ _ _ ((unravel (Nd.shape3 [a, b, d]) k).getD 2 0) = _
      have hb := (unravel_inbox hk).1
      rw [hu k hk]
      generalize unravel [a, b, d] k = x at hb
      match x, hb with
      | [x, y, z], .cons h1 (.cons h2 (.cons h3 .nil)) => exact key d (by simp) z h3

end

variable {rnd : ℚ → ℚ}

/-- In `double` the values of `linspace` are exact. -/
theorem linspace_fl (hi : ExactInts rnd) {n : Nat} (hn : n ≤ 2 ^ 53) {i : Int} (h : 0 ≤ i ∧ i < n) :
    linspace (-1 * ((if n % 2 = 0 then (n / 2 - 1, n / 2) else ((n - 1) / 2, (n - 1) / 2)).1 : Fl rnd))
      ((if n % 2 = 0 then (n / 2 - 1, n / 2) else ((n - 1) / 2, (n - 1) / 2)).2 : Fl rnd) n i =
      ⟨((i - ((n - 1) / 2 : Nat) : Int) : ℚ)⟩ := by
  obtain ⟨h1, h2⟩ := h
  have e1 : (if n % 2 = 0 then (n / 2 - 1, n / 2) else ((n - 1) / 2, (n - 1) / 2)).1 = (n - 1) / 2 := by
    split
    · simp; omega
    · simp
  have e2 : (if n % 2 = 0 then (n / 2 - 1, n / 2) else ((n - 1) / 2, (n - 1) / 2)).2 = n / 2 := by
    split
    · rfl
    · simp; omega
  rw [e1, e2]
  have hr : ∀ {q : ℚ} (m : Int), q = m → |m| ≤ 2 ^ 53 → rnd q = m := fun m e h => by rw [e]; exact hi m h
  have a1 : rnd (((n - 1) / 2 : Nat) : ℚ) = (((n - 1) / 2 : Nat) : Int) := hr _ (by push_cast; rfl) (by rw [abs_le]; omega)
  have a2 : rnd (-1 * ((((n - 1) / 2 : Nat) : Int) : ℚ)) = ((-(((n - 1) / 2 : Nat) : Int) : Int) : ℚ) :=
    hr _ (by push_cast; ring) (by rw [abs_le]; omega)
  have a3 : rnd ((n / 2 : Nat) : ℚ) = ((n / 2 : Nat) : Int) := hr _ (by push_cast; rfl) (by rw [abs_le]; omega)
  have a4 : rnd ((((n / 2 : Nat) : Int) : ℚ) - ((-(((n - 1) / 2 : Nat) : Int) : Int) : ℚ)) = (((n : Int) - 1 : Int) : ℚ) := by
    refine hr _ ?_ (by rw [abs_le]; omega)
    have : ((n / 2 : Nat) : Int) + (((n - 1) / 2 : Nat) : Int) = (n : Int) - 1 := by omega
    rw [← this]
    push_cast
    ring
  have a5 : rnd (n : ℚ) = (n : Int) := hr _ (by push_cast; rfl) (by rw [abs_le]; omega)
  have a6 : rnd (((n : Int) : ℚ) - 1) = (((n : Int) - 1 : Int) : ℚ) := hr _ (by push_cast; rfl) (by rw [abs_le]; omega)
  have a7 : rnd (i : ℚ) = i := hi i (by rw [abs_le]; omega)
  apply Fl.ext
  show rnd (rnd (-1 * rnd (((n - 1) / 2 : Nat) : ℚ)) + rnd (rnd (i : ℚ) * rnd (rnd (rnd ((n / 2 : Nat) : ℚ) -
    rnd (-1 * rnd (((n - 1) / 2 : Nat) : ℚ))) / max 1 (rnd (rnd (n : ℚ) - 1))))) = _
  rw [a1, a2, a3, a4, a5, a6, a7]
  have a8 : rnd ((i : ℚ) * rnd ((((n : Int) - 1 : Int) : ℚ) / max 1 (((n : Int) - 1 : Int) : ℚ))) = (i : ℚ) := by
    by_cases c : n = 1
    · have : i = 0 := by omega
      subst this
      rw [Int.cast_zero, zero_mul]
      simpa using hi 0 (by norm_num)
    · have : (1 : ℚ) ≤ (((n : Int) - 1 : Int) : ℚ) := by exact_mod_cast (by omega : (1 : Int) ≤ (n : Int) - 1)
      rw [max_eq_right this, div_self (by linarith)]
      have : rnd 1 = 1 := by simpa using hi 1 (by norm_num)
      rw [this, mul_one, a7]
  rw [a8]
  exact hr _ (by push_cast; ring) (by rw [abs_le]; omega)

theorem distanceAxis_fl (hi : ExactInts rnd) (dbg : Bool) {roi : List Nat} (hr : roi.length ≤ 3)
    (hs : ∀ n ∈ roi, n ≤ 2 ^ 53) {axis : Nat} (ha : axis < roi.length) :
    ∃ D : Nd (Fl rnd), Ens.distanceAxis dbg (freshFl (Fl rnd) roi) axis = ok D ∧ D.shape = roi ∧
      ∀ k < roi.prod, D.get k = ⟨(((displacement roi (unravel roi k)).getD axis 0 : Int) : ℚ)⟩ :=
  distanceAxis_gen dbg hr ha (fun d => (⟨(d : ℚ)⟩ : Fl rnd)) fun n hn i h => linspace_fl hi (hs n hn) h

/-- In `double` `distance(axis)` is the displacement along the axis, without any error. -/
theorem C122_axis (hi : ExactInts rnd) (dbg : Bool) {roi : List Nat} (hr : roi.length ≤ 3) (h0 : 0 ∉ roi)
    (hs : ∀ n ∈ roi, n ≤ 2 ^ 53) {axis : Nat} (ha : axis < roi.length) :
    ∃ D, Api.distanceAxis (Fl rnd) dbg roi axis = ok D ∧ D.shape = roi ∧
      ∀ i, InBox roi i → val D i = ⟨(((displacement roi i).getD axis 0 : Int) : ℚ)⟩ := by
  obtain ⟨D, h1, h2, h3⟩ := distanceAxis_fl hi dbg hr hs ha
  refine ⟨D, ?_, h2, fun i hi => ?_⟩
  · rw [Api.distanceAxis, make_fl dbg hr h0, ok_bind, h1]
  · rw [val, h2, h3 _ (flat_lt hi), unravel_flat hi]

/-- An axis of a region of interest in three dimensions, of an even size. -/
example : ExactInts rnd64 ∧ ([4, 1, 3] : List Nat).length ≤ 3 ∧ 0 ∉ [4, 1, 3] ∧ (∀ n ∈ [4, 1, 3], n ≤ 2 ^ 53) ∧
    displacement [4, 1, 3] [3, 0, 0] = [2, 0, -1] := ⟨rnd64_exact, by decide, by decide, by decide, by decide⟩

/-- In `double` `distance(h, axis)` is the displacement times the size of a pixel, rounded once. -/
theorem C122_axis_h (hi : ExactInts rnd) (dbg : Bool) {roi : List Nat} (hr : roi.length ≤ 3) (h0 : 0 ∉ roi)
    (hs : ∀ n ∈ roi, n ≤ 2 ^ 53) {h : List (Fl rnd)} (hh : h.length = roi.length) {axis : Nat} (ha : axis < roi.length) :
    ∃ D, Api.distanceHAxis dbg roi h axis = ok D ∧ D.shape = roi ∧
      ∀ i, InBox roi i → val D i = ⟨rnd (((displacement roi i).getD axis 0 : Int) * (h.getD axis 0).val)⟩ := by
  obtain ⟨D, h1, h2, h3⟩ := distanceAxis_fl hi dbg hr hs ha
  have ha' : axis < h.length := by omega
  refine ⟨D.map fun x => x * h[axis], ?_, h2, fun i hi => ?_⟩
  · have e : (freshFl (Fl rnd) roi).shapeOrig = roi := rfl
    rw [Api.distanceHAxis, make_fl dbg hr h0, ok_bind]
    simp only [ok_bind, Ens.distanceHAxis, h1, e, hh, gassert,
      decide_true, Bool.not_true, Bool.and_false, Bool.false_eq_true, if_false, pure_eq,
      List.getElem?_eq_getElem ha']
  · show D.get (flat D.shape i).toNat * h[axis] = _
    have e : h.getD axis 0 = h[axis] := by simp [ha']
    rw [h2, h3 _ (flat_lt hi), unravel_flat hi, e]
    rfl

/-! ### Sums of squares -/

/-- The sum of squares that is computed at one pixel. -/
def sumSquares (rnd : ℚ → ℚ) (d : Nat → Int) (scale : Nat → Fl rnd) (l : List Nat) (acc : Fl rnd) : Fl rnd :=
  l.foldl (fun acc a => acc + ((⟨(d a : ℚ)⟩ : Fl rnd) * scale a) ^ 2) acc

theorem distanceSum_fl (hi : ExactInts rnd) (dbg : Bool) {roi : List Nat} (hr : roi.length ≤ 3)
    (hs : ∀ n ∈ roi, n ≤ 2 ^ 53) (scale : Nat → Fl rnd) :
    ∃ D : Nd (Fl rnd), distanceSum dbg (freshFl (Fl rnd) roi) scale = ok D ∧ D.shape = roi ∧
      ∀ k < roi.prod, D.get k =
        sumSquares rnd (fun a => (displacement roi (unravel roi k)).getD a 0) scale (List.range roi.length) 0 := by
  have key : ∀ (l : List Nat) (ret : Nd (Fl rnd)), (∀ a ∈ l, a < roi.length) → ret.shape = roi →
      ∃ D : Nd (Fl rnd), (forM l ret fun ret i => do
          let d ← Ens.distanceAxis dbg (freshFl (Fl rnd) roi) i
          Nd.map₂ (fun a b => a + (b * scale i) ^ 2) ret d) = ok D ∧ D.shape = roi ∧
        ∀ k < roi.prod, D.get k =
          sumSquares rnd (fun a => (displacement roi (unravel roi k)).getD a 0) scale l (ret.get k) := by
    intro l
    induction l with
    | nil => exact fun ret _ hs => ⟨ret, rfl, hs, fun k _ => rfl⟩
    | cons a l ih =>
      intro ret ha hs'
      obtain ⟨D, e1, e2, e3⟩ := distanceAxis_fl hi dbg hr hs (ha a (by simp))
      obtain ⟨D', e4, e5, e6⟩ := ih ⟨roi, fun k => ret.get k + (D.get k * scale a) ^ 2⟩
        (fun b hb => ha b (List.mem_cons_of_mem _ hb)) rfl
      refine ⟨D', ?_, e5, fun k hk => ?_⟩
      · rw [forM, e1, ok_bind, map₂_ok hs' e2]
        exact e4
      · rw [e6 k hk]
        show sumSquares rnd _ scale l (ret.get k + (D.get k * scale a) ^ 2) = _
        rw [e3 k hk]
        rfl
  obtain ⟨D, h1, h2, h3⟩ := key (List.range roi.length) (Nd.fill roi 0) (by simp) rfl
  exact ⟨D, h1, h2, fun k hk => h3 k hk⟩

/-- Sums of squares of small integers are exact. -/
theorem sumSquares_exact (hi : ExactInts rnd) {d : Nat → Int} (hd : ∀ a, |d a| ≤ 2 ^ 25) : ∀ (l : List Nat) (A : Int), 0 ≤ A →
    A + l.length * 2 ^ 50 ≤ 2 ^ 53 →
    sumSquares rnd d (fun _ => 1) l ⟨(A : ℚ)⟩ = ⟨((A + (l.map fun a => d a ^ 2).sum : Int) : ℚ)⟩
  | [], A, _, _ => by simp [sumSquares]
  | a :: l, A, hA, hb => by
    have h1 := hd a
    have h2 : d a ^ 2 ≤ 2 ^ 50 := by
      have := abs_le.1 h1
      nlinarith
    have h3 : 0 ≤ d a ^ 2 := sq_nonneg _
    have h4 : ((a :: l).length : Int) = l.length + 1 := by simp
    rw [h4] at hb
    have h5 : (0 : Int) ≤ l.length := by omega
    have e : (⟨(A : ℚ)⟩ : Fl rnd) + ((⟨(d a : ℚ)⟩ : Fl rnd) * 1) ^ 2 = ⟨((A + d a ^ 2 : Int) : ℚ)⟩ := by
      apply Fl.ext
      show rnd ((A : ℚ) + rnd (rnd ((d a : ℚ) * 1) ^ 2)) = _
      rw [mul_one, hi (d a) (h1.trans (by norm_num))]
      have e1 : rnd ((d a : ℚ) ^ 2) = ((d a ^ 2 : Int) : ℚ) := by
        have := hi (d a ^ 2) (by rw [abs_of_nonneg h3]; exact h2.trans (by norm_num))
        rw [← this]
        push_cast
        rfl
      rw [e1, ← Int.cast_add]
      exact hi _ (by rw [abs_of_nonneg (by omega)]; nlinarith)
    show sumSquares rnd d (fun _ => 1) l ((⟨(A : ℚ)⟩ : Fl rnd) + ((⟨(d a : ℚ)⟩ : Fl rnd) * 1) ^ 2) = _
    rw [e, sumSquares_exact hi hd l (A + d a ^ 2) (by omega) (by nlinarith), List.map_cons, List.sum_cons]
    congr 2
    ring

/-- A displacement is at most half the size. -/
theorem displacement_small {B : Nat} : ∀ {roi : List Nat} {i : List Int}, InBox roi i → (∀ n ∈ roi, n ≤ 2 * B) → ∀ a,
    |(displacement roi i).getD a 0| ≤ (B : Int)
  | _, _, .nil, _, a => by simp [displacement]
  | _, _, .cons (a := n) (b := x) (l₁ := roi) (l₂ := is) h hs, hB, a => by
    have h1 : 0 ≤ x ∧ x < (n : Int) := h
    have hn := hB n (by simp)
    cases a with
    | zero =>
      show |x - (((n - 1) / 2 : Nat) : Int)| ≤ _
      rw [abs_le]
      omega
    | succ a => exact displacement_small hs (fun m hm => hB m (by simp [hm])) a

/-- In `double` `distance()` is the root of the exact sum of squares of the displacement. -/
theorem C122_distance (hi : ExactInts rnd) (pow05 : Fl rnd → Fl rnd) (dbg : Bool) {roi : List Nat} (hr : roi.length ≤ 3)
    (h0 : 0 ∉ roi) (hs : ∀ n ∈ roi, n ≤ 2 ^ 26) :
    ∃ D, Api.distance pow05 dbg roi = ok D ∧ D.shape = roi ∧
      ∀ i, InBox roi i → val D i = pow05 ⟨(((List.range roi.length).map fun a =>
        (displacement roi i).getD a 0 ^ 2).sum : Int)⟩ := by
  obtain ⟨D, h1, h2, h3⟩ := distanceSum_fl hi dbg hr (fun n hn => (hs n hn).trans (by norm_num)) fun _ => 1
  refine ⟨D.map pow05, ?_, h2, fun i hi' => ?_⟩
  · rw [Api.distance, make_fl dbg hr h0, ok_bind, Ens.distance, h1, ok_bind]
    rfl
  · show pow05 (D.get (flat D.shape i).toNat) = _
    rw [h2, h3 _ (flat_lt hi'), unravel_flat hi']
    have := sumSquares_exact hi (d := fun a => (displacement roi i).getD a 0)
      (fun a => by
        have := displacement_small (B := 2 ^ 25) hi' (fun n hn => hs n hn) a
        exact_mod_cast this) (List.range roi.length) 0 (le_refl _) (by
        rw [List.length_range]
        have : (roi.length : Int) ≤ 3 := by exact_mod_cast hr
        omega)
    rw [show (0 : Fl rnd) = ⟨((0 : Int) : ℚ)⟩ from by simp; rfl, this, zero_add]

/-- The region of interest of a million pixels along each axis. -/
example : (∀ n ∈ [1000000, 1000000, 1000000], n ≤ 2 ^ 26) ∧ 0 ∉ [1000000, 1000000, 1000000] := by decide

/-! ### With pixels of any size -/

/-- The relative error after `m` roundings. -/
def relErr (m : Nat) : ℚ := (1 + 1 / 2 ^ 53) ^ m - 1

theorem relErr_nonneg (m : Nat) : 0 ≤ relErr m := by
  unfold relErr
  have : (1 : ℚ) ≤ (1 + 1 / 2 ^ 53) ^ m := one_le_pow₀ (by norm_num)
  linarith

theorem relErr_mono {m k : Nat} (h : m ≤ k) : relErr m ≤ relErr k := by
  unfold relErr
  have := pow_le_pow_right₀ (show (1 : ℚ) ≤ 1 + 1 / 2 ^ 53 by norm_num) h
  linarith

/-- One more rounding. -/
theorem round_err (hr : Verif.Path.Rounding rnd) {x X : ℚ} {m : Nat} (hX : 0 ≤ X) (h : |x - X| ≤ relErr m * X) :
    |rnd x - X| ≤ relErr (m + 1) * X := by
  have h1 := hr.rel x
  have h2 : |x| ≤ (1 + relErr m) * X := by
    have := abs_sub_abs_le_abs_sub x X
    rw [abs_of_nonneg hX] at this
    linarith
  have h3 : |rnd x - X| ≤ |rnd x - x| + |x - X| := by
    have := abs_add_le (rnd x - x) (x - X)
    rwa [sub_add_sub_cancel] at this
  have h4 : |x| / 2 ^ 53 ≤ (1 + relErr m) * X / 2 ^ 53 := by
    apply div_le_div_of_nonneg_right h2 (by norm_num)
  have h5 : relErr (m + 1) * X = (1 + relErr m) * X / 2 ^ 53 + relErr m * X := by
    unfold relErr
    rw [pow_succ]
    ring
  rw [h5]
  linarith

/-- The error of a square of a product. -/
theorem square_err (hr : Verif.Path.Rounding rnd) (x : ℚ) : |rnd (rnd x ^ 2) - x ^ 2| ≤ relErr 3 * x ^ 2 := by
  refine round_err hr (sq_nonneg x) ?_
  have h1 := hr.rel x
  have h2 : |rnd x| ≤ (1 + 1 / 2 ^ 53) * |x| := by
    have := abs_sub_abs_le_abs_sub (rnd x) x
    linarith
  have h3 : rnd x ^ 2 - x ^ 2 = (rnd x - x) * (rnd x + x) := by ring
  have h4 : |rnd x + x| ≤ (2 + 1 / 2 ^ 53) * |x| := by
    have := abs_add_le (rnd x) x
    linarith
  rw [h3, abs_mul, ← sq_abs x]
  have h5 := mul_le_mul h1 h4 (abs_nonneg _) (by positivity)
  refine h5.trans (le_of_eq ?_)
  unfold relErr
  ring

/-- The relative error of a sum of squares. -/
theorem sumSquares_err (hr : Verif.Path.Rounding rnd) (d : Nat → Int) (scale : Nat → Fl rnd) (l : List Nat) :
    ∀ (acc : Fl rnd) (A : ℚ) (m : Nat), 3 ≤ m → 0 ≤ A → |acc.val - A| ≤ relErr m * A →
    |(sumSquares rnd d scale l acc).val - (A + (l.map fun a => ((d a : ℚ) * (scale a).val) ^ 2).sum)| ≤
      relErr (m + l.length) * (A + (l.map fun a => ((d a : ℚ) * (scale a).val) ^ 2).sum) := by
  induction l with
  | nil => intro acc A m _ _ h; simpa [sumSquares] using h
  | cons a l ih =>
    intro acc A m hm hA h
    generalize ht : ((d a : ℚ) * (scale a).val) = t
    have h1 := square_err hr t
    have h2 : |acc.val + rnd (rnd t ^ 2) - (A + t ^ 2)| ≤ relErr m * (A + t ^ 2) := by
      have h3 : acc.val + rnd (rnd t ^ 2) - (A + t ^ 2) = (acc.val - A) + (rnd (rnd t ^ 2) - t ^ 2) := by ring
      rw [h3]
      refine (abs_add_le _ _).trans ?_
      have h4 := mul_le_mul_of_nonneg_right (relErr_mono hm) (sq_nonneg t)
      rw [mul_add]
      linarith
    have h5 := round_err hr (by positivity) h2
    have e : sumSquares rnd d scale (a :: l) acc = sumSquares rnd d scale l ⟨rnd (acc.val + rnd (rnd t ^ 2))⟩ := by
      rw [← ht]; rfl
    have h6 := ih ⟨rnd (acc.val + rnd (rnd t ^ 2))⟩ (A + t ^ 2) (m + 1) (by omega) (by positivity) h5
    rw [List.map_cons, List.sum_cons, List.length_cons, ht, ← add_assoc, show m + (l.length + 1) = m + 1 + l.length by omega, e]
    exact h6

theorem sqrt_err {r S : ℝ} (hS : 0 ≤ S) (h : |r - S| ≤ 7 / 2 ^ 53 * S) : |√r - √S| ≤ 7 / 2 ^ 53 * √S := by
  rw [abs_le] at h ⊢
  have h0 := Real.sqrt_nonneg S
  have hu : √r ≤ √S * (1 + 7 / 2 ^ 53) := by
    rw [Real.sqrt_le_left (by positivity), mul_pow, Real.sq_sqrt hS]
    nlinarith
  have hl : √S * (1 - 7 / 2 ^ 53) ≤ √r := by
    apply Real.le_sqrt_of_sq_le
    rw [mul_pow, Real.sq_sqrt hS]
    nlinarith
  constructor <;> linarith

/-- In `double` `distance(h)` has a relative error of at most 2^-49, if the root has one of at most 2^-52. -/
theorem C122_distance_h (hr : Verif.Path.Rounding rnd) (hi : ExactInts rnd) {pow05 : Fl rnd → Fl rnd}
    (hp : ∀ x : Fl rnd, 0 ≤ x.val → |(((pow05 x).val : ℚ) : ℝ) - √(x.val : ℝ)| ≤ √(x.val : ℝ) / 2 ^ 52) (dbg : Bool)
    {roi : List Nat} (h3 : roi.length ≤ 3) (h0 : 0 ∉ roi) (hs : ∀ n ∈ roi, n ≤ 2 ^ 53) {h : List (Fl rnd)}
    (hh : h.length = roi.length) :
    ∃ D, Api.distanceH pow05 dbg roi h = ok D ∧ D.shape = roi ∧ ∀ i, InBox roi i →
      |(((val D i).val : ℚ) : ℝ) - √((List.range roi.length).map fun a =>
          (((displacement roi i).getD a 0 : Int) * ((h.getD a 0).val : ℝ)) ^ 2).sum| ≤
        √((List.range roi.length).map fun a =>
          (((displacement roi i).getD a 0 : Int) * ((h.getD a 0).val : ℝ)) ^ 2).sum / 2 ^ 49 := by
  obtain ⟨D, h1, h2, h4⟩ := distanceSum_fl hi dbg h3 hs fun a => h.getD a 0
  refine ⟨D.map pow05, ?_, h2, fun i hib => ?_⟩
  · have e : (freshFl (Fl rnd) roi).shapeOrig = roi := rfl
    rw [Api.distanceH, make_fl dbg h3 h0, ok_bind]
    simp only [ok_bind, Ens.distanceH, h1, e, hh, gassert,
      decide_true, Bool.not_true, Bool.and_false, Bool.false_eq_true, if_false, lt_irrefl, pure_eq]
  · have ev : val (D.map pow05) i = pow05 (sumSquares rnd (fun a => (displacement roi i).getD a 0) (fun a => h.getD a 0)
        (List.range roi.length) 0) := by
      show pow05 (D.get (flat D.shape i).toNat) = _
      rw [h2, h4 _ (flat_lt hib), unravel_flat hib]
    rw [ev]
    have herr := sumSquares_err hr (fun a => (displacement roi i).getD a 0) (fun a => h.getD a 0) (List.range roi.length) 0 0 3
      (le_refl _) (le_refl _) (by show |(0 : ℚ) - 0| ≤ _; simp)
    rw [zero_add, List.length_range] at herr
    generalize sumSquares rnd (fun a => (displacement roi i).getD a 0) (fun a => h.getD a 0) (List.range roi.length) 0 = r at herr
    have eS : ((List.range roi.length).map fun a =>
          (((displacement roi i).getD a 0 : Int) * ((h.getD a 0).val : ℝ)) ^ 2).sum =
        ((((List.range roi.length).map fun a =>
          (((displacement roi i).getD a 0 : Int) * (h.getD a 0).val) ^ 2).sum : ℚ) : ℝ) := by
      show _ = (Rat.castHom ℝ) _
      rw [map_list_sum, List.map_map]
      congr 1
      apply List.map_congr_left
      intro a _
      simp
    rw [eS]
    have hS0 : 0 ≤ ((List.range roi.length).map fun a =>
          (((displacement roi i).getD a 0 : Int) * (h.getD a 0).val) ^ 2).sum := by
      apply List.sum_nonneg
      intro x hx
      obtain ⟨a, -, rfl⟩ := List.mem_map.1 hx
      positivity
    generalize ((List.range roi.length).map fun a =>
          (((displacement roi i).getD a 0 : Int) * (h.getD a 0).val) ^ 2).sum = S at herr hS0
    have h7 : relErr (3 + roi.length) ≤ 7 / 2 ^ 53 := by
      refine (relErr_mono (show 3 + roi.length ≤ 6 by omega)).trans ?_
      unfold relErr
      norm_num
    have h8 : |r.val - S| ≤ 7 / 2 ^ 53 * S := herr.trans (mul_le_mul_of_nonneg_right h7 hS0)
    have hr0 : 0 ≤ r.val := by
      have := (abs_le.1 h8).1
      nlinarith
    have h9 : |((r.val : ℚ) : ℝ) - (S : ℝ)| ≤ 7 / 2 ^ 53 * (S : ℝ) := by
      have : ((|r.val - S| : ℚ) : ℝ) ≤ ((7 / 2 ^ 53 * S : ℚ) : ℝ) := by exact_mod_cast h8
      simpa using this
    have h10 := sqrt_err (by exact_mod_cast hS0) h9
    have h11 := hp r hr0
    rw [abs_le] at h10 h11 ⊢
    have := Real.sqrt_nonneg (S : ℝ)
    constructor <;> linarith

/-- There are such roots. -/
example : Verif.Path.Rounding rnd64 ∧ ExactInts rnd64 ∧ ∃ pow05 : Fl rnd64 → Fl rnd64,
    ∀ x : Fl rnd64, 0 ≤ x.val → |(((pow05 x).val : ℚ) : ℝ) - √(x.val : ℝ)| ≤ √(x.val : ℝ) / 2 ^ 52 := by
  refine ⟨rnd64_rounding, rnd64_exact, ?_⟩
  have : ∀ x : Fl rnd64, ∃ y : Fl rnd64, |((y.val : ℚ) : ℝ) - √(x.val : ℝ)| ≤ √(x.val : ℝ) / 2 ^ 52 := by
    intro x
    rcases (Real.sqrt_nonneg (x.val : ℝ)).eq_or_lt with h | h
    · exact ⟨⟨0⟩, by rw [← h]; simp⟩
    · obtain ⟨q, h1, h2⟩ := exists_rat_btwn (show √(x.val : ℝ) < √(x.val : ℝ) + √(x.val : ℝ) / 2 ^ 52 by linarith [show 0 < √(x.val : ℝ) / 2 ^ 52 by positivity])
      exact ⟨⟨q⟩, by rw [abs_le]; constructor <;> linarith⟩
  exact ⟨fun x => (this x).choose, fun x _ => (this x).choose_spec⟩

/-- Pixels that are not square: the distance of the corner of a region of interest in two dimensions. -/
example : ([3, 5] : List Nat).length ≤ 3 ∧ (∀ n ∈ [3, 5], n ≤ 2 ^ 53) ∧ displacement [3, 5] [0, 4] = [-1, 2] := by decide

end Verif.Props
