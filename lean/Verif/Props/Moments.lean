import Verif.Lemmas.Moments
import Verif.Props.Correlation

/-!
# Region of interest and distances (C33), mean and variance (C41, C35)
-/

set_option linter.unusedSectionVars false

namespace Verif.Props

open Verif Outcome Spec Ens

variable {K : Type} [Field K] [LinearOrder K] [IsStrictOrderedRing K]

/-! ### C33 -/

/-- The displacements of a ROI are the consecutive integers from `-(n - 1) / 2` to `n / 2` along each
axis. -/
theorem C33_cover {roi : List Nat} {d : List Int} :
    (∃ i, InBox roi i ∧ displacement roi i = d) ↔
      List.Forall₂ (fun (n : Nat) (a : Int) => 0 < n ∧ -(((n - 1) / 2 : Nat) : Int) ≤ a ∧
        a ≤ ((n / 2 : Nat) : Int)) roi d := by
  induction roi generalizing d with
  | nil =>
    constructor
    · rintro ⟨i, hi, rfl⟩
      cases hi
      exact .nil
    · intro h
      cases h
      exact ⟨[], .nil, rfl⟩
  | cons n roi ih =>
    constructor
    · rintro ⟨i, hi, rfl⟩
      cases hi with
      | cons h1 h2 =>
        rename_i a i
        refine .cons ?_ (ih.1 ⟨i, h2, rfl⟩)
        show 0 < n ∧ -(((n - 1) / 2 : Nat) : Int) ≤ a - ((n - 1) / 2 : Nat) ∧
          a - ((n - 1) / 2 : Nat) ≤ ((n / 2 : Nat) : Int)
        omega
    · intro h
      cases h with
      | cons h1 h2 =>
        rename_i a d
        obtain ⟨i, hi, e⟩ := ih.2 h2
        refine ⟨(a + (((n - 1) / 2 : Nat) : Int)) :: i, .cons (by omega) hi, ?_⟩
        show (a + (((n - 1) / 2 : Nat) : Int) - ((n - 1) / 2 : Nat)) :: displacement roi i = _
        rw [e]
        congr 1
        omega

/-- The centre of a ROI has displacement zero, and no other index has. -/
theorem C33_centre {roi : List Nat} (h0 : 0 ∉ roi) {i : List Int} (hi : i.length = roi.length) :
    InBox roi (roi.map fun n => (((n - 1) / 2 : Nat) : Int)) ∧
      (IsZero (displacement roi i) ↔ i = roi.map fun n => (((n - 1) / 2 : Nat) : Int)) := by
  induction roi generalizing i with
  | nil =>
    have : i = [] := List.length_eq_zero_iff.1 hi
    subst this
    exact ⟨.nil, by simp [displacement, IsZero]⟩
  | cons n roi ih =>
    match i, hi with
    | a :: i, hi =>
      rw [List.mem_cons, not_or] at h0
      obtain ⟨h1, h2⟩ := ih h0.2 (i := i) (by simpa using hi)
      refine ⟨.cons (by show 0 ≤ (((n - 1) / 2 : Nat) : Int) ∧ (((n - 1) / 2 : Nat) : Int) < n; omega) h1, ?_⟩
      rw [List.map_cons, List.cons.injEq, ← h2]
      simp only [displacement, IsZero, List.zipWith_cons_cons, List.mem_cons, forall_eq_or_imp]
      rw [sub_eq_zero]

theorem distanceAxis_ok (dbg : Bool) {roi : List Nat} {periodic variance : Bool} {st : Stat}
    (hr : roi.length ≤ 3) (h0 : 0 ∉ roi) {axis : Nat} (ha : axis < roi.length) :
    ∃ D : Nd K, Ens.distanceAxis dbg (fresh K roi periodic variance st) axis = ok D ∧ D.shape = roi ∧
      ∀ k < roi.prod, D.get k = (((displacement roi (unravel roi k)).getD axis 0 : Int) : K) := by
  have key : ∀ (n : Nat) (i : Int), 0 ≤ i ∧ i < n →
      linspace (-1 * ((if n % 2 = 0 then (n / 2 - 1, n / 2) else ((n - 1) / 2, (n - 1) / 2)).1 : K))
        ((if n % 2 = 0 then (n / 2 - 1, n / 2) else ((n - 1) / 2, (n - 1) / 2)).2 : K) n i =
        ((i - ((n - 1) / 2 : Nat) : Int) : K) := by
    rintro n i ⟨h1, h2⟩
    have e1 : (if n % 2 = 0 then (n / 2 - 1, n / 2) else ((n - 1) / 2, (n - 1) / 2)).1 = (n - 1) / 2 := by
      split
      · simp; omega
      · simp
    have e2 : (if n % 2 = 0 then (n / 2 - 1, n / 2) else ((n - 1) / 2, (n - 1) / 2)).2 = n / 2 := by
      split
      · rfl
      · simp; omega
    rw [e1, e2, linspace]
    by_cases h : n = 1
    · subst h
      have : i = 0 := by omega
      subst this
      simp
    · have e3 : ((n / 2 : Nat) : K) + (((n - 1) / 2 : Nat) : K) = (n : K) - 1 := by
        have : n / 2 + (n - 1) / 2 + 1 = n := by omega
        have : (((n / 2 + (n - 1) / 2 + 1 : Nat)) : K) = (n : K) := by rw [this]
        push_cast at this ⊢
        linarith
      have e4 : (1 : K) ≤ (n : K) - 1 := by
        have : ((2 : Nat) : K) ≤ (n : K) := by exact_mod_cast (by omega : 2 ≤ n)
        push_cast at this
        linarith
      rw [max_eq_right e4]
      have e5 : ((n / 2 : Nat) : K) - -1 * (((n - 1) / 2 : Nat) : K) = (n : K) - 1 := by rw [← e3]; ring
      rw [e5, div_self (by linarith), mul_one, Int.cast_sub, Int.cast_natCast]
      ring
  have hg : gassert dbg (decide (axis < (fresh K roi periodic variance st).shapeOrig.length)) = ok () := by
    show gassert dbg (decide (axis < roi.length)) = _
    simp [gassert, ha]
  have hu : ∀ k < roi.prod, unravel (Nd.shape3 roi) k = raise (unravel roi k) := by
    intro k hk
    obtain ⟨b1, b2⟩ := unravel_inbox hk
    rw [← unravel_shape3 hr b1, b2]
  unfold Ens.distanceAxis
  rw [hg, ok_bind]
  rcases length_cases hr with rfl | ⟨a, rfl⟩ | ⟨a, b, rfl⟩ | ⟨a, b, c, rfl⟩
  · simp at ha
  · have hax : axis = 0 := by simp at ha; omega
    subst hax
    refine ⟨_, rfl, rfl, fun k hk => ?_⟩
    show linspace _ _ _ ((unravel (Nd.shape3 [a]) k).getD 1 0) = _
    have hb := (unravel_inbox hk).1
    rw [hu k hk]
    generalize unravel [a] k = x at hb
    match x, hb with
    | [x], .cons h1 .nil => exact key a x h1
  · have hax : axis = 0 ∨ axis = 1 := by simp at ha; omega
    rcases hax with rfl | rfl
    · refine ⟨_, rfl, rfl, fun k hk => ?_⟩
      show linspace _ _ _ ((unravel (Nd.shape3 [a, b]) k).getD 0 0) = _
      have hb := (unravel_inbox hk).1
      rw [hu k hk]
      generalize unravel [a, b] k = x at hb
      match x, hb with
      | [x, y], .cons h1 (.cons h2 .nil) => exact key a x h1
    · refine ⟨_, rfl, rfl, fun k hk => ?_⟩
      show linspace _ _ _ ((unravel (Nd.shape3 [a, b]) k).getD 1 0) = _
      have hb := (unravel_inbox hk).1
      rw [hu k hk]
      generalize unravel [a, b] k = x at hb
      match x, hb with
      | [x, y], .cons h1 (.cons h2 .nil) => exact key b y h2
  · have hax : axis = 0 ∨ axis = 1 ∨ axis = 2 := by simp at ha; omega
    rcases hax with rfl | rfl | rfl
    · refine ⟨_, rfl, rfl, fun k hk => ?_⟩
      show linspace _ _ _ ((unravel (Nd.shape3 [a, b, c]) k).getD 0 0) = _
      have hb := (unravel_inbox hk).1
      rw [hu k hk]
      generalize unravel [a, b, c] k = x at hb
      match x, hb with
      | [x, y, z], .cons h1 (.cons h2 (.cons h3 .nil)) => exact key a x h1
    · refine ⟨_, rfl, rfl, fun k hk => ?_⟩
      show linspace _ _ _ ((unravel (Nd.shape3 [a, b, c]) k).getD 1 0) = _
      have hb := (unravel_inbox hk).1
      rw [hu k hk]
      generalize unravel [a, b, c] k = x at hb
      match x, hb with
      | [x, y, z], .cons h1 (.cons h2 (.cons h3 .nil)) => exact key b y h2
    · refine ⟨_, rfl, rfl, fun k hk => ?_⟩
      show linspace _ _ _ ((unravel (Nd.shape3 [a, b, c]) k).getD 2 0) = _
      have hb := (unravel_inbox hk).1
      rw [hu k hk]
      generalize unravel [a, b, c] k = x at hb
      match x, hb with
      | [x, y, z], .cons h1 (.cons h2 (.cons h3 .nil)) => exact key c z h3

/-- `distance(axis)` is the displacement along the axis. -/
theorem C33_axis (dbg : Bool) {roi : List Nat} (hr : roi.length ≤ 3) (h0 : 0 ∉ roi) {axis : Nat}
    (ha : axis < roi.length) :
    ∃ D, Api.distanceAxis K dbg roi axis = ok D ∧ D.shape = roi ∧
      ∀ i, InBox roi i → val D i = (((displacement roi i).getD axis 0 : Int) : K) := by
  obtain ⟨D, h1, h2, h3⟩ := distanceAxis_ok (K := K) dbg (periodic := true) (variance := true)
    (st := .unset) hr h0 ha
  refine ⟨D, ?_, h2, fun i hi => ?_⟩
  · rw [Api.distanceAxis, make_ok dbg hr h0, ok_bind, h1]
  · rw [val, h2, h3 _ (flat_lt hi), unravel_flat hi]

theorem distanceSum_ok (dbg : Bool) {roi : List Nat} {periodic variance : Bool} {st : Stat}
    (hr : roi.length ≤ 3) (h0 : 0 ∉ roi) (scale : Nat → K) :
    ∃ D : Nd K, distanceSum dbg (fresh K roi periodic variance st) scale = ok D ∧ D.shape = roi ∧
      ∀ k < roi.prod, D.get k = ((List.range roi.length).map fun a =>
        ((((displacement roi (unravel roi k)).getD a 0 : Int) : K) * scale a) ^ 2).sum := by
  have key : ∀ (l : List Nat) (ret : Nd K), (∀ a ∈ l, a < roi.length) → ret.shape = roi →
      ∃ D : Nd K, (forM l ret fun ret i => do
          let d ← Ens.distanceAxis dbg (fresh K roi periodic variance st) i
          Nd.map₂ (fun a b => a + (b * scale i) ^ 2) ret d) = ok D ∧ D.shape = roi ∧
        ∀ k < roi.prod, D.get k = ret.get k + (l.map fun a =>
          ((((displacement roi (unravel roi k)).getD a 0 : Int) : K) * scale a) ^ 2).sum := by
    intro l
    induction l with
    | nil => exact fun ret _ hs => ⟨ret, rfl, hs, fun k _ => by simp⟩
    | cons a l ih =>
      intro ret ha hs
      obtain ⟨D, e1, e2, e3⟩ := distanceAxis_ok (K := K) dbg (periodic := periodic)
        (variance := variance) (st := st) hr h0 (ha a (by simp))
      obtain ⟨D', e4, e5, e6⟩ := ih ⟨roi, fun k => ret.get k + (D.get k * scale a) ^ 2⟩
        (fun b hb => ha b (List.mem_cons_of_mem _ hb)) rfl
      refine ⟨D', ?_, e5, fun k hk => ?_⟩
      · rw [forM, e1, ok_bind, map₂_ok hs e2]
        exact e4
      · rw [e6 k hk, List.map_cons, List.sum_cons]
        show ret.get k + (D.get k * scale a) ^ 2 + _ = _
        rw [e3 k hk]
        ring
  obtain ⟨D, h1, h2, h3⟩ := key (List.range roi.length) (Nd.fill roi 0) (by simp) rfl
  refine ⟨D, h1, h2, fun k hk => ?_⟩
  rw [h3 k hk]
  simp [Nd.fill]

/-- `distance()` is the Euclidean norm of the displacement. -/
theorem C33_distance (pow05 : K → K) (dbg : Bool) {roi : List Nat} (hr : roi.length ≤ 3) (h0 : 0 ∉ roi) :
    ∃ D, Api.distance pow05 dbg roi = ok D ∧ D.shape = roi ∧
      ∀ i, InBox roi i → val D i = pow05 ((List.range roi.length).map fun a =>
        (((displacement roi i).getD a 0 : Int) : K) ^ 2).sum := by
  obtain ⟨D, h1, h2, h3⟩ := distanceSum_ok (K := K) dbg (periodic := true) (variance := true)
    (st := .unset) hr h0 fun _ => 1
  refine ⟨D.map pow05, ?_, h2, fun i hi => ?_⟩
  · rw [Api.distance, make_ok dbg hr h0, ok_bind, Ens.distance, h1, ok_bind]
    rfl
  · show pow05 (D.get (flat D.shape i).toNat) = _
    rw [h2, h3 _ (flat_lt hi), unravel_flat hi]
    simp

/-- `distance(h)` is the Euclidean norm of the displacement with pixels of size `h`. -/
theorem C33_distance_h (pow05 : K → K) (dbg : Bool) {roi : List Nat} (hr : roi.length ≤ 3) (h0 : 0 ∉ roi)
    {h : List K} (hh : h.length = roi.length) :
    ∃ D, Api.distanceH pow05 dbg roi h = ok D ∧ D.shape = roi ∧
      ∀ i, InBox roi i → val D i = pow05 ((List.range roi.length).map fun a =>
        ((((displacement roi i).getD a 0 : Int) : K) * h.getD a 0) ^ 2).sum := by
  obtain ⟨D, h1, h2, h3⟩ := distanceSum_ok (K := K) dbg (periodic := true) (variance := true)
    (st := .unset) hr h0 fun a => h.getD a 0
  refine ⟨D.map pow05, ?_, h2, fun i hi => ?_⟩
  · have e : (fresh K roi true true .unset).shapeOrig = roi := rfl
    simp only [Api.distanceH, make_ok dbg hr h0, ok_bind, Ens.distanceH, h1, e, hh, gassert,
      decide_true, Bool.not_true, Bool.and_false, Bool.false_eq_true, if_false, lt_irrefl, pure_eq]
  · show pow05 (D.get (flat D.shape i).toNat) = _
    rw [h2, h3 _ (flat_lt hi), unravel_flat hi]

/-- `distance(h, axis)` is the displacement along the axis times the size of a pixel. -/
theorem C33_axis_h (dbg : Bool) {roi : List Nat} (hr : roi.length ≤ 3) (h0 : 0 ∉ roi)
    {h : List K} (hh : h.length = roi.length) {axis : Nat} (ha : axis < roi.length) :
    ∃ D, Api.distanceHAxis dbg roi h axis = ok D ∧ D.shape = roi ∧
      ∀ i, InBox roi i → val D i = (((displacement roi i).getD axis 0 : Int) : K) * h.getD axis 0 := by
  obtain ⟨D, h1, h2, h3⟩ := distanceAxis_ok (K := K) dbg (periodic := true) (variance := true)
    (st := .unset) hr h0 ha
  have ha' : axis < h.length := by omega
  refine ⟨D.map fun x => x * h[axis], ?_, h2, fun i hi => ?_⟩
  · have e : (fresh K roi true true .unset).shapeOrig = roi := rfl
    simp only [Api.distanceHAxis, make_ok dbg hr h0, ok_bind, Ens.distanceHAxis, h1, e, hh, gassert,
      decide_true, Bool.not_true, Bool.and_false, Bool.false_eq_true, if_false, pure_eq,
      List.getElem?_eq_getElem ha']
  · show D.get (flat D.shape i).toNat * h[axis] = _
    have e : h.getD axis 0 = h[axis] := by simp [ha']
    rw [h2, h3 _ (flat_lt hi), unravel_flat hi, e]

/-- With assertions an axis that the region of interest does not have, and a number of pixel sizes that is not the rank,
are rejected. -/
theorem C33_rejected (pow05 : K → K) {roi : List Nat} (hr : roi.length ≤ 3) (h0 : 0 ∉ roi) {axis : Nat} {h : List K} :
    (roi.length ≤ axis → Api.distanceAxis K true roi axis = throws) ∧
    (h.length ≠ roi.length → Api.distanceH pow05 true roi h = throws ∧ Api.distanceHAxis true roi h axis = throws) ∧
    (roi.length ≤ axis → Api.distanceHAxis true roi h axis = throws) := by
  have e : (fresh K roi true true .unset).shapeOrig = roi := rfl
  have ha : roi.length ≤ axis → Ens.distanceAxis true (fresh K roi true true .unset) axis = throws := by
    intro h
    simp only [Ens.distanceAxis, e, gassert, not_lt.2 h, decide_false, Bool.not_false, Bool.and_self, if_true]
    rfl
  refine ⟨fun h => ?_, fun h => ⟨?_, ?_⟩, fun hx => ?_⟩
  · rw [Api.distanceAxis, make_ok true hr h0, ok_bind, ha h]
  · simp only [Api.distanceH, make_ok true hr h0, ok_bind, Ens.distanceH, e, gassert, Ne.symm h, decide_false,
      Bool.not_false, Bool.and_self, if_true]
    rfl
  · simp only [Api.distanceHAxis, make_ok true hr h0, ok_bind, Ens.distanceHAxis, e, gassert, Ne.symm h, decide_false,
      Bool.not_false, Bool.and_self, if_true]
    rfl
  · simp only [Api.distanceHAxis, make_ok true hr h0, ok_bind, Ens.distanceHAxis, e, ha hx, gassert]
    split <;> rfl

example : ([] : List ℚ).length ≠ [3, 4, 1].length ∧ [3, 4, 1].length ≤ 3 := by decide

/-- A ROI of odd and even sizes in three dimensions. -/
example : (0 : Nat) ∉ [3, 4, 1] ∧ [3, 4, 1].length ≤ 3 ∧ InBox [3, 4, 1] [2, 3, 0] ∧
    displacement [3, 4, 1] [2, 3, 0] = [1, 2, 0] := by
  refine ⟨by decide, by decide, ?_, by decide⟩
  simp [InBox]

/-! ### C41 -/

/-- Add an image, with or without a mask. -/
def addMean (dbg : Bool) (E : Ensemble K) (a : Nd K × Option (Nd Int)) : Outcome (Ensemble K) :=
  match a.2 with
  | none => mean dbg E a.1
  | some m => meanMask dbg E a.1 m

/-- The mask has the shape of the image. -/
def LegalImage (a : Nd K × Option (Nd Int)) : Prop :=
  ∀ m, a.2 = some m → m.shape = a.1.shape ∧ IsMask m

theorem filter_sums (l : List (List Int)) (p : List Int → Bool) (φ : List Int → K) :
    ((l.filter p).map φ).sum = (l.map fun x => if p x then φ x else 0).sum := by
  induction l with
  | nil => rfl
  | cons a l ih => by_cases h : p a <;> simp [h, ih]

theorem addMean_effect {roi : List Nat} {periodic variance : Bool} (hr : roi.length ≤ 3)
    (h1 : Nd.shape3 roi = [1, 1, 1]) {a : Nd K × Option (Nd Int)} (ha : LegalImage a) :
    Effect roi periodic variance .mean (fun dbg E => addMean dbg E a) fun _ =>
      ((unmaskedValues a.1 a.2).sum, ((unmaskedValues a.1 a.2).map fun v => v ^ 2).sum,
        ((unmaskedValues a.1 a.2).length : K)) := by
  obtain ⟨f, m⟩ := a
  cases m with
  | none =>
    have := mean_effect (K := K) (periodic := periodic) (variance := variance) hr h1 f
    simpa [unmaskedValues, addMean, Function.comp_def, pixels_length] using this
  | some m =>
    obtain ⟨e1, e2⟩ := ha m rfl
    have := meanMask_effect (K := K) (periodic := periodic) (variance := variance) hr h1 e1 e2
    have e3 := filter_sums (K := K) (pixels f.shape) (fun x => val m x = 0)
    have e4 : (((pixels f.shape).filter fun x => val m x = 0).length : K) =
        ((pixels f.shape).map fun x => if val m x = 0 then (1 : K) else 0).sum := by
      have := e3 fun _ => 1
      simpa using this
    simp only [unmaskedValues, addMean, List.map_map, Function.comp_def, List.length_map, e3, e4,
      decide_eq_true_eq]
    exact this

theorem variance_formula {l : List K} (h : 2 ≤ l.length) :
    varianceOf l.sum (l.map fun v => v ^ 2).sum (l.length : K) = sampleVariance l := by
  have hn : (1 : K) < (l.length : K) := by exact_mod_cast (by omega : 1 < l.length)
  have h0 : ¬ ((l.length : K) ≤ 0) := by linarith
  have key : ∀ (l : List K) (c : K), (l.map fun v => (v - c) ^ 2).sum =
      (l.map fun v => v ^ 2).sum - 2 * c * l.sum + (l.length : K) * c ^ 2 := by
    intro l c
    induction l with
    | nil => simp
    | cons a l ih => simp [ih]; ring
  rw [varianceOf, sampleVariance, key, norm1, if_neg h0, arithmeticMean]
  have h1 : (l.length : K) ≠ 0 := by linarith
  have h2 : (l.length : K) - 1 ≠ 0 := by linarith
  field_simp
  ring

/-- The moments and the norm after a sequence of images. -/
theorem mean_moments {roi : List Nat} (hr : roi.length ≤ 3) (h1 : ∀ n ∈ roi, n = 1)
    {images : List (Nd K × Option (Nd Int))} (hne : images ≠ []) (hl : ∀ a ∈ images, LegalImage a)
    (periodic variance dbg : Bool) :
    ∃ E, (do
        let E ← make K dbg roi periodic variance
        forM images E (addMean dbg)) = ok E ∧ Good roi periodic variance E ∧ E.stat = .mean ∧
      ∀ i, InBox roi i →
        let data := images.flatMap fun a => unmaskedValues a.1 a.2
        E.first.get (flat roi i).toNat = data.sum ∧
        E.second.get (flat roi i).toNat = (data.map fun v => v ^ 2).sum ∧
        E.norm.get (flat roi i).toNat = (data.length : K) := by
  have h0 : 0 ∉ roi := fun h => absurd (h1 0 h) (by decide)
  have h3 : Nd.shape3 roi = [1, 1, 1] := by
    rcases length_cases hr with rfl | ⟨a, rfl⟩ | ⟨a, b, rfl⟩ | ⟨a, b, c, rfl⟩ <;>
      simp at h1 <;> simp [Nd.shape3, h1]
  obtain ⟨δ, e1, e2⟩ := effects_run (K := K) (call := fun a dbg E => addMean dbg E a)
    fun a ha => addMean_effect (periodic := periodic) (variance := variance) hr h3 (hl a ha)
  rw [make_ok dbg hr h0]
  simp only [ok_bind]
  have e3 := e1 dbg (fresh K roi periodic variance .unset) good_fresh (Or.inr rfl)
  rw [if_neg hne] at e3
  refine ⟨_, e3, (good_fresh.stat _).plus δ, rfl, fun i hi => ?_⟩
  have e4 := e2 i hi
  have hsum : ∀ l : List (Nd K × Option (Nd Int)), (l.map fun a =>
      ((unmaskedValues a.1 a.2).sum, ((unmaskedValues a.1 a.2).map fun v => v ^ 2).sum,
        ((unmaskedValues a.1 a.2).length : K))).sum =
      ((l.flatMap fun a => unmaskedValues a.1 a.2).sum,
        ((l.flatMap fun a => unmaskedValues a.1 a.2).map fun v => v ^ 2).sum,
        ((l.flatMap fun a => unmaskedValues a.1 a.2).length : K)) := by
    intro l
    induction l with
    | nil => simp; rfl
    | cons a l ih =>
      rw [List.map_cons, List.sum_cons, ih]
      simp [List.flatMap_cons]
  rw [hsum] at e4
  simp only [Delta.at, Prod.mk.injEq] at e4
  simpa [Ensemble.plus, fresh, Nd.fill] using e4

/-- After any sequence of images (with or without masks) `result` is the mean of all unmasked pixels and
`variance` their unbiased sample variance. -/
theorem C41_mean {roi : List Nat} (hr : roi.length ≤ 3) (h1 : ∀ n ∈ roi, n = 1)
    {images : List (Nd K × Option (Nd Int))} (hne : images ≠ []) (hl : ∀ a ∈ images, LegalImage a)
    (periodic variance dbg : Bool) (pow05 : K → K) :
    ∃ E r v, (do
        let E ← make K dbg roi periodic variance
        forM images E (addMean dbg)) = ok E ∧
      result pow05 E = ok r ∧ varianceResult pow05 E = ok v ∧ r.shape = roi ∧ v.shape = roi ∧
      ∀ i, InBox roi i →
        let data := images.flatMap fun a => unmaskedValues a.1 a.2
        (data ≠ [] → val r i = arithmeticMean data) ∧
        (2 ≤ data.length → val v i = sampleVariance data) := by
  obtain ⟨E, e1, hg, hs, e2⟩ := mean_moments (K := K) hr h1 hne hl periodic variance dbg
  refine ⟨E, ⟨roi, fun k => E.first.get k / norm1 (E.norm.get k)⟩,
    ⟨roi, fun k => varianceOf (E.first.get k) (E.second.get k) (E.norm.get k)⟩, e1, ?_, ?_, rfl, rfl, fun i hi => ?_⟩
  · simp [result, hs, hg.first, hg.norm, hg.shapeOrig, Nd.map₂, Nd.reshape]
  · simp [varianceResult, hs, hg.first, hg.second, hg.norm, hg.shapeOrig, Nd.map₂, Nd.reshape]
  obtain ⟨a1, a2, a3⟩ := e2 i hi
  generalize (images.flatMap fun a => unmaskedValues a.1 a.2) = data at a1 a2 a3
  constructor
  · intro hd
    have hn : ¬ ((data.length : K) ≤ 0) := by
      rw [not_le]
      exact_mod_cast List.length_pos_iff.2 hd
    show E.first.get (flat roi i).toNat / norm1 (E.norm.get (flat roi i).toNat) = _
    rw [a1, a3, norm1, if_neg hn, arithmeticMean]
  · intro hd
    rw [← variance_formula hd]
    show varianceOf (E.first.get (flat roi i).toNat) (E.second.get (flat roi i).toNat) (E.norm.get (flat roi i).toNat) = _
    rw [a1, a2, a3]

/-- Two images, the second with a mask. -/
example : ∀ a ∈ [(im [1, 2], none), (im [3, 4, 5], some (mk [0, 1, 0]))], LegalImage a := by
  intro a ha m hm
  simp only [List.mem_cons, List.not_mem_nil, or_false] at ha
  rcases ha with rfl | rfl
  · cases hm
  · cases hm
    exact ⟨rfl, mk_isMask (by decide)⟩

/-! ### C35 for mean -/

/-- Masked pixels do not contribute to the accumulators of the mean: the ensembles are equal, from every
reachable state. -/
theorem C35_mean {E : Ensemble K} {roi : List Nat} {periodic variance : Bool} (hr : roi.length ≤ 3)
    (h1 : ∀ n ∈ roi, n = 1) {images : List (Nd K × Option (Nd Int))} (hl : ∀ a ∈ images, LegalImage a)
    (dbg : Bool) (hE : (do
        let E ← make K dbg roi periodic variance
        forM images E (addMean dbg)) = ok E)
    {f f' : Nd K} {m : Nd Int} (hf : f'.shape = f.shape) (hm : m.shape = f.shape) (bm : IsMask m)
    (hv : ∀ x ∈ pixels f.shape, val m x = 0 → val f x = val f' x) :
    ∃ E', meanMask dbg E f m = ok E' ∧ meanMask dbg E f' m = ok E' := by
  have h0 : 0 ∉ roi := fun h => absurd (h1 0 h) (by decide)
  have h3 : Nd.shape3 roi = [1, 1, 1] := by
    rcases length_cases hr with rfl | ⟨a, rfl⟩ | ⟨a, b, rfl⟩ | ⟨a, b, c, rfl⟩ <;>
      simp at h1 <;> simp [Nd.shape3, h1]
  obtain ⟨δ, e1, -⟩ := effects_run (K := K) (call := fun a dbg E => addMean dbg E a)
    fun a ha => addMean_effect (periodic := periodic) (variance := variance) hr h3 (hl a ha)
  rw [make_ok dbg hr h0, ok_bind] at hE
  have e3 := (e1 dbg (fresh K roi periodic variance .unset) good_fresh (Or.inr rfl)).symm.trans hE
  cases e3
  have hg : Good roi periodic variance (({ fresh K roi periodic variance .unset with
      stat := if images = [] then (fresh K roi periodic variance .unset).stat else .mean } :
      Ensemble K).plus δ) := (good_fresh.stat _).plus δ
  generalize hE' : (({ fresh K roi periodic variance .unset with
      stat := if images = [] then (fresh K roi periodic variance .unset).stat else .mean } :
      Ensemble K).plus δ) = E at hg
  have hs : E.stat = .mean ∨ E.stat = .unset := by
    rw [← hE']
    by_cases hi : images = []
    · exact Or.inr (by simp [Ensemble.plus, fresh, hi])
    · exact Or.inl (by simp [Ensemble.plus, hi])
  -- the arrays of unmasked values agree
  have hk : ∀ k, k < prodShape f.shape → m.get k = 0 → f.get k = f'.get k := by
    intro k hk hk0
    rw [Cluster.prodShape_eq] at hk
    obtain ⟨b1, b2⟩ := unravel_inbox hk
    have := hv (unravel f.shape k) (mem_pixels.2 b1)
    simp only [val, hm, hf, b2] at this
    exact this hk0
  have hsum : ∀ φ : K → K, (Nd.mk m.shape fun k => if m.get k = 0 then φ (f.get k) else 0).sum =
      (Nd.mk m.shape fun k => if m.get k = 0 then φ (f'.get k) else 0).sum := by
    intro φ
    unfold Nd.sum Nd.toList Nd.size
    congr 1
    refine List.map_congr_left fun k hk' => ?_
    rw [List.mem_range] at hk'
    simp only [hm] at hk'
    show (if m.get k = 0 then φ (f.get k) else 0) = if m.get k = 0 then φ (f'.get k) else 0
    by_cases h : m.get k = 0
    · rw [hk k hk' h]
    · rw [if_neg h, if_neg h]
  have q1 : ∀ φ : Int → K → K, Nd.map₂ φ m f = ok ⟨m.shape, fun k => φ (m.get k) (f.get k)⟩ := fun φ =>
    if_pos hm
  have q2 : ∀ φ : Int → K → K, Nd.map₂ φ m f' = ok ⟨m.shape, fun k => φ (m.get k) (f'.get k)⟩ := fun φ =>
    if_pos (hm.trans hf.symm)
  have s1 := hsum id
  have s2 := hsum fun x => x ^ 2
  simp only [id] at s1
  simp only [meanMask, gassert, hg.shape, h3, hm, hf, bm.binary, hs, decide_true, Bool.not_true,
    Bool.and_false, Bool.false_eq_true, if_false, ok_bind, q1, q2, addTo0_ok (hg.first.trans h3),
    addTo0_ok (hg.second.trans h3), addTo0_ok (hg.norm.trans h3), pure_eq, hm ▸ s1, hm ▸ s2]
  exact ⟨_, rfl, rfl⟩

end Verif.Props
