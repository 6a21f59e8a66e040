import Verif.Props.Exceptions
import Verif.Props.Dilate
import Verif.Props.Dummy
import Verif.Props.Labels
import Verif.Model.Center

/-!
# Which arguments the free functions refuse (C99)
-/

namespace Verif.Props

open Verif Outcome Spec Ens

/-! ### dilate -/

theorem nothrow_setView {α : Type} (a : Nd α) (r : List (Int × Int)) (v : Nd α) : NoThrow (a.setView r v) :=
  nothrow_ite nothrow_ub (nothrow_ite nothrow_ub (nothrow_ite nothrow_ub (nothrow_ok _)))

theorem nothrow_copyNonzero (F : Nd Int) (src dst : List (Int × Int)) : NoThrow (Dilate.copyNonzero F src dst) :=
  nothrow_do (nothrow_view _ _) fun _ => nothrow_do (nothrow_view _ _) fun _ =>
    nothrow_do (nothrow_map₂ _ _ _) fun _ => nothrow_setView _ _ _

theorem nothrow_periodicCopy (F : Nd Int) (pad : List (Nat × Nat)) : NoThrow (Dilate.periodicCopy F pad) := by
  refine nothrow_do (nothrow_forM (fun F ax => ?_) _ _) fun F => nothrow_forM (fun F ax => ?_) _ _
  · split
    · exact nothrow_ite (nothrow_pure _) (nothrow_copyNonzero _ _ _)
    · exact nothrow_ub
  · split
    · exact nothrow_ite (nothrow_pure _) (nothrow_copyNonzero _ _ _)
    · exact nothrow_ub

theorem nothrow_pixel (pad : List (Nat × Nat)) (K : Nd Int) (iterations : List Nat) (iter : Nat) (F G : Nd Int)
    (x : List Int) : NoThrow (Dilate.pixel pad K iterations iter F G x) := by
  refine nothrow_do (nothrow_read _ _) fun l => nothrow_ite (nothrow_pure _) ?_
  split
  · exact nothrow_ub
  · exact nothrow_ite (nothrow_pure _) (nothrow_do (nothrow_view _ _) fun _ => nothrow_do (nothrow_view _ _) fun _ =>
      nothrow_do (nothrow_map₂ _ _ _) fun _ => nothrow_do (nothrow_map₂ _ _ _) fun _ => nothrow_setView _ _ _)

theorem nothrow_iteration (pad : List (Nat × Nat)) (K : Nd Int) (iterations : List Nat) (periodic : Bool) (F : Nd Int)
    (iter : Nat) : NoThrow (Dilate.iteration pad K iterations periodic F iter) :=
  nothrow_do (nothrow_forM (fun _ _ => nothrow_pixel _ _ _ _ _ _ _) _ _) fun _ =>
    nothrow_ite (nothrow_periodicCopy _ _) (nothrow_pure _)

/-- `dilate` refuses exactly, and only with assertions: images of more than three dimensions, kernels of another
rank or with values other than zero and one, images without a label that is not negative, and labels larger than the
number of numbers of iterations plus one. -/
theorem C99_dilate (dbg : Bool) (f kernel : Nd Int) (iterations : List Nat) (periodic : Bool) :
    Dilate.dilate dbg f kernel iterations periodic = throws ↔ dbg = true ∧
      ¬ (f.shape.length ≤ 3 ∧ kernel.shape.length = f.shape.length ∧ IsMask kernel ∧
        (∃ x ∈ pixels f.shape, 0 ≤ val f x) ∧ ∀ x ∈ pixels f.shape, val f x ≤ iterations.length + 1) := by
  have hb : binary kernel = false ↔ ¬ IsMask kernel := by
    rw [← binary_iff]; cases binary kernel <;> simp
  have hmax : ∀ b : Int, -2147483648 ≤ b →
      (Dilate.amax f.toList ≤ b ↔ ∀ x ∈ pixels f.shape, val f x ≤ b) := by
    intro b hb
    unfold Dilate.amax
    rw [Dilate.foldl_max_le]
    constructor
    · exact fun h x hx => h.2 _ (Dilate.mem_toList.2 ⟨x, hx, rfl⟩)
    · intro h
      refine ⟨hb, fun v hv => ?_⟩
      obtain ⟨x, hx, rfl⟩ := Dilate.mem_toList.1 hv
      exact h x hx
  have h0 : 0 ≤ Dilate.amax f.toList ↔ ∃ x ∈ pixels f.shape, 0 ≤ val f x := by
    have := hmax (-1) (by omega)
    rw [← not_lt, show Dilate.amax f.toList < 0 ↔ Dilate.amax f.toList ≤ -1 by omega, this]
    push Not
    exact exists_congr fun x => and_congr_right fun _ => by omega
  have h1 := hmax (iterations.length + 1) (by omega)
  unfold Dilate.dilate
  rw [gassert_throws, gassert_throws, gassert_throws, gassert_throws, iff_false_intro <|
    nothrow_ite nothrow_ub (nothrow_do (nothrow_pad _ _ _ _) fun _ =>
      nothrow_do (nothrow_forM (fun _ _ => nothrow_iteration _ _ _ _ _ _) _ _) fun _ =>
      nothrow_do (nothrow_view _ _) fun _ => nothrow_ite (nothrow_pure _) nothrow_ub)]
  simp only [decide_eq_false_iff_not, hb, h0, h1, eq_comm (a := kernel.shape.length)]
  clear hmax h0 h1 hb
  generalize (∃ x ∈ pixels f.shape, 0 ≤ val f x) = A
  generalize (∀ x ∈ pixels f.shape, val f x ≤ (iterations.length : Int) + 1) = B
  tauto

/-- A kernel with a value 2, and a label 4 with two numbers of iterations are refused. -/
example : ¬ IsMask (mk [1, 2]) ∧ ∃ x ∈ pixels (mk [0, 4]).shape, ¬ val (mk [0, 4]) x ≤ ([1, 1] : List Nat).length + 1 := by
  unfold IsMask
  decide

/-! ### dummy_circles -/

theorem nothrow_write {α : Type} (a : Nd α) (x : List Int) (v : α) : NoThrow (a.write x v) :=
  nothrow_ite (nothrow_ok _) nothrow_ub

/-- `dummy_circles` refuses exactly, and only with assertions: lists of different lengths, and shapes of another rank
than two. -/
theorem C99_circles (dbg : Bool) (shape : List Nat) (row col r : List Int) (periodic : Bool) :
    Dummy.dummyCircles dbg shape row col r periodic = throws ↔ dbg = true ∧
      ¬ (row.length = col.length ∧ row.length = r.length ∧ shape.length = 2) := by
  have hc : ∀ i, NoThrow (Dummy.circle row col r i) := by
    intro i
    unfold Dummy.circle
    split
    · exact nothrow_ok _
    · exact nothrow_ub
  have h1 : ∀ root out a b c di dj, NoThrow (Dummy.stampPeriodic root out a b c di dj) := fun root out a b c di dj =>
    nothrow_ite (nothrow_do (nothrow_ite nothrow_ub (nothrow_ok _)) fun _ => nothrow_write _ _ _) (nothrow_ok _)
  have h2 : ∀ root out a b c di dj, NoThrow (Dummy.stamp root out a b c di dj) := fun root out a b c di dj =>
    nothrow_ite (nothrow_ite (nothrow_write _ _ _) (nothrow_ok _)) (nothrow_ok _)
  unfold Dummy.dummyCircles Dummy.circlesWith
  rw [gassert_throws, gassert_throws, gassert_throws, iff_false_intro <|
    nothrow_ite nothrow_ub (nothrow_forM (fun out i => nothrow_do (hc i) fun c =>
      nothrow_forM (fun _ _ => nothrow_forM (fun _ _ => nothrow_ite (h1 _ _ _ _ _ _ _) (h2 _ _ _ _ _ _ _)) _ _) _ _) _ _)]
  simp only [decide_eq_false_iff_not]
  tauto

/-! ### centers -/

/-- `labels_centers` refuses exactly, and only with assertions: arrays without axes. -/
theorem C99_centers (dbg : Bool) {n : Nat} (negative : Nat → Fin n → Bool) (labels : Nd Int)
    (hn : labels.shape.length = n) (names : List Int) (periodic : Bool) :
    Center.labelsCenters dbg negative labels hn names periodic = throws ↔ dbg = true ∧ n = 0 := by
  unfold Center.labelsCenters
  rw [gassert_throws, iff_false_intro <| nothrow_forM (fun _ _ => nothrow_ite (nothrow_pure _) (nothrow_pure _)) _ _]
  simp only [decide_eq_false_iff_not, hn, Nat.pos_iff_ne_zero, not_not, or_false]

/-- `labels_centers_of_mass` refuses exactly, and only with assertions: weights of another shape, and arrays without
axes. -/
theorem C99_centers_of_mass (dbg : Bool) {n : Nat} (negative : Nat → Fin n → Bool) (labels : Nd Int)
    (hn : labels.shape.length = n) (weights : Nd ℝ) (names : List Int) (periodic : Bool) :
    Center.labelsCentersOfMass dbg negative labels hn weights names periodic = throws ↔ dbg = true ∧
      (weights.shape ≠ labels.shape ∨ n = 0) := by
  unfold Center.labelsCentersOfMass
  rw [gassert_throws, gassert_throws, iff_false_intro <| nothrow_forM (fun _ _ =>
    nothrow_do (nothrow_forM (fun _ _ => nothrow_do (nothrow_read _ _) fun _ => nothrow_pure _) _ _) fun _ =>
      nothrow_ite (nothrow_pure _) (nothrow_pure _)) _ _]
  simp only [decide_eq_false_iff_not, hn, eq_comm (a := labels.shape), Nat.pos_iff_ne_zero, not_not, or_false,
    ← and_or_left]

/-! ### statistics -/

section

variable {K : Type} [Field K] [LinearOrder K] [IsStrictOrderedRing K]
variable {P : Type} [Zero P] [One P] [Add P] [Sub P] [Neg P] [Mul P] [Div P] [NatCast P] [IntCast P] [DecidableEq P]
  [LT P] [DecidableLT P]

/-- The free function that computes the statistic of one call; none for `mean`. -/
def Realisation.free (pow05 : K → K) (dbg : Bool) (junk : P) (fuel : Nat) (roi : List Nat) (periodic : Bool) :
    Realisation K → Option (Outcome (Nd K))
  | .mean _ _ => none
  | .S2 f g none => some (Api.S2 pow05 dbg roi f g periodic)
  | .S2 f g (some m) => some (Api.S2Mask pow05 dbg roi f g m.1 m.2 periodic)
  | .C2 f g none => some (Api.C2 pow05 dbg roi f g periodic)
  | .C2 f g (some m) => some (Api.C2Mask pow05 dbg roi f g m.1 m.2 periodic)
  | .W2 w f none => some (Api.W2 pow05 dbg roi w f periodic)
  | .W2 w f (some m) => some (Api.W2Mask pow05 dbg roi w f m periodic)
  | .W2c clusters centers f none mode => some (Api.W2c pow05 dbg junk fuel roi clusters centers f mode periodic)
  | .W2c clusters centers f (some m) mode =>
    some (Api.W2cMask pow05 dbg junk fuel roi clusters centers f m mode periodic)
  | .heightheight f none => some (Api.heightheight pow05 dbg roi f periodic)
  | .heightheight f (some m) => some (Api.heightheightMask pow05 dbg roi f m periodic)
  | .L f mode => some (Api.L pow05 dbg junk fuel roi f periodic mode)

/-- The arguments of the function fit together: the images and masks have the same shape, which has the rank of the
ROI, and masks hold zeros and ones. -/
def Realisation.Fit (roi : List Nat) : Realisation K → Prop
  | .mean _ _ => False
  | .S2 f g m => f.shape.length = roi.length ∧ g.shape = f.shape ∧ ∀ m' ∈ m, LegalMask f.shape m'.1 ∧ LegalMask f.shape m'.2
  | .C2 f g m => f.shape.length = roi.length ∧ g.shape = f.shape ∧ ∀ m' ∈ m, LegalMask f.shape m'.1 ∧ LegalMask f.shape m'.2
  | .W2 w f m => w.shape.length = roi.length ∧ f.shape = w.shape ∧ ∀ m' ∈ m, LegalMask w.shape m'
  | .W2c clusters centers f m _ => f.shape.length = roi.length ∧ clusters.shape = f.shape ∧ centers.shape = f.shape ∧
      ∀ m' ∈ m, LegalMask f.shape m'
  | .heightheight f m => f.shape.length = roi.length ∧ ∀ m' ∈ m, LegalMask f.shape m'
  | .L f _ => f.shape.length = roi.length

omit [IsStrictOrderedRing K] in
theorem free_eq (pow05 : K → K) (dbg : Bool) (junk : P) (fuel : Nat) (roi : List Nat) (periodic : Bool)
    (r : Realisation K) {o : Outcome (Nd K)} (h : r.free pow05 dbg junk fuel roi periodic = some o) :
    o = (make K dbg roi periodic true >>= fun E => r.call junk fuel dbg E >>= fun E => result pow05 E) := by
  cases r with
  | mean f m => cases h
  | S2 f g m => cases m <;> cases h <;> rfl
  | C2 f g m => cases m <;> cases h <;> rfl
  | W2 f g m => cases m <;> cases h <;> rfl
  | W2c cl ce f m mode => cases m <;> cases h <;> rfl
  | heightheight f m => cases m <;> cases h <;> rfl
  | L f mode => cases h; rfl

/-- The free functions `S2`, `C2`, `W2`, `W2c`, `heightheight` and `L` refuse exactly, and only with assertions:
regions of interest of more than three dimensions, and arguments that do not fit together. -/
theorem C99_statistics (pow05 : K → K) (dbg : Bool) (junk : P) (fuel : Nat) {roi : List Nat} (h0 : 0 ∉ roi)
    (periodic : Bool) (r : Realisation K) {o : Outcome (Nd K)}
    (h : r.free pow05 dbg junk fuel roi periodic = some o) :
    o = throws ↔ dbg = true ∧ ¬ (roi.length ≤ 3 ∧ r.Fit roi) := by
  rw [free_eq pow05 dbg junk fuel roi periodic r h]
  by_cases h3 : roi.length ≤ 3
  · rw [make_ok dbg h3 h0, ok_bind]
    set E := fresh K roi periodic true .unset with hE
    have e1 : (r.call junk fuel dbg E >>= fun E => result pow05 E) = throws ↔ r.call junk fuel dbg E = throws := by
      cases e : r.call junk fuel dbg E with
      | ok E' =>
        rw [ok_bind]
        refine ⟨fun h => absurd h ?_, fun h => by cases h⟩
        exact nothrow_do (nothrow_map₂ _ _ _) fun _ => nothrow_pure _
      | throws => exact ⟨fun _ => rfl, fun _ => rfl⟩
      | ub => exact ⟨fun h => (by cases h), fun h => (by cases h)⟩
      | diverge => exact ⟨fun h => (by cases h), fun h => (by cases h)⟩
    have e2 : r.call junk fuel dbg E = throws ↔ (r.exec E junk fuel dbg E).2 = throws := by
      rw [(Realisation.agree E junk fuel dbg r).ends E]
      cases r.call junk fuel dbg E <;> simp [Outcome.map]
    rw [e1, e2, C81_refused]
    have e3 : r.Accepted E ↔ r.Fit roi := by
      cases r with
      | mean f m => cases h
      | _ => simp [Realisation.Accepted, Realisation.Fit, hE, fresh]
    rw [e3]
    tauto
  · cases dbg with
    | true =>
      simp only [make, gassert, h3, decide_false]
      constructor
      · intro _
        simp
      · intro _
        rfl
    | false =>
      have : 3 < roi.length := by omega
      simp [make, gassert, this]

end

/-- The arguments of a call of `S2` of two images of shape (2, 3) fit a ROI (3, 3) and not a ROI (3); a mask with a
value 2 does not fit. -/
example : (Realisation.S2 (Nd.fill [2, 3] (1 : ℚ)) (Nd.fill [2, 3] 2) none).Fit [3, 3] ∧
    ¬ (Realisation.S2 (Nd.fill [2, 3] (1 : ℚ)) (Nd.fill [2, 3] 2) none).Fit [3] ∧
    ¬ (Realisation.heightheight (Nd.fill [2] (1 : ℚ)) (some (mk [0, 2]))).Fit [3] := by
  refine ⟨⟨rfl, rfl, by simp⟩, fun h => absurd h.1 (by decide), fun h => ?_⟩
  have := (h.2 _ rfl).2
  revert this
  unfold IsMask
  decide

end Verif.Props
