import Verif.Lemmas.FloatPath
import Verif.Props.Float

/-!
# Paths in `double` (C75)

The modes `actual` and `full` compute crossings of a line with the edges of pixels in `double`. `Path.Rounding rnd`:
`rnd` has a relative error of at most `2 ^ -53` and does not change the multiples of one half up to `2 ^ 52`; IEEE 754
`double` is one (`rnd64_rounding`). `path` over `Fl rnd` rounds every operation, over `ℚ` none.
-/

set_option linter.unusedSectionVars false

namespace Verif.Props

open Verif Outcome Spec Ens Path

variable {rnd : ℚ → ℚ}

/-- Rounding to the nearest `double`. -/
theorem rnd64_rounding : Rounding rnd64 where
  rel := rnd64_error
  half := fun n h => by rw [rnd64_half, rnd64_int h]

/-- The path from the origin to a point with components of at most 707 is the same in `double` as in exact
arithmetic. -/
theorem C75_path (hr : Rounding rnd) (junk : Fl rnd) (junk' : ℚ) (fuel : Nat) {x1 : List Int}
    (hb : ∀ a ∈ x1, a.natAbs ≤ 707) (mode : Mode) :
    path junk fuel (origin x1.length) x1 mode = path junk' fuel (origin x1.length) x1 mode :=
  path_sim hr junk junk' fuel hb mode

/-- The hypotheses are met by the rounding to `double` and a point in three dimensions. -/
example : Rounding rnd64 ∧ ∀ a ∈ ([700, -300, 0] : List Int), a.natAbs ≤ 707 := ⟨rnd64_rounding, by decide⟩

/-- So in `double` too `actual` and `full` terminate, lead from the origin to `x1`, by steps towards `x1` in the
bounding box, visit only pixels that the segment meets, and all that it crosses. -/
theorem C75_geometry (hr : Rounding rnd) (junk : Fl rnd) {fuel : Nat} {x1 : List Int} (h3 : x1.length ≤ 3)
    (hb : ∀ a ∈ x1, a.natAbs ≤ 707) (hne : manhattan (origin x1.length) x1 ≠ 0)
    (hf : manhattan (origin x1.length) x1 ≤ fuel) {mode : Mode} (hm : mode = .actual ∨ mode = .full) :
    ∃ ret, path junk fuel (origin x1.length) x1 mode = ok ret ∧ ret.head? = some (origin x1.length) ∧
      ret.getLast? = some x1 ∧ ret.IsChain (if mode = .full then UnitStep x1 else StepTowards x1) ∧
      (∀ x ∈ ret, InSpan (origin x1.length) x1 x) ∧ (∀ x ∈ ret, Meets x1 x) ∧ ∀ y, Crosses x1 y → y ∈ ret := by
  have hb' : ∀ a ∈ x1, a.natAbs ≤ 1000000 := fun a ha => (hb a ha).trans (by omega)
  rw [C75_path hr junk 0 fuel hb mode]
  obtain ⟨ret, e, h1, h2⟩ := C30_origin_partial 0 h3 hb' hne hf hm
  obtain ⟨ret', e', h4⟩ := C56_crossed_partial 0 h3 hb hne hf hm
  rw [e] at e'
  cases e'
  refine ⟨ret, e, h1, h2, ?_⟩
  rcases hm with rfl | rfl
  · obtain ⟨ret', e', -, h5, h6⟩ := C31_actual_partial 0 h3 hb' hne hf
    rw [e] at e'
    cases e'
    obtain ⟨ret', e', h7⟩ := C32_actual_partial 0 h3 hb' hne hf
    rw [e] at e'
    cases e'
    exact ⟨by simpa using h5, h6, h7, h4⟩
  · obtain ⟨ret', e', -, h5, h6⟩ := C31_full_partial 0 h3 hb' hne hf
    rw [e] at e'
    cases e'
    obtain ⟨ret', e', h7⟩ := C32_full_partial 0 h3 hb hne hf
    rw [e] at e'
    cases e'
    exact ⟨by simpa using h5, h6, h7, h4⟩

example : manhattan (origin 3) [700, -300, 0] = 1000 := by decide

/-! ### The measures along paths -/

theorem forM_congr {σ α : Type} {f g : σ → α → Outcome σ} : ∀ (l : List α) (s : σ), (∀ x ∈ l, ∀ s, f s x = g s x) →
    forM l s f = forM l s g
  | [], _, _ => rfl
  | x :: l, s, h => by
    simp only [forM]
    rw [h x (by simp) s]
    congr 1
    funext s'
    exact forM_congr l s' fun y hy => h y (by simp [hy])

section

variable {K : Type} [Zero K] [One K] [Add K] [Sub K] [Neg K] [Mul K] [Div K] [Pow K Nat] [NatCast K] [IntCast K] [LE K]
  [DecidableLE K] [Max K] [DecidableEq K]
variable {P : Type} [Zero P] [One P] [Add P] [Sub P] [Neg P] [Mul P] [Div P] [NatCast P] [IntCast P] [DecidableEq P]
  [LT P] [DecidableLT P]
variable {Q : Type} [Zero Q] [One Q] [Add Q] [Sub Q] [Neg Q] [Mul Q] [Div Q] [NatCast Q] [IntCast Q] [DecidableEq Q]
  [LT Q] [DecidableLT Q]

theorem L_paths {junk : P} {junk' : Q} {fuel : Nat} {E : Ensemble K} {mode : Mode} (dbg : Bool) (f : Nd K)
    (h : ∀ s ∈ stamps E.shape E.pad, path junk fuel [0, 0, 0] s mode = path junk' fuel [0, 0, 0] s mode) :
    Ens.L dbg junk fuel E f mode = Ens.L dbg junk' fuel E f mode := by
  unfold Ens.L
  congr 1; funext _
  congr 1; funext _
  dsimp only
  congr 1; funext F
  refine forM_congr _ _ fun s hs E' => ?_
  unfold stampL
  beta_reduce
  rw [h s hs]

theorem W2c_paths {junk : P} {junk' : Q} {fuel : Nat} {E : Ensemble K} {mode : Mode} (dbg : Bool) (cl ce : Nd Int)
    (f : Nd K) (m : Nd Int)
    (h : ∀ s ∈ stamps E.shape E.pad, path junk fuel [0, 0, 0] s mode = path junk' fuel [0, 0, 0] s mode) :
    Ens.W2c dbg junk fuel E cl ce f m mode = Ens.W2c dbg junk' fuel E cl ce f m mode := by
  unfold Ens.W2c
  congr 1; funext _
  congr 1; funext _
  congr 1; funext _
  congr 1; funext _
  congr 1; funext _
  congr 1; funext _
  dsimp only
  congr 1; funext _
  congr 1; funext _
  congr 1; funext _
  congr 1; funext _
  refine forM_congr _ _ fun s hs E' => ?_
  unfold stampW2c
  beta_reduce
  rw [h s hs]

theorem Realisation.paths {junk : P} {junk' : Q} {fuel : Nat} {E : Ensemble K} (dbg : Bool)
    (h : ∀ s ∈ stamps E.shape E.pad, ∀ mode, path junk fuel [0, 0, 0] s mode = path junk' fuel [0, 0, 0] s mode)
    (r : Realisation K) : r.call junk fuel dbg E = r.call junk' fuel dbg E := by
  match r with
  | .mean f none => rfl
  | .mean f (some m) => rfl
  | .S2 f g none => rfl
  | .S2 f g (some m) => rfl
  | .C2 f g none => rfl
  | .C2 f g (some m) => rfl
  | .W2 f g none => rfl
  | .W2 f g (some m) => rfl
  | .W2c cl ce f none mode => exact W2c_paths dbg cl ce f (noMask f) fun s hs => h s hs mode
  | .W2c cl ce f (some m) mode => exact W2c_paths dbg cl ce f m fun s hs => h s hs mode
  | .heightheight f none => rfl
  | .heightheight f (some m) => rfl
  | .L f mode => exact L_paths dbg f fun s hs => h s hs mode

variable {roi : List Nat} {periodic variance : Bool}

/-- All stamp points of a ROI of at most 1414 pixels along each axis are near enough. -/
theorem stamp_bound (hroi : roi.length ≤ 3) (h0 : 0 ∉ roi) (hsize : ∀ n ∈ roi, n ≤ 1414) {s : List Int}
    (hs : s ∈ stamps (Nd.shape3 roi) (padWidth (Nd.shape3 roi))) : s.length = 3 ∧ ∀ a ∈ s, a.natAbs ≤ 707 := by
  rw [stamps_eq hroi h0] at hs
  obtain ⟨s', hs', rfl⟩ := List.mem_map.1 hs
  obtain ⟨i, hi, rfl⟩ := mem_edge hs'
  have h3 := inbox_length hi
  constructor
  · cases same3 hroi h3 <;> rfl
  intro a ha
  revert ha
  cases same3 hroi h3 <;>
    simp only [InBox, List.forall₂_cons, List.forall₂_nil_right_iff, and_true] at hi <;>
    simp only [displacement, raise, List.zipWith_cons_cons, List.zipWith_nil_left, List.mem_cons,
      List.not_mem_nil, or_false, forall_eq_or_imp, forall_eq] at hsize ⊢ <;> omega

theorem stamp_paths (hr : Rounding rnd) (hroi : roi.length ≤ 3) (h0 : 0 ∉ roi) (hsize : ∀ n ∈ roi, n ≤ 1414)
    (junk : Fl rnd) (junk' : ℚ) (fuel : Nat) : ∀ s ∈ stamps (Nd.shape3 roi) (padWidth (Nd.shape3 roi)), ∀ mode,
      path junk fuel [0, 0, 0] s mode = path junk' fuel [0, 0, 0] s mode := by
  intro s hs mode
  obtain ⟨h3, hb⟩ := stamp_bound hroi h0 hsize hs
  have := C75_path hr junk junk' fuel hb mode
  rw [h3] at this
  exact this

theorem make_fields {dbg : Bool} {E : Ensemble K} (h : make K dbg roi periodic variance = ok E) :
    roi.length ≤ 3 ∧ 0 ∉ roi ∧ E.shape = Nd.shape3 roi ∧ E.pad = padWidth (Nd.shape3 roi) := by
  unfold make at h
  obtain ⟨_, -, h⟩ := bind_eq_ok.1 h
  split at h
  · cases h
  · rename_i hn
    rw [not_or, not_lt] at hn
    cases h
    exact ⟨hn.1, hn.2, rfl, rfl⟩

theorem make_congr {α : Type} {dbg : Bool} {f g : Ensemble K → Outcome α}
    (h : ∀ E, roi.length ≤ 3 → 0 ∉ roi → E.shape = Nd.shape3 roi → E.pad = padWidth (Nd.shape3 roi) → f E = g E) :
    (make K dbg roi periodic variance >>= f) = (make K dbg roi periodic variance >>= g) := by
  cases e : make K dbg roi periodic variance with
  | ok E =>
    obtain ⟨h1, h2, h3, h4⟩ := make_fields e
    exact h E h1 h2 h3 h4
  | throws => rfl
  | ub => rfl
  | diverge => rfl

/-- The lineal-path function does not depend on the arithmetic that paths are computed with. -/
theorem C75_L (hr : Rounding rnd) (hsize : ∀ n ∈ roi, n ≤ 1414) (pow05 : K → K) (dbg : Bool) (junk : Fl rnd)
    (junk' : ℚ) (fuel : Nat) (f : Nd K) (mode : Mode) :
    Api.L pow05 dbg junk fuel roi f periodic mode = Api.L pow05 dbg junk' fuel roi f periodic mode := by
  unfold Api.L
  refine make_congr fun E h1 h2 h3 h4 => ?_
  rw [L_paths (junk := junk) (junk' := junk') dbg f]
  rw [h3, h4]
  exact fun s hs => stamp_paths hr h1 h2 hsize junk junk' fuel s hs mode

/-- Nor does the collapsed weighted correlation. -/
theorem C75_W2c (hr : Rounding rnd) (hsize : ∀ n ∈ roi, n ≤ 1414) (pow05 : K → K) (dbg : Bool) (junk : Fl rnd)
    (junk' : ℚ) (fuel : Nat) (clusters centers : Nd Int) (f : Nd K) (mode : Mode) :
    Api.W2c pow05 dbg junk fuel roi clusters centers f mode periodic =
        Api.W2c pow05 dbg junk' fuel roi clusters centers f mode periodic ∧
      ∀ m : Nd Int, Api.W2cMask pow05 dbg junk fuel roi clusters centers f m mode periodic =
        Api.W2cMask pow05 dbg junk' fuel roi clusters centers f m mode periodic := by
  constructor
  · unfold Api.W2c
    refine make_congr fun E h1 h2 h3 h4 => ?_
    unfold Ens.W2c'
    rw [W2c_paths (junk := junk) (junk' := junk') dbg clusters centers f]
    rw [h3, h4]
    exact fun s hs => stamp_paths hr h1 h2 hsize junk junk' fuel s hs mode
  · intro m
    unfold Api.W2cMask
    refine make_congr fun E h1 h2 h3 h4 => ?_
    rw [W2c_paths (junk := junk) (junk' := junk') dbg clusters centers f]
    rw [h3, h4]
    exact fun s hs => stamp_paths hr h1 h2 hsize junk junk' fuel s hs mode

/-- A ROI of 101 by 51 pixels. -/
example : ∀ n ∈ [101, 51], n ≤ 1414 := by decide

end

variable {roi : List Nat} {periodic : Bool} {A : ℤ}

/-- C73 with paths in `double` too: any history of realisations of one statistic, with integer images, has the same
moments and norm as in exact arithmetic, and the exact result, rounded once. -/
theorem C75_history (hr : Rounding rnd) (hi : ExactInts rnd) (hroi : roi.length ≤ 3) (h0 : 0 ∉ roi)
    (hsize : ∀ n ∈ roi, n ≤ 1414) (hA : 1 ≤ A) (hA2 : A ^ 2 ≤ 2 ^ 53) {variance : Bool} (junk : Fl rnd) {junk' : ℚ}
    {fuel : Nat} {st : Stat} {l : List (Realisation Int)}
    (hl : ∀ r ∈ l, r.Legal fuel periodic roi ∧ r.stat = st ∧ r.Within A) (hne : l ≠ [])
    (hbig : (l.map (Realisation.load roi A)).sum ≤ 2 ^ 53) (pow05 : Fl rnd → Fl rnd) (dbg : Bool) :
    ∃ E E', history dbg junk fuel roi periodic variance (l.map (Realisation.cast (Fl rnd))) = ok E ∧
      history dbg junk' fuel roi periodic variance (l.map (Realisation.cast ℚ)) = ok E' ∧
      (∀ i, (val (dataFirst E) i).val = val (dataFirst E') i ∧ (val (dataSecond E) i).val = val (dataSecond E') i ∧
        (val (dataNorm E) i).val = val (dataNorm E') i) ∧
      ∃ r r', result pow05 E = ok r ∧ result id E' = ok r' ∧ r.shape = roi ∧ r'.shape = roi ∧
        ∀ i, val r i = if st = .heightheight then pow05 ⟨rnd (val r' i)⟩ else ⟨rnd (val r' i)⟩ := by
  refine history_double hi hroi h0 hA hA2 hl hne hbig pow05 dbg fun E hs hp r => ?_
  refine Realisation.paths dbg ?_ r
  rw [hs, hp]
  exact stamp_paths hr hroi h0 hsize junk junk' fuel

/-- The hypotheses on the rounding are those of `double`. -/
example : Rounding rnd64 ∧ ExactInts rnd64 := ⟨rnd64_rounding, rnd64_exact⟩

end Verif.Props
