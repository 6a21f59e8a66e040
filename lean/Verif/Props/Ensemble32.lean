import Verif.Model.Ensemble32
import Verif.Props.History
import Verif.Props.PathLine32

/-!
# The measures along pixel paths with `int`s of 32 bits (C125)
-/

set_option linter.unusedSectionVars false

namespace Verif.Props

open Verif Verif.Path Outcome Spec Ens

/-- The ROI has fewer than `2 ^ 31` pixels along each axis. -/
def ShortAxes (roi : List Nat) : Prop := ∀ n ∈ roi, n < 2 ^ 31

instance (roi : List Nat) : Decidable (ShortAxes roi) := by unfold ShortAxes; infer_instance

variable {roi : List Nat}

private theorem raise_in {i : List Int} {B : Int} (hr : roi.length ≤ 3) (h0 : 0 ≤ B) (hB : ∀ n ∈ roi, (n : Int) ≤ 2 * B + 1)
    (hi : InBox roi i) : (raise (displacement roi i)).length = 3 ∧ ∀ c ∈ raise (displacement roi i), -B ≤ c ∧ c ≤ B := by
  have h3 := inbox_length hi
  constructor
  · cases same3 hr h3 <;> rfl
  intro a ha
  revert ha
  cases same3 hr h3 <;>
    simp only [InBox, List.forall₂_cons, List.forall₂_nil_right_iff, and_true] at hi <;>
    simp only [displacement, raise, List.zipWith_cons_cons, List.zipWith_nil_left, List.mem_cons,
      List.not_mem_nil, or_false, forall_eq_or_imp, forall_eq] at hB ⊢ <;> omega

private theorem back : ∀ {roi : List Nat} {e : List Int}, e.length = roi.length → displacement roi (move (ctr roi) e) = e
  | [], [], _ => rfl
  | n :: roi, a :: e, h => by
    have ih := back (roi := roi) (e := e) (by simpa using h)
    simp only [displacement, move, ctr, List.map_cons, List.zipWith_cons_cons, List.cons.injEq] at ih ⊢
    exact ⟨by omega, ih⟩

/-- Along the paths of the measures nothing overflows. -/
theorem stamp_paths_any {P : Type} [Zero P] [One P] [Add P] [Sub P] [Neg P] [Mul P] [Div P] [NatCast P] [IntCast P]
    [DecidableEq P] [LT P] [DecidableLT P] (junk : P) (junk' : ℚ) {fuel : Nat} {mode : Mode} (hr : roi.length ≤ 3)
    (h0 : 0 ∉ roi) (hm : Enough fuel roi mode) (hs : ShortAxes roi)
    (same : ∀ s ∈ stamps (Nd.shape3 roi) (padWidth (Nd.shape3 roi)),
      path junk fuel [0, 0, 0] s mode = path junk' fuel [0, 0, 0] s mode) :
    ∀ s ∈ stamps (Nd.shape3 roi) (padWidth (Nd.shape3 roi)),
      path32 junk fuel [0, 0, 0] s mode = path junk fuel [0, 0, 0] s mode := by
  intro s h
  have hsame := same s h
  rw [stamps_eq hr h0] at h
  obtain ⟨s', h', rfl⟩ := List.mem_map.1 h
  obtain ⟨i, hi, rfl⟩ := mem_edge h'
  obtain ⟨hl, hb⟩ := raise_in (B := 1073741823) hr (by norm_num) (fun n hn => by
    have := hs n hn
    norm_num at this
    omega) hi
  by_cases hmode : mode = .bresenham
  · subst hmode
    by_cases he : [0, 0, 0] = raise (displacement roi i)
    · rw [← he]
      rfl
    · refine C76_path junk' fuel (by simp) (by rw [hl]; rfl) he (by decide) (fun c hc => ?_) fun k hk => ?_
      · have := hb c hc
        norm_num
        omega
      · have hk' : k < 3 := hk
        have e : ([0, 0, 0] : List Int).getD k 0 = 0 := by
          match k, hk' with
          | 0, _ => rfl
          | 1, _ => rfl
          | 2, _ => rfl
        have := hb ((raise (displacement roi i)).getD k 0) (by
          rw [show (raise (displacement roi i)).getD k 0 = (raise (displacement roi i))[k]'(by omega) by
            simp [List.getD, show k < (raise (displacement roi i)).length by omega]]
          exact List.getElem_mem _)
        rw [e, sub_zero, abs_lt]
        generalize (raise (displacement roi i)).getD k 0 = z at this ⊢
        norm_num
        omega
  · obtain ⟨p, hp⟩ := isPath_exists junk' hr hm hi
    have hmo : mode = .actual ∨ mode = .full := by
      cases mode
      · exact absurd rfl hmode
      · exact Or.inl rfl
      · exact Or.inr rfl
    rw [hsame, hp.path]
    refine (C123_same junk fuel (by simp) (by rw [hl]; rfl) (by decide) hmo _).2 ⟨hsame.trans hp.path, ?_, ?_, ?_⟩
    · intro q hq
      obtain ⟨h1, h2⟩ := List.of_mem_zip hq
      have e : q.1 = 0 := by simpa using h1
      have := hb q.2 h2
      rw [e]
      norm_num
      omega
    · intro x hx c hc
      obtain ⟨e, he, rfl⟩ := List.mem_map.1 hx
      obtain ⟨g1, g2⟩ := hp.mem e he
      have e2 : e = displacement roi (move (ctr roi) e) := by
        symm
        apply back g1
      rw [e2] at hc
      have := (raise_in (B := 1073741823) hr (by norm_num) (fun n hn => by
        have := hs n hn
        norm_num at this
        omega) g2).2 c hc
      norm_num
      omega
    · rw [List.length_map]
      have h1 := hp.short
      have h2 : roi.sum ≤ 3000000 := by
        have := (hm hmode).1
        rcases length_cases hr with rfl | ⟨a, rfl⟩ | ⟨a, b, rfl⟩ | ⟨a, b, c, rfl⟩ <;>
          simp only [List.mem_cons, List.not_mem_nil, or_false, forall_eq_or_imp, forall_eq, List.sum_cons,
            List.sum_nil] at this ⊢ <;> omega
      norm_num
      omega

theorem stamp_paths32 (junk : ℚ) {fuel : Nat} {mode : Mode} (hr : roi.length ≤ 3) (h0 : 0 ∉ roi)
    (hm : Enough fuel roi mode) (hs : ShortAxes roi) :
    ∀ s ∈ stamps (Nd.shape3 roi) (padWidth (Nd.shape3 roi)),
      path32 junk fuel [0, 0, 0] s mode = path junk fuel [0, 0, 0] s mode :=
  stamp_paths_any junk junk hr h0 hm hs fun _ _ => rfl

section

variable {K : Type} [Zero K] [One K] [Add K] [Sub K] [Neg K] [Mul K] [Div K] [Pow K Nat] [NatCast K] [IntCast K] [LE K]
  [DecidableLE K] [Max K] [DecidableEq K]
variable {P : Type} [Zero P] [One P] [Add P] [Sub P] [Neg P] [Mul P] [Div P] [NatCast P] [IntCast P] [DecidableEq P]
  [LT P] [DecidableLT P]

theorem L_paths32 {junk : P} {fuel : Nat} {E : Ensemble K} {mode : Mode} (dbg : Bool) (f : Nd K)
    (h : ∀ s ∈ stamps E.shape E.pad, path32 junk fuel [0, 0, 0] s mode = path junk fuel [0, 0, 0] s mode) :
    Ens.L32 dbg junk fuel E f mode = Ens.L dbg junk fuel E f mode := by
  unfold Ens.L32 Ens.L
  congr 1; funext _
  congr 1; funext _
  dsimp only
  congr 1; funext F
  refine forM_congr _ _ fun s hs E' => ?_
  unfold stampL
  beta_reduce
  rw [h s hs]

theorem W2c_paths32 {junk : P} {fuel : Nat} {E : Ensemble K} {mode : Mode} (dbg : Bool) (cl ce : Nd Int) (f : Nd K)
    (m : Nd Int)
    (h : ∀ s ∈ stamps E.shape E.pad, path32 junk fuel [0, 0, 0] s mode = path junk fuel [0, 0, 0] s mode) :
    Ens.W2c32 dbg junk fuel E cl ce f m mode = Ens.W2c dbg junk fuel E cl ce f m mode := by
  unfold Ens.W2c32 Ens.W2c
  congr 1; funext _
  congr 1; funext _
  congr 1; funext _
  congr 1; funext _
  congr 1; funext _
  congr 1; funext _
  dsimp only
  congr 1; funext _
  congr 1; funext _
  congr 1; funext _
  congr 1; funext _
  refine forM_congr _ _ fun s hs E' => ?_
  unfold stampW2c
  beta_reduce
  rw [h s hs]

variable {periodic : Bool}

/-- **C125**: the lineal-path function with paths of `int`s is the one of unbounded integers (of C44, C45), whatever the
image and with or without assertions. -/
theorem C125_L (junk : ℚ) {fuel : Nat} {mode : Mode} (hm : Enough fuel roi mode) (hs : ShortAxes roi) (pow05 : K → K)
    (dbg : Bool) (f : Nd K) :
    Api.L32 pow05 dbg junk fuel roi f periodic mode = Api.L pow05 dbg junk fuel roi f periodic mode := by
  unfold Api.L32 Api.L
  refine make_congr fun E h1 h2 h3 h4 => ?_
  rw [L_paths32 dbg f]
  rw [h3, h4]
  exact stamp_paths32 junk h1 h2 hm hs

/-- **C125**: so is the collapsed weighted correlation (of C47, C48), with and without mask. -/
theorem C125_W2c (junk : ℚ) {fuel : Nat} {mode : Mode} (hm : Enough fuel roi mode) (hs : ShortAxes roi) (pow05 : K → K)
    (dbg : Bool) (clusters centers : Nd Int) (f : Nd K) :
    Api.W2c32 pow05 dbg junk fuel roi clusters centers f mode periodic =
        Api.W2c pow05 dbg junk fuel roi clusters centers f mode periodic ∧
      ∀ fmask : Nd Int, Api.W2cMask32 pow05 dbg junk fuel roi clusters centers f fmask mode periodic =
        Api.W2cMask pow05 dbg junk fuel roi clusters centers f fmask mode periodic := by
  constructor
  · unfold Api.W2c32 Api.W2c
    refine make_congr fun E h1 h2 h3 h4 => ?_
    unfold Ens.W2c'
    rw [W2c_paths32 dbg clusters centers f]
    rw [h3, h4]
    exact stamp_paths32 junk h1 h2 hm hs
  · intro m
    unfold Api.W2cMask32 Api.W2cMask
    refine make_congr fun E h1 h2 h3 h4 => ?_
    rw [W2c_paths32 dbg clusters centers f]
    rw [h3, h4]
    exact stamp_paths32 junk h1 h2 hm hs

/-- **C125**: with the paths computed in `double` too the results are those of exact arithmetic, if the ROI is at most 1414
pixels along each axis. -/
theorem C125_double {rnd : ℚ → ℚ} (hr : Rounding rnd) (hsize : ∀ n ∈ roi, n ≤ 1414) (junk : Fl rnd) (junk' : ℚ)
    {fuel : Nat} {mode : Mode} (hf : mode ≠ .bresenham → roi.sum < fuel) (pow05 : K → K) (dbg : Bool)
    (clusters centers : Nd Int) (f : Nd K) :
    Api.L32 pow05 dbg junk fuel roi f periodic mode = Api.L pow05 dbg junk' fuel roi f periodic mode ∧
    Api.W2c32 pow05 dbg junk fuel roi clusters centers f mode periodic =
        Api.W2c pow05 dbg junk' fuel roi clusters centers f mode periodic ∧
      ∀ fmask : Nd Int, Api.W2cMask32 pow05 dbg junk fuel roi clusters centers f fmask mode periodic =
        Api.W2cMask pow05 dbg junk' fuel roi clusters centers f fmask mode periodic := by
  have hm : Enough fuel roi mode := fun h => ⟨fun n hn => (hsize n hn).trans (by norm_num), hf h⟩
  have hs : ShortAxes roi := fun n hn => (hsize n hn).trans_lt (by norm_num)
  have key : ∀ {E : Ensemble K}, roi.length ≤ 3 → 0 ∉ roi → E.shape = Nd.shape3 roi → E.pad = padWidth (Nd.shape3 roi) →
      ∀ s ∈ stamps E.shape E.pad, path32 junk fuel [0, 0, 0] s mode = path junk fuel [0, 0, 0] s mode := by
    intro E h1 h2 h3 h4
    rw [h3, h4]
    exact stamp_paths_any junk junk' h1 h2 hm hs fun s hs => stamp_paths hr h1 h2 hsize junk junk' fuel s hs mode
  obtain ⟨c1, c2⟩ := C75_W2c (periodic := periodic) hr hsize pow05 dbg junk junk' fuel clusters centers f mode
  refine ⟨?_, ?_, fun m => ?_⟩
  · rw [← C75_L hr hsize pow05 dbg junk junk' fuel f mode]
    unfold Api.L32 Api.L
    refine make_congr fun E h1 h2 h3 h4 => ?_
    rw [L_paths32 dbg f (key h1 h2 h3 h4)]
  · rw [← c1]
    unfold Api.W2c32 Api.W2c
    refine make_congr fun E h1 h2 h3 h4 => ?_
    unfold Ens.W2c'
    rw [W2c_paths32 dbg clusters centers f _ (key h1 h2 h3 h4)]
  · rw [← c2 m]
    unfold Api.W2cMask32 Api.W2cMask
    refine make_congr fun E h1 h2 h3 h4 => ?_
    rw [W2c_paths32 dbg clusters centers f m (key h1 h2 h3 h4)]

/-- A ROI of 101 by 51 pixels, in any mode. -/
example : ShortAxes [101, 51] ∧ (∀ mode, Enough 200 [101, 51] mode) ∧ (∀ n ∈ [101, 51], n ≤ 1414) ∧ Rounding rnd64 :=
  ⟨by decide, fun _ _ => by decide, by decide, rnd64_rounding⟩

end

/-! ### Ensembles -/

section

variable {K : Type} [Zero K] [One K] [Add K] [Sub K] [Neg K] [Mul K] [Div K] [Pow K Nat] [NatCast K] [IntCast K] [LE K]
  [DecidableLE K] [Max K] [DecidableEq K]

/-- A call of a measure, with paths of `int`s. -/
def Realisation.call32 (junk : ℚ) (fuel : Nat) (dbg : Bool) (E : Ensemble K) (r : Realisation K) : Outcome (Ensemble K) :=
  match r with
  | .W2c clusters centers f none mode => Ens.W2c32 dbg junk fuel E clusters centers f (noMask f) mode
  | .W2c clusters centers f (some m) mode => Ens.W2c32 dbg junk fuel E clusters centers f m mode
  | .L f mode => Ens.L32 dbg junk fuel E f mode
  | r => r.call junk fuel dbg E

/-- Construct an ensemble and add a list of realisations. -/
def history32 (dbg : Bool) (junk : ℚ) (fuel : Nat) (roi : List Nat) (periodic variance : Bool)
    (l : List (Realisation K)) : Outcome (Ensemble K) := do
  let E ← make K dbg roi periodic variance
  forM l E fun E r => r.call32 junk fuel dbg E

end

/-- The loops of the paths are given enough iterations. -/
def Realisation.Enough {K : Type} (fuel : Nat) (roi : List Nat) : Realisation K → Prop
  | .W2c _ _ _ _ mode => Spec.Enough fuel roi mode
  | .L _ mode => Spec.Enough fuel roi mode
  | _ => True

variable {K : Type} [Field K] [LinearOrder K] [IsStrictOrderedRing K] {periodic variance : Bool}

theorem call32_eq (junk : ℚ) {fuel : Nat} (hr : roi.length ≤ 3) (h0 : 0 ∉ roi) (hs : ShortAxes roi) (dbg : Bool)
    {E : Ensemble K} (hE : Ens.Good roi periodic variance E) {r : Realisation K} (hm : r.Enough fuel roi) :
    r.call32 junk fuel dbg E = r.call junk fuel dbg E := by
  match r, hm with
  | .mean f none, _ => rfl
  | .mean f (some m), _ => rfl
  | .S2 f g none, _ => rfl
  | .S2 f g (some m), _ => rfl
  | .C2 f g none, _ => rfl
  | .C2 f g (some m), _ => rfl
  | .W2 f g none, _ => rfl
  | .W2 f g (some m), _ => rfl
  | .W2c cl ce f none mode, hm =>
    exact W2c_paths32 dbg cl ce f (noMask f) (by rw [hE.shape, hE.pad]; exact stamp_paths32 junk hr h0 hm hs)
  | .W2c cl ce f (some m) mode, hm =>
    exact W2c_paths32 dbg cl ce f m (by rw [hE.shape, hE.pad]; exact stamp_paths32 junk hr h0 hm hs)
  | .heightheight f none, _ => rfl
  | .heightheight f (some m), _ => rfl
  | .L f mode, hm =>
    exact L_paths32 dbg f (by rw [hE.shape, hE.pad]; exact stamp_paths32 junk hr h0 hm hs)

/-- **C125**: so is any history of an ensemble, whatever the arguments of its calls. -/
theorem C125_history (junk : ℚ) {fuel : Nat} (hs : ShortAxes roi) {l : List (Realisation K)}
    (hm : ∀ r ∈ l, r.Enough fuel roi) (dbg : Bool) :
    history32 dbg junk fuel roi periodic variance l = history dbg junk fuel roi periodic variance l := by
  unfold history32 history
  cases e : make K dbg roi periodic variance with
  | throws => rfl
  | ub => rfl
  | diverge => rfl
  | ok E =>
    obtain ⟨hr, h0, -, -⟩ := make_fields e
    rw [make_ok dbg hr h0] at e
    cases e
    show forM l _ _ = forM l _ _
    have : ∀ (l : List (Realisation K)) (E : Ensemble K), (∀ r ∈ l, r.Enough fuel roi) →
        Ens.Good roi periodic variance E →
        (forM l E fun E r => r.call32 junk fuel dbg E) = forM l E fun E r => r.call junk fuel dbg E := by
      intro l
      induction l with
      | nil => intros; rfl
      | cons r l ih =>
        intro E hl hE
        simp only [forM]
        rw [call32_eq junk hr h0 hs dbg hE (hl r (by simp))]
        cases e : r.call junk fuel dbg E with
        | throws => rfl
        | ub => rfl
        | diverge => rfl
        | ok E' =>
          have hk := Realisation.locks e
          exact ih E' (fun r hr => hl r (List.mem_cons_of_mem _ hr)) (hk.after.good (hE.stat _))
    exact this l _ hm good_fresh

/-- Two images, of different shapes and in different modes. -/
example : ShortAxes [3] ∧ ∀ r ∈ [Realisation.L (im [1, 0, 1]) .full, .L (im [1, 1]) .bresenham], r.Enough 10 [3] := by
  refine ⟨by decide, fun r hr => ?_⟩
  simp only [List.mem_cons, List.not_mem_nil, or_false] at hr
  rcases hr with rfl | rfl
  · exact fun _ => by decide
  · exact fun h => absurd rfl h

end Verif.Props
