import Verif.Lemmas.History
import Verif.Props.Moments
import Verif.Props.Collapsed

/-!
# Histories of an ensemble: order independence (C42), one statistic (C43)
-/

set_option linter.unusedSectionVars false

namespace Verif.Props

open Verif Outcome Spec Ens

/-- A call of one of the measures of `Ensemble`; a mask is optional. -/
inductive Realisation (K : Type) where
  | mean (f : Nd K) (fmask : Option (Nd Int))
  | S2 (f g : Nd K) (masks : Option (Nd Int × Nd Int))
  | C2 (f g : Nd K) (masks : Option (Nd Int × Nd Int))
  | W2 (w f : Nd K) (fmask : Option (Nd Int))
  | W2c (clusters centers : Nd Int) (f : Nd K) (fmask : Option (Nd Int)) (mode : Path.Mode)
  | heightheight (f : Nd K) (fmask : Option (Nd Int))
  | L (f : Nd K) (mode : Path.Mode)

variable {K : Type}

/-- The statistic that is measured. -/
def Realisation.stat : Realisation K → Stat
  | .mean .. => .mean
  | .S2 .. => .S2
  | .C2 .. => .C2
  | .W2 .. => .W2
  | .W2c .. => .W2c
  | .heightheight .. => .heightheight
  | .L .. => .L

section

variable [Zero K] [One K] [Add K] [Sub K] [Mul K] [Div K] [Pow K Nat] [NatCast K] [IntCast K] [LE K]
  [DecidableLE K] [Neg K] [Max K] [DecidableEq K]
variable {P : Type} [Zero P] [One P] [Add P] [Sub P] [Neg P] [Mul P] [Div P] [NatCast P] [IntCast P] [DecidableEq P]
  [LT P] [DecidableLT P]

/-- The call. `P`: the numbers that paths are computed with. -/
def Realisation.call (junk : P) (fuel : Nat) (dbg : Bool) (E : Ensemble K) :
    Realisation K → Outcome (Ensemble K)
  | .mean f none => Ens.mean dbg E f
  | .mean f (some m) => Ens.meanMask dbg E f m
  | .S2 f g none => Ens.S2' dbg E f g
  | .S2 f g (some m) => Ens.S2 dbg E f g m.1 m.2
  | .C2 f g none => Ens.C2' dbg E f g
  | .C2 f g (some m) => Ens.C2 dbg E f g m.1 m.2
  | .W2 w f none => Ens.W2' dbg E w f
  | .W2 w f (some m) => Ens.W2 dbg E w f m
  | .W2c clusters centers f none mode => Ens.W2c' dbg junk fuel E clusters centers f mode
  | .W2c clusters centers f (some m) mode => Ens.W2c dbg junk fuel E clusters centers f m mode
  | .heightheight f none => Ens.heightheight' dbg E f
  | .heightheight f (some m) => Ens.heightheight dbg E f m
  | .L f mode => Ens.L dbg junk fuel E f mode

end

/-- A mask of a legal shape. -/
def LegalMask (shape : List Nat) (m : Nd Int) : Prop := m.shape = shape ∧ IsMask m

/-- The arguments of the call are legal: the shapes agree and fit the ROI, masks are binary; `mean` needs
a ROI of one pixel. -/
def Realisation.Legal (fuel : Nat) (periodic : Bool) (roi : List Nat) : Realisation K → Prop
  | .mean f m => (∀ n ∈ roi, n = 1) ∧ ∀ m' ∈ m, LegalMask f.shape m'
  | .S2 f g m => Spec.Legal periodic f.shape roi ∧ g.shape = f.shape ∧
      ∀ m' ∈ m, LegalMask f.shape m'.1 ∧ LegalMask f.shape m'.2
  | .C2 f g m => Spec.Legal periodic f.shape roi ∧ g.shape = f.shape ∧
      ∀ m' ∈ m, LegalMask f.shape m'.1 ∧ LegalMask f.shape m'.2
  | .W2 w f m => Spec.Legal periodic w.shape roi ∧ f.shape = w.shape ∧ ∀ m' ∈ m, LegalMask w.shape m'
  | .W2c clusters centers f m mode => Spec.Legal periodic f.shape roi ∧ FlatOrEqual roi ∧
      clusters.shape = f.shape ∧ centers.shape = f.shape ∧ (∀ m' ∈ m, LegalMask f.shape m') ∧
      Enough fuel roi mode
  | .heightheight f m => Spec.Legal periodic f.shape roi ∧ ∀ m' ∈ m, LegalMask f.shape m'
  | .L f mode => Spec.Legal periodic f.shape roi ∧ Enough fuel roi mode

/-- Construct an ensemble and add a list of realisations. -/
def history [Zero K] [One K] [Add K] [Sub K] [Mul K] [Div K] [Pow K Nat] [NatCast K] [IntCast K] [LE K]
    [DecidableLE K] [Neg K] [Max K] [DecidableEq K] {P : Type} [Zero P] [One P] [Add P] [Sub P] [Neg P] [Mul P]
    [Div P] [NatCast P] [IntCast P] [DecidableEq P] [LT P] [DecidableLT P] (dbg : Bool) (junk : P) (fuel : Nat) (roi : List Nat) (periodic variance : Bool)
    (l : List (Realisation K)) : Outcome (Ensemble K) := do
  let E ← make K dbg roi periodic variance
  forM l E fun E r => r.call junk fuel dbg E

variable [Field K] [LinearOrder K] [IsStrictOrderedRing K]

section

variable {roi : List Nat} {periodic variance : Bool} {junk : ℚ} {fuel : Nat}

theorem Realisation.effect (hr : roi.length ≤ 3) (h0 : 0 ∉ roi) {r : Realisation K}
    (h : r.Legal fuel periodic roi) :
    ∃ φ, Effect roi periodic variance r.stat (fun dbg E => r.call junk fuel dbg E) φ := by
  cases r with
  | mean f m =>
    have h3 : Nd.shape3 roi = [1, 1, 1] := by
      have h1 := h.1
      rcases length_cases hr with rfl | ⟨a, rfl⟩ | ⟨a, b, rfl⟩ | ⟨a, b, c, rfl⟩ <;>
        simp at h1 <;> simp [Nd.shape3, h1]
    cases m with
    | none => exact ⟨_, mean_effect hr h3 f⟩
    | some m => exact ⟨_, meanMask_effect hr h3 (h.2 m rfl).1 (h.2 m rfl).2⟩
  | S2 f g m =>
    obtain ⟨L, hg, hm⟩ := h
    cases m with
    | none => exact ⟨_, S2_effect hr h0 L.same hg rfl rfl (noMask_isMask f) (noMask_isMask f) L.fits⟩
    | some m =>
      obtain ⟨a, b⟩ := hm m rfl
      exact ⟨_, S2_effect hr h0 L.same hg a.1 b.1 a.2 b.2 L.fits⟩
  | C2 f g m =>
    obtain ⟨L, hg, hm⟩ := h
    cases m with
    | none => exact ⟨_, C2_effect hr h0 L.same hg rfl rfl (noMask_isMask f) (noMask_isMask f) L.fits⟩
    | some m =>
      obtain ⟨a, b⟩ := hm m rfl
      exact ⟨_, C2_effect hr h0 L.same hg a.1 b.1 a.2 b.2 L.fits⟩
  | W2 f g m =>
    obtain ⟨L, hg, hm⟩ := h
    cases m with
    | none => exact ⟨_, W2_effect hr h0 L.same hg rfl (noMask_isMask f) L.fits⟩
    | some m =>
      have a := hm m rfl
      exact ⟨_, W2_effect hr h0 L.same hg a.1 a.2 L.fits⟩
  | W2c cl ce f m mode =>
    obtain ⟨L, h3, hcl, hce, hm, hf⟩ := h
    obtain ⟨P, hP⟩ := choose_paths junk hr hf
    cases m with
    | none =>
      exact ⟨_, W2c_effect hr h0 (thirdAxis hr h3) L.same rfl hcl hce (noMask_isMask f) L.fits hP⟩
    | some m =>
      have a := hm m rfl
      exact ⟨_, W2c_effect hr h0 (thirdAxis hr h3) L.same a.1 hcl hce a.2 L.fits hP⟩
  | heightheight f m =>
    obtain ⟨L, hm⟩ := h
    cases m with
    | none => exact ⟨_, HH_effect hr h0 L.same rfl (noMask_isMask f) L.fits⟩
    | some m =>
      have a := hm m rfl
      exact ⟨_, HH_effect hr h0 L.same a.1 a.2 L.fits⟩
  | L f mode =>
    obtain ⟨L, hf⟩ := h
    obtain ⟨P, hP⟩ := choose_paths junk hr hf
    exact ⟨_, L_effect hr h0 L.same L.fits hP⟩

/-- The effect of a list of realisations of one statistic. -/
theorem history_effect (hr : roi.length ≤ 3) (h0 : 0 ∉ roi) (junk : ℚ) (st : Stat) :
    ∃ φ : Realisation K → List Int → K × K × K, ∀ l : List (Realisation K),
      (∀ r ∈ l, r.Legal fuel periodic roi ∧ r.stat = st) → ∀ dbg,
      ∃ E, history dbg junk fuel roi periodic variance l = ok E ∧ Good roi periodic variance E ∧
        E.stat = (if l = [] then .unset else st) ∧
        ∀ i, InBox roi i → (E.first.get (flat roi i).toNat, E.second.get (flat roi i).toNat,
          E.norm.get (flat roi i).toNat) = (l.map fun r => φ r (displacement roi i)).sum := by
  have : ∀ r : Realisation K, ∃ φ, r.Legal fuel periodic roi →
      Effect roi periodic variance r.stat (fun dbg E => r.call junk fuel dbg E) φ := by
    intro r
    by_cases h : r.Legal fuel periodic roi
    · obtain ⟨φ, hφ⟩ := r.effect (junk := junk) (variance := variance) hr h0 h
      exact ⟨φ, fun _ => hφ⟩
    · exact ⟨0, fun h' => absurd h' h⟩
  choose φ hφ using this
  refine ⟨φ, fun l hl dbg => ?_⟩
  obtain ⟨δ, h1, h2⟩ := effects_run (K := K) (roi := roi) (periodic := periodic) (variance := variance)
    (st := st) (call := fun r dbg E => Realisation.call junk fuel dbg E r) (l := l) (φ := φ)
    fun r hr => (hl r hr).2 ▸ hφ r (hl r hr).1
  refine ⟨({ fresh K roi periodic variance .unset with stat := if l = [] then .unset else st } :
    Ensemble K).plus δ, ?_, (good_fresh.stat _).plus δ, rfl, fun i hi => ?_⟩
  · unfold history
    rw [make_ok dbg hr h0, ok_bind]
    exact h1 dbg _ good_fresh (Or.inr rfl)
  · rw [← h2 i hi]
    simp [Ensemble.plus, fresh, Nd.fill, Delta.at]

/-! ### C42 -/

/-- Two arrays have the same shape `roi` and the same elements. -/
def SameArray (roi : List Nat) (a b : Nd K) : Prop :=
  a.shape = roi ∧ b.shape = roi ∧ ∀ i, InBox roi i → val a i = val b i

/-- The outcome of adding realisations of one statistic does not depend on their order: neither the
result, nor the moments, nor the norm, nor the variance. -/
theorem C42_order (hr : roi.length ≤ 3) (h0 : 0 ∉ roi) {st : Stat} {l l' : List (Realisation K)}
    (hl : ∀ r ∈ l, r.Legal fuel periodic roi ∧ r.stat = st) (hp : l.Perm l') (dbg : Bool)
    (pow05 : K → K) :
    ∃ E E', history dbg junk fuel roi periodic variance l = ok E ∧
      history dbg junk fuel roi periodic variance l' = ok E' ∧
      SameArray roi (dataFirst E) (dataFirst E') ∧ SameArray roi (dataSecond E) (dataSecond E') ∧
      SameArray roi (dataNorm E) (dataNorm E') ∧
      (∃ r r', result pow05 E = ok r ∧ result pow05 E' = ok r' ∧ SameArray roi r r') ∧
      ((varianceResult pow05 E = throws ∧ varianceResult pow05 E' = throws) ∨
        ∃ v v', varianceResult pow05 E = ok v ∧ varianceResult pow05 E' = ok v' ∧ SameArray roi v v') := by
  obtain ⟨φ, h⟩ := history_effect (K := K) (fuel := fuel) (periodic := periodic) (variance := variance)
    hr h0 junk st
  obtain ⟨E, e1, g1, s1, v1⟩ := h l hl dbg
  obtain ⟨E', e2, g2, s2, v2⟩ := h l' (fun r hr => hl r (hp.mem_iff.2 hr)) dbg
  have hs : E'.stat = E.stat := by
    rw [s1, s2]
    have : l = [] ↔ l' = [] := ⟨fun h => by subst h; exact hp.nil_eq.symm, fun h => by subst h; exact hp.eq_nil⟩
    by_cases hn : l = []
    · rw [if_pos hn, if_pos (this.1 hn)]
    · rw [if_neg hn, if_neg fun h => hn (this.2 h)]
  have hv : ∀ i, InBox roi i → E.first.get (flat roi i).toNat = E'.first.get (flat roi i).toNat ∧
      E.second.get (flat roi i).toNat = E'.second.get (flat roi i).toNat ∧
      E.norm.get (flat roi i).toNat = E'.norm.get (flat roi i).toNat := by
    intro i hi
    have := (v1 i hi).trans ((hp.map _).sum_eq.trans (v2 i hi).symm)
    simpa using this
  refine ⟨E, E', e1, e2, ⟨g1.shapeOrig, g2.shapeOrig, fun i hi => ?_⟩,
    ⟨g1.shapeOrig, g2.shapeOrig, fun i hi => ?_⟩, ⟨g1.shapeOrig, g2.shapeOrig, fun i hi => ?_⟩,
    ⟨_, _, result_good g1 pow05, result_good g2 pow05, rfl, rfl, fun i hi => ?_⟩, ?_⟩
  · simpa [dataFirst, val, Nd.reshape, g1.shapeOrig, g2.shapeOrig] using (hv i hi).1
  · simpa [dataSecond, val, Nd.reshape, g1.shapeOrig, g2.shapeOrig] using (hv i hi).2.1
  · simpa [dataNorm, val, Nd.reshape, g1.shapeOrig, g2.shapeOrig] using (hv i hi).2.2
  · obtain ⟨a, -, c⟩ := hv i hi
    simp only [val, a, c, hs]
  · rw [variance_good g1, variance_good g2, hs]
    by_cases hst : E.stat = .heightheight ∨ E.stat = .mean
    · rw [if_pos hst, if_pos hst]
      refine Or.inr ⟨_, _, rfl, rfl, rfl, rfl, fun i hi => ?_⟩
      obtain ⟨a, b, c⟩ := hv i hi
      simp only [val, a, b, c]
    · rw [if_neg hst, if_neg hst]
      exact Or.inl ⟨rfl, rfl⟩

/-- The moments and the norm are the sums of those of the separate realisations. -/
theorem C42_sums (hr : roi.length ≤ 3) (h0 : 0 ∉ roi) {st : Stat} {l : List (Realisation K)}
    (hl : ∀ r ∈ l, r.Legal fuel periodic roi ∧ r.stat = st) (dbg : Bool) :
    ∃ (E : Ensemble K) (single : Realisation K → Ensemble K),
      history dbg junk fuel roi periodic variance l = ok E ∧
      (∀ r ∈ l, history dbg junk fuel roi periodic variance [r] = ok (single r)) ∧
      ∀ i, InBox roi i →
        val (dataFirst E) i = (l.map fun r => val (dataFirst (single r)) i).sum ∧
        val (dataSecond E) i = (l.map fun r => val (dataSecond (single r)) i).sum ∧
        val (dataNorm E) i = (l.map fun r => val (dataNorm (single r)) i).sum := by
  obtain ⟨φ, h⟩ := history_effect (K := K) (fuel := fuel) (periodic := periodic) (variance := variance)
    hr h0 junk st
  obtain ⟨E, e1, g1, s1, v1⟩ := h l hl dbg
  have : ∀ r, ∃ E, r ∈ l → history dbg junk fuel roi periodic variance [r] = ok E ∧
      Good roi periodic variance E ∧ ∀ i, InBox roi i → (E.first.get (flat roi i).toNat,
        E.second.get (flat roi i).toNat, E.norm.get (flat roi i).toNat) = φ r (displacement roi i) := by
    intro r
    by_cases hm : r ∈ l
    · obtain ⟨E, a, b, -, d⟩ := h [r] (by simpa using hl r hm) dbg
      exact ⟨E, fun _ => ⟨a, b, fun i hi => by rw [d i hi]; simp⟩⟩
    · exact ⟨fresh K roi periodic variance .unset, fun h => absurd h hm⟩
  choose single hsingle using this
  refine ⟨E, single, e1, fun r hm => (hsingle r hm).1, fun i hi => ?_⟩
  have e := v1 i hi
  have e2 : (l.map fun r => φ r (displacement roi i)) = l.map fun r =>
      ((single r).first.get (flat roi i).toNat, (single r).second.get (flat roi i).toNat,
        (single r).norm.get (flat roi i).toNat) :=
    List.map_congr_left fun r hm => ((hsingle r hm).2.2 i hi).symm
  rw [e2, sum_prod] at e
  simp only [List.map_map, Prod.mk.injEq, Function.comp_def] at e
  have e3 : ∀ r ∈ l, (single r).shapeOrig = roi := fun r hm => (hsingle r hm).2.1.shapeOrig
  refine ⟨?_, ?_, ?_⟩
  · rw [show val (dataFirst E) i = E.first.get (flat roi i).toNat by
      simp [dataFirst, val, Nd.reshape, g1.shapeOrig], e.1]
    refine congrArg List.sum (List.map_congr_left fun r hm => ?_)
    simp [dataFirst, val, Nd.reshape, e3 r hm]
  · rw [show val (dataSecond E) i = E.second.get (flat roi i).toNat by
      simp [dataSecond, val, Nd.reshape, g1.shapeOrig], e.2.1]
    refine congrArg List.sum (List.map_congr_left fun r hm => ?_)
    simp [dataSecond, val, Nd.reshape, e3 r hm]
  · rw [show val (dataNorm E) i = E.norm.get (flat roi i).toNat by
      simp [dataNorm, val, Nd.reshape, g1.shapeOrig], e.2.2]
    refine congrArg List.sum (List.map_congr_left fun r hm => ?_)
    simp [dataNorm, val, Nd.reshape, e3 r hm]

/-- Two realisations, one with masks, meet the hypotheses. -/
example : ∀ r ∈ [Realisation.S2 (im [1, 0, 1]) (im [0, 1, 1]) none,
      .S2 (im [1, 1]) (im [0, 1]) (some (mk [0, 1], mk [0, 0]))],
    Realisation.Legal 0 true [3] r ∧ Realisation.stat r = .S2 := by
  intro r hr
  simp only [List.mem_cons, List.not_mem_nil, or_false] at hr
  rcases hr with rfl | rfl
  · exact ⟨⟨⟨by decide, by decide, rfl, fun _ => by decide⟩, rfl, by simp⟩, rfl⟩
  · refine ⟨⟨⟨by decide, by decide, rfl, fun _ => by decide⟩, rfl, ?_⟩, rfl⟩
    rintro m' ⟨⟩
    exact ⟨⟨rfl, mk_isMask (by decide)⟩, rfl, mk_isMask (by decide)⟩

/-! ### C43 -/

theorem Realisation.locks {r : Realisation K} {dbg : Bool} {E E' : Ensemble K}
    (h : r.call junk fuel dbg E = ok E') : Locks dbg r.stat E E' := by
  match r, h with
  | .mean f none, h => exact mean_locks h
  | .mean f (some m), h => exact meanMask_locks h
  | .S2 f g none, h => exact S2_locks h
  | .S2 f g (some m), h => exact S2_locks h
  | .C2 f g none, h => exact C2_locks h
  | .C2 f g (some m), h => exact C2_locks h
  | .W2 f g none, h => exact W2_locks h
  | .W2 f g (some m), h => exact W2_locks h
  | .W2c cl ce f none mode, h => exact W2c_locks h
  | .W2c cl ce f (some m) mode, h => exact W2c_locks h
  | .heightheight f none, h => exact HH_locks h
  | .heightheight f (some m), h => exact HH_locks h
  | .L f mode, h => exact L_locks h

theorem Realisation.other {r : Realisation K} {E : Ensemble K} (h1 : E.stat ≠ .unset)
    (h2 : r.stat ≠ E.stat) : r.call junk fuel true E = throws := by
  have key : ∀ {c : Bool} {β : Type} {k : Unit → Outcome β}, (c = true → k () = throws) →
      (gassert true c >>= k) = throws := by
    intro c β k h
    cases c
    · rfl
    · exact h rfl
  have no : ∀ st : Stat, st = r.stat → decide (E.stat = st ∨ E.stat = .unset) = true → False := by
    rintro _ rfl h
    rcases of_decide_eq_true h with h | h
    · exact h2 h.symm
    · exact h1 h
  match r, no with
  | .mean f none, no => exact key fun _ => key fun h => (no _ rfl h).elim
  | .mean f (some m), no => exact key fun _ => key fun _ => key fun _ => key fun h => (no _ rfl h).elim
  | .S2 f g none, no =>
    exact key fun _ => key fun _ => key fun _ => key fun _ => key fun _ => key fun _ => key fun h => (no _ rfl h).elim
  | .S2 f g (some m), no =>
    exact key fun _ => key fun _ => key fun _ => key fun _ => key fun _ => key fun _ => key fun h => (no _ rfl h).elim
  | .C2 f g none, no =>
    exact key fun _ => key fun _ => key fun _ => key fun _ => key fun _ => key fun _ => key fun h => (no _ rfl h).elim
  | .C2 f g (some m), no =>
    exact key fun _ => key fun _ => key fun _ => key fun _ => key fun _ => key fun _ => key fun h => (no _ rfl h).elim
  | .W2 f g none, no =>
    exact key fun _ => key fun _ => key fun _ => key fun _ => key fun h => (no _ rfl h).elim
  | .W2 f g (some m), no =>
    exact key fun _ => key fun _ => key fun _ => key fun _ => key fun h => (no _ rfl h).elim
  | .W2c cl ce f none mode, no =>
    exact key fun _ => key fun _ => key fun _ => key fun _ => key fun _ => key fun h => (no _ rfl h).elim
  | .W2c cl ce f (some m) mode, no =>
    exact key fun _ => key fun _ => key fun _ => key fun _ => key fun _ => key fun h => (no _ rfl h).elim
  | .heightheight f none, no => exact key fun _ => key fun _ => key fun _ => key fun h => (no _ rfl h).elim
  | .heightheight f (some m), no => exact key fun _ => key fun _ => key fun _ => key fun h => (no _ rfl h).elim
  | .L f mode, no => exact key fun _ => key fun h => (no _ rfl h).elim

/-- Every completed history, whatever the arguments. -/
theorem history_stat {dbg : Bool} {l : List (Realisation K)} {E : Ensemble K}
    (h : history dbg junk fuel roi periodic variance l = ok E) :
    Good roi periodic variance E ∧ (E.stat = match l.getLast? with | none => .unset | some r => r.stat) ∧
      (dbg = true → ∀ r ∈ l, r.stat = E.stat) := by
  obtain ⟨E0, h1, h2⟩ := bind_eq_ok.1 h
  have g0 : Good roi periodic variance E0 ∧ E0.stat = .unset := by
    unfold make at h1
    obtain ⟨_, -, h1⟩ := bind_eq_ok.1 h1
    split at h1
    · cases h1
    · rename_i hn
      have hr : roi.length ≤ 3 := by by_contra h; exact hn (Or.inl (by omega))
      have e := make_ok (K := K) (periodic := periodic) (variance := variance) dbg hr
        (fun h => hn (Or.inr h))
      have : E0 = fresh K roi periodic variance .unset := by
        have := h.symm.trans (show _ = _ from rfl)
        unfold make at e
        obtain ⟨_, -, e⟩ := bind_eq_ok.1 e
        rw [if_neg hn] at e
        exact Outcome.ok.inj (h1.symm.trans e)
      subst this
      exact ⟨good_fresh, rfl⟩
  clear h h1
  have main : ∀ (l : List (Realisation K)) (E0 : Ensemble K), Good roi periodic variance E0 →
      forM l E0 (fun E r => r.call junk fuel dbg E) = ok E →
      Good roi periodic variance E ∧
      (E.stat = match l.getLast? with | none => E0.stat | some r => r.stat) ∧
      (dbg = true → (E0.stat = .unset ∨ l = [] ∨ E0.stat = E.stat) ∧ ∀ r ∈ l, r.stat = E.stat) := by
    intro l
    induction l with
    | nil =>
      intro E0 g e
      cases e
      exact ⟨g, rfl, fun _ => ⟨Or.inr (Or.inl rfl), by simp⟩⟩
    | cons r l ih =>
      intro E0 g e
      obtain ⟨E1, e1, e2⟩ := bind_eq_ok.1
        (show (r.call junk fuel dbg E0 >>= fun E => forM l E fun E r => r.call junk fuel dbg E) = ok E from e)
      have lk := r.locks e1
      have st : E1.stat = r.stat := lk.after.stat
      obtain ⟨a, b, c⟩ := ih E1 (lk.after.good (g.stat _)) e2
      refine ⟨a, ?_, fun hd => ?_⟩
      · rw [b]
        cases l with
        | nil => simpa using st
        | cons r' l =>
          rw [List.getLast?_cons_cons, List.getLast?_eq_some_getLast (by simp)]
      · obtain ⟨c1, c2⟩ := c hd
        have hr : r.stat = E.stat := by
          rcases c1 with c1 | c1 | c1
          · rw [st] at c1
            cases r <;> cases c1
          · subst c1
            simpa [st] using b.symm
          · rw [← c1, st]
        refine ⟨?_, ?_⟩
        · rcases lk.before hd with h | h
          · exact Or.inr (Or.inr (h.trans hr))
          · exact Or.inl h
        · intro r' hr'
          rcases List.mem_cons.1 hr' with rfl | hr'
          · exact hr
          · exact c2 r' hr'
  obtain ⟨a, b, c⟩ := main l E0 g0.1 h2
  rw [g0.2] at b
  exact ⟨a, b, fun hd => (c hd).2⟩

/-- With assertions, after any history that completed, whatever the arguments of the calls: all calls
were of one measure, and every call of another measure throws, whatever its arguments. -/
theorem C43_one_statistic {l : List (Realisation K)} {E : Ensemble K}
    (h : history true junk fuel roi periodic variance l = ok E) {r : Realisation K} (hr : r ∈ l) :
    (∀ r' ∈ l, r'.stat = r.stat) ∧
      ∀ r' : Realisation K, r'.stat ≠ r.stat → r'.call junk fuel true E = throws := by
  obtain ⟨-, -, c⟩ := history_stat h
  have e := c rfl
  refine ⟨fun r' hr' => (e r' hr').trans (e r hr).symm, fun r' hne => ?_⟩
  refine Realisation.other ?_ (by rw [← e r hr]; exact hne)
  rw [← e r hr]
  cases r <;> simp [Realisation.stat]

/-- `variance` throws if and only if the last measure was neither `mean` nor `heightheight` (with and
without assertions, whatever the arguments of the calls). -/
theorem C43_variance {dbg : Bool} {l : List (Realisation K)} {E : Ensemble K}
    (h : history dbg junk fuel roi periodic variance l = ok E) (pow05 : K → K) :
    (varianceResult pow05 E = throws ↔
      ∀ r ∈ l.getLast?, r.stat ≠ .mean ∧ r.stat ≠ .heightheight) ∧
    (varianceResult pow05 E ≠ throws → ∃ v, varianceResult pow05 E = ok v) := by
  obtain ⟨g, s, -⟩ := history_stat h
  rw [variance_good g]
  cases hl : l.getLast? with
  | none =>
    rw [hl] at s
    have s' : E.stat = .unset := s
    simp [s']
  | some r =>
    rw [hl] at s
    have s' : E.stat = r.stat := s
    rw [s']
    by_cases h1 : r.stat = .heightheight ∨ r.stat = .mean
    · rw [if_pos h1]
      rcases h1 with h1 | h1 <;> simp [h1]
    · rw [if_neg h1]
      rw [not_or] at h1
      simp [h1.1, h1.2]

/-- Without assertions the measures can be mixed: the moments are then those of different statistics. -/
theorem C43_release : ∃ E : Ensemble ℚ, history false 0 0 [1] false true
    [.S2 (im [1, 1]) (im [1, 1]) none, .heightheight (im [1, 1]) none] = ok E ∧
    val (dataNorm E) [0] = 4 ∧ val (dataFirst E) [0] = 2 := by
  refine ⟨_, rfl, ?_, ?_⟩ <;> decide +kernel

/-- A history with assertions that completes. -/
example : ∃ E : Ensemble ℚ, history true 0 0 [3] false true
    [.S2 (im [1, 1]) (im [1, 1]) none, .S2 (im [1, 0, 1]) (im [1, 1, 1]) none] = ok E := ⟨_, rfl⟩

end

end Verif.Props
