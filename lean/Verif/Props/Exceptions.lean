import Verif.Lemmas.Exceptions
import Verif.Props.History
import Verif.Props.Structure

/-!
# A refused call changes nothing (C81)
-/

set_option linter.unusedSectionVars false

namespace Verif.Props

open Verif Outcome Spec Ens Exec

/-! ### client code that catches exceptions -/

section

variable {C S : Type}

/-- A client that makes the calls one by one, catches every exception and carries on with the object. Undefined
behaviour ends the program. -/
def attempt (exec : C → Exec S) : List C → S → Outcome S
  | [], s => ok s
  | c :: calls, s =>
    match exec c s with
    | (s, ok ()) => attempt exec calls s
    | (s, throws) => attempt exec calls s
    | (_, ub) => ub
    | (_, diverge) => diverge

/-- The calls of this client that did not throw. -/
def accepted (exec : C → Exec S) : List C → S → List C
  | [], _ => []
  | c :: calls, s =>
    match exec c s with
    | (s, throws) => accepted exec calls s
    | (s, _) => c :: accepted exec calls s

theorem attempt_accepted {exec : C → Exec S} {call : S → C → Outcome S}
    (h : ∀ c, Agree (exec c) fun s => call s c) (calls : List C) :
    ∀ s s', attempt exec calls s = ok s' → forM (accepted exec calls s) s call = ok s' := by
  induction calls with
  | nil => intro s s' e; exact e
  | cons c calls ih =>
    intro s s' e
    have h1 := (h c).ends s
    have h2 := (h c).state s
    have h3 := (h c).refused s
    unfold attempt at e
    unfold accepted
    rcases hx : exec c s with ⟨s1, o⟩
    rw [hx] at e h1 h2 h3
    cases hc : call s c with
    | ok s2 =>
      rw [hc] at h1
      have h1 : o = ok () := h1
      have h4 : s1 = s2 := h2 s2 hc
      subst h1 h4
      show (call s c).bind _ = _
      rw [hc]
      exact ih _ _ e
    | throws =>
      rw [hc] at h1
      have h1 : o = throws := h1
      have h4 : s1 = s := h3 hc
      subst h1 h4
      exact ih _ _ e
    | ub =>
      rw [hc] at h1
      have h1 : o = ub := h1
      subst h1
      cases e
    | diverge =>
      rw [hc] at h1
      have h1 : o = diverge := h1
      subst h1
      cases e

end

/-! ### the measures -/

section

variable {K : Type} [Zero K] [One K] [Add K] [Sub K] [Mul K] [Div K] [Pow K Nat] [NatCast K] [IntCast K] [LE K]
  [DecidableLE K] [Neg K] [Max K] [DecidableEq K]
variable {P : Type} [Zero P] [One P] [Add P] [Sub P] [Neg P] [Mul P] [Div P] [NatCast P] [IntCast P] [DecidableEq P]
  [LT P] [DecidableLT P]

/-- The call as a program on the object. `any`: see `Exec.run`. -/
def Realisation.exec (any : Ensemble K) (junk : P) (fuel : Nat) (dbg : Bool) : Realisation K → Exec (Ensemble K)
  | .mean f none => meanX any dbg f
  | .mean f (some m) => meanMaskX any dbg f m
  | .S2 f g none => S2X any dbg f g (noMask f) (noMask f)
  | .S2 f g (some m) => S2X any dbg f g m.1 m.2
  | .C2 f g none => C2X any dbg f g (noMask f) (noMask f)
  | .C2 f g (some m) => C2X any dbg f g m.1 m.2
  | .W2 w f none => W2X any dbg w f (noMask w)
  | .W2 w f (some m) => W2X any dbg w f m
  | .W2c clusters centers f none mode => W2cX any dbg junk fuel clusters centers f (noMask f) mode
  | .W2c clusters centers f (some m) mode => W2cX any dbg junk fuel clusters centers f m mode
  | .heightheight f none => heightheightX any dbg f (noMask f)
  | .heightheight f (some m) => heightheightX any dbg f m
  | .L f mode => LX any dbg junk fuel f mode

/-- The arguments of the call fit together and fit the ensemble: the images and masks of a call have the same
shape, which has the rank of the ROI, masks hold zeros and ones; the ensemble measures nothing else. `mean` needs
a ROI of one pixel, not an image of the same rank. -/
def Realisation.Accepted (E : Ensemble K) (r : Realisation K) : Prop :=
  (E.stat = r.stat ∨ E.stat = .unset) ∧
  match r with
  | .mean f m => E.shape = [1, 1, 1] ∧ ∀ m' ∈ m, LegalMask f.shape m'
  | .S2 f g m => f.shape.length = E.shapeOrig.length ∧ g.shape = f.shape ∧
      ∀ m' ∈ m, LegalMask f.shape m'.1 ∧ LegalMask f.shape m'.2
  | .C2 f g m => f.shape.length = E.shapeOrig.length ∧ g.shape = f.shape ∧
      ∀ m' ∈ m, LegalMask f.shape m'.1 ∧ LegalMask f.shape m'.2
  | .W2 w f m => w.shape.length = E.shapeOrig.length ∧ f.shape = w.shape ∧ ∀ m' ∈ m, LegalMask w.shape m'
  | .W2c clusters centers f m _ => f.shape.length = E.shapeOrig.length ∧ clusters.shape = f.shape ∧
      centers.shape = f.shape ∧ ∀ m' ∈ m, LegalMask f.shape m'
  | .heightheight f m => f.shape.length = E.shapeOrig.length ∧ ∀ m' ∈ m, LegalMask f.shape m'
  | .L f _ => f.shape.length = E.shapeOrig.length

theorem Realisation.agree (any : Ensemble K) (junk : P) (fuel : Nat) (dbg : Bool) (r : Realisation K) :
    Agree (r.exec any junk fuel dbg) fun E => r.call junk fuel dbg E := by
  cases r with
  | mean f m => cases m with
    | none => exact agree_mean any dbg f
    | some m => exact agree_meanMask any dbg f m
  | S2 f g m => cases m <;> exact agree_S2 any dbg f g _ _
  | C2 f g m => cases m <;> exact agree_C2 any dbg f g _ _
  | W2 w f m => cases m <;> exact agree_W2 any dbg w f _
  | W2c cl ce f m mode => cases m <;> exact agree_W2c any dbg junk fuel cl ce f _ mode
  | heightheight f m => cases m <;> exact agree_heightheight any dbg f _
  | L f mode => exact agree_L any dbg junk fuel f mode

theorem binary_iff (m : Nd Int) : binary m = true ↔ IsMask m := by
  simp [binary, Nd.all, Nd.toList, IsMask, List.all_eq_true]

theorem gassert_throws {α : Type} {dbg c : Bool} {x : Outcome α} :
    (gassert dbg c >>= fun _ => x) = throws ↔ (dbg = true ∧ c = false) ∨ x = throws := by
  unfold gassert
  cases dbg <;> cases c <;> simp

theorem binary_noMask (f : Nd K) : IsMask (noMask f) := fun _ _ => Or.inl rfl

/-- With assertions a call throws if and only if its arguments do not fit together or do not fit the ensemble;
without assertions no call throws. -/
theorem C81_refused (any : Ensemble K) (junk : P) (fuel : Nat) (dbg : Bool) (r : Realisation K) (E : Ensemble K) :
    (r.exec any junk fuel dbg E).2 = throws ↔ dbg = true ∧ ¬ r.Accepted E := by
  have e : (r.exec any junk fuel dbg E).2 = throws ↔ r.call junk fuel dbg E = throws := by
    rw [(Realisation.agree any junk fuel dbg r).ends E]
    cases r.call junk fuel dbg E <;> simp [Outcome.map]
  rw [e]
  have hb : ∀ m : Nd Int, binary m = false ↔ ¬ IsMask m := fun m => by
    rw [← binary_iff]; cases binary m <;> simp
  have hn := binary_noMask (K := K)
  have hs : ∀ f : Nd K, (noMask f).shape = f.shape := fun _ => rfl
  cases r with
  | mean f m =>
    cases m with
    | none =>
      show Ens.mean dbg E f = throws ↔ _
      unfold Ens.mean
      rw [gassert_throws, gassert_throws, iff_false_intro <|
        nothrow_do (nothrow_add0 _ _) fun _ => nothrow_do (nothrow_add0 _ _) fun _ =>
          nothrow_do (nothrow_add0 _ _) fun _ => nothrow_pure _]
      simp only [Realisation.Accepted, Realisation.stat, decide_eq_false_iff_not, Option.mem_def, reduceCtorEq,
        false_implies, implies_true]
      tauto
    | some m =>
      show Ens.meanMask dbg E f m = throws ↔ _
      unfold Ens.meanMask
      rw [gassert_throws, gassert_throws, gassert_throws, gassert_throws, iff_false_intro <|
        nothrow_do (nothrow_map₂ _ _ _) fun _ => nothrow_do (nothrow_add0 _ _) fun _ =>
          nothrow_do (nothrow_map₂ _ _ _) fun _ => nothrow_do (nothrow_add0 _ _) fun _ =>
          nothrow_do (nothrow_add0 _ _) fun _ => nothrow_pure _]
      simp only [Realisation.Accepted, Realisation.stat, decide_eq_false_iff_not, Option.mem_def, Option.some.injEq,
        forall_eq', LegalMask, hb, eq_comm (a := m.shape)]
      tauto
  | S2 f g m =>
    have key : ∀ fm gm, Ens.S2 dbg E f g fm gm = throws ↔ dbg = true ∧ ¬ ((E.stat = .S2 ∨ E.stat = .unset) ∧
        f.shape.length = E.shapeOrig.length ∧ g.shape = f.shape ∧ LegalMask f.shape fm ∧ LegalMask f.shape gm) := by
      intro fm gm
      unfold Ens.S2
      rw [gassert_throws, gassert_throws, gassert_throws, gassert_throws, gassert_throws, gassert_throws,
        gassert_throws, iff_false_intro <| nothrow_do (nothrow_pad _ _ _ _) fun _ =>
          nothrow_do (nothrow_pad _ _ _ _) fun _ => nothrow_do (nothrow_pad _ _ _ _) fun _ =>
          nothrow_do (nothrow_pad _ _ _ _) fun _ => nothrow_forM (fun _ _ => nothrow_bodyS2 _ _ _ _ _ _ _) _ _]
      simp only [decide_eq_false_iff_not, LegalMask, hb, eq_comm (b := f.shape)]
      tauto
    cases m with
    | none =>
      refine (key _ _).trans ?_
      simp [Realisation.Accepted, Realisation.stat, LegalMask, hn, hs]
    | some m =>
      refine (key _ _).trans ?_
      simp [Realisation.Accepted, Realisation.stat]
  | C2 f g m =>
    have key : ∀ fm gm, Ens.C2 dbg E f g fm gm = throws ↔ dbg = true ∧ ¬ ((E.stat = .C2 ∨ E.stat = .unset) ∧
        f.shape.length = E.shapeOrig.length ∧ g.shape = f.shape ∧ LegalMask f.shape fm ∧ LegalMask f.shape gm) := by
      intro fm gm
      unfold Ens.C2
      rw [gassert_throws, gassert_throws, gassert_throws, gassert_throws, gassert_throws, gassert_throws,
        gassert_throws, iff_false_intro <| nothrow_do (nothrow_pad _ _ _ _) fun _ =>
          nothrow_do (nothrow_pad _ _ _ _) fun _ => nothrow_do (nothrow_pad _ _ _ _) fun _ =>
          nothrow_do (nothrow_pad _ _ _ _) fun _ => nothrow_forM (fun _ _ => nothrow_bodyC2 _ _ _ _ _ _ _) _ _]
      simp only [decide_eq_false_iff_not, LegalMask, hb, eq_comm (b := f.shape)]
      tauto
    cases m with
    | none =>
      refine (key _ _).trans ?_
      simp [Realisation.Accepted, Realisation.stat, LegalMask, hn, hs]
    | some m =>
      refine (key _ _).trans ?_
      simp [Realisation.Accepted, Realisation.stat]
  | W2 w f m =>
    have key : ∀ gm, Ens.W2 dbg E w f gm = throws ↔ dbg = true ∧ ¬ ((E.stat = .W2 ∨ E.stat = .unset) ∧
        w.shape.length = E.shapeOrig.length ∧ f.shape = w.shape ∧ LegalMask w.shape gm) := by
      intro gm
      unfold Ens.W2
      rw [gassert_throws, gassert_throws, gassert_throws, gassert_throws, gassert_throws,
        iff_false_intro <| nothrow_do (nothrow_pad _ _ _ _) fun _ =>
          nothrow_do (nothrow_pad _ _ _ _) fun _ => nothrow_do (nothrow_pad _ _ _ _) fun _ =>
          nothrow_forM (fun _ _ => nothrow_bodyW2 _ _ _ _ _ _) _ _]
      simp only [decide_eq_false_iff_not, LegalMask, hb, eq_comm (b := w.shape)]
      tauto
    cases m with
    | none =>
      refine (key _).trans ?_
      simp [Realisation.Accepted, Realisation.stat, LegalMask, hn, hs]
    | some m =>
      refine (key _).trans ?_
      simp [Realisation.Accepted, Realisation.stat]
  | W2c cl ce f m mode =>
    have key : ∀ fm, Ens.W2c dbg junk fuel E cl ce f fm mode = throws ↔ dbg = true ∧
        ¬ ((E.stat = .W2c ∨ E.stat = .unset) ∧ f.shape.length = E.shapeOrig.length ∧ cl.shape = f.shape ∧
          ce.shape = f.shape ∧ LegalMask f.shape fm) := by
      intro fm
      unfold Ens.W2c
      rw [gassert_throws, gassert_throws, gassert_throws, gassert_throws, gassert_throws, gassert_throws,
        iff_false_intro <| nothrow_do (nothrow_pad _ _ _ _) fun _ =>
          nothrow_do (nothrow_pad _ _ _ _) fun _ => nothrow_do (nothrow_pad _ _ _ _) fun _ =>
          nothrow_do (nothrow_pad _ _ _ _) fun _ =>
          nothrow_forM (fun _ _ => nothrow_stampW2c (fun _ => Path.nothrow_path _ _ _ _ _) _ _ _ _ _ _ _) _ _]
      simp only [decide_eq_false_iff_not, LegalMask, hb, eq_comm (b := f.shape)]
      tauto
    cases m with
    | none =>
      refine (key _).trans ?_
      simp [Realisation.Accepted, Realisation.stat, LegalMask, hn, hs]
    | some m =>
      refine (key _).trans ?_
      simp [Realisation.Accepted, Realisation.stat]
  | heightheight f m =>
    have key : ∀ fm, Ens.heightheight dbg E f fm = throws ↔ dbg = true ∧
        ¬ ((E.stat = .heightheight ∨ E.stat = .unset) ∧ f.shape.length = E.shapeOrig.length ∧
          LegalMask f.shape fm) := by
      intro fm
      unfold Ens.heightheight
      rw [gassert_throws, gassert_throws, gassert_throws, gassert_throws,
        iff_false_intro <| nothrow_do (nothrow_pad _ _ _ _) fun _ =>
          nothrow_do (nothrow_pad _ _ _ _) fun _ => nothrow_forM (fun _ _ => nothrow_bodyHH _ _ _ _ _) _ _]
      simp only [decide_eq_false_iff_not, LegalMask, hb, eq_comm (b := f.shape)]
      tauto
    cases m with
    | none =>
      refine (key _).trans ?_
      simp [Realisation.Accepted, Realisation.stat, LegalMask, hn, hs]
    | some m =>
      refine (key _).trans ?_
      simp [Realisation.Accepted, Realisation.stat]
  | L f mode =>
    show Ens.L dbg junk fuel E f mode = throws ↔ _
    unfold Ens.L
    rw [gassert_throws, gassert_throws, iff_false_intro <| nothrow_do (nothrow_pad _ _ _ _) fun _ =>
      nothrow_forM (fun _ _ => nothrow_stampL (fun _ => Path.nothrow_path _ _ _ _ _) _ _ _ _ _) _ _]
    simp only [Realisation.Accepted, Realisation.stat, decide_eq_false_iff_not]
    tauto

/-- A call that throws leaves the ensemble as it was, whatever its arguments and whatever happened before. -/
theorem C81_ensemble (any : Ensemble K) (junk : P) (fuel : Nat) (dbg : Bool) (r : Realisation K) (E : Ensemble K)
    (h : (r.exec any junk fuel dbg E).2 = throws) : (r.exec any junk fuel dbg E).1 = E := by
  refine (Realisation.agree any junk fuel dbg r).refused E ?_
  have e := (Realisation.agree any junk fuel dbg r).ends E
  rw [h] at e
  cases hc : r.call junk fuel dbg E <;> rw [hc] at e <;> cases e

/-- A client that catches the exceptions ends with the ensemble to which only the calls that did not throw were
made. -/
theorem C81_history (any : Ensemble K) (junk : P) (fuel : Nat) (dbg : Bool) (roi : List Nat)
    (periodic variance : Bool) (calls : List (Realisation K)) {E E' : Ensemble K}
    (h : make K dbg roi periodic variance = ok E)
    (h' : attempt (Realisation.exec any junk fuel dbg) calls E = ok E') :
    history dbg junk fuel roi periodic variance (accepted (Realisation.exec any junk fuel dbg) calls E) = ok E' := by
  unfold history
  rw [h]
  exact attempt_accepted (call := fun E r => Realisation.call junk fuel dbg E r)
    (fun r => Realisation.agree any junk fuel dbg r) calls E E' h'

end

/-- Five calls of which three are refused: another statistic, another rank, a mask that is not binary. -/
def fiveCalls : List (Realisation ℚ) :=
  [.S2 (im [1, 1]) (im [1, 1]) none, .C2 (im [1, 1]) (im [1, 1]) none,
    .S2 ⟨[1, 1], fun _ => 1⟩ ⟨[1, 1], fun _ => 1⟩ none,
    .S2 (im [1, 1]) (im [1, 1]) (some (⟨[2], fun _ => 2⟩, ⟨[2], fun _ => 2⟩)),
    .S2 (im [1, 0, 1]) (im [1, 1, 1]) none]

example : ((make ℚ true [3] false true).map fun E =>
    ((attempt (Realisation.exec E (0 : ℚ) 0 true) fiveCalls E).get?.isSome,
      (accepted (Realisation.exec E (0 : ℚ) 0 true) fiveCalls E).length)) = ok (true, 2) := by
  decide +kernel

/-! ### the labeller -/

section

open Cluster

/-- The calls a client can make on a labeller, with any arguments. -/
inductive LabellerCall where
  | addImage (shape : List Nat) (img : List Int)
  | addPoints (points : List Int)
  | addSequence (points : List Int)
  | prune
  | reset

/-- The call as a program on the object. -/
def LabellerCall.exec (any : State) (dbg : Bool) : LabellerCall → Exec State
  | .addImage shape img => addImageX any dbg shape img
  | .addPoints points => addPointsX any dbg points
  | .addSequence points => addSequenceX any dbg points
  | .prune => pruneX any
  | .reset => resetX

/-- The call, in the other models. -/
def LabellerCall.call (dbg : Bool) (s : State) : LabellerCall → Outcome State
  | .addImage shape img => Cluster.addImage dbg s shape img
  | .addPoints points => Cluster.addPoints dbg s points
  | .addSequence points => (Cluster.addSequence dbg s points).map Prod.fst
  | .prune => Cluster.prune s
  | .reset => ok (Cluster.reset s)

/-- The image has the shape of the labeller, the points are in it, a sequence is not empty. -/
def LabellerCall.Accepted (s : State) : LabellerCall → Prop
  | .addImage shape _ => shape = s.shape
  | .addPoints points => ∀ i ∈ points, 0 ≤ i ∧ i < s.label.size
  | .addSequence points => points ≠ [] ∧ ∀ i ∈ points, 0 ≤ i ∧ i < s.label.size
  | .prune => True
  | .reset => True

/-- The points are of type `ptrdiff_t`. -/
def LabellerCall.Typed : LabellerCall → Prop
  | .addPoints points => ∀ i ∈ points, -2 ^ 63 ≤ i ∧ i < 2 ^ 63
  | .addSequence points => ∀ i ∈ points, -2 ^ 63 ≤ i ∧ i < 2 ^ 63
  | _ => True

theorem LabellerCall.agree (any : State) (dbg : Bool) (c : LabellerCall) :
    Agree (c.exec any dbg) fun s => c.call dbg s := by
  cases c with
  | addImage shape img => exact agree_addImage any dbg shape img
  | addPoints points => exact agree_addPoints any dbg points
  | addSequence points => exact agree_addSequence any dbg points
  | prune => exact agree_prune any
  | reset => exact agree_reset

theorem legalPoints_iff {s : State} (hs : s.label.size < 2 ^ 63) {points : List Int}
    (h : ∀ i ∈ points, -2 ^ 63 ≤ i ∧ i < 2 ^ 63) :
    legalPoints s points = true ↔ ∀ i ∈ points, 0 ≤ i ∧ i < s.label.size := by
  unfold legalPoints
  rw [Bool.not_eq_true', List.any_eq_false]
  refine forall₂_congr fun i hi => ?_
  obtain ⟨h1, h2⟩ := h i hi
  rw [decide_eq_true_eq]
  unfold toSize
  omega

/-- With assertions a call throws if and only if its arguments do not fit the labeller; without assertions no call
throws. -/
theorem C81_labeller_refused (any : State) (dbg : Bool) (c : LabellerCall) (s : State) (hs : s.label.size < 2 ^ 63)
    (hc : c.Typed) : (c.exec any dbg s).2 = throws ↔ dbg = true ∧ ¬ c.Accepted s := by
  have e : (c.exec any dbg s).2 = throws ↔ c.call dbg s = throws := by
    rw [(LabellerCall.agree any dbg c).ends s]
    cases c.call dbg s <;> simp [Outcome.map]
  rw [e]
  have hl : ∀ {points : List Int}, (∀ i ∈ points, -2 ^ 63 ≤ i ∧ i < 2 ^ 63) →
      (legalPoints s points = false ↔ ¬ ∀ i ∈ points, 0 ≤ i ∧ i < (s.label.size : Int)) := by
    intro points h
    rw [← legalPoints_iff hs h]; cases legalPoints s points <;> simp
  cases c with
  | addImage shape img =>
    show Cluster.addImage dbg s shape img = throws ↔ _
    unfold Cluster.addImage
    have n : NoThrow ((forM ((List.range img.length).zip img) s addPixel).bind applyMerge) :=
      nothrow_bind (nothrow_forM nothrow_addPixel _ _) nothrow_applyMerge
    split
    · rename_i h
      simp at h
      simpa [LabellerCall.Accepted] using h
    · rename_i h
      rw [iff_false_intro n]
      simp at h
      simpa [LabellerCall.Accepted] using h
  | addPoints points =>
    show Cluster.addPoints dbg s points = throws ↔ _
    unfold Cluster.addPoints
    have n : NoThrow ((forM points s addPoint).bind applyMerge) :=
      nothrow_bind (nothrow_forM nothrow_addPoint _ _) nothrow_applyMerge
    have hl := hl hc
    show _ ↔ dbg = true ∧ ¬ ∀ i ∈ points, 0 ≤ i ∧ i < (s.label.size : Int)
    rw [← hl]
    cases dbg <;> cases legalPoints s points <;> simp [iff_false_intro n]
  | addSequence points =>
    have n : NoThrow ((seqOuter points (2 * points.length + 2) 0 s []).bind fun r =>
        (applyMerge r.1).bind fun s => ok (s, r.2 ++ [points.length])) :=
      nothrow_bind (nothrow_seqOuter _ _ _ _ _) fun _ => nothrow_bind (nothrow_applyMerge _) fun _ => nothrow_ok _
    have n := nothrow_map Prod.fst n
    have hl := hl hc
    show _ ↔ dbg = true ∧ ¬ (points ≠ [] ∧ ∀ i ∈ points, 0 ≤ i ∧ i < (s.label.size : Int))
    rw [not_and_or, ← hl, not_not]
    show Outcome.map Prod.fst (Cluster.addSequence dbg s points) = throws ↔ _
    unfold Cluster.addSequence
    cases dbg <;> cases hl : legalPoints s points <;> cases points <;> simp [Outcome.map]
    all_goals exact n
  | prune => exact iff_of_false (nothrow_prune s) fun h => h.2 trivial
  | reset => exact iff_of_false (nothrow_ok _) fun h => h.2 trivial

/-- A call that throws leaves the labeller as it was, whatever its arguments and whatever happened before. -/
theorem C81_labeller (any : State) (dbg : Bool) (c : LabellerCall) (s : State)
    (h : (c.exec any dbg s).2 = throws) : (c.exec any dbg s).1 = s := by
  refine (LabellerCall.agree any dbg c).refused s ?_
  have e := (LabellerCall.agree any dbg c).ends s
  rw [h] at e
  cases hc : c.call dbg s <;> rw [hc] at e <;> cases e

/-- A client that catches the exceptions ends with the labeller to which only the calls that did not throw were
made. -/
theorem C81_labeller_history (any : State) (dbg : Bool) (calls : List LabellerCall) {s s' : State}
    (h : attempt (LabellerCall.exec any dbg) calls s = ok s') :
    forM (accepted (LabellerCall.exec any dbg) calls s) s (LabellerCall.call dbg) = ok s' :=
  attempt_accepted (call := LabellerCall.call dbg) (fun c => LabellerCall.agree any dbg c) calls s s' h

end

/-- Five calls of which three are refused: another shape, a point outside, an empty sequence. -/
example : ((Cluster.construct true [2, 3]).map fun s =>
    let calls : List LabellerCall := [.addImage [2, 3] [0, 1, 1, 0, 0, 1], .addImage [3, 2] [1, 1, 1, 1, 1, 1],
      .addPoints [0, 6], .addSequence [], .addPoints [0]]
    (((attempt (LabellerCall.exec s true) calls s).map fun s => s.label.toList).get?,
      (accepted (LabellerCall.exec s true) calls s).length)) = ok (some [1, 1, 1, 0, 0, 1], 2) := by
  decide +kernel

/-! ### the structure factor -/

section

open Structure

theorem sample2_cases (cast : ℝ → ℝ) (junk : Nat → Nat → ℝ) (u : Mat ℝ) :
    (sample2 cast junk u = throws ∧ (u.rows = 0 ∨ u.cols = 0)) ∨
      ∃ x, sample2 cast junk u = ok x ∧ x.rows = u.rows ∧ x.cols = u.cols ∧ 0 < u.rows ∧ 0 < u.cols := by
  by_cases h : u.rows = 0 ∨ u.cols = 0
  · refine Or.inl ⟨?_, h⟩
    unfold sample2
    rw [if_pos h]
  · rw [not_or] at h
    obtain ⟨x, e, h1, h2, -⟩ := sample2_ok cast junk (u := u) (by omega) (by omega)
    exact Or.inr ⟨x, e, h1, h2, by omega, by omega⟩

/-- The program and the model of C55 end in the same way, and agree on the object if there is no exception. -/
theorem C81_structure_same (any : Option State2) (cast : ℝ → ℝ) (junk : Nat → Nat → ℝ) (u : Mat ℝ)
    (st : Option State2) :
    (addSample2X any cast junk u st).2 = (addSample2 cast st junk u).map (fun _ => ()) ∧
      ∀ st', addSample2 cast st junk u = ok st' → (addSample2X any cast junk u st).1 = some st' := by
  unfold addSample2X addSample2
  rcases sample2_cases cast junk u with ⟨e, -⟩ | ⟨x, e, hx⟩
  · rw [e]
    exact ⟨rfl, fun st' h => by cases h⟩
  · rw [e]
    cases st with
    | some st =>
      by_cases h : st.first.rows = x.rows ∧ st.first.cols = x.cols
      · simp [seq, andThen, check, gassert, Exec.assign, h, Outcome.map]
      · have h' : st.first.rows ≠ x.rows ∨ st.first.cols ≠ x.cols := by tauto
        simp [seq, andThen, check, gassert, h', Outcome.map]
    | none =>
      by_cases h : x.rows % 2 = x.cols % 2
      · by_cases h2 : x.rows % 2 = 0
        · simp [seq, andThen, check, gassert, Exec.assign, allocate2X, allocate2, zeros, h, h ▸ h2, Outcome.map]
        · have h3 : x.rows % 2 = 1 := by omega
          have h4 : x.cols % 2 = 1 := by omega
          simp [seq, andThen, check, gassert, Exec.assign, allocate2X, allocate2, zeros, h3, h4, Outcome.map]
      · simp [seq, andThen, check, gassert, Exec.assign, allocate2X, allocate2, h, Outcome.map]

/-- A refused sample leaves the object as it was, if there is a sample already or its two sizes are both even or
both odd. -/
theorem C81_structure_partial (any : Option State2) (cast : ℝ → ℝ) (junk : Nat → Nat → ℝ) (u : Mat ℝ)
    (st : Option State2) (hst : st ≠ none ∨ u.rows % 2 = u.cols % 2)
    (h : (addSample2X any cast junk u st).2 = throws) : (addSample2X any cast junk u st).1 = st := by
  have hs := (C81_structure_same any cast junk u st).1
  unfold addSample2X at h ⊢
  rcases sample2_cases cast junk u with ⟨e, -⟩ | ⟨x, e, hx⟩
  · rw [e]
  · rw [e] at h ⊢
    cases st with
    | some st =>
      by_cases h' : st.first.rows = x.rows ∧ st.first.cols = x.cols
      · simp [seq, andThen, check, gassert, Exec.assign, h'] at h
      · have h2 : st.first.rows ≠ x.rows ∨ st.first.cols ≠ x.cols := by tauto
        simp [seq, andThen, check, gassert, h2]
    | none =>
      have hp : x.rows % 2 = x.cols % 2 := by
        rcases hst with h | h
        · exact absurd rfl h
        · omega
      exfalso
      unfold addSample2X addSample2 at hs
      rw [e] at hs
      rw [h] at hs
      simp [allocate2, hp, Outcome.map] at hs

/-- A first sample with an even and an odd size is refused, but the object keeps arrays of its shape: all other
samples are refused from then on, also those that a new object takes. -/
theorem C81_structure_violated (any : Option State2) (cast : ℝ → ℝ) (junk : Nat → Nat → ℝ) (u : Mat ℝ)
    (hm : 0 < u.rows) (hn : 0 < u.cols) (hp : u.rows % 2 ≠ u.cols % 2) :
    (addSample2X any cast junk u none).2 = throws ∧ (addSample2X any cast junk u none).1 ≠ none ∧
    ∀ (junk' : Nat → Nat → ℝ) (v : Mat ℝ), 0 < v.rows → 0 < v.cols → v.rows % 2 = v.cols % 2 →
      (addSample2X any cast junk' v none).2 = ok () ∧
      (addSample2X any cast junk' v (addSample2X any cast junk u none).1).2 = throws := by
  have e1 : addSample2X any cast junk u none = (some (zeros u.rows u.cols), throws) := by
    rcases sample2_cases cast junk u with ⟨-, h⟩ | ⟨x, e, h1, h2, -, -⟩
    · omega
    · unfold addSample2X
      rw [e]
      simp [seq, andThen, check, gassert, Exec.assign, allocate2X, h1, h2, hp]
  rw [e1]
  refine ⟨rfl, by simp, fun junk' v h0 h0' hv => ⟨?_, ?_⟩⟩
  · rw [(C81_structure_same any cast junk' v none).1]
    rcases sample2_cases cast junk' v with ⟨-, h⟩ | ⟨x, e, h1, h2, -, -⟩
    · omega
    · unfold addSample2
      rw [e]
      simp [allocate2, h1, h2, hv, Outcome.map]
  · rw [(C81_structure_same any cast junk' v _).1]
    rcases sample2_cases cast junk' v with ⟨-, h⟩ | ⟨x, e, h1, h2, -, -⟩
    · omega
    · unfold addSample2
      rw [e]
      have h3 : u.rows ≠ v.rows ∨ u.cols ≠ v.cols := by omega
      simp [zeros, h1, h2, h3, Outcome.map]

end

/-- A sample that is refused, and one that is accepted. -/
example : (⟨2, 3, fun _ _ => 1⟩ : Structure.Mat ℝ).rows % 2 ≠ (⟨2, 3, fun _ _ => 1⟩ : Structure.Mat ℝ).cols % 2 ∧
    (⟨2, 4, fun _ _ => 1⟩ : Structure.Mat ℝ).rows % 2 = (⟨2, 4, fun _ _ => 1⟩ : Structure.Mat ℝ).cols % 2 := by decide

end Verif.Props
