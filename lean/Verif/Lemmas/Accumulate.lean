import Verif.Lemmas.Stamp
import Verif.Lemmas.Raise
import Mathlib.Algebra.Group.Prod
import Mathlib.Algebra.Group.Pi.Basic

/-! # The measures add to the accumulators of an ensemble -/

set_option linter.unusedSectionVars false

namespace Verif.Ens

open Verif Outcome Spec Cluster Nd

variable {K : Type} [Field K] [LinearOrder K] [IsStrictOrderedRing K]

/-- What a call adds to `m_first`, `m_second` and `m_norm`. -/
abbrev Delta (K : Type) := (Nat → K) × (Nat → K) × (Nat → K)

/-- The ensemble with additions. -/
def Ensemble.plus (E : Ensemble K) (δ : Delta K) : Ensemble K :=
  { E with
    first := ⟨E.first.shape, E.first.get + δ.1⟩
    second := ⟨E.second.shape, E.second.get + δ.2.1⟩
    norm := ⟨E.norm.shape, E.norm.get + δ.2.2⟩ }

theorem plus_zero (E : Ensemble K) : E.plus 0 = E := by
  simp [Ensemble.plus]

theorem plus_plus (E : Ensemble K) (δ δ' : Delta K) : (E.plus δ).plus δ' = E.plus (δ + δ') := by
  simp [Ensemble.plus, add_assoc]

/-- Equal on the first `N` elements. -/
def Agree (N : Nat) (δ δ' : Delta K) : Prop :=
  ∀ k < N, δ.1 k = δ'.1 k ∧ δ.2.1 k = δ'.2.1 k ∧ δ.2.2 k = δ'.2.2 k

theorem Agree.add {N : Nat} {δ₁ δ₂ δ₁' δ₂' : Delta K} (h : Agree N δ₁ δ₁') (h' : Agree N δ₂ δ₂') :
    Agree N (δ₁ + δ₂) (δ₁' + δ₂') := by
  intro k hk
  obtain ⟨a, b, c⟩ := h k hk
  obtain ⟨a', b', c'⟩ := h' k hk
  simp [a, b, c, a', b', c']

/-- `body`, run on the item `x`, adds something that agrees with `c`, whatever was accumulated. -/
def Adds {σ : Type} (N : Nat) (E : Ensemble K) (body : Ensemble K → σ → Outcome (Ensemble K)) (x : σ)
    (c : Delta K) : Prop :=
  ∃ δ, (∀ δ0, body (E.plus δ0) x = ok (E.plus (δ0 + δ))) ∧ Agree N δ c

/-- A loop adds the sum of what its iterations add. -/
theorem forM_adds {σ : Type} {N : Nat} {E : Ensemble K}
    {body : Ensemble K → σ → Outcome (Ensemble K)} {c : σ → Delta K} :
    ∀ {l : List σ}, (∀ x ∈ l, Adds N E body x (c x)) →
      ∃ δ, (∀ δ0, forM l (E.plus δ0) body = ok (E.plus (δ0 + δ))) ∧ Agree N δ (l.map c).sum
  | [], _ => ⟨0, fun δ0 => by simp [forM], fun k _ => by simp⟩
  | x :: l, h => by
    obtain ⟨δ, h1, h2⟩ := h x (by simp)
    obtain ⟨δ', h3, h4⟩ := forM_adds fun y hy => h y (List.mem_cons_of_mem _ hy)
    refine ⟨δ + δ', fun δ0 => ?_, ?_⟩
    · simp only [forM, h1, Outcome.bind, h3, add_assoc]
    · simpa using h2.add h4

theorem sum_fst (l : List (Delta K)) (k : Nat) : l.sum.1 k = (l.map fun δ => δ.1 k).sum := by
  induction l with
  | nil => rfl
  | cons a l ih => simp [ih]

theorem sum_snd (l : List (Delta K)) (k : Nat) : l.sum.2.1 k = (l.map fun δ => δ.2.1 k).sum := by
  induction l with
  | nil => rfl
  | cons a l ih => simp [ih]

theorem sum_norm (l : List (Delta K)) (k : Nat) : l.sum.2.2 k = (l.map fun δ => δ.2.2 k).sum := by
  induction l with
  | nil => rfl
  | cons a l ih => simp [ih]

theorem addFirst_plus {E : Ensemble K} {a : Nd K} (h : a.shape = E.first.shape) (δ0 : Delta K) :
    addFirst (E.plus δ0) a = ok (E.plus (δ0 + (a.get, 0, 0))) := by
  simp only [addFirst, Nd.map₂, Ensemble.plus, h, if_true, ok_bind, pure_eq]
  simp only [Prod.fst_add, Prod.snd_add, add_zero, ← add_assoc]
  rfl

theorem addSecond_plus {E : Ensemble K} {a : Nd K} (h : a.shape = E.second.shape) (δ0 : Delta K) :
    addSecond (E.plus δ0) a = ok (E.plus (δ0 + (0, a.get, 0))) := by
  simp only [addSecond, Nd.map₂, Ensemble.plus, h, if_true, ok_bind, pure_eq]
  simp only [Prod.fst_add, Prod.snd_add, add_zero, ← add_assoc]
  rfl

theorem addNorm_plus {E : Ensemble K} {a : Nd K} (h : a.shape = E.norm.shape) (δ0 : Delta K) :
    addNorm (E.plus δ0) a = ok (E.plus (δ0 + (0, 0, a.get))) := by
  simp only [addNorm, Nd.map₂, Ensemble.plus, h, if_true, ok_bind, pure_eq]
  simp only [Prod.fst_add, Prod.snd_add, add_zero, ← add_assoc]
  rfl

/-- An ensemble as constructed, after any number of successful calls. -/
structure Good (roi : List Nat) (periodic variance : Bool) (E : Ensemble K) : Prop where
  periodic : E.periodic = periodic
  variance : E.variance = variance
  first : E.first.shape = shape3 roi
  second : E.second.shape = shape3 roi
  norm : E.norm.shape = shape3 roi
  shapeOrig : E.shapeOrig = roi
  shape : E.shape = shape3 roi
  pad : E.pad = padWidth (shape3 roi)

/-- The ensemble of the constructor, with a given statistic. -/
def fresh (K : Type) [Field K] (roi : List Nat) (periodic variance : Bool) (stat : Stat) : Ensemble K :=
  { stat := stat
    periodic := periodic
    variance := variance
    first := Nd.fill (shape3 roi) 0
    second := Nd.fill (shape3 roi) 0
    norm := Nd.fill (shape3 roi) 0
    shapeOrig := roi
    shape := shape3 roi
    pad := padWidth (shape3 roi) }

theorem make_ok (dbg : Bool) {roi : List Nat} (h3 : roi.length ≤ 3) (h0 : 0 ∉ roi)
    (periodic variance : Bool) :
    make K dbg roi periodic variance = ok (fresh K roi periodic variance .unset) := by
  have : ¬ (roi.length > 3 ∨ 0 ∈ roi) := by
    rintro (h | h)
    · omega
    · exact h0 h
  simp only [make, gassert, h3, decide_true, Bool.not_true, Bool.and_false, Bool.false_eq_true,
    if_false, ok_bind, if_neg this]
  rfl

theorem good_fresh {roi : List Nat} {periodic variance : Bool} {stat : Stat} :
    Good roi periodic variance (fresh K roi periodic variance stat) :=
  ⟨rfl, rfl, rfl, rfl, rfl, rfl, rfl, rfl⟩

/-- The accumulators of an ensemble. -/
def Ensemble.acc (E : Ensemble K) : Delta K := (E.first.get, E.second.get, E.norm.get)

theorem Good.eq {roi : List Nat} {periodic variance : Bool} {E : Ensemble K}
    (h : Good roi periodic variance E) :
    E = (fresh K roi periodic variance E.stat).plus E.acc := by
  obtain ⟨h1, h2, h3, h4, h5, h6, h7, h8⟩ := h
  obtain ⟨stat, p, v, ⟨fs, fg⟩, ⟨ss, sg⟩, ⟨ns, ng⟩, so, s, pd⟩ := E
  simp only at h1 h2 h3 h4 h5 h6 h7 h8
  subst h1 h2 h3 h4 h5 h6 h7 h8
  simp only [fresh, Ensemble.plus, Ensemble.acc, Nd.fill]
  congr 2
  all_goals (funext k; simp)

theorem Good.plus {roi : List Nat} {periodic variance : Bool} {E : Ensemble K}
    (h : Good roi periodic variance E) (δ : Delta K) : Good roi periodic variance (E.plus δ) :=
  ⟨h.1, h.2, h.3, h.4, h.5, h.6, h.7, h.8⟩

theorem Good.stat {roi : List Nat} {periodic variance : Bool} {E : Ensemble K}
    (h : Good roi periodic variance E) (st : Stat) : Good roi periodic variance { E with stat := st } :=
  ⟨h.1, h.2, h.3, h.4, h.5, h.6, h.7, h.8⟩

end Verif.Ens
