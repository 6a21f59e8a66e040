import Verif.Model.EnsembleDefault
import Verif.Props.Exceptions

/-! # An ensemble that is constructed without arguments (C135) -/

set_option linter.unusedSectionVars false

namespace Verif.Props

open Verif Outcome Spec Ens Exec

section

variable {K : Type} [Zero K] [One K] [Add K] [Sub K] [Mul K] [Div K] [Pow K Nat] [NatCast K] [IntCast K] [LE K]
  [DecidableLE K] [Neg K] [Max K] [DecidableEq K]
variable {P : Type} [Zero P] [One P] [Add P] [Sub P] [Neg P] [Mul P] [Div P] [NatCast P] [IntCast P] [DecidableEq P]
  [LT P] [DecidableLT P]

/-- The image has at least one dimension. For `mean` it does not matter. -/
def Spec.HasAxes : Realisation K → Prop
  | .mean .. => True
  | .S2 f .. => f.shape ≠ []
  | .C2 f .. => f.shape ≠ []
  | .W2 w .. => w.shape ≠ []
  | .W2c _ _ f .. => f.shape ≠ []
  | .heightheight f .. => f.shape ≠ []
  | .L f .. => f.shape ≠ []

private theorem default_refuses (periodic variance : Bool) {r : Realisation K} (hr : Spec.HasAxes r) :
    ¬ r.Accepted (Ens.default K periodic variance) := by
  rintro ⟨-, h⟩
  cases r <;> simp_all [Spec.HasAxes, Ens.default]

/-- **C135**: with assertions every measurement on an ensemble that was constructed without arguments throws an exception
and leaves it as it was, whatever the values of its switches; so do all measurements that follow. -/
theorem C135_refused (any : Ensemble K) (junk : P) (fuel : Nat) (periodic variance : Bool) (calls : List (Realisation K))
    (h : ∀ r ∈ calls, Spec.HasAxes r) :
    (∀ r ∈ calls, r.exec any junk fuel true (Ens.default K periodic variance) =
      (Ens.default K periodic variance, throws)) ∧
    attempt (Realisation.exec any junk fuel true) calls (Ens.default K periodic variance) =
      ok (Ens.default K periodic variance) := by
  have key : ∀ r ∈ calls, r.exec any junk fuel true (Ens.default K periodic variance) =
      (Ens.default K periodic variance, throws) := by
    intro r hr
    have e := (C81_refused any junk fuel true r (Ens.default K periodic variance)).2
      ⟨rfl, default_refuses periodic variance (h r hr)⟩
    exact Prod.ext (C81_ensemble any junk fuel true r _ e) e
  refine ⟨key, ?_⟩
  clear h
  induction calls with
  | nil => rfl
  | cons r calls ih =>
    unfold attempt
    rw [key r (by simp)]
    exact ih fun r' hr' => key r' (by simp [hr'])

/-- **C135**: the variance of such an ensemble throws with and without assertions, and so do the distances along an axis
and with sizes of a pixel with assertions. Without assertions `mean` writes outside its arrays. -/
theorem C135_rest (pow05 : K → K) (periodic variance : Bool) (f : Nd K) (axis : Nat) (h : List K) (hh : h ≠ []) :
    varianceResult pow05 (Ens.default K periodic variance) = throws ∧
    Ens.distanceAxis true (Ens.default K periodic variance) axis = throws ∧
    Ens.distanceH pow05 true (Ens.default K periodic variance) h = throws ∧
    Ens.distanceHAxis true (Ens.default K periodic variance) h axis = throws ∧
    Ens.mean false (Ens.default K periodic variance) f = ub := by
  have hl : h.length ≠ 0 := by simpa using hh
  refine ⟨?_, ?_, ?_, ?_, ?_⟩
  · simp [varianceResult, Ens.default, Nd.map₂, Nd.fill]
  · simp [Ens.distanceAxis, Ens.default, gassert]
  · simp [Ens.distanceH, Ens.default, gassert, hl.symm]
  · simp [Ens.distanceHAxis, Ens.default, gassert, hl.symm]
  · simp [Ens.mean, Ens.default, gassert, addTo0, Nd.addAt, Nd.fill, Nd.valid]
    rfl

end

/-- A measurement of S2 and one of the mean. -/
example : ∀ r ∈ [Realisation.S2 (Nd.fill [2, 3] (1 : ℚ)) (Nd.fill [2, 3] 1) none, .mean (Nd.fill [2] 1) none],
    Spec.HasAxes r := by
  simp [Spec.HasAxes, Nd.fill]

end Verif.Props
