import Verif.Props.RawData

/-!
# Ensembles without assertions (C43, C84)

Without assertions calls of different measures on one ensemble are not refused. The data are then the sums over all
calls, each with its own measure, and `result()` and `variance()` depend on the measure of the last call.
-/

set_option linter.unusedSectionVars false

namespace Verif.Props

open Verif Outcome Spec Ens Cluster

variable {K : Type} [Field K] [LinearOrder K] [IsStrictOrderedRing K]

section

variable {roi : List Nat} {periodic variance : Bool} {junk : ℚ} {fuel : Nat}

/-- Without assertions a call does not look at the statistic of the ensemble. -/
theorem call_stat (E : Ensemble K) (r : Realisation K) (st : Stat) :
    r.call junk fuel false { E with stat := st } = r.call junk fuel false E := by
  cases r with
  | mean f m => cases m <;> rfl
  | S2 f g m => cases m <;> rfl
  | C2 f g m => cases m <;> rfl
  | W2 w f m => cases m <;> rfl
  | W2c clusters centers f m mode => cases m <;> rfl
  | heightheight f m => cases m <;> rfl
  | L f mode => rfl

/-- The statistic of the last call. -/
def lastStat : List (Realisation K) → Stat
  | [] => .unset
  | [r] => r.stat
  | _ :: l => lastStat l

theorem mixed_run (hr : roi.length ≤ 3) (h0 : 0 ∉ roi) {paths : Path.Mode → List (List (List Int))}
    (hp : ∀ mode, Enough fuel roi mode → ArePaths junk fuel mode roi (paths mode)) :
    ∀ {l : List (Realisation K)}, (∀ r ∈ l, r.Legal fuel periodic roi) →
    ∃ δ : Delta K, (∀ E, Good roi periodic variance E →
        forM l E (fun E r => r.call junk fuel false E) =
          ok ({ E with stat := if l = [] then E.stat else lastStat l }.plus δ)) ∧
      ∀ i, InBox roi i →
        δ.at (flat roi i).toNat = (l.map fun r => r.sums paths periodic variance (displacement roi i)).sum
  | [], _ => ⟨0, fun E hE => by simp [forM, plus_zero], fun i hi => rfl⟩
  | r :: l, h => by
    obtain ⟨δ, h1, h2⟩ := Realisation.effect_sums (variance := variance) hr h0 (h r (by simp)) hp
    obtain ⟨δ', h3, h4⟩ := mixed_run hr h0 hp fun r hr => h r (List.mem_cons_of_mem _ hr)
    refine ⟨δ + δ', fun E hE => ?_, fun i hi => ?_⟩
    · have e := h1 false { E with stat := .unset } (hE.stat _) (Or.inr rfl)
      simp only [call_stat] at e
      simp only [forM, e, Outcome.bind]
      rw [h3 _ ((hE.stat r.stat).plus δ)]
      have : ({ ({ E with stat := r.stat }.plus δ) with
          stat := if l = [] then ({ E with stat := r.stat }.plus δ).stat else lastStat l } : Ensemble K) =
          { E with stat := lastStat (r :: l) }.plus δ := by
        cases l <;> simp [lastStat, Ensemble.plus]
      rw [this, plus_plus]
      simp
    · rw [Delta.at_add, h2 i hi, h4 i hi, List.map_cons, List.sum_cons]

theorem mixed_history (hr : roi.length ≤ 3) (h0 : 0 ∉ roi) {paths : Path.Mode → List (List (List Int))}
    (hp : ∀ mode, Enough fuel roi mode → ArePaths junk fuel mode roi (paths mode)) {l : List (Realisation K)}
    (hl : ∀ r ∈ l, r.Legal fuel periodic roi) :
    ∃ δ : Delta K, history false junk fuel roi periodic variance l =
        ok ((fresh K roi periodic variance (lastStat l)).plus δ) ∧
      ∀ i, InBox roi i →
        δ.at (flat roi i).toNat = (l.map fun r => r.sums paths periodic variance (displacement roi i)).sum := by
  obtain ⟨δ, h1, h2⟩ := mixed_run (variance := variance) hr h0 hp hl
  refine ⟨δ, ?_, h2⟩
  unfold history
  rw [make_ok false hr h0, ok_bind, h1 _ good_fresh]
  cases l <;> rfl

/-- Without assertions, after any list of legal calls of any measures: the data are the sums over the calls of what
each measure adds. -/
theorem C43_release_data (hr : roi.length ≤ 3) (h0 : 0 ∉ roi) {paths : Path.Mode → List (List (List Int))}
    (hp : ∀ mode, Enough fuel roi mode → ArePaths junk fuel mode roi (paths mode)) {l : List (Realisation K)}
    (hl : ∀ r ∈ l, r.Legal fuel periodic roi) :
    ∃ E, history false junk fuel roi periodic variance l = ok E ∧
      (dataFirst E).shape = roi ∧ (dataSecond E).shape = roi ∧ (dataNorm E).shape = roi ∧
      ∀ i, InBox roi i → (val (dataFirst E) i, val (dataSecond E) i, val (dataNorm E) i) =
        (l.map fun r => r.sums paths periodic variance (displacement roi i)).sum := by
  obtain ⟨δ, h1, h2⟩ := mixed_history (variance := variance) hr h0 hp hl
  refine ⟨_, h1, rfl, rfl, rfl, fun i hi => ?_⟩
  rw [← h2 i hi]
  simp [dataFirst, dataSecond, dataNorm, val, Nd.reshape, Ensemble.plus, fresh, Nd.fill, Delta.at]

/-- Without assertions, after any list of legal calls of any measures: `result()` is the sum of the first moments over
the sum of the norms, whatever they are of; the square root is taken if the last call was of `heightheight`. -/
theorem C43_release_result (hr : roi.length ≤ 3) (h0 : 0 ∉ roi) {paths : Path.Mode → List (List (List Int))}
    (hp : ∀ mode, Enough fuel roi mode → ArePaths junk fuel mode roi (paths mode)) {l : List (Realisation K)}
    {r : Realisation K} (hl : ∀ q ∈ l ++ [r], q.Legal fuel periodic roi) (pow05 : K → K) :
    ∃ a, (do
        let E ← history false junk fuel roi periodic variance (l ++ [r])
        result pow05 E) = ok a ∧ a.shape = roi ∧
      ∀ i, InBox roi i →
        let first := ((l ++ [r]).map fun q => (q.sums paths periodic variance (displacement roi i)).1).sum
        let norm := ((l ++ [r]).map fun q => (q.sums paths periodic variance (displacement roi i)).2.2).sum
        let v := if norm ≤ 0 then first else first / norm
        val a i = if r.stat = .heightheight then pow05 v else v := by
  obtain ⟨δ, h1, h2⟩ := mixed_history (variance := variance) hr h0 hp hl
  have hlast : lastStat (l ++ [r]) = r.stat := by
    clear h1 h2 hl
    induction l with
    | nil => rfl
    | cons q l ih =>
      cases l with
      | nil => rfl
      | cons q' l => exact ih
  rw [h1, hlast, ok_bind, result_good (good_fresh.plus δ) pow05]
  refine ⟨_, rfl, rfl, fun i hi => ?_⟩
  have h3 := h2 i hi
  rw [sum_prod] at h3
  simp only [List.map_map, Function.comp_def, Delta.at, Prod.mk.injEq] at h3
  have h4 : ∀ a b : K, a / norm1 b = if b ≤ 0 then a else a / b := by
    intro a b
    unfold norm1
    split <;> simp
  simp only [val, Ensemble.plus, fresh, Nd.fill, Pi.add_apply, zero_add, h3, h4]

/-- Without assertions, after any list of legal calls of any measures: `variance()` throws exactly if the last call was
neither of `mean` nor of `heightheight`. -/
theorem C43_release_variance (hr : roi.length ≤ 3) (h0 : 0 ∉ roi) {paths : Path.Mode → List (List (List Int))}
    (hp : ∀ mode, Enough fuel roi mode → ArePaths junk fuel mode roi (paths mode)) {l : List (Realisation K)}
    {r : Realisation K} (hl : ∀ q ∈ l ++ [r], q.Legal fuel periodic roi) (pow05 : K → K) :
    (do
        let E ← history false junk fuel roi periodic variance (l ++ [r])
        varianceResult pow05 E) = throws ↔ r.stat ≠ .mean ∧ r.stat ≠ .heightheight := by
  obtain ⟨δ, h1, h2⟩ := mixed_history (variance := variance) hr h0 hp hl
  have hlast : lastStat (l ++ [r]) = r.stat := by
    clear h1 h2 hl
    induction l with
    | nil => rfl
    | cons q l ih =>
      cases l with
      | nil => rfl
      | cons q' l => exact ih
  rw [h1, hlast, ok_bind, variance_good (good_fresh.plus δ) pow05]
  have hs : ((fresh K roi periodic variance r.stat).plus δ).stat = r.stat := rfl
  rw [hs]
  by_cases h : r.stat = .heightheight ∨ r.stat = .mean
  · rw [if_pos h]
    simp only [reduceCtorEq, false_iff]
    tauto
  · rw [if_neg h]
    simp only [true_iff]
    tauto

end

/-- `S2` of one image and `heightheight` of another one. -/
example : ∃ (l : List (Realisation ℚ)) (r : Realisation ℚ) (paths : Path.Mode → List (List (List Int))),
    (∀ q ∈ l ++ [r], q.Legal 10 true [3]) ∧ l.map (·.stat) = [.S2] ∧ r.stat = .heightheight ∧
    ∀ mode, Enough 10 [3] mode → ArePaths 0 10 mode [3] (paths mode) := by
  have hpaths : ∀ mode, ∃ paths, Enough 10 [3] mode → ArePaths 0 10 mode [3] paths := by
    intro mode
    by_cases h : Enough 10 [3] mode
    · obtain ⟨P, hP⟩ := choose_paths (0 : ℚ) (by decide) h
      exact ⟨_, fun _ => (paths_unique (by decide) hP).2 rfl⟩
    · exact ⟨[], fun h' => absurd h' h⟩
  choose paths hpaths using hpaths
  refine ⟨[.S2 (im [1, 0, 1]) (im [0, 1, 1]) none], .heightheight (im [1, 2, 4, 9]) (some (mk [0, 0, 0, 1])), paths, ?_,
    rfl, rfl, hpaths⟩
  intro r hr
  rcases (by simpa using hr : _ ∨ _) with rfl | rfl
  · exact ⟨⟨by decide, by decide, rfl, fun _ => by decide⟩, rfl, by simp⟩
  · refine ⟨⟨by decide, by decide, rfl, fun _ => by decide⟩, ?_⟩
    rintro m' ⟨⟩
    exact ⟨rfl, mk_isMask (by decide)⟩

end Verif.Props
