import Verif.Lemmas.Embed
import Verif.Lemmas.CenterFloat
import Verif.Props.Variance

/-!
# Where results are numbers (C108)

The functions of the model with the arithmetic of `Special`: a division by zero, and the root of a negative number, is not a
number. `num` is the inclusion of the numbers.
-/

set_option linter.unusedSectionVars false

namespace Verif.Props

open Verif Outcome Spec Ens Center Special

section K

variable {K : Type} [Field K] [LinearOrder K] [IsStrictOrderedRing K]

theorem num_embeds : Embeds (num : K → Special K) where
  zero := rfl
  one := rfl
  add _ _ := rfl
  sub _ _ := rfl
  mul _ _ := rfl
  pow _ _ := rfl
  nat _ := rfl
  int _ := rfl
  inj _ _ := ⟨fun h => by cases h; rfl, fun h => by rw [h]⟩

theorem num_div {a b : K} (h : b ≠ 0) : num a / num b = num (a / b) := by
  show Special.div (num a) (num b) = _
  simp [Special.div, h]

theorem num_div_zero (a : K) : num a / num (0 : K) = bad := by
  show Special.div (num a) (num 0) = _
  simp [Special.div]

theorem num_le {a b : K} : num a ≤ num b ↔ a ≤ b := Iff.rfl

theorem norm1_num (x : K) : norm1 (num x) = num (norm1 x) := by
  unfold norm1
  rw [apply_ite num]
  exact if_congr Iff.rfl rfl rfl

theorem norm1_pos (x : K) : 0 < norm1 x := by
  unfold norm1
  split
  · exact one_pos
  · exact not_le.1 ‹_›

theorem norm1_eq_one {x : K} : norm1 x = 1 ↔ ¬ (0 < x ∧ x ≠ 1) := by
  unfold norm1
  split
  · rename_i h
    simp [not_lt.2 h]
  · rename_i h
    rw [not_le] at h
    simp [h]

/-- One element of `variance()`: a number if the norm is positive and not one. -/
theorem varianceOf_num (a b n : K) : varianceOf (num a) (num b) (num n) =
    if 0 < n ∧ n ≠ 1 then num (varianceOf a b n) else bad := by
  unfold varianceOf
  rw [norm1_num]
  have h0 := (norm1_pos n).ne'
  have e1 : (num (norm1 n) - 1 : Special K) = num (norm1 n - 1) := rfl
  have e2 : ∀ (x y : K), (num x - num y : Special K) = num (x - y) := fun _ _ => rfl
  have e3 : ∀ (x y : K), (num x * num y : Special K) = num (x * y) := fun _ _ => rfl
  have e4 : ∀ (x : K), (num x ^ 2 : Special K) = num (x ^ 2) := fun _ => rfl
  dsimp only
  rw [num_div h0, num_div h0, e1, e4, e2, e3]
  split
  · rename_i h
    rw [num_div fun h' => norm1_eq_one.1 (sub_eq_zero.1 h') h]
  · rename_i h
    rw [norm1_eq_one.2 h, sub_self, num_div_zero]

variable {roi : List Nat} {periodic variance : Bool} {junk : ℚ} {fuel : Nat}

theorem good_embed {E : Ensemble K} (h : Good roi periodic variance E) :
    (E.embed num).first.shape = Nd.shape3 roi ∧ (E.embed num).second.shape = Nd.shape3 roi ∧
      (E.embed num).norm.shape = Nd.shape3 roi ∧ (E.embed num).shapeOrig = roi :=
  ⟨h.first, h.second, h.norm, h.shapeOrig⟩

theorem result_special {E : Ensemble K} (h : Good roi periodic variance E) (root : K → K) :
    result (pow05 root) (E.embed num) = ok ⟨roi, fun k =>
      let v := num (E.first.get k / norm1 (E.norm.get k))
      if E.stat = .heightheight then pow05 root v else v⟩ := by
  obtain ⟨e1, e2, e3, e4⟩ := good_embed h
  have e5 : (E.embed num).stat = E.stat := rfl
  simp only [result, Nd.map₂, e1, e3, if_true, ok_bind, e4, e5, pure_eq, Nd.reshape]
  have : ∀ k, (E.embed num).first.get k / norm1 ((E.embed num).norm.get k) =
      num (E.first.get k / norm1 (E.norm.get k)) := fun k => by
    show num (E.first.get k) / norm1 (num (E.norm.get k)) = _
    rw [norm1_num, num_div (norm1_pos _).ne']
  by_cases hs : E.stat = .heightheight
  · simp [hs, Nd.map, this]
  · simp [hs, this]

theorem variance_special {E : Ensemble K} (h : Good roi periodic variance E) (root : K → K) :
    varianceResult (pow05 root) (E.embed num) = if E.stat = .heightheight ∨ E.stat = .mean then ok ⟨roi, fun k =>
      let n := E.norm.get k
      let v := if 0 < n ∧ n ≠ 1 then num (varianceOf (E.first.get k) (E.second.get k) n) else bad
      if E.stat = .heightheight then pow05 root v else v⟩ else throws := by
  obtain ⟨e1, e2, e3, e4⟩ := good_embed h
  have e5 : (E.embed num).stat = E.stat := rfl
  simp only [varianceResult, Nd.map₂, e1, e2, e3, if_true, ok_bind, e4, e5, pure_eq, Nd.reshape]
  have : ∀ k, varianceOf ((E.embed num).first.get k) ((E.embed num).second.get k) ((E.embed num).norm.get k) =
      if 0 < E.norm.get k ∧ E.norm.get k ≠ 1 then num (varianceOf (E.first.get k) (E.second.get k) (E.norm.get k))
      else bad := fun k => varianceOf_num _ _ _
  by_cases hs : E.stat = .heightheight
  · simp [hs, Nd.map, this]
  · by_cases hm : E.stat = .mean <;> simp [hs, hm, this]

theorem maskAt_le {m : Nd Int} (hm : IsMask m) (y : List Int) : maskAt periodic m y ≤ 1 := by
  unfold maskAt
  split
  · rename_i h
    rcases hm.val (mem_pixels.1 h) with e | e <;> omega
  · split <;> omega

/-- The squared differences are summed with weights that are not negative. -/
theorem hh_effect_nonneg (hr : roi.length ≤ 3) (h0 : 0 ∉ roi) {r : Realisation K} (h : r.Legal fuel periodic roi)
    (hs : r.stat = .heightheight) :
    ∃ φ, Effect roi periodic variance .heightheight (fun dbg E => r.call junk fuel dbg E) φ ∧ ∀ d, 0 ≤ (φ d).1 := by
  have key : ∀ (f : Nd K) (m : Nd Int), IsMask m → ∀ d : List Int, (0 : K) ≤ ((pixels f.shape).map fun x =>
      let w : K := if val m x = 0 then 1 - ((maskAt periodic m (move x d) : Int) : K) else 0
      ((ext periodic f (move x d) - val f x) ^ 2 * w,
        (if variance then (ext periodic f (move x d) - val f x) ^ 4 * w else 0), w)).sum.1 := by
    intro f m bm d
    rw [sum_prod]
    refine List.sum_nonneg fun y hy => ?_
    simp only [List.map_map, List.mem_map, Function.comp_def] at hy
    obtain ⟨x, -, rfl⟩ := hy
    refine mul_nonneg (sq_nonneg _) ?_
    split
    · rw [sub_nonneg]
      exact_mod_cast maskAt_le bm _
    · exact le_refl _
  cases r with
  | heightheight f m =>
    obtain ⟨L, hm⟩ := h
    cases m with
    | none => exact ⟨_, HH_effect hr h0 L.same rfl (noMask_isMask f) L.fits, key f _ (noMask_isMask f)⟩
    | some m =>
      have a := hm m rfl
      exact ⟨_, HH_effect hr h0 L.same a.1 a.2 L.fits, key f m a.2⟩
  | _ => cases hs

theorem hh_first_nonneg (hr : roi.length ≤ 3) (h0 : 0 ∉ roi) {l : List (Realisation K)}
    (hl : ∀ r ∈ l, r.Legal fuel periodic roi ∧ r.stat = .heightheight) {dbg : Bool} {E : Ensemble K}
    (hE : history dbg junk fuel roi periodic variance l = ok E) {i : List Int} (hi : InBox roi i) :
    0 ≤ E.first.get (flat roi i).toNat := by
  have : ∀ r : Realisation K, ∃ φ, (r.Legal fuel periodic roi ∧ r.stat = .heightheight) →
      Effect roi periodic variance .heightheight (fun dbg E => r.call junk fuel dbg E) φ ∧ ∀ d, 0 ≤ (φ d).1 := by
    intro r
    by_cases h : r.Legal fuel periodic roi ∧ r.stat = .heightheight
    · obtain ⟨φ, hφ⟩ := hh_effect_nonneg (junk := junk) (variance := variance) hr h0 h.1 h.2
      exact ⟨φ, fun _ => hφ⟩
    · exact ⟨0, fun h' => absurd h' h⟩
  choose φ hφ using this
  obtain ⟨δ, h1, h2⟩ := effects_run (K := K) (roi := roi) (periodic := periodic) (variance := variance)
    (st := .heightheight) (call := fun r dbg E => Realisation.call junk fuel dbg E r) (l := l) (φ := φ)
    fun r hr => (hφ r (hl r hr)).1
  unfold history at hE
  rw [make_ok dbg hr h0, ok_bind, h1 dbg _ good_fresh (Or.inr rfl)] at hE
  cases hE
  have h3 := congrArg Prod.fst (h2 i hi)
  have h4 : 0 ≤ ((l.map fun r => φ r (displacement roi i)).sum).1 := by
    rw [sum_prod]
    refine List.sum_nonneg fun y hy => ?_
    simp only [List.map_map, List.mem_map, Function.comp_def] at hy
    obtain ⟨r, hr, rfl⟩ := hy
    exact (hφ r (hl r hr)).2 _
  rw [← h3] at h4
  simpa [Ensemble.plus, fresh, Nd.fill, Delta.at] using h4

/-! ### The accumulated data -/

/-- **C108** Images of numbers: whatever is called, with legal arguments or not, the outcome is that with exact
arithmetic, and the moments and the norm are the same numbers. -/
theorem C108_data (dbg : Bool) (l : List (Realisation K)) :
    (∀ E', history dbg junk fuel roi periodic variance (l.map (Realisation.embed num)) = ok E' →
      ∃ E, history dbg junk fuel roi periodic variance l = ok E ∧
        dataFirst E' = (dataFirst E).map num ∧ dataSecond E' = (dataSecond E).map num ∧
        dataNorm E' = (dataNorm E).map num) ∧
    (history dbg junk fuel roi periodic variance (l.map (Realisation.embed num)) = throws ↔
      history dbg junk fuel roi periodic variance l = throws) ∧
    (history dbg junk fuel roi periodic variance (l.map (Realisation.embed num)) = ub ↔
      history dbg junk fuel roi periodic variance l = ub) := by
  rw [history_embed num_embeds]
  cases history dbg junk fuel roi periodic variance l with
  | ok E => exact ⟨fun E' h => by cases h; exact ⟨E, rfl, rfl, rfl, rfl⟩, by simp [Outcome.map], by simp [Outcome.map]⟩
  | throws => simp [Outcome.map]
  | ub => simp [Outcome.map]
  | diverge => simp [Outcome.map]

/-- **C108** `result` is a number at every displacement, also where nothing was measured: the number that exact arithmetic
gives. `root` is the root of the numbers that are not negative. -/
theorem C108_result (hr : roi.length ≤ 3) (h0 : 0 ∉ roi) {st : Stat} {l : List (Realisation K)}
    (hl : ∀ r ∈ l, r.Legal fuel periodic roi ∧ r.stat = st) (dbg : Bool) (root : K → K) :
    ∃ E E' r r', history dbg junk fuel roi periodic variance l = ok E ∧ result root E = ok r ∧
      history dbg junk fuel roi periodic variance (l.map (Realisation.embed num)) = ok E' ∧
      result (pow05 root) E' = ok r' ∧ r.shape = roi ∧ r'.shape = roi ∧
      ∀ i, InBox roi i → val r' i = num (val r i) := by
  obtain ⟨φ, hφ⟩ := history_effect (K := K) (fuel := fuel) (periodic := periodic) (variance := variance)
    hr h0 junk st
  obtain ⟨E, e1, g1, s1, -⟩ := hφ l hl dbg
  refine ⟨E, E.embed num, _, _, e1, result_good g1 root, by rw [history_embed num_embeds, e1]; rfl,
    result_special g1 root, rfl, rfl, fun i hi => ?_⟩
  unfold val
  dsimp only
  by_cases hs : E.stat = .heightheight
  · rw [if_pos hs, if_pos hs]
    have hh : ∀ r ∈ l, r.Legal fuel periodic roi ∧ r.stat = .heightheight := by
      intro r hr
      have hne : l ≠ [] := List.ne_nil_of_mem hr
      rw [s1, if_neg hne] at hs
      rw [← hs]
      exact hl r hr
    have := div_nonneg (hh_first_nonneg hr h0 hh e1 hi) (norm1_pos (E.norm.get (flat roi i).toNat)).le
    simp only [pow05, this, if_true]
  · rw [if_neg hs, if_neg hs]

/-- **C108** `variance` is a number exactly where the norm is positive and not one and, for `heightheight`, the root is
of a number that is not negative; then it is the number that exact arithmetic gives. -/
theorem C108_variance (hr : roi.length ≤ 3) (h0 : 0 ∉ roi) {st : Stat} (hst : st = .mean ∨ st = .heightheight)
    {l : List (Realisation K)} (hne : l ≠ []) (hl : ∀ r ∈ l, r.Legal fuel periodic roi ∧ r.stat = st) (dbg : Bool)
    (root : K → K) :
    ∃ E E' v v', history dbg junk fuel roi periodic variance l = ok E ∧ varianceResult root E = ok v ∧
      history dbg junk fuel roi periodic variance (l.map (Realisation.embed num)) = ok E' ∧
      varianceResult (pow05 root) E' = ok v' ∧ v.shape = roi ∧ v'.shape = roi ∧
      ∀ i, InBox roi i →
        (IsNumber (val v' i) ↔ 0 < val (dataNorm E) i ∧ val (dataNorm E) i ≠ 1 ∧ (st = .heightheight →
          0 ≤ varianceOf (val (dataFirst E) i) (val (dataSecond E) i) (val (dataNorm E) i))) ∧
        (IsNumber (val v' i) → val v' i = num (val v i)) := by
  obtain ⟨φ, hφ⟩ := history_effect (K := K) (fuel := fuel) (periodic := periodic) (variance := variance)
    hr h0 junk st
  obtain ⟨E, e1, g1, s1, -⟩ := hφ l hl dbg
  rw [if_neg hne] at s1
  have hs : E.stat = .heightheight ∨ E.stat = .mean := by rw [s1]; exact hst.symm
  have e2 := variance_good g1 root
  have e3 := variance_special g1 root
  rw [if_pos hs] at e2 e3
  refine ⟨E, E.embed num, _, _, e1, e2, by rw [history_embed num_embeds, e1]; rfl, e3, rfl, rfl, fun i hi => ?_⟩
  have v1 : val (dataFirst E) i = E.first.get (flat roi i).toNat := by
    unfold val dataFirst Nd.reshape; simp only [g1.shapeOrig]
  have v2 : val (dataSecond E) i = E.second.get (flat roi i).toNat := by
    unfold val dataSecond Nd.reshape; simp only [g1.shapeOrig]
  have v3 : val (dataNorm E) i = E.norm.get (flat roi i).toNat := by
    unfold val dataNorm Nd.reshape; simp only [g1.shapeOrig]
  rw [v1, v2, v3]
  unfold val
  dsimp only
  generalize E.first.get (flat roi i).toNat = a
  generalize E.second.get (flat roi i).toNat = b
  generalize E.norm.get (flat roi i).toNat = n
  rw [s1]
  by_cases hn : 0 < n ∧ n ≠ 1
  · rw [if_pos hn]
    by_cases hh : st = .heightheight
    · rw [if_pos hh, if_pos hh]
      by_cases hv : 0 ≤ varianceOf a b n
      · simp [pow05, hv, hn.1, hn.2, IsNumber]
      · simp [pow05, hv, hh, IsNumber]
    · rw [if_neg hh, if_neg hh]
      simp [hh, hn.1, hn.2, IsNumber]
  · rw [if_neg hn]
    have e : (if st = .heightheight then pow05 root bad else bad : Special K) = bad := by split <;> rfl
    rw [e]
    refine ⟨⟨fun h => ?_, fun h => absurd ⟨h.1, h.2.1⟩ hn⟩, fun h => ?_⟩
    · obtain ⟨x, hx⟩ := h; cases hx
    · obtain ⟨x, hx⟩ := h; cases hx

/-! ### In terms of the values that were measured -/

theorem forM_list_map {α β σ : Type} (g : α → β) (f : σ → β → Outcome σ) : ∀ (l : List α) (s : σ),
    forM (l.map g) s f = forM l s fun s a => f s (g a)
  | [], _ => rfl
  | a :: l, s => by
    rw [List.map_cons, forM, forM]
    congr 1
    funext s'
    exact forM_list_map g f l s'

/-- **C108** The mean: `result` is a number, zero if every pixel was masked; `variance` is a number exactly if at least two
pixels were not masked, and then their sample variance. -/
theorem C108_mean (hr : roi.length ≤ 3) (h1 : ∀ n ∈ roi, n = 1) {images : List (Nd K × Option (Nd Int))}
    (hne : images ≠ []) (hl : ∀ a ∈ images, LegalImage a) (dbg : Bool) (root : K → K) :
    ∃ E r v, history dbg junk fuel roi periodic variance
        (images.map fun a => Realisation.mean (a.1.map num) a.2) = ok E ∧
      result (pow05 root) E = ok r ∧ varianceResult (pow05 root) E = ok v ∧ r.shape = roi ∧ v.shape = roi ∧
      ∀ i, InBox roi i →
        let data := images.flatMap fun a => unmaskedValues a.1 a.2
        val r i = num (if data = [] then 0 else arithmeticMean data) ∧
        val v i = if 2 ≤ data.length then num (sampleVariance data) else bad := by
  obtain ⟨E, e1, g1, s1, e2⟩ := mean_moments (K := K) hr h1 hne hl periodic variance dbg
  have e3 : history dbg junk fuel roi periodic variance (images.map fun a => Realisation.mean a.1 a.2) = ok E := by
    rw [← e1]
    unfold history
    refine congrArg _ (funext fun E0 => ?_)
    rw [forM_list_map]
    congr 1
    funext E0 a
    obtain ⟨f, m⟩ := a
    cases m <;> rfl
  have e4 : history dbg junk fuel roi periodic variance
      (images.map fun a => Realisation.mean (a.1.map num) a.2) = ok (E.embed num) := by
    have := history_embed (num_embeds (K := K)) dbg junk fuel roi periodic variance
      (images.map fun a => Realisation.mean a.1 a.2)
    rw [e3, List.map_map] at this
    exact this
  have e5 := variance_special g1 root
  rw [if_pos (Or.inr s1)] at e5
  refine ⟨E.embed num, _, _, e4, result_special g1 root, e5, rfl, rfl, fun i hi => ?_⟩
  obtain ⟨a1, a2, a3⟩ := e2 i hi
  unfold val
  dsimp only
  have hs : ¬ E.stat = .heightheight := by rw [s1]; decide
  rw [if_neg hs, if_neg hs, a1, a2, a3]
  generalize (images.flatMap fun a => unmaskedValues a.1 a.2) = data
  constructor
  · by_cases hd : data = []
    · simp [hd]
    · have hn : ¬ ((data.length : K) ≤ 0) := by
        rw [not_le]
        exact_mod_cast List.length_pos_iff.2 hd
      rw [if_neg hd, norm1, if_neg hn, arithmeticMean]
  · have : (0 < (data.length : K) ∧ (data.length : K) ≠ 1) ↔ 2 ≤ data.length := by
      constructor
      · rintro ⟨h1, h2⟩
        have h1 : 0 < data.length := by exact_mod_cast h1
        have h2 : data.length ≠ 1 := by exact_mod_cast h2
        omega
      · intro h
        exact ⟨by exact_mod_cast (by omega : 0 < data.length), by exact_mod_cast (by omega : data.length ≠ 1)⟩
    simp only [this]
    by_cases h2 : 2 ≤ data.length
    · rw [if_pos h2, if_pos h2, variance_formula h2]
    · rw [if_neg h2, if_neg h2]

/-- The moments and the norm of the height-height correlation after a sequence of images. -/
theorem heightheight_moments {images : List (Nd K × Nd Int)} (hr : roi.length ≤ 3) (h0 : 0 ∉ roi) (hne : images ≠ [])
    (hl : ∀ a ∈ images, LegalPair periodic roi a) (dbg : Bool) :
    ∃ E, history dbg junk fuel roi periodic variance
        (images.map fun a => Realisation.heightheight a.1 (some a.2)) = ok E ∧ Good roi periodic variance E ∧
      E.stat = .heightheight ∧ ∀ i, InBox roi i →
        let data := squaredDifferences periodic images (displacement roi i)
        E.first.get (flat roi i).toNat = data.sum ∧
        E.second.get (flat roi i).toNat = (if variance then (data.map fun v => v ^ 2).sum else 0) ∧
        E.norm.get (flat roi i).toNat = (data.length : K) := by
  obtain ⟨δ, e1, e2⟩ := effects_run (K := K) (call := fun a dbg E => heightheight dbg E a.1 a.2)
    fun a ha => HH_effect (K := K) (variance := variance) hr h0 (hl a ha).legal.same (hl a ha).shape
      (hl a ha).mask (hl a ha).legal.fits
  have e3 := e1 dbg (fresh K roi periodic variance .unset) good_fresh (Or.inr rfl)
  rw [if_neg hne] at e3
  refine ⟨({ fresh K roi periodic variance .unset with stat := .heightheight } : Ensemble K).plus δ, ?_,
    (good_fresh.stat _).plus δ, rfl, fun i hi => ?_⟩
  · unfold history
    rw [make_ok dbg hr h0, ok_bind, forM_list_map]
    exact e3
  have e4 := e2 i hi
  have hsum : ∀ l : List (Nd K × Nd Int), (∀ a ∈ l, LegalPair periodic roi a) → (l.map fun a =>
      ((pixels a.1.shape).map fun x =>
        let w : K := if val a.2 x = 0 then
          1 - ((maskAt periodic a.2 (move x (displacement roi i)) : Int) : K) else 0
        ((ext periodic a.1 (move x (displacement roi i)) - val a.1 x) ^ 2 * w,
          (if variance then (ext periodic a.1 (move x (displacement roi i)) - val a.1 x) ^ 4 * w
            else 0), w)).sum).sum =
      ((squaredDifferences periodic l (displacement roi i)).sum,
        (if variance then ((squaredDifferences periodic l (displacement roi i)).map
          fun v => v ^ 2).sum else 0),
        ((squaredDifferences periodic l (displacement roi i)).length : K)) := by
    intro l hl
    induction l with
    | nil => cases variance <;> simp [squaredDifferences] <;> rfl
    | cons a l ih =>
      rw [List.map_cons, List.sum_cons, ih fun b hb => hl b (List.mem_cons_of_mem _ hb),
        heightheight_sums (hl a (by simp)) hi]
      cases variance <;> simp [squaredDifferences, List.flatMap_cons]
  rw [hsum images hl] at e4
  simp only [Delta.at, Prod.mk.injEq] at e4
  simpa [Ensemble.plus, fresh, Nd.fill] using e4

theorem squaredDifferences_nonneg (images : List (Nd K × Nd Int)) (d : List Int) :
    ∀ z ∈ squaredDifferences periodic images d, 0 ≤ z := by
  intro z hz
  simp only [squaredDifferences, List.mem_flatMap, List.mem_map] at hz
  obtain ⟨a, -, p, -, rfl⟩ := hz
  exact sq_nonneg _

theorem sample_nonneg {l : List K} (h : 2 ≤ l.length) : 0 ≤ sampleVariance l := by
  unfold sampleVariance
  refine div_nonneg (List.sum_nonneg fun y hy => ?_) ?_
  · obtain ⟨x, -, rfl⟩ := List.mem_map.1 hy
    exact sq_nonneg _
  · rw [sub_nonneg]
    exact_mod_cast (by omega : 1 ≤ l.length)

/-- **C108** The height-height correlation: `result` is a number, the root of zero where there is no unmasked pair of
pixels. With `variance = true` `variance` is a number exactly where there are at least two pairs. With `variance = false`
(the default in Python) it is not a number unless, in addition, all pairs have equal heights. -/
theorem C108_heightheight {images : List (Nd K × Nd Int)} (hr : roi.length ≤ 3) (h0 : 0 ∉ roi) (hne : images ≠ [])
    (hl : ∀ a ∈ images, LegalPair periodic roi a) (dbg : Bool) (root : K → K) :
    ∃ E r v, history dbg junk fuel roi periodic variance
        (images.map fun a => Realisation.heightheight (a.1.map num) (some a.2)) = ok E ∧
      result (pow05 root) E = ok r ∧ varianceResult (pow05 root) E = ok v ∧ r.shape = roi ∧ v.shape = roi ∧
      ∀ i, InBox roi i →
        let data := squaredDifferences periodic images (displacement roi i)
        val r i = num (root (if data = [] then 0 else arithmeticMean data)) ∧
        (variance = true → val v i = if 2 ≤ data.length then num (root (sampleVariance data)) else bad) ∧
        (variance = false → val v i = if 2 ≤ data.length ∧ ∀ z ∈ data, z = 0 then num (root 0) else bad) := by
  obtain ⟨E, e3, g1, s1, e2⟩ := heightheight_moments (K := K) (junk := junk) (fuel := fuel) (variance := variance)
    hr h0 hne hl dbg
  have e4 : history dbg junk fuel roi periodic variance
      (images.map fun a => Realisation.heightheight (a.1.map num) (some a.2)) = ok (E.embed num) := by
    have := history_embed (num_embeds (K := K)) dbg junk fuel roi periodic variance
      (images.map fun a => Realisation.heightheight a.1 (some a.2))
    rw [e3, List.map_map] at this
    exact this
  have e5 := variance_special g1 root
  rw [if_pos (Or.inl s1)] at e5
  refine ⟨E.embed num, _, _, e4, result_special g1 root, e5, rfl, rfl, fun i hi => ?_⟩
  obtain ⟨a1, a2, a3⟩ := e2 i hi
  have hz := squaredDifferences_nonneg (periodic := periodic) images (displacement roi i)
  unfold val
  dsimp only
  rw [if_pos s1, if_pos s1, a1, a2, a3]
  generalize squaredDifferences periodic images (displacement roi i) = data at hz
  have hsum : 0 ≤ data.sum := List.sum_nonneg hz
  have hpos : (0 < (data.length : K) ∧ (data.length : K) ≠ 1) ↔ 2 ≤ data.length := by
    constructor
    · rintro ⟨h1, h2⟩
      have h1 : 0 < data.length := by exact_mod_cast h1
      have h2 : data.length ≠ 1 := by exact_mod_cast h2
      omega
    · intro h
      exact ⟨by exact_mod_cast (by omega : 0 < data.length), by exact_mod_cast (by omega : data.length ≠ 1)⟩
  simp only [hpos]
  refine ⟨?_, ?_, ?_⟩
  · have e : data.sum / norm1 (data.length : K) = if data = [] then 0 else arithmeticMean data := by
      by_cases hd : data = []
      · simp [hd]
      · have hn : ¬ ((data.length : K) ≤ 0) := by
          rw [not_le]
          exact_mod_cast List.length_pos_iff.2 hd
        rw [if_neg hd, norm1, if_neg hn, arithmeticMean]
    have h := div_nonneg hsum (norm1_pos (data.length : K)).le
    rw [e] at h ⊢
    simp only [pow05, h, if_true]
  · rintro rfl
    by_cases h2 : 2 ≤ data.length
    · rw [if_pos h2, if_pos h2, if_pos rfl, variance_formula h2]
      simp only [pow05, sample_nonneg h2, if_true]
    · rw [if_neg h2, if_neg h2]
      rfl
  · rintro rfl
    by_cases h2 : 2 ≤ data.length
    · have hn : (1 : K) < (data.length : K) := by exact_mod_cast (by omega : 1 < data.length)
      have hv : varianceOf data.sum 0 (data.length : K) =
          -(data.sum ^ 2 * (1 / ((data.length : K) * ((data.length : K) - 1)))) := by
        rw [varianceOf, norm1, if_neg (by linarith)]
        have h1 : (data.length : K) ≠ 0 := by linarith
        have h3 : (data.length : K) - 1 ≠ 0 := by linarith
        field_simp
        ring
      have hq : 0 < 1 / ((data.length : K) * ((data.length : K) - 1)) :=
        one_div_pos.2 (mul_pos (by linarith) (by linarith))
      simp only [if_pos h2, Bool.false_eq_true, if_false]
      rw [hv]
      by_cases hall : ∀ z ∈ data, z = 0
      · rw [if_pos ⟨h2, hall⟩, List.sum_eq_zero hall]
        simp [pow05]
      · rw [if_neg fun h => hall h.2]
        have hs : data.sum ≠ 0 := by
          intro h
          apply hall
          intro z hzm
          exact le_antisymm ((List.single_le_sum hz z hzm).trans h.le) (hz z hzm)
        have := mul_pos (pow_pos (lt_of_le_of_ne hsum (Ne.symm hs)) 2) hq
        have hneg : ¬ 0 ≤ -(data.sum ^ 2 * (1 / ((data.length : K) * ((data.length : K) - 1)))) := by linarith
        simp only [pow05, hneg, if_false]
    · rw [if_neg h2, if_neg fun h => h2 h.1]
      rfl

/-! ### Distances -/

theorem linspace_num (a b : K) (n : Nat) (i : Int) :
    linspace (num a) (num b) n i = num (linspace a b n i) := by
  have h : (max 1 ((n : K) - 1)) ≠ 0 := (lt_of_lt_of_le one_pos (le_max_left 1 ((n : K) - 1))).ne'
  show num a + num (i : K) * (num (b - a) / num (max 1 ((n : K) - 1))) = _
  rw [num_div h]
  rfl

theorem distanceAxis_num (dbg : Bool) (E : Ensemble K) (axis : Nat) :
    Ens.distanceAxis dbg (E.embed num) axis = (Ens.distanceAxis dbg E axis).map (Nd.map num) := by
  unfold Ens.distanceAxis
  rw [map_bind]
  refine congrArg _ (funext fun _ => ?_)
  dsimp only [Ensemble.embed]
  cases E.pad[atleast3dAxis E.shapeOrig.length axis]? with
  | none => rfl
  | some p =>
    cases E.shape[atleast3dAxis E.shapeOrig.length axis]? with
    | none => rfl
    | some n =>
      simp only [pure_eq, map_ok]
      have : ∀ i, linspace (-1 * (p.1 : Special K)) (p.2 : Special K) n i =
          num (linspace (-1 * (p.1 : K)) (p.2 : K) n i) := fun i => linspace_num (-1 * (p.1 : K)) p.2 n i
      simp only [this]
      rfl

theorem distanceSum_num (dbg : Bool) (E : Ensemble K) (scale : Nat → K) (scale' : Nat → Special K)
    (hs : ∀ i, scale' i = num (scale i)) :
    distanceSum dbg (E.embed num) scale' = (distanceSum dbg E scale).map (Nd.map num) := by
  unfold distanceSum
  refine forM_embed (Nd.map num) (fun ret i => ?_) _ (Nd.fill E.shapeOrig 0)
  rw [distanceAxis_num, bind_map, map_bind]
  refine congrArg _ (funext fun d => ?_)
  exact map₂_embed fun x y => by rw [hs]; rfl

theorem distanceSum_nonneg (dbg : Bool) (E : Ensemble K) (scale : Nat → K) {ret : Nd K}
    (h : distanceSum dbg E scale = ok ret) (k : Nat) : 0 ≤ ret.get k := by
  have key : ∀ (l : List Nat) (s : Nd K), (∀ k, 0 ≤ s.get k) → ∀ ret, forM l s (fun ret i => do
      let d ← Ens.distanceAxis dbg E i
      Nd.map₂ (fun a b => a + (b * scale i) ^ 2) ret d) = ok ret → ∀ k, 0 ≤ ret.get k := by
    intro l
    induction l with
    | nil => rintro s hs ret h k; cases h; exact hs k
    | cons i l ih =>
      intro s hs ret h
      unfold forM at h
      obtain ⟨s', h1, h2⟩ := bind_eq_ok.1 (show (_ >>= _) = ok ret from h)
      refine ih s' ?_ ret h2
      obtain ⟨d, h3, h4⟩ := bind_eq_ok.1 h1
      unfold Nd.map₂ at h4
      split at h4
      · cases h4
        exact fun k => add_nonneg (hs k) (sq_nonneg _)
      · cases h4
  exact key _ _ (fun _ => le_refl _) ret h k

/-- **C108** The distances are numbers: those of exact arithmetic. -/
theorem C108_distance (dbg : Bool) (root : K → K) (roi : List Nat) (dim : Nat) (h : List K) :
    Api.distanceAxis (Special K) dbg roi dim = (Api.distanceAxis K dbg roi dim).map (Nd.map num) ∧
    Api.distanceHAxis dbg roi (h.map num) dim = (Api.distanceHAxis dbg roi h dim).map (Nd.map num) ∧
    Api.distance (pow05 root) dbg roi = (Api.distance root dbg roi).map (Nd.map num) ∧
    Api.distanceH (pow05 root) dbg roi (h.map num) = (Api.distanceH root dbg roi h).map (Nd.map num) := by
  have hroot : ∀ (E : Ensemble K) (scale : Nat → K) (scale' : Nat → Special K), (∀ i, scale' i = num (scale i)) →
      (do
        let ret ← distanceSum dbg (E.embed num) scale'
        pure (ret.map (pow05 root))) =
      (do
        let ret ← distanceSum dbg E scale
        pure (ret.map root) : Outcome (Nd K)).map (Nd.map num) := by
    intro E scale scale' hs
    rw [distanceSum_num dbg E scale scale' hs, bind_map, map_bind]
    cases hd : distanceSum dbg E scale with
    | ok ret =>
      simp only [ok_bind, pure_eq, map_ok, Nd.map]
      have := distanceSum_nonneg dbg E scale hd
      simp only [pow05, this, if_true]
    | throws => rfl
    | ub => rfl
    | diverge => rfl
  refine ⟨?_, ?_, ?_, ?_⟩
  · unfold Api.distanceAxis
    rw [make_embed (num_embeds (K := K)), bind_map, map_bind]
    exact congrArg _ (funext fun E => distanceAxis_num dbg E dim)
  · unfold Api.distanceHAxis
    rw [make_embed (num_embeds (K := K)), bind_map, map_bind]
    refine congrArg _ (funext fun E => ?_)
    unfold Ens.distanceHAxis
    rw [map_bind, List.length_map]
    refine congrArg _ (funext fun _ => ?_)
    rw [distanceAxis_num, bind_map, map_bind]
    refine congrArg _ (funext fun d => ?_)
    rw [List.getElem?_map]
    cases h[dim]? <;> rfl
  · unfold Api.distance
    rw [make_embed (num_embeds (K := K)), bind_map, map_bind]
    exact congrArg _ (funext fun E => hroot E _ _ fun _ => rfl)
  · unfold Api.distanceH
    rw [make_embed (num_embeds (K := K)), bind_map, map_bind]
    refine congrArg _ (funext fun E => ?_)
    unfold Ens.distanceH
    rw [map_bind, List.length_map]
    refine congrArg _ (funext fun _ => ?_)
    rw [map_if]
    refine if_congr Iff.rfl rfl ?_
    exact hroot E _ _ fun i => by
      rw [List.getD_eq_getElem?_getD, List.getD_eq_getElem?_getD, List.getElem?_map]
      cases h[i]? <;> rfl

/-! ### Centers -/

/-- The functions of the standard library: not a number if an argument is not. -/
def specialTrig (T : Trig K) : Trig (Special K) :=
  ⟨num T.pi, lift₁ T.cos, lift₁ T.sin, lift T.atan2⟩

theorem sumIn_num (l : List K) : sumIn (l.map num) = num (sumIn l) := by
  have : ∀ (l : List K) (s : K), (l.map num).foldl (fun s x => s + x) (num s) = num (l.foldl (fun s x => s + x) s) := by
    intro l
    induction l with
    | nil => intro s; rfl
    | cons x l ih => intro s; exact ih (s + x)
  exact this l 0

theorem sumIn_sum (l : List K) : sumIn l = l.sum := by
  rw [List.sum_eq_foldl]
  rfl

theorem meanIn_num {l : List K} (h : l ≠ []) : meanIn (l.map num) = num (meanIn l) := by
  have : (l.length : K) ≠ 0 := by simpa using h
  unfold meanIn
  rw [sumIn_num, List.length_map]
  exact num_div this

theorem averageIn_num (l w : List K) :
    averageIn (l.map num) (w.map num) = if w.sum = 0 then bad else num (averageIn l w) := by
  have : List.zipWith (fun w x : Special K => w * x) (w.map num) (l.map num) =
      (List.zipWith (fun w x : K => w * x) w l).map num := by
    rw [List.zipWith_map, List.map_zipWith]
    rfl
  unfold averageIn
  rw [this, sumIn_num, sumIn_num, sumIn_sum w]
  split
  · rename_i h
    rw [h, num_div_zero]
  · rename_i h
    rw [num_div h]

variable {n : Nat}

/-- The angles of the positions. -/
theorem angles_num (T : Trig K) {s : K} (hs : s ≠ 0) (l : List K) (g : K → K) :
    ((l.map num).map fun p => ((2 : ℕ) : Special K) * (specialTrig T).pi * p / num s).map (lift₁ g) =
      ((l.map fun p => ((2 : ℕ) : K) * T.pi * p / s).map g).map num := by
  rw [List.map_map, List.map_map, List.map_map, List.map_map]
  refine List.map_congr_left fun p _ => ?_
  show lift₁ g (num (((2 : ℕ) : K) * T.pi * p) / num s) = _
  rw [num_div hs]
  rfl

/-- From the mean angle back to a position. -/
theorem position_num (T : Trig K) (hT : T.pi ≠ 0) (s x y : K) :
    num s * ((specialTrig T).atan2 (-num x) (-num y) + (specialTrig T).pi) / (((2 : ℕ) : Special K) * (specialTrig T).pi) =
      num (s * (T.atan2 (-x) (-y) + T.pi) / (((2 : ℕ) : K) * T.pi)) := by
  have : ((2 : ℕ) : K) * T.pi ≠ 0 := mul_ne_zero (by norm_num) hT
  exact num_div this

/-- **C108** The center of positions that are numbers is a number, that of exact arithmetic. In the periodic case sizes are
not zero. -/
theorem C108_center (T : Fin n → Trig K) (shape : Fin n → K) (positions : List (Fin n → K)) (periodic : Bool)
    (hp : periodic = true → ∀ j, shape j ≠ 0 ∧ (T j).pi ≠ 0) (j : Fin n) :
    centerIn (fun j => specialTrig (T j)) (fun j => num (shape j)) (positions.map fun p j => num (p j)) periodic j =
      num (centerIn T shape positions periodic j) := by
  unfold centerIn
  rw [List.length_map]
  by_cases h0 : positions.length * n = 0
  · rw [if_pos h0, if_pos h0]
    rfl
  rw [if_neg h0, if_neg h0]
  have hne : positions ≠ [] := by rintro rfl; simp at h0
  have e : (positions.map fun p j => num (p j)).map (fun p : Fin n → Special K => p j) =
      (positions.map fun p => p j).map num := by simp [Function.comp_def]
  cases periodic with
  | false =>
    simp only [Bool.not_false, if_true]
    rw [e, meanIn_num (by simpa using hne)]
  | true =>
    obtain ⟨hs, hT⟩ := hp rfl j
    simp only [Bool.not_true, Bool.false_eq_true, if_false]
    have e' : (positions.map fun p j => num (p j)).map
        (fun p : Fin n → Special K => ((2 : ℕ) : Special K) * (specialTrig (T j)).pi * p j / num (shape j)) =
        ((positions.map fun p => p j).map num).map
          fun p => ((2 : ℕ) : Special K) * (specialTrig (T j)).pi * p / num (shape j) := by
      simp [Function.comp_def]
    have c : ((positions.map fun p => p j).map fun p => ((2 : ℕ) : K) * (T j).pi * p / shape j) =
        positions.map fun p => ((2 : ℕ) : K) * (T j).pi * p j / shape j := by simp [Function.comp_def]
    rw [e']
    have a1 := angles_num (T j) hs (positions.map fun p => p j) (T j).cos
    have a2 := angles_num (T j) hs (positions.map fun p => p j) (T j).sin
    rw [c] at a1 a2
    show num (shape j) * ((specialTrig (T j)).atan2 (-meanIn (List.map (lift₁ (T j).sin) _))
      (-meanIn (List.map (lift₁ (T j).cos) _)) + _) / _ = _
    rw [a1, a2, meanIn_num (by simpa using hne), meanIn_num (by simpa using hne), position_num _ hT]

/-- **C108** The center of mass is a number exactly if the sum of the weights is not zero, or there is no position. -/
theorem C108_center_of_mass (T : Fin n → Trig K) (shape : Fin n → K) (positions : List (Fin n → K)) (weights : List K)
    (periodic : Bool) (hp : periodic = true → ∀ j, shape j ≠ 0 ∧ (T j).pi ≠ 0) (j : Fin n) :
    centerOfMassIn (fun j => specialTrig (T j)) (fun j => num (shape j)) (positions.map fun p j => num (p j))
        (weights.map num) periodic j =
      if positions ≠ [] ∧ weights.sum = 0 then bad else num (centerOfMassIn T shape positions weights periodic j) := by
  unfold centerOfMassIn
  rw [List.length_map]
  by_cases h0 : positions.length * n = 0
  · have hnil : positions = [] := by
      rcases Nat.mul_eq_zero.1 h0 with h | h
      · exact List.length_eq_zero_iff.1 h
      · exact absurd j.pos (by omega)
    rw [if_pos h0, if_pos h0, if_neg (by simp [hnil])]
    rfl
  rw [if_neg h0, if_neg h0]
  have hne : positions ≠ [] := by rintro rfl; simp at h0
  have hc : (positions ≠ [] ∧ weights.sum = 0) ↔ weights.sum = 0 := by simp [hne]
  simp only [hc]
  have e : (positions.map fun p j => num (p j)).map (fun p : Fin n → Special K => p j) =
      (positions.map fun p => p j).map num := by simp [Function.comp_def]
  cases periodic with
  | false =>
    simp only [Bool.not_false, if_true]
    rw [e, averageIn_num]
  | true =>
    obtain ⟨hs, hT⟩ := hp rfl j
    simp only [Bool.not_true, Bool.false_eq_true, if_false]
    have e' : (positions.map fun p j => num (p j)).map
        (fun p : Fin n → Special K => ((2 : ℕ) : Special K) * (specialTrig (T j)).pi * p j / num (shape j)) =
        ((positions.map fun p => p j).map num).map
          fun p => ((2 : ℕ) : Special K) * (specialTrig (T j)).pi * p / num (shape j) := by
      simp [Function.comp_def]
    have c : ((positions.map fun p => p j).map fun p => ((2 : ℕ) : K) * (T j).pi * p / shape j) =
        positions.map fun p => ((2 : ℕ) : K) * (T j).pi * p j / shape j := by simp [Function.comp_def]
    rw [e']
    have a1 := angles_num (T j) hs (positions.map fun p => p j) (T j).cos
    have a2 := angles_num (T j) hs (positions.map fun p => p j) (T j).sin
    rw [c] at a1 a2
    show num (shape j) * ((specialTrig (T j)).atan2 (-averageIn (List.map (lift₁ (T j).sin) _) _)
      (-averageIn (List.map (lift₁ (T j).cos) _) _) + _) / _ = _
    rw [a1, a2, averageIn_num, averageIn_num]
    by_cases hw : weights.sum = 0
    · simp only [if_pos hw]
      rfl
    · simp only [if_neg hw]
      rw [position_num _ hT]

theorem box_ne_zero {shape : List Nat} (hn : shape.length = n) {x : List Int} (hx : InBox shape x) (j : Fin n) :
    (boxIn n shape j : K) ≠ 0 := by
  have hj : (j : Nat) < shape.length := by rw [hn]; exact j.isLt
  have hj' : (j : Nat) < x.length := by rw [← hx.length_eq]; exact hj
  have h := List.Forall₂.get hx hj hj'
  have : 0 < shape[(j : Nat)] := by
    simp only [List.get_eq_getElem] at h
    omega
  unfold boxIn
  rw [List.getD_eq_getElem?_getD, List.getElem?_eq_getElem hj]
  simpa using this.ne'

/-- **C108** The centers of labels are numbers, those of exact arithmetic: zero for a label that does not occur. -/
theorem C108_labels (dbg : Bool) (T : Nat → Fin n → Trig K) (hT : ∀ i j, (T i j).pi ≠ 0) (labels : Nd Int)
    (hn : labels.shape.length = n) (h0 : 0 < n) (names : List Int) (periodic : Bool) :
    ∃ rows rows', labelsCentersIn dbg T labels hn names periodic = ok rows ∧
      labelsCentersIn dbg (fun i j => specialTrig (T i j)) labels hn names periodic = ok rows' ∧
      rows.length = names.length ∧ rows'.length = names.length ∧
      ∀ i < names.length, ∃ row, rows[i]? = some row ∧ rows'[i]? = some fun j => num (row j) := by
  obtain ⟨rows, a1, a2, a3⟩ := labelsCentersIn_ok dbg T labels hn h0 names periodic
  obtain ⟨rows', b1, b2, b3⟩ := labelsCentersIn_ok dbg (fun i j => specialTrig (T i j)) labels hn h0 names periodic
  refine ⟨rows, rows', a1, b1, a2, b2, fun i hi => ⟨_, a3 i hi, ?_⟩⟩
  rw [b3 i hi]
  congr 1
  funext j
  generalize hA : argwhere labels names[i] = A
  rcases A with _ | ⟨x, A⟩
  · simp only [List.map_nil]
    simp [centerIn]
    rfl
  have hx : InBox labels.shape x := argwhere_inbox (by rw [hA]; exact List.mem_cons_self)
  rw [← C108_center (T i) (boxIn n labels.shape) _ periodic (fun _ j => ⟨box_ne_zero hn hx j, hT i j⟩) j, List.map_map]
  rfl

/-- **C108** The centers of mass of labels are numbers, those of exact arithmetic, except for labels that occur and whose
weights add up to zero. -/
theorem C108_labels_mass (dbg : Bool) (T : Nat → Fin n → Trig K) (hT : ∀ i j, (T i j).pi ≠ 0) (labels : Nd Int)
    (hn : labels.shape.length = n) (h0 : 0 < n) (weights : Nd K) (hw : weights.shape = labels.shape)
    (names : List Int) (periodic : Bool) :
    ∃ rows rows', labelsCentersOfMassIn dbg T labels hn weights names periodic = ok rows ∧
      labelsCentersOfMassIn dbg (fun i j => specialTrig (T i j)) labels hn (weights.map num) names periodic = ok rows' ∧
      rows.length = names.length ∧ rows'.length = names.length ∧
      ∀ i (hi : i < names.length) (l : List (List Int)), Enumerates labels names[i] l →
        ∃ row, rows[i]? = some row ∧ rows'[i]? = some fun j =>
          if l ≠ [] ∧ (l.map (val weights)).sum = 0 then bad else num (row j) := by
  obtain ⟨rows, a1, a2, a3⟩ := labelsCentersOfMassIn_ok dbg T labels hn h0 weights hw names periodic
  obtain ⟨rows', b1, b2, b3⟩ := labelsCentersOfMassIn_ok dbg (fun i j => specialTrig (T i j)) labels hn h0
    (weights.map num) hw names periodic
  refine ⟨rows, rows', a1, b1, a2, b2, fun i hi l hl => ⟨_, a3 i hi, ?_⟩⟩
  rw [b3 i hi]
  congr 1
  funext j
  have hp := argwhere_perm hl
  generalize hA : argwhere labels names[i] = A at hp
  rcases A with _ | ⟨x, A⟩
  · rw [List.nil_perm.1 hp]
    simp only [List.map_nil]
    simp [centerOfMassIn]
    rfl
  have hx : InBox labels.shape x := argwhere_inbox (by rw [hA]; exact List.mem_cons_self)
  have hne : l ≠ [] := by rintro rfl; simp at hp
  have := C108_center_of_mass (T i) (boxIn n labels.shape) ((x :: A).map (coordsIn n)) ((x :: A).map (val weights))
    periodic (fun _ j => ⟨box_ne_zero hn hx j, hT i j⟩) j
  rw [(hp.map (val weights)).sum_eq] at this
  have hc : ((x :: A).map (coordsIn (K := K) n) ≠ [] ∧ (l.map (val weights)).sum = 0) ↔
      (l ≠ [] ∧ (l.map (val weights)).sum = 0) := by simp [hne]
  rw [if_congr hc rfl rfl] at this
  rw [← this, List.map_map, List.map_map]
  rfl

end K

/-! ### Examples -/

/-- One pixel: `result` is its value and `variance` is not a number. -/
example : ∃ E r v, history true (0 : ℚ) 0 [1] true true [Realisation.mean ((Nd.ofList [1] [(7 : ℚ)]).map num) none] = ok E ∧
    result (pow05 id) E = ok r ∧ varianceResult (pow05 id) E = ok v ∧ val r [0] = num 7 ∧ val v [0] = bad := by
  obtain ⟨E, r, v, h1, h2, h3, -, -, h4⟩ := C108_mean (K := ℚ) (roi := [1]) (periodic := true) (variance := true)
    (junk := 0) (fuel := 0) (images := [(Nd.ofList [1] [(7 : ℚ)], none)]) (by decide) (by decide) (by simp)
    (by intro a ha m hm; simp at ha; subst ha; cases hm) true id
  refine ⟨E, r, v, h1, h2, h3, ?_⟩
  have h := h4 [0] (by simp [InBox])
  have e : ([(Nd.ofList [1] [(7 : ℚ)], none)] : List (Nd ℚ × Option (Nd Int))).flatMap
      (fun a => unmaskedValues a.1 a.2) = [7] := by decide +kernel
  rw [e] at h
  refine ⟨h.1.trans ?_, h.2⟩
  norm_num [arithmeticMean]

/-- Two labels, the first with weights `1` and `-1`: its center of mass is not a number. -/
example : ∃ rows, labelsCentersOfMassIn (n := 1) true (fun _ _ => specialTrig (⟨1, id, id, fun a _ => a⟩ : Trig ℚ))
      (Nd.ofList [3] [1, 1, 2]) rfl ((Nd.ofList [3] [(1 : ℚ), -1, 1]).map num) [1, 2] false = ok rows ∧
    (rows[0]?.map fun row => row 0) = some bad ∧ (rows[1]?.map fun row => row 0) = some (num 2) := by
  refine ⟨_, rfl, ?_, ?_⟩ <;> decide +kernel

end Verif.Props
