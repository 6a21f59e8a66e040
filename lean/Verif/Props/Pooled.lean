import Verif.Props.RawData

/-! # The result of an ensemble and the results of its realisations (C140) -/

set_option linter.unusedSectionVars false

namespace Verif.Props

open Verif Outcome Spec Ens

variable {K : Type} [Field K] [LinearOrder K] [IsStrictOrderedRing K]
variable {roi : List Nat} {periodic variance : Bool} {junk : ℚ} {fuel : Nat}

/-- The weights, of W2, are not negative. -/
def Realisation.WeightsNonneg : Realisation K → Prop
  | .W2 w _ _ => ∀ x ∈ pixels w.shape, 0 ≤ val w x
  | _ => True

/-- The quantity that is averaged: the square of the height-height correlation, the value of the other statistics. -/
def Spec.averaged (st : Stat) (x : K) : K := if st = .heightheight then x ^ 2 else x

/-! ### Proof -/

theorem total_nonneg {l : List (List Int × List Int)} {φ : List Int → List Int → K} (h : ∀ p ∈ l, 0 ≤ φ p.1 p.2) :
    0 ≤ total l φ := by
  refine List.sum_nonneg fun c hc => ?_
  obtain ⟨p, hp, rfl⟩ := List.mem_map.1 hc
  exact h p hp

/-- The norm is not negative, and nothing is measured where it is zero. -/
theorem Realisation.sums_norm {r : Realisation K} (h : r.WeightsNonneg) (paths : Path.Mode → List (List (List Int)))
    (d : List Int) : 0 ≤ (r.sums paths periodic variance d).2.2 ∧
      ((r.sums paths periodic variance d).2.2 = 0 → (r.sums paths periodic variance d).1 = 0) := by
  cases r with
  | mean f m =>
    simp only [Realisation.sums]
    exact ⟨Nat.cast_nonneg _, fun e => by rw [List.length_eq_zero_iff.1 (Nat.cast_eq_zero.1 e)]; rfl⟩
  | S2 f g m =>
    simp only [Realisation.sums]
    exact ⟨Nat.cast_nonneg _, fun e => by rw [List.length_eq_zero_iff.1 (Nat.cast_eq_zero.1 e)]; rfl⟩
  | C2 f g m =>
    simp only [Realisation.sums]
    exact ⟨Nat.cast_nonneg _, fun e => by rw [List.length_eq_zero_iff.1 (Nat.cast_eq_zero.1 e)]; rfl⟩
  | W2 w f m =>
    simp only [Realisation.sums]
    have hn : ∀ p ∈ pairs periodic w.shape (Visible periodic m d) d, 0 ≤ val w p.1 :=
      fun p hp => h _ (mem_pairs.1 hp).1
    refine ⟨total_nonneg hn, fun e => ?_⟩
    have hz : ∀ p ∈ pairs periodic w.shape (Visible periodic m d) d, val w p.1 = 0 := by
      intro p hp
      refine le_antisymm ?_ (hn p hp)
      rw [← e]
      refine List.single_le_sum ?_ _ (List.mem_map.2 ⟨p, hp, rfl⟩)
      intro c hc
      obtain ⟨q, hq, rfl⟩ := List.mem_map.1 hc
      exact hn q hq
    rw [total_congr (ψ := fun _ _ => 0) fun p hp => by rw [hz p hp, zero_mul], total_const, mul_zero]
  | W2c clusters centers f m mode =>
    simp only [Realisation.sums]
    exact ⟨Nat.cast_nonneg _, fun e => by rw [List.length_eq_zero_iff.1 (Nat.cast_eq_zero.1 e)]; rfl⟩
  | heightheight f m =>
    simp only [Realisation.sums]
    exact ⟨Nat.cast_nonneg _, fun e => by rw [List.length_eq_zero_iff.1 (Nat.cast_eq_zero.1 e)]; rfl⟩
  | L f mode =>
    simp only [Realisation.sums]
    refine ⟨by positivity, fun e => ?_⟩
    have e' : visits (paths mode) d * (pixels f.shape).length = 0 := by exact_mod_cast e
    have := reached_le periodic f (paths mode) d
    rw [e'] at this
    exact_mod_cast Nat.le_zero.1 this

theorem Realisation.sums_first {r : Realisation K} (h : r.stat = .heightheight)
    (paths : Path.Mode → List (List (List Int))) (d : List Int) : 0 ≤ (r.sums paths periodic variance d).1 := by
  cases r with
  | heightheight f m =>
    simp only [Realisation.sums]
    exact total_nonneg fun p _ => sq_nonneg _
  | _ => cases h

theorem exists_paths (junk : ℚ) (hr : roi.length ≤ 3) : ∃ paths : Path.Mode → List (List (List Int)),
    ∀ mode, Enough fuel roi mode → ArePaths junk fuel mode roi (paths mode) := by
  have hpaths : ∀ mode, ∃ paths, Enough fuel roi mode → ArePaths junk fuel mode roi paths := by
    intro mode
    by_cases h : Enough fuel roi mode
    · obtain ⟨P, hP⟩ := choose_paths junk hr h
      exact ⟨_, fun _ => (paths_unique hr hP).2 rfl⟩
    · exact ⟨[], fun h' => absurd h' h⟩
  choose paths hpaths using hpaths
  exact ⟨paths, hpaths⟩

theorem weighted_bounds {ι : Type} {l : List ι} {n b : ι → K} {a lo hi : K} (hn : ∀ r ∈ l, 0 ≤ n r)
    (hb : ∀ r ∈ l, 0 < n r → lo ≤ b r ∧ b r ≤ hi) (hp : 0 < (l.map n).sum)
    (h : (l.map n).sum * a = (l.map fun r => n r * b r).sum) : lo ≤ a ∧ a ≤ hi := by
  have h1 : ∀ r ∈ l, n r * lo ≤ n r * b r ∧ n r * b r ≤ n r * hi := by
    intro r hr
    rcases (hn r hr).eq_or_lt with e | e
    · rw [← e]
      simp
    · exact ⟨mul_le_mul_of_nonneg_left (hb r hr e).1 e.le, mul_le_mul_of_nonneg_left (hb r hr e).2 e.le⟩
  have k1 : (l.map fun r => n r * lo).sum ≤ (l.map fun r => n r * b r).sum :=
    List.sum_le_sum fun r hr => (h1 r hr).1
  have k2 : (l.map fun r => n r * b r).sum ≤ (l.map fun r => n r * hi).sum :=
    List.sum_le_sum fun r hr => (h1 r hr).2
  rw [List.sum_map_mul_right, ← h] at k1 k2
  exact ⟨le_of_mul_le_mul_left k1 hp, le_of_mul_le_mul_left k2 hp⟩

/-! ### Properties -/

/-- **C140**: the result of an ensemble is the mean of the results of its realisations, each measured by an ensemble of
its own, weighted by their norms; so it lies between the lowest and the highest of those that have data. -/
theorem C140_mean (hr : roi.length ≤ 3) (h0 : 0 ∉ roi) {st : Stat} {l : List (Realisation K)} (hne : l ≠ [])
    (hl : ∀ r ∈ l, r.Legal fuel periodic roi ∧ r.stat = st) (hw : ∀ r ∈ l, r.WeightsNonneg) {pow05 : K → K}
    (hpow : st = .heightheight → ∀ x, 0 ≤ x → pow05 x ^ 2 = x) (junk : ℚ) (variance dbg : Bool) :
    ∃ (a : Nd K) (n b : Realisation K → Nd K),
      (do
        let E ← history dbg junk fuel roi periodic variance l
        result pow05 E) = ok a ∧
      (∀ r ∈ l, ∃ E, history dbg junk fuel roi periodic variance [r] = ok E ∧ dataNorm E = n r ∧
        result pow05 E = ok (b r)) ∧
      ∀ i, InBox roi i → (∀ r ∈ l, 0 ≤ val (n r) i) ∧
        (l.map fun r => val (n r) i).sum * Spec.averaged st (val a i) =
          (l.map fun r => val (n r) i * Spec.averaged st (val (b r) i)).sum ∧
        ∀ lo hi : K, (∃ r ∈ l, 0 < val (n r) i) →
          (∀ r ∈ l, 0 < val (n r) i → lo ≤ Spec.averaged st (val (b r) i) ∧ Spec.averaged st (val (b r) i) ≤ hi) →
          lo ≤ Spec.averaged st (val a i) ∧ Spec.averaged st (val a i) ≤ hi := by
  obtain ⟨paths, hp⟩ := exists_paths (fuel := fuel) junk hr
  have av : ∀ first norm : K, (st = .heightheight → 0 ≤ first) → 0 ≤ norm →
      Spec.averaged st (if st = .heightheight then pow05 (if norm ≤ 0 then first else first / norm) else
        if norm ≤ 0 then first else first / norm) = if norm ≤ 0 then first else first / norm := by
    intro first norm k1 k2
    unfold Spec.averaged
    split
    · rename_i e
      refine hpow e _ ?_
      split
      · exact k1 e
      · exact div_nonneg (k1 e) k2
    · rfl
  obtain ⟨a, ha, -, ka⟩ := C84_result (K := K) (variance := variance) hr h0 hne hl hp pow05 dbg
  have one : ∀ r, ∃ n b : Nd K, r ∈ l → (∃ E, history dbg junk fuel roi periodic variance [r] = ok E ∧ dataNorm E = n ∧
      result pow05 E = ok b) ∧ ∀ i, InBox roi i →
        val n i = (r.sums paths periodic variance (displacement roi i)).2.2 ∧
        Spec.averaged st (val b i) = (let v := r.sums paths periodic variance (displacement roi i)
          if v.2.2 ≤ 0 then v.1 else v.1 / v.2.2) := by
    intro r
    by_cases hm : r ∈ l
    · have hl1 : ∀ q ∈ [r], q.Legal fuel periodic roi ∧ q.stat = st := fun q hq => by
        rw [List.mem_singleton.1 hq]
        exact hl r hm
      obtain ⟨E, e1, -, -, -, e2⟩ := C84_data (K := K) (variance := variance) hr h0 hl1 hp dbg
      obtain ⟨b, b1, -, b2⟩ := C84_result (K := K) (variance := variance) hr h0 (by simp) hl1 hp pow05 dbg
      rw [e1, ok_bind] at b1
      refine ⟨dataNorm E, b, fun _ => ⟨⟨E, e1, rfl, b1⟩, fun i hi => ?_⟩⟩
      have q := e2 i hi
      have s := b2 i hi
      simp only [List.map_cons, List.map_nil, List.sum_cons, List.sum_nil, add_zero] at q s
      refine ⟨by rw [← q], ?_⟩
      rw [s]
      exact av _ _ (fun e => Realisation.sums_first ((hl r hm).2.trans e) _ _) (Realisation.sums_norm (hw r hm) _ _).1
    · exact ⟨⟨[], fun _ => 0⟩, ⟨[], fun _ => 0⟩, fun h => absurd h hm⟩
  choose n b hnb using one
  refine ⟨a, n, b, ha, fun r hm => (hnb r hm).1, fun i hi => ?_⟩
  have hn0 : ∀ r ∈ l, 0 ≤ val (n r) i := fun r hm => by
    rw [((hnb r hm).2 i hi).1]
    exact (Realisation.sums_norm (hw r hm) _ _).1
  have key : (l.map fun r => val (n r) i).sum * Spec.averaged st (val a i) =
      (l.map fun r => val (n r) i * Spec.averaged st (val (b r) i)).sum := by
    have f1 : (l.map fun r => val (n r) i) = l.map fun r => (r.sums paths periodic variance (displacement roi i)).2.2 :=
      List.map_congr_left fun r hm => ((hnb r hm).2 i hi).1
    have f2 : (l.map fun r => val (n r) i * Spec.averaged st (val (b r) i)) =
        l.map fun r => (r.sums paths periodic variance (displacement roi i)).1 := by
      refine List.map_congr_left fun r hm => ?_
      rw [((hnb r hm).2 i hi).1, ((hnb r hm).2 i hi).2]
      obtain ⟨p1, p2⟩ := Realisation.sums_norm (periodic := periodic) (variance := variance) (hw r hm) paths
        (displacement roi i)
      simp only
      split
      · rename_i h
        have := le_antisymm h p1
        rw [this, zero_mul, p2 this]
      · rename_i h
        rw [mul_div_cancel₀ _ (fun e => h e.le)]
    have p0 : 0 ≤ (l.map fun r => (r.sums paths periodic variance (displacement roi i)).2.2).sum := by
      refine List.sum_nonneg fun c hc => ?_
      obtain ⟨r, hm, rfl⟩ := List.mem_map.1 hc
      exact (Realisation.sums_norm (hw r hm) _ _).1
    rw [f2, ka i hi]
    rw [av _ _ (fun e => ?_) p0, f1]
    · split
      · rename_i h
        have hz := le_antisymm h p0
        rw [hz, zero_mul]
        symm
        refine List.sum_eq_zero fun c hc => ?_
        obtain ⟨r, hm, rfl⟩ := List.mem_map.1 hc
        obtain ⟨p1, p2⟩ := Realisation.sums_norm (periodic := periodic) (variance := variance) (hw r hm) paths
          (displacement roi i)
        refine p2 (le_antisymm ?_ p1)
        rw [← hz]
        refine List.single_le_sum ?_ _ (List.mem_map.2 ⟨r, hm, rfl⟩)
        intro c hc
        obtain ⟨q, hq, rfl⟩ := List.mem_map.1 hc
        exact (Realisation.sums_norm (hw q hq) _ _).1
      · rename_i h
        rw [mul_div_cancel₀ _ (fun e => h e.le)]
    · refine List.sum_nonneg fun c hc => ?_
      obtain ⟨r, hm, rfl⟩ := List.mem_map.1 hc
      exact Realisation.sums_first ((hl r hm).2.trans e) _ _
  refine ⟨hn0, key, fun lo hi' ⟨r, hm, hr⟩ hb => weighted_bounds hn0 hb ?_ key⟩
  refine lt_of_lt_of_le hr (List.single_le_sum ?_ _ (List.mem_map.2 ⟨r, hm, rfl⟩))
  intro c hc
  obtain ⟨q, hq, rfl⟩ := List.mem_map.1 hc
  exact hn0 q hq

/-- **C140**: to measure everything again, any number of times, does not change the result. -/
theorem C140_again (hr : roi.length ≤ 3) (h0 : 0 ∉ roi) {st : Stat} {l : List (Realisation K)} (hne : l ≠ [])
    (hl : ∀ r ∈ l, r.Legal fuel periodic roi ∧ r.stat = st) (hw : ∀ r ∈ l, r.WeightsNonneg) {times : Nat}
    (ht : 0 < times) (pow05 : K → K) (junk : ℚ) (variance dbg : Bool) :
    ∃ a b : Nd K,
      (do
        let E ← history dbg junk fuel roi periodic variance l
        result pow05 E) = ok a ∧
      (do
        let E ← history dbg junk fuel roi periodic variance (List.replicate times l).flatten
        result pow05 E) = ok b ∧ a.shape = roi ∧ b.shape = roi ∧ ∀ i, InBox roi i → val b i = val a i := by
  obtain ⟨paths, hp⟩ := exists_paths (fuel := fuel) junk hr
  have hmem : ∀ r, r ∈ (List.replicate times l).flatten ↔ r ∈ l := by
    intro r
    simp [ht.ne']
  have hne' : (List.replicate times l).flatten ≠ [] := by
    obtain ⟨r, hm⟩ := List.exists_mem_of_ne_nil l hne
    exact List.ne_nil_of_mem ((hmem r).2 hm)
  obtain ⟨a, ha, sa, ka⟩ := C84_result (K := K) (variance := variance) hr h0 hne hl hp pow05 dbg
  obtain ⟨b, hb, sb, kb⟩ := C84_result (K := K) (variance := variance) hr h0 hne'
    (fun r hm => hl r ((hmem r).1 hm)) hp pow05 dbg
  refine ⟨a, b, ha, hb, sa, sb, fun i hi => ?_⟩
  have many : ∀ φ : Realisation K → K, ((List.replicate times l).flatten.map φ).sum = times * (l.map φ).sum := by
    intro φ
    rw [List.map_flatten, List.sum_flatten]
    simp
  have p0 : 0 ≤ (l.map fun r => (r.sums paths periodic variance (displacement roi i)).2.2).sum := by
    refine List.sum_nonneg fun c hc => ?_
    obtain ⟨r, hm, rfl⟩ := List.mem_map.1 hc
    exact (Realisation.sums_norm (hw r hm) _ _).1
  have ht' : (0 : K) < times := by exact_mod_cast ht
  rw [ka i hi, kb i hi]
  simp only [many]
  have e : ∀ x y : K, 0 ≤ y → (y = 0 → x = 0) →
      (if (times : K) * y ≤ 0 then (times : K) * x else times * x / (times * y)) = if y ≤ 0 then x else x / y := by
    intro x y hy hx
    rcases hy.eq_or_lt with h | h
    · rw [← h, hx h.symm]
      simp
    · rw [if_neg (by rw [not_le]; positivity), if_neg (not_le.2 h), mul_div_mul_left _ _ ht'.ne']
  rw [e _ _ p0 fun hz => ?_]
  refine List.sum_eq_zero fun c hc => ?_
  obtain ⟨r, hm, rfl⟩ := List.mem_map.1 hc
  obtain ⟨p1, p2⟩ := Realisation.sums_norm (periodic := periodic) (variance := variance) (hw r hm) paths
    (displacement roi i)
  refine p2 (le_antisymm ?_ p1)
  rw [← hz]
  refine List.single_le_sum ?_ _ (List.mem_map.2 ⟨r, hm, rfl⟩)
  intro c hc
  obtain ⟨q, hq, rfl⟩ := List.mem_map.1 hc
  exact (Realisation.sums_norm (hw q hq) _ _).1

/-- Two realisations of W2, of different shapes, with weights that are not negative. -/
example : ∃ l : List (Realisation ℚ), 1 < l.length ∧
    (∀ r ∈ l, r.Legal 10 true [3] ∧ r.stat = .W2) ∧ ∀ r ∈ l, r.WeightsNonneg := by
  refine ⟨[.W2 (im [1, 0, 1]) (im [0, 5, 1]) none, .W2 (im [1, 2]) (im [7, 1]) (some (mk [0, 1]))], by decide, ?_, ?_⟩ <;>
    intro r hr <;> simp only [List.mem_cons, List.not_mem_nil, or_false] at hr
  · rcases hr with rfl | rfl
    · exact ⟨⟨⟨by decide, by decide, rfl, fun _ => by decide⟩, rfl, by simp⟩, rfl⟩
    · refine ⟨⟨⟨by decide, by decide, rfl, fun _ => by decide⟩, rfl, ?_⟩, rfl⟩
      rintro m' ⟨⟩
      exact ⟨rfl, mk_isMask (by decide)⟩
  · rcases hr with rfl | rfl <;> unfold Realisation.WeightsNonneg <;> decide +kernel

/-- The square root meets the hypothesis on `pow05`. -/
example : ∀ x : ℝ, 0 ≤ x → Real.sqrt x ^ 2 = x := fun _ h => Real.sq_sqrt h

/-- Weights with a negative sum are not normalised (`C39_negative`): measured again, the result of W2 is another. -/
example :
    ((do
        let E ← history true (0 : ℚ) 0 [1] true false [.W2 (im [-1, -1] : Nd ℚ) (im [3, 3]) none]
        result id E).map fun r => val r [0]) = ok (-6) ∧
    ((do
        let E ← history true (0 : ℚ) 0 [1] true false
          [.W2 (im [-1, -1] : Nd ℚ) (im [3, 3]) none, .W2 (im [-1, -1]) (im [3, 3]) none]
        result id E).map fun r => val r [0]) = ok (-12) := by
  refine ⟨by decide +kernel, by decide +kernel⟩

end Verif.Props
