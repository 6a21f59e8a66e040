import Verif.Props.RoundingCollapsed

/-!
# Any sequence of calls of W2 and W2c with real images in `double` (C88)

As `C88_history`, for the statistics of which the norm is not a number of pixels.
-/

set_option linter.unusedSectionVars false

namespace Verif.Props

open Verif Outcome Spec Ens

variable {roi : List Nat} {periodic : Bool}

/-- The weights are not negative. -/
def Realisation.PositiveWeights : Realisation ℚ → Prop
  | .W2 w _ _ => ∀ k, 0 ≤ w.get k
  | _ => True

theorem weight_image {w : Nd ℚ} (hw : ∀ k, 0 ≤ w.get k) : Nd3 Weight (double w) w w :=
  ⟨rfl, rfl, fun k => ⟨⟨rfl, (abs_of_nonneg (hw k)).symm⟩, rfl⟩⟩

theorem W2_histories {junk : ℚ} {fuel : Nat} (dbg : Bool) : ∀ {l : List (Realisation ℚ)},
    (∀ r ∈ l, r.stat = .W2 ∧ r.BitMasks ∧ r.PositiveWeights) → ∀ {n : ℕ}, 4 ≤ n →
    ∀ {E : Ensemble (Fl rnd64)} {E' E'' : Ensemble ℚ}, Ens3 (Near (1 / 2 ^ 53) n) (Weights (1 / 2 ^ 53) n) E E' E'' →
      Three (Ens3 (Near (1 / 2 ^ 53) (n + (l.map Realisation.pixels).sum))
          (Weights (1 / 2 ^ 53) (n + (l.map Realisation.pixels).sum)))
        (forM (l.map Realisation.double) E fun E r => r.call junk fuel dbg E)
        (forM l E' fun E r => r.call junk fuel dbg E)
        (forM (l.map Realisation.magnitude) E'' fun E r => r.call junk fuel dbg E)
  | [], _, n, _, E, E', E'', h => by simpa [forM, Three] using h
  | r :: l, hl, n, hn, E, E', E'', h => by
    obtain ⟨hs, hb, hw⟩ := hl r (by simp)
    rw [List.map_cons, List.sum_cons, ← Nat.add_assoc]
    refine Three.bind ?_ fun _ _ _ h' => W2_histories dbg (fun r hr => hl r (List.mem_cons_of_mem _ hr)) (by omega) h'
    match r, hs, hb, hw with
    | .W2 w f none, _, _, hw =>
      exact W2_three u_nonneg rnd64_rel rnd64_exact dbg h (weight_image hw) (exact_image f) (bits_noMask w) (by omega)
    | .W2 w f (some m), _, hb, hw =>
      exact W2_three u_nonneg rnd64_rel rnd64_exact dbg h (weight_image hw) (exact_image f) (hb m rfl) (by omega)

/-- The exact runs of a history, and of its absolute values. -/
theorem exact_histories (hroi : roi.length ≤ 3) (h0 : 0 ∉ roi) {variance : Bool} (junk : ℚ) {fuel : Nat} {st : Stat}
    {l : List (Realisation ℚ)} (hl : ∀ r ∈ l, r.Legal fuel periodic roi ∧ r.stat = st) (hne : l ≠ []) (dbg : Bool) :
    ∃ E' E'', history dbg junk fuel roi periodic variance l = ok E' ∧
      history dbg junk fuel roi periodic variance (l.map Realisation.magnitude) = ok E'' ∧
      Good roi periodic variance E' ∧ Good roi periodic variance E'' ∧ E'.stat = st := by
  obtain ⟨φ, hφ⟩ := history_effect (K := ℚ) (fuel := fuel) (periodic := periodic) (variance := variance) hroi h0 junk st
  obtain ⟨E', e1, g1, s1, -⟩ := hφ l hl dbg
  obtain ⟨E'', e2, g2, -, -⟩ := hφ (l.map Realisation.magnitude) (fun r hr => by
    obtain ⟨q, hq, rfl⟩ := List.mem_map.1 hr
    exact ⟨Realisation.legal_magnitude (hl q hq).1, (Realisation.stat_magnitude q).trans (hl q hq).2⟩) dbg
  rw [if_neg hne] at s1
  exact ⟨E', E'', e1, e2, g1, g2, s1⟩

/-- Any sequence of calls of W2 with weights that are not negative, in `double`: the errors of the sum of the weights,
of the first moment and of the result. -/
theorem C88_history_W2 (hroi : roi.length ≤ 3) (h0 : 0 ∉ roi) {variance : Bool} {junk : ℚ} {fuel : Nat}
    {l : List (Realisation ℚ)}
    (hl : ∀ r ∈ l, r.Legal fuel periodic roi ∧ r.stat = .W2 ∧ r.BitMasks ∧ r.PositiveWeights) (hne : l ≠ []) {N : ℕ}
    (hN : N = (l.map Realisation.pixels).sum) (hbig : N + 5 ≤ 2 ^ 50) (pow05 : Fl rnd64 → Fl rnd64) (dbg : Bool) :
    ∃ E E' E'', history dbg junk fuel roi periodic variance (l.map Realisation.double) = ok E ∧
      history dbg junk fuel roi periodic variance l = ok E' ∧
      history dbg junk fuel roi periodic variance (l.map Realisation.magnitude) = ok E'' ∧
      (∀ i, |(val (dataNorm E) i).val - val (dataNorm E') i| ≤ (N + 4 : ℕ) / 2 ^ 52 * val (dataNorm E') i ∧
        |(val (dataFirst E) i).val - val (dataFirst E') i| ≤ (N + 4 : ℕ) / 2 ^ 52 * val (dataFirst E'') i) ∧
      ∃ r r' r'', result pow05 E = ok r ∧ result id E' = ok r' ∧ result id E'' = ok r'' ∧ r.shape = roi ∧ ∀ i,
        |(val r i).val - val r' i| ≤ (N + 5 : ℕ) / 2 ^ 50 * val r'' i := by
  obtain ⟨E', E'', e1, e2, g1, g2, s1⟩ := exact_histories (periodic := periodic) (variance := variance) hroi h0 junk
    (fun r hr => ⟨(hl r hr).1, (hl r hr).2.1⟩) hne dbg
  have h := Three.bind (make_three (R := Near (1 / 2 ^ 53) 4) (Q := Weights (1 / 2 ^ 53) 4) dbg roi periodic variance
      (near_zero 4) ⟨near_zero 4, rfl⟩)
    fun _ _ _ h => W2_histories (junk := junk) (fuel := fuel) dbg (fun r hr => (hl r hr).2) le_rfl h
  have e1' := e1
  have e2' := e2
  unfold history at e1' e2'
  rw [e1', e2', ← hN] at h
  have hγ : (1 + 1 / 2 ^ 53 : ℚ) ^ (4 + N) - 1 < 1 := by
    refine lt_of_le_of_lt (gamma64 (by omega)) ?_
    rw [div_lt_one (by norm_num)]
    have : 4 + N < 2 ^ 52 := by omega
    exact_mod_cast this
  generalize ho : (do
      let E ← make (Fl rnd64) dbg roi periodic variance
      forM (l.map Realisation.double) E fun E r => r.call junk fuel dbg E : Outcome (Ensemble (Fl rnd64))) = o at h
  cases o with
  | ok E =>
    have hres := result_weighted u_nonneg rnd64_rel h (by rw [s1]; decide) hγ pow05
    rw [result_good g1 id, result_good g2 id] at hres
    refine ⟨E, E', E'', ho, e1, e2, fun i => ?_, ?_⟩
    · unfold dataFirst dataNorm val Nd.reshape
      dsimp only
      rw [h.shapeOrig.1, h.shapeOrig.2, show N + 4 = 4 + N by omega]
      constructor
      · obtain ⟨k1, k2⟩ := h.norm.2.2 (flat E'.shapeOrig i).toNat
        have := near64 (by omega) k1
        rwa [k2] at this
      · exact near64 (by omega) (h.first.2.2 _)
    · rw [result_good g1 id, result_good g2 id]
      cases e3 : result pow05 E with
      | ok r =>
        rw [e3] at hres
        refine ⟨r, _, _, rfl, rfl, rfl, hres.1, fun i => ?_⟩
        have k := hres.2.2 (flat roi i).toNat
        unfold val
        rw [hres.1]
        refine k.2.trans (mul_le_mul_of_nonneg_right ?_ ((abs_nonneg _).trans k.1))
        have := weighted64 (n := 4 + N) (by omega)
        rwa [show 4 + N + 1 = N + 5 by omega] at this
      | throws => rw [e3] at hres; exact hres.elim
      | ub => rw [e3] at hres; exact hres.elim
      | diverge => rw [e3] at hres; exact hres.elim
  | throws => exact h.elim
  | ub => exact h.elim
  | diverge => exact h.elim

theorem tally_fresh {variance : Bool} (dbg : Bool) (hroi : roi.length ≤ 3) (h0 : 0 ∉ roi) :
    ∃ E0 : Ensemble (Fl rnd64), make (Fl rnd64) dbg roi periodic variance = ok E0 ∧
      Tally (1 / 2 ^ 53) 0 E0 (fresh ℚ roi periodic variance .unset) (fresh ℚ roi periodic variance .unset) := by
  have h := make_three (rnd := rnd64) (R := fun _ _ _ => True) (Q := Count (0 : ℕ)) dbg roi periodic variance trivial
    ⟨same_zero (by norm_num), rfl⟩
  have h' := make_three (rnd := rnd64) (R := Near (1 / 2 ^ 53) 0) (Q := Count (0 : ℕ)) dbg roi periodic variance
    (near_zero 0) ⟨same_zero (by norm_num), rfl⟩
  rw [make_ok (K := ℚ) dbg hroi h0] at h h'
  cases e : make (Fl rnd64) dbg roi periodic variance with
  | ok E =>
    rw [e] at h h'
    exact ⟨E, rfl, h, rfl, fun k => ⟨0, by simp [fresh, Nd.fill], h'.first.2.2 k⟩⟩
  | throws => rw [e] at h; exact h.elim
  | ub => rw [e] at h; exact h.elim
  | diverge => rw [e] at h; exact h.elim

/-- A history of W2 of two images, one with a mask, and the weights `1 / 3`, `2`, `0`, `10 ^ 30`. -/
example : ∀ r ∈ [Realisation.W2 (⟨[4], fun k => [1 / 3, 2, 0, 10 ^ 30].getD k 0⟩ : Nd ℚ) thirds none,
      .W2 ⟨[4], fun k => [1 / 3, 2, 0, 10 ^ 30].getD k 0⟩ thirds (some (ofInts Int [4] [0, 1, 0, 0]))],
    r.Legal 0 true [3] ∧ r.stat = .W2 ∧ r.BitMasks ∧ r.PositiveWeights := by
  have hL : Legal true [4] [3] := ⟨by decide, by decide, rfl, fun _ => .cons (by decide) .nil⟩
  have hb : BitMask [4] (ofInts Int [4] [0, 1, 0, 0]) := BitImage.bitMask (shape := [4]) ⟨rfl, by decide⟩
  have hw : ∀ x, 0 ≤ (⟨[4], fun k => [1 / 3, 2, 0, 10 ^ 30].getD k 0⟩ : Nd ℚ).get x := by
    rintro (_ | _ | _ | _ | x)
    all_goals simp
  intro r hr
  simp only [List.mem_cons, List.not_mem_nil, or_false] at hr
  rcases hr with rfl | rfl
  · exact ⟨⟨hL, rfl, fun m hm => by cases hm⟩, rfl, (fun m hm => by cases hm), hw⟩
  · refine ⟨⟨hL, rfl, fun m hm => ?_⟩, rfl, fun m hm => ?_, hw⟩
    · cases hm
      exact ⟨rfl, hb.isMask⟩
    · cases hm
      exact hb.bits

/-- At most as many values are added by a call of W2c. -/
def additions (roi : List Nat) (r : Realisation ℚ) : ℕ := (edge roi).length * (r.pixels * (max 1 roi.sum + 1))

theorem W2c_histories {variance : Bool} {junk : ℚ} {fuel : Nat} (dbg : Bool) (hroi : roi.length ≤ 3) (h0 : 0 ∉ roi) :
    ∀ {l : List (Realisation ℚ)}, (∀ r ∈ l, r.Legal fuel periodic roi ∧ r.stat = .W2c) →
    ∀ {n : ℕ} {E : Ensemble (Fl rnd64)} {E' E'' : Ensemble ℚ}, Tally (1 / 2 ^ 53) n E E' E'' →
      Good roi periodic variance E' → (E'.stat = .W2c ∨ E'.stat = .unset) → n + (l.map (additions roi)).sum ≤ 2 ^ 53 →
      Three (Tally (1 / 2 ^ 53) (n + (l.map (additions roi)).sum))
        (forM (l.map Realisation.double) E fun E r => r.call junk fuel dbg E)
        (forM l E' fun E r => r.call junk fuel dbg E)
        (forM (l.map Realisation.magnitude) E'' fun E r => r.call junk fuel dbg E)
  | [], _, n, E, E', E'', h, _, _, _ => by simpa [forM, Three] using h
  | r :: l, hl, n, E, E', E'', h, hg, hst, hc => by
    obtain ⟨hL, hs⟩ := hl r (by simp)
    rw [List.map_cons, List.sum_cons, ← Nat.add_assoc] at hc ⊢
    have main : Three (fun a b c => Tally (1 / 2 ^ 53) (n + additions roi r) a b c ∧
          Good roi periodic variance b ∧ b.stat = .W2c)
        (r.double.call junk fuel dbg E) (r.call junk fuel dbg E') (r.magnitude.call junk fuel dbg E'') := by
      refine Three.and_ok ?_ (fun b hb => ?_)
      · match r, hL, hs, hc with
        | .W2c cl ce f m mode, hL, _, hc =>
          obtain ⟨a1, a2⟩ := stamp_rows hroi h0 hL.2.2.2.2.2 hg (junk := junk)
          have e : additions roi (.W2c cl ce f m mode) =
              (stamps E'.shape E'.pad).length * (f.shape.prod * (max 1 roi.sum + 1)) := by rw [a1]; rfl
          rw [e] at hc ⊢
          cases m with
          | none =>
            exact W2c_three (fmask := noMask f) u_nonneg rnd64_rel rnd64_exact dbg h (exact_image f) a2 (by omega)
          | some m => exact W2c_three u_nonneg rnd64_rel rnd64_exact dbg h (exact_image f) a2 (by omega)
      · obtain ⟨φ, δ, d1, -⟩ := r.effect (junk := junk) (variance := variance) hroi h0 hL
        have d2 := d1 dbg E' hg (by rw [hs]; exact hst)
        dsimp only at d2
        rw [d2] at hb
        cases hb
        exact ⟨(hg.stat _).plus δ, hs⟩
    exact Three.bind main fun _ _ _ h' =>
      W2c_histories dbg hroi h0 (fun r hr => hl r (List.mem_cons_of_mem _ hr)) h'.1 h'.2.1 (Or.inl h'.2.2) hc

/-- Any sequence of calls of W2c in `double`: the norm is the exact number of values that are averaged, and the error of
the result is at most that number (and one) times `2 ^ -52`, times the result for the absolute values. -/
theorem C88_history_W2c (hroi : roi.length ≤ 3) (h0 : 0 ∉ roi) {variance : Bool} {junk : ℚ} {fuel : Nat}
    {l : List (Realisation ℚ)} (hl : ∀ r ∈ l, r.Legal fuel periodic roi ∧ r.stat = .W2c) (hne : l ≠ [])
    (hbig : (l.map (additions roi)).sum < 2 ^ 52) (pow05 : Fl rnd64 → Fl rnd64) (dbg : Bool) :
    ∃ E E' E'', history dbg junk fuel roi periodic variance (l.map Realisation.double) = ok E ∧
      history dbg junk fuel roi periodic variance l = ok E' ∧
      history dbg junk fuel roi periodic variance (l.map Realisation.magnitude) = ok E'' ∧
      (∀ i, (val (dataNorm E) i).val = val (dataNorm E') i) ∧
      ∃ r r' r'', result pow05 E = ok r ∧ result id E' = ok r' ∧ result id E'' = ok r'' ∧ r.shape = roi ∧ ∀ i,
        ∃ n : ℕ, val (dataNorm E') i = n ∧ |(val r i).val - val r' i| ≤ (n + 1 : ℕ) / 2 ^ 52 * val r'' i := by
  obtain ⟨E', E'', e1, e2, g1, g2, s1⟩ := exact_histories (periodic := periodic) (variance := variance) hroi h0 junk
    hl hne dbg
  obtain ⟨E0, m0, t0⟩ := tally_fresh (roi := roi) (periodic := periodic) (variance := variance) dbg hroi h0
  have h := W2c_histories (junk := junk) (fuel := fuel) (variance := variance) dbg hroi h0 hl t0 good_fresh (Or.inr rfl)
    (by omega)
  have e1' := e1
  have e2' := e2
  unfold history at e1' e2'
  rw [make_ok dbg hroi h0, ok_bind] at e1' e2'
  rw [e1', e2', Nat.zero_add] at h
  generalize ho : (forM (l.map Realisation.double) E0 fun E r => r.call junk fuel dbg E) = o at h
  cases o with
  | ok E =>
    have hres := result_tally u_nonneg rnd64_rel h (by rw [s1]; decide) pow05
    rw [result_good g1 id, result_good g2 id] at hres
    refine ⟨E, E', E'', by unfold history; rw [m0, ok_bind]; exact ho, e1, e2, fun i => ?_, ?_⟩
    · unfold dataNorm val Nd.reshape
      dsimp only
      rw [h.ens.shapeOrig.1]
      obtain ⟨⟨d, k1, k2, -⟩, -⟩ := h.ens.norm.2.2 (flat E'.shapeOrig i).toNat
      rw [k1, k2]
    · rw [result_good g1 id, result_good g2 id]
      cases e3 : result pow05 E with
      | ok r =>
        rw [e3] at hres
        refine ⟨r, _, _, rfl, rfl, rfl, hres.1, fun i => ?_⟩
        obtain ⟨m, n1, n2⟩ := hres.2.2 (flat roi i).toNat
        refine ⟨m, ?_, ?_⟩
        · unfold dataNorm val Nd.reshape
          dsimp only
          rw [g1.shapeOrig]
          exact n1
        · obtain ⟨⟨d, -, q2, q3⟩, -⟩ := h.ens.norm.2.2 (flat roi i).toNat
          have hd : m ≤ (l.map (additions roi)).sum := by
            rw [n1] at q2
            have : d = (m : ℤ) := by exact_mod_cast q2.symm
            rw [this, abs_of_nonneg (by omega)] at q3
            exact_mod_cast q3
          have k := near64 (by omega) n2
          unfold val
          rw [hres.1]
          exact k
      | throws => rw [e3] at hres; exact hres.elim
      | ub => rw [e3] at hres; exact hres.elim
      | diverge => rw [e3] at hres; exact hres.elim
  | throws => exact h.elim
  | ub => exact h.elim
  | diverge => exact h.elim

/-- A history of W2c of two images. -/
example : let l : List (Realisation ℚ) :=
      [.W2c (ofInts Int [4] [0, 1, 1, 0]) (ofInts Int [4] [0, 1, 0, 0]) thirds none .bresenham,
        .W2c (ofInts Int [4] [0, 1, 1, 0]) (ofInts Int [4] [0, 0, 1, 0]) thirds (some (ofInts Int [4] [0, 1, 0, 0]))
          .bresenham]
    (∀ r ∈ l, r.Legal 0 true [3] ∧ r.stat = .W2c) ∧ (l.map (additions [3])).sum < 2 ^ 52 := by
  have hL : Legal true [4] [3] := ⟨by decide, by decide, rfl, fun _ => .cons (by decide) .nil⟩
  have hb : BitMask [4] (ofInts Int [4] [0, 1, 0, 0]) := BitImage.bitMask (shape := [4]) ⟨rfl, by decide⟩
  refine ⟨fun r hr => ?_, by decide +kernel⟩
  simp only [List.mem_cons, List.not_mem_nil, or_false] at hr
  rcases hr with rfl | rfl
  · exact ⟨⟨hL, by unfold FlatOrEqual; decide, rfl, rfl, (fun m hm => by cases hm), fun h => absurd rfl h⟩, rfl⟩
  · refine ⟨⟨hL, by unfold FlatOrEqual; decide, rfl, rfl, (fun m hm => ?_), fun h => absurd rfl h⟩, rfl⟩
    cases hm
    exact ⟨rfl, hb.isMask⟩

end Verif.Props
