import Verif.Lemmas.LineVisits

/-!
# Pixels that contain a piece of the line that is longer than the tolerance
-/

namespace Verif.Path

open Verif Outcome Spec

/-- The state `ps` is not beyond the pixel `qs`. -/
def Upto (ps qs : List (Int × Nat)) : Prop := List.Forall₂ (fun p q => p.1 = q.1 ∧ (p.1 ≠ 0 → p.2 ≤ q.2)) ps qs

theorem rowOf_congr : ∀ {ps qs : List (Int × Nat)},
    List.Forall₂ (fun p q => p.1 = q.1 ∧ (p.1 ≠ 0 → p.2 = q.2)) ps qs → rowOf ps = rowOf qs
  | _, _, List.Forall₂.nil => rfl
  | _, _, List.Forall₂.cons (a := p) (b := q) h hs => by
    unfold rowOf
    rw [List.map_cons, List.map_cons]
    congr 1
    · by_cases h0 : p.1 = 0
      · rw [← h.1, h0]; simp
      · rw [h.2 h0, h.1]
    · exact rowOf_congr hs

/-- What is stored stays stored. -/
theorem lineLoop_keeps {rows : ℚ → List (Axis ℚ) → List (Axis ℚ) × List (List Int)} {junk : ℚ} {x : List Int} :
    ∀ {fuel : Nat} {axes : List (Axis ℚ)} {ret s : List (List Int)}, lineLoop rows junk fuel axes ret = ok s →
      x ∈ ret → x ∈ s
  | 0, _, _, _, h, _ => by cases h
  | fuel + 1, axes, ret, s, h, hx => by
    unfold lineLoop at h
    simp only at h
    split at h
    · cases h
      exact List.mem_append_left _ hx
    · exact lineLoop_keeps h (List.mem_append_left _ hx)

/-- An axis is not stepped beyond the pixel before the pixel is reached. -/
theorem upto_inc {a b T : ℚ} {ps qs : List (Int × Nat)} (hab : eps ≤ b - a)
    (hq : ∀ q ∈ qs, q.1 ≠ 0 → enter q ≤ a ∧ b ≤ leave q) (hu : Upto ps qs) (hT : IsMin T ps) :
    rowOf ps = rowOf qs ∨ Upto (ps.map (inc T)) qs := by
  by_cases hT' : T ≤ b - eps
  · right
    unfold Upto
    rw [List.forall₂_map_left_iff]
    have hu' := List.forall₂_iff_get.1 hu
    refine List.forall₂_iff_get.2 ⟨hu'.1, fun i h1 h2 => ?_⟩
    obtain ⟨e, hle⟩ := hu'.2 i h1 h2
    have hmem : qs.get ⟨i, h2⟩ ∈ qs := List.get_mem _ _
    generalize ps.get ⟨i, h1⟩ = p at *
    generalize qs.get ⟨i, h2⟩ = q at *
    refine ⟨by rw [inc_fst]; exact e, fun h0 => ?_⟩
    rw [inc_fst] at h0
    have hle := hle h0
    unfold inc
    split
    · rename_i hs
      rcases Nat.lt_or_ge p.2 q.2 with hlt | hge
      · exact hlt
      · exfalso
        have hpq : p = q := Prod.ext e (by omega)
        have hb := (hq q hmem (e ▸ h0)).2
        have := hs.2
        rw [abs_lt, hpq] at this
        linarith [this.2]
    · exact hle
  · left
    apply rowOf_congr
    have hu' := List.forall₂_iff_get.1 hu
    refine List.forall₂_iff_get.2 ⟨hu'.1, fun i h1 h2 => ?_⟩
    obtain ⟨e, hle⟩ := hu'.2 i h1 h2
    have hmem : qs.get ⟨i, h2⟩ ∈ qs := List.get_mem _ _
    have hmem' : ps.get ⟨i, h1⟩ ∈ ps := List.get_mem _ _
    generalize ps.get ⟨i, h1⟩ = p at *
    generalize qs.get ⟨i, h2⟩ = q at *
    refine ⟨e, fun h0 => ?_⟩
    have hle := hle h0
    by_contra hne
    have hlt : p.2 + 1 ≤ q.2 := by omega
    have h1 := hT.2 p hmem' h0
    have h2 := (hq q hmem (e ▸ h0)).1
    have h3 : leave p ≤ enter q := by
      have : enter q = leave (q.1, q.2 - 1) := by
        rw [← enter_succ]
        congr 1
        exact Prod.ext rfl (by simp only; omega)
      rw [this, ← e]
      exact leave_mono (v := p.1) (m := p.2) (by omega)
    push Not at hT'
    linarith

theorem lineLoop_long {rows : ℚ → List (Axis ℚ) → List (Axis ℚ) × List (List Int)} {vs : List Int}
    (hrows : ∀ (ps : List (Int × Nat)) (τ T : ℚ), ps.map Prod.fst = vs → Good 1000000 ps → left ps ≠ 0 →
      IsMin T ps → ∃ out, rows (T - τ) (ps.map (mk τ)) = ((ps.map (inc T)).map (mk τ), out) ∧
        rowOf (ps.map (inc T)) ∈ out) (junk : ℚ) {a b : ℚ} {qs : List (Int × Nat)} (hab : eps ≤ b - a)
    (hq : ∀ q ∈ qs, q.1 ≠ 0 → enter q ≤ a ∧ b ≤ leave q) (hq1 : ∀ q ∈ qs, q.1 ≠ 0 → q.2 ≤ q.1.natAbs) :
    ∀ (fuel : Nat) (ps : List (Int × Nat)) (τ : ℚ) (ret s : List (List Int)), ps.map Prod.fst = vs →
      Good 1000000 ps → left ps ≠ 0 → Upto ps qs → rowOf ps ∈ ret →
      lineLoop rows junk fuel (ps.map (mk τ)) ret = ok s → rowOf qs ∈ s := by
  intro fuel
  induction fuel with
  | zero => intro ps τ ret s _ _ _ _ _ h; cases h
  | succ fuel ih =>
    intro ps τ ret s hvs hg hl hu hret h
    obtain ⟨q, hqm, hlt⟩ := left_pos_iff.1 hl
    have hq0 : q.1 ≠ 0 := by intro e; rw [e] at hlt; simp at hlt
    obtain ⟨T, hT, hmin⟩ := tmin_mk (junk := junk) (τ := τ) ⟨q, hqm, hq0⟩
    rcases upto_inc hab hq hu hmin with he | hu'
    · rw [← he]
      exact lineLoop_keeps h hret
    · obtain ⟨out, hout, hlast⟩ := hrows ps τ T hvs hg hl hmin
      have hg' := good_inc le_rfl hg hl hmin
      have hvs' : (ps.map (inc T)).map Prod.fst = vs := by
        rw [← hvs, List.map_map]
        apply List.map_congr_left
        intro p _
        exact inc_fst T p
      have hplace : ((ps.map (inc T)).map (mk τ)).map (fun a => a.place (T - τ)) =
          (ps.map (inc T)).map (mk (T - τ)) := by
        rw [List.map_map]
        apply List.map_congr_left
        intro p _
        exact mk_place _ _ _
      unfold lineLoop at h
      simp only [hT, hout, hplace] at h
      rw [row_done hg'] at h
      by_cases hd : left (ps.map (inc T)) = 0
      · rw [if_pos (by simpa using hd)] at h
        cases h
        apply List.mem_append_right
        have : rowOf (ps.map (inc T)) = rowOf qs := by
          apply rowOf_congr
          have hu'' := List.forall₂_iff_get.1 hu'
          refine List.forall₂_iff_get.2 ⟨hu''.1, fun i h1 h2 => ?_⟩
          obtain ⟨e, hle⟩ := hu''.2 i h1 h2
          have hmem : qs.get ⟨i, h2⟩ ∈ qs := List.get_mem _ _
          have hmem' : (ps.map (inc T)).get ⟨i, h1⟩ ∈ ps.map (inc T) := List.get_mem _ _
          generalize (ps.map (inc T)).get ⟨i, h1⟩ = p at *
          generalize qs.get ⟨i, h2⟩ = q at *
          refine ⟨e, fun h0 => ?_⟩
          have h3 : ¬ p.2 < p.1.natAbs := fun h => (left_pos_iff.2 ⟨p, hmem', h⟩) hd
          have h4 := hq1 q hmem (e ▸ h0)
          have h5 := hle h0
          rw [e] at h3
          omega
        rw [← this]
        exact hlast
      · rw [if_neg (by simpa using hd)] at h
        exact ih (ps.map (inc T)) (T - τ) (ret ++ out) s hvs' hg' hd hu' (List.mem_append_right _ hlast) h

/-- The number of steps to a pixel that contains a piece of the line. -/
theorem steps_of {v c : Int} {a b : ℚ} (h0 : v ≠ 0) (hb : 0 < b) (ha : a ≤ 1)
    (ca : |(c : ℚ) - a * v| ≤ 1 / 2) (cb : |(c : ℚ) - b * v| ≤ 1 / 2) :
    ∃ m : Nat, v.sign * m = c ∧ m ≤ v.natAbs ∧ enter (v, m) ≤ a ∧ b ≤ leave (v, m) := by
  have hn := natAbs_pos h0
  have e := sign_mul_natAbs v
  have e2 := sign_sq h0
  have hs : |((v.sign : Int) : ℚ)| = 1 := by
    rcases lt_or_gt_of_ne h0 with h3 | h3
    · rw [Int.sign_eq_neg_one_of_neg h3]; norm_num
    · rw [Int.sign_eq_one_of_pos h3]; norm_num
  have key : ∀ t : ℚ, ((v.sign * c : Int) : ℚ) - t * v.natAbs = ((v.sign : Int) : ℚ) * (c - t * v) := fun t => by
    have : ((v.sign : Int) : ℚ) * v = v.natAbs := by rw [← e, ← mul_assoc, e2, one_mul]
    push_cast
    rw [mul_sub, mul_left_comm _ t, this]
  have ka : |((v.sign * c : Int) : ℚ) - a * v.natAbs| ≤ 1 / 2 := by rw [key, abs_mul, hs, one_mul]; exact ca
  have kb : |((v.sign * c : Int) : ℚ) - b * v.natAbs| ≤ 1 / 2 := by rw [key, abs_mul, hs, one_mul]; exact cb
  rw [abs_le] at ka kb
  have hbv : 0 < b * v.natAbs := mul_pos hb hn
  have hpos : 0 ≤ v.sign * c := by
    have : (-1 : ℚ) < ((v.sign * c : Int) : ℚ) := by linarith [kb.1]
    have : (-1 : Int) < v.sign * c := by exact_mod_cast this
    omega
  obtain ⟨m, hm⟩ := Int.eq_ofNat_of_zero_le hpos
  rw [hm] at ka kb
  rw [Int.cast_natCast] at ka kb
  refine ⟨m, ?_, ?_, ?_, ?_⟩
  · have : (m : Int) = v.sign * c := hm.symm
    rw [this, ← mul_assoc]
    have : v.sign * v.sign = 1 := by exact_mod_cast e2
    rw [this, one_mul]
  · have h1 : a * v.natAbs ≤ v.natAbs := by nlinarith
    have h2 : (m : ℚ) < (v.natAbs : ℚ) + 1 := by linarith [ka.2]
    have : m < v.natAbs + 1 := by exact_mod_cast h2
    omega
  · unfold enter
    rw [div_le_iff₀ hn]
    linarith [ka.2]
  · unfold leave
    rw [le_div_iff₀ hn]
    linarith [kb.1]

theorem line_long {rows : ℚ → List (Axis ℚ) → List (Axis ℚ) × List (List Int)} {vs : List Int}
    (h3 : vs.length ≤ 3) (hb : ∀ v ∈ vs, v.natAbs ≤ 1000000)
    (hrows : ∀ (ps : List (Int × Nat)) (τ T : ℚ), ps.map Prod.fst = vs → Good 1000000 ps → left ps ≠ 0 →
      IsMin T ps → ∃ out, rows (T - τ) (ps.map (mk τ)) = ((ps.map (inc T)).map (mk τ), out) ∧
        rowOf (ps.map (inc T)) ∈ out) {junk : ℚ} {fuel : Nat}
    (hne : manhattan (List.replicate vs.length 0) vs ≠ 0) {ret : List (List Int)}
    (h : line rows junk fuel (List.replicate vs.length 0) vs = ok ret) {y : List Int} {a b : ℚ} (ha0 : 0 ≤ a)
    (hb1 : b ≤ 1) (hab : eps ≤ b - a) (ya : List.Forall₂ (fun (v c : Int) => |(c : ℚ) - a * v| ≤ 1 / 2) vs y)
    (yb : List.Forall₂ (fun (v c : Int) => |(c : ℚ) - b * v| ≤ 1 / 2) vs y) : y ∈ ret := by
  have he : (0 : ℚ) < eps := by unfold eps; norm_num
  have hb0 : 0 < b := by linarith
  have ha1 : a ≤ 1 := by linarith
  -- the pixel as a state
  have hqs : ∃ qs : List (Int × Nat), rowOf qs = y ∧ (∀ q ∈ qs, q.1 ≠ 0 → enter q ≤ a ∧ b ≤ leave q) ∧
      (∀ q ∈ qs, q.1 ≠ 0 → q.2 ≤ q.1.natAbs) ∧ Upto (vs.map fun v => ((v, 0) : Int × Nat)) qs := by
    clear hrows h hne hb h3
    induction vs generalizing y with
    | nil =>
      cases ya
      exact ⟨[], rfl, by simp, by simp, List.Forall₂.nil⟩
    | cons v vs ih =>
      obtain ⟨c, ys, ca, ya', rfl⟩ := List.forall₂_cons_left_iff.1 ya
      obtain ⟨cb, yb'⟩ := List.forall₂_cons.1 yb
      obtain ⟨qs, h1, h2, h3, h4⟩ := ih ya' yb'
      by_cases h0 : v = 0
      · subst h0
        have hc : c = 0 := by
          rw [Int.cast_zero, mul_zero, sub_zero, abs_le] at ca
          have e1 : (-1 : ℚ) < c := by linarith [ca.1]
          have e2 : (c : ℚ) < 1 := by linarith [ca.2]
          have e1' : -1 < c := by exact_mod_cast e1
          have e2' : c < 1 := by exact_mod_cast e2
          omega
        refine ⟨(0, 0) :: qs, ?_, ?_, ?_, List.Forall₂.cons ⟨rfl, fun _ => le_refl _⟩ h4⟩
        · unfold rowOf at h1 ⊢
          rw [List.map_cons, h1, hc]
          simp
        · intro q hq h0
          rcases List.mem_cons.1 hq with rfl | hq
          · exact absurd rfl h0
          · exact h2 q hq h0
        · intro q hq h0
          rcases List.mem_cons.1 hq with rfl | hq
          · exact absurd rfl h0
          · exact h3 q hq h0
      · obtain ⟨m, e1, e2, e3, e4⟩ := steps_of h0 hb0 ha1 ca cb
        refine ⟨(v, m) :: qs, ?_, ?_, ?_, List.Forall₂.cons ⟨rfl, fun _ => Nat.zero_le _⟩ h4⟩
        · unfold rowOf at h1 ⊢
          rw [List.map_cons, h1, e1]
        · intro q hq h0
          rcases List.mem_cons.1 hq with rfl | hq
          · exact ⟨e3, e4⟩
          · exact h2 q hq h0
        · intro q hq h0
          rcases List.mem_cons.1 hq with rfl | hq
          · exact e2
          · exact h3 q hq h0
  obtain ⟨qs, rfl, h1, h2, h4⟩ := hqs
  have hg := initial_good hb
  rw [← initial_left] at hne
  unfold line at h
  rw [if_neg (by simp; omega)] at h
  simp only [initial_axes, row_mk, initial_row] at h
  exact lineLoop_long hrows junk hab h1 h2 fuel _ 0 _ ret (initial_fst vs) hg hne h4 (by rw [initial_row]; simp) h

end Verif.Path
