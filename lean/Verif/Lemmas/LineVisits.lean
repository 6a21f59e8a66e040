import Verif.Lemmas.LineRows

/-!
# Every pixel that the line crosses is a row of `actual` and `full`
-/

namespace Verif.Path

open Verif Outcome Spec

theorem done_leave {B : Nat} {ps : List (Int × Nat)} (hg : Good B ps) (hl : left ps = 0)
    {p : Int × Nat} (hp : p ∈ ps) (h0 : p.1 ≠ 0) : 1 < leave p := by
  have h1 : ¬ p.2 < p.1.natAbs := fun h => (left_pos_iff.2 ⟨p, hp, h⟩) hl
  have h2 := hg.le p hp
  have h3 : p.2 = p.1.natAbs := by omega
  have h4 := leave_done h0
  rw [← h3] at h4
  have h5 : leave p = leave (p.1, p.2) := rfl
  have h6 : (0 : ℚ) < 1 / p.1.natAbs := one_div_pos.2 (natAbs_pos h0)
  rw [h5, h4, h3]
  linarith

theorem lineLoop_visits {rows : ℚ → List (Axis ℚ) → List (Axis ℚ) × List (List Int)} {vs : List Int}
    (hrows : ∀ (ps : List (Int × Nat)) (τ T : ℚ), ps.map Prod.fst = vs → Good 707 ps → left ps ≠ 0 →
      IsMin T ps → ∃ out, rows (T - τ) (ps.map (mk τ)) = ((ps.map (inc T)).map (mk τ), out) ∧
        rowOf (ps.map (inc T)) ∈ out) (junk : ℚ)
    {t : ℚ} (ht : t ≤ 1) (hne : ∀ v ∈ vs, v ≠ 0 → ∀ m : Nat, leave (v, m) ≠ t) :
    ∀ (fuel : Nat) (ps : List (Int × Nat)) (τ : ℚ) (ret : List (List Int)), ps.map Prod.fst = vs →
      Good 707 ps → left ps ≠ 0 → left ps ≤ fuel → (∀ p ∈ ps, p.1 ≠ 0 → enter p < t) →
      ∃ out, lineLoop rows junk fuel (ps.map (mk τ)) ret = ok (ret ++ out) ∧
        ∃ ps', ps'.map Prod.fst = vs ∧ rowOf ps' ∈ rowOf ps :: out ∧
          ∀ p ∈ ps', p.1 ≠ 0 → enter p < t ∧ t < leave p := by
  intro fuel
  induction fuel with
  | zero => intro ps τ ret _ _ h1 h2; omega
  | succ fuel ih =>
    intro ps τ ret hvs hg hl hf hen
    have hB : 707 ≤ 1000000 := by norm_num
    obtain ⟨q, hq, hlt⟩ := left_pos_iff.1 hl
    have hq0 : q.1 ≠ 0 := by intro e; rw [e] at hlt; simp at hlt
    obtain ⟨T, hT, hmin⟩ := tmin_mk (junk := junk) (τ := τ) ⟨q, hq, hq0⟩
    obtain ⟨out, hout, hlast⟩ := hrows ps τ T hvs hg hl hmin
    have hg' := good_inc hB hg hl hmin
    have hvs' : (ps.map (inc T)).map Prod.fst = vs := by
      rw [← hvs, List.map_map]
      apply List.map_congr_left
      intro p _
      exact inc_fst T p
    have hdec := left_inc T (ps := ps) fun p hp hs => sel_not_done hB hg hl hmin hp hs
    have hpos := nsel_pos hmin
    have hplace : ((ps.map (inc T)).map (mk τ)).map (fun a => a.place (T - τ)) =
        (ps.map (inc T)).map (mk (T - τ)) := by
      rw [List.map_map]
      apply List.map_congr_left
      intro p _
      exact mk_place _ _ _
    -- the state is reached before `t`, or contains `t`
    have hTt : T ≠ t := by
      obtain ⟨⟨p, hp, h0, e⟩, -⟩ := hmin
      rw [← e]
      exact hne p.1 (by rw [← hvs]; exact List.mem_map_of_mem hp) h0 p.2
    have hnext : T < t → ∀ p ∈ ps.map (inc T), p.1 ≠ 0 → enter p < t := by
      intro hlt' p' hp' h0
      obtain ⟨p, hp, rfl⟩ := List.mem_map.1 hp'
      rw [inc_fst] at h0
      by_cases hs : sel T p
      · have e1 : enter (inc T p) = leave p := by
          unfold inc; rw [if_pos hs]; exact enter_succ
        rw [e1, sel_exact hg.bound hmin hp hs]
        exact hlt'
      · have e1 : inc T p = p := by unfold inc; rw [if_neg hs]
        rw [e1]
        exact hen p hp h0
    unfold lineLoop
    simp only [hT, hout, hplace]
    rw [row_done hg']
    by_cases hd : left (ps.map (inc T)) = 0
    · rw [if_pos (by simpa using hd)]
      refine ⟨out, rfl, ?_⟩
      rcases lt_or_gt_of_ne hTt with h | h
      · exact ⟨_, hvs', by simp [hlast], fun p hp h0 =>
          ⟨hnext h p hp h0, ht.trans_lt (done_leave hg' hd hp h0)⟩⟩
      · exact ⟨ps, hvs, by simp, fun p hp h0 => ⟨hen p hp h0, lt_of_lt_of_le h (hmin.2 p hp h0)⟩⟩
    · rw [if_neg (by simpa using hd)]
      rcases lt_or_gt_of_ne hTt with h | h
      · obtain ⟨out', h1, ps', h2, h3, h4⟩ := ih (ps.map (inc T)) (T - τ) (ret ++ out) hvs' hg' hd
          (by omega) (hnext h)
        refine ⟨out ++ out', by rw [h1, List.append_assoc], ps', h2, ?_, h4⟩
        rcases List.mem_cons.1 h3 with h3 | h3
        · rw [h3]; simp [hlast]
        · simp [h3]
      · obtain ⟨out', h1, -⟩ := lineLoop_ok (B := 707) (R := fun _ _ => True) (Q := fun _ => True)
          (L := fun _ _ => True) hB (fun _ _ _ _ _ _ => trivial)
          (rows := fun tm axes => ((rows tm axes).1, [row (rows tm axes).1]))
          (fun ps τ T a b c d => by
            obtain ⟨out, e, -⟩ := hrows ps τ T a b c d
            exact ⟨[rowOf (ps.map (inc T))], by simp only [e, row_mk], by simp, by simp, by simp, trivial⟩)
          junk fuel (ps.map (inc T)) (T - τ) [] hvs' hg' hd (by omega)
        -- the loop ends, whatever the rows
        have hend : ∀ (fuel : Nat) (axes : List (Axis ℚ)) (r r' : List (List Int)) (s : List (List Int)),
            lineLoop (fun tm axes => ((rows tm axes).1, [row (rows tm axes).1])) junk fuel axes r = ok s →
            ∃ o, lineLoop rows junk fuel axes r' = ok (r' ++ o) := by
          intro fuel
          induction fuel with
          | zero => intro axes r r' s h; cases h
          | succ fuel ih =>
            intro axes r r' s h
            unfold lineLoop at h ⊢
            simp only at h ⊢
            split at h
            · next hc => rw [if_pos hc]; exact ⟨_, rfl⟩
            · next hc =>
              rw [if_neg hc]
              obtain ⟨o, ho⟩ := ih _ _ (r' ++ (rows (tmin junk axes) axes).2) _ h
              exact ⟨(rows (tmin junk axes) axes).2 ++ o, by rw [ho, List.append_assoc]⟩
        obtain ⟨o, ho⟩ := hend _ _ _ (ret ++ out) _ h1
        exact ⟨out ++ o, by rw [ho, List.append_assoc], ps, hvs, by simp, fun p hp h0 =>
          ⟨hen p hp h0, lt_of_lt_of_le h (hmin.2 p hp h0)⟩⟩

/-- Per axis: the pixel that strictly contains the point at `t`. -/
theorem axis_unique {p : Int × Nat} {t : ℚ} {y : Int}
    (hy : |(y : ℚ) - t * p.1| < 1 / 2) (h : p.1 ≠ 0 → enter p ≤ t ∧ t ≤ leave p) :
    p.1.sign * p.2 = y := by
  have h1 := cube_of h
  rw [abs_lt] at hy
  rw [abs_le] at h1
  have h2 : ((p.1.sign * p.2 : Int) : ℚ) < (y : ℚ) + 1 := by linarith
  have h3 : (y : ℚ) < ((p.1.sign * p.2 : Int) : ℚ) + 1 := by linarith
  have h2' : p.1.sign * p.2 < y + 1 := by exact_mod_cast h2
  have h3' : y < p.1.sign * p.2 + 1 := by exact_mod_cast h3
  omega

/-- A point strictly inside a pixel is on no boundary. -/
theorem not_boundary {v y : Int} {t : ℚ} (hy : |(y : ℚ) - t * v| < 1 / 2) (h0 : v ≠ 0) (m : Nat) :
    leave (v, m) ≠ t := by
  intro e
  have h1 : (v.sign * (m : Int) : Int) = y := axis_unique (p := (v, m)) hy fun _ =>
    ⟨by rw [← e]; exact enter_le_leave, by rw [e]⟩
  have h2 : (v.sign * ((m + 1 : Nat) : Int) : Int) = y := axis_unique (p := (v, m + 1)) hy fun _ =>
    ⟨by rw [← e, enter_succ], by rw [← e]; exact leave_mono (Nat.le_succ m)⟩
  have h3 : v.sign ≠ 0 := by rw [Ne, Int.sign_eq_zero_iff_zero]; exact h0
  have := Int.eq_of_mul_eq_mul_left h3 (h1.trans h2.symm)
  omega

/-- A pixel whose open unit cube the line meets is a row. -/
theorem line_visits {rows : ℚ → List (Axis ℚ) → List (Axis ℚ) × List (List Int)} {vs : List Int}
    (h3 : vs.length ≤ 3) (hb : ∀ v ∈ vs, v.natAbs ≤ 707)
    (hrows : ∀ (ps : List (Int × Nat)) (τ T : ℚ), ps.map Prod.fst = vs → Good 707 ps → left ps ≠ 0 →
      IsMin T ps → ∃ out, rows (T - τ) (ps.map (mk τ)) = ((ps.map (inc T)).map (mk τ), out) ∧
        rowOf (ps.map (inc T)) ∈ out) (junk : ℚ) {fuel : Nat}
    (hne : manhattan (List.replicate vs.length 0) vs ≠ 0)
    (hf : manhattan (List.replicate vs.length 0) vs ≤ fuel) {y : List Int} (hy : Crosses vs y) :
    ∃ ret, line rows junk fuel (List.replicate vs.length 0) vs = ok ret ∧ y ∈ ret := by
  obtain ⟨t, t0, t1, hy⟩ := hy
  have hg := initial_good hb
  rw [← initial_left] at hne hf
  have hmem : ∀ v ∈ vs, ∃ c : Int, |(c : ℚ) - t * v| < 1 / 2 := by
    intro v hv
    obtain ⟨i, hi, rfl⟩ := List.mem_iff_getElem.1 hv
    have h1 := List.Forall₂.length_eq hy
    exact ⟨y[i]'(by omega), (List.forall₂_iff_get.1 hy).2 i hi (by omega)⟩
  obtain ⟨out, h1, ps', h2, h4, h5⟩ := lineLoop_visits hrows junk t1
    (fun v hv h0 m => by obtain ⟨c, hc⟩ := hmem v hv; exact not_boundary hc h0 m) fuel _ 0
    [List.replicate vs.length 0] (initial_fst vs) hg hne hf (by
      intro p hp h0
      obtain ⟨v, -, rfl⟩ := List.mem_map.1 hp
      refine lt_of_lt_of_le ?_ t0
      unfold enter
      apply div_neg_of_neg_of_pos _ (natAbs_pos h0)
      norm_num)
  refine ⟨List.replicate vs.length 0 :: out, ?_, ?_⟩
  · unfold line
    rw [if_neg (by simp; omega)]
    simp only [initial_axes, row_mk, initial_row]
    rw [h1]
    rfl
  · rw [initial_row] at h4
    have e : rowOf ps' = y := by
      rw [← h2] at hy
      have hlen := List.Forall₂.length_eq hy
      rw [List.length_map] at hlen
      apply List.ext_getElem (by simpa [rowOf] using hlen)
      intro i h6 h7
      have h8 : i < ps'.length := by omega
      have h9 := (List.forall₂_iff_get.1 hy).2 i (by simpa using h8) h7
      simp only [rowOf, List.getElem_map]
      refine axis_unique (t := t) (p := ps'[i]) ?_ fun h0 => ?_
      · simpa using h9
      · have := h5 _ (List.getElem_mem h8) h0
        exact ⟨this.1.le, this.2.le⟩
    rw [← e]
    exact h4

end Verif.Path
