import Verif.Lemmas.Line

/-!
# The rows that `actual` and `full` emit
-/

namespace Verif.Path

open Verif Outcome Spec

theorem map_inc_mk (τ T : ℚ) (ps : List (Int × Nat)) :
    ((ps.map (mk τ)).map fun a => if a.selected (T - τ) then a.advance else a) =
      (ps.map (inc T)).map (mk τ) := by
  rw [List.map_map, List.map_map]
  apply List.map_congr_left
  intro p _
  exact mk_inc τ T p

theorem getD_rowOf {ps : List (Int × Nat)} {i : Nat} (hi : i < ps.length) :
    (rowOf ps).getD i 0 = ps[i].1.sign * ps[i].2 := by
  simp [rowOf, List.getD, hi]

theorem getD_fst {ps : List (Int × Nat)} {i : Nat} (hi : i < ps.length) :
    (ps.map Prod.fst).getD i 0 = ps[i].1 := by
  simp [List.getD, hi]

theorem rowOf_inSpan {ps : List (Int × Nat)} (h : ∀ p ∈ ps, p.2 ≤ p.1.natAbs) :
    InSpan (List.replicate ps.length 0) (ps.map Prod.fst) (rowOf ps) := by
  refine ⟨by simp [rowOf], fun i hi => ?_⟩
  rw [List.length_replicate] at hi
  rw [getD_rowOf hi, getD_fst hi]
  have h1 := h _ (List.getElem_mem hi)
  have : (List.replicate ps.length (0 : Int)).getD i 0 = 0 := by simp [List.getD, hi]
  rw [this]
  unfold Between
  rcases lt_trichotomy ps[i].1 0 with h2 | h2 | h2
  · rw [Int.sign_eq_neg_one_of_neg h2]; omega
  · rw [h2]; simp
  · rw [Int.sign_eq_one_of_pos h2]; omega

/-- One step along an axis. -/
theorem towards_succ {v : Int} {m : Nat} (h : m < v.natAbs) :
    (v.sign * m < v ∧ v.sign * ((m + 1 : Nat) : Int) = v.sign * m + 1) ∨
      (v < v.sign * m ∧ v.sign * ((m + 1 : Nat) : Int) = v.sign * m - 1) := by
  rcases lt_trichotomy v 0 with h2 | h2 | h2
  · rw [Int.sign_eq_neg_one_of_neg h2]; right; omega
  · rw [h2] at h; simp at h
  · rw [Int.sign_eq_one_of_pos h2]; left; omega

theorem actual_step {ps : List (Int × Nat)} {T : ℚ} (h : ∀ p ∈ ps, sel T p → p.2 < p.1.natAbs)
    (hpos : 0 < nsel T ps) :
    StepTowards (ps.map Prod.fst) (rowOf ps) (rowOf (ps.map (inc T))) := by
  have hget : ∀ i (hi : i < ps.length), (rowOf (ps.map (inc T))).getD i 0 =
      (inc T ps[i]).1.sign * (inc T ps[i]).2 := by
    intro i hi
    rw [getD_rowOf (by simpa using hi)]
    simp
  refine ⟨?_, by simp [rowOf], fun i hi => ?_⟩
  · intro he
    obtain ⟨p, hp⟩ := List.exists_mem_of_length_pos hpos
    rw [List.mem_filter, decide_eq_true_eq] at hp
    obtain ⟨i, hi, rfl⟩ := List.mem_iff_getElem.1 hp.1
    have h1 := hget i hi
    rw [he, getD_rowOf hi] at h1
    have h2 := h _ hp.1 hp.2
    have e : inc T ps[i] = (ps[i].1, ps[i].2 + 1) := by unfold inc; rw [if_pos hp.2]
    rw [e] at h1
    simp only at h1
    rcases towards_succ h2 with h3 | h3 <;> omega
  · have hi' : i < ps.length := by simpa using hi
    rw [getD_fst hi', hget i hi', getD_rowOf hi']
    by_cases hs : sel T ps[i]
    · have e : inc T ps[i] = (ps[i].1, ps[i].2 + 1) := by unfold inc; rw [if_pos hs]
      rw [e]
      exact Or.inr (towards_succ (h _ (List.getElem_mem hi') hs))
    · have e : inc T ps[i] = ps[i] := by unfold inc; rw [if_neg hs]
      rw [e]
      exact Or.inl rfl

/-- The rows of mode `full`: all are rows of states whose axes satisfy `E`. -/
theorem fullRows_ok {T τ : ℚ} {E : Int × Nat → Prop} : ∀ (P D : List (Int × Nat)),
    (∀ p ∈ P, sel T p → p.2 < p.1.natAbs) → (∀ p ∈ D, E p) → (∀ p ∈ P, E p) →
    (∀ p ∈ P, sel T p → E (p.1, p.2 + 1)) →
    ∃ out, fullRows (T - τ) (D.map (mk τ)) (P.map (mk τ)) = ((D ++ P.map (inc T)).map (mk τ), out) ∧
      (rowOf (D ++ P) :: out).getLast? = some (rowOf (D ++ P.map (inc T))) ∧
      (rowOf (D ++ P) :: out).IsChain (UnitStep ((D ++ P).map Prod.fst)) ∧
      (∀ x ∈ out, ∃ ps', ps'.map Prod.fst = (D ++ P).map Prod.fst ∧ (∀ p ∈ ps', E p) ∧ x = rowOf ps') ∧
      out.length = nsel T P
  | [], D, _, _, _, _ => ⟨[], by simp [fullRows], by simp, by simp, by simp, rfl⟩
  | p :: P, D, h1, h2, h3, h4 => by
    by_cases hs : sel T p
    · have hinc : inc T p = (p.1, p.2 + 1) := by unfold inc; rw [if_pos hs]
      obtain ⟨out, e, hl, hc, hq, hn⟩ := fullRows_ok (T := T) (τ := τ) (E := E) P (D ++ [(p.1, p.2 + 1)])
        (fun q hq => h1 q (by simp [hq]))
        (fun q hq => by
          rcases List.mem_append.1 hq with h | h
          · exact h2 q h
          · simp at h; subst h; exact h4 p (by simp) hs)
        (fun q hq => h3 q (by simp [hq])) (fun q hq => h4 q (by simp [hq]))
      have happ : ∀ l : List (Int × Nat), (D ++ [(p.1, p.2 + 1)]) ++ l = D ++ (p.1, p.2 + 1) :: l := by
        intro l; simp
      rw [happ] at hl hc hq e
      have hfst : (D ++ (p.1, p.2 + 1) :: P).map Prod.fst = (D ++ p :: P).map Prod.fst := by simp
      refine ⟨rowOf (D ++ (p.1, p.2 + 1) :: P) :: out, ?_, ?_, ?_, ?_, ?_⟩
      · rw [List.map_cons, fullRows, mk_selected, if_pos (by simpa using hs), mk_advance]
        have e' : List.map (mk τ) D ++ [mk τ (p.1, p.2 + 1)] =
            List.map (mk τ) (D ++ [(p.1, p.2 + 1)]) := by simp
        rw [e']
        rw [happ] at hl
        simp only [e]
        rw [List.map_cons, hinc, ← row_mk τ]
        simp
      · rw [List.getLast?_cons_cons, hl, happ, List.map_cons, hinc]
      · rw [List.isChain_cons_cons]
        rw [hfst] at hc
        refine ⟨?_, hc⟩
        refine ⟨D.length, by simp, ?_⟩
        have hlt := h1 p (by simp) hs
        have g1 : (rowOf (D ++ p :: P)).getD D.length 0 = p.1.sign * p.2 := by
          rw [getD_rowOf (by simp)]; simp
        have g2 : ((D ++ p :: P).map Prod.fst).getD D.length 0 = p.1 := by
          rw [getD_fst (by simp)]; simp
        have g3 : ∀ z : Int, (rowOf (D ++ p :: P)).set D.length z =
            rowOf D ++ z :: rowOf P := by
          intro z
          unfold rowOf
          rw [List.map_append, List.set_append_right _ _ (by simp)]
          simp
        rw [g1, g2, g3, g3]
        have g4 : rowOf (D ++ (p.1, p.2 + 1) :: P) =
            rowOf D ++ (p.1.sign * ((p.2 + 1 : Nat) : Int)) :: rowOf P := by simp [rowOf]
        rw [g4]
        rcases towards_succ hlt with ⟨h5, h6⟩ | ⟨h5, h6⟩
        · left; exact ⟨h5, by rw [h6]⟩
        · right; exact ⟨h5, by rw [h6]⟩
      · intro x hx
        rw [hfst] at hq
        rcases List.mem_cons.1 hx with rfl | hx
        · refine ⟨_, hfst, ?_, rfl⟩
          intro q hq'
          rcases List.mem_append.1 hq' with h | h
          · exact h2 q h
          · rcases List.mem_cons.1 h with rfl | h
            · exact h4 p (by simp) hs
            · exact h3 q (by simp [h])
        · exact hq x hx
      · rw [List.length_cons, hn]
        simp [nsel, hs]
    · have hinc : inc T p = p := by unfold inc; rw [if_neg hs]
      obtain ⟨out, e, hl, hc, hq, hn⟩ := fullRows_ok (T := T) (τ := τ) (E := E) P (D ++ [p])
        (fun q hq => h1 q (by simp [hq]))
        (fun q hq => by
          rcases List.mem_append.1 hq with h | h
          · exact h2 q h
          · simp at h; subst h; exact h3 q (by simp))
        (fun q hq => h3 q (by simp [hq])) (fun q hq => h4 q (by simp [hq]))
      have happ : ∀ l : List (Int × Nat), (D ++ [p]) ++ l = D ++ p :: l := by intro l; simp
      rw [happ] at hl hc hq
      refine ⟨out, ?_, ?_, hc, hq, ?_⟩
      · rw [List.map_cons, fullRows, mk_selected, if_neg (by simpa using hs)]
        have e' : List.map (mk τ) D ++ [mk τ p] = List.map (mk τ) (D ++ [p]) := by simp
        rw [e', e, happ, List.map_cons, hinc]
      · rw [hl, happ, List.map_cons, hinc]
      · rw [hn]; simp [nsel, hs]

/-- Below 708 different crossings are further apart than the tolerance. -/
theorem sel_exact {ps : List (Int × Nat)} (hb : ∀ p ∈ ps, p.1.natAbs ≤ 707) {T : ℚ} (hT : IsMin T ps)
    {p : Int × Nat} (hp : p ∈ ps) (hs : sel T p) : leave p = T := by
  obtain ⟨⟨q, hq, hq0, rfl⟩, -⟩ := hT
  by_contra hne
  have hp0 := hs.1
  have h1 := natAbs_pos hp0
  have h2 := natAbs_pos hq0
  have key : leave p - leave q =
      ((((2 * p.2 + 1) * q.1.natAbs : Nat) : Int) - (((2 * q.2 + 1) * p.1.natAbs : Nat) : Int) : Int) /
        (2 * p.1.natAbs * q.1.natAbs : ℚ) := by
    unfold leave
    rw [div_sub_div _ _ h1.ne' h2.ne', div_eq_div_iff (by positivity) (by positivity)]
    rw [Int.cast_sub, Int.cast_natCast, Int.cast_natCast]
    push_cast
    ring
  have h3 := hs.2
  rw [key, abs_div, div_lt_iff₀ (by positivity)] at h3
  have h4 : ((((2 * p.2 + 1) * q.1.natAbs : Nat) : Int) - (((2 * q.2 + 1) * p.1.natAbs : Nat) : Int) : Int) ≠ 0 := by
    intro h0
    rw [h0] at key
    simp at key
    exact hne (by linarith)
  have h5 : (1 : ℚ) ≤ |(((((2 * p.2 + 1) * q.1.natAbs : Nat) : Int) -
      (((2 * q.2 + 1) * p.1.natAbs : Nat) : Int) : Int) : ℚ)| := by
    exact_mod_cast Int.one_le_abs h4
  have b1 : (p.1.natAbs : ℚ) ≤ 707 := by exact_mod_cast hb p hp
  have b2 : (q.1.natAbs : ℚ) ≤ 707 := by exact_mod_cast hb q hq
  have b3 : (p.1.natAbs : ℚ) * q.1.natAbs ≤ 707 * 707 :=
    mul_le_mul b1 b2 h2.le (by norm_num)
  have h6 : |(2 * p.1.natAbs * q.1.natAbs : ℚ)| = 2 * (p.1.natAbs * q.1.natAbs) := by
    rw [abs_of_pos (by positivity)]; ring
  rw [h6] at h3
  unfold eps at h3
  linarith

theorem initial_good {B : Nat} {vs : List Int} (hb : ∀ v ∈ vs, v.natAbs ≤ B) :
    Good B (vs.map fun v => (v, 0)) where
  le := by intro p hp; obtain ⟨v, -, rfl⟩ := List.mem_map.1 hp; simp
  bound := by intro p hp; obtain ⟨v, hv, rfl⟩ := List.mem_map.1 hp; exact hb v hv
  pair := by
    intro p hp q hq _ _
    obtain ⟨v, -, rfl⟩ := List.mem_map.1 hp
    obtain ⟨w, -, rfl⟩ := List.mem_map.1 hq
    have h1 : enter (w, 0) ≤ 0 := by
      unfold enter
      apply div_nonpos_of_nonpos_of_nonneg _ (by positivity)
      norm_num
    have h2 : 0 ≤ leave (v, 0) := by unfold leave; positivity
    exact h1.trans h2

theorem initial_axes (vs : List Int) :
    List.zipWith (axis ℚ) (List.replicate vs.length 0) vs = (vs.map fun v => (v, 0)).map (mk 0) := by
  induction vs with
  | nil => rfl
  | cons v vs ih =>
    rw [List.length_cons, List.replicate_succ, List.zipWith_cons_cons, ih, axis_eq]
    rfl

theorem initial_left (vs : List Int) :
    left (vs.map fun v => (v, 0)) = manhattan (List.replicate vs.length 0) vs := by
  unfold left manhattan
  congr 1
  induction vs with
  | nil => rfl
  | cons v vs ih =>
    rw [List.length_cons, List.replicate_succ, List.zip_cons_cons, List.map_cons, List.map_cons,
      List.map_cons, ih]
    simp

theorem initial_fst (vs : List Int) : (vs.map fun v => ((v, 0) : Int × Nat)).map Prod.fst = vs := by
  simp [List.map_map, Function.comp_def]

theorem initial_row (vs : List Int) :
    rowOf (vs.map fun v => (v, 0)) = List.replicate vs.length 0 := by
  unfold rowOf
  rw [List.map_map]
  induction vs with
  | nil => rfl
  | cons v vs ih =>
    rw [List.map_cons, ih, List.length_cons, List.replicate_succ]
    simp

/-- A path from the origin is the origin followed by what the loop emits. -/
theorem line_ok {rows : ℚ → List (Axis ℚ) → List (Axis ℚ) × List (List Int)} {B : Nat}
    (hB : B ≤ 1000000) {vs : List Int} (h3 : vs.length ≤ 3) (hb : ∀ v ∈ vs, v.natAbs ≤ B)
    {R : List Int → List Int → Prop} {Q : List Int → Prop}
    {L : Nat → Nat → Prop} (hL : ∀ a b c d, L a b → L c d → L (a + c) (b + d))
    (hrows : ∀ (ps : List (Int × Nat)) (τ T : ℚ), ps.map Prod.fst = vs → Good B ps → left ps ≠ 0 →
      IsMin T ps → ∃ out, rows (T - τ) (ps.map (mk τ)) = ((ps.map (inc T)).map (mk τ), out) ∧
        out.getLast? = some (rowOf (ps.map (inc T))) ∧ (rowOf ps :: out).IsChain R ∧
        (∀ x ∈ out, Q x) ∧ L out.length (nsel T ps)) (junk : ℚ) {fuel : Nat}
    (hne : manhattan (List.replicate vs.length 0) vs ≠ 0)
    (hf : manhattan (List.replicate vs.length 0) vs ≤ fuel) :
    ∃ out, line rows junk fuel (List.replicate vs.length 0) vs =
        ok (List.replicate vs.length 0 :: out) ∧
      out.getLast? = some vs ∧ (List.replicate vs.length 0 :: out).IsChain R ∧ (∀ x ∈ out, Q x) ∧
      L out.length (manhattan (List.replicate vs.length 0) vs) := by
  have hg := initial_good hb
  rw [← initial_left] at hne hf
  obtain ⟨out, h1, h2, h3', h4, h5⟩ := lineLoop_ok hB hL hrows junk fuel _ 0
    [List.replicate vs.length 0] (initial_fst vs) hg hne hf
  rw [initial_row] at h3'
  refine ⟨out, ?_, h2, h3', h4, by rw [← initial_left]; exact h5⟩
  unfold line
  rw [if_neg (by simp; omega)]
  simp only [initial_axes, row_mk, initial_row]
  rw [h1]
  rfl

theorem actual_rows {B : Nat} (hB : B ≤ 1000000) {vs : List Int} (ps : List (Int × Nat)) (τ T : ℚ)
    (hvs : ps.map Prod.fst = vs) (hg : Good B ps) (hl : left ps ≠ 0) (hT : IsMin T ps) :
    ∃ out, actualRows (T - τ) (ps.map (mk τ)) = ((ps.map (inc T)).map (mk τ), out) ∧
      out.getLast? = some (rowOf (ps.map (inc T))) ∧ (rowOf ps :: out).IsChain (StepTowards vs) ∧
      (∀ x ∈ out, InSpan (List.replicate vs.length 0) vs x ∧ Meets vs x) ∧
      out.length ≤ nsel T ps := by
  have hg' := good_inc hB hg hl hT
  have hvs' : (ps.map (inc T)).map Prod.fst = vs := by
    rw [← hvs, List.map_map]
    apply List.map_congr_left
    intro p _
    exact inc_fst T p
  refine ⟨[rowOf (ps.map (inc T))], ?_, rfl, ?_, ?_, ?_⟩
  · simp only [actualRows, map_inc_mk, row_mk]
  · rw [List.isChain_cons_cons]
    refine ⟨?_, by simp⟩
    rw [← hvs]
    exact actual_step (fun p hp hs => sel_not_done hB hg hl hT hp hs) (nsel_pos hT)
  · intro x hx
    simp only [List.mem_singleton] at hx
    subst hx
    have h1 := rowOf_inSpan hg'.le
    obtain ⟨t, t0, t1, h2⟩ := common hg'
    have h3 := meets_of t0 t1 h2
    rw [hvs'] at h1 h3
    have hlen : (ps.map (inc T)).length = vs.length := by rw [← hvs']; simp
    rw [hlen] at h1
    exact ⟨h1, h3⟩
  · exact nsel_pos hT

theorem full_rows {B : Nat} (hB : B ≤ 1000000) {vs : List Int} (ps : List (Int × Nat)) (τ T : ℚ)
    (hvs : ps.map Prod.fst = vs) (hg : Good B ps) (hl : left ps ≠ 0) (hT : IsMin T ps) :
    ∃ out, fullRows (T - τ) [] (ps.map (mk τ)) = ((ps.map (inc T)).map (mk τ), out) ∧
      out.getLast? = some (rowOf (ps.map (inc T))) ∧ (rowOf ps :: out).IsChain (UnitStep vs) ∧
      (∀ x ∈ out, InSpan (List.replicate vs.length 0) vs x ∧
        ((∀ v ∈ vs, v.natAbs ≤ 707) → Meets vs x)) ∧
      out.length = nsel T ps := by
  have hsel : ∀ p ∈ ps, sel T p → p.2 < p.1.natAbs := fun p hp hs => sel_not_done hB hg hl hT hp hs
  obtain ⟨out, e, h1, h2, h3, h4⟩ := fullRows_ok (T := T) (τ := τ)
    (E := fun p => p.2 ≤ p.1.natAbs ∧
      ((∀ v ∈ vs, v.natAbs ≤ 707) → p.1 ≠ 0 → enter p ≤ T ∧ T ≤ leave p)) ps [] hsel (by simp)
    (fun p hp => ⟨hg.le p hp, fun _ h0 => by
      obtain ⟨⟨q, hq, hq0, e⟩, hmin⟩ := hT
      exact ⟨by rw [← e]; exact hg.pair q hq p hp hq0 h0, hmin p hp h0⟩⟩)
    (fun p hp hs => ⟨hsel p hp hs, fun hb h0 => by
      have he := sel_exact (fun q hq => hb q.1 (by rw [← hvs]; exact List.mem_map_of_mem hq)) hT hp hs
      refine ⟨?_, ?_⟩
      · rw [enter_succ]; exact he.le
      · rw [← he]; exact leave_mono (v := p.1) (Nat.le_succ p.2)⟩)
  simp only [List.map_nil, List.nil_append] at e h1 h2 h3
  have hpos := nsel_pos hT
  refine ⟨out, e, ?_, by rw [← hvs]; exact h2, ?_, h4⟩
  · match out, h4 with
    | [], h4 => simp at h4; omega
    | x :: xs, _ => rw [List.getLast?_cons_cons] at h1; exact h1
  · intro x hx
    obtain ⟨ps', hf, hE, rfl⟩ := h3 x hx
    rw [hvs] at hf
    have h5 := rowOf_inSpan fun p hp => (hE p hp).1
    have hlen : ps'.length = vs.length := by rw [← hf]; simp
    rw [hf, hlen] at h5
    refine ⟨h5, fun hb => ?_⟩
    have h6 := meets_of (min_nonneg hT) (min_le_one hl hT) fun p hp h0 => (hE p hp).2 hb h0
    rw [hf] at h6
    exact h6

end Verif.Path
