import Verif.Props.PathExact
import Verif.Spec.PathTurns

/-!
# The pixels of mode full
-/

namespace Verif.Path

open Verif Outcome Spec

/-- The line is inside the pixel along all axes at once. -/
def Strict (ps : List (Int × Nat)) : Prop := ∀ p ∈ ps, ∀ q ∈ ps, p.1 ≠ 0 → q.1 ≠ 0 → enter q < leave p

theorem inside_of {p : Int × Nat} {t : ℚ} (h : p.1 ≠ 0 → enter p < t ∧ t < leave p) :
    |((p.1.sign * p.2 : Int) : ℚ) - t * p.1| < 1 / 2 := by
  by_cases h0 : p.1 = 0
  · rw [h0]; simp
  · obtain ⟨h1, h2⟩ := h h0
    have hn := natAbs_pos h0
    unfold enter at h1
    unfold leave at h2
    rw [div_lt_iff₀ hn] at h1
    rw [lt_div_iff₀ hn] at h2
    have e := sign_mul_natAbs p.1
    have : ((p.1.sign * p.2 : Int) : ℚ) - t * p.1 = ((p.1.sign : Int) : ℚ) * (p.2 - t * p.1.natAbs) := by
      rw [mul_sub]
      push_cast
      rw [mul_left_comm, e]
    rw [this, abs_mul]
    have hsg : |((p.1.sign : Int) : ℚ)| = 1 := by
      rcases lt_or_gt_of_ne h0 with h3 | h3
      · rw [Int.sign_eq_neg_one_of_neg h3]; norm_num
      · rw [Int.sign_eq_one_of_pos h3]; norm_num
    rw [hsg, one_mul, abs_lt]
    constructor <;> linarith

theorem justAfter_of {p : Int × Nat} {t : ℚ} (h : p.1 ≠ 0 → enter p ≤ t ∧ t < leave p) :
    JustAfter t p.1 (p.1.sign * p.2) := by
  by_cases h0 : p.1 = 0
  · exact ⟨1, one_pos, fun s _ _ => inside_of fun h' => absurd h0 h'⟩
  · obtain ⟨h1, h2⟩ := h h0
    exact ⟨leave p - t, by linarith, fun s h3 h4 => inside_of fun _ => ⟨by linarith, by linarith⟩⟩

theorem justBefore_of {p : Int × Nat} {t : ℚ} (h : p.1 ≠ 0 → enter p < t ∧ t ≤ leave p) :
    JustBefore t p.1 (p.1.sign * p.2) := by
  by_cases h0 : p.1 = 0
  · exact ⟨1, one_pos, fun s _ _ => inside_of fun h' => absurd h0 h'⟩
  · obtain ⟨h1, h2⟩ := h h0
    exact ⟨t - enter p, by linarith, fun s h3 h4 => inside_of fun _ => ⟨by linarith, by linarith⟩⟩

/-- The rows of one update: the first axes are updated, the others are not. -/
theorem fullRows_split {T τ : ℚ} : ∀ (P D : List (Int × Nat)), ∀ x ∈ (fullRows (T - τ) (D.map (mk τ)) (P.map (mk τ))).2,
    ∃ k, x = rowOf (D ++ ((P.take k).map (inc T) ++ P.drop k))
  | [], D, x, hx => by simp [fullRows] at hx
  | p :: P, D, x, hx => by
    rw [List.map_cons, fullRows, mk_selected] at hx
    by_cases hs : sel T p
    · have hinc : inc T p = (p.1, p.2 + 1) := by unfold inc; rw [if_pos hs]
      rw [if_pos (by simpa using hs), mk_advance] at hx
      have e' : List.map (mk τ) D ++ [mk τ (p.1, p.2 + 1)] = List.map (mk τ) (D ++ [(p.1, p.2 + 1)]) := by simp
      rw [e'] at hx
      rcases List.mem_cons.1 hx with rfl | hx
      · refine ⟨1, ?_⟩
        rw [← row_mk τ]
        simp [hinc]
      · obtain ⟨k, rfl⟩ := fullRows_split P _ x hx
        exact ⟨k + 1, by simp [hinc]⟩
    · have hinc : inc T p = p := by unfold inc; rw [if_neg hs]
      rw [if_neg (by simpa using hs)] at hx
      have e' : List.map (mk τ) D ++ [mk τ p] = List.map (mk τ) (D ++ [p]) := by simp
      rw [e'] at hx
      obtain ⟨k, rfl⟩ := fullRows_split P _ x hx
      exact ⟨k + 1, by simp [hinc]⟩

theorem turns_of {ps : List (Int × Nat)} (hg : Good 707 ps) (hl : left ps ≠ 0) (hs : Strict ps) {T : ℚ} (hT : IsMin T ps)
    (k : Nat) : Turns (ps.map Prod.fst) (rowOf ((ps.take k).map (inc T) ++ ps.drop k)) := by
  have hlen : ((ps.take k).map (inc T) ++ ps.drop k).length = ps.length := by simp; omega
  refine ⟨by simp [rowOf]; omega, T, min_nonneg hT, min_le_one hl hT, k, fun i hi => ?_⟩
  have hi' : i < ps.length := by simpa using hi
  rw [getD_fst hi', getD_rowOf (by omega)]
  have hp := List.getElem_mem hi'
  have hsp := hT.2 _ hp
  constructor
  · intro h
    have e : ((ps.take k).map (inc T) ++ ps.drop k)[i]'(by omega) = inc T ps[i] := by
      rw [List.getElem_append_left (by simp; omega)]
      simp
    rw [e]
    have h1 := justAfter_of (p := inc T ps[i]) (t := T) (by
      intro h0
      rw [inc_fst] at h0
      by_cases hsel : sel T ps[i]
      · have e1 : inc T ps[i] = (ps[i].1, ps[i].2 + 1) := by unfold inc; rw [if_pos hsel]
        have he := sel_exact hg.bound hT hp hsel
        rw [e1, enter_succ, leave_succ h0]
        have : (0 : ℚ) < 1 / ps[i].1.natAbs := one_div_pos.2 (natAbs_pos h0)
        exact ⟨he.le, by linarith⟩
      · have e1 : inc T ps[i] = ps[i] := by unfold inc; rw [if_neg hsel]
        rw [e1]
        obtain ⟨⟨q, hq, hq0, e2⟩, hmin⟩ := hT
        refine ⟨by rw [← e2]; exact hg.pair q hq _ hp hq0 h0, ?_⟩
        have h3 : eps ≤ |leave ps[i] - T| := not_lt.1 fun h => hsel ⟨h0, h⟩
        have heps : (0 : ℚ) < eps := by unfold eps; norm_num
        rw [abs_of_nonneg (by linarith [hsp h0])] at h3
        linarith)
    rw [inc_fst] at h1 ⊢
    exact h1
  · intro h
    have e : ((ps.take k).map (inc T) ++ ps.drop k)[i]'(by omega) = ps[i] := by
      rw [List.getElem_append_right (by simp; omega)]
      simp
      congr 1
      omega
    rw [e]
    refine justBefore_of fun h0 => ⟨?_, hsp h0⟩
    obtain ⟨⟨q, hq, hq0, e2⟩, hmin⟩ := hT
    rw [← e2]
    exact hs q hq _ hp hq0 h0

theorem lineLoop_turns {vs : List Int} (junk : ℚ) :
    ∀ (fuel : Nat) (ps : List (Int × Nat)) (τ : ℚ) (ret ret' : List (List Int)), ps.map Prod.fst = vs →
      Good 707 ps → Strict ps → left ps ≠ 0 → (∀ x ∈ ret, Turns vs x) →
      lineLoop (fun tm => fullRows tm []) junk fuel (ps.map (mk τ)) ret = ok ret' → ∀ x ∈ ret', Turns vs x := by
  intro fuel
  induction fuel with
  | zero => intro ps τ ret ret' _ _ _ _ _ h; cases h
  | succ fuel ih =>
    intro ps τ ret ret' hvs hg hst hl hret h
    have hB : 707 ≤ 1000000 := by omega
    obtain ⟨q, hq, hlt⟩ := left_pos_iff.1 hl
    have hq0 : q.1 ≠ 0 := by intro e; rw [e] at hlt; simp at hlt
    obtain ⟨T, hT, hmin⟩ := tmin_mk (junk := junk) (τ := τ) ⟨q, hq, hq0⟩
    obtain ⟨out, hout, -⟩ := full_rows hB ps τ T hvs hg hl hmin
    have hg' := good_inc hB hg hl hmin
    have hvs' : (ps.map (inc T)).map Prod.fst = vs := by
      rw [← hvs, List.map_map]
      apply List.map_congr_left
      intro p _
      exact inc_fst T p
    have hplace : ((ps.map (inc T)).map (mk τ)).map (fun a => a.place (T - τ)) =
        (ps.map (inc T)).map (mk (T - τ)) := by
      rw [List.map_map]
      apply List.map_congr_left
      intro p _
      exact mk_place _ _ _
    have hrow : ∀ x ∈ ret ++ out, Turns vs x := by
      intro x hx
      rcases List.mem_append.1 hx with hx | hx
      · exact hret x hx
      · have := fullRows_split (T := T) (τ := τ) ps [] x
        rw [List.map_nil, hout] at this
        obtain ⟨k, rfl⟩ := this hx
        rw [← hvs]
        exact turns_of hg hl hst hmin k
    unfold lineLoop at h
    simp only [hT, hout, hplace] at h
    rw [row_done hg'] at h
    by_cases hd : left (ps.map (inc T)) = 0
    · rw [if_pos (by simpa using hd)] at h
      cases h
      exact hrow
    · rw [if_neg (by simpa using hd)] at h
      exact ih _ _ _ _ hvs' hg' (strict_inc hB hg hmin) hd hrow h

/-- All rows of mode full are visited in turn. -/
theorem line_turns {vs : List Int} (h3 : vs.length ≤ 3) (hb : ∀ v ∈ vs, v.natAbs ≤ 707) (junk : ℚ) {fuel : Nat}
    (hne : manhattan (List.replicate vs.length 0) vs ≠ 0) {ret : List (List Int)}
    (h : line (fun tm => fullRows tm []) junk fuel (List.replicate vs.length 0) vs = ok ret) :
    ∀ x ∈ ret, Turns vs x := by
  have hg := initial_good hb
  rw [← initial_left] at hne
  unfold line at h
  rw [if_neg (by simp; omega)] at h
  simp only [initial_axes, row_mk, initial_row] at h
  have hen : ∀ p ∈ vs.map fun v => ((v, 0) : Int × Nat), p.1 ≠ 0 → enter p < 0 ∧ 0 < leave p := by
    intro p hp h0
    obtain ⟨v, -, rfl⟩ := List.mem_map.1 hp
    have hn := natAbs_pos h0
    unfold enter leave
    constructor
    · apply div_neg_of_neg_of_pos _ hn
      norm_num
    · positivity
  refine lineLoop_turns junk fuel _ 0 _ ret (initial_fst vs) hg ?_ hne ?_ h
  · intro p hp q hq hp0 hq0
    exact (hen q hq hq0).1.trans (hen p hp hp0).2
  · intro x hx
    rw [List.mem_singleton] at hx
    subst hx
    refine ⟨by simp, 0, le_refl _, by norm_num, 0, fun i hi => ⟨fun h => by omega, fun _ => ?_⟩⟩
    have hi' : i < (vs.map fun v => ((v, 0) : Int × Nat)).length := by simpa using hi
    have h1 := justBefore_of (t := 0) fun h0 => ⟨(hen _ (List.getElem_mem hi') h0).1, (hen _ (List.getElem_mem hi') h0).2.le⟩
    rw [← initial_row, getD_rowOf hi', show vs.getD i 0 = ((vs.map fun v => ((v, 0) : Int × Nat))[i]).1 by simp [List.getD, hi]]
    exact h1

/-! ### The order of the pixels -/

/-- Along an axis with displacement `a`, `c` is not behind `c'`. -/
def Earlier (a c c' : Int) : Prop := (0 < a → c ≤ c') ∧ (a < 0 → c' ≤ c) ∧ (a = 0 → c = c')

theorem earlier_of {a c c' : Int} {s s' : ℚ} (hss : s ≤ s') (h : |(c : ℚ) - s * a| < 1 / 2) (h' : |(c' : ℚ) - s' * a| < 1 / 2) :
    Earlier a c c' := by
  rw [abs_lt] at h h'
  refine ⟨fun ha => ?_, fun ha => ?_, fun ha => ?_⟩
  · have ha' : (0 : ℚ) < a := by exact_mod_cast ha
    have h1 : s * a ≤ s' * a := by nlinarith
    have h2 : (c : ℚ) < c' + 1 := by linarith
    have : c < c' + 1 := by exact_mod_cast h2
    omega
  · have ha' : (a : ℚ) < 0 := by exact_mod_cast ha
    have h1 : s' * a ≤ s * a := by nlinarith
    have h2 : (c' : ℚ) < c + 1 := by linarith
    have : c' < c + 1 := by exact_mod_cast h2
    omega
  · subst ha
    simp only [Int.cast_zero, mul_zero, sub_zero] at h h'
    have h1 : (c : ℚ) < c' + 1 := by linarith
    have h2 : (c' : ℚ) < c + 1 := by linarith
    have h3 : c < c' + 1 := by exact_mod_cast h1
    have h4 : c' < c + 1 := by exact_mod_cast h2
    omega

theorem after_before {a c c' : Int} {t t' : ℚ} (h : t < t') (h1 : JustAfter t a c) (h2 : JustBefore t' a c') :
    Earlier a c c' := by
  obtain ⟨e, he, h1⟩ := h1
  obtain ⟨e', he', h2⟩ := h2
  set m := (t + t') / 2 with hm
  have a1 : t < min (t + e / 2) m := by rw [lt_min_iff]; constructor <;> linarith
  have a2 : min (t + e / 2) m ≤ t + e / 2 := min_le_left _ _
  have a3 : min (t + e / 2) m ≤ m := min_le_right _ _
  have b1 : max (t' - e' / 2) m < t' := by rw [max_lt_iff]; constructor <;> linarith
  have b2 : t' - e' / 2 ≤ max (t' - e' / 2) m := le_max_left _ _
  have b3 : m ≤ max (t' - e' / 2) m := le_max_right _ _
  exact earlier_of (a3.trans b3) (h1 _ a1 (by linarith)) (h2 _ (by linarith) b1)

theorem after_after {a c c' : Int} {t t' : ℚ} (h : t ≤ t') (h1 : JustAfter t a c) (h2 : JustAfter t' a c') :
    Earlier a c c' := by
  obtain ⟨e, he, h1⟩ := h1
  obtain ⟨e', he', h2⟩ := h2
  have hm : 0 < min e e' := lt_min he he'
  have a1 : min e e' ≤ e := min_le_left _ _
  have a2 : min e e' ≤ e' := min_le_right _ _
  exact earlier_of (s := t + min e e' / 2) (s' := t' + min e e' / 2) (by linarith) (h1 _ (by linarith) (by linarith))
    (h2 _ (by linarith) (by linarith))

theorem before_before {a c c' : Int} {t t' : ℚ} (h : t ≤ t') (h1 : JustBefore t a c) (h2 : JustBefore t' a c') :
    Earlier a c c' := by
  obtain ⟨e, he, h1⟩ := h1
  obtain ⟨e', he', h2⟩ := h2
  have hm : 0 < min e e' := lt_min he he'
  have a1 : min e e' ≤ e := min_le_left _ _
  have a2 : min e e' ≤ e' := min_le_right _ _
  exact earlier_of (s := t - min e e' / 2) (s' := t' - min e e' / 2) (by linarith) (h1 _ (by linarith) (by linarith))
    (h2 _ (by linarith) (by linarith))

theorem before_after {a c c' : Int} {t t' : ℚ} (h : t ≤ t') (h1 : JustBefore t a c) (h2 : JustAfter t' a c') :
    Earlier a c c' := by
  obtain ⟨e, he, h1⟩ := h1
  obtain ⟨e', he', h2⟩ := h2
  exact earlier_of (s := t - e / 2) (s' := t' + e' / 2) (by linarith) (h1 _ (by linarith) (by linarith))
    (h2 _ (by linarith) (by linarith))

/-- `y` is not behind `y'` along any axis. -/
def EarlierAll (v y y' : List Int) : Prop := ∀ i < v.length, Earlier (v.getD i 0) (y.getD i 0) (y'.getD i 0)

theorem turns_total {v y y' : List Int} (h : Turns v y) (h' : Turns v y') : EarlierAll v y y' ∨ EarlierAll v y' y := by
  obtain ⟨-, t, -, -, k, h⟩ := h
  obtain ⟨-, t', -, -, k', h'⟩ := h'
  have key : ∀ {t t' : ℚ} {k k' : Nat} {y y' : List Int}, (t < t' ∨ t = t' ∧ k ≤ k') →
      (∀ i < v.length, (i < k → JustAfter t (v.getD i 0) (y.getD i 0)) ∧ (k ≤ i → JustBefore t (v.getD i 0) (y.getD i 0))) →
      (∀ i < v.length, (i < k' → JustAfter t' (v.getD i 0) (y'.getD i 0)) ∧ (k' ≤ i → JustBefore t' (v.getD i 0) (y'.getD i 0))) →
      EarlierAll v y y' := by
    intro t t' k k' y y' ho h h' i hi
    obtain ⟨h1, h2⟩ := h i hi
    obtain ⟨h3, h4⟩ := h' i hi
    have hle : t ≤ t' := by
      rcases ho with h | h
      · exact h.le
      · exact h.1.le
    by_cases c1 : i < k
    · by_cases c2 : i < k'
      · exact after_after hle (h1 c1) (h3 c2)
      · rcases ho with ho | ho
        · exact after_before ho (h1 c1) (h4 (not_lt.1 c2))
        · omega
    · by_cases c2 : i < k'
      · exact before_after hle (h2 (not_lt.1 c1)) (h3 c2)
      · exact before_before hle (h2 (not_lt.1 c1)) (h4 (not_lt.1 c2))
  rcases lt_trichotomy t t' with c | c | c
  · exact Or.inl (key (Or.inl c) h h')
  · rcases Nat.le_total k k' with d | d
    · exact Or.inl (key (Or.inr ⟨c, d⟩) h h')
    · exact Or.inr (key (Or.inr ⟨c.symm, d⟩) h' h)
  · exact Or.inr (key (Or.inl c) h' h)

theorem earlier_antisymm {v y y' : List Int} (hl : y.length = v.length) (hl' : y'.length = v.length)
    (h : EarlierAll v y y') (h' : EarlierAll v y' y) : y = y' := by
  apply List.ext_getElem (by omega)
  intro i h1 h2
  have a1 := h i (by omega)
  have a2 := h' i (by omega)
  unfold Earlier at a1 a2
  simp only [List.getD, List.getElem?_eq_getElem h1, List.getElem?_eq_getElem h2, Option.getD_some] at a1 a2
  generalize v[i]?.getD 0 = a at a1 a2
  omega

/-- Between the ends of a step there is nothing. -/
theorem earlier_step {v z w y : List Int} (hz : z.length = v.length) (hy : y.length = v.length) (hs : UnitStep v z w)
    (h1 : EarlierAll v z y) (h2 : EarlierAll v y w) : y = z ∨ y = w := by
  obtain ⟨j, hj, hs⟩ := hs
  have hother : ∀ {c : Int}, w = z.set j c → ∀ i < v.length, i ≠ j → y.getD i 0 = z.getD i 0 := by
    intro c hw i hi hij
    have a1 := h1 i hi
    have a2 := h2 i hi
    rw [hw] at a2
    have : (z.set j c).getD i 0 = z.getD i 0 := by simp [List.getD, List.getElem?_set_ne (Ne.symm hij)]
    rw [this] at a2
    unfold Earlier at a1 a2
    omega
  have hset : ∀ {c : Int}, (z.set j c).getD j 0 = c := by
    intro c; simp [List.getD, List.getElem?_set_self (show j < z.length by omega)]
  have fin : ∀ {x : List Int}, x.length = v.length → (∀ i < v.length, y.getD i 0 = x.getD i 0) → y = x := by
    intro x hx h
    apply List.ext_getElem (by omega)
    intro i g1 g2
    have := h i (by omega)
    simpa [List.getD, g1, g2] using this
  have a1 := h1 j hj
  have a2 := h2 j hj
  have main : ∀ c : Int, w = z.set j c → (y.getD j 0 = z.getD j 0 ∨ y.getD j 0 = c) → y = z ∨ y = w := by
    intro c hw hor
    rcases hor with h | h
    · left
      apply fin hz
      intro i hi
      by_cases e : i = j
      · rw [e]; exact h
      · exact hother hw i hi e
    · right
      rw [hw]
      apply fin (by simpa using hz)
      intro i hi
      by_cases e : i = j
      · rw [e, hset]; exact h
      · rw [hother hw i hi e]
        simp [List.getD, List.getElem?_set_ne (Ne.symm e)]
  rcases hs with ⟨hlt, hw⟩ | ⟨hlt, hw⟩
  · apply main _ hw
    rw [hw, hset] at a2
    unfold Earlier at a1 a2
    omega
  · apply main _ hw
    rw [hw, hset] at a2
    unfold Earlier at a1 a2
    omega

/-- A chain of steps visits everything in between. -/
theorem chain_visits {v y : List Int} (hy : y.length = v.length) : ∀ (l : List (List Int)) (z : List Int),
    (z :: l).IsChain (UnitStep v) → (∀ x ∈ z :: l, x.length = v.length ∧ (EarlierAll v x y ∨ EarlierAll v y x)) →
    EarlierAll v z y → (∀ x, (z :: l).getLast? = some x → EarlierAll v y x) → y ∈ z :: l
  | [], z, _, h, hz, hl => by
    rw [List.mem_singleton]
    exact earlier_antisymm hy (h z (by simp)).1 (hl z (by simp)) hz
  | w :: l, z, hc, h, hz, hl => by
    rw [List.isChain_cons_cons] at hc
    rcases (h w (by simp)).2 with h1 | h1
    · exact List.mem_cons_of_mem _ (chain_visits hy l w hc.2 (fun x hx => h x (by simp [hx])) h1
        (fun x hx => hl x (by rw [List.getLast?_cons_cons]; exact hx)))
    · rcases earlier_step (h z (by simp)).1 hy hc.1 hz h1 with e | e <;> simp [e]

end Verif.Path
