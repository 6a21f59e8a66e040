import Verif.Props.Path

/-!
# Mode actual visits exactly the pixels whose interior the line crosses (C32, C56)
-/

namespace Verif.Path

open Verif Outcome Spec

/-- The largest of numbers and `a`. -/
theorem exists_max (a : ℚ) : ∀ l : List ℚ, ∃ t ∈ a :: l, ∀ u ∈ a :: l, u ≤ t
  | [] => ⟨a, by simp, by simp⟩
  | b :: l => by
    obtain ⟨t, h1, h2⟩ := exists_max a l
    by_cases h : t < b
    · refine ⟨b, by simp, fun u hu => ?_⟩
      rcases List.mem_cons.1 hu with rfl | hu
      · exact (h2 u (by simp)).trans h.le
      · rcases List.mem_cons.1 hu with rfl | hu
        · exact le_refl _
        · exact (h2 u (by simp [hu])).trans h.le
    · refine ⟨t, ?_, fun u hu => ?_⟩
      · rcases List.mem_cons.1 h1 with h | h <;> simp [h]
      · rcases List.mem_cons.1 hu with rfl | hu
        · exact h2 u (by simp)
        · rcases List.mem_cons.1 hu with rfl | hu
          · exact not_lt.1 h
          · exact h2 u (by simp [hu])

/-- The smallest of numbers and `a`. -/
theorem exists_min (a : ℚ) (l : List ℚ) : ∃ t ∈ a :: l, ∀ u ∈ a :: l, t ≤ u := by
  obtain ⟨t, h1, h2⟩ := exists_max (-a) (l.map fun x => -x)
  have e : -a :: l.map (fun x => -x) = (a :: l).map fun x => -x := rfl
  rw [e] at h1 h2
  obtain ⟨s, hs, rfl⟩ := List.mem_map.1 h1
  exact ⟨s, hs, fun u hu => by have := h2 (-u) (List.mem_map.2 ⟨u, hu, rfl⟩); linarith⟩

/-- After an update the line is inside the new pixel along all axes at once, for a while. -/
theorem strict_inc {B : Nat} (hB : B ≤ 1000000) {ps : List (Int × Nat)} (hg : Good B ps)
    {T : ℚ} (hT : IsMin T ps) : ∀ p ∈ ps.map (inc T), ∀ q ∈ ps.map (inc T), p.1 ≠ 0 → q.1 ≠ 0 →
      enter q < leave p := by
  intro p' hp' q' hq' hp0 hq0
  obtain ⟨p, hp, rfl⟩ := List.mem_map.1 hp'
  obtain ⟨q, hq, rfl⟩ := List.mem_map.1 hq'
  rw [inc_fst] at hp0 hq0
  have h2 := hT.2 p hp hp0
  have heps : (0 : ℚ) < eps := by unfold eps; norm_num
  -- the axis `p` is left after `T`
  have hlp : T + eps ≤ leave (inc T p) := by
    by_cases hs' : sel T p
    · have e2 : leave (inc T p) = leave p + 1 / p.1.natAbs := by
        unfold inc; rw [if_pos hs']; exact leave_succ hp0
      have h3 := inv_le hB hp0 (hg.bound p hp)
      rw [e2]
      linarith
    · have h3 : eps ≤ |leave p - T| := not_lt.1 fun h => hs' ⟨hp0, h⟩
      rw [abs_of_nonneg (by linarith)] at h3
      have e2 : inc T p = p := by unfold inc; rw [if_neg hs']
      rw [e2]
      linarith
  refine lt_of_lt_of_le ?_ hlp
  by_cases hs : sel T q
  · have e1 : enter (inc T q) = leave q := by
      unfold inc; rw [if_pos hs]; exact enter_succ
    rw [e1]
    have h1 := (abs_lt.1 hs.2).2
    linarith
  · have e1 : inc T q = q := by unfold inc; rw [if_neg hs]
    rw [e1]
    obtain ⟨⟨r, hr, hr0, e⟩, -⟩ := hT
    have := hg.pair r hr q hq hr0 hq0
    rw [e] at this
    linarith

/-- A state in which the line is inside the pixel along all axes at once. -/
theorem crosses_of {B : Nat} {ps : List (Int × Nat)} (hg : Good B ps)
    (hs : ∀ p ∈ ps, ∀ q ∈ ps, p.1 ≠ 0 → q.1 ≠ 0 → enter q < leave p) : Crosses (ps.map Prod.fst) (rowOf ps) := by
  obtain ⟨a, ha, ha'⟩ := exists_max 0 ((ps.filter fun p => p.1 ≠ 0).map enter)
  obtain ⟨b, hb, hb'⟩ := exists_min 1 ((ps.filter fun p => p.1 ≠ 0).map leave)
  have memE : ∀ {u}, u ∈ (ps.filter fun p => p.1 ≠ 0).map enter ↔ ∃ p ∈ ps, p.1 ≠ 0 ∧ enter p = u := by
    simp [List.mem_filter, and_assoc]
  have memL : ∀ {u}, u ∈ (ps.filter fun p => p.1 ≠ 0).map leave ↔ ∃ p ∈ ps, p.1 ≠ 0 ∧ leave p = u := by
    simp [List.mem_filter, and_assoc]
  have hlpos : ∀ p : Int × Nat, p.1 ≠ 0 → 0 < leave p := by
    intro p h0
    unfold leave
    have := natAbs_pos h0
    positivity
  have helt : ∀ p ∈ ps, p.1 ≠ 0 → enter p < 1 := by
    intro p hp h0
    unfold enter
    rw [div_lt_one (natAbs_pos h0)]
    have : (p.2 : ℚ) ≤ p.1.natAbs := by exact_mod_cast hg.le p hp
    linarith
  have hab : a < b := by
    rcases List.mem_cons.1 ha with rfl | ha <;> rcases List.mem_cons.1 hb with rfl | hb
    · norm_num
    · obtain ⟨p, hp, h0, rfl⟩ := memL.1 hb
      exact hlpos p h0
    · obtain ⟨p, hp, h0, rfl⟩ := memE.1 ha
      exact helt p hp h0
    · obtain ⟨p, hp, h0, rfl⟩ := memE.1 ha
      obtain ⟨q, hq, h0', rfl⟩ := memL.1 hb
      exact hs q hq p hp h0' h0
  have ha0 := ha' 0 (by simp)
  have hb1 := hb' 1 (by simp)
  refine ⟨(a + b) / 2, by linarith, by linarith, ?_⟩
  unfold rowOf
  rw [List.forall₂_map_left_iff, List.forall₂_map_right_iff, List.forall₂_same]
  intro p hp
  by_cases h0 : p.1 = 0
  · rw [h0]; simp
  · have h1 : enter p < (a + b) / 2 := by
      have := ha' (enter p) (List.mem_cons_of_mem _ (memE.2 ⟨p, hp, h0, rfl⟩))
      linarith
    have h2 : (a + b) / 2 < leave p := by
      have := hb' (leave p) (List.mem_cons_of_mem _ (memL.2 ⟨p, hp, h0, rfl⟩))
      linarith
    generalize (a + b) / 2 = t at h1 h2
    have hn := natAbs_pos h0
    unfold enter at h1
    unfold leave at h2
    rw [div_lt_iff₀ hn] at h1
    rw [lt_div_iff₀ hn] at h2
    have e := sign_mul_natAbs p.1
    have : ((p.1.sign * p.2 : Int) : ℚ) - t * p.1 = ((p.1.sign : Int) : ℚ) * (p.2 - t * p.1.natAbs) := by
      rw [mul_sub]
      push_cast
      rw [mul_left_comm, e]
    rw [this, abs_mul]
    have hsg : |((p.1.sign : Int) : ℚ)| = 1 := by
      rcases lt_or_gt_of_ne h0 with h3 | h3
      · rw [Int.sign_eq_neg_one_of_neg h3]; norm_num
      · rw [Int.sign_eq_one_of_pos h3]; norm_num
    rw [hsg, one_mul, abs_lt]
    constructor <;> linarith

end Verif.Path

namespace Verif.Props

open Verif Verif.Path Outcome Spec

theorem crosses_origin (x1 : List Int) : Crosses x1 (origin x1.length) := by
  refine ⟨0, le_refl _, by norm_num, ?_⟩
  induction x1 with
  | nil => exact List.Forall₂.nil
  | cons a x ih => exact List.Forall₂.cons (by norm_num) ih

/-- **C32** (partial), for `actual`: the segment even crosses the interior of every row: no row is a pixel of which the
segment meets only a face, an edge or a corner. Missing: components of more than a million. -/
theorem C32_actual_inside_partial (junk : ℚ) {fuel : Nat} {x1 : List Int} (h3 : x1.length ≤ 3)
    (hb : ∀ a ∈ x1, a.natAbs ≤ 1000000) (hne : manhattan (origin x1.length) x1 ≠ 0)
    (hf : manhattan (origin x1.length) x1 ≤ fuel) :
    ∃ ret, path junk fuel (origin x1.length) x1 .actual = ok ret ∧ ∀ x ∈ ret, Crosses x1 x := by
  obtain ⟨out, h1, -, h2, h4, h5⟩ := line_ok (rows := actualRows) (R := fun _ _ => True) (Q := Crosses x1) (L := fun _ _ => True)
    (le_refl 1000000) h3 hb (fun _ _ _ _ _ _ => trivial) (fun ps τ T hvs hg hl hT => by
      have hvs' : (ps.map (inc T)).map Prod.fst = x1 := by
        rw [← hvs, List.map_map]
        apply List.map_congr_left
        intro p _
        exact inc_fst T p
      have hcr := crosses_of (good_inc (le_refl _) hg hl hT) (strict_inc (le_refl _) hg hT)
      rw [hvs'] at hcr
      refine ⟨[rowOf (ps.map (inc T))], ?_, by simp, by simp, by simpa using hcr, trivial⟩
      simp only [actualRows, map_inc_mk, row_mk]) junk hne hf
  refine ⟨_, h1, fun x hx => ?_⟩
  rcases List.mem_cons.1 hx with rfl | hx
  · exact crosses_origin x1
  · exact h4 x hx

/-- **C56** (partial), for `actual`: the rows are exactly the pixels whose interior the segment crosses. Missing:
components of more than 707 (`C56_long_violated`). -/
theorem C56_actual_exactly_partial (junk : ℚ) {fuel : Nat} {x1 : List Int} (h3 : x1.length ≤ 3)
    (hb : ∀ a ∈ x1, a.natAbs ≤ 707) (hne : manhattan (origin x1.length) x1 ≠ 0)
    (hf : manhattan (origin x1.length) x1 ≤ fuel) :
    ∃ ret, path junk fuel (origin x1.length) x1 .actual = ok ret ∧ ∀ y, y ∈ ret ↔ Crosses x1 y := by
  obtain ⟨ret, e, h⟩ := C56_crossed_partial junk h3 hb hne hf (Or.inl rfl)
  obtain ⟨ret', e', h'⟩ := C32_actual_inside_partial junk h3 (fun a ha => (hb a ha).trans (by omega)) hne hf
  rw [e] at e'
  cases e'
  exact ⟨ret, e, fun y => ⟨h' y, h y⟩⟩

/-- The segment to (2, 2) passes through the corner of (1, 0): this pixel is a row of `full` only. -/
example : (∀ a ∈ [2, 2], Int.natAbs a ≤ 707) ∧ manhattan (origin 2) [2, 2] = 4 ∧
    path (0 : ℚ) 4 [0, 0] [2, 2] .actual = ok [[0, 0], [1, 1], [2, 2]] ∧
    path (0 : ℚ) 4 [0, 0] [2, 2] .full = ok [[0, 0], [1, 0], [1, 1], [2, 1], [2, 2]] := by decide +kernel

end Verif.Props
