import Verif.Props.Path

/-!
# Long paths of modes actual and full (C30, C31, C32, C56)

Crossings of the line with the edges of pixels that are closer than `1e-6` are treated as one crossing.
-/

namespace Verif.Props

open Verif Verif.Path Outcome Spec

/-- The state after the update of both modes. -/
def Moves (rows : ℚ → List (Axis ℚ) → List (Axis ℚ) × List (List Int)) : Prop :=
  ∀ (tm : ℚ) (a b : Axis ℚ), (rows tm [a, b]).1 =
    [if a.selected tm then a.advance else a, if b.selected tm then b.advance else b]

theorem actual_moves : Moves actualRows := fun tm a b => by simp [actualRows]

theorem full_moves : Moves fun tm => fullRows tm [] := fun tm a b => by
  by_cases ha : a.selected tm <;> by_cases hb : b.selected tm <;> simp [fullRows, ha, hb]

theorem min_unique {T T' : ℚ} {ps : List (Int × Nat)} (h : IsMin T ps) (h' : IsMin T' ps) : T = T' := by
  obtain ⟨⟨p, hp, p0, e⟩, h2⟩ := h
  obtain ⟨⟨p', hp', p0', e'⟩, h2'⟩ := h'
  exact le_antisymm (e' ▸ h2 p' hp' p0') (e ▸ h2' p hp p0)

/-- One iteration with two axes. -/
theorem lineLoop_step {rows : ℚ → List (Axis ℚ) → List (Axis ℚ) × List (List Int)} (hr : Moves rows) (junk : ℚ)
    (fuel : Nat) {p q : Int × Nat} {τ T : ℚ} (hT : IsMin T [p, q]) (ret : List (List Int)) :
    lineLoop rows junk (fuel + 1) [mk τ p, mk τ q] ret =
      if (mk (T - τ) (inc T p)).c = p.1 ∧ (mk (T - τ) (inc T q)).c = q.1 then
        ok (ret ++ (rows (T - τ) [mk τ p, mk τ q]).2)
      else lineLoop rows junk fuel [mk (T - τ) (inc T p), mk (T - τ) (inc T q)]
        (ret ++ (rows (T - τ) [mk τ p, mk τ q]).2) := by
  obtain ⟨T', hT', hmin⟩ := tmin_mk (junk := junk) (τ := τ) (ps := [p, q])
    (by obtain ⟨⟨p, hp, p0, -⟩, -⟩ := hT; exact ⟨p, hp, p0⟩)
  rw [min_unique hmin hT] at hT'
  simp only [List.map_cons, List.map_nil] at hT'
  conv_lhs => unfold lineLoop
  simp only [hT', hr (T - τ) (mk τ p) (mk τ q), mk_inc, List.map_cons, List.map_nil, mk_place,
    List.all_cons, List.all_nil, Bool.and_true]
  have e : ∀ (σ : ℚ) (p : Int × Nat), (mk σ (inc T p)).xb = p.1 := by
    intro σ p
    have := inc_fst T p
    simp only [mk, this]
  by_cases h1 : (mk (T - τ) (inc T p)).c = p.1 <;> by_cases h2 : (mk (T - τ) (inc T q)).c = q.1 <;>
    simp [h1, h2, e]

theorem inc_of {T : ℚ} {v : Int} {m : Nat} (h0 : v ≠ 0) (h : |leave (v, m) - T| < 1 / 1000000) :
    inc T (v, m) = (v, m + 1) := by
  unfold inc
  rw [if_pos ⟨h0, h⟩]

theorem inc_not {T : ℚ} {v : Int} {m : Nat} (h : 1 / 1000000 ≤ |leave (v, m) - T|) :
    inc T (v, m) = (v, m) := by
  unfold inc
  rw [if_neg fun hs => absurd hs.2 (not_lt.2 h)]

theorem min_first {v w : Int} {m n : Nat} (h0 : v ≠ 0) (h : leave (v, m) ≤ leave (w, n)) :
    IsMin (leave (v, m)) [(v, m), (w, n)] := by
  refine ⟨⟨(v, m), by simp, h0, rfl⟩, fun p hp _ => ?_⟩
  simp only [List.mem_cons, List.not_mem_nil, or_false] at hp
  rcases hp with rfl | rfl
  · exact le_refl _
  · exact h

theorem mk_c (τ : ℚ) (v : Int) (m : Nat) : (mk τ (v, m)).c = v.sign * m := rfl

/-- A bound on the displacements is needed: from the origin to (4000000, 2000000) neither mode
terminates, because the end point is missed. -/
theorem C30_long_violated (junk : ℚ) (fuel : Nat) {mode : Mode} (hm : mode = .actual ∨ mode = .full) :
    path junk fuel [0, 0] [4000000, 2000000] mode = diverge := by
  have hl : ∀ m : Nat, leave (4000000, m) = ((m : ℚ) + 1 / 2) / 4000000 := fun m => by
    simp [leave]
  have hl' : ∀ m : Nat, leave (2000000, m) = ((m : ℚ) + 1 / 2) / 2000000 := fun m => by
    simp [leave]
  have hs : ∀ v : Int, 0 < v → v.sign = 1 := fun v hv => Int.sign_eq_one_of_pos hv
  -- both axes move, or only the first
  have both : ∀ {rows}, Moves rows → ∀ (fuel m n : Nat) (τ : ℚ) (ret : List (List Int)),
      (m : ℚ) + 1 / 2 ≤ 2 * n + 1 → (2 * n + 1 : ℚ) < m + 1 / 2 + 4 →
      (m + 1 ≠ 4000000 ∨ n + 1 ≠ 2000000) →
      ∃ τ' ret', lineLoop rows junk (fuel + 1) [mk τ (4000000, m), mk τ (2000000, n)] ret =
        lineLoop rows junk fuel [mk τ' (4000000, m + 1), mk τ' (2000000, n + 1)] ret' := by
    intro rows hr fuel m n τ ret h1 h2 h3
    have hT : IsMin (leave (4000000, m)) [(4000000, m), (2000000, n)] := min_first (by decide) (by
      rw [hl, hl']; linarith)
    have i1 : inc (leave (4000000, m)) (4000000, m) = (4000000, m + 1) := inc_of (by decide) (by simp)
    have i2 : inc (leave (4000000, m)) (2000000, n) = (2000000, n + 1) := inc_of (by decide) (by
      rw [hl, hl', abs_lt]; constructor <;> linarith)
    rw [lineLoop_step hr junk fuel hT, i1, i2, if_neg]
    · exact ⟨_, _, rfl⟩
    · rw [mk_c, mk_c, hs _ (by decide), hs _ (by decide)]
      push_cast
      omega
  have one : ∀ {rows}, Moves rows → ∀ (fuel m n : Nat) (τ : ℚ) (ret : List (List Int)),
      (m : ℚ) + 1 / 2 + 4 ≤ 2 * n + 1 → (m + 1 ≠ 4000000 ∨ n ≠ 2000000) →
      ∃ τ' ret', lineLoop rows junk (fuel + 1) [mk τ (4000000, m), mk τ (2000000, n)] ret =
        lineLoop rows junk fuel [mk τ' (4000000, m + 1), mk τ' (2000000, n)] ret' := by
    intro rows hr fuel m n τ ret h1 h3
    have hT : IsMin (leave (4000000, m)) [(4000000, m), (2000000, n)] := min_first (by decide) (by
      rw [hl, hl']; linarith)
    have i1 : inc (leave (4000000, m)) (4000000, m) = (4000000, m + 1) := inc_of (by decide) (by simp)
    have i2 : inc (leave (4000000, m)) (2000000, n) = (2000000, n) := inc_not (by
      rw [hl, hl']
      refine le_trans ?_ (le_abs_self _)
      linarith)
    rw [lineLoop_step hr junk fuel hT, i1, i2, if_neg]
    · exact ⟨_, _, rfl⟩
    · rw [mk_c, mk_c, hs _ (by decide), hs _ (by decide)]
      push_cast
      omega
  -- after four diagonal steps the path is too far to the side
  have key : ∀ {rows}, Moves rows → ∀ (fuel m : Nat) (τ : ℚ) (ret : List (List Int)),
      lineLoop rows junk fuel [mk τ (4000000, 4 + 2 * m), mk τ (2000000, 4 + m)] ret = diverge ∧
      lineLoop rows junk fuel [mk τ (4000000, 5 + 2 * m), mk τ (2000000, 4 + m)] ret = diverge := by
    intro rows hr fuel
    induction fuel with
    | zero => intro m τ ret; exact ⟨rfl, rfl⟩
    | succ fuel ih =>
      intro m τ ret
      constructor
      · obtain ⟨τ', ret', e⟩ := one hr fuel (4 + 2 * m) (4 + m) τ ret (by push_cast; linarith) (by omega)
        rw [e]
        have : 4 + 2 * m + 1 = 5 + 2 * m := by omega
        rw [this]
        exact (ih m τ' ret').2
      · obtain ⟨τ', ret', e⟩ := both hr fuel (5 + 2 * m) (4 + m) τ ret (by push_cast; linarith)
          (by push_cast; linarith) (by omega)
        rw [e]
        have h1 : 5 + 2 * m + 1 = 4 + 2 * (m + 1) := by omega
        have h2 : 4 + m + 1 = 4 + (m + 1) := by omega
        rw [h1, h2]
        exact (ih (m + 1) τ' ret').1
  have start : ∀ {rows}, Moves rows → ∀ (j : Nat), j ≤ 4 → ∀ (fuel : Nat) (τ : ℚ) (ret : List (List Int)),
      lineLoop rows junk fuel [mk τ (4000000, 4 - j), mk τ (2000000, 4 - j)] ret = diverge := by
    intro rows hr j
    induction j with
    | zero => intro _ fuel τ ret; exact (key hr fuel 0 τ ret).1
    | succ j ih =>
      intro hj fuel τ ret
      match fuel with
      | 0 => rfl
      | fuel + 1 =>
        have c : ((4 - (j + 1) : Nat) : ℚ) ≤ 3 := by exact_mod_cast (by omega : 4 - (j + 1) ≤ 3)
        have c0 : (0 : ℚ) ≤ ((4 - (j + 1) : Nat) : ℚ) := Nat.cast_nonneg _
        obtain ⟨τ', ret', e⟩ := both hr fuel (4 - (j + 1)) (4 - (j + 1)) τ ret (by linarith)
          (by linarith) (by omega)
        rw [e]
        have : 4 - (j + 1) + 1 = 4 - j := by omega
        rw [this]
        exact ih (by omega) fuel τ' ret'
  have fin : ∀ {rows}, Moves rows → line rows junk fuel [0, 0] [4000000, 2000000] = diverge := by
    intro rows hr
    unfold line
    rw [if_neg (by simp)]
    simp only [List.zipWith_cons_cons, List.zipWith_nil_left, axis_eq]
    exact start hr 4 (le_refl _) fuel 0 _
  rcases hm with rfl | rfl
  · exact fin actual_moves
  · exact fin full_moves

/-- What the loop returns starts with what was stored before. -/
theorem lineLoop_prefix {rows : ℚ → List (Axis ℚ) → List (Axis ℚ) × List (List Int)} {junk : ℚ} :
    ∀ {fuel : Nat} {axes : List (Axis ℚ)} {ret out : List (List Int)},
      lineLoop rows junk fuel axes ret = ok out → ∃ more, out = ret ++ more
  | 0, _, _, _, h => by simp [lineLoop] at h
  | fuel + 1, axes, ret, out, h => by
    unfold lineLoop at h
    simp only at h
    split at h
    · cases h; exact ⟨_, rfl⟩
    · obtain ⟨more, e⟩ := lineLoop_prefix h
      exact ⟨_, by rw [e, List.append_assoc]⟩

/-- The first rows of the path from the origin to (1226, 409): the crossing of `x = 3/2` and that of
`y = 1/2` are closer than `1e-6`. -/
theorem close_crossings {rows : ℚ → List (Axis ℚ) → List (Axis ℚ) × List (List Int)} (hr : Moves rows)
    {junk : ℚ} {fuel : Nat} {ret : List (List Int)} (hf : 1635 ≤ fuel)
    (h : line rows junk fuel [0, 0] [1226, 409] = ok ret) :
    ∃ more, ret = [0, 0] :: (rows (leave (1226, 0) - 0) [mk 0 (1226, 0), mk 0 (409, 0)]).2 ++
      (rows (leave (409, 0) - leave (1226, 0))
        [mk (leave (1226, 0)) (1226, 1), mk (leave (1226, 0)) (409, 0)]).2 ++ more := by
  obtain ⟨fuel, rfl⟩ : ∃ k, fuel = k + 2 := ⟨fuel - 2, by omega⟩
  have hl : ∀ m : Nat, leave (1226, m) = ((m : ℚ) + 1 / 2) / 1226 := fun m => by simp [leave]
  have hl' : ∀ m : Nat, leave (409, m) = ((m : ℚ) + 1 / 2) / 409 := fun m => by simp [leave]
  have hs : ∀ v : Int, 0 < v → v.sign = 1 := fun v hv => Int.sign_eq_one_of_pos hv
  unfold line at h
  rw [if_neg (by simp)] at h
  simp only [List.zipWith_cons_cons, List.zipWith_nil_left, axis_eq] at h
  have hT : IsMin (leave (1226, 0)) [(1226, 0), (409, 0)] := min_first (by decide) (by
    rw [hl, hl']; norm_num)
  have i1 : inc (leave (1226, 0)) (1226, 0) = (1226, 1) := inc_of (by decide) (by simp)
  have i2 : inc (leave (1226, 0)) (409, 0) = (409, 0) := inc_not (by
    rw [hl, hl']
    refine le_trans ?_ (le_abs_self _)
    norm_num)
  rw [lineLoop_step hr junk (fuel + 1) hT, i1, i2, if_neg (by
    rw [mk_c, mk_c, hs _ (by decide), hs _ (by decide)]; norm_num)] at h
  have hT' : IsMin (leave (409, 0)) [(1226, 1), (409, 0)] := by
    refine ⟨⟨(409, 0), by simp, by decide, rfl⟩, fun p hp _ => ?_⟩
    simp only [List.mem_cons, List.not_mem_nil, or_false] at hp
    rcases hp with rfl | rfl
    · rw [hl, hl']; norm_num
    · exact le_refl _
  have j1 : inc (leave (409, 0)) (1226, 1) = (1226, 2) := inc_of (by decide) (by
    rw [hl, hl', abs_lt]; constructor <;> norm_num)
  have j2 : inc (leave (409, 0)) (409, 0) = (409, 1) := inc_of (by decide) (by simp)
  rw [lineLoop_step hr junk fuel hT', j1, j2, if_neg (by
    rw [mk_c, mk_c, hs _ (by decide), hs _ (by decide)]; norm_num)] at h
  obtain ⟨more, e⟩ := lineLoop_prefix h
  refine ⟨more, ?_⟩
  rw [e]
  simp [row, mk]

private theorem first_leave (m : Nat) : leave (1226, m) = ((m : ℚ) + 1 / 2) / 1226 := by simp [leave]

private theorem second_leave (m : Nat) : leave (409, m) = ((m : ℚ) + 1 / 2) / 409 := by simp [leave]

private theorem sel1 : sel (leave (1226, 0)) (1226, 0) := ⟨by decide, by simp [eps]⟩

private theorem sel2 : ¬ sel (leave (1226, 0)) (409, 0) := fun h => by
  have := h.2
  rw [first_leave, second_leave, eps, abs_lt] at this
  norm_num at this

private theorem sel3 : sel (leave (409, 0)) (1226, 1) := ⟨by decide, by
  rw [first_leave, second_leave, eps, abs_lt]; norm_num⟩

private theorem sel4 : sel (leave (409, 0)) (409, 0) := ⟨by decide, by simp [eps]⟩

private theorem full_start {junk : ℚ} {fuel : Nat} {ret : List (List Int)} (hf : 1635 ≤ fuel)
    (h : path junk fuel [0, 0] [1226, 409] .full = ok ret) :
    ∃ more, ret = [0, 0] :: [1, 0] :: [2, 0] :: [2, 1] :: more := by
  obtain ⟨more, e⟩ := close_crossings full_moves hf h
  refine ⟨more, ?_⟩
  rw [e]
  simp only [fullRows, mk_selected, sel1, sel2, sel3, sel4, decide_true, decide_false, if_true,
    List.nil_append, Bool.false_eq_true, if_false, List.cons_append]
  rfl

private theorem actual_start {junk : ℚ} {fuel : Nat} {ret : List (List Int)} (hf : 1635 ≤ fuel)
    (h : path junk fuel [0, 0] [1226, 409] .actual = ok ret) :
    ∃ more, ret = [0, 0] :: [1, 0] :: [2, 1] :: more := by
  obtain ⟨more, e⟩ := close_crossings actual_moves hf h
  refine ⟨more, ?_⟩
  rw [e]
  simp only [actualRows, List.map_cons, List.map_nil, mk_selected, sel1, sel2, sel3, sel4, decide_true,
    decide_false, if_true, Bool.false_eq_true, if_false, List.cons_append, List.nil_append]
  rfl

/-- A bound on the displacements is needed: `full` from the origin to (1226, 409) visits the pixel
(2, 0), which the segment does not meet. -/
theorem C32_long_violated (junk : ℚ) {fuel : Nat} (hf : 1635 ≤ fuel) :
    ∃ ret, path junk fuel [0, 0] [1226, 409] .full = ok ret ∧ [2, 0] ∈ ret ∧
      ¬ Meets [1226, 409] [2, 0] := by
  obtain ⟨ret, h, -, -⟩ := C30_origin_partial junk (fuel := fuel) (x1 := [1226, 409]) (by decide)
    (by decide) (by decide) hf (Or.inr rfl)
  obtain ⟨more, e⟩ := full_start hf h
  refine ⟨ret, h, by simp [e], ?_⟩
  rintro ⟨t, -, -, hc⟩
  cases hc with
  | cons h1 h2 =>
    cases h2 with
    | cons h2 _ =>
      rw [abs_le] at h1 h2
      norm_num at h1 h2
      linarith [h1.1, h1.2, h2.1, h2.2]

/-- Rows that move towards the end point do not move back. -/
private def Forth (x y : List Int) : Prop :=
  x.getD 0 0 ≤ 1226 → x.getD 0 0 ≤ y.getD 0 0 ∧ y.getD 0 0 ≤ 1226

private theorem forth_trans {x y z : List Int} (h : Forth x y) (h' : Forth y z) : Forth x z := fun hx => by
  obtain ⟨a, b⟩ := h hx
  obtain ⟨c, d⟩ := h' b
  exact ⟨by omega, d⟩

private theorem forth_ge : ∀ {l : List (List Int)} {x : List Int}, (x :: l).IsChain Forth → ∀ y ∈ l, Forth x y
  | z :: l, x, h, y, hy => by
    rw [List.isChain_cons_cons] at h
    rcases List.mem_cons.1 hy with rfl | hy
    · exact h.1
    · exact forth_trans h.1 (forth_ge h.2 y hy)

/-- A bound on the displacements is needed: the segment from the origin to (1226, 409) crosses the
pixel (1, 1), which neither mode visits. -/
theorem C56_long_violated (junk : ℚ) {fuel : Nat} (hf : 1635 ≤ fuel) {mode : Mode}
    (hm : mode = .actual ∨ mode = .full) :
    ∃ ret, path junk fuel [0, 0] [1226, 409] mode = ok ret ∧ Crosses [1226, 409] [1, 1] ∧
      [1, 1] ∉ ret := by
  have hc : Crosses [1226, 409] [1, 1] := by
    refine ⟨(1 / 818 + 3 / 2452) / 2, by norm_num, by norm_num, ?_⟩
    refine List.Forall₂.cons ?_ (List.Forall₂.cons ?_ List.Forall₂.nil) <;> rw [abs_lt] <;> norm_num
  have hb : ∀ a ∈ ([1226, 409] : List Int), a.natAbs ≤ 1000000 := by decide
  rcases hm with rfl | rfl
  · obtain ⟨ret, h, -, hch, -⟩ := C31_actual_partial junk (fuel := fuel) (x1 := [1226, 409]) (by decide)
      hb (by decide) hf
    refine ⟨ret, h, hc, ?_⟩
    obtain ⟨more, rfl⟩ := actual_start hf h
    have hch' := hch.imp (S := Forth) fun x y hxy => by
      intro hx
      have := hxy.2.2 0 (by simp)
      simp only [TowardsOrStay, List.getD_cons_zero] at this
      omega
    rw [List.isChain_cons_cons, List.isChain_cons_cons] at hch'
    intro hmem
    simp only [List.mem_cons, List.cons.injEq, one_ne_zero, and_false,
      false_or, and_true, OfNat.one_ne_ofNat] at hmem
    have := forth_ge hch'.2.2 _ hmem (by simp)
    simp at this
  · obtain ⟨ret, h, -, hch, -⟩ := C31_full_partial junk (fuel := fuel) (x1 := [1226, 409]) (by decide)
      hb (by decide) hf
    refine ⟨ret, h, hc, ?_⟩
    obtain ⟨more, rfl⟩ := full_start hf h
    have hch' := hch.imp (S := Forth) fun x y hxy => by
      intro hx
      obtain ⟨i, hi, hxy⟩ := hxy
      match i, hi, x with
      | 0, _, [] => rcases hxy with ⟨_, rfl⟩ | ⟨_, rfl⟩ <;> simp
      | 0, _, a :: x =>
        rcases hxy with ⟨h1, rfl⟩ | ⟨h1, rfl⟩ <;> simp at h1 hx ⊢ <;> omega
      | 1, _, [] => rcases hxy with ⟨_, rfl⟩ | ⟨_, rfl⟩ <;> simp
      | 1, _, a :: x =>
        rcases hxy with ⟨h1, rfl⟩ | ⟨h1, rfl⟩ <;> simp at hx ⊢ <;> omega
      | i + 2, hi, _ => simp at hi
    rw [List.isChain_cons_cons, List.isChain_cons_cons, List.isChain_cons_cons] at hch'
    intro hmem
    simp only [List.mem_cons, List.cons.injEq, one_ne_zero, and_false,
      false_or, and_true, OfNat.one_ne_ofNat] at hmem
    have := forth_ge hch'.2.2.2 _ hmem (by simp)
    simp at this

end Verif.Props
