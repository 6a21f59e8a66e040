import Verif.Props.PathLarge
import Verif.Props.FloatPath

/-!
# The modes of `path` are nested (C107)

Bresenham's path is part of the path of mode `actual`, which is part of the path of mode `full`.
-/

namespace Verif.Props

open Verif Verif.Path Outcome Spec

section Sublist

variable {K : Type} [Zero K] [One K] [Add K] [Sub K] [Neg K] [Mul K] [Div K] [NatCast K] [IntCast K]
  [DecidableEq K] [LT K] [DecidableLT K]

/-- The update of an axis. -/
private def upd (tm : K) (a : Axis K) : Axis K := if a.selected tm then a.advance else a

private theorem upd_v (tm : K) (a : Axis K) : (upd tm a).v = a.v := by
  unfold upd
  split <;> rfl

private theorem fullRows_upd (tm : K) : ∀ (todo done : List (Axis K)),
    (fullRows tm done todo).1 = done ++ todo.map (upd tm) ∧
    ((∃ a ∈ todo, a.selected tm = true) →
      (fullRows tm done todo).2.getLast? = some (row (done ++ todo.map (upd tm)))) ∧
    ((∀ a ∈ todo, a.selected tm = false) →
      todo.map (upd tm) = todo)
  | [], done => by simp [fullRows]
  | a :: todo, done => by
    by_cases ha : a.selected tm = true
    · obtain ⟨h1, h2, h3⟩ := fullRows_upd tm todo (done ++ [a.advance])
      have e : upd tm a = a.advance := by simp [upd, ha]
      refine ⟨?_, fun _ => ?_, fun h => ?_⟩
      · simp only [fullRows, ha, if_true, List.map_cons, e]
        rw [h1, List.append_assoc]
        rfl
      · simp only [fullRows, ha, if_true, List.map_cons, e]
        by_cases hs : ∃ b ∈ todo, b.selected tm = true
        · have := h2 hs
          rw [List.getLast?_cons, this, List.append_assoc]
          rfl
        · have hs' : ∀ b ∈ todo, b.selected tm = false := by
            intro b hb
            by_contra hc
            exact hs ⟨b, hb, by simpa using hc⟩
          have hn : ∀ (todo done : List (Axis K)), (∀ b ∈ todo, b.selected tm = false) →
              (fullRows tm done todo).2 = [] := by
            intro todo
            induction todo with
            | nil => intro _ _; rfl
            | cons b todo ih =>
              intro done h
              have hb := h b (by simp)
              simp only [fullRows, hb, Bool.false_eq_true, if_false]
              exact ih _ fun c hc => h c (by simp [hc])
          rw [hn _ _ hs', h3 hs']
          rfl
      · have := h a (by simp)
        rw [ha] at this
        simp at this
    · obtain ⟨h1, h2, h3⟩ := fullRows_upd tm todo (done ++ [a])
      have e : upd tm a = a := by simp [upd, ha]
      refine ⟨?_, fun hs => ?_, fun h => ?_⟩
      · simp only [fullRows, ha, List.map_cons, e]
        simp only [Bool.false_eq_true, if_false]
        rw [h1, List.append_assoc]
        rfl
      · simp only [fullRows, ha, List.map_cons, e]
        simp only [Bool.false_eq_true, if_false]
        obtain ⟨b, hb, hsel⟩ := hs
        have hb' : b ∈ todo := by
          rcases List.mem_cons.1 hb with rfl | hb
          · exact absurd hsel ha
          · exact hb
        rw [h2 ⟨b, hb', hsel⟩, List.append_assoc]
        rfl
      · rw [List.map_cons, e, h3 fun b hb => h b (by simp [hb])]

private theorem foldl_mem : ∀ (ts : List K) (t : K), ts.foldl (fun m t => if t < m then t else m) t ∈ t :: ts
  | [], t => by simp
  | s :: ts, t => by
    rw [List.foldl_cons]
    have := foldl_mem ts (if s < t then s else t)
    by_cases h : s < t
    · simp only [h, if_true] at this ⊢
      simp only [List.mem_cons] at this ⊢
      tauto
    · simp only [h, if_false] at this ⊢
      simp only [List.mem_cons] at this ⊢
      tauto

/-- The axis that is crossed first is selected. -/
private theorem some_selected (hK : ∀ x : K, fabs (x - x) < 1 / (1000000 : Nat)) (junk : K)
    {axes : List (Axis K)} (h : ∃ a ∈ axes, a.v ≠ 0) : ∃ a ∈ axes, a.selected (tmin junk axes) = true := by
  obtain ⟨a, ha, hv⟩ := h
  have hm : a.t ∈ (axes.filter fun a => a.v ≠ 0).map Axis.t :=
    List.mem_map.2 ⟨a, List.mem_filter.2 ⟨ha, by simpa using hv⟩, rfl⟩
  have key : ∃ b ∈ axes, b.v ≠ 0 ∧ b.t = tmin junk axes := by
    have : tmin junk axes ∈ (axes.filter fun a => a.v ≠ 0).map Axis.t := by
      unfold tmin
      generalize (axes.filter fun a => a.v ≠ 0).map Axis.t = l at hm ⊢
      match l with
      | [] => simp at hm
      | t :: ts => exact foldl_mem ts t
    obtain ⟨b, hb, eb⟩ := List.mem_map.1 this
    obtain ⟨hb1, hb2⟩ := List.mem_filter.1 hb
    exact ⟨b, hb1, by simpa using hb2, eb⟩
  obtain ⟨b, hb, hbv, eb⟩ := key
  refine ⟨b, hb, ?_⟩
  unfold Axis.selected
  rw [← eb]
  simp only [hK, decide_true, Bool.and_true, decide_eq_true_eq]
  exact hbv

/-- Both loops end in the same iteration, and what one stored is part of what the other stored. -/
private theorem loops_nested (hK : ∀ x : K, fabs (x - x) < 1 / (1000000 : Nat)) (junk : K) :
    ∀ (fuel : Nat) (axes : List (Axis K)) (ret ret' : List (List Int)), (∃ a ∈ axes, a.v ≠ 0) →
      ret.Sublist ret' →
      (∃ p q, lineLoop actualRows junk fuel axes ret = ok p ∧
        lineLoop (fun tm => fullRows tm []) junk fuel axes ret' = ok q ∧ p.Sublist q) ∨
      (lineLoop actualRows junk fuel axes ret = diverge ∧
        lineLoop (fun tm => fullRows tm []) junk fuel axes ret' = diverge)
  | 0, _, _, _, _, _ => Or.inr ⟨rfl, rfl⟩
  | fuel + 1, axes, ret, ret', hv, hs => by
    obtain ⟨h1, h2, -⟩ := fullRows_upd (tmin junk axes) axes []
    have h2 := h2 (some_selected hK junk hv)
    rw [List.nil_append] at h1 h2
    have ha : (actualRows (tmin junk axes) axes) =
        (axes.map (upd (tmin junk axes)), [row (axes.map (upd (tmin junk axes)))]) := rfl
    have hsub : (ret ++ [row (axes.map (upd (tmin junk axes)))]).Sublist
        (ret' ++ (fullRows (tmin junk axes) [] axes).2) :=
      hs.append (List.singleton_sublist.2 (List.mem_of_getLast? h2))
    rw [lineLoop, lineLoop]
    simp only [ha, h1]
    by_cases hall : (((axes.map (upd (tmin junk axes))).map fun a => a.place (tmin junk axes)).all
        fun a => a.c == a.xb) = true
    · rw [if_pos hall, if_pos hall]
      exact Or.inl ⟨_, _, rfl, rfl, hsub⟩
    · rw [if_neg hall, if_neg hall]
      apply loops_nested hK junk fuel _ _ _ _ hsub
      obtain ⟨a, ha, hva⟩ := hv
      refine ⟨(upd (tmin junk axes) a).place (tmin junk axes), ?_, ?_⟩
      · exact List.mem_map.2 ⟨_, List.mem_map.2 ⟨a, ha, rfl⟩, rfl⟩
      · show (upd (tmin junk axes) a).v ≠ 0
        rw [upd_v]
        exact hva

private theorem modes_nested (hK : ∀ x : K, fabs (x - x) < 1 / (1000000 : Nat))
    (hz : ∀ z : Int, z ≠ 0 → (z : K) ≠ 0) (junk : K) (fuel : Nat) {x0 x1 : List Int}
    (h3 : x0.length ≤ 3) (hl : x0.length = x1.length) (hne : x0 ≠ x1) :
    (∃ p q, path junk fuel x0 x1 .actual = ok p ∧ path junk fuel x0 x1 .full = ok q ∧ p.Sublist q) ∨
    (path junk fuel x0 x1 .actual = diverge ∧ path junk fuel x0 x1 .full = diverge) := by
  show (∃ p q, line actualRows junk fuel x0 x1 = ok p ∧
      line (fun tm => fullRows tm []) junk fuel x0 x1 = ok q ∧ p.Sublist q) ∨
    (line actualRows junk fuel x0 x1 = diverge ∧ line (fun tm => fullRows tm []) junk fuel x0 x1 = diverge)
  unfold line
  have hc : ¬ (x0.length > 3 ∨ x1.length < x0.length) := by omega
  rw [if_neg hc, if_neg hc]
  apply loops_nested hK junk
  · have : ∃ i, ∃ (h : i < x0.length) (h' : i < x1.length), x0[i] ≠ x1[i] := by
      by_contra hcon
      apply hne
      apply List.ext_getElem hl
      intro i h h'
      by_contra hi
      exact hcon ⟨i, h, h', hi⟩
    obtain ⟨i, h, h', hi⟩ := this
    refine ⟨axis K x0[i] x1[i], ?_, hz _ (by show x1[i] - x0[i] ≠ 0; omega)⟩
    rw [List.mem_iff_getElem]
    exact ⟨i, by simp; omega, by simp⟩
  · exact List.Sublist.refl _

end Sublist

/-- **C107**: between any two different points, modes `actual` and `full` end in the same cases, and the
rows of `actual` are rows of `full`, in the same order. -/
theorem C107_actual_in_full (junk : ℚ) (fuel : Nat) {x0 x1 : List Int} (h3 : x0.length ≤ 3)
    (hl : x0.length = x1.length) (hne : x0 ≠ x1) :
    (∃ p q, path junk fuel x0 x1 .actual = ok p ∧ path junk fuel x0 x1 .full = ok q ∧ p.Sublist q) ∨
    (path junk fuel x0 x1 .actual = diverge ∧ path junk fuel x0 x1 .full = diverge) :=
  modes_nested (fun x => by rw [sub_self]; simp [fabs]) (fun z hz => by exact_mod_cast hz) junk fuel h3 hl hne

/-- **C107**, the same in `double`. -/
theorem C107_double {rnd : ℚ → ℚ} (hr : Rounding rnd) (junk : Fl rnd) (fuel : Nat) {x0 x1 : List Int}
    (h3 : x0.length ≤ 3) (hl : x0.length = x1.length) (hne : x0 ≠ x1) :
    (∃ p q, path junk fuel x0 x1 .actual = ok p ∧ path junk fuel x0 x1 .full = ok q ∧ p.Sublist q) ∨
    (path junk fuel x0 x1 .actual = diverge ∧ path junk fuel x0 x1 .full = diverge) := by
  refine modes_nested (fun x => ?_) (fun z hz h => ?_) junk fuel h3 hl hne
  · have e : x - x = (0 : Fl rnd) := by
      apply Fl.ext
      show rnd (x.val - x.val) = 0
      rw [sub_self, hr.zero]
    rw [e]
    have e0 : fabs (0 : Fl rnd) = 0 := by
      unfold fabs
      rw [if_neg]
      exact lt_irrefl (0 : ℚ)
    rw [e0]
    show (0 : ℚ) < rnd (1 / rnd ((1000000 : Nat) : ℚ))
    rw [hr.nat (by norm_num)]
    have := hr.rel (1 / ((1000000 : Nat) : ℚ))
    rw [abs_le] at this
    norm_num at this ⊢
    linarith [this.1]
  · have e : rnd (z : ℚ) = 0 := congrArg Fl.val h
    have := hr.rel z
    rw [e, zero_sub, abs_neg] at this
    have hz' : (0 : ℚ) < |(z : ℚ)| := abs_pos.2 (by exact_mod_cast hz)
    have h2 : |(z : ℚ)| / 2 ^ 53 < |(z : ℚ)| := by
      apply div_lt_self hz'
      norm_num
    linarith

/-- The pixel that a Bresenham path visits is crossed by the line shortly after. -/
theorem rounded_crosses {a : Int} {n k : Nat} {r : Int} (hn : 0 < n) (ha : a.natAbs ≤ n)
    (h : Rounded 0 a n k r) : |(r : ℚ) - (k / n + 1 / (4 * n ^ 2)) * a| < 1 / 2 := by
  have hn' : (0 : ℚ) < n := by exact_mod_cast hn
  have ha' : |(a : ℚ)| ≤ n := by
    rw [← Int.cast_abs]
    have : |a| ≤ (n : Int) := by rw [Int.abs_eq_natAbs]; omega
    exact_mod_cast this
  have e : (r : ℚ) - (k / n + 1 / (4 * n ^ 2)) * a = ((4 * n) * (2 * n * r - 2 * k * a) - 2 * a) / (8 * n ^ 2) := by
    field_simp
    ring
  have key : ∀ x : ℚ, |x| < 4 * n ^ 2 → |x / (8 * n ^ 2)| < 1 / 2 := by
    intro x hx
    rw [abs_div, abs_of_pos (by positivity : (0 : ℚ) < 8 * n ^ 2), div_lt_iff₀ (by positivity)]
    linarith
  rw [e]
  apply key
  rw [abs_lt]
  rw [abs_le] at ha'
  rcases lt_trichotomy a 0 with h0 | h0 | h0
  · obtain ⟨-, h1, h2⟩ := h.2 h0.le
    have h1' : -(n : ℚ) + 1 ≤ 2 * n * (0 - r) - 2 * k * (0 - a) := by exact_mod_cast h1
    have h2' : 2 * n * (0 - r) - 2 * k * (0 - a) ≤ (n : ℚ) := by exact_mod_cast h2
    have h0' : (a : ℚ) < 0 := by exact_mod_cast h0
    constructor
    · nlinarith
    · nlinarith
  · obtain ⟨h3, h1, h2⟩ := h.1 h0.ge
    obtain ⟨h4, -, -⟩ := h.2 h0.le
    have : r = 0 := by omega
    subst this h0
    have : (0 : ℚ) < 4 * n ^ 2 := by positivity
    constructor <;> simp <;> linarith
  · obtain ⟨-, h1, h2⟩ := h.1 h0.le
    have h1' : -(n : ℚ) + 1 ≤ 2 * n * (r - 0) - 2 * k * (a - 0) := by exact_mod_cast h1
    have h2' : 2 * n * (r - 0) - 2 * k * (a - 0) ≤ (n : ℚ) := by exact_mod_cast h2
    have h0' : (0 : ℚ) < a := by exact_mod_cast h0
    constructor
    · nlinarith
    · nlinarith

/-- **C107**: the segment crosses the interior of every pixel of the path of mode Bresenham. -/
theorem C107_bresenham_crossed (junk : ℚ) (fuel : Nat) {x1 : List Int} (h3 : x1.length ≤ 3)
    (hne : origin x1.length ≠ x1) :
    ∃ ret, path junk fuel (origin x1.length) x1 .bresenham = ok ret ∧ ∀ y ∈ ret, Crosses x1 y := by
  have hl : (origin x1.length).length = x1.length := by simp [origin]
  have hn := chebyshev_pos hl hne
  obtain ⟨ret, h, hlen, hrow⟩ := C27_line junk fuel (by omega) hl hne
  refine ⟨ret, h, fun y hy => ?_⟩
  obtain ⟨k, hk, rfl⟩ := List.mem_iff_getElem.1 hy
  have ek : ret[k] = ret.getD k [] := by simp [List.getD, hk]
  obtain ⟨l1, hr⟩ := hrow k hk
  rw [ek]
  have ho : ∀ i, (origin x1.length).getD i 0 = 0 := by
    intro i
    simp only [origin, List.getD, List.getElem?_replicate]
    split <;> rfl
  have hle : ∀ i < x1.length, (x1.getD i 0).natAbs ≤ chebyshev (origin x1.length) x1 := by
    intro i hi
    have := delta_le hl (i := i) (by omega)
    rw [ho, Int.abs_eq_natAbs, sub_zero] at this
    omega
  have hn' : (0 : ℚ) < chebyshev (origin x1.length) x1 := by exact_mod_cast hn
  rcases Nat.lt_or_ge k (chebyshev (origin x1.length) x1) with hk' | hk'
  · refine ⟨k / chebyshev (origin x1.length) x1 + 1 / (4 * chebyshev (origin x1.length) x1 ^ 2), by positivity,
      ?_, ?_⟩
    · have : (k : ℚ) + 1 ≤ chebyshev (origin x1.length) x1 := by exact_mod_cast hk'
      generalize (chebyshev (origin x1.length) x1 : ℚ) = n at *
      rw [div_add_div _ _ hn'.ne' (by positivity), div_le_one (by positivity)]
      have h1 : (1 : ℚ) ≤ n := by
        have : (0 : ℚ) ≤ k := Nat.cast_nonneg k
        linarith
      nlinarith [sq_nonneg n]
    · rw [List.forall₂_iff_get]
      refine ⟨by omega, fun i h1 h2 => ?_⟩
      have := rounded_crosses hn (hle i h1) (ho i ▸ hr i (by omega))
      have h2' : i < (ret.getD k []).length := h2
      generalize ret.getD k [] = u at *
      simpa [List.getD, h1, h2'] using this
  · have ek' : k = chebyshev (origin x1.length) x1 := by omega
    refine ⟨1, by norm_num, le_refl _, ?_⟩
    rw [List.forall₂_iff_get]
    refine ⟨by omega, fun i h1 h2 => ?_⟩
    have he : ∀ a : Int, Rounded 0 a (chebyshev (origin x1.length) x1) (chebyshev (origin x1.length) x1) a := by
      intro a
      constructor <;> intro h0 <;> refine ⟨h0, ?_, ?_⟩ <;> rw [sub_self] <;> omega
    have hri := hr i (by omega)
    rw [ho i, ek'] at hri
    have := rounded_unique hn hri (he _)
    rw [← ek'] at this
    have h2' : i < (ret.getD k []).length := h2
    generalize ret.getD k [] = u at *
    simp [List.getD, h1, h2'] at this
    simp [this]

theorem origin_ne {x1 : List Int} (hne : manhattan (origin x1.length) x1 ≠ 0) : origin x1.length ≠ x1 := by
  intro h
  apply hne
  rw [← h]
  unfold manhattan origin
  simp

/-- **C107** (partial): from the origin, the pixels of mode Bresenham are pixels of mode `actual`, and the rows of
`actual` are rows of `full`, in the same order. Missing: displacements of more than 707, see `C107_long_violated`. -/
theorem C107_nested_partial (junk : ℚ) {fuel : Nat} {x1 : List Int} (h3 : x1.length ≤ 3)
    (hb : ∀ a ∈ x1, a.natAbs ≤ 707) (hne : manhattan (origin x1.length) x1 ≠ 0)
    (hf : manhattan (origin x1.length) x1 ≤ fuel) :
    ∃ b a f, path junk fuel (origin x1.length) x1 .bresenham = ok b ∧
      path junk fuel (origin x1.length) x1 .actual = ok a ∧ path junk fuel (origin x1.length) x1 .full = ok f ∧
      (∀ y ∈ b, y ∈ a) ∧ a.Sublist f := by
  obtain ⟨b, eb, hb'⟩ := C107_bresenham_crossed junk fuel h3 (origin_ne hne)
  obtain ⟨a, ea, ha⟩ := C56_crossed_partial junk h3 hb hne hf (Or.inl rfl)
  have hl : (origin x1.length).length = x1.length := by simp [origin]
  rcases C107_actual_in_full junk fuel (by omega) hl (origin_ne hne) with ⟨p, q, ep, eq, hs⟩ | ⟨ep, -⟩
  · rw [ea] at ep
    cases ep
    exact ⟨b, a, q, eb, ea, eq, fun y hy => ha y (hb' y hy), hs⟩
  · rw [ea] at ep
    cases ep

/-- One iteration of mode `actual`. -/
private theorem actual_iter (junk : ℚ) (fuel : Nat) {ps : List (Int × Nat)} {τ T : ℚ} (hT : IsMin T ps)
    (ret : List (List Int)) (hne : ∃ p ∈ ps, (Path.mk (T - τ) (inc T p)).c ≠ p.1) :
    lineLoop actualRows junk (fuel + 1) (ps.map (Path.mk τ)) ret =
      lineLoop actualRows junk fuel ((ps.map (inc T)).map (Path.mk (T - τ)))
        (ret ++ [rowOf (ps.map (inc T))]) := by
  obtain ⟨T', hT', hmin⟩ := tmin_mk (junk := junk) (τ := τ) (ps := ps)
    (by obtain ⟨⟨p, hp, p0, -⟩, -⟩ := hT; exact ⟨p, hp, p0⟩)
  rw [min_unique hmin hT] at hT'
  rw [lineLoop]
  simp only [hT', actualRows, map_inc_mk, row_mk]
  have e : ((ps.map (inc T)).map (Path.mk τ)).map (fun a => a.place (T - τ)) = (ps.map (inc T)).map (Path.mk (T - τ)) := by
    rw [List.map_map]
    apply List.map_congr_left
    intro p _
    exact mk_place _ _ _
  rw [e, if_neg]
  rw [List.all_eq_true]
  intro hall
  obtain ⟨p, hp, hc⟩ := hne
  have := hall (Path.mk (T - τ) (inc T p)) (List.mem_map.2 ⟨_, List.mem_map.2 ⟨p, hp, rfl⟩, rfl⟩)
  simp only [beq_iff_eq] at this
  apply hc
  rw [this]
  show (inc T p).1 = p.1
  exact inc_fst T p

private theorem start3 {junk : ℚ} {fuel : Nat} {ret : List (List Int)} (hf : 2 ≤ fuel)
    (h : path junk fuel [0, 0, 0] [1416, 708, 707] .actual = ok ret) :
    ∃ more, ret = [0, 0, 0] :: [1, 0, 0] :: [1, 1, 1] :: more := by
  obtain ⟨fuel, rfl⟩ : ∃ k, fuel = k + 2 := ⟨fuel - 2, by omega⟩
  have h : line actualRows junk (fuel + 2) [0, 0, 0] [1416, 708, 707] = ok ret := h
  unfold line at h
  rw [if_neg (by simp)] at h
  have e0 : List.zipWith (axis ℚ) [0, 0, 0] [1416, 708, 707] = [(1416, 0), (708, 0), (707, 0)].map (Path.mk 0) := by
    simp only [List.zipWith_cons_cons, List.zipWith_nil_left, axis_eq, List.map_cons, List.map_nil]
  rw [e0] at h
  have l1 : ∀ m : Nat, leave (1416, m) = ((m : ℚ) + 1 / 2) / 1416 := fun m => by simp [leave]
  have l2 : ∀ m : Nat, leave (708, m) = ((m : ℚ) + 1 / 2) / 708 := fun m => by simp [leave]
  have l3 : ∀ m : Nat, leave (707, m) = ((m : ℚ) + 1 / 2) / 707 := fun m => by simp [leave]
  have hT : IsMin (leave (1416, 0)) [(1416, 0), (708, 0), (707, 0)] := by
    refine ⟨⟨(1416, 0), by simp, by decide, rfl⟩, fun p hp _ => ?_⟩
    simp only [List.mem_cons, List.not_mem_nil, or_false] at hp
    rcases hp with rfl | rfl | rfl
    · exact le_refl _
    · rw [l1, l2]; norm_num
    · rw [l1, l3]; norm_num
  have i1 : [(1416, 0), (708, 0), (707, 0)].map (inc (leave (1416, 0))) = [(1416, 1), (708, 0), (707, 0)] := by
    rw [List.map_cons, List.map_cons, List.map_cons, List.map_nil, inc_of (by decide) (by simp),
      inc_not (by rw [l1, l2]; refine le_trans ?_ (le_abs_self _); norm_num),
      inc_not (by rw [l1, l3]; refine le_trans ?_ (le_abs_self _); norm_num)]
  rw [actual_iter junk (fuel + 1) hT _ ⟨(708, 0), by simp, by
    rw [inc_not (by rw [l1, l2]; refine le_trans ?_ (le_abs_self _); norm_num), mk_c]; simp⟩, i1] at h
  have hT' : IsMin (leave (708, 0)) [(1416, 1), (708, 0), (707, 0)] := by
    refine ⟨⟨(708, 0), by simp, by decide, rfl⟩, fun p hp _ => ?_⟩
    simp only [List.mem_cons, List.not_mem_nil, or_false] at hp
    rcases hp with rfl | rfl | rfl
    · rw [l1, l2]; norm_num
    · exact le_refl _
    · rw [l2, l3]; norm_num
  have i2 : [(1416, 1), (708, 0), (707, 0)].map (inc (leave (708, 0))) = [(1416, 1), (708, 1), (707, 1)] := by
    rw [List.map_cons, List.map_cons, List.map_cons, List.map_nil,
      inc_not (by rw [l1, l2]; refine le_trans ?_ (le_abs_self _); norm_num),
      inc_of (by decide) (by simp),
      inc_of (by decide) (by rw [l2, l3, abs_lt]; constructor <;> norm_num)]
  rw [actual_iter junk fuel hT' _ ⟨(1416, 1), by simp, by
    rw [inc_not (by rw [l1, l2]; refine le_trans ?_ (le_abs_self _); norm_num), mk_c]; decide⟩, i2] at h
  obtain ⟨more, e⟩ := lineLoop_prefix h
  refine ⟨more, ?_⟩
  rw [e]
  rfl

private def Up (x y : List Int) : Prop := x.getD 2 0 ≤ 707 → x.getD 2 0 ≤ y.getD 2 0 ∧ y.getD 2 0 ≤ 707

private theorem up_ge : ∀ {l : List (List Int)} {x : List Int}, (x :: l).IsChain Up → ∀ y ∈ l, Up x y
  | z :: l, x, h, y, hy => by
    rw [List.isChain_cons_cons] at h
    rcases List.mem_cons.1 hy with rfl | hy
    · exact h.1
    · intro hx
      obtain ⟨a, b⟩ := h.1 hx
      obtain ⟨c, d⟩ := up_ge h.2 y hy b
      exact ⟨by omega, d⟩

/-- A bound on the displacements is needed: from the origin to (1416, 708, 707), mode Bresenham visits the pixel
(1, 1, 0), mode `actual` does not. -/
theorem C107_long_violated (junk : ℚ) {fuel : Nat} (hf : 2831 ≤ fuel) :
    ∃ b a, path junk fuel [0, 0, 0] [1416, 708, 707] .bresenham = ok b ∧
      path junk fuel [0, 0, 0] [1416, 708, 707] .actual = ok a ∧ [1, 1, 0] ∈ b ∧ [1, 1, 0] ∉ a := by
  obtain ⟨b, eb, lb, hb⟩ := C27_line junk fuel (x0 := [0, 0, 0]) (x1 := [1416, 708, 707]) (by decide) (by decide)
    (by decide)
  obtain ⟨a, ea, -, hch, -⟩ := C31_actual_partial junk (fuel := fuel) (x1 := [1416, 708, 707]) (by decide)
    (by decide) (by decide) hf
  have ec : chebyshev [0, 0, 0] [1416, 708, 707] = 1416 := by decide
  rw [ec] at lb hb
  refine ⟨b, a, eb, ea, ?_, ?_⟩
  · obtain ⟨l1, h1⟩ := hb 1 (by omega)
    have key : ∀ i < 3, (b.getD 1 []).getD i 0 = ([1, 1, 0] : List Int).getD i 0 := by
      intro i hi
      refine rounded_unique (by decide : 0 < 1416) (h1 i hi) ?_
      have : i = 0 ∨ i = 1 ∨ i = 2 := by omega
      unfold Rounded
      rcases this with rfl | rfl | rfl <;> decide
    have : b.getD 1 [] = [1, 1, 0] := by
      apply List.ext_getElem (by rw [l1]; rfl)
      intro i h2 h3
      have := key i (by simpa using h3)
      generalize b.getD 1 [] = u at *
      have e : ([1, 1, 0] : List Int).getD i 0 = [1, 1, 0][i] := by
        rw [List.getD, List.getElem?_eq_getElem h3]; rfl
      rw [← e]
      simpa [List.getD, h2] using this
    rw [← this, List.getD, List.getElem?_eq_getElem (by omega)]
    exact List.getElem_mem _
  · obtain ⟨more, rfl⟩ := start3 (by omega) ea
    have hch' := hch.imp (S := Up) fun x y hxy => by
      intro hx
      have := hxy.2.2 2 (by simp)
      simp only [TowardsOrStay, List.getD_cons_zero, List.getD_cons_succ] at this
      omega
    rw [List.isChain_cons_cons, List.isChain_cons_cons] at hch'
    intro hmem
    simp only [List.mem_cons, List.cons.injEq, one_ne_zero, and_false,
      false_or, and_true] at hmem
    have := up_ge hch'.2.2 _ (by simpa using hmem) (by simp)
    simp at this

/-- A diagonal in three dimensions that is not along an axis. -/
example : (∀ a ∈ ([7, -3, 2] : List Int), a.natAbs ≤ 707) ∧ manhattan (origin 3) [7, -3, 2] ≠ 0 := by decide
example : ([1, 0] : List Int) ≠ [2, 1] := by decide

end Verif.Props
