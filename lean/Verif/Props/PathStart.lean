import Verif.Lemmas.LineStart
import Verif.Props.Path

/-!
# Paths of modes actual and full that do not start at the origin (C112, C31)
-/

namespace Verif.Props

open Verif Verif.Path Outcome Spec

/-- The displacement. -/
def between (x0 x1 : List Int) : List Int := List.zipWith (fun a b => b - a) x0 x1

theorem between_length {x0 x1 : List Int} (hl : x0.length = x1.length) :
    x0.length = (between x0 x1).length := by
  simp [between, hl]

theorem addPt_between : ∀ {x0 x1 : List Int}, x0.length = x1.length → addPt (between x0 x1) x0 = x1
  | [], [], _ => rfl
  | a :: x0, b :: x1, h => by
    have ih := addPt_between (x0 := x0) (x1 := x1) (by simpa using h)
    show (b - a + a) :: addPt (between x0 x1) x0 = _
    rw [ih]
    simp

theorem getD_between {x0 x1 : List Int} (hl : x0.length = x1.length) {i : Nat} (hi : i < x0.length) :
    (between x0 x1).getD i 0 = x1.getD i 0 - x0.getD i 0 := by
  simp [between, List.getD, hi, hl ▸ hi]

theorem natAbs_between {x0 x1 : List Int} (hl : x0.length = x1.length) {B : Nat} (hb : chebyshev x0 x1 ≤ B)
    {i : Nat} (hi : i < x0.length) : (x1.getD i 0 - x0.getD i 0).natAbs ≤ B := by
  have h1 : (x1.getD i 0 - x0.getD i 0).natAbs ∈ (x0.zip x1).map fun p => (p.2 - p.1).natAbs :=
    (mem_delta hl).2 ⟨i, hi, rfl⟩
  have h2 : ∀ (l : List Nat) (a : Nat), a ∈ l → a ≤ l.foldr max 0 := by
    intro l
    induction l with
    | nil => simp
    | cons b l ih =>
      intro a ha
      rw [List.foldr_cons]
      rcases List.mem_cons.1 ha with rfl | ha
      · exact Nat.le_max_left _ _
      · exact (ih a ha).trans (Nat.le_max_right _ _)
  exact (h2 _ _ h1).trans hb

theorem differs {x0 x1 : List Int} (hl : x0.length = x1.length) (hne : x0 ≠ x1) :
    ∃ i < x0.length, x0.getD i 0 ≠ x1.getD i 0 := by
  by_contra h
  push Not at h
  apply hne
  apply List.ext_getElem hl
  intro i h1 h2
  have := h i h1
  simpa [List.getD, h1, h2] using this

/-- The legs of a path. -/
theorem mem_legs {x0 x1 : List Int} (hl : x0.length = x1.length) {p : Leg} :
    p ∈ Leg.initial x0 (between x0 x1) ↔
      ∃ i < x0.length, p = ⟨x0.getD i 0, x1.getD i 0 - x0.getD i 0, 0⟩ := by
  rw [Leg.mem_initial (between_length hl), ← between_length hl]
  constructor
  · rintro ⟨i, hi, rfl⟩
    exact ⟨i, hi, by rw [getD_between hl hi]⟩
  · rintro ⟨i, hi, rfl⟩
    exact ⟨i, hi, by rw [getD_between hl hi]⟩

theorem sub_ne {a b : Int} : b - a ≠ 0 ↔ a ≠ b := by omega

/-- The line passes through the inside of the pixel of the origin if all axes pass their end later than all
axes have arrived. -/
theorem through_iff {x0 x1 : List Int} (hl : x0.length = x1.length) :
    ThroughOrigin x0 x1 ↔ ∀ p ∈ Leg.initial x0 (between x0 x1), ∀ q ∈ Leg.initial x0 (between x0 x1),
      p.v ≠ 0 → q.v ≠ 0 → q.arrive < p.pass := by
  classical
  constructor
  · rintro ⟨l, h⟩ p hp q hq hp0 hq0
    obtain ⟨i, hi, rfl⟩ := (mem_legs hl).1 hp
    obtain ⟨j, hj, rfl⟩ := (mem_legs hl).1 hq
    have h1 := h i hi (sub_ne.1 hp0)
    have h2 := h j hj (sub_ne.1 hq0)
    have h1' := ((Leg.near_iff (m := 0) hp0).1 (by push_cast; exact h1)).2
    have h2' := ((Leg.near_iff (m := 0) hq0).1 (by push_cast; exact h2)).1
    exact h2'.trans h1'
  · intro h
    obtain ⟨c, h1, h2⟩ := Order.exists_between_finsets
      (((Leg.initial x0 (between x0 x1)).filter fun p => p.v ≠ 0).map Leg.arrive).toFinset
      (((Leg.initial x0 (between x0 x1)).filter fun p => p.v ≠ 0).map Leg.pass).toFinset (by
        intro a ha b hb
        simp only [List.mem_toFinset, List.mem_map, List.mem_filter, decide_eq_true_eq] at ha hb
        obtain ⟨q, ⟨hq, hq0⟩, rfl⟩ := ha
        obtain ⟨p, ⟨hp, hp0⟩, rfl⟩ := hb
        exact h p hp q hq hp0 hq0)
    refine ⟨c - 1, fun i hi hne => ?_⟩
    have hp := (mem_legs hl (p := ⟨x0.getD i 0, x1.getD i 0 - x0.getD i 0, 0⟩)).2 ⟨i, hi, rfl⟩
    have h0 := sub_ne.2 hne
    have hm : (⟨x0.getD i 0, x1.getD i 0 - x0.getD i 0, 0⟩ : Leg) ∈
        (Leg.initial x0 (between x0 x1)).filter fun p => p.v ≠ 0 := by
      rw [List.mem_filter, decide_eq_true_eq]
      exact ⟨hp, h0⟩
    have := (Leg.near_iff (a := x0.getD i 0) (m := 0) (l := c - 1) h0).2 ⟨by
      have := h1 _ (List.mem_toFinset.2 (List.mem_map_of_mem hm))
      linarith, by
      have := h2 _ (List.mem_toFinset.2 (List.mem_map_of_mem hm))
      linarith⟩
    push_cast at this
    exact this

/-- From any start: if the line through both points passes through the inside of the pixel of the origin, then
`actual` and `full` terminate within `Σ |x1_i - x0_i|` iterations, and return a path from `x0` to `x1`, in the
bounding box, with steps towards `x1`: of at most one pixel along each axis, of exactly one pixel along one axis
for `full`. -/
theorem C112_ends (junk : ℚ) {fuel : Nat} {x0 x1 : List Int} (h3 : x0.length ≤ 3) (hl : x0.length = x1.length)
    (hne : x0 ≠ x1) (hb : chebyshev x0 x1 ≤ 707) (ht : ThroughOrigin x0 x1) (hf : manhattan x0 x1 ≤ fuel) :
    (∃ ret, path junk fuel x0 x1 .actual = ok ret ∧ ret.head? = some x0 ∧ ret.getLast? = some x1 ∧
      (∀ x ∈ ret, InSpan x0 x1 x) ∧ ret.IsChain (StepTowards x1)) ∧
    (∃ ret, path junk fuel x0 x1 .full = ok ret ∧ ret.head? = some x0 ∧ ret.getLast? = some x1 ∧
      (∀ x ∈ ret, InSpan x0 x1 x) ∧ ret.IsChain (UnitStep x1)) := by
  have hlen := between_length hl
  have hadd := addPt_between hl
  have hax := Leg.initial_axes x0 (between x0 x1) hlen
  have hrow := Leg.initial_row x0 (between x0 x1) hlen
  have hst := Leg.initial_start x0 (between x0 x1) hlen
  have htg := Leg.initial_target x0 (between x0 x1) hlen
  have hlf := Leg.initial_left x0 (between x0 x1) hlen
  rw [hadd] at hax htg hlf
  have hg : Leg.Good (Leg.initial x0 (between x0 x1)) := by
    refine ⟨fun p hp => ?_, fun p hp q hq hp0 hq0 => ?_⟩
    · obtain ⟨i, hi, rfl⟩ := (mem_legs hl).1 hp
      exact Nat.zero_le _
    · have h := (through_iff hl).1 ht p hp q hq hp0 hq0
      obtain ⟨i, hi, rfl⟩ := (mem_legs hl).1 hp
      obtain ⟨j, hj, rfl⟩ := (mem_legs hl).1 hq
      exact Leg.gap_707 hp0 hq0 (natAbs_between hl hb hi) (natAbs_between hl hb hj) h
  have hl0 : Leg.left (Leg.initial x0 (between x0 x1)) ≠ 0 := by
    obtain ⟨i, hi, h⟩ := differs hl hne
    exact Leg.left_pos_iff.2 ⟨_, (mem_legs hl).2 ⟨i, hi, rfl⟩, Int.natAbs_pos.2 (sub_ne.2 h)⟩
  have hspan : InSpan x0 x1 x0 := by
    refine ⟨rfl, fun i _ => ?_⟩
    unfold Between
    omega
  have key : ∀ {rows : ℚ → List (Axis ℚ) → List (Axis ℚ) × List (List Int)} (R : List Int → List Int → Prop),
      Leg.Moves rows →
      (∀ (ps : List Leg) (τ T : ℚ), ps.map Leg.ends = (Leg.initial x0 (between x0 x1)).map Leg.ends →
        (∀ p ∈ ps, p.m ≤ p.v.natAbs) → (∀ p ∈ ps, Leg.sel T p → p.m < p.v.natAbs) → 0 < Leg.nsel T ps →
        (rows (T - τ) (ps.map (Leg.ax τ))).2.getLast? = some (Leg.rowOf (ps.map (Leg.inc T))) ∧
        (Leg.rowOf ps :: (rows (T - τ) (ps.map (Leg.ax τ))).2).IsChain R ∧
        (∀ x ∈ (rows (T - τ) (ps.map (Leg.ax τ))).2, InSpan x0 x1 x)) →
      ∃ ret, line rows junk fuel x0 x1 = ok ret ∧ ret.head? = some x0 ∧ ret.getLast? = some x1 ∧
        (∀ x ∈ ret, InSpan x0 x1 x) ∧ ret.IsChain R := by
    intro rows R hm hr
    obtain ⟨out, e, h1, h2, h4⟩ := Leg.lineLoop_ends hm hr junk fuel _ 0 [x0] rfl hg hl0 (by omega)
    refine ⟨x0 :: out, ?_, rfl, ?_, ?_, ?_⟩
    · unfold line
      rw [if_neg (by omega)]
      simp only [hax, Leg.row_ax, hrow]
      rw [e]
      rfl
    · rw [List.getLast?_cons, h1]
      show some (Leg.target _) = _
      rw [htg]
    · intro x hx
      rcases List.mem_cons.1 hx with rfl | hx
      · exact hspan
      · exact h4 x hx
    · rw [hrow] at h2
      exact h2
  constructor
  · apply key _ Leg.actual_moves
    intro ps τ T hes hle h hpos
    have := Leg.actual_rows ps τ T hes hle h hpos
    rwa [hst, htg] at this
  · apply key _ Leg.full_moves
    intro ps τ T hes hle h hpos
    have := Leg.full_rows ps τ T hes hle h hpos
    rwa [hst, htg] at this

/-- From any start: if the line through both points does not pass through the inside of the pixel of the origin,
then neither mode terminates. -/
theorem C112_endless (junk : ℚ) (fuel : Nat) {x0 x1 : List Int} (h3 : x0.length ≤ 3) (hl : x0.length = x1.length)
    (hb : chebyshev x0 x1 ≤ 1000000) (ht : ¬ ThroughOrigin x0 x1) {mode : Mode}
    (hm : mode = .actual ∨ mode = .full) : path junk fuel x0 x1 mode = diverge := by
  have hlen := between_length hl
  have hax := Leg.initial_axes x0 (between x0 x1) hlen
  rw [addPt_between hl] at hax
  rw [through_iff hl] at ht
  push Not at ht
  obtain ⟨p, hp, q, hq, hp0, hq0, hle⟩ := ht
  have key : ∀ {rows : ℚ → List (Axis ℚ) → List (Axis ℚ) × List (List Int)}, Leg.Moves rows →
      line rows junk fuel x0 x1 = diverge := by
    intro rows hr
    unfold line
    rw [if_neg (by omega)]
    simp only [hax]
    obtain ⟨i, hi, rfl⟩ := List.mem_iff_getElem.1 hp
    obtain ⟨j, hj, rfl⟩ := List.mem_iff_getElem.1 hq
    refine Leg.lineLoop_endless hr junk fuel _ 0 _ i j hi hj ?_ hp0 hq0 hle (Or.inl ?_)
    · intro p hp
      obtain ⟨i, hi, rfl⟩ := (mem_legs hl).1 hp
      exact natAbs_between hl hb hi
    · obtain ⟨k, hk, e⟩ := (mem_legs hl).1 hq
      rw [e] at hq0 ⊢
      exact Int.natAbs_pos.2 hq0
  rcases hm with rfl | rfl
  · exact key Leg.actual_moves
  · exact key Leg.full_moves

/-- From the origin the line passes through the pixel of the origin. -/
theorem C112_origin (x1 : List Int) : ThroughOrigin (origin x1.length) x1 := by
  refine ⟨0, fun i hi _ => ?_⟩
  rw [List.length_replicate] at hi
  have : (origin x1.length).getD i 0 = 0 := by simp [List.getD, hi]
  rw [this]
  norm_num

/-- Both cases occur. -/
example : ThroughOrigin [10, -3] [30, -10] := ⟨-49 / 100, fun i hi h => by
  match i, hi with
  | 0, _ => norm_num [List.getD]
  | 1, _ => norm_num [List.getD, abs_lt]⟩

example : ¬ ThroughOrigin [1, 0] [2, 1] := by
  rintro ⟨l, h⟩
  have h0 := h 0 (by decide) (by decide)
  have h1 := h 1 (by decide) (by decide)
  norm_num [List.getD, abs_lt] at h0 h1
  linarith [h0.2, h1.1]

/-- Also where a path from another start ends it may leave the line: from (1, 0) to (3, 1) both modes visit
(3, 0), of which the segment does not meet the pixel. -/
theorem C31_start_violated (junk : ℚ) (fuel : Nat) {mode : Mode} (hm : mode = .actual ∨ mode = .full) :
    ∃ ret, path junk (fuel + 3) [1, 0] [3, 1] mode = ok ret ∧ addPt [2, 0] [1, 0] ∈ ret ∧ ¬ Meets [2, 1] [2, 0] := by
  have hn : ¬ Meets [2, 1] [2, 0] := by
    rintro ⟨t, -, -, h⟩
    rw [List.forall₂_cons, List.forall₂_cons] at h
    norm_num [abs_le] at h
    linarith [h.1.2, h.2.1]
  rcases hm with rfl | rfl
  · exact ⟨[[1, 0], [2, 0], [3, 0], [3, 1]], by
      norm_num [path, line, lineLoop, tmin, actualRows, fullRows, row, axis, Axis.v, Axis.t, Axis.selected, Axis.advance,
        Axis.place, Axis.sign, fabs, List.filter_cons, List.all_cons]
      rfl, by decide, hn⟩
  · exact ⟨[[1, 0], [2, 0], [3, 0], [3, 1]], by
      norm_num [path, line, lineLoop, tmin, actualRows, fullRows, row, axis, Axis.v, Axis.t, Axis.selected, Axis.advance,
        Axis.place, Axis.sign, fabs, List.filter_cons, List.all_cons]
      rfl, by decide, hn⟩

end Verif.Props
