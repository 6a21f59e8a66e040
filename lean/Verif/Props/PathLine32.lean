import Verif.Lemmas.PathLine32
import Verif.Props.Path32
import Verif.Props.PathStart
import Verif.Props.FloatPath

/-!
# Modes `actual` and `full` of `path` with `int`s of 32 bits (C123)

`path32` is the function of the code with `int`s (a sum or difference that does not fit is undefined), `path` the one with
unbounded integers.
-/

namespace Verif.Props

open Verif Verif.Path Outcome Spec

section Any

variable {K : Type} [Zero K] [One K] [Add K] [Sub K] [Neg K] [Mul K] [Div K] [NatCast K] [IntCast K]
  [DecidableEq K] [LT K] [DecidableLT K]

/-- All numbers of the computation fit in `int`: the differences of the points, the pixels of the path, and the number of
pixels. -/
def PathFits (x0 x1 : List Int) (p : List (List Int)) : Prop :=
  (∀ q ∈ x0.zip x1, -2 ^ 31 ≤ q.2 - q.1 ∧ q.2 - q.1 < 2 ^ 31) ∧ (∀ x ∈ p, ∀ c ∈ x, -2 ^ 31 ≤ c ∧ c < 2 ^ 31) ∧
    p.length < 2 ^ 31

private theorem fits_iff (x0 x1 : List Int) (p : List (List Int)) : PathFits x0 x1 p ↔
    (∀ q ∈ x0.zip x1, In32 (q.2 - q.1)) ∧ (∀ x ∈ p, ∀ c ∈ x, In32 c) ∧ In32 (p.length : Int) := by
  have e : ∀ a : Int, (-2 ^ 31 ≤ a ∧ a < 2 ^ 31) ↔ In32 a := by
    intro a
    unfold In32
    norm_num
    omega
  unfold PathFits
  refine and_congr (forall_congr' fun q => imp_congr_right fun _ => e _)
    (and_congr (forall_congr' fun x => imp_congr_right fun _ => forall_congr' fun c => imp_congr_right fun _ => e c) ?_)
  unfold In32
  norm_num
  omega

private theorem row_axis : ∀ (x0 x1 : List Int), ∀ a ∈ List.zipWith (axis K) x0 x1, a.c ∈ x0
  | [], _, a, h => by simp at h
  | _ :: _, [], a, h => by simp at h
  | b :: x0, c :: x1, a, h => by
    rw [List.zipWith_cons_cons] at h
    rcases List.mem_cons.1 h with rfl | h
    · exact List.mem_cons_self
    · exact List.mem_cons_of_mem _ (row_axis x0 x1 a h)

private theorem line32_ok {rows : K → List (Axis K) → List (Axis K) × List (List Int)}
    {rows32 : K → Int → List (Axis K) → Outcome (List (Axis K) × List (List Int) × Int)} (hv : Version rows rows32)
    (junk : K) (fuel : Nat) {x0 x1 : List Int} (h3 : x0.length ≤ 3) (hl : x0.length = x1.length)
    (h0 : ∀ c ∈ x0, -2 ^ 31 ≤ c ∧ c < 2 ^ 31) (p : List (List Int)) :
    line32 rows32 junk fuel x0 x1 = ok p ↔ line rows junk fuel x0 x1 = ok p ∧ PathFits x0 x1 p := by
  have hc : ¬ (x0.length > 3 ∨ x1.length < x0.length) := by omega
  have h0' : ∀ c ∈ x0, In32 c := by
    intro c hc
    have := h0 c hc
    unfold In32
    norm_num at this
    omega
  rw [line32, line, if_neg hc, if_neg hc, slopes32_eq, fits_iff]
  by_cases hs : ∀ q ∈ x0.zip x1, In32 (q.2 - q.1)
  · rw [if_pos hs]
    show lineLoop32 rows32 junk fuel (([row (List.zipWith (axis K) x0 x1)] : List (List Int)).length : Nat) _ _ = ok p ↔ _
    have hrow : ∀ c ∈ row (List.zipWith (axis K) x0 x1), In32 c := by
      intro c hc
      obtain ⟨a, ha, rfl⟩ := List.mem_map.1 hc
      exact h0' _ (row_axis x0 x1 a ha)
    rw [lineLoop32_ok hv junk fuel _ [row (List.zipWith (axis K) x0 x1)] p (le_refl 1) (by show In32 1; decide)
      (fun a ha => h0' _ (row_axis x0 x1 a ha)) (by simpa using hrow)]
    exact ⟨fun h => ⟨h.1, hs, h.2⟩, fun h => ⟨h.1, h.2.2⟩⟩
  · rw [if_neg hs]
    constructor
    · intro h
      cases h
    · intro h
      exact absurd h.2.1 hs

/-- **C123**: in modes `actual` and `full` the path with `int`s is that of unbounded integers, if that ends and all of it
fits, and otherwise there is none; in whatever arithmetic the crossings are computed. -/
theorem C123_same (junk : K) (fuel : Nat) {x0 x1 : List Int} (h3 : x0.length ≤ 3) (hl : x0.length = x1.length)
    (h0 : ∀ c ∈ x0, -2 ^ 31 ≤ c ∧ c < 2 ^ 31) {mode : Mode} (hm : mode = .actual ∨ mode = .full)
    (p : List (List Int)) :
    path32 junk fuel x0 x1 mode = ok p ↔ path junk fuel x0 x1 mode = ok p ∧ PathFits x0 x1 p := by
  rcases hm with rfl | rfl
  · exact line32_ok actual_version junk fuel h3 hl h0 p
  · exact line32_ok full_version junk fuel h3 hl h0 p

private theorem line32_ends (hK : ∀ x : K, fabs (x - x) < 1 / (1000000 : Nat))
    (hz : ∀ z : Int, z ≠ 0 → (z : K) ≠ 0) {rows : K → List (Axis K) → List (Axis K) × List (List Int)}
    {rows32 : K → Int → List (Axis K) → Outcome (List (Axis K) × List (List Int) × Int)} (hv : Version rows rows32)
    (hr : rows = actualRows ∨ rows = fun tm => fullRows tm [])
    (junk : K) {fuel : Nat} (hf : 2 ^ 31 ≤ fuel) {x0 x1 : List Int} (h3 : x0.length ≤ 3) (hl : x0.length = x1.length)
    (hne : x0 ≠ x1) (h0 : ∀ c ∈ x0, -2 ^ 31 ≤ c ∧ c < 2 ^ 31) :
    (∃ p, line32 rows32 junk fuel x0 x1 = ok p) ∨ line32 rows32 junk fuel x0 x1 = ub := by
  have hc : ¬ (x0.length > 3 ∨ x1.length < x0.length) := by omega
  have h0' : ∀ c ∈ x0, In32 c := by
    intro c hc
    have := h0 c hc
    unfold In32
    norm_num at this
    omega
  rw [line32, if_neg hc, slopes32_eq]
  by_cases hs : ∀ q ∈ x0.zip x1, In32 (q.2 - q.1)
  · rw [if_pos hs]
    have hmove : ∃ a ∈ List.zipWith (axis K) x0 x1, a.v ≠ 0 := by
      have : ∃ i, ∃ (h : i < x0.length) (h' : i < x1.length), x0[i] ≠ x1[i] := by
        by_contra hcon
        apply hne
        apply List.ext_getElem hl
        intro i h h'
        by_contra hi
        exact hcon ⟨i, h, h', hi⟩
      obtain ⟨i, h, h', hi⟩ := this
      refine ⟨axis K x0[i] x1[i], ?_, hz _ (by show x1[i] - x0[i] ≠ 0; omega)⟩
      rw [List.mem_iff_getElem]
      exact ⟨i, by simp; omega, by simp⟩
    exact lineLoop32_ends hv junk (fun axes => ∃ a ∈ axes, a.v ≠ 0) (fun axes h => stores hK junk hr h) fuel _
      [row (List.zipWith (axis K) x0 x1)] hmove (le_refl 1) (by show In32 1; decide) (fun a ha => h0' _ (row_axis x0 x1 a ha))
      (by norm_num at hf; omega)
  · rw [if_neg hs]
    exact Or.inr rfl

private theorem path32_ends (hK : ∀ x : K, fabs (x - x) < 1 / (1000000 : Nat))
    (hz : ∀ z : Int, z ≠ 0 → (z : K) ≠ 0) (junk : K) {fuel : Nat} (hf : 2 ^ 31 ≤ fuel) {x0 x1 : List Int}
    (h3 : x0.length ≤ 3) (hl : x0.length = x1.length) (hne : x0 ≠ x1)
    (h0 : ∀ c ∈ x0, -2 ^ 31 ≤ c ∧ c < 2 ^ 31) {mode : Mode} (hm : mode = .actual ∨ mode = .full) :
    (∃ p, path32 junk fuel x0 x1 mode = ok p ∧ path junk fuel x0 x1 mode = ok p ∧ PathFits x0 x1 p) ∨
    (path32 junk fuel x0 x1 mode = ub ∧ ¬ ∃ p, path junk fuel x0 x1 mode = ok p ∧ PathFits x0 x1 p) := by
  have hs := C123_same junk fuel h3 hl h0 hm
  have hend : (∃ p, path32 junk fuel x0 x1 mode = ok p) ∨ path32 junk fuel x0 x1 mode = ub := by
    rcases hm with rfl | rfl
    · exact line32_ends hK hz actual_version (Or.inl rfl) junk hf h3 hl hne h0
    · exact line32_ends hK hz full_version (Or.inr rfl) junk hf h3 hl hne h0
  rcases hend with ⟨p, hp⟩ | hub
  · exact Or.inl ⟨p, hp, (hs p).1 hp⟩
  · refine Or.inr ⟨hub, ?_⟩
    rintro ⟨p, hp⟩
    have := (hs p).2 hp
    rw [hub] at this
    cases this

end Any

/-- **C123**: between any two different points modes `actual` and `full` end, within `2 ^ 31` iterations: with the path of
unbounded integers if there is one and it fits, with undefined behaviour otherwise. -/
theorem C123_ends (junk : ℚ) {fuel : Nat} (hf : 2 ^ 31 ≤ fuel) {x0 x1 : List Int} (h3 : x0.length ≤ 3)
    (hl : x0.length = x1.length) (hne : x0 ≠ x1) (h0 : ∀ c ∈ x0, -2 ^ 31 ≤ c ∧ c < 2 ^ 31) {mode : Mode}
    (hm : mode = .actual ∨ mode = .full) :
    (∃ p, path32 junk fuel x0 x1 mode = ok p ∧ path junk fuel x0 x1 mode = ok p ∧ PathFits x0 x1 p) ∨
    (path32 junk fuel x0 x1 mode = ub ∧ ¬ ∃ p, path junk fuel x0 x1 mode = ok p ∧ PathFits x0 x1 p) :=
  path32_ends (fun x => by rw [sub_self]; simp [fabs]) (fun z hz => by exact_mod_cast hz) junk hf h3 hl hne h0 hm

/-- **C123**, the same in `double`. -/
theorem C123_ends_double {rnd : ℚ → ℚ} (hr : Rounding rnd) (junk : Fl rnd) {fuel : Nat} (hf : 2 ^ 31 ≤ fuel)
    {x0 x1 : List Int} (h3 : x0.length ≤ 3) (hl : x0.length = x1.length) (hne : x0 ≠ x1)
    (h0 : ∀ c ∈ x0, -2 ^ 31 ≤ c ∧ c < 2 ^ 31) {mode : Mode} (hm : mode = .actual ∨ mode = .full) :
    (∃ p, path32 junk fuel x0 x1 mode = ok p ∧ path junk fuel x0 x1 mode = ok p ∧ PathFits x0 x1 p) ∨
    (path32 junk fuel x0 x1 mode = ub ∧ ¬ ∃ p, path junk fuel x0 x1 mode = ok p ∧ PathFits x0 x1 p) := by
  refine path32_ends (fun x => ?_) (fun z hz h => ?_) junk hf h3 hl hne h0 hm
  · have e : x - x = (0 : Fl rnd) := by
      apply Fl.ext
      show rnd (x.val - x.val) = 0
      rw [sub_self, hr.zero]
    rw [e]
    have e0 : fabs (0 : Fl rnd) = 0 := by
      unfold fabs
      rw [if_neg]
      exact lt_irrefl (0 : ℚ)
    rw [e0]
    show (0 : ℚ) < rnd (1 / rnd ((1000000 : Nat) : ℚ))
    rw [hr.nat (by norm_num)]
    have := hr.rel (1 / ((1000000 : Nat) : ℚ))
    rw [abs_le] at this
    norm_num at this ⊢
    linarith [this.1]
  · have e : rnd (z : ℚ) = 0 := congrArg Fl.val h
    have := hr.rel z
    rw [e, zero_sub, abs_neg] at this
    have hz' : (0 : ℚ) < |(z : ℚ)| := abs_pos.2 (by exact_mod_cast hz)
    have h2 : |(z : ℚ)| / 2 ^ 53 < |(z : ℚ)| := by
      apply div_lt_self hz'
      norm_num
    linarith

/-- The distance that remains. -/
private def remains (x1 x : List Int) : Nat := ∑ i ∈ Finset.range x1.length, (x1.getD i 0 - x.getD i 0).natAbs

private theorem remains_step {x1 x y : List Int} (hx : x.length = x1.length) (h : StepTowards x1 x y) :
    remains x1 y < remains x1 x := by
  obtain ⟨hne, hlen, hs⟩ := h
  apply Finset.sum_lt_sum
  · intro i hi
    have := hs i (Finset.mem_range.1 hi)
    unfold TowardsOrStay at this
    omega
  · have : ∃ i, ∃ (h : i < y.length) (h' : i < x.length), y[i] ≠ x[i] := by
      by_contra hcon
      apply hne
      apply List.ext_getElem hlen
      intro i h h'
      by_contra hi
      exact hcon ⟨i, h, h', hi⟩
    obtain ⟨i, h, h', hi⟩ := this
    refine ⟨i, Finset.mem_range.2 (by omega), ?_⟩
    have hst := hs i (by omega)
    have e1 : y.getD i 0 = y[i] := by simp [List.getD, h]
    have e2 : x.getD i 0 = x[i] := by simp [List.getD, h']
    unfold TowardsOrStay at hst
    rw [e1, e2] at hst ⊢
    omega

private theorem remains_unit {x1 x y : List Int} (hx : x.length = x1.length) (h : UnitStep x1 x y) :
    remains x1 y < remains x1 x := by
  apply remains_step hx
  obtain ⟨i, hi, h⟩ := h
  have hset : ∀ v : Int, ∀ j, (x.set i v).getD j 0 = if j = i then v else x.getD j 0 := by
    intro v j
    by_cases hj : j = i
    · subst hj
      simp [List.getD, hx, hi]
    · rw [if_neg hj]
      simp [List.getD, List.getElem?_set, Ne.symm hj]
  rcases h with ⟨hlt, rfl⟩ | ⟨hlt, rfl⟩
  · refine ⟨fun hc => ?_, by simp, fun j hj => ?_⟩
    · have := congrArg (fun z => z.getD i 0) hc
      simp only [hset, if_true] at this
      omega
    · rw [hset]
      split
      · rename_i e
        subst e
        exact Or.inr (Or.inl ⟨hlt, rfl⟩)
      · exact Or.inl rfl
  · refine ⟨fun hc => ?_, by simp, fun j hj => ?_⟩
    · have := congrArg (fun z => z.getD i 0) hc
      simp only [hset, if_true] at this
      omega
    · rw [hset]
      split
      · rename_i e
        subst e
        exact Or.inr (Or.inr ⟨hlt, rfl⟩)
      · exact Or.inl rfl

private theorem short {x1 : List Int} {R : List Int → List Int → Prop}
    (hR : ∀ x y, x.length = x1.length → R x y → remains x1 y < remains x1 x) : ∀ (p : List (List Int)) (x : List Int),
    (x :: p).IsChain R → (∀ y ∈ x :: p, y.length = x1.length) → p.length ≤ remains x1 x
  | [], _, _, _ => Nat.zero_le _
  | y :: p, x, h, hl => by
    obtain ⟨h1, h2⟩ := List.isChain_cons_cons.1 h
    have := short hR p y h2 fun z hz => hl z (List.mem_cons_of_mem _ hz)
    have := hR x y (hl x List.mem_cons_self) h1
    rw [List.length_cons]
    omega

private theorem remains_le {x0 x1 : List Int} (hl : x0.length = x1.length) : remains x1 x0 ≤ x1.length * chebyshev x0 x1 := by
  unfold remains
  refine (Finset.sum_le_card_nsmul _ _ (chebyshev x0 x1) ?_).trans (by simp)
  intro i hi
  rw [Finset.mem_range] at hi
  have key : ∀ (l : List Nat) (a : Nat), a ∈ l → a ≤ l.foldr max 0 := by
    intro l a h
    induction l with
    | nil => simp at h
    | cons b l ih =>
      rw [List.foldr_cons]
      rcases List.mem_cons.1 h with rfl | h
      · exact le_max_left _ _
      · exact (ih h).trans (le_max_right _ _)
  apply key
  refine List.mem_map.2 ⟨(x0.getD i 0, x1.getD i 0), ?_, rfl⟩
  rw [List.mem_iff_getElem]
  refine ⟨i, by simp; omega, ?_⟩
  simp [List.getD, hi, hl]

/-- **C123**: the path is right between points at most 707 apart if the points satisfy the condition of C112 (as from the
origin): no number leaves the range of the points. -/
theorem C123_right (junk : ℚ) {fuel : Nat} {x0 x1 : List Int} (h3 : x0.length ≤ 3) (hl : x0.length = x1.length)
    (hne : x0 ≠ x1) (hb : chebyshev x0 x1 ≤ 707) (ht : ThroughOrigin x0 x1) (hf : manhattan x0 x1 ≤ fuel)
    (h0 : ∀ c ∈ x0, -2 ^ 31 ≤ c ∧ c < 2 ^ 31) (h1 : ∀ c ∈ x1, -2 ^ 31 ≤ c ∧ c < 2 ^ 31) {mode : Mode}
    (hm : mode = .actual ∨ mode = .full) :
    ∃ p, path32 junk fuel x0 x1 mode = ok p ∧ path junk fuel x0 x1 mode = ok p := by
  have key : ∀ {R : List Int → List Int → Prop} {ret : List (List Int)},
      (∀ x y, x.length = x1.length → R x y → remains x1 y < remains x1 x) → path junk fuel x0 x1 mode = ok ret →
      ret.head? = some x0 → (∀ x ∈ ret, InSpan x0 x1 x) → ret.IsChain R →
      ∃ p, path32 junk fuel x0 x1 mode = ok p ∧ path junk fuel x0 x1 mode = ok p := by
    intro R ret hR hp hh hspan hch
    refine ⟨ret, (C123_same junk fuel h3 hl h0 hm ret).2 ⟨hp, ?_, ?_, ?_⟩, hp⟩
    · intro q hq
      have hle : (q.2 - q.1).natAbs ≤ chebyshev x0 x1 := by
        have : ∀ (l : List Nat) (a : Nat), a ∈ l → a ≤ l.foldr max 0 := by
          intro l a h
          induction l with
          | nil => simp at h
          | cons b l ih =>
            rw [List.foldr_cons]
            rcases List.mem_cons.1 h with rfl | h
            · exact le_max_left _ _
            · exact (ih h).trans (le_max_right _ _)
        exact this _ _ (List.mem_map.2 ⟨q, hq, rfl⟩)
      norm_num
      omega
    · intro x hx c hc
      obtain ⟨hlen, hs⟩ := hspan x hx
      obtain ⟨i, hi, rfl⟩ := List.mem_iff_getElem.1 hc
      have hb := hs i (by omega)
      have e : x.getD i 0 = x[i] := by simp [List.getD, hi]
      have g0 := h0 (x0.getD i 0) (by
        rw [show x0.getD i 0 = x0[i]'(by omega) by simp [List.getD, show i < x0.length by omega]]
        exact List.getElem_mem _)
      have g1 := h1 (x1.getD i 0) (by
        rw [show x1.getD i 0 = x1[i]'(by omega) by simp [List.getD, show i < x1.length by omega]]
        exact List.getElem_mem _)
      rw [e] at hb
      unfold Between at hb
      omega
    · cases ret with
      | nil => simp
      | cons x p =>
        have hx : x = x0 := by simpa using hh
        subst hx
        have := short hR p x hch fun y hy => by
          have := (hspan y hy).1
          omega
        have h2 := remains_le hl
        have h4 : x1.length * chebyshev x x1 ≤ 3 * 707 := Nat.mul_le_mul (by omega) hb
        rw [List.length_cons]
        norm_num
        omega
  obtain ⟨⟨r, e1, e2, -, e3, e4⟩, ⟨r', f1, f2, -, f3, f4⟩⟩ := C112_ends junk h3 hl hne hb ht hf
  rcases hm with rfl | rfl
  · exact key (fun x y hx h => remains_step hx h) e1 e2 e3 e4
  · exact key (fun x y hx h => remains_unit hx h) f1 f2 f3 f4

/-- **C123**: where the loop over unbounded integers does not end (C112), the loop over `int`s is undefined behaviour. -/
theorem C123_endless (junk : ℚ) {fuel : Nat} (hf : 2 ^ 31 ≤ fuel) {x0 x1 : List Int} (h3 : x0.length ≤ 3)
    (hl : x0.length = x1.length) (hne : x0 ≠ x1) (hb : chebyshev x0 x1 ≤ 1000000) (ht : ¬ ThroughOrigin x0 x1)
    (h0 : ∀ c ∈ x0, -2 ^ 31 ≤ c ∧ c < 2 ^ 31) {mode : Mode} (hm : mode = .actual ∨ mode = .full) :
    path32 junk fuel x0 x1 mode = ub := by
  rcases C123_ends junk hf h3 hl hne h0 hm with ⟨p, -, hp, -⟩ | ⟨h, -⟩
  · rw [C112_endless junk fuel h3 hl hb ht hm] at hp
    cases hp
  · exact h

/-- From the origin to (3, 2) the path is right; from (1, 0) to (2, 1) the call is undefined; and so is a difference that
does not fit. -/
example : (∃ p, path32 (0 : ℚ) 5 [0, 0] [3, 2] .full = ok p ∧ path (0 : ℚ) 5 [0, 0] [3, 2] .full = ok p) ∧
    (∀ fuel, 2 ^ 31 ≤ fuel → path32 (0 : ℚ) fuel [1, 0] [2, 1] .actual = ub) ∧
    (∀ fuel, path32 (0 : ℚ) fuel [-2147483648] [0] .actual = ub) := by
  refine ⟨?_, fun fuel hf => ?_, fun fuel => rfl⟩
  · exact C123_right (x0 := [0, 0]) (x1 := [3, 2]) 0 (by decide) rfl (by decide) (by decide) (C112_origin [3, 2])
      (by decide) (by decide) (by decide) (Or.inr rfl)
  · rcases C123_ends (0 : ℚ) hf (x0 := [1, 0]) (x1 := [2, 1]) (by decide) rfl (by decide) (by decide) (Or.inl rfl) with
      ⟨p, -, hp, -⟩ | ⟨h, -⟩
    · rw [C30_violated 0 fuel (Or.inl rfl)] at hp
      cases hp
    · exact h

end Verif.Props
