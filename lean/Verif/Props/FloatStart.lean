import Verif.Lemmas.FloatStart
import Verif.Props.PathLine32

/-!
# Paths in `double` that do not start at the origin (C75, C112, C123)

As in `Props/FloatPath.lean`, `path` over `Fl rnd` rounds every operation, over `ℚ` none; `rnd64` is the rounding of
`double`. `path32` has `int`s of 32 bits.
-/

namespace Verif.Props

open Verif Verif.Path Outcome Spec

variable {rnd : ℚ → ℚ}

/-- **C75**: the path between points of which the first has coordinates of at most 65536, at most 707 apart, is the
same in `double` as in exact arithmetic; also the loop does not end in the one if and only if it does not in the
other. -/
theorem C75_start (hr : Rounding rnd) (junk : Fl rnd) (junk' : ℚ) (fuel : Nat) {x0 x1 : List Int}
    (h3 : x0.length ≤ 3) (hl : x0.length = x1.length) (h0 : ∀ c ∈ x0, c.natAbs ≤ 65536)
    (hb : chebyshev x0 x1 ≤ 707) (mode : Mode) : path junk fuel x0 x1 mode = path junk' fuel x0 x1 mode := by
  have h := Leg.path_sim hr junk junk' fuel h3 (between_length hl) h0 ?_ mode
  · rwa [addPt_between hl] at h
  · intro d hd
    obtain ⟨i, hi, rfl⟩ := List.mem_iff_getElem.1 hd
    have hi' : i < x0.length := by rw [between_length hl]; exact hi
    have := natAbs_between hl hb hi'
    rw [← getD_between hl hi'] at this
    simpa [List.getD, hi] using this

/-- Two points of an image of 4000 by 3000 pixels. -/
example : Rounding rnd64 ∧ (∀ c ∈ ([3990, 2990] : List Int), c.natAbs ≤ 65536) ∧
    chebyshev [3990, 2990] [3500, 2400] ≤ 707 := ⟨rnd64_rounding, by decide, by decide⟩

/-- **C112** in `double`: if the line through both points passes through the inside of the pixel of the origin, then the
path ends, at `x1`, with steps towards it. -/
theorem C112_ends_double (hr : Rounding rnd) (junk : Fl rnd) {fuel : Nat} {x0 x1 : List Int} (h3 : x0.length ≤ 3)
    (hl : x0.length = x1.length) (hne : x0 ≠ x1) (h0 : ∀ c ∈ x0, c.natAbs ≤ 65536) (hb : chebyshev x0 x1 ≤ 707)
    (ht : ThroughOrigin x0 x1) (hf : manhattan x0 x1 ≤ fuel) :
    (∃ ret, path junk fuel x0 x1 .actual = ok ret ∧ ret.head? = some x0 ∧ ret.getLast? = some x1 ∧
      (∀ x ∈ ret, InSpan x0 x1 x) ∧ ret.IsChain (StepTowards x1)) ∧
    (∃ ret, path junk fuel x0 x1 .full = ok ret ∧ ret.head? = some x0 ∧ ret.getLast? = some x1 ∧
      (∀ x ∈ ret, InSpan x0 x1 x) ∧ ret.IsChain (UnitStep x1)) := by
  rw [C75_start hr junk 0 fuel h3 hl h0 hb .actual, C75_start hr junk 0 fuel h3 hl h0 hb .full]
  exact C112_ends 0 h3 hl hne hb ht hf

/-- **C112** in `double`: if it does not, then the path does not end. -/
theorem C112_endless_double (hr : Rounding rnd) (junk : Fl rnd) (fuel : Nat) {x0 x1 : List Int} (h3 : x0.length ≤ 3)
    (hl : x0.length = x1.length) (h0 : ∀ c ∈ x0, c.natAbs ≤ 65536) (hb : chebyshev x0 x1 ≤ 707)
    (ht : ¬ ThroughOrigin x0 x1) {mode : Mode} (hm : mode = .actual ∨ mode = .full) :
    path junk fuel x0 x1 mode = diverge := by
  rw [C75_start hr junk 0 fuel h3 hl h0 hb mode]
  exact C112_endless 0 fuel h3 hl (hb.trans (by omega)) ht hm

/-- Both cases occur away from the origin. -/
example : ThroughOrigin [10, -3] [30, -10] ∧ ¬ ThroughOrigin [1, 0] [2, 1] ∧ chebyshev [10, -3] [30, -10] ≤ 707 ∧
    chebyshev [1, 0] [2, 1] ≤ 707 := by
  refine ⟨⟨-49 / 100, fun i hi h => ?_⟩, ?_, by decide, by decide⟩
  · match i, hi with
    | 0, _ => norm_num [List.getD]
    | 1, _ => norm_num [List.getD, abs_lt]
  · rintro ⟨l, h⟩
    have h0 := h 0 (by decide) (by decide)
    have h1 := h 1 (by decide) (by decide)
    norm_num [List.getD, abs_lt] at h0 h1
    linarith [h0.2, h1.1]

/-- **C123**, with `double` and `int`s of 32 bits: the call returns the path of exact arithmetic if the line passes
through the inside of the pixel of the origin, and is undefined behaviour if not. -/
theorem C123_double (hr : Rounding rnd) (junk : Fl rnd) (junk' : ℚ) {fuel : Nat} (hf : 2 ^ 31 ≤ fuel)
    {x0 x1 : List Int} (h3 : x0.length ≤ 3) (hl : x0.length = x1.length) (hne : x0 ≠ x1)
    (h0 : ∀ c ∈ x0, c.natAbs ≤ 65536) (hb : chebyshev x0 x1 ≤ 707) {mode : Mode}
    (hm : mode = .actual ∨ mode = .full) :
    (ThroughOrigin x0 x1 → ∃ p, path32 junk fuel x0 x1 mode = ok p ∧ path junk' fuel x0 x1 mode = ok p) ∧
    (¬ ThroughOrigin x0 x1 → path32 junk fuel x0 x1 mode = ub) := by
  have h0' : ∀ c ∈ x0, -2 ^ 31 ≤ c ∧ c < 2 ^ 31 := by
    intro c hc
    have := h0 c hc
    norm_num
    omega
  have e := C75_start hr junk junk' fuel h3 hl h0 hb mode
  constructor
  · intro ht
    have h1' : ∀ c ∈ x1, -2 ^ 31 ≤ c ∧ c < 2 ^ 31 := by
      intro c hc
      obtain ⟨i, hi, rfl⟩ := List.mem_iff_getElem.1 hc
      have hi' : i < x0.length := by omega
      have h1 := natAbs_between hl hb hi'
      have h2 := h0 _ (List.getElem_mem hi')
      have e1 : x1.getD i 0 = x1[i] := by simp [List.getD, hi]
      have e2 : x0.getD i 0 = x0[i] := by simp [List.getD, hi']
      rw [e1, e2] at h1
      norm_num
      omega
    have hfm : manhattan x0 x1 ≤ fuel := by
      have h1 : manhattan x0 x1 ≤ x0.length * 707 := by
        unfold manhattan
        refine (List.sum_le_card_nsmul _ 707 ?_).trans ?_
        · intro d hd
          obtain ⟨i, hi, rfl⟩ := (mem_delta hl).1 hd
          exact natAbs_between hl hb hi
        · simp [hl]
      have h2 : x0.length * 707 ≤ 3 * 707 := Nat.mul_le_mul_right _ h3
      norm_num at hf
      omega
    obtain ⟨p, hp32, hp⟩ := C123_right junk' h3 hl hne hb ht hfm h0' h1' hm
    refine ⟨p, ?_, hp⟩
    have hfit := ((C123_same junk' fuel h3 hl h0' hm p).1 hp32).2
    exact (C123_same junk fuel h3 hl h0' hm p).2 ⟨e.trans hp, hfit⟩
  · intro ht
    rcases C123_ends_double hr junk hf h3 hl hne h0' hm with ⟨p, -, hp, -⟩ | ⟨h, -⟩
    · rw [C112_endless_double hr junk fuel h3 hl h0 hb ht hm] at hp
      cases hp
    · exact h

/-- The hypotheses are met by the second of these pairs, for which the call is undefined. -/
example (junk : Fl rnd64) : path32 junk (2 ^ 31) [1, 0] [2, 1] .full = ub := by
  refine (C123_double (x0 := [1, 0]) (x1 := [2, 1]) rnd64_rounding junk 0 (le_refl _) (by decide) rfl (by decide) (by decide) (by decide)
    (Or.inr rfl)).2 ?_
  rintro ⟨l, h⟩
  have h0 := h 0 (by decide) (by decide)
  have h1 := h 1 (by decide) (by decide)
  norm_num [List.getD, abs_lt] at h0 h1
  linarith [h0.2, h1.1]

end Verif.Props
