import Verif.Lemmas.Path32
import Verif.Props.Path

/-!
# Overflow in Bresenham paths (C76)

`bresenham32` is the function with the 32-bit integers of the code, where overflow is undefined behaviour.
-/

namespace Verif.Props

open Verif Verif.Path Outcome Spec

/-- Between points whose displacement along every axis is below 2^30, no operation overflows: the path is the one of
exact integers (for which C26-C28 hold). -/
theorem C76_path (junk : ℚ) (fuel : Nat) {x0 x1 : List Int} (h3 : x0.length ≤ 3) (hl : x0.length = x1.length)
    (hne : x0 ≠ x1) (h0 : ∀ c ∈ x0, -2 ^ 31 ≤ c ∧ c < 2 ^ 31) (h1 : ∀ c ∈ x1, -2 ^ 31 ≤ c ∧ c < 2 ^ 31)
    (hd : ∀ i < x0.length, |x1.getD i 0 - x0.getD i 0| < 2 ^ 30) :
    bresenham32 x0 x1 = path junk fuel x0 x1 .bresenham := by
  obtain ⟨rows, hrows, hlen, -, -, hspan, -⟩ := C26_bresenham junk fuel h3 hl hne
  have hd' : ∀ i < x0.length, |x1.getD i 0 - x0.getD i 0| < 1073741824 := fun i hi => by
    have := hd i hi
    norm_num at this
    exact this
  rw [hrows]
  have hfit : ∀ {x : List Int}, (∀ c ∈ x, -2 ^ 31 ≤ c ∧ c < 2 ^ 31) → ∀ i, Fits (x.getD i 0) := by
    intro x hx i
    by_cases hi : i < x.length
    · have := hx _ (List.getElem_mem hi)
      simp only [List.getD, List.getElem?_eq_getElem hi, Option.getD_some]
      constructor <;> omega
    · simp only [List.getD, List.getElem?_eq_none (by omega : x.length ≤ i), Option.getD_none]
      constructor <;> omega
  have hmax : chebyshev x0 x1 < 1073741824 := by
    have hn := chebyshev_pos hl hne
    have hne' : ((x0.zip x1).map fun p => (p.2 - p.1).natAbs) ≠ [] := by
      intro h
      have : chebyshev x0 x1 = 0 := by rw [chebyshev, h]; rfl
      omega
    obtain ⟨i, hi, e⟩ := (mem_delta hl).1 (foldr_max_mem hne')
    have e' : chebyshev x0 x1 = (x1.getD i 0 - x0.getD i 0).natAbs := e
    have := hd' i hi
    rw [Int.abs_eq_natAbs] at this
    omega
  change bresenham x0 x1 = ok rows at hrows
  unfold bresenham at hrows
  unfold bresenham32
  rw [if_neg (by omega)] at hrows ⊢
  rw [twices32_ok hd']
  simp only at hrows
  show (if dominant _ = 3 then _ else _) = _
  set a : Nat → Int := fun i => if i < x0.length then 2 * |x1.getD i 0 - x0.getD i 0| else 1 with hadef
  obtain ⟨hj, hmaxa⟩ := dominant_spec a
  rw [if_neg (by omega)] at hrows ⊢
  have ha : ∀ i < 3, 0 ≤ a i ∧ a i ≤ a (dominant a) := fun i hi => by
    refine ⟨?_, hmaxa i hi⟩
    rw [hadef]
    dsimp only
    have := abs_nonneg (x1.getD i 0 - x0.getD i 0)
    split <;> omega
  have hb : a (dominant a) ≤ 2147483646 := by
    rw [hadef]
    dsimp only
    split
    · next h =>
      have := hd' _ h
      omega
    · omega
  obtain ⟨he, hin⟩ := errors32_ok hj ha hb
  rw [he]
  exact loop32_ok (fuel := _) hj ha hb (fun i _ hi => if_neg (by omega))
    (fun x hx i hi => by
      obtain ⟨hxl, hbet⟩ := hspan x hx
      have hbi := hbet i hi
      have f0 := hfit h0 i
      have f1 := hfit h1 i
      unfold Between at hbi
      unfold Fits at *
      constructor
      · have := le_min f0.1 f1.1
        omega
      · have := max_le f0.2 f1.2
        omega)
    (by omega) (by simp) hin (fun i _ hi => if_neg (by omega)) hrows

/-- Two points in three dimensions meet the hypotheses; displacements of hundreds of millions do as well. -/
example : [1, -2, 0].length ≤ 3 ∧ [1, -2, 0].length = [-3, 1, 900000000].length ∧
    ([1, -2, 0] : List Int) ≠ [-3, 1, 900000000] ∧ (∀ c ∈ [1, -2, 0], -2 ^ 31 ≤ c ∧ c < (2 : Int) ^ 31) ∧
    (∀ c ∈ [-3, 1, 900000000], -2 ^ 31 ≤ c ∧ c < (2 : Int) ^ 31) ∧
    ∀ i < [1, -2, 0].length, |([-3, 1, 900000000] : List Int).getD i 0 - ([1, -2, 0] : List Int).getD i 0| < 2 ^ 30 := by
  decide

example : bresenham32 [1, -2, 0] [-3, 1, 2] =
    ok [[1, -2, 0], [0, -1, 1], [-1, 0, 1], [-2, 0, 2], [-3, 1, 2]] := by decide +kernel

/-- The bound is sharp: with a displacement of 2^30 or more along any axis the behaviour is undefined (`<< 1`
overflows). -/
theorem C76_limit {x0 x1 : List Int} {i : Nat} (hi : i < x0.length)
    (hd : 2 ^ 30 ≤ |x1.getD i 0 - x0.getD i 0|) : bresenham32 x0 x1 = ub := by
  unfold bresenham32
  dsimp only
  split
  · rfl
  · rw [twices32_ub hi (by norm_num at hd; exact hd)]
    rfl

/-- Two points that are 2^30 apart. -/
example : bresenham32 [-536870912, 7] [536870912, 8] = ub :=
  C76_limit (i := 0) (by decide) (by decide)

end Verif.Props
