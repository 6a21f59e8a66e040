import Verif.Lemmas.DilateStep

/-! # Invariants of the iterations of dilate -/

namespace Verif.Dilate

open Verif Outcome Spec Cluster Nd Ens
open scoped Classical

/-! ### Growing -/

variable {K : Nd Int} {it : List Nat} {t : Nat} {φ : List Int → Int}

theorem growing_cases : ∀ {l : List (List Int)} {γ : List Int → Int} {z : List Int},
    growing K it t φ l γ z = γ z ∨ ∃ x ∈ l, Hit K it t φ x z ∧ growing K it t φ l γ z = φ x
  | [], _, _ => Or.inl rfl
  | x :: l, γ, z => by
    have e : growing K it t φ (x :: l) γ z =
        growing K it t φ l (fun z => if Hit K it t φ x z then φ x else γ z) z := rfl
    rw [e]
    rcases growing_cases (l := l) (γ := fun z => if Hit K it t φ x z then φ x else γ z) (z := z) with h | ⟨y, hy, h⟩
    · rw [h]
      split
      · rename_i hx
        exact Or.inr ⟨x, by simp, hx, rfl⟩
      · exact Or.inl rfl
    · exact Or.inr ⟨y, List.mem_cons_of_mem _ hy, h⟩

theorem growing_old {l : List (List Int)} {γ : List Int → Int} {z : List Int} (h : φ z ≠ 0) :
    growing K it t φ l γ z = γ z := by
  rcases growing_cases (K := K) (it := it) (t := t) (φ := φ) (l := l) (γ := γ) (z := z) with e | ⟨x, -, hx, -⟩
  · exact e
  · exact absurd hx.2.2.1 h

theorem growing_keep : ∀ {l : List (List Int)} {γ : List Int → Int} {z : List Int}, γ z ≠ 0 →
    growing K it t φ l γ z ≠ 0
  | _, _, _, h => by
    rcases growing_cases with e | ⟨x, -, hx, e⟩
    · rwa [e]
    · rw [e]; exact hx.1

theorem growing_new : ∀ {l : List (List Int)} {γ : List Int → Int} {x z : List Int}, x ∈ l →
    Hit K it t φ x z → growing K it t φ l γ z ≠ 0
  | [], _, _, _, h, _ => by simp at h
  | y :: l, γ, x, z, h, hx => by
    have e : growing K it t φ (y :: l) γ z =
        growing K it t φ l (fun z => if Hit K it t φ y z then φ y else γ z) z := rfl
    rw [e]
    rcases List.mem_cons.1 h with rfl | h
    · refine growing_keep ?_
      rw [if_pos hx]
      exact hx.1
    · exact growing_new h hx

/-! ### Copies -/

/-- A value comes from a position that is the same modulo the image. -/
def Moves (g : Geo) (T : (List Int → Int) → List Int → Int) : Prop :=
  ∀ φ i j k, g.In i j k → ∃ i' j' k', g.In i' j' k' ∧
    (i' % (g.n0 : Int) = i % (g.n0 : Int) ∧ j' % (g.n1 : Int) = j % (g.n1 : Int) ∧ k' % (g.n2 : Int) = k % (g.n2 : Int)) ∧
    T φ [i, j, k] = φ [i', j', k']

theorem Moves.comp {g : Geo} {T U : (List Int → Int) → List Int → Int} (hT : Moves g T) (hU : Moves g U) :
    Moves g fun φ => T (U φ) := by
  intro φ i j k h
  obtain ⟨i1, j1, k1, h1, ⟨a1, b1, c1⟩, e1⟩ := hT (U φ) i j k h
  obtain ⟨i2, j2, k2, h2, ⟨a2, b2, c2⟩, e2⟩ := hU φ i1 j1 k1 h1
  exact ⟨i2, j2, k2, h2, ⟨a2.trans a1, b2.trans b1, c2.trans c1⟩, e1.trans e2⟩

theorem down0_moves {g : Geo} (hg : g.Fits) : Moves g (down0 g) := by
  intro φ i j k h
  by_cases hc : (0 ≤ i ∧ i < g.q0) ∧ φ [i + (g.n0 : Int), j, k] ≠ 0
  · refine ⟨i + (g.n0 : Int), j, k, ?_, ⟨Int.add_emod_right _ _, rfl, rfl⟩, if_pos hc⟩
    unfold Geo.In at h ⊢
    unfold Geo.Fits at hg
    omega
  · exact ⟨i, j, k, h, ⟨rfl, rfl, rfl⟩, if_neg hc⟩

theorem down1_moves {g : Geo} (hg : g.Fits) : Moves g (down1 g) := by
  intro φ i j k h
  by_cases hc : (0 ≤ j ∧ j < g.q1) ∧ φ [i, j + (g.n1 : Int), k] ≠ 0
  · refine ⟨i, j + (g.n1 : Int), k, ?_, ⟨rfl, Int.add_emod_right _ _, rfl⟩, if_pos hc⟩
    unfold Geo.In at h ⊢
    unfold Geo.Fits at hg
    omega
  · exact ⟨i, j, k, h, ⟨rfl, rfl, rfl⟩, if_neg hc⟩

theorem down2_moves {g : Geo} (hg : g.Fits) : Moves g (down2 g) := by
  intro φ i j k h
  by_cases hc : (0 ≤ k ∧ k < g.q2) ∧ φ [i, j, k + (g.n2 : Int)] ≠ 0
  · refine ⟨i, j, k + (g.n2 : Int), ?_, ⟨rfl, rfl, Int.add_emod_right _ _⟩, if_pos hc⟩
    unfold Geo.In at h ⊢
    unfold Geo.Fits at hg
    omega
  · exact ⟨i, j, k, h, ⟨rfl, rfl, rfl⟩, if_neg hc⟩

theorem up0_moves {g : Geo} (hg : g.Fits) : Moves g (up0 g) := by
  intro φ i j k h
  by_cases hc : ((g.n0 : Int) - g.p0 ≤ i ∧ i < g.n0) ∧ φ [i - (g.n0 : Int), j, k] ≠ 0
  · refine ⟨i - (g.n0 : Int), j, k, ?_, ⟨Int.sub_emod_right _ _, rfl, rfl⟩, if_pos hc⟩
    unfold Geo.In at h ⊢
    unfold Geo.Fits at hg
    omega
  · exact ⟨i, j, k, h, ⟨rfl, rfl, rfl⟩, if_neg hc⟩

theorem up1_moves {g : Geo} (hg : g.Fits) : Moves g (up1 g) := by
  intro φ i j k h
  by_cases hc : ((g.n1 : Int) - g.p1 ≤ j ∧ j < g.n1) ∧ φ [i, j - (g.n1 : Int), k] ≠ 0
  · refine ⟨i, j - (g.n1 : Int), k, ?_, ⟨rfl, Int.sub_emod_right _ _, rfl⟩, if_pos hc⟩
    unfold Geo.In at h ⊢
    unfold Geo.Fits at hg
    omega
  · exact ⟨i, j, k, h, ⟨rfl, rfl, rfl⟩, if_neg hc⟩

theorem up2_moves {g : Geo} (hg : g.Fits) : Moves g (up2 g) := by
  intro φ i j k h
  by_cases hc : ((g.n2 : Int) - g.p2 ≤ k ∧ k < g.n2) ∧ φ [i, j, k - (g.n2 : Int)] ≠ 0
  · refine ⟨i, j, k - (g.n2 : Int), ?_, ⟨rfl, rfl, Int.sub_emod_right _ _⟩, if_pos hc⟩
    unfold Geo.In at h ⊢
    unfold Geo.Fits at hg
    omega
  · exact ⟨i, j, k, h, ⟨rfl, rfl, rfl⟩, if_neg hc⟩

theorem copies_moves {g : Geo} (hg : g.Fits) : Moves g (copies g) :=
  (up2_moves hg).comp ((up1_moves hg).comp ((up0_moves hg).comp
    ((down2_moves hg).comp ((down1_moves hg).comp (down0_moves hg)))))

/-- `z` lowered by the size of the image if it is above it. -/
def low (n : Nat) (z : Int) : Int := if (n : Int) ≤ z then z - n else z

/-- `z` raised by the size of the image if it is below it. -/
def high (n : Nat) (z : Int) : Int := if z < 0 then z + n else z

theorem high_low {n p q : Nat} {z : Int} (hp : p ≤ n) (hq : q ≤ n) (h : -(p : Int) ≤ z ∧ z < n + q) :
    high n (low n z) = z % n := by
  unfold high low
  by_cases h1 : (n : Int) ≤ z
  · rw [if_pos h1, if_neg (by omega), ← Int.sub_emod_right, Int.emod_eq_of_lt (by omega) (by omega)]
  · rw [if_neg h1]
    by_cases h2 : z < 0
    · rw [if_pos h2, ← Int.add_emod_right, Int.emod_eq_of_lt (by omega) (by omega)]
    · rw [if_neg h2, Int.emod_eq_of_lt (by omega) (by omega)]

theorem down0_carry {g : Geo} {φ : List Int → Int} {i j k : Int} (hi : i < g.n0 + g.q0)
    (h : φ [i, j, k] ≠ 0) : down0 g φ [low g.n0 i, j, k] ≠ 0 := by
  unfold low
  by_cases hc : (g.n0 : Int) ≤ i
  · rw [if_pos hc]
    have e : [i - (g.n0 : Int) + (g.n0 : Int), j, k] = [i, j, k] := by simp
    show (if (0 ≤ (i - (g.n0 : Int)) ∧ (i - (g.n0 : Int)) < g.q0) ∧ φ [i - (g.n0 : Int) + (g.n0 : Int), j, k] ≠ 0 then φ [i - (g.n0 : Int) + (g.n0 : Int), j, k] else _) ≠ 0
    rw [e, if_pos ⟨by omega, h⟩]
    exact h
  · rw [if_neg hc]
    unfold down0
    dsimp only
    split
    · rename_i h'
      exact h'.2
    · exact h

theorem down1_carry {g : Geo} {φ : List Int → Int} {i j k : Int} (hi : j < g.n1 + g.q1)
    (h : φ [i, j, k] ≠ 0) : down1 g φ [i, low g.n1 j, k] ≠ 0 := by
  unfold low
  by_cases hc : (g.n1 : Int) ≤ j
  · rw [if_pos hc]
    have e : [i, j - (g.n1 : Int) + (g.n1 : Int), k] = [i, j, k] := by simp
    show (if (0 ≤ (j - (g.n1 : Int)) ∧ (j - (g.n1 : Int)) < g.q1) ∧ φ [i, j - (g.n1 : Int) + (g.n1 : Int), k] ≠ 0 then φ [i, j - (g.n1 : Int) + (g.n1 : Int), k] else _) ≠ 0
    rw [e, if_pos ⟨by omega, h⟩]
    exact h
  · rw [if_neg hc]
    unfold down1
    dsimp only
    split
    · rename_i h'
      exact h'.2
    · exact h

theorem down2_carry {g : Geo} {φ : List Int → Int} {i j k : Int} (hi : k < g.n2 + g.q2)
    (h : φ [i, j, k] ≠ 0) : down2 g φ [i, j, low g.n2 k] ≠ 0 := by
  unfold low
  by_cases hc : (g.n2 : Int) ≤ k
  · rw [if_pos hc]
    have e : [i, j, k - (g.n2 : Int) + (g.n2 : Int)] = [i, j, k] := by simp
    show (if (0 ≤ (k - (g.n2 : Int)) ∧ (k - (g.n2 : Int)) < g.q2) ∧ φ [i, j, k - (g.n2 : Int) + (g.n2 : Int)] ≠ 0 then φ [i, j, k - (g.n2 : Int) + (g.n2 : Int)] else _) ≠ 0
    rw [e, if_pos ⟨by omega, h⟩]
    exact h
  · rw [if_neg hc]
    unfold down2
    dsimp only
    split
    · rename_i h'
      exact h'.2
    · exact h

theorem up0_carry {g : Geo} {φ : List Int → Int} {i j k : Int} (hi : -(g.p0 : Int) ≤ i)
    (h : φ [i, j, k] ≠ 0) : up0 g φ [high g.n0 i, j, k] ≠ 0 := by
  unfold high
  by_cases hc : i < 0
  · rw [if_pos hc]
    have e : [i + (g.n0 : Int) - (g.n0 : Int), j, k] = [i, j, k] := by simp
    show (if ((g.n0 : Int) - g.p0 ≤ (i + (g.n0 : Int)) ∧ (i + (g.n0 : Int)) < g.n0) ∧ φ [i + (g.n0 : Int) - (g.n0 : Int), j, k] ≠ 0 then φ [i + (g.n0 : Int) - (g.n0 : Int), j, k] else _) ≠ 0
    rw [e, if_pos ⟨by omega, h⟩]
    exact h
  · rw [if_neg hc]
    unfold up0
    dsimp only
    split
    · rename_i h'
      exact h'.2
    · exact h

theorem up1_carry {g : Geo} {φ : List Int → Int} {i j k : Int} (hi : -(g.p1 : Int) ≤ j)
    (h : φ [i, j, k] ≠ 0) : up1 g φ [i, high g.n1 j, k] ≠ 0 := by
  unfold high
  by_cases hc : j < 0
  · rw [if_pos hc]
    have e : [i, j + (g.n1 : Int) - (g.n1 : Int), k] = [i, j, k] := by simp
    show (if ((g.n1 : Int) - g.p1 ≤ (j + (g.n1 : Int)) ∧ (j + (g.n1 : Int)) < g.n1) ∧ φ [i, j + (g.n1 : Int) - (g.n1 : Int), k] ≠ 0 then φ [i, j + (g.n1 : Int) - (g.n1 : Int), k] else _) ≠ 0
    rw [e, if_pos ⟨by omega, h⟩]
    exact h
  · rw [if_neg hc]
    unfold up1
    dsimp only
    split
    · rename_i h'
      exact h'.2
    · exact h

theorem up2_carry {g : Geo} {φ : List Int → Int} {i j k : Int} (hi : -(g.p2 : Int) ≤ k)
    (h : φ [i, j, k] ≠ 0) : up2 g φ [i, j, high g.n2 k] ≠ 0 := by
  unfold high
  by_cases hc : k < 0
  · rw [if_pos hc]
    have e : [i, j, k + (g.n2 : Int) - (g.n2 : Int)] = [i, j, k] := by simp
    show (if ((g.n2 : Int) - g.p2 ≤ (k + (g.n2 : Int)) ∧ (k + (g.n2 : Int)) < g.n2) ∧ φ [i, j, k + (g.n2 : Int) - (g.n2 : Int)] ≠ 0 then φ [i, j, k + (g.n2 : Int) - (g.n2 : Int)] else _) ≠ 0
    rw [e, if_pos ⟨by omega, h⟩]
    exact h
  · rw [if_neg hc]
    unfold up2
    dsimp only
    split
    · rename_i h'
      exact h'.2
    · exact h

theorem copies_carry {g : Geo} (hg : g.Fits) {φ : List Int → Int} {i j k : Int} (hi : g.In i j k)
    (h : φ [i, j, k] ≠ 0) : copies g φ [i % (g.n0 : Int), j % (g.n1 : Int), k % (g.n2 : Int)] ≠ 0 := by
  unfold Geo.In at hi
  obtain ⟨i0, i1, i2⟩ := hi
  obtain ⟨g0, g1, g2⟩ := hg
  have l0 : -(g.p0 : Int) ≤ low g.n0 i := by unfold low; split <;> omega
  have l1 : -(g.p1 : Int) ≤ low g.n1 j := by unfold low; split <;> omega
  have l2 : -(g.p2 : Int) ≤ low g.n2 k := by unfold low; split <;> omega
  rw [← high_low g0.2.1 g0.2.2 i0, ← high_low g1.2.1 g1.2.2 i1, ← high_low g2.2.1 g2.2.2 i2]
  exact up2_carry l2 (up1_carry l1 (up0_carry l0
    (down2_carry i2.2 (down1_carry i1.2 (down0_carry i0.2 h)))))

/-! ### The invariants -/

theorem Reach.mono {periodic : Bool} {shape : List Nat} {kernel : Nd Int} {x y : List Int} {n : Nat}
    (h : Reach periodic shape kernel x n y) : ∀ {m : Nat}, n ≤ m → Reach periodic shape kernel x m y := by
  induction h with
  | here n => exact fun _ => .here _
  | step n y d _ hd ht ih =>
    intro m hm
    obtain ⟨m, rfl⟩ : ∃ m', m = m' + 1 := ⟨m - 1, by omega⟩
    exact .step m y d (ih (by omega)) hd ht

/-- The position in the image of a position in the padded image. -/
def pos (periodic : Bool) (g : Geo) (z : List Int) : List Int := if periodic then wrap g.N z else z

theorem core_iff {g : Geo} {i j k : Int} : [i, j, k] ∈ pixels g.N ↔ g.Core i j k := by
  rw [mem_pixels]
  exact inbox3'

theorem wrap_core {g : Geo} {i j k : Int} (h : g.Core i j k) : wrap g.N [i, j, k] = [i, j, k] := by
  unfold Geo.Core at h
  simp only [wrap, Geo.N, List.zipWith_cons_cons, List.zipWith_nil_right]
  rw [Int.emod_eq_of_lt h.1.1 h.1.2, Int.emod_eq_of_lt h.2.1.1 h.2.1.2, Int.emod_eq_of_lt h.2.2.1 h.2.2.2]

theorem pos_core {periodic : Bool} {g : Geo} {x : List Int} (h : x ∈ pixels g.N) : pos periodic g x = x := by
  unfold pos
  split
  · obtain ⟨a, b, c, rfl, hx⟩ := inbox3.1 (mem_pixels.1 h)
    exact wrap_core hx
  · rfl

/-- The initial labels: those of the image, and, in the padding, zero or periodic copies. -/
structure Start (periodic : Bool) (g : Geo) (φ : List Int → Int) : Prop where
  copy : periodic = true → ∀ i j k, g.In i j k → φ [i, j, k] = φ (wrap g.N [i, j, k])
  zero : periodic = false → ∀ i j k, g.In i j k → ¬ g.Core i j k → φ [i, j, k] = 0

variable {g : Geo} {periodic : Bool} {φ₀ : List Int → Int}

theorem wrap_congr {i j k i' j' k' : Int} (h : i' % (g.n0 : Int) = i % (g.n0 : Int) ∧
    j' % (g.n1 : Int) = j % (g.n1 : Int) ∧ k' % (g.n2 : Int) = k % (g.n2 : Int)) :
    wrap g.N [i', j', k'] = wrap g.N [i, j, k] := by
  simp only [wrap, Geo.N, List.zipWith_cons_cons, List.zipWith_nil_right, h.1, h.2.1, h.2.2]

/-- Labelled positions keep their label. -/
theorem evolve_old (hg : periodic = true → g.Fits) (h0 : Start periodic g φ₀) :
    ∀ t i j k, g.In i j k → φ₀ [i, j, k] ≠ 0 → evolve g K it periodic φ₀ t [i, j, k] = φ₀ [i, j, k]
  | 0, _, _, _, _, _ => rfl
  | t + 1, i, j, k, hi, h => by
    have grow : ∀ i j k, g.In i j k → φ₀ [i, j, k] ≠ 0 →
        growing K it t (evolve g K it periodic φ₀ t) (pixels g.N) (evolve g K it periodic φ₀ t) [i, j, k] =
          φ₀ [i, j, k] := by
      intro i j k hi h
      have ih := evolve_old hg h0 t i j k hi h
      rw [growing_old (by rw [ih]; exact h), ih]
    show stepF g K it periodic t _ _ = _
    unfold stepF
    cases periodic with
    | false => exact grow i j k hi h
    | true =>
      obtain ⟨i', j', k', hi', hm, e⟩ := copies_moves (hg rfl)
        (growing K it t (evolve g K it true φ₀ t) (pixels g.N) (evolve g K it true φ₀ t)) i j k hi
      have e0 : φ₀ [i', j', k'] = φ₀ [i, j, k] := by
        rw [h0.copy rfl _ _ _ hi', h0.copy rfl _ _ _ hi, wrap_congr hm]
      rw [if_pos rfl, e, grow i' j' k' hi' (by rw [e0]; exact h), e0]

theorem move3 {a b c : Int} {d : List Int} (hh : g.Half) (hK : K.shape = g.R) (hx : g.Core a b c)
    (hd : Offset K d) : ∃ i j k, move [a, b, c] d = [i, j, k] ∧ g.In i j k := by
  have hd' := hd
  obtain ⟨e, he, -, rfl⟩ := hd'
  rw [hK] at he
  obtain ⟨x, y, z, rfl, -⟩ := inbox3.1 (mem_pixels.1 he)
  have e1 : ∃ i j k, move [a, b, c] (displacement K.shape [x, y, z]) = [i, j, k] := by
    rw [hK]
    exact ⟨_, _, _, rfl⟩
  obtain ⟨i, j, k, e1⟩ := e1
  refine ⟨i, j, k, e1, ?_⟩
  have := inbox3'.1 ((offset_iff hh hK).1 ⟨_, hd, e1.symm⟩).1
  unfold Geo.Core at hx
  unfold Geo.In
  omega

/-- Labels come from reachable pixels. -/
theorem evolve_sound (hg : periodic = true → g.Fits)
    (h0 : Start periodic g φ₀) :
    ∀ t i j k, g.In i j k → evolve g K it periodic φ₀ t [i, j, k] ≠ 0 → pos periodic g [i, j, k] ∈ pixels g.N →
      ∃ x ∈ pixels g.N, φ₀ x = evolve g K it periodic φ₀ t [i, j, k] ∧
        Reach periodic g.N K x (min t (iterationsOf it (evolve g K it periodic φ₀ t [i, j, k])))
          (pos periodic g [i, j, k])
  | 0, i, j, k, hi, _, hp => by
    refine ⟨_, hp, ?_, .here _⟩
    show φ₀ _ = φ₀ _
    unfold pos
    cases periodic with
    | false => rfl
    | true => exact (h0.copy rfl i j k hi).symm
  | t + 1, i, j, k, hi, h, hp => by
    set ψ := evolve g K it periodic φ₀ t with hψ
    have grow : ∀ i j k, g.In i j k → growing K it t ψ (pixels g.N) ψ [i, j, k] ≠ 0 →
        pos periodic g [i, j, k] ∈ pixels g.N →
        ∃ x ∈ pixels g.N, φ₀ x = growing K it t ψ (pixels g.N) ψ [i, j, k] ∧
          Reach periodic g.N K x (min (t + 1) (iterationsOf it (growing K it t ψ (pixels g.N) ψ [i, j, k])))
          (pos periodic g [i, j, k]) := by
      intro i j k hi h hp
      rcases growing_cases (K := K) (it := it) (t := t) (φ := ψ) (l := pixels g.N) (γ := ψ) (z := [i, j, k]) with e | ⟨x, hx, hit, e⟩
      · rw [e] at h ⊢
        obtain ⟨x, hx, e1, hr⟩ := evolve_sound hg h0 t i j k hi h hp
        rw [← hψ] at hr
        exact ⟨x, hx, e1, Reach.mono hr (by omega)⟩
      · rw [e]
        obtain ⟨a, b, c, rfl, hc⟩ := inbox3.1 (mem_pixels.1 hx)
        have hpx := pos_core (periodic := periodic) hx
        obtain ⟨y, hy, e1, hr⟩ := evolve_sound hg h0 t a b c (Geo.Core.in hc) hit.1 (by rw [hpx]; exact hx)
        refine ⟨y, hy, e1, ?_⟩
        obtain ⟨-, h2, -, d, hd, ez⟩ := hit
        rw [hpx] at hr
        have et : pos periodic g [i, j, k] = target periodic g.N [a, b, c] d := by
          rw [ez]; rfl
        rw [et] at hp ⊢
        rw [show min (t + 1) (iterationsOf it (ψ [a, b, c])) = t + 1 by omega]
        exact .step t _ d (Reach.mono hr (by omega)) hd hp
    have e : evolve g K it periodic φ₀ (t + 1) [i, j, k] = stepF g K it periodic t ψ [i, j, k] := rfl
    rw [e] at h ⊢
    unfold stepF at h ⊢
    cases periodic with
    | false => exact grow i j k hi h hp
    | true =>
      rw [if_pos rfl] at h ⊢
      obtain ⟨i', j', k', hi', hm, e⟩ := copies_moves (hg rfl) (growing K it t ψ (pixels g.N) ψ) i j k hi
      rw [e] at h ⊢
      have ew : pos true g [i, j, k] = pos true g [i', j', k'] := (wrap_congr hm).symm
      rw [ew] at hp ⊢
      exact grow i' j' k' hi' h hp

/-- Reachable pixels are labelled. -/
theorem evolve_complete (hh : g.Half) (hK : K.shape = g.R) (hg : periodic = true → g.Fits)
    (h0 : Start periodic g φ₀) {m : Nat}
    (hm : ∀ x ∈ pixels g.N, φ₀ x ≠ 0 → m ≤ iterationsOf it (φ₀ x)) {x y : List Int} {n : Nat}
    (hx : x ∈ pixels g.N) (hl : φ₀ x ≠ 0) (hr : Reach periodic g.N K x n y) :
    n ≤ m → y ∈ pixels g.N ∧ evolve g K it periodic φ₀ n y ≠ 0 := by
  induction hr with
  | here n =>
    intro _
    obtain ⟨a, b, c, rfl, hc⟩ := inbox3.1 (mem_pixels.1 hx)
    refine ⟨hx, ?_⟩
    rw [evolve_old hg h0 n a b c (Geo.Core.in hc) hl]
    exact hl
  | step n y d hr hd ht ih =>
    intro hn
    obtain ⟨hy, ih⟩ := ih (by omega)
    refine ⟨ht, ?_⟩
    obtain ⟨a, b, c, rfl, hc⟩ := inbox3.1 (mem_pixels.1 hy)
    obtain ⟨i, j, k, e, hi⟩ := move3 hh hK hc hd
    have hpy := pos_core (periodic := periodic) hy
    obtain ⟨x', hx', ex', -⟩ := evolve_sound (K := K) (it := it) hg h0 n a b c (Geo.Core.in hc) ih (by rw [hpy]; exact hy)
    have hit := hm x' hx' (by rw [ex']; exact ih)
    rw [ex'] at hit
    have hgr : growing K it n (evolve g K it periodic φ₀ n) (pixels g.N) (evolve g K it periodic φ₀ n) [i, j, k] ≠ 0 := by
      by_cases hz : evolve g K it periodic φ₀ n [i, j, k] = 0
      · exact growing_new hy ⟨ih, by omega, hz, d, hd, e.symm⟩
      · exact growing_keep hz
    show stepF g K it periodic n _ _ ≠ 0
    unfold stepF target
    rw [e]
    cases periodic with
    | false => exact hgr
    | true => exact copies_carry (hg rfl) hi hgr

/-- The labels can be looked up in every iteration. -/
theorem evolve_label (hg : periodic = true → g.Fits) (h0 : Start periodic g φ₀)
    (hl : ∀ x ∈ pixels g.N, LabelOk it (φ₀ x)) (t : Nat) (a b c : Int) (hc : g.Core a b c) :
    LabelOk it (evolve g K it periodic φ₀ t [a, b, c]) := by
  by_cases h : evolve g K it periodic φ₀ t [a, b, c] = 0
  · rw [h]
    have := hl _ (core_iff.2 hc)
    unfold LabelOk at this ⊢
    omega
  · have hpy := pos_core (periodic := periodic) (core_iff.2 hc)
    obtain ⟨x, hx, e, -⟩ := evolve_sound (K := K) (it := it) hg h0 t a b c hc.in h (by rw [hpy]; exact core_iff.2 hc)
    rw [← e]
    exact hl x hx

end Verif.Dilate
