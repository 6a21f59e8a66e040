import Verif.Props.Path

/-! # The path back (C106) -/

namespace Verif.Props

open Verif Outcome Spec Path

theorem rounded_back {a b : Int} {n k : Nat} (hk : k ≤ n) {r r' : Int} (h : Rounded a b n (n - k) r)
    (h' : Rounded b a n k r') (hn : 0 < n) :
    (r = r' ∨ Midway a b n (n - k)) ∧ |r - r'| ≤ 1 ∧ (Midway a b n (n - k) → r ≠ r') := by
  have hn' : (0 : Int) < n := by exact_mod_cast hn
  have ek : ((n - k : Nat) : Int) = n - k := by omega
  unfold Rounded at h h'
  unfold Midway
  simp only [ek] at h ⊢
  have key2 : ∀ δ : Int, -(2 * n : Int) ≤ δ * (2 * n) → δ * (2 * n) ≤ 2 * n → δ = -1 ∨ δ = 0 ∨ δ = 1 := by
    intro δ h1 h2
    have h3 : -1 ≤ δ := by nlinarith
    have h4 : δ ≤ 1 := by nlinarith
    omega
  rcases le_total a b with hab | hab
  · obtain ⟨h1, h2, h3⟩ := h.1 hab
    obtain ⟨h4, h5, h6⟩ := h'.2 hab
    have d := key2 (r - r') (by nlinarith) (by nlinarith)
    refine ⟨?_, by rw [abs_le]; omega, ?_⟩
    · rcases d with d | d | d
      · exfalso
        have : r' = r + 1 := by omega
        subst this
        nlinarith
      · left; omega
      · right
        have : r = r' + 1 := by omega
        subst this
        refine ⟨r' - a, ?_⟩
        nlinarith
    · rintro ⟨m, hm⟩ rfl
      have e1 : 2 * n * (r - a) - 2 * (n - k) * (b - a) = (2 * (r - a - m) - 1) * n := by linarith
      have e2 : 2 * n * (b - r) - 2 * k * (b - a) = -((2 * (r - a - m) - 1) * n) := by linarith
      rw [e1] at h2 h3
      rw [e2] at h5 h6
      have : r - a - m ≤ 1 := by nlinarith
      have : 0 < r - a - m := by nlinarith
      have : r - a - m = 1 := by omega
      rw [this] at h5
      linarith
  · obtain ⟨h1, h2, h3⟩ := h.2 hab
    obtain ⟨h4, h5, h6⟩ := h'.1 hab
    have d := key2 (r - r') (by nlinarith) (by nlinarith)
    refine ⟨?_, by rw [abs_le]; omega, ?_⟩
    · rcases d with d | d | d
      · right
        have : r' = r + 1 := by omega
        subst this
        refine ⟨r - a, ?_⟩
        nlinarith
      · left; omega
      · exfalso
        have : r = r' + 1 := by omega
        subst this
        nlinarith
    · rintro ⟨m, hm⟩ rfl
      have e1 : 2 * n * (a - r) - 2 * (n - k) * (a - b) = (2 * (a - r + m) + 1) * n := by linarith
      have e2 : 2 * n * (r - b) - 2 * k * (a - b) = -((2 * (a - r + m) + 1) * n) := by linarith
      rw [e1] at h2 h3
      rw [e2] at h5 h6
      have : a - r + m ≤ 0 := by nlinarith
      have : -1 < a - r + m := by nlinarith
      have : a - r + m = 0 := by omega
      rw [this] at h5
      linarith

theorem chebyshev_back {x0 x1 : List Int} (hl : x0.length = x1.length) :
    chebyshev x1 x0 = chebyshev x0 x1 := by
  unfold chebyshev
  congr 1
  apply List.ext_getElem
  · simp; omega
  · intro i h1 h2
    simp
    omega

/-- Both paths, row by row. -/
theorem both_ways (junk : ℚ) (fuel : Nat) {x0 x1 : List Int} (h3 : x0.length ≤ 3)
    (hl : x0.length = x1.length) (hne : x0 ≠ x1) :
    ∃ p q, path junk fuel x0 x1 .bresenham = ok p ∧ path junk fuel x1 x0 .bresenham = ok q ∧
      p.length = chebyshev x0 x1 + 1 ∧ q.length = chebyshev x0 x1 + 1 ∧
      ∀ k ≤ chebyshev x0 x1,
        (p.getD k []).length = x0.length ∧ (q.getD k []).length = x0.length ∧ ∀ i < x0.length,
          Rounded (x0.getD i 0) (x1.getD i 0) (chebyshev x0 x1) k ((p.getD k []).getD i 0) ∧
          Rounded (x1.getD i 0) (x0.getD i 0) (chebyshev x0 x1) k ((q.getD k []).getD i 0) := by
  obtain ⟨p, hp, lp, rp⟩ := C27_line junk fuel h3 hl hne
  obtain ⟨q, hq, lq, rq⟩ := C27_line junk fuel (hl ▸ h3) hl.symm hne.symm
  rw [chebyshev_back hl] at lq rq
  refine ⟨p, q, hp, hq, lp, lq, fun k hk => ?_⟩
  obtain ⟨a1, b1⟩ := rp k (by omega)
  obtain ⟨a2, b2⟩ := rq k (by omega)
  exact ⟨a1, by omega, fun i hi => ⟨b1 i hi, b2 i (by omega)⟩⟩

/-- **C106**: the path back has as many rows as the path, and visits, in the opposite order, pixels
that are the same or neighbours of those of the path. -/
theorem C106_near (junk : ℚ) (fuel : Nat) {x0 x1 : List Int} (h3 : x0.length ≤ 3)
    (hl : x0.length = x1.length) (hne : x0 ≠ x1) :
    ∃ p q, path junk fuel x0 x1 .bresenham = ok p ∧ path junk fuel x1 x0 .bresenham = ok q ∧
      q.length = p.length ∧
      ∀ k < p.length, ∀ i < x0.length, |(p.reverse.getD k []).getD i 0 - (q.getD k []).getD i 0| ≤ 1 := by
  have hn := chebyshev_pos hl hne
  obtain ⟨p, q, hp, hq, lp, lq, h⟩ := both_ways junk fuel h3 hl hne
  refine ⟨p, q, hp, hq, by omega, fun k hk i hi => ?_⟩
  have e : p.reverse.getD k [] = p.getD (chebyshev x0 x1 - k) [] := by
    rw [List.getD, List.getD, List.getElem?_reverse hk]
    congr 2
    omega
  rw [e]
  exact (rounded_back (by omega) ((h _ (by omega)).2.2 i hi).1 ((h k (by omega)).2.2 i hi).2 hn).2.1

/-- **C106**, exactly when the path back is the path in the opposite order: when the line is never
midway between two pixels. -/
theorem C106_iff (junk : ℚ) (fuel : Nat) {x0 x1 : List Int} (h3 : x0.length ≤ 3)
    (hl : x0.length = x1.length) (hne : x0 ≠ x1) :
    ∃ p, path junk fuel x0 x1 .bresenham = ok p ∧
      (path junk fuel x1 x0 .bresenham = ok p.reverse ↔
        ∀ k ≤ chebyshev x0 x1, ∀ i < x0.length,
          ¬ Midway (x0.getD i 0) (x1.getD i 0) (chebyshev x0 x1) k) := by
  have hn := chebyshev_pos hl hne
  obtain ⟨p, q, hp, hq, lp, lq, h⟩ := both_ways junk fuel h3 hl hne
  have e : ∀ k ≤ chebyshev x0 x1, p.reverse.getD k [] = p.getD (chebyshev x0 x1 - k) [] := by
    intro k hk
    rw [List.getD, List.getD, List.getElem?_reverse (by omega)]
    congr 2
    omega
  refine ⟨p, hp, ?_⟩
  rw [hq]
  constructor
  · intro hqp k hk i hi hm
    have hqp : q = p.reverse := by injection hqp
    have := (rounded_back (k := chebyshev x0 x1 - k) (by omega)
      ((h _ (by omega)).2.2 i hi).1 ((h _ (by omega)).2.2 i hi).2 hn).2.2
    rw [show chebyshev x0 x1 - (chebyshev x0 x1 - k) = k by omega] at this
    apply this hm
    rw [hqp, e _ (by omega), show chebyshev x0 x1 - (chebyshev x0 x1 - k) = k by omega]
  · intro hm
    congr 1
    apply List.ext_getElem
    · simp; omega
    · intro k h1 h2
      have hk : k ≤ chebyshev x0 x1 := by omega
      have e1 : q[k] = q.getD k [] := by simp [List.getD, h1]
      have e2 : p.reverse[k] = p.reverse.getD k [] := by
        rw [List.getD, List.getElem?_eq_getElem h2]; rfl
      rw [e1, e2, e k hk]
      obtain ⟨-, l2, r2⟩ := h k hk
      obtain ⟨l1, -, r1⟩ := h (chebyshev x0 x1 - k) (by omega)
      apply List.ext_getElem (by omega)
      intro i h5 h6
      have := (rounded_back hk (r1 i (by omega)).1 (r2 i (by omega)).2 hn).1
      have := this.resolve_right (hm _ (by omega) i (by omega))
      generalize q.getD k [] = u, p.getD (chebyshev x0 x1 - k) [] = v at *
      simpa [List.getD, h5, h6] using this.symm

/-- **C106** (partial): the path back is the path in the opposite order if the largest displacement
along an axis is odd. Missing: paths whose line is midway between two pixels, see `C106_violated`. -/
theorem C106_partial (junk : ℚ) (fuel : Nat) {x0 x1 : List Int} (h3 : x0.length ≤ 3)
    (hl : x0.length = x1.length) (hodd : chebyshev x0 x1 % 2 = 1) :
    path junk fuel x1 x0 .bresenham = (path junk fuel x0 x1 .bresenham).map List.reverse := by
  have hne : x0 ≠ x1 := by
    rintro rfl
    have h0 : chebyshev x0 x0 = 0 := by
      unfold chebyshev
      clear hodd hl h3
      induction x0 with
      | nil => rfl
      | cons a l ih => simp only [List.zip_cons_cons, List.map_cons, List.foldr_cons]; omega
    omega
  obtain ⟨p, hp, h⟩ := C106_iff junk fuel h3 hl hne
  rw [hp]
  refine h.2 fun k _ i _ ⟨m, hm⟩ => ?_
  have h1 : (2 * m + 1) * (chebyshev x0 x1 : Int) % 2 = 1 := by
    rw [Int.mul_emod, show (2 * m + 1) % 2 = 1 by omega,
      show (chebyshev x0 x1 : Int) % 2 = 1 by omega]
    rfl
  rw [← hm] at h1
  omega

/-- **C106**: the path back is the path turned by half a turn about the point midway between its
ends. -/
theorem C106_turn (junk : ℚ) (fuel : Nat) {x0 x1 : List Int} (h3 : x0.length ≤ 3)
    (hl : x0.length = x1.length) (hne : x0 ≠ x1) :
    ∃ p q, path junk fuel x0 x1 .bresenham = ok p ∧ path junk fuel x1 x0 .bresenham = ok q ∧
      q.length = p.length ∧ ∀ k < p.length, ∀ i < x0.length,
        (q.getD k []).getD i 0 + (p.getD k []).getD i 0 = x0.getD i 0 + x1.getD i 0 := by
  have hn := chebyshev_pos hl hne
  obtain ⟨p, q, hp, hq, lp, lq, h⟩ := both_ways junk fuel h3 hl hne
  refine ⟨p, q, hp, hq, by omega, fun k hk i hi => ?_⟩
  obtain ⟨r1, r2⟩ := (h k (by omega)).2.2 i hi
  have : Rounded (x1.getD i 0) (x0.getD i 0) (chebyshev x0 x1) k
      (x0.getD i 0 + x1.getD i 0 - (p.getD k []).getD i 0) := by
    generalize x0.getD i 0 = a, x1.getD i 0 = b, (p.getD k []).getD i 0 = r at *
    constructor
    · intro hab
      obtain ⟨a1, a2, a3⟩ := r1.2 hab
      exact ⟨by omega, by rw [show a + b - r - b = a - r by omega]; exact a2,
        by rw [show a + b - r - b = a - r by omega]; exact a3⟩
    · intro hab
      obtain ⟨a1, a2, a3⟩ := r1.1 hab
      exact ⟨by omega, by rw [show b - (a + b - r) = r - a by omega]; exact a2,
        by rw [show b - (a + b - r) = r - a by omega]; exact a3⟩
  have := rounded_unique hn r2 this
  omega

/-- The path from `(0, 0)` to `(2, 1)` and the path back visit different pixels. -/
theorem C106_violated (junk : ℚ) (fuel : Nat) :
    path junk fuel [0, 0] [2, 1] .bresenham = ok [[0, 0], [1, 1], [2, 1]] ∧
    path junk fuel [2, 1] [0, 0] .bresenham = ok [[2, 1], [1, 0], [0, 0]] := by
  constructor
  · show bresenham [0, 0] [2, 1] = _
    decide +kernel
  · show bresenham [2, 1] [0, 0] = _
    decide +kernel

/-- An odd displacement: `(0, 0)` to `(5, 3)`, and an even one that is never midway. -/
example : chebyshev [0, 0] [5, 3] % 2 = 1 := by decide
example : ∀ k ≤ chebyshev [1, 0] [5, 4], ∀ i < 2,
    ¬ Midway (([1, 0] : List Int).getD i 0) (([5, 4] : List Int).getD i 0) (chebyshev [1, 0] [5, 4]) k := by
  have e : chebyshev [1, 0] [5, 4] = 4 := by decide
  rw [e]
  rintro k - i hi ⟨m, hm⟩
  have : i = 0 ∨ i = 1 := by omega
  rcases this with rfl | rfl <;> simp at hm <;> omega
example : Midway 0 1 2 1 := ⟨0, by decide⟩

end Verif.Props
