import Verif.Lemmas.NdArray
import Verif.Model.Ensemble

/-! # Padded arrays and the region of interest around a pixel -/

namespace Verif.Ens

open Verif Outcome Spec Cluster Nd

variable {α : Type}

/-- The pads of one axis. -/
theorem pad_sum {n : Nat} (h : 0 < n) :
    ∃ p q, (if n % 2 = 0 then (n / 2 - 1, n / 2) else ((n - 1) / 2, (n - 1) / 2)) = (p, q) ∧
      p + q + 1 = n ∧ p = (n - 1) / 2 ∧ q = n / 2 := by
  split
  · exact ⟨_, _, rfl, by omega, by omega, by omega⟩
  · exact ⟨_, _, rfl, by omega, by omega, by omega⟩

theorem inbox3 {a b c : Nat} {x : List Int} : InBox [a, b, c] x ↔
    ∃ i j k, x = [i, j, k] ∧ (0 ≤ i ∧ i < a) ∧ (0 ≤ j ∧ j < b) ∧ (0 ≤ k ∧ k < c) := by
  constructor
  · intro h
    cases h with
    | cons h1 h =>
      cases h with
      | cons h2 h =>
        cases h with
        | cons h3 h => cases h; exact ⟨_, _, _, rfl, h1, h2, h3⟩
  · rintro ⟨i, j, k, rfl, h1, h2, h3⟩
    exact .cons h1 (.cons h2 (.cons h3 .nil))

/-- The padded array: values are those of the extended image, seen from a shifted origin. -/
theorem pad_ok {a : Nd α} {n0 n1 n2 r0 r1 r2 : Nat} (ha : a.shape = [n0, n1, n2]) (h0 : 0 < r0)
    (h1 : 0 < r1) (h2 : 0 < r2) (mode : PadMode) (v : α)
    (hp : mode = .periodic → r0 / 2 ≤ n0 ∧ r1 / 2 ≤ n1 ∧ r2 / 2 ≤ n2) :
    ∃ A, a.pad (padWidth [r0, r1, r2]) mode v = ok A ∧
      A.shape = [(r0 - 1) / 2 + n0 + r0 / 2, (r1 - 1) / 2 + n1 + r1 / 2, (r2 - 1) / 2 + n2 + r2 / 2] ∧
      ∀ x, InBox A.shape x → A.at_ x =
        a.extend mode v (minus x [(((r0 - 1) / 2 : Nat) : Int), (((r1 - 1) / 2 : Nat) : Int), (((r2 - 1) / 2 : Nat) : Int)]) := by
  obtain ⟨p0, q0, e0, -, hp0, hq0⟩ := pad_sum h0
  obtain ⟨p1, q1, e1, -, hp1, hq1⟩ := pad_sum h1
  obtain ⟨p2, q2, e2, -, hp2, hq2⟩ := pad_sum h2
  subst hp0 hq0 hp1 hq1 hp2 hq2
  unfold Nd.pad
  simp only [padWidth, List.map_cons, List.map_nil, e0, e1, e2, ha]
  rw [if_neg (by simp), if_neg]
  · refine ⟨_, rfl, rfl, fun x hx => ?_⟩
    exact (at_eq_val hx).trans (val_ofFn hx)
  · rintro ⟨hm, h⟩
    obtain ⟨g0, g1, g2⟩ := hp hm
    simp at h
    omega

/-- Reading at a pixel of the image. -/
theorem pad_read {a A : Nd α} {n0 n1 n2 r0 r1 r2 : Nat} (ha : a.shape = [n0, n1, n2])
    {mode : PadMode} {v : α}
    (hA : A.shape = [(r0 - 1) / 2 + n0 + r0 / 2, (r1 - 1) / 2 + n1 + r1 / 2, (r2 - 1) / 2 + n2 + r2 / 2])
    (hx : ∀ x, InBox A.shape x → A.at_ x =
        a.extend mode v (minus x [(((r0 - 1) / 2 : Nat) : Int), (((r1 - 1) / 2 : Nat) : Int), (((r2 - 1) / 2 : Nat) : Int)]))
    {x : List Int} (hb : InBox [n0, n1, n2] x) :
    A.read (plus x [(((r0 - 1) / 2 : Nat) : Int), (((r1 - 1) / 2 : Nat) : Int), (((r2 - 1) / 2 : Nat) : Int)]) = ok (val a x) := by
  obtain ⟨i, j, k, rfl, hi, hj, hk⟩ := inbox3.1 hb
  have hb' : InBox A.shape (plus [i, j, k] [(((r0 - 1) / 2 : Nat) : Int), (((r1 - 1) / 2 : Nat) : Int), (((r2 - 1) / 2 : Nat) : Int)]) := by
    rw [hA]
    refine inbox3.2 ⟨i + (((r0 - 1) / 2 : Nat) : Int), j + (((r1 - 1) / 2 : Nat) : Int), k + (((r2 - 1) / 2 : Nat) : Int), rfl, ?_, ?_, ?_⟩ <;> omega
  rw [read_ok hb', ← at_eq_val hb', hx _ hb']
  congr 1
  have e : minus (plus [i, j, k] [(((r0 - 1) / 2 : Nat) : Int), (((r1 - 1) / 2 : Nat) : Int), (((r2 - 1) / 2 : Nat) : Int)])
      [(((r0 - 1) / 2 : Nat) : Int), (((r1 - 1) / 2 : Nat) : Int), (((r2 - 1) / 2 : Nat) : Int)] = [i, j, k] := by
    simp [minus, plus]
  rw [e]
  unfold Nd.extend
  cases mode with
  | constant =>
    simp only [ha]
    rw [if_pos (inside_iff.2 hb), at_eq_val (by rw [ha]; exact hb)]
  | periodic =>
    simp only [ha]
    have e : List.zipWith (fun (n : Nat) (i : Int) => i % n) [n0, n1, n2] [i, j, k] = [i, j, k] := by
      simp [Int.emod_eq_of_lt hi.1 hi.2, Int.emod_eq_of_lt hj.1 hj.2, Int.emod_eq_of_lt hk.1 hk.2]
    rw [e, at_eq_val (by rw [ha]; exact hb)]

/-- The view around a pixel: index `i` of the region of interest is displacement `i` minus the pad. -/
theorem pad_view {a A : Nd α} {n0 n1 n2 r0 r1 r2 : Nat} (h0 : 0 < r0)
    (h1 : 0 < r1) (h2 : 0 < r2) {mode : PadMode} {v : α}
    (hA : A.shape = [(r0 - 1) / 2 + n0 + r0 / 2, (r1 - 1) / 2 + n1 + r1 / 2, (r2 - 1) / 2 + n2 + r2 / 2])
    (hx : ∀ x, InBox A.shape x → A.at_ x =
        a.extend mode v (minus x [(((r0 - 1) / 2 : Nat) : Int), (((r1 - 1) / 2 : Nat) : Int), (((r2 - 1) / 2 : Nat) : Int)]))
    {x : List Int} (hb : InBox [n0, n1, n2] x) :
    ∃ V, A.view (around (padWidth [r0, r1, r2])
        (plus x [(((r0 - 1) / 2 : Nat) : Int), (((r1 - 1) / 2 : Nat) : Int), (((r2 - 1) / 2 : Nat) : Int)])) = ok V ∧
      V.shape = [r0, r1, r2] ∧ ∀ i, InBox [r0, r1, r2] i →
        val V i = a.extend mode v (move x (displacement [r0, r1, r2] i)) := by
  obtain ⟨i, j, k, rfl, hi, hj, hk⟩ := inbox3.1 hb
  obtain ⟨p0, q0, e0, s0, hp0, hq0⟩ := pad_sum h0
  obtain ⟨p1, q1, e1, s1, hp1, hq1⟩ := pad_sum h1
  obtain ⟨p2, q2, e2, s2, hp2, hq2⟩ := pad_sum h2
  simp only [← hp0, ← hq0, ← hp1, ← hq1, ← hp2, ← hq2] at hA hx ⊢
  have er : around (padWidth [r0, r1, r2]) (plus [i, j, k] [(p0 : Int), (p1 : Int), (p2 : Int)]) =
      [(i, i + r0), (j, j + r1), (k, k + r2)] := by
    simp only [padWidth, List.map_cons, List.map_nil, e0, e1, e2, around, plus, List.zipWith_cons_cons,
      List.zipWith_nil_left]
    congr 1
    · ext
      all_goals (simp; try omega)
    · congr 1
      · ext
        all_goals (simp; try omega)
      · congr 1
        ext
        all_goals (simp; try omega)
  rw [er]
  unfold Nd.view
  rw [if_neg (by simp [hA]), if_neg (by simp [hA]; omega)]
  have es : ([(i, i + (r0 : Int)), (j, j + r1), (k, k + r2)].map fun r => (r.2 - r.1).toNat) = [r0, r1, r2] := by
    simp
  refine ⟨_, rfl, es, fun d hd => ?_⟩
  rw [es, val_ofFn hd]
  obtain ⟨a0, a1, a2, rfl, ha0, ha1, ha2⟩ := inbox3.1 hd
  rw [hx _ (by
    rw [hA]
    refine inbox3.2 ⟨a0 + i, a1 + j, a2 + k, rfl, ?_, ?_, ?_⟩ <;> omega)]
  congr 1
  simp only [plus, minus, move, displacement, List.map_cons, List.map_nil, List.zipWith_cons_cons,
    List.zipWith_nil_left, hp0, hp1, hp2]
  simp only [List.cons.injEq, and_true]
  omega

/-- The loop over the pixels. -/
theorem pixelLoop_eq {n0 n1 n2 r0 r1 r2 : Nat} (h0 : 0 < r0) (h1 : 0 < r1) (h2 : 0 < r2) :
    pixelLoop [(r0 - 1) / 2 + n0 + r0 / 2, (r1 - 1) / 2 + n1 + r1 / 2, (r2 - 1) / 2 + n2 + r2 / 2]
      (padWidth [r0, r1, r2]) =
    (pixels [n0, n1, n2]).map fun x =>
      plus x [(((r0 - 1) / 2 : Nat) : Int), (((r1 - 1) / 2 : Nat) : Int), (((r2 - 1) / 2 : Nat) : Int)] := by
  have := loops_shift [n0, n1, n2] [(r0 - 1) / 2, (r1 - 1) / 2, (r2 - 1) / 2] rfl
  simp only [List.map_cons, List.map_nil] at this
  rw [← this]
  obtain ⟨p0, q0, e0, s0, hp0, hq0⟩ := pad_sum h0
  obtain ⟨p1, q1, e1, s1, hp1, hq1⟩ := pad_sum h1
  obtain ⟨p2, q2, e2, s2, hp2, hq2⟩ := pad_sum h2
  unfold pixelLoop
  congr 1
  simp only [padWidth, List.map_cons, List.map_nil, e0, e1, e2, List.zipWith_cons_cons,
      List.zipWith_nil_left]
  simp only [← hp0, ← hq0, ← hp1, ← hq1, ← hp2, ← hq2, Nat.add_sub_cancel]

end Verif.Ens
