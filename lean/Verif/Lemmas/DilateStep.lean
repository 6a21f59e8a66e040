import Verif.Lemmas.Stamp
import Verif.Model.Dilate
import Verif.Spec.Dilate

/-! # One iteration of dilate, as a function of positions -/

set_option linter.unusedSectionVars false

namespace Verif.Dilate

open Verif Outcome Spec Cluster Nd Ens
open scoped Classical

variable {α β γ : Type}

theorem val_map₂ {φ : α → β → γ} {a : Nd α} {b : Nd β} {x : List Int} (h : a.shape = b.shape) :
    ∃ c, map₂ φ a b = ok c ∧ c.shape = a.shape ∧ val c x = φ (val a x) (val b x) := by
  refine ⟨_, if_pos h, rfl, ?_⟩
  simp only [val, h]

theorem map₂_ok (φ : α → β → γ) {a : Nd α} {b : Nd β} (h : a.shape = b.shape) :
    ∃ c, map₂ φ a b = ok c ∧ c.shape = a.shape ∧ ∀ x, val c x = φ (val a x) (val b x) :=
  ⟨_, if_pos h, rfl, fun x => by simp only [val, h]⟩

/-- A view of a three-dimensional array. -/
theorem view3 {A : Nd α} {a b c : Nat} (hA : A.shape = [a, b, c]) {s0 s1 s2 : Int} {w0 w1 w2 : Nat}
    (h0 : 0 ≤ s0 ∧ s0 + w0 ≤ a) (h1 : 0 ≤ s1 ∧ s1 + w1 ≤ b) (h2 : 0 ≤ s2 ∧ s2 + w2 ≤ c) :
    ∃ V, A.view [(s0, s0 + w0), (s1, s1 + w1), (s2, s2 + w2)] = ok V ∧ V.shape = [w0, w1, w2] ∧
      ∀ i j k, InBox [w0, w1, w2] [i, j, k] → val V [i, j, k] = val A [i + s0, j + s1, k + s2] := by
  unfold Nd.view
  rw [if_neg (by simp [hA]), if_neg (by simp [hA]; omega)]
  have es : ([(s0, s0 + (w0 : Int)), (s1, s1 + (w1 : Int)), (s2, s2 + (w2 : Int))].map
      fun r => (r.2 - r.1).toNat) = [w0, w1, w2] := by simp
  refine ⟨_, rfl, es, fun i j k hd => ?_⟩
  rw [es, val_ofFn hd]
  obtain ⟨_, _, _, e, a0, a1, a2⟩ := inbox3.1 hd
  cases e
  refine at_eq_val ?_
  rw [hA]
  exact inbox3.2 ⟨_, _, _, rfl, by dsimp only; omega, by dsimp only; omega, by dsimp only; omega⟩

/-- Assigning to a view of a three-dimensional array. -/
theorem setView3 {A V : Nd α} {a b c : Nat} (hA : A.shape = [a, b, c]) {s0 s1 s2 : Int} {w0 w1 w2 : Nat}
    (h0 : 0 ≤ s0 ∧ s0 + w0 ≤ a) (h1 : 0 ≤ s1 ∧ s1 + w1 ≤ b) (h2 : 0 ≤ s2 ∧ s2 + w2 ≤ c)
    (hV : V.shape = [w0, w1, w2]) :
    ∃ B, A.setView [(s0, s0 + w0), (s1, s1 + w1), (s2, s2 + w2)] V = ok B ∧ B.shape = [a, b, c] ∧
      ∀ i j k, InBox [a, b, c] [i, j, k] → val B [i, j, k] =
        if InBox [w0, w1, w2] [i - s0, j - s1, k - s2] then val V [i - s0, j - s1, k - s2]
        else val A [i, j, k] := by
  unfold Nd.setView
  rw [if_neg (by simp [hA]), if_neg (by simp [hA]; omega), if_neg (by simp [hV])]
  refine ⟨_, rfl, hA, fun i j k hd => ?_⟩
  rw [hA, val_ofFn hd]
  dsimp only
  have e : minus [i, j, k] ([(s0, s0 + (w0 : Int)), (s1, s1 + (w1 : Int)), (s2, s2 + (w2 : Int))].map
      Prod.fst) = [i - s0, j - s1, k - s2] := rfl
  rw [e, hV]
  by_cases h : InBox [w0, w1, w2] [i - s0, j - s1, k - s2]
  · rw [if_pos (inside_iff.2 h), if_pos h, at_eq_val (by rw [hV]; exact h)]
  · rw [if_neg (fun h' => h (inside_iff.1 h')), if_neg h, at_eq_val (by rw [hA]; exact hd)]

/-- Copying the nonzero elements of one part of the array to another. -/
theorem copyNonzero3 {F : Nd Int} {a b c : Nat} (hF : F.shape = [a, b, c]) {s0 s1 s2 d0 d1 d2 : Int}
    {w0 w1 w2 : Nat}
    (h0 : 0 ≤ s0 ∧ s0 + w0 ≤ a) (h1 : 0 ≤ s1 ∧ s1 + w1 ≤ b) (h2 : 0 ≤ s2 ∧ s2 + w2 ≤ c)
    (g0 : 0 ≤ d0 ∧ d0 + w0 ≤ a) (g1 : 0 ≤ d1 ∧ d1 + w1 ≤ b) (g2 : 0 ≤ d2 ∧ d2 + w2 ≤ c) :
    ∃ B, copyNonzero F [(s0, s0 + w0), (s1, s1 + w1), (s2, s2 + w2)]
        [(d0, d0 + w0), (d1, d1 + w1), (d2, d2 + w2)] = ok B ∧ B.shape = [a, b, c] ∧
      ∀ i j k, InBox [a, b, c] [i, j, k] → val B [i, j, k] =
        if InBox [w0, w1, w2] [i - d0, j - d1, k - d2] ∧
          val F [i - d0 + s0, j - d1 + s1, k - d2 + s2] ≠ 0 then
          val F [i - d0 + s0, j - d1 + s1, k - d2 + s2]
        else val F [i, j, k] := by
  obtain ⟨S, eS, hS, vS⟩ := view3 hF h0 h1 h2
  obtain ⟨D, eD, hD, vD⟩ := view3 hF g0 g1 g2
  obtain ⟨V, eV, hV, vV⟩ := map₂_ok (fun a b : Int => if a ≠ 0 then a else b) (hS.trans hD.symm)
  obtain ⟨B, eB, hB, vB⟩ := setView3 (V := V) hF g0 g1 g2 (hV.trans hS)
  refine ⟨B, ?_, hB, fun i j k hx => ?_⟩
  · unfold copyNonzero
    rw [eS, ok_bind, eD, ok_bind, eV, ok_bind, eB]
  · rw [vB i j k hx]
    by_cases h : InBox [w0, w1, w2] [i - d0, j - d1, k - d2]
    · rw [if_pos h, vV, vS _ _ _ h, vD _ _ _ h]
      simp only [h, true_and, sub_add_cancel]
    · simp [h]

/-! ### Positions relative to the image -/

/-- The pads and the size of an image along the three axes. -/
structure Geo where
  p0 : Nat
  p1 : Nat
  p2 : Nat
  n0 : Nat
  n1 : Nat
  n2 : Nat
  q0 : Nat
  q1 : Nat
  q2 : Nat

namespace Geo

/-- Shape of the image. -/
def N (g : Geo) : List Nat := [g.n0, g.n1, g.n2]

/-- Shape of the kernel. -/
def R (g : Geo) : List Nat := [g.p0 + g.q0 + 1, g.p1 + g.q1 + 1, g.p2 + g.q2 + 1]

/-- Shape of the padded image. -/
def S (g : Geo) : List Nat := [g.p0 + g.n0 + g.q0, g.p1 + g.n1 + g.q1, g.p2 + g.n2 + g.q2]

/-- The pads. -/
def pad (g : Geo) : List (Nat × Nat) := [(g.p0, g.q0), (g.p1, g.q1), (g.p2, g.q2)]

/-- The position is in the padded image. -/
def In (g : Geo) (i j k : Int) : Prop :=
  (-(g.p0 : Int) ≤ i ∧ i < g.n0 + g.q0) ∧ (-(g.p1 : Int) ≤ j ∧ j < g.n1 + g.q1) ∧
    (-(g.p2 : Int) ≤ k ∧ k < g.n2 + g.q2)

/-- The position is in the image. -/
def Core (g : Geo) (i j k : Int) : Prop :=
  (0 ≤ i ∧ i < g.n0) ∧ (0 ≤ j ∧ j < g.n1) ∧ (0 ≤ k ∧ k < g.n2)

theorem Core.in {g : Geo} {i j k : Int} (h : g.Core i j k) : g.In i j k := by
  unfold Core at h; unfold In; omega

end Geo

/-- The padded array `F` holds `φ`. -/
structure Rep (g : Geo) (F : Nd Int) (φ : List Int → Int) : Prop where
  shape : F.shape = g.S
  val : ∀ i j k, g.In i j k → Spec.val F [i + g.p0, j + g.p1, k + g.p2] = φ [i, j, k]

theorem Rep.congr {g : Geo} {F : Nd Int} {φ ψ : List Int → Int} (h : Rep g F φ)
    (e : ∀ i j k, g.In i j k → φ [i, j, k] = ψ [i, j, k]) : Rep g F ψ :=
  ⟨h.shape, fun i j k hi => (h.val i j k hi).trans (e i j k hi)⟩

theorem Rep.of_abs {g : Geo} {F : Nd Int} {φ : List Int → Int} (hs : F.shape = g.S)
    (h : ∀ i j k, InBox g.S [i, j, k] → Spec.val F [i, j, k] = φ [i - g.p0, j - g.p1, k - g.p2]) :
    Rep g F φ := by
  refine ⟨hs, fun i j k hi => ?_⟩
  have hb : InBox g.S [i + g.p0, j + g.p1, k + g.p2] := by
    unfold Geo.In at hi
    exact inbox3.2 ⟨_, _, _, rfl, by omega, by omega, by omega⟩
  rw [h _ _ _ hb]
  simp

theorem Rep.abs {g : Geo} {F : Nd Int} {φ : List Int → Int} (h : Rep g F φ) {i j k : Int}
    (hb : InBox g.S [i, j, k]) : Spec.val F [i, j, k] = φ [i - g.p0, j - g.p1, k - g.p2] := by
  obtain ⟨_, _, _, e, a0, a1, a2⟩ := inbox3.1 hb
  cases e
  rw [← h.val _ _ _ (by unfold Geo.In; omega)]
  simp

/-! ### Periodic copies -/

/-- Copy along the first axis from above the image to its lower part. -/
def down0 (g : Geo) (φ : List Int → Int) : List Int → Int
  | [i, j, k] => if (0 ≤ i ∧ i < g.q0) ∧ φ [i + g.n0, j, k] ≠ 0 then φ [i + g.n0, j, k] else φ [i, j, k]
  | _ => 0

/-- The same along the second axis. -/
def down1 (g : Geo) (φ : List Int → Int) : List Int → Int
  | [i, j, k] => if (0 ≤ j ∧ j < g.q1) ∧ φ [i, j + g.n1, k] ≠ 0 then φ [i, j + g.n1, k] else φ [i, j, k]
  | _ => 0

/-- The same along the third axis. -/
def down2 (g : Geo) (φ : List Int → Int) : List Int → Int
  | [i, j, k] => if (0 ≤ k ∧ k < g.q2) ∧ φ [i, j, k + g.n2] ≠ 0 then φ [i, j, k + g.n2] else φ [i, j, k]
  | _ => 0

/-- Copy along the first axis from below the image to its upper part. -/
def up0 (g : Geo) (φ : List Int → Int) : List Int → Int
  | [i, j, k] => if ((g.n0 : Int) - g.p0 ≤ i ∧ i < g.n0) ∧ φ [i - g.n0, j, k] ≠ 0 then φ [i - g.n0, j, k]
    else φ [i, j, k]
  | _ => 0

/-- The same along the second axis. -/
def up1 (g : Geo) (φ : List Int → Int) : List Int → Int
  | [i, j, k] => if ((g.n1 : Int) - g.p1 ≤ j ∧ j < g.n1) ∧ φ [i, j - g.n1, k] ≠ 0 then φ [i, j - g.n1, k]
    else φ [i, j, k]
  | _ => 0

/-- The same along the third axis. -/
def up2 (g : Geo) (φ : List Int → Int) : List Int → Int
  | [i, j, k] => if ((g.n2 : Int) - g.p2 ≤ k ∧ k < g.n2) ∧ φ [i, j, k - g.n2] ≠ 0 then φ [i, j, k - g.n2]
    else φ [i, j, k]
  | _ => 0

/-- The image is not empty and the pads are not wider than it. -/
def Geo.Fits (g : Geo) : Prop :=
  (0 < g.n0 ∧ g.p0 ≤ g.n0 ∧ g.q0 ≤ g.n0) ∧ (0 < g.n1 ∧ g.p1 ≤ g.n1 ∧ g.q1 ≤ g.n1) ∧
    (0 < g.n2 ∧ g.p2 ≤ g.n2 ∧ g.q2 ≤ g.n2)

theorem inbox3' {a b c : Nat} {i j k : Int} : InBox [a, b, c] [i, j, k] ↔
    (0 ≤ i ∧ i < a) ∧ (0 ≤ j ∧ j < b) ∧ (0 ≤ k ∧ k < c) := by
  rw [inbox3]
  constructor
  · rintro ⟨_, _, _, e, h⟩
    cases e
    exact h
  · exact fun h => ⟨i, j, k, rfl, h⟩

/-- The copies along one axis: `s` and `d` are the starts of the source and of the target. -/
theorem copy_rep {g : Geo} {F : Nd Int} {φ ψ : List Int → Int} (h : Rep g F φ)
    {s0 s1 s2 d0 d1 d2 : Int} {w0 w1 w2 : Nat}
    (h0 : 0 ≤ s0 ∧ s0 + w0 ≤ (g.p0 + g.n0 + g.q0 : Nat)) (h1 : 0 ≤ s1 ∧ s1 + w1 ≤ (g.p1 + g.n1 + g.q1 : Nat))
    (h2 : 0 ≤ s2 ∧ s2 + w2 ≤ (g.p2 + g.n2 + g.q2 : Nat))
    (g0 : 0 ≤ d0 ∧ d0 + w0 ≤ (g.p0 + g.n0 + g.q0 : Nat)) (g1 : 0 ≤ d1 ∧ d1 + w1 ≤ (g.p1 + g.n1 + g.q1 : Nat))
    (g2 : 0 ≤ d2 ∧ d2 + w2 ≤ (g.p2 + g.n2 + g.q2 : Nat))
    (e : ∀ i j k, g.In i j k → ψ [i, j, k] =
      if ((d0 ≤ i + g.p0 ∧ i + g.p0 < d0 + w0) ∧ (d1 ≤ j + g.p1 ∧ j + g.p1 < d1 + w1) ∧
          (d2 ≤ k + g.p2 ∧ k + g.p2 < d2 + w2)) ∧ φ [i - d0 + s0, j - d1 + s1, k - d2 + s2] ≠ 0 then
        φ [i - d0 + s0, j - d1 + s1, k - d2 + s2] else φ [i, j, k])
    {src dst : List (Int × Int)} (es : src = [(s0, s0 + w0), (s1, s1 + w1), (s2, s2 + w2)])
    (ed : dst = [(d0, d0 + w0), (d1, d1 + w1), (d2, d2 + w2)]) :
    ∃ B, copyNonzero F src dst = ok B ∧ Rep g B ψ := by
  subst es ed
  obtain ⟨B, e1, e2, e3⟩ := copyNonzero3 h.shape h0 h1 h2 g0 g1 g2
  refine ⟨B, e1, e2, fun i j k hi => ?_⟩
  have hb : InBox g.S [i + g.p0, j + g.p1, k + g.p2] := by
    unfold Geo.In at hi
    exact inbox3'.2 ⟨by omega, by omega, by omega⟩
  have v := e3 _ _ _ hb
  rw [v, e i j k hi, h.val i j k hi]
  by_cases hw : InBox [w0, w1, w2] [i + g.p0 - d0, j + g.p1 - d1, k + g.p2 - d2]
  · have hw' := inbox3'.1 hw
    have hb' : InBox g.S [i + g.p0 - d0 + s0, j + g.p1 - d1 + s1, k + g.p2 - d2 + s2] :=
      inbox3'.2 ⟨by omega, by omega, by omega⟩
    have e4 := h.abs hb'
    rw [show i + (g.p0 : Int) - d0 + s0 - g.p0 = i - d0 + s0 by omega,
      show j + (g.p1 : Int) - d1 + s1 - g.p1 = j - d1 + s1 by omega,
      show k + (g.p2 : Int) - d2 + s2 - g.p2 = k - d2 + s2 by omega] at e4
    rw [e4]
    have hc : (d0 ≤ i + g.p0 ∧ i + g.p0 < d0 + w0) ∧ (d1 ≤ j + g.p1 ∧ j + g.p1 < d1 + w1) ∧
          (d2 ≤ k + g.p2 ∧ k + g.p2 < d2 + w2) := by omega
    simp only [hw, hc, true_and, and_self]
  · have hc : ¬ ((d0 ≤ i + g.p0 ∧ i + g.p0 < d0 + w0) ∧ (d1 ≤ j + g.p1 ∧ j + g.p1 < d1 + w1) ∧
          (d2 ≤ k + g.p2 ∧ k + g.p2 < d2 + w2)) := by
      intro hc
      exact hw (inbox3'.2 ⟨by omega, by omega, by omega⟩)
    rw [if_neg fun h => hw h.1, if_neg fun h => hc h.1]

theorem down0_rep {g : Geo} {F : Nd Int} {φ : List Int → Int} (h : Rep g F φ) (hg : g.Fits) :
    ∃ B, copyNonzero F (slab g.S 0 ((((g.p0 + g.n0 + g.q0 : Nat) : Int) - g.q0), ((g.p0 + g.n0 + g.q0 : Nat) : Int)))
      (slab g.S 0 ((g.p0 : Int), (g.p0 : Int) + g.q0)) = ok B ∧
      Rep g B (down0 g φ) := by
  obtain ⟨g0, g1, g2⟩ := hg
  refine copy_rep h (s0 := (g.p0 : Int) + g.n0) (d0 := (g.p0 : Int)) (w0 := g.q0) (s1 := 0) (d1 := 0) (w1 := g.p1 + g.n1 + g.q1) (s2 := 0) (d2 := 0) (w2 := g.p2 + g.n2 + g.q2)
    (by omega) (by omega) (by omega) (by omega) (by omega) (by omega) (fun i j k hi => ?_)
    (by simp [slab, Geo.S]; try omega) (by simp [slab, Geo.S]; try omega)
  unfold Geo.In at hi
  have ei : [i - ((g.p0 : Int)) + ((g.p0 : Int) + g.n0), j - (0) + (0), k - (0) + (0)] = [i + g.n0, j, k] := by
    simp only [List.cons.injEq, and_true]
    omega
  rw [ei]
  show (if (0 ≤ i ∧ i < g.q0) ∧ φ [i + g.n0, j, k] ≠ 0 then _ else _) = _
  refine if_congr (and_congr_left fun _ => ?_) rfl rfl
  push_cast
  omega

theorem down1_rep {g : Geo} {F : Nd Int} {φ : List Int → Int} (h : Rep g F φ) (hg : g.Fits) :
    ∃ B, copyNonzero F (slab g.S 1 ((((g.p1 + g.n1 + g.q1 : Nat) : Int) - g.q1), ((g.p1 + g.n1 + g.q1 : Nat) : Int)))
      (slab g.S 1 ((g.p1 : Int), (g.p1 : Int) + g.q1)) = ok B ∧
      Rep g B (down1 g φ) := by
  obtain ⟨g0, g1, g2⟩ := hg
  refine copy_rep h (s0 := 0) (d0 := 0) (w0 := g.p0 + g.n0 + g.q0) (s1 := (g.p1 : Int) + g.n1) (d1 := (g.p1 : Int)) (w1 := g.q1) (s2 := 0) (d2 := 0) (w2 := g.p2 + g.n2 + g.q2)
    (by omega) (by omega) (by omega) (by omega) (by omega) (by omega) (fun i j k hi => ?_)
    (by simp [slab, Geo.S]; try omega) (by simp [slab, Geo.S]; try omega)
  unfold Geo.In at hi
  have ei : [i - (0) + (0), j - ((g.p1 : Int)) + ((g.p1 : Int) + g.n1), k - (0) + (0)] = [i, j + g.n1, k] := by
    simp only [List.cons.injEq, and_true]
    omega
  rw [ei]
  show (if (0 ≤ j ∧ j < g.q1) ∧ φ [i, j + g.n1, k] ≠ 0 then _ else _) = _
  refine if_congr (and_congr_left fun _ => ?_) rfl rfl
  push_cast
  omega

theorem down2_rep {g : Geo} {F : Nd Int} {φ : List Int → Int} (h : Rep g F φ) (hg : g.Fits) :
    ∃ B, copyNonzero F (slab g.S 2 ((((g.p2 + g.n2 + g.q2 : Nat) : Int) - g.q2), ((g.p2 + g.n2 + g.q2 : Nat) : Int)))
      (slab g.S 2 ((g.p2 : Int), (g.p2 : Int) + g.q2)) = ok B ∧
      Rep g B (down2 g φ) := by
  obtain ⟨g0, g1, g2⟩ := hg
  refine copy_rep h (s0 := 0) (d0 := 0) (w0 := g.p0 + g.n0 + g.q0) (s1 := 0) (d1 := 0) (w1 := g.p1 + g.n1 + g.q1) (s2 := (g.p2 : Int) + g.n2) (d2 := (g.p2 : Int)) (w2 := g.q2)
    (by omega) (by omega) (by omega) (by omega) (by omega) (by omega) (fun i j k hi => ?_)
    (by simp [slab, Geo.S]; try omega) (by simp [slab, Geo.S]; try omega)
  unfold Geo.In at hi
  have ei : [i - (0) + (0), j - (0) + (0), k - ((g.p2 : Int)) + ((g.p2 : Int) + g.n2)] = [i, j, k + g.n2] := by
    simp only [List.cons.injEq, and_true]
    omega
  rw [ei]
  show (if (0 ≤ k ∧ k < g.q2) ∧ φ [i, j, k + g.n2] ≠ 0 then _ else _) = _
  refine if_congr (and_congr_left fun _ => ?_) rfl rfl
  push_cast
  omega

theorem up0_rep {g : Geo} {F : Nd Int} {φ : List Int → Int} (h : Rep g F φ) (hg : g.Fits) :
    ∃ B, copyNonzero F (slab g.S 0 ((0 : Int), (g.p0 : Int)))
      (slab g.S 0 ((((g.p0 + g.n0 + g.q0 : Nat) : Int) - g.q0 - g.p0), (((g.p0 + g.n0 + g.q0 : Nat) : Int) - g.q0))) = ok B ∧
      Rep g B (up0 g φ) := by
  obtain ⟨g0, g1, g2⟩ := hg
  refine copy_rep h (s0 := 0) (d0 := (g.n0 : Int)) (w0 := g.p0) (s1 := 0) (d1 := 0) (w1 := g.p1 + g.n1 + g.q1) (s2 := 0) (d2 := 0) (w2 := g.p2 + g.n2 + g.q2)
    (by omega) (by omega) (by omega) (by omega) (by omega) (by omega) (fun i j k hi => ?_)
    (by simp [slab, Geo.S]; try omega) (by simp [slab, Geo.S]; try omega)
  unfold Geo.In at hi
  have ei : [i - ((g.n0 : Int)) + (0), j - (0) + (0), k - (0) + (0)] = [i - g.n0, j, k] := by
    simp only [List.cons.injEq, and_true]
    omega
  rw [ei]
  show (if ((g.n0 : Int) - g.p0 ≤ i ∧ i < g.n0) ∧ φ [i - g.n0, j, k] ≠ 0 then _ else _) = _
  refine if_congr (and_congr_left fun _ => ?_) rfl rfl
  push_cast
  omega

theorem up1_rep {g : Geo} {F : Nd Int} {φ : List Int → Int} (h : Rep g F φ) (hg : g.Fits) :
    ∃ B, copyNonzero F (slab g.S 1 ((0 : Int), (g.p1 : Int)))
      (slab g.S 1 ((((g.p1 + g.n1 + g.q1 : Nat) : Int) - g.q1 - g.p1), (((g.p1 + g.n1 + g.q1 : Nat) : Int) - g.q1))) = ok B ∧
      Rep g B (up1 g φ) := by
  obtain ⟨g0, g1, g2⟩ := hg
  refine copy_rep h (s0 := 0) (d0 := 0) (w0 := g.p0 + g.n0 + g.q0) (s1 := 0) (d1 := (g.n1 : Int)) (w1 := g.p1) (s2 := 0) (d2 := 0) (w2 := g.p2 + g.n2 + g.q2)
    (by omega) (by omega) (by omega) (by omega) (by omega) (by omega) (fun i j k hi => ?_)
    (by simp [slab, Geo.S]; try omega) (by simp [slab, Geo.S]; try omega)
  unfold Geo.In at hi
  have ei : [i - (0) + (0), j - ((g.n1 : Int)) + (0), k - (0) + (0)] = [i, j - g.n1, k] := by
    simp only [List.cons.injEq, and_true]
    omega
  rw [ei]
  show (if ((g.n1 : Int) - g.p1 ≤ j ∧ j < g.n1) ∧ φ [i, j - g.n1, k] ≠ 0 then _ else _) = _
  refine if_congr (and_congr_left fun _ => ?_) rfl rfl
  push_cast
  omega

theorem up2_rep {g : Geo} {F : Nd Int} {φ : List Int → Int} (h : Rep g F φ) (hg : g.Fits) :
    ∃ B, copyNonzero F (slab g.S 2 ((0 : Int), (g.p2 : Int)))
      (slab g.S 2 ((((g.p2 + g.n2 + g.q2 : Nat) : Int) - g.q2 - g.p2), (((g.p2 + g.n2 + g.q2 : Nat) : Int) - g.q2))) = ok B ∧
      Rep g B (up2 g φ) := by
  obtain ⟨g0, g1, g2⟩ := hg
  refine copy_rep h (s0 := 0) (d0 := 0) (w0 := g.p0 + g.n0 + g.q0) (s1 := 0) (d1 := 0) (w1 := g.p1 + g.n1 + g.q1) (s2 := 0) (d2 := (g.n2 : Int)) (w2 := g.p2)
    (by omega) (by omega) (by omega) (by omega) (by omega) (by omega) (fun i j k hi => ?_)
    (by simp [slab, Geo.S]; try omega) (by simp [slab, Geo.S]; try omega)
  unfold Geo.In at hi
  have ei : [i - (0) + (0), j - (0) + (0), k - ((g.n2 : Int)) + (0)] = [i, j, k - g.n2] := by
    simp only [List.cons.injEq, and_true]
    omega
  rw [ei]
  show (if ((g.n2 : Int) - g.p2 ≤ k ∧ k < g.n2) ∧ φ [i, j, k - g.n2] ≠ 0 then _ else _) = _
  refine if_congr (and_congr_left fun _ => ?_) rfl rfl
  push_cast
  omega

theorem axes3 {g : Geo} {f : Nd Int → Nat → Outcome (Nd Int)} {F : Nd Int} {φ : List Int → Int}
    {t0 t1 t2 : (List Int → Int) → List Int → Int} (h : Rep g F φ)
    (h0 : ∀ F φ, Rep g F φ → ∃ B, f F 0 = ok B ∧ Rep g B (t0 φ))
    (h1 : ∀ F φ, Rep g F φ → ∃ B, f F 1 = ok B ∧ Rep g B (t1 φ))
    (h2 : ∀ F φ, Rep g F φ → ∃ B, f F 2 = ok B ∧ Rep g B (t2 φ)) :
    ∃ B, forM (List.range F.shape.length) F f = ok B ∧ Rep g B (t2 (t1 (t0 φ))) := by
  obtain ⟨A, eA, hA⟩ := h0 F φ h
  obtain ⟨B, eB, hB⟩ := h1 A _ hA
  obtain ⟨C, eC, hC⟩ := h2 B _ hB
  refine ⟨C, ?_, hC⟩
  rw [h.shape]
  show forM [0, 1, 2] F f = ok C
  simp only [forM, eA, eB, eC, Outcome.bind]

theorem above_rep {g : Geo} {F : Nd Int} {φ : List Int → Int} (h : Rep g F φ) (hg : g.Fits) :
    ∃ B, copyAboveToBelow F g.pad = ok B ∧ Rep g B (down2 g (down1 g (down0 g φ))) := by
  refine axes3 h (fun F φ h => ?_) (fun F φ h => ?_) (fun F φ h => ?_)
  · rw [h.shape]
    dsimp only [Geo.S, Geo.pad, List.getElem?_cons_zero, List.getElem?_cons_succ]
    split
    · refine ⟨F, rfl, h.congr fun i j k hi => ?_⟩
      have hn : g.p0 = 0 ∧ g.q0 = 0 := by unfold Geo.Fits at hg; omega
      exact (if_neg fun hc => by omega).symm
    · exact down0_rep h hg
  · rw [h.shape]
    dsimp only [Geo.S, Geo.pad, List.getElem?_cons_zero, List.getElem?_cons_succ]
    split
    · refine ⟨F, rfl, h.congr fun i j k hi => ?_⟩
      have hn : g.p1 = 0 ∧ g.q1 = 0 := by unfold Geo.Fits at hg; omega
      exact (if_neg fun hc => by omega).symm
    · exact down1_rep h hg
  · rw [h.shape]
    dsimp only [Geo.S, Geo.pad, List.getElem?_cons_zero, List.getElem?_cons_succ]
    split
    · refine ⟨F, rfl, h.congr fun i j k hi => ?_⟩
      have hn : g.p2 = 0 ∧ g.q2 = 0 := by unfold Geo.Fits at hg; omega
      exact (if_neg fun hc => by omega).symm
    · exact down2_rep h hg

theorem below_rep {g : Geo} {F : Nd Int} {φ : List Int → Int} (h : Rep g F φ) (hg : g.Fits) :
    ∃ B, copyBelowToAbove F g.pad = ok B ∧ Rep g B (up2 g (up1 g (up0 g φ))) := by
  refine axes3 h (fun F φ h => ?_) (fun F φ h => ?_) (fun F φ h => ?_)
  · rw [h.shape]
    dsimp only [Geo.S, Geo.pad, List.getElem?_cons_zero, List.getElem?_cons_succ]
    split
    · refine ⟨F, rfl, h.congr fun i j k hi => ?_⟩
      have hn : g.p0 = 0 ∧ g.q0 = 0 := by unfold Geo.Fits at hg; omega
      exact (if_neg fun hc => by omega).symm
    · exact up0_rep h hg
  · rw [h.shape]
    dsimp only [Geo.S, Geo.pad, List.getElem?_cons_zero, List.getElem?_cons_succ]
    split
    · refine ⟨F, rfl, h.congr fun i j k hi => ?_⟩
      have hn : g.p1 = 0 ∧ g.q1 = 0 := by unfold Geo.Fits at hg; omega
      exact (if_neg fun hc => by omega).symm
    · exact up1_rep h hg
  · rw [h.shape]
    dsimp only [Geo.S, Geo.pad, List.getElem?_cons_zero, List.getElem?_cons_succ]
    split
    · refine ⟨F, rfl, h.congr fun i j k hi => ?_⟩
      have hn : g.p2 = 0 ∧ g.q2 = 0 := by unfold Geo.Fits at hg; omega
      exact (if_neg fun hc => by omega).symm
    · exact up2_rep h hg

/-- The periodic copy, as a function of positions. -/
def copies (g : Geo) (φ : List Int → Int) : List Int → Int :=
  up2 g (up1 g (up0 g (down2 g (down1 g (down0 g φ)))))

theorem periodicCopy_rep {g : Geo} {F : Nd Int} {φ : List Int → Int} (h : Rep g F φ) (hg : g.Fits) :
    ∃ B, periodicCopy F g.pad = ok B ∧ Rep g B (copies g φ) := by
  obtain ⟨A, eA, hA⟩ := above_rep h hg
  obtain ⟨B, eB, hB⟩ := below_rep hA hg
  exact ⟨B, by unfold periodicCopy; rw [eA, ok_bind, eB], hB⟩

/-! ### Growing -/

/-- Pixel `x` gives its label to the empty position `z` in iteration `t`. -/
def Hit (K : Nd Int) (it : List Nat) (t : Nat) (φ : List Int → Int) (x z : List Int) : Prop :=
  φ x ≠ 0 ∧ t < iterationsOf it (φ x) ∧ φ z = 0 ∧ ∃ d, Offset K d ∧ z = move x d

/-- The label of `x` can be looked up. -/
def LabelOk (it : List Nat) (l : Int) : Prop := it.length = 1 ∨ 0 ≤ l ∧ l < it.length

theorem at1_ok {it : List Nat} {l : Int} (h : LabelOk it l) : at1 it l = some (iterationsOf it l) := by
  unfold at1 iterationsOf
  by_cases h1 : it.length = 1
  · rw [if_pos h1, if_pos h1, List.getD_eq_getElem?_getD, List.getElem?_eq_getElem (by omega)]
    rfl
  · obtain ⟨l0, l1⟩ := h.resolve_left h1
    rw [if_neg h1, if_neg h1, if_neg (by omega), List.getD_eq_getElem?_getD, List.getElem?_eq_getElem (by omega)]
    rfl

/-- The pads are those of a kernel. -/
def Geo.Half (g : Geo) : Prop :=
  (g.p0 + g.q0) / 2 = g.p0 ∧ (g.p1 + g.q1) / 2 = g.p1 ∧ (g.p2 + g.q2) / 2 = g.p2

theorem offset_iff {g : Geo} {K : Nd Int} (hh : g.Half) (hK : K.shape = g.R) {a b c i j k : Int} :
    (∃ d, Offset K d ∧ [i, j, k] = move [a, b, c] d) ↔
      InBox g.R [i - a + g.p0, j - b + g.p1, k - c + g.p2] ∧
        val K [i - a + g.p0, j - b + g.p1, k - c + g.p2] = 1 := by
  obtain ⟨e0, e1, e2⟩ := hh
  have ed : ∀ x y z : Int, displacement g.R [x, y, z] = [x - g.p0, y - g.p1, z - g.p2] := by
    intro x y z
    simp only [displacement, Geo.R, List.zipWith_cons_cons, List.zipWith_nil_right, Nat.add_sub_cancel, e0, e1, e2]
  constructor
  · rintro ⟨d, ⟨i', hi, hv, rfl⟩, e⟩
    rw [hK] at hi e
    rw [mem_pixels] at hi
    obtain ⟨x, y, z, rfl, -⟩ := inbox3.1 hi
    rw [ed] at e
    simp only [move, List.zipWith_cons_cons, List.zipWith_nil_right, List.cons.injEq, and_true] at e
    obtain ⟨f0, f1, f2⟩ := e
    rw [show i - a + (g.p0 : Int) = x by omega, show j - b + (g.p1 : Int) = y by omega,
      show k - c + (g.p2 : Int) = z by omega]
    exact ⟨hi, hv⟩
  · rintro ⟨hi, hv⟩
    refine ⟨_, ⟨_, by rw [hK]; exact mem_pixels.2 hi, hv, rfl⟩, ?_⟩
    rw [hK, ed]
    simp only [move, List.zipWith_cons_cons, List.zipWith_nil_right, List.cons.injEq, and_true]
    omega

theorem pixel_rep {g : Geo} {K : Nd Int} {it : List Nat} {t : Nat} {F G : Nd Int} {φ γ : List Int → Int}
    (hF : Rep g F φ) (hG : Rep g G γ) (hh : g.Half) (hK : K.shape = g.R) {a b c : Int} (hx : g.Core a b c)
    (hl : LabelOk it (φ [a, b, c])) :
    ∃ B, pixel g.pad K it t F G [a + g.p0, b + g.p1, c + g.p2] = ok B ∧
      Rep g B fun z => if Hit K it t φ [a, b, c] z then φ [a, b, c] else γ z := by
  have hb : InBox F.shape [a + g.p0, b + g.p1, c + g.p2] := by
    rw [hF.shape]
    unfold Geo.Core at hx
    exact inbox3'.2 ⟨by omega, by omega, by omega⟩
  unfold pixel
  rw [read_ok hb, ok_bind, hF.val _ _ _ hx.in]
  by_cases h0 : φ [a, b, c] = 0
  · rw [if_pos h0]
    exact ⟨G, rfl, hG.congr fun i j k _ => (if_neg fun h => h.1 h0).symm⟩
  rw [if_neg h0, at1_ok hl]
  dsimp only
  by_cases ht : iterationsOf it (φ [a, b, c]) ≤ t
  · rw [if_pos ht]
    exact ⟨G, rfl, hG.congr fun i j k _ => (if_neg fun h => by have := h.2.1; omega).symm⟩
  rw [if_neg ht]
  have ea : around g.pad [a + g.p0, b + g.p1, c + g.p2] =
      [(a, a + (g.p0 + g.q0 + 1 : Nat)), (b, b + (g.p1 + g.q1 + 1 : Nat)), (c, c + (g.p2 + g.q2 + 1 : Nat))] := by
    simp only [around, Geo.pad, List.zipWith_cons_cons, List.zipWith_nil_right, List.cons.injEq, Prod.mk.injEq]
    push_cast
    refine ⟨⟨by omega, by omega⟩, ⟨by omega, by omega⟩, ⟨by omega, by omega⟩, trivial⟩
  unfold Geo.Core at hx
  rw [ea]
  have r0 : 0 ≤ a ∧ a + (g.p0 + g.q0 + 1 : Nat) ≤ (g.p0 + g.n0 + g.q0 : Nat) := by omega
  have r1 : 0 ≤ b ∧ b + (g.p1 + g.q1 + 1 : Nat) ≤ (g.p1 + g.n1 + g.q1 : Nat) := by omega
  have r2 : 0 ≤ c ∧ c + (g.p2 + g.q2 + 1 : Nat) ≤ (g.p2 + g.n2 + g.q2 : Nat) := by omega
  obtain ⟨V, eV, sV, vV⟩ := view3 hF.shape r0 r1 r2
  obtain ⟨W, eW, sW, vW⟩ := view3 hG.shape r0 r1 r2
  obtain ⟨C, eC, sC, vC⟩ := map₂_ok (fun (f k : Int) => decide (f = 0) && decide (k = 1))
    (sV.trans (show _ = K.shape from hK.symm))
  obtain ⟨U, eU, sU, vU⟩ := map₂_ok (fun (c' : Bool) (g : Int) => if c' then φ [a, b, c] else g)
    (sC.trans (sV.trans sW.symm))
  obtain ⟨B, eB, sB, vB⟩ := setView3 (V := U) hG.shape r0 r1 r2 (sU.trans (sC.trans sV))
  refine ⟨B, ?_, Rep.of_abs sB fun i j k hb => ?_⟩
  · rw [eV, ok_bind, eW, ok_bind, eC, ok_bind, eU, ok_bind, eB]
  · rw [vB _ _ _ hb]
    change (if InBox g.R [i - a, j - b, k - c] then _ else _) = _
    have ho := offset_iff hh hK (a := a) (b := b) (c := c) (i := i - g.p0) (j := j - g.p1) (k := k - g.p2)
    rw [show i - g.p0 - a + (g.p0 : Int) = i - a by omega, show j - g.p1 - b + (g.p1 : Int) = j - b by omega,
      show k - g.p2 - c + (g.p2 : Int) = k - c by omega] at ho
    by_cases hw : InBox g.R [i - a, j - b, k - c]
    · rw [if_pos hw, vU, vC, vV _ _ _ hw, vW _ _ _ hw]
      simp only [sub_add_cancel]
      rw [hF.abs hb, hG.abs hb]
      have he : (decide (φ [i - g.p0, j - g.p1, k - g.p2] = 0) && decide (val K [i - a, j - b, k - c] = 1)) = true ↔
          Hit K it t φ [a, b, c] [i - g.p0, j - g.p1, k - g.p2] := by
        unfold Hit
        rw [ho, Bool.and_eq_true, decide_eq_true_eq, decide_eq_true_eq]
        exact ⟨fun h => ⟨h0, by omega, h.1, hw, h.2⟩, fun h => ⟨h.2.2.1, h.2.2.2.2⟩⟩
      exact if_congr he rfl rfl
    · rw [if_neg hw, hG.abs hb]
      exact (if_neg fun h => hw (ho.1 h.2.2.2).1).symm

/-- The labels after the pixels of `l` were treated. -/
noncomputable def growing (K : Nd Int) (it : List Nat) (t : Nat) (φ : List Int → Int) (l : List (List Int))
    (γ : List Int → Int) (z : List Int) : Int :=
  l.foldl (fun v x => if Hit K it t φ x z then φ x else v) (γ z)

theorem loop_rep {g : Geo} {K : Nd Int} {it : List Nat} {t : Nat} {F : Nd Int} {φ : List Int → Int}
    (hF : Rep g F φ) (hh : g.Half) (hK : K.shape = g.R)
    (hl : ∀ a b c, g.Core a b c → LabelOk it (φ [a, b, c])) :
    ∀ {l : List (List Int)}, (∀ x ∈ l, x ∈ pixels g.N) → ∀ {G : Nd Int} {γ : List Int → Int}, Rep g G γ →
    ∃ B, forM (l.map fun x => plus x [(g.p0 : Int), (g.p1 : Int), (g.p2 : Int)]) G (pixel g.pad K it t F) = ok B ∧
      Rep g B (growing K it t φ l γ)
  | [], _, G, γ, hG => ⟨G, rfl, hG⟩
  | x :: l, hm, G, γ, hG => by
    obtain ⟨a, b, c, rfl, hx⟩ := inbox3.1 (mem_pixels.1 (hm x (by simp)))
    obtain ⟨A, eA, hA⟩ := pixel_rep (t := t) hF hG hh hK hx (hl a b c hx)
    obtain ⟨B, eB, hB⟩ := loop_rep hF hh hK hl (fun x hx => hm x (List.mem_cons_of_mem _ hx)) hA
    refine ⟨B, ?_, hB⟩
    rw [List.map_cons]
    unfold forM
    rw [show plus [a, b, c] [(g.p0 : Int), (g.p1 : Int), (g.p2 : Int)] = [a + g.p0, b + g.p1, c + g.p2] from rfl,
      eA]
    exact eB

theorem pixelLoop_geo (g : Geo) : pixelLoop g.S g.pad =
    (pixels g.N).map fun x => plus x [(g.p0 : Int), (g.p1 : Int), (g.p2 : Int)] := by
  have := loops_shift [g.n0, g.n1, g.n2] [g.p0, g.p1, g.p2] rfl
  simp only [List.map_cons, List.map_nil] at this
  unfold Geo.N
  rw [← this]
  unfold pixelLoop
  congr 1
  simp [Geo.S, Geo.pad]

/-- One iteration, as a function of positions. -/
noncomputable def stepF (g : Geo) (K : Nd Int) (it : List Nat) (periodic : Bool) (t : Nat)
    (φ : List Int → Int) : List Int → Int :=
  if periodic then copies g (growing K it t φ (pixels g.N) φ) else growing K it t φ (pixels g.N) φ

theorem iteration_rep {g : Geo} {K : Nd Int} {it : List Nat} {t : Nat} {F : Nd Int} {φ : List Int → Int}
    {periodic : Bool} (hF : Rep g F φ) (hh : g.Half) (hK : K.shape = g.R) (hg : periodic = true → g.Fits)
    (hl : ∀ a b c, g.Core a b c → LabelOk it (φ [a, b, c])) :
    ∃ B, iteration g.pad K it periodic F t = ok B ∧ Rep g B (stepF g K it periodic t φ) := by
  obtain ⟨A, eA, hA⟩ := loop_rep (t := t) hF hh hK hl (l := pixels g.N) (fun _ h => h) hF
  unfold iteration stepF
  rw [hF.shape, pixelLoop_geo, eA, ok_bind]
  cases periodic with
  | false => exact ⟨A, rfl, hA⟩
  | true => exact periodicCopy_rep hA (hg rfl)

/-- The labels after `t` iterations. -/
noncomputable def evolve (g : Geo) (K : Nd Int) (it : List Nat) (periodic : Bool) (φ : List Int → Int) :
    Nat → List Int → Int
  | 0 => φ
  | t + 1 => stepF g K it periodic t (evolve g K it periodic φ t)

theorem iterate_rep {g : Geo} {K : Nd Int} {it : List Nat} {φ : List Int → Int} {periodic : Bool}
    (hh : g.Half) (hK : K.shape = g.R) (hg : periodic = true → g.Fits)
    (hl : ∀ t a b c, g.Core a b c → LabelOk it (evolve g K it periodic φ t [a, b, c])) :
    ∀ n t {F : Nd Int}, Rep g F (evolve g K it periodic φ t) →
    ∃ B, forM (List.range' t n) F (iteration g.pad K it periodic) = ok B ∧
      Rep g B (evolve g K it periodic φ (t + n))
  | 0, t, F, h => ⟨F, rfl, h⟩
  | n + 1, t, F, h => by
    obtain ⟨A, eA, hA⟩ := iteration_rep h hh hK hg (hl t)
    obtain ⟨B, eB, hB⟩ := iterate_rep hh hK hg hl n (t + 1) hA
    refine ⟨B, ?_, by rw [show t + (n + 1) = t + 1 + n by omega]; exact hB⟩
    rw [List.range'_succ]
    unfold forM
    rw [eA]
    exact eB

end Verif.Dilate
