import Verif.Lemmas.RoundingWalk
import Verif.Props.Rounding
import Verif.Props.CollapsedStored

/-!
# W2c of real images in `double` (C88)

As the other statistics in `Verif.Props.Rounding`. Here the bound is sharper: the error at a displacement only grows
with the number of values that are averaged there.
-/

set_option linter.unusedSectionVars false

namespace Verif.Props

open Verif Outcome Spec Ens

variable {f : Nd ℚ} {roi : List Nat} {periodic : Bool} {fmask clusters centers : Nd Int}

theorem samplesWhere_abs (paths : List (List (List Int))) (here : List Int → Prop) [DecidablePred here] :
    samplesWhere periodic (f.map abs) fmask clusters centers paths here =
      (samplesWhere periodic f fmask clusters centers paths here).map abs := by
  unfold samplesWhere
  rw [List.map_flatMap]
  refine congrArg (paths.flatMap ·) (funext fun p => ?_)
  rw [List.map_flatMap]
  refine congrArg (List.flatMap · _) (funext fun x => ?_)
  rw [List.map_map]
  refine congrArg (List.map · _) (funext fun ab => ?_)
  show (if target periodic f.shape x ab.2 ∈ pixels f.shape then |val f (target periodic f.shape x ab.2)| else 0) =
    |if target periodic f.shape x ab.2 ∈ pixels f.shape then val f (target periodic f.shape x ab.2) else 0|
  split
  · rfl
  · rw [abs_zero]

theorem tally_make (dbg : Bool) (L : Legal periodic f.shape roi) :
    ∃ E0 : Ensemble (Fl rnd64), make (Fl rnd64) dbg roi periodic true = ok E0 ∧
      Tally (1 / 2 ^ 53) 0 E0 (fresh ℚ roi periodic true .unset) (fresh ℚ roi periodic true .unset) := by
  have h := make_three (rnd := rnd64) (R := fun _ _ _ => True) (Q := Count (0 : ℕ)) dbg roi periodic true trivial
    ⟨same_zero (by norm_num), rfl⟩
  have h' := make_three (rnd := rnd64) (R := Near (1 / 2 ^ 53) 0) (Q := Count (0 : ℕ)) dbg roi periodic true (near_zero 0)
    ⟨same_zero (by norm_num), rfl⟩
  rw [make_ok (K := ℚ) dbg L.rank L.pos] at h h'
  cases e : make (Fl rnd64) dbg roi periodic true with
  | ok E =>
    rw [e] at h h'
    exact ⟨E, rfl, h, rfl, fun k => ⟨0, by simp [fresh, Nd.fill], h'.first.2.2 k⟩⟩
  | throws => rw [e] at h; exact h.elim
  | ub => rw [e] at h; exact h.elim
  | diverge => rw [e] at h; exact h.elim

theorem result_plus (δ : Delta ℚ) :
    result id ({ fresh ℚ roi periodic true .unset with stat := .W2c }.plus δ) =
      ok ⟨roi, fun k => δ.1 k / norm1 (δ.2.2 k)⟩ := by
  simp [result, Ensemble.plus, fresh, Nd.fill, Nd.map₂, Nd.reshape]

/-- W2c of any image in `double`: the error at a displacement is at most the number of values that are averaged there
(and one), times `2 ^ -52`, times the average of the absolute values. As in exact arithmetic, memory is accessed out of
bounds if something has no place in the result. -/
theorem C88_W2c (L : Legal periodic f.shape roi) (hfm : fmask.shape = f.shape) (hcl : clusters.shape = f.shape)
    (hce : centers.shape = f.shape) (bf : IsMask fmask) {junk : ℚ} {fuel : Nat} {mode : Path.Mode}
    (hm : Enough fuel roi mode) {paths : List (List (List Int))} (hp : ArePaths junk fuel mode roi paths)
    (hbig : (edge roi).length * (f.shape.prod * (max 1 roi.sum + 1)) < 2 ^ 52) (pow05 : Fl rnd64 → Fl rnd64)
    (dbg : Bool) :
    (Spec.Within periodic fmask clusters centers roi paths →
      ∃ r, Api.W2cMask pow05 dbg junk fuel roi clusters centers (double f) fmask mode periodic = ok r ∧ r.shape = roi ∧
        ∀ i, InBox roi i →
          let l := samplesWhere periodic f fmask clusters centers paths fun d => slot roi d = flat roi i
          |(val r i).val - averageOf l| ≤ (l.length + 1 : ℕ) / 2 ^ 52 * averageOf (l.map abs)) ∧
    (¬ Spec.Within periodic fmask clusters centers roi paths →
      Api.W2cMask pow05 dbg junk fuel roi clusters centers (double f) fmask mode periodic = ub) := by
  obtain ⟨P, hP⟩ := choose_paths junk L.rank hm
  rw [paths_unique L.rank hP] at hp
  subst hp
  obtain ⟨E0, e0, h0⟩ := tally_make (f := f) (periodic := periodic) dbg L
  have hgood : Good roi periodic true (fresh ℚ roi periodic true .unset) := good_fresh
  obtain ⟨hlen, hrows⟩ := stamp_rows L.rank L.pos hm hgood (junk := junk)
  have h1 := W2c_three u_nonneg rnd64_rel rnd64_exact dbg (clusters := clusters) (centers := centers) (fmask := fmask)
    h0 (exact_image f) hrows (by rw [hlen]; omega)
  rw [hlen] at h1
  obtain ⟨k1, k2⟩ := W2c_if (K := ℚ) (f := f) (variance := true) L.rank L.pos L.same hfm hcl hce bf L.fits hP
  obtain ⟨m1, m2⟩ := W2c_if (K := ℚ) (f := f.map abs) (variance := true) L.rank L.pos L.same hfm hcl hce bf L.fits hP
  constructor
  · intro hw
    obtain ⟨δ, d1, d2⟩ := k1 hw
    obtain ⟨δ', d1', d2'⟩ := m1 hw
    have g1 := d1 dbg _ hgood (Or.inr rfl)
    have g2 := d1' dbg _ hgood (Or.inr rfl)
    dsimp only at g1 g2
    rw [g1, g2] at h1
    cases e1 : W2c dbg junk fuel E0 clusters centers (double f) fmask mode with
    | ok E1 =>
      rw [e1] at h1
      have h2 := result_tally u_nonneg rnd64_rel h1 (by simp [Ensemble.plus]) pow05
      rw [result_plus, result_plus] at h2
      cases e2 : result pow05 E1 with
      | ok r =>
        rw [e2] at h2
        obtain ⟨s1, -, s2⟩ := h2
        refine ⟨r, ?_, s1, fun i hi => ?_⟩
        · unfold Api.W2cMask
          rw [e0, ok_bind, e1, ok_bind, e2]
        · obtain ⟨m, n1, n2⟩ := s2 (flat roi i).toNat
          have c1 := d2 i hi
          have c2 := d2' i hi
          simp only [move_ctr (inbox_length hi), samplesWhere_abs] at c1 c2
          rw [Delta.at] at c1 c2
          obtain ⟨a1, a2⟩ := Prod.mk.inj c1
          obtain ⟨-, a3⟩ := Prod.mk.inj a2
          obtain ⟨b1, b2⟩ := Prod.mk.inj c2
          obtain ⟨-, b3⟩ := Prod.mk.inj b2
          have n3 : m = (samplesWhere periodic f fmask clusters centers ((edge roi).map P)
              fun d => slot roi d = flat roi i).length := by
            have : (m : ℚ) = δ.2.2 (flat roi i).toNat := by
              rw [← n1]
              simp [Ensemble.plus, fresh, Nd.fill]
            rw [a3] at this
            exact_mod_cast this
          obtain ⟨⟨d, -, q2, q3⟩, -⟩ := h1.ens.norm.2.2 (flat roi i).toNat
          have hd : m ≤ 0 + (edge roi).length * (f.shape.prod * (max 1 roi.sum + 1)) := by
            rw [n1] at q2
            have : d = (m : ℤ) := by exact_mod_cast q2.symm
            rw [this, abs_of_nonneg (by omega)] at q3
            exact_mod_cast q3
          have h3 := near64 (by omega) n2
          dsimp only at h3
          rw [a1, a3, b1, b3, List.length_map, averageOf_eq] at h3
          rw [← n3] at h3
          dsimp only
          rw [← n3]
          have e5 := averageOf_eq ((samplesWhere periodic f fmask clusters centers ((edge roi).map P)
              fun d => slot roi d = flat roi i).map abs)
          rw [List.length_map, ← n3] at e5
          rw [e5] at h3
          have e6 : val r i = r.get (flat roi i).toNat := by unfold val; rw [s1]
          rw [e6]
          exact h3
      | throws => rw [e2] at h2; exact h2.elim
      | ub => rw [e2] at h2; exact h2.elim
      | diverge => rw [e2] at h2; exact h2.elim
    | throws => rw [e1] at h1; exact h1.elim
    | ub => rw [e1] at h1; exact h1.elim
    | diverge => rw [e1] at h1; exact h1.elim
  · intro hw
    rw [k2 hw dbg _ hgood (Or.inr rfl), m2 hw dbg _ hgood (Or.inr rfl)] at h1
    cases e1 : W2c dbg junk fuel E0 clusters centers (double f) fmask mode with
    | ok E1 => rw [e1] at h1; exact h1.elim
    | throws => rw [e1] at h1; exact h1.elim
    | ub =>
      unfold Api.W2cMask
      rw [e0, ok_bind, e1]
      rfl
    | diverge => rw [e1] at h1; exact h1.elim

/-- The hypotheses are met by an image of a third, zero and a tenth, with a cluster of one pixel (and those of the
second part by a region of interest of 1 x 1 x 5 pixels: see `C48_outside`). -/
example (dbg : Bool) : ∃ r, Api.W2cMask id dbg (0 : ℚ) 0 [1, 1, 3] (Nd.ofList [1, 1, 3] [0, 1, 0])
      (Nd.ofList [1, 1, 3] [0, 1, 0]) (double (Nd.ofList [1, 1, 3] [1 / 3, 0, 1 / 10])) (Nd.ofList [1, 1, 3] [0, 0, 0])
      .bresenham false = ok r ∧
    |(val r [0, 0, 0]).val - 13 / 60| ≤ 3 / 2 ^ 52 * (13 / 60) := by
  have L : Legal false (Nd.ofList [1, 1, 3] [(1 / 3 : ℚ), 0, 1 / 10]).shape [1, 1, 3] :=
    ⟨by decide, by decide, rfl, fun h => by cases h⟩
  obtain ⟨r, h1, -, h3⟩ := (C88_W2c (f := Nd.ofList [1, 1, 3] [(1 / 3 : ℚ), 0, 1 / 10])
    (fmask := Nd.ofList [1, 1, 3] [0, 0, 0]) (clusters := Nd.ofList [1, 1, 3] [0, 1, 0])
    (centers := Nd.ofList [1, 1, 3] [0, 1, 0]) L rfl rfl rfl (by unfold IsMask; decide) (fun h => absurd rfl h) paths113
    (by decide +kernel) id dbg).1 (by unfold Spec.Within; decide +kernel)
  refine ⟨r, h1, ?_⟩
  have h := h3 [0, 0, 0] (by simp [InBox])
  dsimp only at h
  have e : samplesWhere false (Nd.ofList [1, 1, 3] [(1 / 3 : ℚ), 0, 1 / 10]) (Nd.ofList [1, 1, 3] [0, 0, 0])
      (Nd.ofList [1, 1, 3] [0, 1, 0]) (Nd.ofList [1, 1, 3] [0, 1, 0])
      [[[0, 0, 0], [0, 0, -1]], [[0, 0, 0], [0, 0, 1]]] (fun d => slot [1, 1, 3] d = flat [1, 1, 3] [0, 0, 0]) =
      [1 / 3, 1 / 10] := by decide +kernel
  rw [e] at h
  norm_num [averageOf] at h ⊢
  exact h

end Verif.Props
