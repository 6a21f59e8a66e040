import Verif.Lemmas.Accumulate

/-! # What S2, C2, W2 and heightheight add to an ensemble -/

set_option linter.unusedSectionVars false

namespace Verif.Ens

open Verif Outcome Spec Cluster Nd

variable {K : Type} [Field K] [LinearOrder K] [IsStrictOrderedRing K] {α : Type}

/-- The index of the centre of a region of interest. -/
def ctr (R : List Nat) : List Int := R.map fun r => (((r - 1) / 2 : Nat) : Int)

/-- `A` is `a`, padded for a region of interest of shape `R`. -/
structure Padded (R : List Nat) (a : Nd α) (mode : PadMode) (v : α) (A : Nd α) : Prop where
  loop : pixelLoop A.shape (padWidth R) = (pixels a.shape).map fun x => plus x (ctr R)
  read : ∀ {x}, InBox a.shape x → A.read (plus x (ctr R)) = ok (val a x)
  view : ∀ {x}, InBox a.shape x → ∃ V, A.view (around (padWidth R) (plus x (ctr R))) = ok V ∧
    V.shape = R ∧ ∀ i, InBox R i → val V i = a.extend mode v (move x (displacement R i))
  near : ∀ {x d}, InBox a.shape x → d.length = R.length → InBox R (plus (ctr R) d) →
    A.read (plus (plus x (ctr R)) d) = ok (a.extend mode v (move x d))

theorem padded {a : Nd α} {roi : List Nat} (hr : roi.length ≤ 3) (h0 : 0 ∉ roi)
    (ha : a.shape.length = roi.length) (mode : PadMode) (v : α)
    (hp : mode = .periodic → List.Forall₂ (fun n r => r / 2 ≤ n) a.shape roi) :
    ∃ A, a.atleast3d.pad (padWidth (shape3 roi)) mode v = ok A ∧
      Padded (shape3 roi) a.atleast3d mode v A := by
  have hp' : mode = .periodic → List.Forall₂ (fun n r => r / 2 ≤ n) (shape3 a.shape) (shape3 roi) := by
    intro hm
    have := hp hm
    revert this ha
    generalize a.shape = s
    intro ha
    cases same3 hr ha <;> simp [shape3]
  have hpos := shape3_pos hr h0
  obtain ⟨r0, r1, r2, er⟩ := shape3_cases hr
  obtain ⟨n0, n1, n2, en⟩ := shape3_cases (s := a.shape) (by omega)
  rw [er, en] at hp'
  rw [er] at hpos ⊢
  have h0 : 0 < r0 := hpos r0 (by simp)
  have h1 : 0 < r1 := hpos r1 (by simp)
  have h2 : 0 < r2 := hpos r2 (by simp)
  have ha' : a.atleast3d.shape = [n0, n1, n2] := en
  obtain ⟨A, e, hA, hx⟩ := pad_ok ha' h0 h1 h2 mode v (fun hm => by simpa using hp' hm)
  refine ⟨A, e, ?_, ?_, ?_, ?_⟩
  · rw [hA, ha']
    exact pixelLoop_eq h0 h1 h2
  · intro x hb
    rw [ha'] at hb
    exact pad_read ha' hA hx hb
  · intro x hb
    rw [ha'] at hb
    exact pad_view h0 h1 h2 hA hx hb
  · intro x d hb hlen hd
    rw [ha'] at hb
    obtain ⟨i, j, k, rfl, hi, hj, hk⟩ := inbox3.1 hb
    obtain ⟨a0, a1, a2, e', hi', hj', hk'⟩ := inbox3.1 hd
    obtain ⟨d0, d1, d2, rfl⟩ := List.length_eq_three.1 hlen
    simp only [plus, ctr, List.map_cons, List.map_nil, List.zipWith_cons_cons, List.zipWith_nil_left,
      List.cons.injEq, and_true] at e' ⊢
    obtain ⟨q0, q1, q2⟩ := e'
    have hb' : InBox A.shape [i + (((r0 - 1) / 2 : Nat) : Int) + d0,
        j + (((r1 - 1) / 2 : Nat) : Int) + d1, k + (((r2 - 1) / 2 : Nat) : Int) + d2] := by
      rw [hA]
      refine inbox3.2 ⟨_, _, _, rfl, ?_, ?_, ?_⟩ <;> omega
    rw [read_ok hb', ← at_eq_val hb', hx _ hb']
    congr 2
    simp only [minus, move, List.zipWith_cons_cons, List.zipWith_nil_left, List.cons.injEq, and_true]
    omega

theorem get_eq_val {a : Nd α} {R : List Nat} (h : a.shape = R) {k : Nat} (hk : k < R.prod) :
    a.get k = val a (unravel R k) := by
  rw [val, h, (unravel_inbox hk).2]

/-- `1 - mask` around a pixel. -/
theorem unmasked_ok {R : List Nat} {gm Gm : Nd Int} {mv : Int} (h : Padded R gm .constant mv Gm)
    {x : List Int} (hx : InBox gm.shape x) :
    ∃ V : Nd K, unmasked Gm (padWidth R) (plus x (ctr R)) = ok V ∧ V.shape = R ∧
      ∀ k < R.prod, V.get k =
        1 - ((gm.extend .constant mv (move x (displacement R (unravel R k))) : Int) : K) := by
  obtain ⟨V, e, hs, hv⟩ := h.view hx
  refine ⟨V.map fun m => 1 - ((m : Int) : K), by simp [unmasked, e], hs, fun k hk => ?_⟩
  rw [← hv _ (unravel_inbox hk).1, ← get_eq_val hs hk]
  rfl

theorem view_ok {R : List Nat} {g G : Nd K} {mode : PadMode} {v : K} (h : Padded R g mode v G)
    {x : List Int} (hx : InBox g.shape x) :
    ∃ V : Nd K, G.view (around (padWidth R) (plus x (ctr R))) = ok V ∧ V.shape = R ∧
      ∀ k < R.prod, V.get k = g.extend mode v (move x (displacement R (unravel R k))) := by
  obtain ⟨V, e, hs, hv⟩ := h.view hx
  refine ⟨V, e, hs, fun k hk => ?_⟩
  rw [← hv _ (unravel_inbox hk).1, ← get_eq_val hs hk]

theorem map₂_ok {β γ : Type} {a : Nd α} {b : Nd β} {R : List Nat} (ha : a.shape = R) (hb : b.shape = R)
    (φ : α → β → γ) : Nd.map₂ φ a b = ok ⟨R, fun k => φ (a.get k) (b.get k)⟩ := by
  simp [Nd.map₂, ha, hb]

section bodies

variable {R : List Nat} {f g F G : Nd K} {fm gm Fm Gm : Nd Int} {mode : PadMode} {mv mv' : Int}
  {E : Ensemble K} {x : List Int}

theorem bodyS2_adds (hE1 : E.first.shape = R) (hE3 : E.norm.shape = R)
    (hF : Padded R f mode 0 F) (hG : Padded R g mode 0 G) (hFm : Padded R fm .constant mv' Fm)
    (hGm : Padded R gm .constant mv Gm) (hg : g.shape = f.shape) (hfm : fm.shape = f.shape)
    (hgm : gm.shape = f.shape) (hx : InBox f.shape x) :
    Adds R.prod E (bodyS2 (padWidth R) F G Fm Gm) (plus x (ctr R))
      (let d := fun k => displacement R (unravel R k)
       let w := fun k => 1 - ((gm.extend .constant mv (move x (d k)) : Int) : K)
       (fun k => if val fm x = 0 then val f x * g.extend mode 0 (move x (d k)) * w k else 0, 0,
        fun k => if val fm x = 0 then w k else 0)) := by
  have e1 := hFm.read (x := x) (by rw [hfm]; exact hx)
  by_cases hm : val fm x = 0
  · obtain ⟨V, eV, sV, gV⟩ := view_ok hG (x := x) (by rw [hg]; exact hx)
    obtain ⟨W, eW, sW, gW⟩ := unmasked_ok (K := K) hGm (x := x) (by rw [hgm]; exact hx)
    have e2 := hF.read hx
    by_cases hf : val f x = 0
    · refine ⟨(0, 0, W.get), fun δ0 => ?_, fun k hk => ?_⟩
      · simp only [bodyS2, e1, ok_bind, hm, ne_eq, not_true_eq_false, if_false, eV, eW, e2, hf, pure_eq,
          addNorm_plus (sW.trans hE3.symm)]
      · simp [hm, hf, gW k hk]
    · refine ⟨(fun k => val f x * V.get k * W.get k, 0, W.get), fun δ0 => ?_, fun k hk => ?_⟩
      · simp only [bodyS2, e1, ok_bind, hm, ne_eq, not_true_eq_false, if_false, eV, eW, e2, hf,
          not_false_eq_true, if_true, map₂_ok sV sW, addFirst_plus (show Nd.shape ⟨R, _⟩ = _ from hE1.symm),
          addNorm_plus (sW.trans hE3.symm), add_assoc]
        congr 3
        simp
      · simp [hm, gW k hk, gV k hk]
  · refine ⟨0, fun δ0 => ?_, fun k hk => ?_⟩
    · simp only [bodyS2, e1, ok_bind, hm, ne_eq, not_false_eq_true, if_true, pure_eq, add_zero]
    · simp [hm]

theorem bodyC2_adds (hE1 : E.first.shape = R) (hE3 : E.norm.shape = R)
    (hF : Padded R f mode 0 F) (hG : Padded R g mode 0 G) (hFm : Padded R fm .constant mv' Fm)
    (hGm : Padded R gm .constant mv Gm) (hg : g.shape = f.shape) (hfm : fm.shape = f.shape)
    (hgm : gm.shape = f.shape) (hx : InBox f.shape x) :
    Adds R.prod E (bodyC2 (padWidth R) F G Fm Gm) (plus x (ctr R))
      (let d := fun k => displacement R (unravel R k)
       let w := fun k => 1 - ((gm.extend .constant mv (move x (d k)) : Int) : K)
       (fun k => if val fm x = 0 ∧ val f x ≠ 0 ∧ val f x = g.extend mode 0 (move x (d k)) then w k else 0, 0,
        fun k => if val fm x = 0 then w k else 0)) := by
  have e1 := hFm.read (x := x) (by rw [hfm]; exact hx)
  by_cases hm : val fm x = 0
  · obtain ⟨V, eV, sV, gV⟩ := view_ok hG (x := x) (by rw [hg]; exact hx)
    obtain ⟨W, eW, sW, gW⟩ := unmasked_ok (K := K) hGm (x := x) (by rw [hgm]; exact hx)
    have e2 := hF.read hx
    by_cases hf : val f x = 0
    · refine ⟨(0, 0, W.get), fun δ0 => ?_, fun k hk => ?_⟩
      · simp only [bodyC2, e1, ok_bind, hm, ne_eq, not_true_eq_false, if_false, eV, eW, e2, hf, pure_eq,
          addNorm_plus (sW.trans hE3.symm)]
      · simp [hm, hf, gW k hk]
    · refine ⟨(fun k => if val f x = V.get k then W.get k else 0, 0, W.get), fun δ0 => ?_, fun k hk => ?_⟩
      · simp only [bodyC2, e1, ok_bind, hm, ne_eq, not_true_eq_false, if_false, eV, eW, e2, hf,
          not_false_eq_true, if_true, map₂_ok sV sW, addFirst_plus (show Nd.shape ⟨R, _⟩ = _ from hE1.symm),
          addNorm_plus (sW.trans hE3.symm), add_assoc]
        congr 3
        simp
      · simp [hm, hf, gW k hk, gV k hk]
  · refine ⟨0, fun δ0 => ?_, fun k hk => ?_⟩
    · simp only [bodyC2, e1, ok_bind, hm, ne_eq, not_false_eq_true, if_true, pure_eq, add_zero]
    · simp [hm]

theorem bodyW2_adds (hE1 : E.first.shape = R) (hE3 : E.norm.shape = R)
    (hF : Padded R f mode 0 F) (hG : Padded R g mode 0 G)
    (hGm : Padded R gm .constant mv Gm) (hg : g.shape = f.shape)
    (hgm : gm.shape = f.shape) (hx : InBox f.shape x) :
    Adds R.prod E (bodyW2 (padWidth R) F G Gm) (plus x (ctr R))
      (let d := fun k => displacement R (unravel R k)
       let w := fun k => 1 - ((gm.extend .constant mv (move x (d k)) : Int) : K)
       (fun k => val f x * g.extend mode 0 (move x (d k)) * w k, 0, fun k => val f x * w k)) := by
  obtain ⟨V, eV, sV, gV⟩ := view_ok hG (x := x) (by rw [hg]; exact hx)
  obtain ⟨W, eW, sW, gW⟩ := unmasked_ok (K := K) hGm (x := x) (by rw [hgm]; exact hx)
  have e2 := hF.read hx
  by_cases hf : val f x = 0
  · refine ⟨(0, 0, fun k => val f x * W.get k), fun δ0 => ?_, fun k hk => ?_⟩
    · simp only [bodyW2, ok_bind, ne_eq, not_true_eq_false, if_false, eV, eW, e2, hf, pure_eq,
        addNorm_plus (show Nd.shape (Nd.map _ W) = _ from sW.trans hE3.symm)]
      rfl
    · simp [hf]
  · refine ⟨(fun k => val f x * V.get k * W.get k, 0, fun k => val f x * W.get k), fun δ0 => ?_, fun k hk => ?_⟩
    · simp only [bodyW2, ok_bind, ne_eq, eV, eW, e2, hf,
        not_false_eq_true, if_true, map₂_ok sV sW, addFirst_plus (show Nd.shape ⟨R, _⟩ = _ from hE1.symm),
        addNorm_plus (show Nd.shape (Nd.map _ W) = _ from sW.trans hE3.symm), add_assoc]
      congr 3
      simp
      rfl
    · simp [gW k hk, gV k hk]

theorem bodyHH_adds (hE1 : E.first.shape = R) (hE2 : E.second.shape = R) (hE3 : E.norm.shape = R)
    (hF : Padded R f mode 0 F) (hFm : Padded R fm .constant mv Fm) (hfm : fm.shape = f.shape)
    (hx : InBox f.shape x) :
    Adds R.prod E (bodyHH (padWidth R) F Fm) (plus x (ctr R))
      (let d := fun k => displacement R (unravel R k)
       let w := fun k => 1 - ((fm.extend .constant mv (move x (d k)) : Int) : K)
       (fun k => if val fm x = 0 then (f.extend mode 0 (move x (d k)) - val f x) ^ 2 * w k else 0,
        fun k => if val fm x = 0 ∧ E.variance = true then
          (f.extend mode 0 (move x (d k)) - val f x) ^ 4 * w k else 0,
        fun k => if val fm x = 0 then w k else 0)) := by
  have e1 := hFm.read (x := x) (by rw [hfm]; exact hx)
  by_cases hm : val fm x = 0
  · obtain ⟨V, eV, sV, gV⟩ := view_ok hF (x := x) hx
    obtain ⟨W, eW, sW, gW⟩ := unmasked_ok (K := K) hFm (x := x) (by rw [hfm]; exact hx)
    have e2 := hF.read hx
    have hv : ∀ δ : Delta K, (E.plus δ).variance = E.variance := fun δ => rfl
    by_cases hf : E.variance = true
    · refine ⟨(fun k => (V.get k - val f x) ^ 2 * W.get k, fun k => (V.get k - val f x) ^ 4 * W.get k,
        W.get), fun δ0 => ?_, fun k hk => ?_⟩
      · simp only [bodyHH, e1, ok_bind, hm, ne_eq, not_true_eq_false, if_false, eV, eW, e2, hf, hv,
          if_true, map₂_ok sV sW, addFirst_plus (show Nd.shape ⟨R, _⟩ = _ from hE1.symm),
          addSecond_plus (show Nd.shape ⟨R, _⟩ = _ from hE2.symm),
          addNorm_plus (sW.trans hE3.symm), add_assoc]
        congr 3
        simp
      · simp [hm, hf, gW k hk, gV k hk]
    · refine ⟨(fun k => (V.get k - val f x) ^ 2 * W.get k, 0, W.get), fun δ0 => ?_, fun k hk => ?_⟩
      · simp only [bodyHH, e1, ok_bind, hm, ne_eq, not_true_eq_false, if_false, eV, eW, e2, hf, hv,
          Bool.false_eq_true, map₂_ok sV sW, addFirst_plus (show Nd.shape ⟨R, _⟩ = _ from hE1.symm),
          addNorm_plus (sW.trans hE3.symm), add_assoc, pure_eq]
        congr 3
        simp
      · simp [hm, hf, gW k hk, gV k hk]
  · refine ⟨0, fun δ0 => ?_, fun k hk => ?_⟩
    · simp only [bodyHH, e1, ok_bind, hm, ne_eq, not_false_eq_true, if_true, pure_eq, add_zero]
    · simp [hm]

end bodies

end Verif.Ens
