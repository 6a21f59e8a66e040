import Verif.Lemmas.Rounding
import Verif.Lemmas.FloatWalk

/-!
# Error bounds of W2c

Every value is added on its own, so that the number of roundings of a sum is the number of values in it, which is the
norm.
-/

namespace Verif.Props

open Verif Outcome Ens

variable {rnd : ℚ → ℚ} {u : ℚ}

/-- The norms are exact counts, at most `n`; each sum has had as many roundings as its norm counts. -/
structure Tally (u : ℚ) (n : ℕ) (E : Ensemble (Fl rnd)) (E' E'' : Ensemble ℚ) : Prop where
  ens : Ens3 (fun _ _ _ => True) (Count n) E E' E''
  shape : E'.norm.shape = E'.first.shape
  cells : ∀ k, ∃ c : ℕ, E'.norm.get k = c ∧ Near u c (E.first.get k) (E'.first.get k) (E''.first.get k)

theorem Tally.mono {n m : ℕ} {E : Ensemble (Fl rnd)} {E' E'' : Ensemble ℚ} (h : Tally u n E E' E'') (hn : n ≤ m) :
    Tally u m E E' E'' :=
  ⟨h.ens.mono (fun _ _ _ _ => trivial) fun _ _ _ h => h.mono (by exact_mod_cast hn), h.shape, h.cells⟩

theorem addAt_three {R : Fl rnd → ℚ → ℚ → Prop} {a : Nd (Fl rnd)} {b c : Nd ℚ} (h : Nd3 R a b c) (i : List Int)
    (x : Fl rnd) (y z : ℚ) :
    Three (fun a' b' c' => a' = ⟨b.shape, fun k => if k = (ravelIndex i b.shape).toNat then a.get k + x else a.get k⟩ ∧
      b' = ⟨b.shape, fun k => if k = (ravelIndex i b.shape).toNat then b.get k + y else b.get k⟩ ∧
      c' = ⟨b.shape, fun k => if k = (ravelIndex i b.shape).toNat then c.get k + z else c.get k⟩)
      (a.addAt i x) (b.addAt i y) (c.addAt i z) := by
  unfold Nd.addAt Nd.valid Nd.size
  rw [h.1, h.2.1]
  exact three_ite Iff.rfl Iff.rfl (fun _ => ⟨rfl, rfl, rfl⟩) (fun _ => trivial)

variable {pad : List (Nat × Nat)} {F : Nd (Fl rnd)} {F' F'' : Nd ℚ}

theorem bit_one : Bit (1 : Fl rnd) 1 1 := ⟨rfl, rfl, Or.inr rfl⟩

theorem three_forM_mem {σ α β γ : Type} {P : ℕ → α → β → γ → Prop} {top w : ℕ} {body : α → σ → Outcome α}
    {body' : β → σ → Outcome β} {body'' : γ → σ → Outcome γ} :
    ∀ (l : List σ), (∀ x ∈ l, ∀ n a b c, P n a b c → n + w ≤ top →
      Three (P (n + w)) (body a x) (body' b x) (body'' c x)) →
    ∀ {n : ℕ} {a : α} {b : β} {c : γ}, P n a b c → n + l.length * w ≤ top →
      Three (P (n + l.length * w)) (forM l a body) (forM l b body') (forM l c body'')
  | [], _, n, a, b, c, h, _ => by simpa [forM, Three] using h
  | x :: l, hb, n, a, b, c, h, hn => by
    have e : (x :: l).length * w = w + l.length * w := by rw [List.length_cons]; ring
    rw [e, ← Nat.add_assoc] at hn ⊢
    exact Three.bind (hb x (by simp) n a b c h (by omega)) fun _ _ _ h' =>
      three_forM_mem l (fun y hy => hb y (List.mem_cons_of_mem _ hy)) h' hn

theorem walkW2c_three (hu : 0 ≤ u) (hR : RelError rnd u) (hr : ExactInts rnd) (hF : Nd3 Exact F F' F'')
    {Fm Cl : Nd Int} {label : Int} {x : List Int} {path : List (List Int)} :
    ∀ (rows : List (List Int)) (q : Int) {n : ℕ} {E : Ensemble (Fl rnd)} {E' E'' : Ensemble ℚ},
      Tally u n E E' E'' → n + rows.length ≤ 2 ^ 53 →
      Three (Tally u (n + rows.length)) (walkW2c pad F Fm Cl label x path rows q E)
        (walkW2c pad F' Fm Cl label x path rows q E') (walkW2c pad F'' Fm Cl label x path rows q E'')
  | [], q, n, E, E', E'', h, _ => by simpa [walkW2c, Three] using h
  | d :: rows, q, n, E, E', E'', h, hc => by
    have e : n + (d :: rows).length = n + 1 + rows.length := by
      rw [List.length_cons]; omega
    rw [e] at hc ⊢
    rw [walkW2c, walkW2c, walkW2c]
    refine Three.bind (three_refl _) fun k k' k'' hk => ?_
    obtain ⟨rfl, rfl, -⟩ := hk
    dsimp only
    generalize (if k'' ≠ label ∧ q < 0 then 0 else q) = q
    refine three_branch (P := Tally u (n + 1)) Iff.rfl Iff.rfl (fun _ => ?_) (fun _ => Three.pure (h.mono (by omega)))
      fun a b c hab => walkW2c_three hu hR hr hF rows _ hab hc
    refine Three.bind (three_refl _) fun k k' k'' hk => ?_
    obtain ⟨rfl, rfl, -⟩ := hk
    refine three_ite Iff.rfl Iff.rfl (fun _ => ?_) (fun _ => Three.pure (h.mono (by omega)))
    generalize path[q.toNat]? = o
    cases o with
    | none => trivial
    | some dq =>
      refine Three.bind (addAt_three h.ens.norm _ _ _ _) fun N N' N'' hN => ?_
      refine Three.bind (hF.read _) fun v v' v'' hv => ?_
      refine Three.bind (addAt_three h.ens.first _ _ _ _) fun a b c hab => ?_
      obtain ⟨rfl, rfl, rfl⟩ := hN
      obtain ⟨rfl, rfl, rfl⟩ := hab
      refine ⟨{ h.ens with
        first := ⟨rfl, rfl, fun _ => trivial⟩
        norm := ⟨rfl, rfl, fun k => ?_⟩ }, h.shape, fun k => ?_⟩
      · dsimp only
        split
        · exact (h.ens.norm.2.2 k).add hr (by omega) bit_one
        · exact (h.ens.norm.2.2 k).mono (by omega)
      · dsimp only
        rw [h.shape]
        obtain ⟨m, h1, h2⟩ := h.cells k
        split
        · exact ⟨m + 1, by rw [h1]; push_cast; rfl, h2.add hu hR (hv.near hu 0) (by omega)⟩
        · exact ⟨m, h1, h2⟩

theorem stampW2c_three (hu : 0 ≤ u) (hR : RelError rnd u) (hr : ExactInts rnd) (hF : Nd3 Exact F F' F'')
    {Fm Cl Ce : Nd Int} {pathTo : List Int → Outcome (List (List Int))} {s : List Int} {len size n : ℕ}
    (hp : ∀ rows, pathTo s = ok rows → rows.length ≤ len) (hs : (pixelLoop F'.shape pad).length = size)
    {E : Ensemble (Fl rnd)} {E' E'' : Ensemble ℚ} (h : Tally u n E E' E'') (hc : n + size * len ≤ 2 ^ 53) :
    Three (Tally u (n + size * len)) (stampW2c pathTo pad F Fm Cl Ce E s) (stampW2c pathTo pad F' Fm Cl Ce E' s)
      (stampW2c pathTo pad F'' Fm Cl Ce E'' s) := by
  unfold stampW2c
  cases e : pathTo s with
  | ok rows =>
    have hl := hp rows e
    simp only [ok_bind]
    rw [hF.1, hF.2.1]
    rw [← hs] at hc ⊢
    refine three_forM_mem (top := 2 ^ 53) _ (fun x _ n E E' E'' h hc => ?_) h hc
    unfold bodyW2c
    refine Three.bind (three_refl _) fun k k' k'' hk => ?_
    obtain ⟨rfl, rfl, -⟩ := hk
    refine three_ite Iff.rfl Iff.rfl (fun _ => Three.pure (h.mono (by omega))) (fun _ => ?_)
    refine Three.bind (three_refl _) fun k k' k'' hk => ?_
    obtain ⟨rfl, rfl, -⟩ := hk
    refine three_ite Iff.rfl Iff.rfl (fun _ => Three.pure (h.mono (by omega))) (fun _ => ?_)
    exact (walkW2c_three hu hR hr hF rows (-1) h (by omega)).mono fun _ _ _ h => h.mono (by omega)
  | throws => trivial
  | ub => trivial
  | diverge => trivial

variable {f : Nd (Fl rnd)} {f' f'' : Nd ℚ}

theorem W2c_three (hu : 0 ≤ u) (hR : RelError rnd u) (hr : ExactInts rnd) (dbg : Bool) {junk : ℚ} {fuel : Nat}
    {mode : Path.Mode} {len n : ℕ} {clusters centers fmask : Nd Int} {E : Ensemble (Fl rnd)} {E' E'' : Ensemble ℚ}
    (h : Tally u n E E' E'') (hf : Nd3 Exact f f' f'')
    (hp : ∀ s ∈ stamps E'.shape E'.pad, ∀ rows, Path.path junk fuel [0, 0, 0] s mode = ok rows → rows.length ≤ len)
    (hc : n + (stamps E'.shape E'.pad).length * (f'.shape.prod * len) ≤ 2 ^ 53) :
    Three (Tally u (n + (stamps E'.shape E'.pad).length * (f'.shape.prod * len)))
      (W2c dbg junk fuel E clusters centers f fmask mode) (W2c dbg junk fuel E' clusters centers f' fmask mode)
      (W2c dbg junk fuel E'' clusters centers f'' fmask mode) := by
  unfold W2c
  rw [hf.1, hf.2.1, h.ens.shapeOrig.1, h.ens.shapeOrig.2, h.ens.stat.1, h.ens.stat.2]
  iterate 6 refine Three.bind (three_refl _) fun _ _ _ _ => ?_
  dsimp only
  rw [h.ens.pad.1, h.ens.pad.2, h.ens.periodic.1, h.ens.periodic.2, h.ens.shape.1, h.ens.shape.2]
  refine Three.bind (pad_nd3 hf exact_zero _ _) fun F F' F'' hF => ?_
  refine Three.bind (three_refl _) fun k k' k'' hk => ?_
  obtain ⟨rfl, rfl, -⟩ := hk
  refine Three.bind (three_refl _) fun k k' k'' hk => ?_
  obtain ⟨rfl, rfl, -⟩ := hk
  refine Three.bind (three_refl _) fun k k' k'' hk => ?_
  obtain ⟨rfl, rfl, -⟩ := hk
  refine three_forM_mem (P := Tally u) (top := 2 ^ 53) _
    (fun s hs n a b c hab hc => stampW2c_three (pathTo := fun s => Path.path junk fuel [0, 0, 0] s mode) hu hR hr hF.1 (hp s hs) hF.2
      hab hc) ?_ hc
  exact ⟨⟨⟨rfl, rfl⟩, ⟨rfl, rfl⟩, h.ens.variance, ⟨rfl, rfl⟩, ⟨rfl, rfl⟩, ⟨rfl, rfl⟩, h.ens.first, h.ens.second, h.ens.norm⟩,
    h.shape, h.cells⟩

/-- The result: one more rounding, of the quotient. -/
theorem result_tally {n : ℕ} {E : Ensemble (Fl rnd)} {E' E'' : Ensemble ℚ} (hu : 0 ≤ u) (hR : RelError rnd u)
    (h : Tally u n E E' E'') (hst : E'.stat ≠ .heightheight) (pow05 : Fl rnd → Fl rnd) :
    Three (fun a b c => a.shape = b.shape ∧ c.shape = b.shape ∧ ∀ k, ∃ m : ℕ, E'.norm.get k = m ∧
      Near u (m + 1) (a.get k) (b.get k) (c.get k)) (result pow05 E) (result id E') (result id E'') := by
  have e : E.stat ≠ .heightheight := by rw [h.ens.stat.1]; exact hst
  have e'' : E''.stat ≠ .heightheight := by rw [h.ens.stat.2]; exact hst
  unfold result Nd.map₂
  rw [h.ens.first.1, h.ens.first.2.1, h.ens.norm.1, h.ens.norm.2.1, h.shape, if_pos rfl, if_pos rfl, if_pos rfl]
  simp only [ok_bind, if_neg e, if_neg e'', if_neg hst]
  refine ⟨h.ens.shapeOrig.1, h.ens.shapeOrig.2, fun k => ?_⟩
  obtain ⟨m, h1, h2⟩ := h.cells k
  refine ⟨m, h1, ?_⟩
  obtain ⟨⟨d, k1, k2, -⟩, k3⟩ := h.ens.norm.2.2 k
  have hp := norm1_pos (d : ℚ)
  dsimp only [Nd.reshape]
  rw [k3, k2, k1]
  refine near_round (x := (E.first.get k).val / (norm1 (⟨d⟩ : Fl rnd)).val) hu hR ?_ ?_
  · rw [abs_div, abs_of_pos hp]
    exact div_le_div_of_nonneg_right h2.1 hp.le
  · rw [norm1_int, ← sub_div, abs_div, abs_of_pos hp, ← mul_div_assoc]
    exact div_le_div_of_nonneg_right h2.2 hp.le

end Verif.Props
