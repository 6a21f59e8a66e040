import Verif.Spec.DilatePeriodic
import Verif.Props.Dilate

/-!
# What dilate computes with periodicity (C59)
-/

namespace Verif.Props

open Verif Outcome Spec Cluster Nd Ens Dilate

variable {f kernel : Nd Int} {iterations : List Nat}

/-- `φ`, on positions in three dimensions, is `ψ`. -/
private def Same (n : Nat) (φ ψ : List Int → Int) : Prop := ∀ z : List Int, z.length = n → φ (raise z) = ψ z

private theorem down0_idle {g : Geo} {n : Nat} (hn : n ≤ 3) (hq : g.q0 = 0) {φ ψ : List Int → Int} (h : Same n φ ψ) :
    Same n (down0 g φ) ψ := by
  intro z hz
  have := h z hz
  rcases length_cases (show z.length ≤ 3 by omega) with rfl | ⟨a, rfl⟩ | ⟨a, b, rfl⟩ | ⟨a, b, c, rfl⟩ <;>
  · simp only [raise] at this
    simp only [raise, down0]
    rw [if_neg (by omega), this]

private theorem down1_idle {g : Geo} {n : Nat} (hn : n ≤ 3) (hq : g.q1 = 0) {φ ψ : List Int → Int} (h : Same n φ ψ) :
    Same n (down1 g φ) ψ := by
  intro z hz
  have := h z hz
  rcases length_cases (show z.length ≤ 3 by omega) with rfl | ⟨a, rfl⟩ | ⟨a, b, rfl⟩ | ⟨a, b, c, rfl⟩ <;>
  · simp only [raise] at this
    simp only [raise, down1]
    rw [if_neg (by omega), this]

private theorem down2_idle {g : Geo} {n : Nat} (hn : n ≤ 3) (hq : g.q2 = 0) {φ ψ : List Int → Int} (h : Same n φ ψ) :
    Same n (down2 g φ) ψ := by
  intro z hz
  have := h z hz
  rcases length_cases (show z.length ≤ 3 by omega) with rfl | ⟨a, rfl⟩ | ⟨a, b, rfl⟩ | ⟨a, b, c, rfl⟩ <;>
  · simp only [raise] at this
    simp only [raise, down2]
    rw [if_neg (by omega), this]

private theorem up0_idle {g : Geo} {n : Nat} (hn : n ≤ 3) (hq : g.p0 = 0) {φ ψ : List Int → Int} (h : Same n φ ψ) :
    Same n (up0 g φ) ψ := by
  intro z hz
  have := h z hz
  rcases length_cases (show z.length ≤ 3 by omega) with rfl | ⟨a, rfl⟩ | ⟨a, b, rfl⟩ | ⟨a, b, c, rfl⟩ <;>
  · simp only [raise] at this
    simp only [raise, up0]
    rw [if_neg (by omega), this]

private theorem up1_idle {g : Geo} {n : Nat} (hn : n ≤ 3) (hq : g.p1 = 0) {φ ψ : List Int → Int} (h : Same n φ ψ) :
    Same n (up1 g φ) ψ := by
  intro z hz
  have := h z hz
  rcases length_cases (show z.length ≤ 3 by omega) with rfl | ⟨a, rfl⟩ | ⟨a, b, rfl⟩ | ⟨a, b, c, rfl⟩ <;>
  · simp only [raise] at this
    simp only [raise, up1]
    rw [if_neg (by omega), this]

private theorem up2_idle {g : Geo} {n : Nat} (hn : n ≤ 3) (hq : g.p2 = 0) {φ ψ : List Int → Int} (h : Same n φ ψ) :
    Same n (up2 g φ) ψ := by
  intro z hz
  have := h z hz
  rcases length_cases (show z.length ≤ 3 by omega) with rfl | ⟨a, rfl⟩ | ⟨a, b, rfl⟩ | ⟨a, b, c, rfl⟩ <;>
  · simp only [raise] at this
    simp only [raise, up2]
    rw [if_neg (by omega), this]

private theorem down1_rank1 {g : Geo} {φ ψ : List Int → Int} (h : Same 1 φ ψ) :
    Same 1 (down1 g φ) (fromAbove g.n1 g.q1 0 ψ) := by
  intro z hz
  match z, hz with
  | [a], _ =>
    have h1 := h [a] rfl
    have h2 := h [a + g.n1] rfl
    have e : along [a] 0 (g.n1 : Int) = [a + g.n1] := by
      simp [along, ← sub_eq_add_neg]
    simp only [raise] at h1 h2
    unfold fromAbove
    rw [e]
    simp only [raise, down1, h1, h2, List.getD_cons_zero, List.getD_cons_succ, and_assoc]

private theorem up1_rank1 {g : Geo} {φ ψ : List Int → Int} (h : Same 1 φ ψ) :
    Same 1 (up1 g φ) (fromBelow g.n1 g.p1 0 ψ) := by
  intro z hz
  match z, hz with
  | [a], _ =>
    have h1 := h [a] rfl
    have h2 := h [a - g.n1] rfl
    have e : along [a] 0 (-(g.n1 : Int)) = [a - g.n1] := by
      simp [along, ← sub_eq_add_neg]
    simp only [raise] at h1 h2
    unfold fromBelow
    rw [e]
    simp only [raise, up1, h1, h2, List.getD_cons_zero, List.getD_cons_succ, and_assoc]

private theorem down0_rank2 {g : Geo} {φ ψ : List Int → Int} (h : Same 2 φ ψ) :
    Same 2 (down0 g φ) (fromAbove g.n0 g.q0 0 ψ) := by
  intro z hz
  match z, hz with
  | [a, b], _ =>
    have h1 := h [a, b] rfl
    have h2 := h [a + g.n0, b] rfl
    have e : along [a, b] 0 (g.n0 : Int) = [a + g.n0, b] := by
      simp [along, ← sub_eq_add_neg]
    simp only [raise] at h1 h2
    unfold fromAbove
    rw [e]
    simp only [raise, down0, h1, h2, List.getD_cons_zero, List.getD_cons_succ, and_assoc]

private theorem up0_rank2 {g : Geo} {φ ψ : List Int → Int} (h : Same 2 φ ψ) :
    Same 2 (up0 g φ) (fromBelow g.n0 g.p0 0 ψ) := by
  intro z hz
  match z, hz with
  | [a, b], _ =>
    have h1 := h [a, b] rfl
    have h2 := h [a - g.n0, b] rfl
    have e : along [a, b] 0 (-(g.n0 : Int)) = [a - g.n0, b] := by
      simp [along, ← sub_eq_add_neg]
    simp only [raise] at h1 h2
    unfold fromBelow
    rw [e]
    simp only [raise, up0, h1, h2, List.getD_cons_zero, List.getD_cons_succ, and_assoc]

private theorem down1_rank2 {g : Geo} {φ ψ : List Int → Int} (h : Same 2 φ ψ) :
    Same 2 (down1 g φ) (fromAbove g.n1 g.q1 1 ψ) := by
  intro z hz
  match z, hz with
  | [a, b], _ =>
    have h1 := h [a, b] rfl
    have h2 := h [a, b + g.n1] rfl
    have e : along [a, b] 1 (g.n1 : Int) = [a, b + g.n1] := by
      simp [along, ← sub_eq_add_neg]
    simp only [raise] at h1 h2
    unfold fromAbove
    rw [e]
    simp only [raise, down1, h1, h2, List.getD_cons_zero, List.getD_cons_succ, and_assoc]

private theorem up1_rank2 {g : Geo} {φ ψ : List Int → Int} (h : Same 2 φ ψ) :
    Same 2 (up1 g φ) (fromBelow g.n1 g.p1 1 ψ) := by
  intro z hz
  match z, hz with
  | [a, b], _ =>
    have h1 := h [a, b] rfl
    have h2 := h [a, b - g.n1] rfl
    have e : along [a, b] 1 (-(g.n1 : Int)) = [a, b - g.n1] := by
      simp [along, ← sub_eq_add_neg]
    simp only [raise] at h1 h2
    unfold fromBelow
    rw [e]
    simp only [raise, up1, h1, h2, List.getD_cons_zero, List.getD_cons_succ, and_assoc]

private theorem down0_rank3 {g : Geo} {φ ψ : List Int → Int} (h : Same 3 φ ψ) :
    Same 3 (down0 g φ) (fromAbove g.n0 g.q0 0 ψ) := by
  intro z hz
  match z, hz with
  | [a, b, c], _ =>
    have h1 := h [a, b, c] rfl
    have h2 := h [a + g.n0, b, c] rfl
    have e : along [a, b, c] 0 (g.n0 : Int) = [a + g.n0, b, c] := by
      simp [along, ← sub_eq_add_neg]
    simp only [raise] at h1 h2
    unfold fromAbove
    rw [e]
    simp only [raise, down0, h1, h2, List.getD_cons_zero, List.getD_cons_succ, and_assoc]

private theorem up0_rank3 {g : Geo} {φ ψ : List Int → Int} (h : Same 3 φ ψ) :
    Same 3 (up0 g φ) (fromBelow g.n0 g.p0 0 ψ) := by
  intro z hz
  match z, hz with
  | [a, b, c], _ =>
    have h1 := h [a, b, c] rfl
    have h2 := h [a - g.n0, b, c] rfl
    have e : along [a, b, c] 0 (-(g.n0 : Int)) = [a - g.n0, b, c] := by
      simp [along, ← sub_eq_add_neg]
    simp only [raise] at h1 h2
    unfold fromBelow
    rw [e]
    simp only [raise, up0, h1, h2, List.getD_cons_zero, List.getD_cons_succ, and_assoc]

private theorem down1_rank3 {g : Geo} {φ ψ : List Int → Int} (h : Same 3 φ ψ) :
    Same 3 (down1 g φ) (fromAbove g.n1 g.q1 1 ψ) := by
  intro z hz
  match z, hz with
  | [a, b, c], _ =>
    have h1 := h [a, b, c] rfl
    have h2 := h [a, b + g.n1, c] rfl
    have e : along [a, b, c] 1 (g.n1 : Int) = [a, b + g.n1, c] := by
      simp [along, ← sub_eq_add_neg]
    simp only [raise] at h1 h2
    unfold fromAbove
    rw [e]
    simp only [raise, down1, h1, h2, List.getD_cons_zero, List.getD_cons_succ, and_assoc]

private theorem up1_rank3 {g : Geo} {φ ψ : List Int → Int} (h : Same 3 φ ψ) :
    Same 3 (up1 g φ) (fromBelow g.n1 g.p1 1 ψ) := by
  intro z hz
  match z, hz with
  | [a, b, c], _ =>
    have h1 := h [a, b, c] rfl
    have h2 := h [a, b - g.n1, c] rfl
    have e : along [a, b, c] 1 (-(g.n1 : Int)) = [a, b - g.n1, c] := by
      simp [along, ← sub_eq_add_neg]
    simp only [raise] at h1 h2
    unfold fromBelow
    rw [e]
    simp only [raise, up1, h1, h2, List.getD_cons_zero, List.getD_cons_succ, and_assoc]

private theorem down2_rank3 {g : Geo} {φ ψ : List Int → Int} (h : Same 3 φ ψ) :
    Same 3 (down2 g φ) (fromAbove g.n2 g.q2 2 ψ) := by
  intro z hz
  match z, hz with
  | [a, b, c], _ =>
    have h1 := h [a, b, c] rfl
    have h2 := h [a, b, c + g.n2] rfl
    have e : along [a, b, c] 2 (g.n2 : Int) = [a, b, c + g.n2] := by
      simp [along, ← sub_eq_add_neg]
    simp only [raise] at h1 h2
    unfold fromAbove
    rw [e]
    simp only [raise, down2, h1, h2, List.getD_cons_zero, List.getD_cons_succ, and_assoc]

private theorem up2_rank3 {g : Geo} {φ ψ : List Int → Int} (h : Same 3 φ ψ) :
    Same 3 (up2 g φ) (fromBelow g.n2 g.p2 2 ψ) := by
  intro z hz
  match z, hz with
  | [a, b, c], _ =>
    have h1 := h [a, b, c] rfl
    have h2 := h [a, b, c - g.n2] rfl
    have e : along [a, b, c] 2 (-(g.n2 : Int)) = [a, b, c - g.n2] := by
      simp [along, ← sub_eq_add_neg]
    simp only [raise] at h1 h2
    unfold fromBelow
    rw [e]
    simp only [raise, up2, h1, h2, List.getD_cons_zero, List.getD_cons_succ, and_assoc]

private theorem exchange_eq {g : Geo} {shape k : List Nat} (h3 : shape.length ≤ 3) (hk : k.length = shape.length)
    (hN : g.N = shape3 shape) (hR : g.R = shape3 k) (hh : g.Half) {φ ψ : List Int → Int}
    (h : Same shape.length φ ψ) : Same shape.length (copies g φ) (exchange shape k ψ) := by
  unfold copies
  match shape, k, h3, hk with
  | [], [], _, _ =>
    simp only [Geo.N, Geo.R, shape3, List.cons.injEq, and_true] at hN hR
    obtain ⟨hR0, hR1, hR2⟩ := hR
    exact up2_idle (g := g) (by simp) (by omega) (up1_idle (g := g) (by simp) (by omega) (up0_idle (g := g) (by simp) (by omega)
      (down2_idle (g := g) (by simp) (by omega) (down1_idle (g := g) (by simp) (by omega) (down0_idle (g := g) (by simp) (by omega) h)))))
  | [a], [ka], _, _ =>
    simp only [Geo.N, Geo.R, Geo.Half, shape3, List.cons.injEq, and_true] at hN hR hh
    obtain ⟨hR0, hR1, hR2⟩ := hR
    have := up2_idle (g := g) (by simp) (by omega) (up1_rank1 (g := g) (up0_idle (g := g) (by simp) (by omega)
      (down2_idle (g := g) (by simp) (by omega) (down1_rank1 (g := g) (down0_idle (g := g) (by simp) (by omega) h)))))
    have e1 : g.q1 = ka / 2 := by omega
    have e2 : g.p1 = (ka - 1) / 2 := by omega
    rw [e1, e2, hN.2.1] at this
    exact this
  | [a, b], [ka, kb], _, _ =>
    simp only [Geo.N, Geo.R, Geo.Half, shape3, List.cons.injEq, and_true] at hN hR hh
    obtain ⟨hR0, hR1, hR2⟩ := hR
    have := up2_idle (g := g) (by simp) (by omega) (up1_rank2 (g := g) (up0_rank2 (g := g)
      (down2_idle (g := g) (by simp) (by omega) (down1_rank2 (g := g) (down0_rank2 (g := g) h)))))
    have e1 : g.q0 = ka / 2 := by omega
    have e2 : g.p0 = (ka - 1) / 2 := by omega
    have e3 : g.q1 = kb / 2 := by omega
    have e4 : g.p1 = (kb - 1) / 2 := by omega
    rw [e1, e2, e3, e4, hN.1, hN.2.1] at this
    exact this
  | [a, b, c], [ka, kb, kc], _, _ =>
    simp only [Geo.N, Geo.R, Geo.Half, shape3, List.cons.injEq, and_true] at hN hR hh
    obtain ⟨hR0, hR1, hR2⟩ := hR
    have := up2_rank3 (g := g) (up1_rank3 (g := g) (up0_rank3 (g := g) (down2_rank3 (g := g) (down1_rank3 (g := g) (down0_rank3 (g := g) h)))))
    have e1 : g.q0 = ka / 2 := by omega
    have e2 : g.p0 = (ka - 1) / 2 := by omega
    have e3 : g.q1 = kb / 2 := by omega
    have e4 : g.p1 = (kb - 1) / 2 := by omega
    have e5 : g.q2 = kc / 2 := by omega
    have e6 : g.p2 = (kc - 1) / 2 := by omega
    rw [e1, e2, e3, e4, e5, e6, hN.1, hN.2.1, hN.2.2] at this
    exact this

private theorem spread_eq (hf3 : f.shape.length ≤ 3) (hk : kernel.shape.length = f.shape.length) {g : Geo}
    (hN : g.N = shape3 f.shape) {φ ψ : List Int → Int} (h : Same f.shape.length φ ψ) (t : Nat) :
    Same f.shape.length (growing kernel.atleast3d iterations t φ (pixels g.N) φ)
      (spread f.shape kernel (fun l => decide (t < iterationsOf iterations l)) ψ) := by
  classical
  intro z hz
  rw [hN, pixels_raise hf3]
  unfold spread
  by_cases hv : ψ z = 0
  · rw [if_neg (by simpa using hv)]
    have e0 := h z hz
    rw [hv] at e0
    unfold growing
    rw [e0, List.foldl_map, ← foldl_last]
    refine List.foldl_ext _ _ _ fun v x hx => ?_
    have hxl := inbox_length (mem_pixels.1 hx)
    have hiff : Hit kernel.atleast3d iterations t φ (raise x) (raise z) ↔
        ψ x ≠ 0 ∧ decide (t < iterationsOf iterations (ψ x)) = true ∧ Covers kernel x z := by
      unfold Hit
      rw [h x hxl, e0, offset_covers, covers_raise (by omega) (by omega) (by omega)]
      simp
    rw [h x hxl]
    exact if_congr hiff rfl rfl
  · rw [if_pos hv, growing_old (by rw [h z hz]; exact hv), h z hz]

private theorem layersPeriodic_eq (h : DilateArgs true f kernel iterations) {g : Geo} (hN : g.N = shape3 f.shape)
    (hR : g.R = shape3 kernel.shape) (hh : g.Half) : ∀ t, Same f.shape.length
      (evolve g kernel.atleast3d iterations true (f.atleast3d.extend (padMode true) 0) t)
      (layersPeriodic f.shape kernel (iterationsOf iterations) (val f) t)
  | 0 => fun z hz => by
    have hf3 : f.shape.length ≤ 3 := by rw [h.legal.same]; exact h.legal.rank
    exact extend_atleast3d (mode := .periodic) hf3 hz h.image
  | t + 1 => by
    have hf3 : f.shape.length ≤ 3 := by rw [h.legal.same]; exact h.legal.rank
    have ih := layersPeriodic_eq h hN hR hh t
    exact exchange_eq hf3 h.legal.same.symm hN hR hh (spread_eq hf3 h.legal.same.symm hN ih t)

/-- **C59**, with periodicity: the result is determined layer by layer on the image and its margins. In each layer a position
without a label takes the label of the last pixel of the image, in row-major order, that has a label that still grows and
whose kernel covers it; then labels are copied from the margins to the image. -/
theorem C59_periodic (dbg : Bool) (h : DilateArgs true f kernel iterations) {T : Nat} (hT : T ∈ iterations)
    (hmax : ∀ n ∈ iterations, n ≤ T) :
    ∃ r, dilate dbg f kernel iterations true = ok r ∧ r.shape = f.shape ∧
      ∀ x ∈ pixels f.shape,
        val r x = layersPeriodic f.shape kernel (iterationsOf iterations) (val f) T x := by
  obtain ⟨g, hN, hR, hh, -, -, r, hr, hs, hv⟩ := dilate_refines dbg h
  refine ⟨r, hr, hs, fun x hx => ?_⟩
  have hc : count iterations = T := by
    refine le_antisymm (foldl_max_nat.2 ⟨Nat.zero_le _, hmax⟩) ?_
    have := (foldl_max_nat (l := iterations) (a := 0) (b := count iterations)).1 le_rfl
    exact this.2 T hT
  rw [hv x hx, layersPeriodic_eq h hN hR hh _ x (inbox_length (mem_pixels.1 hx)), hc]

/-- Two labels that are exchanged across the edge (C91). -/
example : DilateArgs true (mk [0, 1, 0, 0, 2, 0]) (mk [1, 1, 1]) [0, 2, 2] ∧
    (pixels [6]).map (layersPeriodic [6] (mk [1, 1, 1]) (iterationsOf [0, 2, 2]) (val (mk [0, 1, 0, 0, 2, 0])) 2) =
      [2, 1, 1, 2, 2, 1] :=
  ⟨⟨⟨by decide, by decide, rfl, fun _ => by decide⟩, by decide, by unfold IsMask; decide, Or.inl (by decide)⟩, by decide +kernel⟩

end Verif.Props
