import Verif.Lemmas.ClusterAny
import Verif.Props.ClusterDirected

/-!
# The labeller for every shape and every kernel (C113; C12 and C13 without their restrictions)

`Sees` (see `Verif.Spec.ClusterAny`) names the pixel that is looked at, for every shape and every offset. The labels
follow from it; and where it is the pixel at the offset is decided exactly.
-/

namespace Verif.Props

open Verif Verif.Cluster Outcome Spec Kernel

variable {periodic : Bool} {shape : List Nat} {offsets : List (List Int)} {calls : List Call}

/-! ### C113 -/

/-- **C113**: no sequence of valid calls fails, whatever the shape and the offsets; the pixels with a label are the
pixels that were added, and no label exceeds their number. -/
theorem C113_labelled (dbg periodic : Bool) (hv : AnyConfig shape offsets) (hc : ∀ c ∈ calls, c.Valid shape.prod) :
    ∃ s rets, run dbg (init periodic shape offsets) calls = ok (s, rets) ∧ s.label.size = shape.prod ∧
      ∀ p < shape.prod, (labelAt s p ≠ 0 ↔ p ∈ added [] calls) ∧ 0 ≤ labelAt s p ∧
        labelAt s p ≤ (added [] calls).length := by
  obtain ⟨s, rets, e, g⟩ := runLink_ok dbg (safeNb_any hv) calls (goodLink_init (periodic := periodic) (safeNb_any hv)) hc
  have hwf := g.rest.mid.wf
  rw [g.size] at hwf
  refine ⟨s, rets, e, hwf.lsz, fun p hp => ⟨by rw [g.label hp]; exact g.inv.labelled p, ?_⟩⟩
  have h1 := hwf.lab p hp
  have h2 := hwf.cnt
  have h3 : nlabelled s shape.prod ≤ (added [] calls).length := by
    unfold nlabelled
    have hsub : (Finset.range shape.prod).filter (fun p => s.label.get p ≠ 0) ⊆
        (added [] calls).toFinset := by
      intro q hq
      rw [Finset.mem_filter, Finset.mem_range] at hq
      rw [List.mem_toFinset, ← g.inv.labelled q, ← g.label hq.1]
      exact hq.2
    exact (Finset.card_le_card hsub).trans (List.toFinset_card_le _)
  unfold labelAt
  omega

/-- **C113**: two pixels have the same label iff they are joined by pixels of which the one that was added later was
compared with the other one. -/
theorem C113_joined {dbg : Bool} {s : State} {rets : List (List Nat)} (hv : AnyConfig shape offsets)
    (hc : ∀ c ∈ calls, c.Valid shape.prod) (h : run dbg (init periodic shape offsets) calls = ok (s, rets))
    {p q : Nat} (hp : p ∈ added [] calls) (hq : q ∈ added [] calls) :
    labelAt s p = labelAt s q ↔
      Joined (LaterSees (Sees periodic shape offsets) (added [] calls)) (· ∈ added [] calls) p q := by
  obtain ⟨s', rets', e, g⟩ := runLink_ok dbg (safeNb_any hv) calls (goodLink_init (safeNb_any hv)) hc
  rw [h] at e
  cases e
  rw [g.label (g.inv.lt p hp), g.label (g.inv.lt q hq), g.inv.eq_iff hp hq]
  exact link_any hv g.inv.lt

/-- **C113**: of two pixels, the one that is added last is compared with the other one. -/
theorem C113_two (dbg periodic : Bool) (hv : AnyConfig shape offsets) {p q : Nat} (hp : p < shape.prod)
    (hq : q < shape.prod) (hpq : p ≠ q) :
    ∃ s, run dbg (init periodic shape offsets) [.addPoints [p, q]] = ok (s, [[]]) ∧
      (labelAt s p = labelAt s q ↔ Sees periodic shape offsets q p) := by
  have hc : ∀ c ∈ [Call.addPoints [p, q]], c.Valid shape.prod := by
    simp [Call.Valid, hp, hq]
  have hadd : added [] [Call.addPoints [p, q]] = [p, q] := by
    simp [added, Call.visits, visitAll, Ne.symm hpq]
  obtain ⟨s, rets, h, -⟩ := C113_labelled dbg periodic hv hc
  have hrets : rets = [[]] := by
    have e' := h
    simp only [run, stepCall] at e'
    cases h1 : addPoints dbg (init periodic shape offsets) (List.map (fun p : Nat => (p : Int)) [p, q]) with
    | ok s1 =>
      rw [h1] at e'
      simp only [Outcome.bind, Outcome.ok.injEq, Prod.mk.injEq] at e'
      exact e'.2.symm
    | throws => rw [h1] at e'; cases e'
    | ub => rw [h1] at e'; cases e'
    | diverge => rw [h1] at e'; cases e'
  subst hrets
  refine ⟨s, h, ?_⟩
  have hj := C113_joined hv hc h (p := p) (q := q) (by rw [hadd]; simp) (by rw [hadd]; simp)
  rw [hj, hadd]
  have ip : List.idxOf p [p, q] = 0 := by simp
  have iq : List.idxOf q [p, q] = 1 := by rw [List.idxOf_cons_ne _ hpq]; simp
  have hls : LaterSees (Sees periodic shape offsets) [p, q] p q ↔ Sees periodic shape offsets q p := by
    unfold LaterSees Before
    rw [ip, iq]
    simp
  rw [← hls]
  refine joined_pair hpq ?_
  intro a ha b hb hab
  simp only [List.mem_cons, List.not_mem_nil, or_false] at ha hb
  rcases ha with rfl | rfl <;> rcases hb with rfl | rfl
  · exact Or.inl rfl
  · exact Or.inr hab
  · exact Or.inr (Or.symm hab)
  · exact Or.inl rfl

/-- **C113**: a labeller built from any kernel of the documented form, for any image of its rank, has a configuration
to which these claims apply. -/
theorem C113_configuration (dbg periodic : Bool) {k : Kern} (h : ValidKernel k.shape k.flat) {shape : List Nat}
    (hr : k.shape.length = shape.length) (hn : 1 ≤ shape.length) (hsmall : shape.prod < 2 ^ 62)
    (hk : ∀ n ∈ k.shape, n < 2 ^ 62) :
    ∃ dx, constructKernel dbg periodic shape k = ok (init periodic shape dx) ∧
      (∀ d, d ∈ dx ↔ IsOffset k.shape k.flat d) ∧ AnyConfig shape dx := by
  obtain ⟨dx, e, -, hm⟩ := C15_offsets dbg h
  refine ⟨dx, by simp [constructKernel, hr, e, Outcome.bind], hm, hn, fun d hd => ?_, hsmall, fun d hd => ?_⟩
  · rw [offset_length ((hm d).1 hd), hr]
  · obtain ⟨x, hx, -, -, rfl⟩ := (hm d).1 hd
    clear hm hd h e hr
    generalize k.shape = ks at hk hx
    induction hx with
    | nil => simp
    | @cons n i ks x h1 _ ih =>
      intro j hj
      simp only [centre, List.map_cons, List.zipWith_cons_cons, List.mem_cons] at hj
      rcases hj with rfl | hj
      · have : n < 2 ^ 62 := hk n (by simp)
        have h2 : ((n / 2 : Nat) : Int) = (n : Int) / 2 := by push_cast; rfl
        norm_num at this ⊢
        omega
      · exact ih (fun n hn => hk n (by simp [hn])) j hj

/-! ### C12: images that are not periodic -/

/-- **C12**, what the code does: on an image that is not periodic the labels are those for the offsets along the line,
if the image is one row or one column. -/
theorem C12_line (dbg : Bool) (hv : AnyConfig shape offsets) (hc : ∀ c ∈ calls, c.Valid shape.prod) :
    ∃ s s' rets rets', run dbg (init false shape offsets) calls = ok (s, rets) ∧
      run dbg (init false shape (offsets.map (alongLine shape))) calls = ok (s', rets') ∧
      ∀ p < shape.prod, labelAt s p = labelAt s' p := by
  have hv' : AnyConfig shape (offsets.map (alongLine shape)) := by
    refine ⟨hv.rank, ?_, hv.small, ?_⟩
    · intro d hd
      obtain ⟨d', h, rfl⟩ := List.mem_map.1 hd
      rw [alongLine_length, hv.len d' h]
    · intro d hd
      obtain ⟨d', h, rfl⟩ := List.mem_map.1 hd
      have hr := hv.range d' h
      unfold alongLine
      split
      · intro i hi
        simp only [List.mem_cons, List.not_mem_nil, or_false] at hi
        rcases hi with rfl | rfl
        · norm_num
        · exact hr _ (by simp)
      · intro i hi
        simp only [List.mem_cons, List.not_mem_nil, or_false] at hi
        rcases hi with rfl | rfl
        · exact hr _ (by simp)
        · norm_num
      · exact hr
  obtain ⟨s, rets, e, g⟩ := runLink_ok dbg (safeNb_any hv) calls (goodLink_init (periodic := false) (safeNb_any hv)) hc
  obtain ⟨s', rets', e', g'⟩ :=
    runLink_ok dbg (safeNb_any hv') calls (goodLink_init (periodic := false) (safeNb_any hv')) hc
  refine ⟨s, s', rets, rets', e, e', fun p hp => ?_⟩
  rw [g.label hp, g'.label hp, ← nbs_alongLine]

theorem alongLine_neg (shape : List Nat) (d : List Int) :
    alongLine shape (d.map fun i => -i) = (alongLine shape d).map fun i => -i := by
  unfold alongLine
  split
  · rename_i h
    match d, h with
    | [_, _], h => simp at h; simp [h]
  · rename_i n d0 d1 h hm
    match d, hm with
    | [_, _], hm =>
      have hn : n ≠ 1 := by rintro rfl; simp at h
      simp at hm
      split
      · simp_all
      · simp_all
      · simp_all
  · rename_i h1 h2
    split
    · simp at h1
    · rename_i n d0 d1 h
      simp at h2
    · rfl

/-- **C12**, what the code does, for kernels that are point-symmetric: two pixels of an image that is not periodic have
the same label iff they are joined by steps at the exact offset, of which, on one row or one column, only the component
along it counts. -/
theorem C12_code {dbg : Bool} {s : State} {rets : List (List Nat)} (hv : AnyConfig shape offsets)
    (hs : ∀ d ∈ offsets, d.map (fun i => -i) ∈ offsets)
    (hc : ∀ c ∈ calls, c.Valid shape.prod) (h : run dbg (init false shape offsets) calls = ok (s, rets))
    {p q : Nat} (hp : p ∈ added [] calls) (hq : q ∈ added [] calls) :
    labelAt s p = labelAt s q ↔
      Joined (Adj false shape (offsets.map (alongLine shape))) (· ∈ added [] calls) p q := by
  have hv' : ValidConfig false shape (offsets.map (alongLine shape)) := by
    refine ⟨hv.rank, ?_, ?_, hv.small, by simp, ?_⟩
    · intro d hd
      obtain ⟨d', h, rfl⟩ := List.mem_map.1 hd
      rw [alongLine_length, hv.len d' h]
    · intro d hd
      obtain ⟨d', h, rfl⟩ := List.mem_map.1 hd
      rw [← alongLine_neg]
      exact List.mem_map_of_mem (hs d' h)
    · intro _ n hn d0 d1 hd
      obtain ⟨d', h, e⟩ := List.mem_map.1 hd
      have hl2 : d'.length = 2 := by rw [hv.len d' h]; rcases hn with rfl | rfl <;> rfl
      obtain ⟨e0, e1, rfl⟩ := List.length_eq_two.1 hl2
      rcases alongLine_thin hn e0 e1 with e' | e' <;> rw [e'] at e <;> simp at e <;> omega
  obtain ⟨s1, s2, r1, r2, e1, e2, hl⟩ := C12_line dbg hv hc
  rw [h] at e1
  cases e1
  obtain ⟨s', rets', e', g⟩ := runLink_ok dbg (safeNb_any hv) calls (goodLink_init (periodic := false) (safeNb_any hv)) hc
  rw [hl p (g.inv.lt p hp), hl q (g.inv.lt q hq)]
  exact C02_connected hv' hc e2 hp hq

/-! ### two pixels -/

/-- The pixel that is added last is compared with the pixels at its offsets. -/
theorem looks_pair (dbg periodic : Bool) (hv : AnyConfig shape offsets) {x y : List Int} (hx : InBox shape x)
    (hy : InBox shape y) (hne : x ≠ y) :
    ∃ s, run dbg (init periodic shape offsets)
        [.addPoints [(flat shape y).toNat, (flat shape x).toNat]] = ok (s, [[]]) ∧
      (labelAt s (flat shape y).toNat = labelAt s (flat shape x).toNat ↔
        ∃ d ∈ offsets, Looks periodic shape x d y) := by
  have rx := flat_range hx
  have ry := flat_range hy
  obtain ⟨s, e, h⟩ := C113_two dbg periodic hv (p := (flat shape y).toNat) (q := (flat shape x).toNat)
    (by omega) (by omega) (fun e => hne (flat_inj hx hy (by omega)))
  refine ⟨s, e, h.trans ?_⟩
  constructor
  · rintro ⟨x', y', d, hd, hx', hy', hs, ex, ey⟩
    have : x' = x := flat_inj hx' hx (by omega)
    subst this
    have : y' = y := flat_inj hy' hy (by omega)
    subst this
    exact ⟨d, hd, hs⟩
  · rintro ⟨d, hd, hs⟩
    exact ⟨x, y, d, hd, hx, hy, hs, by omega, by omega⟩

theorem shifted_false_iff : ∀ {shape : List Nat} {x d y : List Int}, d.length = shape.length → InBox shape x →
    InBox shape y → (Shifted false shape x d y ↔ y = List.zipWith (· + ·) x d)
  | [], _, d, _, hd, .nil, .nil => by
    match d, hd with
    | [], _ => simp [Shifted]
  | n :: s, _, d, _, hd, .cons h1 h2, .cons h3 h4 => by
    match d, hd with
    | a :: d, hd => simp [Shifted, shifted_false_iff (d := d) (by simpa using hd) h2 h4]

theorem shifted_true_iff : ∀ {shape : List Nat} {x d y : List Int}, d.length = shape.length → InBox shape x →
    InBox shape y → (Shifted true shape x d y ↔
      y = List.zipWith (fun (n : Nat) (i : Int) => i % n) shape (List.zipWith (· + ·) x d))
  | [], _, d, _, hd, .nil, .nil => by
    match d, hd with
    | [], _ => simp [Shifted]
  | n :: s, i :: x, d, j :: y, hd, .cons h1 h2, .cons h3 h4 => by
    match d, hd with
    | a :: d, hd =>
      simp only [Shifted, if_true, List.zipWith_cons_cons, List.cons.injEq,
        shifted_true_iff (d := d) (by simpa using hd) h2 h4]
      have : (n : Int) ∣ i + a - j ↔ j = (i + a) % n := by
        rw [Int.dvd_iff_emod_eq_zero, ← Int.emod_eq_emod_iff_emod_sub_eq_zero, Int.emod_eq_of_lt h3.1 h3.2]
        exact eq_comm
      rw [this]

/-! ### C12: exactly when -/

/-- On one row or one column: an offset that leaves the line, whose component along the line leads to another pixel of
the line. -/
def Crosses (shape : List Nat) (d : List Int) : Prop :=
  ∃ (n : Nat) (d0 d1 : Int), d = [d0, d1] ∧ d0 ≠ 0 ∧ d1 ≠ 0 ∧
    ((shape = [1, n] ∧ d1.natAbs < n) ∨ (shape = [n, 1] ∧ d0.natAbs < n))

/-- **C12**, decided: not periodic, a pixel `x` that is added after `y` gets the label of `y` exactly if `y` is at
the offset, for all pixels `x`, `y`; iff the offset does not cross a row or a column. -/
theorem C12_iff (dbg : Bool) {d : List Int} (hv : AnyConfig shape [d]) :
    (∀ x y, InBox shape x → InBox shape y → x ≠ y →
      ∃ s, run dbg (init false shape [d]) [.addPoints [(flat shape y).toNat, (flat shape x).toNat]] = ok (s, [[]]) ∧
        (labelAt s (flat shape y).toNat = labelAt s (flat shape x).toNat ↔ y = List.zipWith (· + ·) x d)) ↔
    ¬ Crosses shape d := by
  have hlen := hv.len d (by simp)
  have hbox2 : ∀ {n0 n1 : Nat} {a b : Int}, (0 ≤ a ∧ a < n0) → (0 ≤ b ∧ b < n1) → InBox [n0, n1] [a, b] :=
    fun h1 h2 => .cons h1 (.cons h2 .nil)
  constructor
  · rintro h ⟨n, d0, d1, rfl, h0, h1, ⟨rfl, hn⟩ | ⟨rfl, hn⟩⟩
    · have hx : InBox [1, n] [0, max 0 (-d1)] := hbox2 (by omega) (by omega)
      have hy : InBox [1, n] [0, max 0 d1] := hbox2 (by omega) (by omega)
      have hne : [0, max 0 (-d1)] ≠ [0, max 0 d1] := by simp; omega
      obtain ⟨s, e, hs⟩ := h _ _ hx hy hne
      obtain ⟨s', e', hs'⟩ := looks_pair dbg false hv hx hy hne
      rw [e] at e'
      cases e'
      have : ∃ d ∈ [[d0, d1]], Looks false [1, n] [0, max 0 (-d1)] d [0, max 0 d1] := by
        refine ⟨[d0, d1], by simp, ?_⟩
        simp [Looks, alongLine, Shifted]
        omega
      have := hs.1 (hs'.2 this)
      simp at this
      omega
    · have hx : InBox [n, 1] [max 0 (-d0), 0] := hbox2 (by omega) (by omega)
      have hy : InBox [n, 1] [max 0 d0, 0] := hbox2 (by omega) (by omega)
      have hne : [max 0 (-d0), 0] ≠ [max 0 d0, 0] := by simp; omega
      obtain ⟨s, e, hs⟩ := h _ _ hx hy hne
      obtain ⟨s', e', hs'⟩ := looks_pair dbg false hv hx hy hne
      rw [e] at e'
      cases e'
      have hn1 : n ≠ 1 := by omega
      have hal : alongLine [n, 1] [d0, d1] = [d0, 0] := by
        unfold alongLine; split <;> simp_all
      have : ∃ d ∈ [[d0, d1]], Looks false [n, 1] [max 0 (-d0), 0] d [max 0 d0, 0] := by
        refine ⟨[d0, d1], by simp, ?_⟩
        simp [Looks, hal, Shifted]
        omega
      have := hs.1 (hs'.2 this)
      simp at this
      omega
  · intro hno x y hx hy hne
    obtain ⟨s, e, hs⟩ := looks_pair dbg false hv hx hy hne
    refine ⟨s, e, hs.trans ?_⟩
    simp only [List.mem_singleton, exists_eq_left]
    show Looks false shape x d y ↔ _
    unfold Looks
    rw [if_pos rfl, shifted_false_iff (by rw [alongLine_length, hlen]) hx hy]
    match shape, d, x, y, hx, hy, hlen with
    | [], d, _, _, _, _, _ => rfl
    | [_], d, _, _, _, _, _ => simp [alongLine]
    | _ :: _ :: _ :: _, d, _, _, _, _, _ => simp [alongLine]
    | [n0, n1], [d0, d1], [i0, i1], [j0, j1], .cons h1 (.cons h2 .nil), .cons h3 (.cons h4 .nil), _ =>
      by_cases e0 : n0 = 1
      · subst e0
        have hi : i0 = 0 := by omega
        have hj : j0 = 0 := by omega
        subst hi hj
        simp only [alongLine, List.zipWith_cons_cons, List.zipWith_nil_left, List.cons.injEq, and_true]
        have hne' : i1 ≠ j1 := by simpa using hne
        by_cases h0 : d0 = 0
        · subst h0; rfl
        · have : ¬ (j1 = i1 + d1) := fun hc => hno ⟨n1, d0, d1, rfl, h0, by omega, Or.inl ⟨rfl, by omega⟩⟩
          constructor
          · rintro ⟨-, h⟩; exact absurd h this
          · rintro ⟨-, h⟩; exact absurd h this
      · by_cases e1 : n1 = 1
        · subst e1
          have hi : i1 = 0 := by omega
          have hj : j1 = 0 := by omega
          subst hi hj
          have hal : alongLine [n0, 1] [d0, d1] = [d0, 0] := by
            unfold alongLine; split <;> simp_all
          simp only [hal, List.zipWith_cons_cons, List.zipWith_nil_left, List.cons.injEq, and_true]
          have hne' : i0 ≠ j0 := by simpa using hne
          by_cases h1 : d1 = 0
          · subst h1; rfl
          · have : ¬ (j0 = i0 + d0) := fun hc => hno ⟨n0, d0, d1, rfl, by omega, h1, Or.inr ⟨rfl, by omega⟩⟩
            constructor
            · rintro ⟨h, -⟩; exact absurd h this
            · rintro ⟨h, -⟩; exact absurd h this
        · have hal : alongLine [n0, n1] [d0, d1] = [d0, d1] := by
            unfold alongLine; split <;> simp_all
          rw [hal]

/-! ### C13: periodic images -/

theorem wrapped_eq_iff {n : Nat} (hn : 0 < n) (d : Int) :
    (∀ i : Int, 0 ≤ i → i < n → wrapped n (i + d) = (i + d) % n) ↔ (-(n : Int) ≤ d ∨ (n : Int) ∣ 2 ^ 64) := by
  constructor
  · intro h
    by_contra hno
    rw [not_or] at hno
    have h0 := h 0 (by omega) (by omega)
    unfold wrapped at h0
    rw [if_pos (by omega), zero_add] at h0
    refine hno.2 ?_
    have h1 := Int.emod_eq_emod_iff_emod_sub_eq_zero.1 h0
    rw [show d + 2 ^ 64 - d = (2 : Int) ^ 64 by ring] at h1
    exact Int.dvd_of_emod_eq_zero h1
  · intro h i hi _
    unfold wrapped
    split
    · rcases h with h | ⟨k, hk⟩
      · omega
      · rw [hk, Int.add_mul_emod_self_left]
    · rfl

/-- The offset is followed correctly along every axis: it is not more negative than the axis is long, or the length of
the axis is a power of two. -/
def Reaches (shape : List Nat) (d : List Int) : Prop :=
  List.Forall₂ (fun (n : Nat) (i : Int) => -(n : Int) ≤ i ∨ (n : Int) ∣ 2 ^ 64) shape d

theorem zeros_inbox : ∀ {shape : List Nat}, (∀ n ∈ shape, 0 < n) → InBox shape (shape.map fun _ => 0)
  | [], _ => .nil
  | n :: _, h => .cons ⟨le_refl _, by have := h n (by simp); simpa using this⟩ (zeros_inbox fun m hm => h m (by simp [hm]))

theorem inbox_pos : ∀ {shape : List Nat} {x : List Int}, InBox shape x → ∀ n ∈ shape, 0 < n
  | [], _, _, _, h => by simp at h
  | m :: _, _, .cons h1 h2, n, h => by
    rcases List.mem_cons.1 h with rfl | h
    · omega
    · exact inbox_pos h2 n h

theorem reaches_iff : ∀ {shape : List Nat} {d : List Int}, d.length = shape.length → (∀ n ∈ shape, 0 < n) →
    ((∀ x, InBox shape x → List.zipWith wrapped shape (List.zipWith (· + ·) x d) =
      List.zipWith (fun (n : Nat) (i : Int) => i % n) shape (List.zipWith (· + ·) x d)) ↔ Reaches shape d)
  | [], d, hd, _ => by
    match d, hd with
    | [], _ => exact ⟨fun _ => .nil, fun _ x _ => rfl⟩
  | n :: shape, d, hd, hn => by
    match d, hd with
    | a :: d, hd =>
      have hn0 : 0 < n := hn n (by simp)
      have ih := reaches_iff (d := d) (by simpa using hd) (fun m hm => hn m (by simp [hm]))
      have hzero := zeros_inbox (shape := shape) fun m hm => hn m (by simp [hm])
      constructor
      · intro h
        refine .cons ((wrapped_eq_iff hn0 a).1 fun i h0 h1 => ?_) (ih.1 fun x hx => ?_)
        · have := h (i :: _) (.cons ⟨h0, h1⟩ hzero)
          simp only [List.zipWith_cons_cons, List.cons.injEq] at this
          exact this.1
        · have := h (0 :: x) (.cons ⟨le_refl _, by omega⟩ hx)
          simp only [List.zipWith_cons_cons, List.cons.injEq] at this
          exact this.2
      · rintro (_ | ⟨h1, h2⟩) _ (_ | ⟨hi, hx⟩)
        simp only [List.zipWith_cons_cons]
        rw [(wrapped_eq_iff hn0 a).2 h1 _ hi.1 hi.2, ih.2 h2 _ hx]

/-- **C13**, for all offsets that reach: periodic, a pixel `x` that is added after `y` gets the label of `y` exactly
if `y` is at one of the offsets modulo the shape. In three dimensions there is no condition; in one and two dimensions
an offset must not be more negative than the axis is long, unless the length of the axis is a power of two. -/
theorem C13_reaches (dbg : Bool) (hv : AnyConfig shape offsets)
    (hr : shape.length ≤ 2 → ∀ d ∈ offsets, Reaches shape d) {x y : List Int} (hx : InBox shape x)
    (hy : InBox shape y) (hne : x ≠ y) :
    ∃ s, run dbg (init true shape offsets) [.addPoints [(flat shape y).toNat, (flat shape x).toNat]] = ok (s, [[]]) ∧
      (labelAt s (flat shape y).toNat = labelAt s (flat shape x).toNat ↔
        ∃ d ∈ offsets, y = List.zipWith (fun (n : Nat) (i : Int) => i % n) shape (List.zipWith (· + ·) x d)) := by
  obtain ⟨s, e, hs⟩ := looks_pair dbg true hv hx hy hne
  refine ⟨s, e, hs.trans (exists_congr fun d => and_congr_right fun hd => ?_)⟩
  unfold Looks
  rw [if_neg (by simp)]
  split
  · rename_i h2
    rw [(reaches_iff (hv.len d hd) (inbox_pos hx)).2 (hr h2 d hd) x hx]
  · exact shifted_true_iff (hv.len d hd) hx hy

theorem zipWith_inbox {f : Nat → Int → Int} (hf : ∀ n, 0 < n → ∀ a, 0 ≤ f n a ∧ f n a < n) :
    ∀ {shape : List Nat} {a : List Int}, (∀ n ∈ shape, 0 < n) → a.length = shape.length →
      InBox shape (List.zipWith f shape a)
  | [], [], _, _ => .nil
  | n :: shape, a :: as, hn, hl =>
    .cons (hf n (hn n (by simp)) a) (zipWith_inbox hf (fun m hm => hn m (by simp [hm])) (by simpa using hl))

/-- **C13**, decided: periodic, one and two dimensions, for one offset, the neighbour of every pixel is the pixel at
the offset modulo the shape, iff the offset reaches. -/
theorem C13_iff (dbg : Bool) {d : List Int} (hv : AnyConfig shape [d]) (hpos : ∀ n ∈ shape, 0 < n)
    (h2 : shape.length ≤ 2) :
    (∀ x y, InBox shape x → InBox shape y → x ≠ y →
      ∃ s, run dbg (init true shape [d]) [.addPoints [(flat shape y).toNat, (flat shape x).toNat]] = ok (s, [[]]) ∧
        (labelAt s (flat shape y).toNat = labelAt s (flat shape x).toNat ↔
          y = List.zipWith (fun (n : Nat) (i : Int) => i % n) shape (List.zipWith (· + ·) x d))) ↔
    Reaches shape d := by
  have hlen := hv.len d (by simp)
  constructor
  · intro h
    rw [← reaches_iff hlen hpos]
    intro x hx
    have hl : (List.zipWith (· + ·) x d).length = shape.length := by
      rw [List.length_zipWith, hlen, ← List.Forall₂.length_eq hx, Nat.min_self]
    have hW : InBox shape (List.zipWith wrapped shape (List.zipWith (· + ·) x d)) :=
      zipWith_inbox (fun n hn a => wrapped_inbox hn a) hpos hl
    have hM : InBox shape
        (List.zipWith (fun (n : Nat) (i : Int) => i % n) shape (List.zipWith (· + ·) x d)) :=
      zipWith_inbox (fun n hn a => emod_inbox hn a) hpos hl
    by_contra hne
    have key : ∀ y, InBox shape y → x ≠ y →
        (y = List.zipWith wrapped shape (List.zipWith (· + ·) x d) ↔
          y = List.zipWith (fun (n : Nat) (i : Int) => i % n) shape (List.zipWith (· + ·) x d)) := by
      intro y hy hxy
      obtain ⟨s, e, hs⟩ := h x y hx hy hxy
      obtain ⟨s', e', hs'⟩ := looks_pair dbg true hv hx hy hxy
      rw [e] at e'
      cases e'
      rw [← hs, hs']
      simp [Looks, h2]
    by_cases hx1 : x = List.zipWith wrapped shape (List.zipWith (· + ·) x d)
    · have hx2 : x ≠ List.zipWith (fun (n : Nat) (i : Int) => i % n) shape (List.zipWith (· + ·) x d) :=
        fun e => hne (hx1.symm.trans e)
      exact hne ((key _ hM hx2).2 rfl).symm
    · exact hne ((key _ hW hx1).1 rfl)
  · intro h x y hx hy hne
    obtain ⟨s, e, hs⟩ := C13_reaches dbg hv (fun _ d' hd' => by rw [List.mem_singleton.1 hd']; exact h) hx hy hne
    exact ⟨s, e, by simpa using hs⟩

/-- The pixel that is looked at is the pixel at the offset. -/
theorem sees_reaches (hv : AnyConfig shape offsets) (hr : shape.length ≤ 2 → ∀ d ∈ offsets, Reaches shape d)
    (p q : Nat) : Sees true shape offsets p q ↔ Adj true shape offsets p q := by
  unfold Sees Adj
  refine exists_congr fun x => exists_congr fun y => exists_congr fun d => and_congr_right fun hd =>
    and_congr_right fun hx => and_congr_right fun hy => and_congr_left fun _ => ?_
  unfold Looks
  rw [if_neg (by simp)]
  split
  · rename_i h2
    rw [(reaches_iff (hv.len d hd) (inbox_pos hx)).2 (hr h2 d hd) x hx, shifted_true_iff (hv.len d hd) hx hy]
  · rfl

/-- **C13**, for whole histories: periodic, for all symmetric offsets that reach, two pixels have the same label iff
they are joined by steps that are an offset modulo the shape. -/
theorem C13_clusters {dbg : Bool} {s : State} {rets : List (List Nat)} (hv : AnyConfig shape offsets)
    (hs : ∀ d ∈ offsets, d.map (fun i => -i) ∈ offsets)
    (hr : shape.length ≤ 2 → ∀ d ∈ offsets, Reaches shape d)
    (hc : ∀ c ∈ calls, c.Valid shape.prod) (h : run dbg (init true shape offsets) calls = ok (s, rets))
    {p q : Nat} (hp : p ∈ added [] calls) (hq : q ∈ added [] calls) :
    labelAt s p = labelAt s q ↔ Joined (Adj true shape offsets) (· ∈ added [] calls) p q := by
  rw [C113_joined hv hc h hp hq]
  refine Naive.Joined.congr_iff fun a b ha hb hab => ?_
  have hsym : ∀ {a b}, Adj true shape offsets a b → Adj true shape offsets b a := by
    rintro a b ⟨x, y, d, hd, hx, hy, hsh, ex, ey⟩
    exact ⟨y, x, _, hs d hd, hy, hx, shifted_neg hsh, ey, ex⟩
  unfold LaterSees Before
  rw [sees_reaches hv hr, sees_reaches hv hr]
  constructor
  · rintro (⟨-, h⟩ | ⟨-, h⟩)
    · exact h
    · exact hsym h
  · intro h
    rcases Nat.lt_trichotomy ((added [] calls).idxOf a) ((added [] calls).idxOf b) with h1 | h1 | h1
    · exact Or.inr ⟨h1, hsym h⟩
    · exact absurd (List.idxOf_inj ha |>.1 h1) hab
    · exact Or.inl ⟨h1, h⟩

/-! ### the hypotheses can be met -/

/-- The diagonals on one row of three pixels, and neighbours at distance 4 on a periodic line of three pixels. -/
example : AnyConfig [1, 3] [[-1, -1], [-1, 1], [1, -1], [1, 1]] ∧ AnyConfig [3] [[-4], [4]] :=
  ⟨⟨by decide, by decide, by decide, by decide⟩, ⟨by decide, by decide, by decide, by decide⟩⟩

example : (AnyConfig [1, 3] [[1, 1]] ∧ Crosses [1, 3] [1, 1]) ∧ (AnyConfig [2, 3] [[1, 1]] ∧ ¬ Crosses [2, 3] [1, 1]) := by
  refine ⟨⟨⟨by decide, by decide, by decide, by decide⟩, 3, 1, 1, rfl, by decide, by decide, Or.inl ⟨rfl, by decide⟩⟩,
    ⟨by decide, by decide, by decide, by decide⟩, ?_⟩
  rintro ⟨n, d0, d1, -, -, -, ⟨h, -⟩ | ⟨h, -⟩⟩ <;> simp at h

/-- A periodic line of 3 pixels is not large enough for an offset of -4, one of 4 pixels is. -/
example : ¬ Reaches [3] [-4] ∧ Reaches [4] [-4] ∧ Reaches [4] [-9] := by
  refine ⟨?_, .cons (by decide) .nil, .cons (by decide) .nil⟩
  rintro (_ | ⟨h, -⟩)
  revert h
  decide

/-- On the line of 3 pixels, pixel 0 looks at pixel `(0 - 4 + 2 ^ 64) % 3 = 0`, not at pixel 2; pixel 1 is looked at by
pixel 2, whose coordinate `-2` is not below `-3`. -/
example : Looks true [3] [0] [-4] [0] ∧ ¬ Looks true [3] [0] [-4] [2] ∧ Looks true [3] [2] [-4] [1] := by
  simp [Looks, wrapped]

end Verif.Props
