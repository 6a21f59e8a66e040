import Verif.Props.Hierarchy

/-!
# `clusters` of related images (C70, C71)

Images and labels are given by their row-major elements; `entry shape elements x` is the element at pixel
`x` (`Verif.Spec.Cluster`).
-/

namespace Verif.Props

open Verif Outcome Spec Ens Cluster

variable {shape shape' : List Nat} {periodic : Bool} {f g labels labels' : List Int} {dbg dbg' : Bool}

/-- The result of `clusters`, pixel by pixel: equal labels, iff both pixels are zero or they are joined. -/
theorem clusters_eq_iff (hn : 1 ≤ shape.length) (hn' : shape.length ≤ 3) (hsmall : shape.prod < 2 ^ 62)
    (hf : f.length = shape.prod) (h : clusters dbg shape f periodic = ok labels) {p q : Nat}
    (hp : p < shape.prod) (hq : q < shape.prod) :
    labels.getD p 0 = labels.getD q 0 ↔ (f.getD p 0 = 0 ∧ f.getD q 0 = 0) ∨
      Joined (FaceAdj periodic shape) (fun r => f.getD r 0 ≠ 0) p q := by
  obtain ⟨L, e, -, b, c, -⟩ := C03_clusters dbg periodic hn hn' hsmall hf
  rw [h] at e
  cases e
  have bp := b p hp
  have bq := b q hq
  by_cases h1 : f.getD p 0 = 0
  · by_cases h2 : f.getD q 0 = 0
    · simp only [h1, h2, and_self, true_or, bp.2 h1, bq.2 h2]
    · simp only [h1, h2, and_false, false_or]
      constructor
      · intro h3
        exact absurd (bq.1 (h3 ▸ bp.2 h1)) h2
      · intro h3
        exact absurd h1 (Naive.Joined.mem_left h3)
  · by_cases h2 : f.getD q 0 = 0
    · simp only [h1, h2, false_and, false_or]
      constructor
      · intro h3
        exact absurd (bp.1 (h3 ▸ bq.2 h2)) h1
      · intro h3
        exact absurd h2 (Naive.Joined.mem_right h3)
    · simp only [h1, h2, and_self, false_or]
      exact c p hp q hq h1 h2

theorem joined_mono {adj adj' : Nat → Nat → Prop} {S S' : Nat → Prop} (ha : ∀ p q, adj p q → adj' p q)
    (hS : ∀ p, S p → S' p) {p q : Nat} (h : Joined adj S p q) : Joined adj' S' p q := by
  induction h with
  | refl h => exact .refl (hS _ h)
  | step _ h1 h2 ih => exact .step ih (ha _ _ h1) (hS _ h2)

/-! ### C70 -/

/-- If every nonzero pixel of `f` is nonzero in `g`, pixels in one cluster of `f` are in one cluster of
`g`. -/
theorem C70_monotone (hn : 1 ≤ shape.length) (hn' : shape.length ≤ 3) (hsmall : shape.prod < 2 ^ 62)
    (hf : f.length = shape.prod) (hg : g.length = shape.prod)
    (hfg : ∀ p < shape.prod, f.getD p 0 ≠ 0 → g.getD p 0 ≠ 0)
    (e : clusters dbg shape f periodic = ok labels) (e' : clusters dbg' shape g periodic = ok labels')
    {p q : Nat} (hp : p < shape.prod) (hq : q < shape.prod) (hz : labels.getD p 0 ≠ 0)
    (h : labels.getD p 0 = labels.getD q 0) :
    labels'.getD p 0 ≠ 0 ∧ labels'.getD p 0 = labels'.getD q 0 := by
  have hS : ∀ r, f.getD r 0 ≠ 0 → g.getD r 0 ≠ 0 := by
    intro r hr
    by_cases hl : r < shape.prod
    · exact hfg r hl hr
    · exact absurd (getD_of_ge (by omega)) hr
  rcases (clusters_eq_iff hn hn' hsmall hf e hp hq).1 h with h | h
  · exact absurd ((C01_clusters dbg periodic hn hn' hsmall hf e p hp).2 h.1) hz
  · have := joined_mono (fun _ _ h => h) hS h
    refine ⟨fun h0 => ?_, (clusters_eq_iff hn hn' hsmall hg e' hp hq).2 (Or.inr this)⟩
    exact hS p (Naive.Joined.mem_left h) ((C01_clusters dbg' periodic hn hn' hsmall hg e' p hp).1 h0)

theorem shifted_periodic : ∀ {s : List Nat} {x d y : List Int}, Spec.Shifted false s x d y →
    Spec.Shifted true s x d y
  | [], [], [], [], h => h
  | n :: s, i :: x, d :: ds, j :: y, h => by
    simp only [Spec.Shifted, Bool.false_eq_true, if_false, if_true] at h ⊢
    exact ⟨by rw [h.1, sub_self]; exact dvd_zero _, shifted_periodic h.2⟩

/-- Pixels in one cluster without periodicity are in one cluster with it. -/
theorem C70_periodic (hn : 1 ≤ shape.length) (hn' : shape.length ≤ 3) (hsmall : shape.prod < 2 ^ 62)
    (hf : f.length = shape.prod)
    (e : clusters dbg shape f false = ok labels) (e' : clusters dbg' shape f true = ok labels')
    {p q : Nat} (hp : p < shape.prod) (hq : q < shape.prod) (h : labels.getD p 0 = labels.getD q 0) :
    labels'.getD p 0 = labels'.getD q 0 := by
  refine (clusters_eq_iff hn hn' hsmall hf e' hp hq).2
    (((clusters_eq_iff hn hn' hsmall hf e hp hq).1 h).imp_right fun h => ?_)
  refine joined_mono ?_ (fun _ h => h) h
  rintro p q ⟨x, y, d, h1, h2, h3, h4, h5, h6⟩
  exact ⟨x, y, d, h1, h2, h3, h4, shifted_periodic h5, h6⟩

/-- There are at most as many clusters with periodicity as without (`k`, `k'` are the numbers of clusters:
the labels are `1 .. k`). -/
theorem C70_count (hn : 1 ≤ shape.length) (hn' : shape.length ≤ 3) (hsmall : shape.prod < 2 ^ 62)
    (hf : f.length = shape.prod)
    (e : clusters dbg shape f false = ok labels) (e' : clusters dbg' shape f true = ok labels') {k k' : Nat}
    (hk : ∀ l : Int, 1 ≤ l ∧ l ≤ k ↔ l ≠ 0 ∧ ∃ p < shape.prod, labels.getD p 0 = l)
    (hk' : ∀ l : Int, 1 ≤ l ∧ l ≤ k' ↔ l ≠ 0 ∧ ∃ p < shape.prod, labels'.getD p 0 = l) : k' ≤ k := by
  -- a pixel of each cluster
  have h1 : ∀ l : Fin k', ∃ p < shape.prod, labels'.getD p 0 = ((l.1 + 1 : Nat) : Int) := fun l =>
    ((hk' ((l.1 + 1 : Nat) : Int)).1 (by have := l.2; omega)).2
  choose P hP hl using h1
  have h2 : ∀ l : Fin k', 1 ≤ labels.getD (P l) 0 ∧ labels.getD (P l) 0 ≤ k := by
    intro l
    refine (hk _).2 ⟨fun h => ?_, P l, hP l, rfl⟩
    have h3 := (C01_clusters dbg false hn hn' hsmall hf e _ (hP l)).1 h
    have h4 := (C01_clusters dbg' true hn hn' hsmall hf e' _ (hP l)).2 h3
    rw [hl l] at h4
    omega
  let φ : Fin k' → Fin k := fun l => ⟨(labels.getD (P l) 0).toNat - 1, by have := h2 l; omega⟩
  have hφ : Function.Injective φ := by
    intro a b hab
    have h3 : (labels.getD (P a) 0).toNat - 1 = (labels.getD (P b) 0).toNat - 1 := congrArg Fin.val hab
    have ha := h2 a
    have hb := h2 b
    have := C70_periodic hn hn' hsmall hf e e' (hP a) (hP b) (by omega)
    rw [hl a, hl b] at this
    exact Fin.ext (by omega)
  simpa using Fintype.card_le_of_injective φ hφ

/-- One more pixel joins two clusters; so does periodicity. -/
example : (clusters true [4] [1, 0, 1, 0] false).get? = some [1, 0, 2, 0] ∧
    (clusters true [4] [1, 1, 1, 0] false).get? = some [1, 1, 1, 0] ∧
    (clusters true [4] [1, 0, 1, 1] false).get? = some [1, 0, 2, 2] ∧
    (clusters true [4] [1, 0, 1, 1] true).get? = some [1, 0, 1, 1] := by decide +kernel

/-! ### C71 -/

theorem joined_map {adj adj' : Nat → Nat → Prop} {S S' : Nat → Prop} {m : Nat → Nat}
    (ha : ∀ p q, adj p q → adj' (m p) (m q)) (hS : ∀ p, S p → S' (m p)) {p q : Nat} (h : Joined adj S p q) :
    Joined adj' S' (m p) (m q) := by
  induction h with
  | refl h => exact .refl (hS _ h)
  | step _ h1 h2 ih => exact .step ih (ha _ _ h1) (hS _ h2)

/-- `τ` maps the pixels of one image to those of another, one-to-one, such that (different) pixels share a
face iff their images do. -/
structure Symmetry (periodic : Bool) (shape shape' : List Nat) (τ τ' : List Int → List Int) : Prop where
  map : ∀ x, InBox shape x → InBox shape' (τ x)
  map' : ∀ x, InBox shape' x → InBox shape (τ' x)
  inv : ∀ x, InBox shape x → τ' (τ x) = x
  inv' : ∀ x, InBox shape' x → τ (τ' x) = x
  adj : ∀ x y d, InBox shape x → InBox shape y → FaceStep d → d.length = shape.length →
    Spec.Shifted periodic shape x d y → x ≠ y → ∃ d', FaceStep d' ∧ d'.length = shape'.length ∧
      Spec.Shifted periodic shape' (τ x) d' (τ y)
  adj' : ∀ x y d, InBox shape' x → InBox shape' y → FaceStep d → d.length = shape'.length →
    Spec.Shifted periodic shape' x d y → x ≠ y → ∃ d', FaceStep d' ∧ d'.length = shape.length ∧
      Spec.Shifted periodic shape (τ' x) d' (τ' y)

theorem joined_symmetry {τ : List Int → List Int}
    (map : ∀ x, InBox shape x → InBox shape' (τ x))
    (adj : ∀ x y d, InBox shape x → InBox shape y → FaceStep d → d.length = shape.length →
      Spec.Shifted periodic shape x d y → x ≠ y → ∃ d', FaceStep d' ∧ d'.length = shape'.length ∧
        Spec.Shifted periodic shape' (τ x) d' (τ y))
    (hfg : ∀ x, InBox shape x → entry shape f x ≠ 0 → entry shape' g (τ x) ≠ 0) {x y : List Int}
    (hx : InBox shape x) (hy : InBox shape y)
    (h : Joined (FaceAdj periodic shape) (fun r => f.getD r 0 ≠ 0) (flat shape x).toNat (flat shape y).toNat) :
    Joined (FaceAdj periodic shape') (fun r => g.getD r 0 ≠ 0) (flat shape' (τ x)).toNat
      (flat shape' (τ y)).toNat := by
  have key : ∀ {p q}, Joined (FaceAdj periodic shape) (fun r => f.getD r 0 ≠ 0) p q → ∀ x, InBox shape x →
      flat shape x = p → ∀ y, InBox shape y → flat shape y = q →
      Joined (FaceAdj periodic shape') (fun r => g.getD r 0 ≠ 0) (flat shape' (τ x)).toNat
        (flat shape' (τ y)).toNat := by
    intro p q h
    induction h with
    | refl h =>
      intro x hx e y hy e'
      have : x = y := flat_inj hx hy (by omega)
      subst this
      refine .refl (hfg x hx ?_)
      unfold entry
      rw [e]
      exact h
    | step _ h1 h2 ih =>
      intro x hx e y hy e'
      obtain ⟨u, v, d, d1, d2, hu, hv, hs, eu, ev⟩ := h1
      have : v = y := flat_inj hv hy (by omega)
      subst this
      by_cases huv : u = v
      · exact ih x hx e v hv (huv ▸ eu)
      obtain ⟨d', d3, d4, d5⟩ := adj u v d hu hv d2 d1 hs huv
      have r1 := flat_range (map u hu)
      have r2 := flat_range (map v hv)
      refine .step (ih x hx e u hu eu) ⟨τ u, τ v, d', d4, d3, map u hu, map v hv, d5, by omega, by omega⟩ ?_
      refine hfg v hv ?_
      unfold entry
      rw [ev]
      exact h2
  have r1 := flat_range hx
  have r2 := flat_range hy
  exact key h x hx (by omega) y hy (by omega)

/-- Clusters do not depend on how the pixels are arranged: a symmetry of the grid maps clusters to
clusters. -/
theorem C71_symmetry {τ τ' : List Int → List Int} (hτ : Symmetry periodic shape shape' τ τ')
    (hn : 1 ≤ shape.length) (hn' : shape.length ≤ 3) (hsmall : shape.prod < 2 ^ 62)
    (hm : 1 ≤ shape'.length) (hm' : shape'.length ≤ 3) (hsmall' : shape'.prod < 2 ^ 62)
    (hf : f.length = shape.prod) (hg : g.length = shape'.prod)
    (hfg : ∀ x, InBox shape x → (entry shape' g (τ x) = 0 ↔ entry shape f x = 0))
    (e : clusters dbg shape f periodic = ok labels) (e' : clusters dbg' shape' g periodic = ok labels')
    {x y : List Int} (hx : InBox shape x) (hy : InBox shape y) :
    entry shape' labels' (τ x) = entry shape' labels' (τ y) ↔ entry shape labels x = entry shape labels y := by
  have lt : ∀ {s : List Nat} {z : List Int}, InBox s z → (flat s z).toNat < s.prod := by
    intro s z hz
    have := flat_range hz
    omega
  have a := clusters_eq_iff hn hn' hsmall hf e (lt hx) (lt hy)
  have b := clusters_eq_iff hm hm' hsmall' hg e' (lt (hτ.map x hx)) (lt (hτ.map y hy))
  unfold entry
  rw [a, b]
  have z1 : g.getD (flat shape' (τ x)).toNat 0 = 0 ↔ f.getD (flat shape x).toNat 0 = 0 := hfg x hx
  have z2 : g.getD (flat shape' (τ y)).toNat 0 = 0 ↔ f.getD (flat shape y).toNat 0 = 0 := hfg y hy
  rw [z1, z2]
  refine or_congr_right ⟨fun h => ?_, fun h => ?_⟩
  · have := joined_symmetry (f := g) (g := f) (τ := τ') hτ.map' hτ.adj' (by
      intro z hz h0 h1
      have := (hfg (τ' z) (hτ.map' z hz)).2 h1
      rw [hτ.inv' z hz] at this
      exact h0 this) (hτ.map x hx) (hτ.map y hy) h
    rwa [hτ.inv x hx, hτ.inv y hy] at this
  · exact joined_symmetry hτ.map hτ.adj (fun z hz h0 h1 => h0 ((hfg z hz).1 h1)) hx hy h

/-! #### shifts -/

theorem shifted_shift : ∀ {s : List Nat} {x d y c : List Int}, c.length = s.length →
    Spec.Shifted true s x d y → Spec.Shifted true s (wrap s (move x c)) d (wrap s (move y c))
  | [], [], [], [], _, _, h => by simpa [wrap, move] using h
  | n :: s, i :: x, d :: ds, j :: y, k :: c, hc, h => by
    simp only [Spec.Shifted, if_true, wrap, move, List.zipWith_cons_cons] at h ⊢
    refine ⟨?_, shifted_shift (by simpa using hc) h.2⟩
    have h1 : (n : Int) ∣ (i + k) % n - (i + k) := by
      rw [← neg_sub, dvd_neg]; exact Int.dvd_self_sub_emod
    have h2 : (n : Int) ∣ (j + k) - (j + k) % n := Int.dvd_self_sub_emod
    have := dvd_add (dvd_add h1 h2) h.1
    have e : (i + k) % n - (i + k) + (j + k - (j + k) % n) + (i + d - j) = (i + k) % n + d - (j + k) % n := by ring
    rwa [e] at this

theorem shift_symmetry {s : List Int} (hs : s.length = shape.length) :
    Symmetry true shape shape (fun x => wrap shape (move x s)) (fun x => wrap shape (move x (neg s))) where
  map x hx := shift_inbox hx hs
  map' x hx := shift_inbox hx (by rw [neg_length, hs])
  inv x hx := shift_neg hx hs
  inv' x hx := by
    have := shift_neg hx (d := neg s) (by rw [neg_length, hs])
    rwa [neg_neg'] at this
  adj x y d hx hy hd hl h _ := ⟨d, hd, hl, shifted_shift hs h⟩
  adj' x y d hx hy hd hl h _ := ⟨d, hd, hl, shifted_shift (by rw [neg_length, hs]) h⟩

/-- Shifting a periodic image shifts its clusters. -/
theorem C71_shift {s : List Int} (hs : s.length = shape.length)
    (hn : 1 ≤ shape.length) (hn' : shape.length ≤ 3) (hsmall : shape.prod < 2 ^ 62)
    (hf : f.length = shape.prod) (hg : g.length = shape.prod)
    (hfg : ∀ x, InBox shape x → entry shape g (wrap shape (move x s)) = entry shape f x)
    (e : clusters dbg shape f true = ok labels) (e' : clusters dbg' shape g true = ok labels')
    {x y : List Int} (hx : InBox shape x) (hy : InBox shape y) :
    entry shape labels' (wrap shape (move x s)) = entry shape labels' (wrap shape (move y s)) ↔
      entry shape labels x = entry shape labels y :=
  C71_symmetry (shift_symmetry hs) hn hn' hsmall hn hn' hsmall hf hg (fun x hx => by rw [hfg x hx]) e e' hx hy

/-- The second image is the first, shifted by one row and two columns. -/
example : (∀ x, InBox [2, 3] x → entry [2, 3] [0, 0, 5, 0, 4, 7] (wrap [2, 3] (move x [1, 2])) =
      entry [2, 3] [7, 0, 4, 5, 0, 0] x) ∧
    (clusters true [2, 3] [7, 0, 4, 5, 0, 0] true).get? = some [1, 0, 1, 1, 0, 0] ∧
    (clusters true [2, 3] [0, 0, 5, 0, 4, 7] true).get? = some [0, 0, 1, 0, 1, 1] := by
  refine ⟨?_, by decide +kernel, by decide +kernel⟩
  intro x hx
  have : ∀ x ∈ pixels [2, 3], entry [2, 3] [0, 0, 5, 0, 4, 7] (wrap [2, 3] (move x [1, 2])) =
      entry [2, 3] [7, 0, 4, 5, 0, 0] x := by decide +kernel
  exact this x (mem_pixels.2 hx)

/-! #### reflections -/

/-- Reflection of the axes for which `r` is true. -/
def mirror : List Nat → List Bool → List Int → List Int
  | n :: shape, b :: r, i :: x => (if b then (n : Int) - 1 - i else i) :: mirror shape r x
  | _, _, _ => []

/-- The displacement after reflection. -/
def mirrorStep : List Bool → List Int → List Int
  | b :: r, i :: d => (if b then -i else i) :: mirrorStep r d
  | _, _ => []

theorem mirror_inbox : ∀ {s : List Nat} {r : List Bool} {x : List Int}, r.length = s.length → InBox s x →
    InBox s (mirror s r x)
  | [], [], _, _, .nil => .nil
  | n :: s, b :: r, i :: x, h, .cons a t => by
    refine .cons ?_ (mirror_inbox (by simpa using h) t)
    split <;> omega

theorem mirror_mirror : ∀ {s : List Nat} {r : List Bool} {x : List Int}, r.length = s.length → InBox s x →
    mirror s r (mirror s r x) = x
  | [], [], _, _, .nil => rfl
  | n :: s, b :: r, i :: x, h, .cons a t => by
    simp only [mirror, mirror_mirror (s := s) (r := r) (by simpa using h) t, List.cons.injEq, and_true]
    split <;> omega

theorem mirrorStep_face : ∀ {r : List Bool} {d : List Int}, r.length = d.length →
    ((mirrorStep r d).map Int.natAbs).sum = (d.map Int.natAbs).sum ∧ (mirrorStep r d).length = d.length
  | [], [], _ => ⟨rfl, rfl⟩
  | b :: r, i :: d, h => by
    obtain ⟨h1, h2⟩ := mirrorStep_face (r := r) (d := d) (by simpa using h)
    simp only [mirrorStep, List.map_cons, List.sum_cons, List.length_cons, h1, h2]
    refine ⟨?_, trivial⟩
    split <;> simp

theorem mirror_shifted : ∀ {s : List Nat} {r : List Bool} {x d y : List Int}, r.length = s.length →
    Spec.Shifted periodic s x d y → Spec.Shifted periodic s (mirror s r x) (mirrorStep r d) (mirror s r y)
  | [], [], [], [], [], _, h => h
  | n :: s, b :: r, i :: x, d :: ds, j :: y, hc, h => by
    simp only [Spec.Shifted, mirror, mirrorStep] at h ⊢
    refine ⟨?_, mirror_shifted (by simpa using hc) h.2⟩
    have h1 := h.1
    cases periodic
    · simp only [Bool.false_eq_true, if_false] at h1 ⊢
      cases b <;> simp <;> omega
    · simp only [if_true] at h1 ⊢
      cases b
      · simpa using h1
      · simp only [if_true]
        have e : (n : Int) - 1 - i + -d - (n - 1 - j) = -(i + d - j) := by ring
        rw [e]
        exact (dvd_neg).2 h1

theorem mirror_symmetry {r : List Bool} (hr : r.length = shape.length) :
    Symmetry periodic shape shape (mirror shape r) (mirror shape r) where
  map x hx := mirror_inbox hr hx
  map' x hx := mirror_inbox hr hx
  inv x hx := mirror_mirror hr hx
  inv' x hx := mirror_mirror hr hx
  adj x y d hx hy hd hl h _ := by
    obtain ⟨h1, h2⟩ := mirrorStep_face (r := r) (d := d) (by omega)
    exact ⟨mirrorStep r d, h1.trans hd, by omega, mirror_shifted hr h⟩
  adj' x y d hx hy hd hl h _ := by
    obtain ⟨h1, h2⟩ := mirrorStep_face (r := r) (d := d) (by omega)
    exact ⟨mirrorStep r d, h1.trans hd, by omega, mirror_shifted hr h⟩

/-- Reflecting an image (along any of its axes) reflects its clusters. -/
theorem C71_reflect {r : List Bool} (hr : r.length = shape.length)
    (hn : 1 ≤ shape.length) (hn' : shape.length ≤ 3) (hsmall : shape.prod < 2 ^ 62)
    (hf : f.length = shape.prod) (hg : g.length = shape.prod)
    (hfg : ∀ x, InBox shape x → entry shape g (mirror shape r x) = entry shape f x)
    (e : clusters dbg shape f periodic = ok labels) (e' : clusters dbg' shape g periodic = ok labels')
    {x y : List Int} (hx : InBox shape x) (hy : InBox shape y) :
    entry shape labels' (mirror shape r x) = entry shape labels' (mirror shape r y) ↔
      entry shape labels x = entry shape labels y :=
  C71_symmetry (mirror_symmetry hr) hn hn' hsmall hn hn' hsmall hf hg (fun x hx => by rw [hfg x hx]) e e' hx hy

/-- The second image is the first with its columns reversed. -/
example : (∀ x ∈ pixels [2, 3], entry [2, 3] [4, 0, 7, 0, 5, 0] (mirror [2, 3] [false, true] x) =
      entry [2, 3] [7, 0, 4, 0, 5, 0] x) ∧
    (clusters true [2, 3] [7, 0, 4, 0, 5, 0] false).get? = some [1, 0, 2, 0, 3, 0] := by decide +kernel

/-! #### permutations of the axes -/

/-- The axes in the order `σ` (axis `k` of the result is axis `σ[k]`). -/
def axes {α : Type*} [Inhabited α] (σ : List Nat) (x : List α) : List α := σ.map fun k => x.getD k default

/-- The inverse permutation. -/
def inverse (σ : List Nat) : List Nat := (List.range σ.length).map fun k => σ.idxOf k

theorem axes_length {α : Type*} [Inhabited α] (σ : List Nat) (x : List α) : (axes σ x).length = σ.length := by
  simp [axes]

theorem axes_getD {α : Type*} [Inhabited α] {σ : List Nat} (x : List α) {k : Nat} (hk : k < σ.length) :
    (axes σ x).getD k default = x.getD σ[k] default := by
  simp [axes, List.getD, hk]

theorem axes_range {α : Type*} [Inhabited α] (x : List α) : axes (List.range x.length) x = x := by
  apply List.ext_getElem
  · simp [axes]
  · intro k h1 h2
    simp [axes, List.getD, h2]

theorem shifted_iff : ∀ {s : List Nat} {x d y : List Int}, x.length = s.length → d.length = s.length →
    y.length = s.length → (Spec.Shifted periodic s x d y ↔ ∀ k < s.length,
      if periodic then ((s.getD k default : Nat) : Int) ∣ (x.getD k default + d.getD k default - y.getD k default)
      else y.getD k default = x.getD k default + d.getD k default)
  | [], [], [], [], _, _, _ => by simp [Spec.Shifted]
  | n :: s, i :: x, d :: ds, j :: y, h1, h2, h3 => by
    simp only [Spec.Shifted, List.length_cons]
    rw [shifted_iff (s := s) (x := x) (d := ds) (y := y) (by simpa using h1) (by simpa using h2)
      (by simpa using h3)]
    constructor
    · rintro ⟨a, b⟩ k hk
      cases k with
      | zero => simpa using a
      | succ k => simpa using b k (by omega)
    · intro h
      exact ⟨by simpa using h 0 (by omega), fun k hk => by simpa using h (k + 1) (by omega)⟩

theorem shifted_lengths : ∀ {s : List Nat} {x d y : List Int}, Spec.Shifted periodic s x d y →
    x.length = s.length ∧ d.length = s.length ∧ y.length = s.length
  | [], [], [], [], _ => by simp
  | n :: s, i :: x, d :: ds, j :: y, h => by
    have := shifted_lengths h.2
    simpa using this

theorem perm_lt {σ : List Nat} {n : Nat} (hσ : σ.Perm (List.range n)) {k : Nat} (hk : k < σ.length) :
    σ[k] < n := by
  have := hσ.mem_iff.1 (List.getElem_mem hk)
  simpa using this

theorem axes_shifted {σ : List Nat} {s : List Nat} (hσ : σ.Perm (List.range s.length)) {x d y : List Int}
    (h : Spec.Shifted periodic s x d y) : Spec.Shifted periodic (axes σ s) (axes σ x) (axes σ d) (axes σ y) := by
  obtain ⟨h1, h2, h3⟩ := shifted_lengths h
  rw [shifted_iff h1 h2 h3] at h
  rw [shifted_iff (by simp [axes]) (by simp [axes]) (by simp [axes])]
  intro k hk
  rw [axes_length] at hk
  rw [axes_getD _ hk, axes_getD _ hk, axes_getD _ hk, axes_getD _ hk]
  exact h _ (perm_lt hσ hk)

theorem axes_inbox {σ : List Nat} {s : List Nat} (hσ : σ.Perm (List.range s.length)) {x : List Int}
    (h : InBox s x) : InBox (axes σ s) (axes σ x) := by
  have hl := inbox_length h
  unfold InBox at h ⊢
  rw [List.forall₂_iff_get] at h ⊢
  refine ⟨by simp [axes], ?_⟩
  intro k hk _
  have hk' : k < σ.length := by simpa [axes] using hk
  have h1 := perm_lt hσ hk'
  have := h.2 σ[k] h1 (by omega)
  simpa [axes, List.getD, h1, hl] using this

theorem axes_face {σ : List Nat} {d : List Int} (hσ : σ.Perm (List.range d.length)) (h : FaceStep d) :
    FaceStep (axes σ d) := by
  unfold FaceStep at h ⊢
  rw [← h]
  conv_rhs => rw [← axes_range d]
  exact ((hσ.map _).map _).sum_eq

theorem inverse_perm {σ : List Nat} {n : Nat} (hσ : σ.Perm (List.range n)) :
    (inverse σ).Perm (List.range n) := by
  have hl : σ.length = n := by simpa using hσ.length_eq
  have hnd : σ.Nodup := hσ.nodup_iff.2 List.nodup_range
  have hmem : ∀ k, k ∈ σ ↔ k < n := fun k => by rw [hσ.mem_iff, List.mem_range]
  rw [List.perm_ext_iff_of_nodup _ List.nodup_range]
  · intro k
    simp only [inverse, List.mem_map, List.mem_range, hl]
    constructor
    · rintro ⟨j, hj, rfl⟩
      have := List.idxOf_lt_length_iff.2 ((hmem j).2 hj)
      omega
    · intro hk
      exact ⟨σ[k], perm_lt hσ (by omega), hnd.idxOf_getElem k (by omega)⟩
  · refine List.Nodup.map_on ?_ List.nodup_range
    intro a ha b hb hab
    rw [List.mem_range, hl, ← hmem] at ha
    exact (List.idxOf_inj ha).1 hab

theorem axes_inverse {α : Type*} [Inhabited α] {σ : List Nat} {x : List α}
    (hσ : σ.Perm (List.range x.length)) : axes (inverse σ) (axes σ x) = x := by
  have hl : σ.length = x.length := by simpa using hσ.length_eq
  apply List.ext_getElem
  · simp [axes, inverse, hl]
  · intro k h1 h2
    have hm : k ∈ σ := hσ.mem_iff.2 (by simpa using h2)
    have hi := List.idxOf_lt_length_iff.2 hm
    have e : (axes (inverse σ) (axes σ x))[k] = (axes σ x).getD (σ.idxOf k) default := by
      simp [axes, inverse]
    rw [e, axes_getD _ hi, List.getElem_idxOf hi]
    simp [List.getD, h2]

theorem inverse_axes {α : Type*} [Inhabited α] {σ : List Nat} {x : List α}
    (hσ : σ.Perm (List.range x.length)) : axes σ (axes (inverse σ) x) = x := by
  have hl : σ.length = x.length := by simpa using hσ.length_eq
  have hnd : σ.Nodup := hσ.nodup_iff.2 List.nodup_range
  apply List.ext_getElem
  · simp [axes, hl]
  · intro k h1 h2
    have hk : k < σ.length := by omega
    have hlt := perm_lt hσ hk
    have hil : σ[k] < (inverse σ).length := by simp [inverse, hl, hlt]
    have e : (axes σ (axes (inverse σ) x))[k] = (axes (inverse σ) x).getD σ[k] default := by
      simp [axes]
    have e2 : (inverse σ)[σ[k]] = k := by
      simp [inverse, hnd.idxOf_getElem]
    rw [e, axes_getD _ hil, e2]
    simp [List.getD, h2]

theorem axes_symmetry {σ : List Nat} (hσ : σ.Perm (List.range shape.length)) :
    Symmetry periodic shape (axes σ shape) (axes σ) (axes (inverse σ)) := by
  have hl : σ.length = shape.length := by simpa using hσ.length_eq
  have hi := inverse_perm hσ
  have hi' : (inverse σ).Perm (List.range (axes σ shape).length) := by rwa [axes_length, hl]
  have hs : axes (inverse σ) (axes σ shape) = shape := axes_inverse hσ
  refine ⟨fun x hx => axes_inbox hσ hx, ?_, fun x hx => axes_inverse (by rwa [inbox_length hx]), ?_, ?_, ?_⟩
  · intro x hx
    have := axes_inbox hi' hx
    rwa [hs] at this
  · intro x hx
    exact inverse_axes (by rwa [inbox_length hx, axes_length, hl])
  · intro x y d hx hy hd hdl h _
    exact ⟨axes σ d, axes_face (by rwa [hdl]) hd, by rw [axes_length, axes_length], axes_shifted hσ h⟩
  · intro x y d hx hy hd hdl h _
    refine ⟨axes (inverse σ) d, axes_face (by rwa [hdl]) hd, ?_, ?_⟩
    · rw [axes_length]; simpa using hi.length_eq
    · have := axes_shifted hi' h
      rwa [hs] at this

/-- Permuting the axes of an image permutes those of its clusters. -/
theorem C71_axes {σ : List Nat} (hσ : σ.Perm (List.range shape.length))
    (hn : 1 ≤ shape.length) (hn' : shape.length ≤ 3) (hsmall : shape.prod < 2 ^ 62)
    (hf : f.length = shape.prod) (hg : g.length = shape.prod)
    (hfg : ∀ x, InBox shape x → entry (axes σ shape) g (axes σ x) = entry shape f x)
    (e : clusters dbg shape f periodic = ok labels) (e' : clusters dbg' (axes σ shape) g periodic = ok labels')
    {x y : List Int} (hx : InBox shape x) (hy : InBox shape y) :
    entry (axes σ shape) labels' (axes σ x) = entry (axes σ shape) labels' (axes σ y) ↔
      entry shape labels x = entry shape labels y := by
  have hl : σ.length = shape.length := by simpa using hσ.length_eq
  have hp : (axes σ shape).prod = shape.prod := by
    conv_rhs => rw [← axes_range shape]
    exact (hσ.map _).prod_eq
  exact C71_symmetry (axes_symmetry hσ) hn hn' hsmall (by rw [axes_length]; omega) (by rw [axes_length]; omega)
    (by omega) hf (by omega) (fun x hx => by rw [hfg x hx]) e e' hx hy

/-- The transpose of a two-dimensional image. -/
example : [1, 0].Perm (List.range [2, 3].length) ∧ axes [1, 0] [2, 3] = [3, 2] ∧
    (∀ x ∈ pixels [2, 3], entry (axes [1, 0] [2, 3]) [7, 0, 0, 5, 4, 0] (axes [1, 0] x) =
      entry [2, 3] [7, 0, 4, 0, 5, 0] x) ∧
    (clusters true [2, 3] [7, 0, 4, 0, 5, 0] false).get? = some [1, 0, 2, 0, 3, 0] ∧
    (clusters true [3, 2] [7, 0, 0, 5, 4, 0] false).get? = some [1, 0, 0, 2, 3, 0] := by decide +kernel

end Verif.Props
