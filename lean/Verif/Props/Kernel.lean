import Verif.Lemmas.Kernel
import Verif.Props.Cluster

/-!
# Kernels, neighbours and `clusters` (C03, C12-C16; C01 and C02 for `clusters`)
-/

namespace Verif.Props

open Verif Verif.Cluster Verif.Kernel Outcome Spec

/-! ### C15: kernel offsets -/

/-- The offsets of a kernel: exactly the nonzero entries other than the centre, measured from the
centre, each once. -/
theorem C15_offsets (dbg : Bool) {k : Kern} (h : ValidKernel k.shape k.flat) :
    ∃ dx, kernelToDx dbg k = ok dx ∧ dx.Nodup ∧ ∀ d, d ∈ dx ↔ IsOffset k.shape k.flat d := by
  have hmid : mids k.shape = centre k.shape := mids_eq h.odd
  have hc : k.flat.getD (flat k.shape (mids k.shape)).toNat 0 = 1 := by
    rw [hmid]; exact h.centre
  refine ⟨_, kernelToDx_ok dbg h.odd h.len hc, dx_nodup _ _, fun d => ?_⟩
  rw [List.mem_map]
  constructor
  · rintro ⟨x, hx, rfl⟩
    rw [List.mem_filter, Bool.and_eq_true, decide_eq_true_eq, bne_iff_ne] at hx
    exact ⟨cast x, mem_indices.1 hx.1, by rw [← hmid]; exact hx.2.1, hx.2.2, by
      rw [fromMid_cast, hmid]⟩
  · rintro ⟨x, hx, hne, he, rfl⟩
    obtain ⟨r, rfl⟩ := exists_cast hx
    refine ⟨r, ?_, by rw [fromMid_cast, hmid]⟩
    rw [List.mem_filter, Bool.and_eq_true, decide_eq_true_eq, bne_iff_ne]
    exact ⟨mem_indices.2 hx, by rw [hmid]; exact hne, he⟩

/-- A 3x3 kernel with a diagonal meets the hypotheses. -/
example : ValidKernel [3, 3] [1, 0, 0, 0, 1, 0, 0, 0, 1] :=
  ⟨by simp, by simp, by decide⟩

example : (kernelToDx true ⟨[3, 3], [1, 0, 0, 0, 1, 0, 0, 0, 1]⟩).get? = some [[-1, -1], [1, 1]] := by
  decide

/-- With assertions a kernel with an even size is refused. -/
theorem C15_even_throws {k : Kern} (h : ∃ n ∈ k.shape, n % 2 = 0) : kernelToDx true k = throws := by
  obtain ⟨n, hn, he⟩ := h
  unfold kernelToDx
  rw [if_pos]
  simp only [Bool.true_and, List.any_eq_true]
  exact ⟨n, hn, by simp [he]⟩

example : ∃ n ∈ (Kern.mk [3, 2] [0, 0, 1, 1, 0, 0]).shape, n % 2 = 0 := ⟨2, by simp⟩

/-- With assertions a kernel whose centre is not 1 is refused. -/
theorem C15_centre_throws {k : Kern} (hodd : ∀ n ∈ k.shape, n % 2 = 1 ∧ n < 2 ^ 64)
    (hlen : k.flat.length = k.shape.prod) (hc : entry k.shape k.flat (centre k.shape) ≠ 1) :
    kernelToDx true k = throws := by
  have hmid : mids k.shape = centre k.shape := mids_eq hodd
  have hr := flat_range (mids_inbox hodd)
  unfold kernelToDx
  rw [if_neg]
  · simp only [midIndex_eq hodd]
    have : (Vec.ofList k.flat).read (flat k.shape (mids k.shape)) =
        ok (entry k.shape k.flat (centre k.shape)) := by
      unfold Vec.read Vec.ofList
      rw [if_pos ⟨hr.1, by rw [hlen]; exact hr.2⟩, ← hmid]
      rfl
    rw [this]
    simp [Outcome.bind, hc]
  · simp only [Bool.true_and, List.any_eq_true]
    rintro ⟨n, hn, he⟩
    have := (hodd n hn).1
    simp [this] at he

example : entry [3] [1, 2, 1] (centre [3]) ≠ 1 := by decide

theorem reflect_sub : ∀ {shape : List Nat} {x : List Int}, (∀ n ∈ shape, n % 2 = 1 ∧ n < 2 ^ 64) →
    InBox shape x →
    List.zipWith (· - ·) (List.zipWith (fun (n : Nat) (i : Int) => n - 1 - i) shape x)
      (centre shape) = (List.zipWith (· - ·) x (centre shape)).map fun i => -i
  | [], [], _, _ => rfl
  | n :: s, i :: x, ho, h => by
    cases h with
    | cons h1 h2 =>
      have ih := reflect_sub (shape := s) (fun m hm => ho m (by simp [hm])) h2
      have := (ho n (by simp)).1
      simp only [centre, List.map_cons, List.zipWith_cons_cons, List.cons.injEq]
      refine ⟨by omega, ?_⟩
      exact ih

theorem reflect_inbox : ∀ {shape : List Nat} {x : List Int}, InBox shape x →
    InBox shape (List.zipWith (fun (n : Nat) (i : Int) => n - 1 - i) shape x)
  | [], [], _ => .nil
  | n :: s, i :: x, h => by
    cases h with
    | cons h1 h2 =>
      refine .cons ?_ (reflect_inbox h2)
      show 0 ≤ (n : Int) - 1 - i ∧ (n : Int) - 1 - i < n
      omega

theorem centre_of_reflect : ∀ {shape : List Nat} {x : List Int}, (∀ n ∈ shape, n % 2 = 1 ∧ n < 2 ^ 64) →
    InBox shape x →
    List.zipWith (fun (n : Nat) (i : Int) => n - 1 - i) shape x = centre shape → x = centre shape
  | [], [], _, _, _ => rfl
  | n :: s, i :: x, ho, h, he => by
    cases h with
    | cons h1 h2 =>
      simp only [centre, List.map_cons, List.zipWith_cons_cons, List.cons.injEq] at he ⊢
      have := (ho n (by simp)).1
      exact ⟨by omega, centre_of_reflect (fun m hm => ho m (by simp [hm])) h2 he.2⟩

/-- A point-symmetric kernel has offsets in opposite pairs, so the neighbour relation is symmetric. -/
theorem C15_symmetric {k : Kern} (h : ValidKernel k.shape k.flat)
    (hs : SymmetricKernel k.shape k.flat) {d : List Int} (hd : IsOffset k.shape k.flat d) :
    IsOffset k.shape k.flat (d.map fun i => -i) := by
  obtain ⟨x, hx, hne, he, rfl⟩ := hd
  refine ⟨_, reflect_inbox hx, fun hc => hne (centre_of_reflect h.odd hx hc), hs x hx he, ?_⟩
  rw [reflect_sub h.odd hx]

theorem C15_symmetric_adj {k : Kern} {dx : List (List Int)} (h : ValidKernel k.shape k.flat)
    (hs : SymmetricKernel k.shape k.flat) (hdx : kernelToDx dbg k = ok dx) {periodic : Bool}
    {shape : List Nat} {p q : Nat} (ha : Adj periodic shape dx p q) : Adj periodic shape dx q p := by
  obtain ⟨dx', e, -, hm⟩ := C15_offsets dbg h
  rw [hdx] at e
  cases e
  obtain ⟨x, y, d, hd, hx, hy, hsft, ex, ey⟩ := ha
  exact ⟨y, x, _, (hm _).2 (C15_symmetric h hs ((hm d).1 hd)), hy, hx, shifted_neg hsft, ey, ex⟩

theorem offset_length {kshape : List Nat} {elements : List Int} {d : List Int}
    (hd : IsOffset kshape elements d) : d.length = kshape.length := by
  obtain ⟨x, hx, -, -, rfl⟩ := hd
  rw [List.length_zipWith, inbox_length hx]
  simp [centre]

theorem offset_bound : ∀ {kshape : List Nat} {x : List Int}, (∀ n ∈ kshape, n % 2 = 1 ∧ n < 2 ^ 64) →
    InBox kshape x → ∀ {shape : List Nat},
    List.Forall₂ (fun (n k : Nat) => n ≤ 1 ∨ (k ≤ 2 * n + 1 ∧ k < 2 ^ 62)) shape kshape →
    List.Forall₂ (fun (n : Nat) (i : Int) => n ≤ 1 ∨ (-(n : Int) ≤ i ∧ i ≤ 2 ^ 62)) shape
      (List.zipWith (· - ·) x (centre kshape))
  | [], [], _, _, [], _ => .nil
  | n :: s, i :: x, ho, h, m :: t, hf => by
    cases h with
    | cons h1 h2 =>
      cases hf with
      | cons h3 h4 =>
        simp only [centre, List.map_cons, List.zipWith_cons_cons]
        refine .cons ?_ (offset_bound (fun m hm => ho m (by simp [hm])) h2 h4)
        have := (ho n (by simp)).1
        omega

/-- A labeller built from a valid, symmetric kernel (periodic, 1D and 2D: reaching not further than
the image; not periodic: without diagonals on images of shape `[1, n]`, `[n, 1]`) has the
configuration to which C01-C11 apply. -/
theorem C15_configuration (dbg : Bool) {k : Kern} (h : ValidKernel k.shape k.flat)
    (hs : SymmetricKernel k.shape k.flat) {periodic : Bool} {shape : List Nat}
    (hr : k.shape.length = shape.length) (hn : 1 ≤ shape.length) (hsmall : shape.prod < 2 ^ 62)
    (hwrap : periodic = true → shape.length ≤ 2 →
      List.Forall₂ (fun (n k : Nat) => n ≤ 1 ∨ (k ≤ 2 * n + 1 ∧ k < 2 ^ 62)) shape k.shape)
    (hthin : periodic = false → ∀ n, (shape = [1, n] ∨ shape = [n, 1]) →
      ∀ d0 d1, IsOffset k.shape k.flat [d0, d1] → d0 = 0 ∨ d1 = 0) :
    ∃ dx, constructKernel dbg periodic shape k = ok (init periodic shape dx) ∧
      (∀ d, d ∈ dx ↔ IsOffset k.shape k.flat d) ∧ ValidConfig periodic shape dx := by
  obtain ⟨dx, e, -, hm⟩ := C15_offsets dbg h
  refine ⟨dx, by simp [constructKernel, hr, e, Outcome.bind], hm, ?_⟩
  refine ⟨hn, fun d hd => ?_, fun d hd => ?_, hsmall, fun hp hl d hd => ?_, fun hp n hsh d0 d1 hd => ?_⟩
  · rw [offset_length ((hm d).1 hd), hr]
  · exact (hm _).2 (C15_symmetric h hs ((hm d).1 hd))
  · obtain ⟨x, hx, -, -, rfl⟩ := (hm d).1 hd
    exact offset_bound h.odd hx (hwrap hp hl)
  · exact hthin hp n hsh d0 d1 ((hm _).1 hd)

/-- The kernel `[[1, 0, 0], [0, 1, 0], [0, 0, 1]]` on a periodic 3x4 image. -/
example : ∃ dx, constructKernel true true [3, 4] ⟨[3, 3], [1, 0, 0, 0, 1, 0, 0, 0, 1]⟩ =
      ok (init true [3, 4] dx) ∧
    (∀ d, d ∈ dx ↔ IsOffset [3, 3] [1, 0, 0, 0, 1, 0, 0, 0, 1] d) ∧ ValidConfig true [3, 4] dx := by
  refine C15_configuration true (k := ⟨[3, 3], [1, 0, 0, 0, 1, 0, 0, 0, 1]⟩)
    ⟨by simp, by simp, by decide⟩ ?_ rfl (by simp) (by decide) ?_ (by simp)
  · intro x hx
    obtain ⟨r, rfl⟩ := exists_cast hx
    have hr := mem_indices.2 hx
    revert hr
    have : ∀ r ∈ indices [3, 3], entry [3, 3] [1, 0, 0, 0, 1, 0, 0, 0, 1] (Kernel.cast r) ≠ 0 →
      entry [3, 3] [1, 0, 0, 0, 1, 0, 0, 0, 1]
        (List.zipWith (fun (n : Nat) (i : Int) => n - 1 - i) [3, 3] (Kernel.cast r)) ≠ 0 := by decide
    exact this r
  · intro _ _
    exact .cons (by omega) (.cons (by omega) .nil)

/-! ### C14: the default kernel -/

/-- In one and two dimensions the default labeller is the labeller with `kernel::nearest`. -/
theorem C14_default_partial (dbg periodic : Bool) (shape : List Nat) (h : shape.length = 1 ∨ shape.length = 2) :
    construct periodic shape =
      (nearest dbg shape.length).bind fun k => constructKernel dbg periodic shape k := by
  have h1 : ∀ dbg, nearest dbg 1 = ok ⟨[3], [1, 1, 1]⟩ := by decide
  have h2 : ∀ dbg, nearest dbg 2 = ok ⟨[3, 3], [0, 1, 0, 1, 1, 1, 0, 1, 0]⟩ := by decide
  have k1 : ∀ dbg, kernelToDx dbg ⟨[3], [1, 1, 1]⟩ = ok [[-1], [1]] := by decide
  have k2 : ∀ dbg, kernelToDx dbg ⟨[3, 3], [0, 1, 0, 1, 1, 1, 0, 1, 0]⟩ =
      ok [[-1, 0], [0, -1], [0, 1], [1, 0]] := by decide
  rcases h with h | h
  · simp [construct, defaultDx, h, h1, constructKernel, k1, Outcome.bind]
  · simp [construct, defaultDx, h, h2, constructKernel, k2, Outcome.bind]

/-- In three dimensions it is not: `kernel::nearest(3)` connects pixels that share an edge,
the default does not. -/
theorem C14_violated :
    ((construct false [1, 2, 2]).bind fun s => (addPoints true s [0, 3]).bind fun s =>
      ok s.label.toList) = ok [1, 0, 0, 2] ∧
    ((nearest true 3).bind fun k => (constructKernel true false [1, 2, 2] k).bind fun s =>
      (addPoints true s [0, 3]).bind fun s => ok s.label.toList) = ok [1, 0, 0, 1] := by
  decide +kernel

/-- The default offsets are the faces, in every dimension that has a default. -/
theorem mem_defaultDx {shape : List Nat} {dx : List (List Int)} (h : defaultDx shape.length = ok dx)
    (d : List Int) : d ∈ dx ↔ d.length = shape.length ∧ (d.map Int.natAbs).sum = 1 := by
  unfold defaultDx at h
  split at h
  · next h1 =>
    cases h
    rw [h1]
    constructor
    · intro hd; fin_cases hd <;> decide
    · rintro ⟨hl, hs⟩
      match d, hl with
      | [a], _ =>
        simp at hs
        have : a = -1 ∨ a = 1 := by omega
        rcases this with rfl | rfl <;> decide
  · split at h
    · next h1 =>
      cases h
      rw [h1]
      constructor
      · intro hd; fin_cases hd <;> decide
      · rintro ⟨hl, hs⟩
        match d, hl with
        | [a, b], _ =>
          simp at hs
          have : (a = -1 ∧ b = 0) ∨ (a = 1 ∧ b = 0) ∨ (a = 0 ∧ b = -1) ∨ (a = 0 ∧ b = 1) := by omega
          rcases this with ⟨rfl, rfl⟩ | ⟨rfl, rfl⟩ | ⟨rfl, rfl⟩ | ⟨rfl, rfl⟩ <;> decide
    · split at h
      · next h1 =>
        cases h
        rw [h1]
        constructor
        · intro hd; fin_cases hd <;> decide
        · rintro ⟨hl, hs⟩
          match d, hl with
          | [a, b, c], _ =>
            have hs' : a.natAbs + (b.natAbs + c.natAbs) = 1 := by simpa using hs
            have ha : a = -1 ∨ a = 0 ∨ a = 1 := by omega
            have hb : b = -1 ∨ b = 0 ∨ b = 1 := by omega
            have hc : c = -1 ∨ c = 0 ∨ c = 1 := by omega
            clear hs
            rcases ha with rfl | rfl | rfl <;> rcases hb with rfl | rfl | rfl <;>
              rcases hc with rfl | rfl | rfl <;> revert hs' <;> decide
      · cases h

theorem adj_default {periodic : Bool} {shape : List Nat} {dx : List (List Int)}
    (h : defaultDx shape.length = ok dx) : Adj periodic shape dx = FaceAdj periodic shape := by
  funext p q
  apply propext
  constructor
  · rintro ⟨x, y, d, hd, h1, h2, h3, h4, h5⟩
    obtain ⟨hl, hs⟩ := (mem_defaultDx h d).1 hd
    exact ⟨x, y, d, hl, hs, h1, h2, h3, h4, h5⟩
  · rintro ⟨x, y, d, hl, hs, h1, h2, h3, h4, h5⟩
    exact ⟨x, y, d, (mem_defaultDx h d).2 ⟨hl, hs⟩, h1, h2, h3, h4, h5⟩

theorem natAbs_le_sum : ∀ {d : List Int} {i : Int}, i ∈ d → i.natAbs ≤ (d.map Int.natAbs).sum
  | a :: d, i, hi => by
    simp only [List.map_cons, List.sum_cons]
    rcases List.mem_cons.1 hi with rfl | hi
    · omega
    · have := natAbs_le_sum hi
      omega

theorem abs_le_of_sum : ∀ {d : List Int}, (d.map Int.natAbs).sum = 1 → ∀ i ∈ d, -1 ≤ i ∧ i ≤ 1
  | a :: d, h, i, hi => by
    simp only [List.map_cons, List.sum_cons] at h
    rcases List.mem_cons.1 hi with rfl | hi
    · omega
    · have := natAbs_le_sum hi
      omega

/-- The default constructor gives a configuration to which C01-C11 apply, with face neighbours. -/
theorem C14_default_configuration (periodic : Bool) {shape : List Nat} (hn : 1 ≤ shape.length)
    (hn' : shape.length ≤ 3) (hsmall : shape.prod < 2 ^ 62) :
    ∃ dx, construct periodic shape = ok (init periodic shape dx) ∧
      ValidConfig periodic shape dx ∧ Adj periodic shape dx = FaceAdj periodic shape := by
  obtain ⟨dx, e⟩ : ∃ dx, defaultDx shape.length = ok dx := by
    have : shape.length = 1 ∨ shape.length = 2 ∨ shape.length = 3 := by omega
    rcases this with h | h | h <;> simp [defaultDx, h]
  have hm := mem_defaultDx e
  refine ⟨dx, by simp [construct, e, Outcome.bind], ?_, adj_default e⟩
  refine ⟨hn, fun d hd => ((hm d).1 hd).1, fun d hd => (hm _).2 ?_, hsmall, fun _ _ d hd => ?_,
    fun _ n hsh d0 d1 hd => ?_⟩
  · obtain ⟨hl, hs⟩ := (hm d).1 hd
    refine ⟨by simpa using hl, ?_⟩
    rw [List.map_map]
    rw [← hs]
    congr 1
    apply List.map_congr_left
    intro i _
    simp
  · obtain ⟨hl, hs⟩ := (hm d).1 hd
    rw [List.forall₂_iff_get]
    refine ⟨hl.symm, fun i h1 h2 => ?_⟩
    have := abs_le_of_sum hs _ (List.getElem_mem h2)
    simp only [List.get_eq_getElem]
    have h62 : (2 : Int) ^ 62 = 4611686018427387904 := by norm_num
    omega
  · have := ((hm _).1 hd).2
    simp at this
    omega

/-! ### C12, C13: neighbours -/

theorem joined_pair {adj : Nat → Nat → Prop} {p q : Nat} (hne : p ≠ q)
    (hpp : ∀ a, a ∈ [p, q] → ∀ b, b ∈ [p, q] → adj a b → a = b ∨ adj p q) :
    Joined adj (· ∈ [p, q]) p q ↔ adj p q := by
  constructor
  · intro h
    by_contra hno
    have : ∀ r, Joined adj (· ∈ [p, q]) p r → r = p := by
      intro r hr
      induction hr with
      | refl _ => rfl
      | @step b c h1 h2 h3 ih =>
        have h4 := hpp b (Naive.Joined.mem_right h1) c h3 h2
        rcases h4 with h4 | h4
        · rw [← h4, ih]
        · exact absurd h4 hno
    exact hne (this q h).symm
  · intro h
    exact .step (.refl (by simp)) h (by simp)

/-- Two pixels added to an empty labeller get the same label iff they are neighbours, where the
neighbour is at the exact offset (not periodic) or at the offset modulo the shape (periodic). -/
theorem neighbours_iff (dbg : Bool) {periodic : Bool} {shape : List Nat} {offsets : List (List Int)}
    (hv : ValidConfig periodic shape offsets) {p q : Nat} (hp : p < shape.prod) (hq : q < shape.prod)
    (hne : p ≠ q) :
    ∃ s, run dbg (init periodic shape offsets) [.addPoints [p, q]] = ok (s, [[]]) ∧
      (labelAt s p = labelAt s q ↔ Adj periodic shape offsets p q) := by
  have hc : ∀ c ∈ [Call.addPoints [p, q]], c.Valid shape.prod := by
    simp [Call.Valid, hp, hq]
  obtain ⟨s, rets, e, -⟩ := C09_safe dbg hv hc
  have hadd : added [] [Call.addPoints [p, q]] = [p, q] := by
    simp [added, Call.visits, visitAll, hne.symm]
  have hrets : rets = [[]] := by
    have e' := e
    simp only [run, stepCall] at e'
    cases h1 : addPoints dbg (init periodic shape offsets)
        (List.map (fun p : Nat => (p : Int)) [p, q]) with
    | ok s1 =>
      rw [h1] at e'
      simp only [Outcome.bind, Outcome.ok.injEq, Prod.mk.injEq] at e'
      exact e'.2.symm
    | throws => rw [h1] at e'; cases e'
    | ub => rw [h1] at e'; cases e'
    | diverge => rw [h1] at e'; cases e'
  subst hrets
  refine ⟨s, e, ?_⟩
  have hsym : ∀ a b, Adj periodic shape offsets a b → Adj periodic shape offsets b a :=
    fun a b h => adj_symm hv h
  rw [C02_connected hv hc e (by rw [hadd]; simp) (by rw [hadd]; simp), hadd]
  apply joined_pair hne
  intro a ha b hb hab
  simp only [List.mem_cons, List.not_mem_nil, or_false] at ha hb
  rcases ha with rfl | rfl <;> rcases hb with rfl | rfl
  · exact Or.inl rfl
  · exact Or.inr hab
  · exact Or.inr (hsym _ _ hab)
  · exact Or.inl rfl

/-- C12 for the configurations of `ValidConfig`: missing are diagonal offsets on images of shape
`[1, n]` and `[n, 1]`, where the claim is false (`C12_violated`). -/
theorem C12_inside_partial (dbg : Bool) {shape : List Nat} {offsets : List (List Int)}
    (hv : ValidConfig false shape offsets) {x y : List Int} (hx : InBox shape x) (hy : InBox shape y)
    (hne : x ≠ y) :
    ∃ s, run dbg (init false shape offsets)
        [.addPoints [(flat shape x).toNat, (flat shape y).toNat]] = ok (s, [[]]) ∧
      (labelAt s (flat shape x).toNat = labelAt s (flat shape y).toNat ↔
        ∃ d ∈ offsets, y = List.zipWith (· + ·) x d) := by
  have rx := flat_range hx
  have ry := flat_range hy
  obtain ⟨s, e, h⟩ := neighbours_iff dbg hv (p := (flat shape x).toNat) (q := (flat shape y).toNat)
    (by omega) (by omega) (fun e => hne (flat_inj hx hy (by omega)))
  refine ⟨s, e, h.trans ?_⟩
  have hsh : ∀ (shape : List Nat) (x d y : List Int), d.length = shape.length → InBox shape x → 
      y.length = shape.length →
      (Shifted false shape x d y ↔ y = List.zipWith (· + ·) x d) := by
    intro shape
    induction shape with
    | nil =>
      intro x d y hd hx hy
      match x, d, y with
      | [], [], [] => simp [Shifted]
    | cons n s ih =>
      intro x d y hd hx hy
      match x, d, y with
      | i :: x, a :: d, j :: y =>
        cases hx with
        | cons h1 h2 =>
          simp [Shifted, ih x d y (by simpa using hd) h2 (by simpa using hy)]
  constructor
  · rintro ⟨x', y', d, hd, hx', hy', hs, ex, ey⟩
    have : x' = x := flat_inj hx' hx (by omega)
    subst this
    have : y' = y := flat_inj hy' hy (by omega)
    subst this
    exact ⟨d, hd, (hsh shape _ d _ (hv.len d hd) hx (inbox_length hy)).1 hs⟩
  · rintro ⟨d, hd, he⟩
    exact ⟨x, y, d, hd, hx, hy, (hsh shape x d y (hv.len d hd) hx (inbox_length hy)).2 he, by omega,
      by omega⟩

/-- Not periodic, kernel of the two diagonals, image of shape `[1, 3]`: no pixel has a neighbour, but
all pixels get the same label. -/
theorem C12_violated :
    ((constructKernel true false [1, 3] ⟨[3, 3], [1, 0, 1, 0, 1, 0, 1, 0, 1]⟩).bind fun s =>
      (addPoints true s [0, 1, 2]).bind fun s => ok s.label.toList) = ok [1, 1, 1] ∧
    (kernelToDx true ⟨[3, 3], [1, 0, 1, 0, 1, 0, 1, 0, 1]⟩).get? =
      some [[-1, -1], [-1, 1], [1, -1], [1, 1]] ∧
    ∀ x y, InBox [1, 3] x → InBox [1, 3] y →
      ∀ d ∈ [[-1, -1], [-1, 1], [1, -1], [1, 1]], y ≠ List.zipWith (· + ·) x d := by
  refine ⟨by decide +kernel, by decide, ?_⟩
  intro x y hx hy d hd e
  match x, y, hx, hy with
  | [x0, x1], [y0, y1], .cons h1 (.cons h2 .nil), .cons h3 (.cons h4 .nil) =>
    fin_cases hd <;> simp at e <;> omega

/-- C13 for the configurations of `ValidConfig`: missing are, in 1D and 2D, offsets that reach further
than the image, where the claim is false (`C13_violated`). In 3D there is no restriction. -/
theorem C13_modulo_partial (dbg : Bool) {shape : List Nat} {offsets : List (List Int)}
    (hv : ValidConfig true shape offsets) {x y : List Int} (hx : InBox shape x) (hy : InBox shape y)
    (hne : x ≠ y) :
    ∃ s, run dbg (init true shape offsets)
        [.addPoints [(flat shape x).toNat, (flat shape y).toNat]] = ok (s, [[]]) ∧
      (labelAt s (flat shape x).toNat = labelAt s (flat shape y).toNat ↔
        ∃ d ∈ offsets, y = List.zipWith (fun (n : Nat) (i : Int) => i % n) shape
          (List.zipWith (· + ·) x d)) := by
  have rx := flat_range hx
  have ry := flat_range hy
  obtain ⟨s, e, h⟩ := neighbours_iff dbg hv (p := (flat shape x).toNat) (q := (flat shape y).toNat)
    (by omega) (by omega) (fun e => hne (flat_inj hx hy (by omega)))
  refine ⟨s, e, h.trans ?_⟩
  have hsh : ∀ (shape : List Nat) (x d y : List Int), d.length = shape.length → InBox shape x →
      InBox shape y →
      (Shifted true shape x d y ↔ y = List.zipWith (fun (n : Nat) (i : Int) => i % n) shape
          (List.zipWith (· + ·) x d)) := by
    intro shape
    induction shape with
    | nil =>
      intro x d y hd hx hy
      match x, d, y, hy with
      | [], [], [], _ => simp [Shifted]
    | cons n s ih =>
      intro x d y hd hx hy
      match x, d, y with
      | i :: x, a :: d, j :: y =>
        cases hx with
        | cons h1 h2 =>
          cases hy with
          | cons h3 h4 =>
            simp only [Shifted, if_true, List.zipWith_cons_cons, List.cons.injEq,
              ih x d y (by simpa using hd) h2 h4]
            have : (n : Int) ∣ i + a - j ↔ j = (i + a) % n := by
              rw [Int.dvd_iff_emod_eq_zero, ← Int.emod_eq_emod_iff_emod_sub_eq_zero,
                Int.emod_eq_of_lt h3.1 h3.2]
              exact eq_comm
            rw [this]
  constructor
  · rintro ⟨x', y', d, hd, hx', hy', hs, ex, ey⟩
    have : x' = x := flat_inj hx' hx (by omega)
    subst this
    have : y' = y := flat_inj hy' hy (by omega)
    subst this
    exact ⟨d, hd, (hsh shape _ d _ (hv.len d hd) hx hy).1 hs⟩
  · rintro ⟨d, hd, he⟩
    exact ⟨x, y, d, hd, hx, hy, (hsh shape x d y (hv.len d hd) hx hy).2 he, by omega, by omega⟩

/-- Three dimensions: any symmetric set of offsets, of any length, is allowed. -/
theorem C13_config_3d {shape : List Nat} {offsets : List (List Int)} (h3 : shape.length = 3)
    (hl : ∀ d ∈ offsets, d.length = 3) (hs : ∀ d ∈ offsets, d.map (fun i => -i) ∈ offsets)
    (hsmall : shape.prod < 2 ^ 62) : ValidConfig true shape offsets :=
  ⟨by omega, fun d hd => by rw [hl d hd, h3], hs, hsmall, fun _ h => by omega, by simp⟩

/-- Periodic, shape `[3]`, a kernel whose neighbours are at distance 4 (modulo 3: at distance 1). Adding
pixel 2 and then pixel 0 does not connect them, because `0 - 4 + 3` is negative and wraps modulo 2^64. -/
theorem C13_violated :
    ((constructKernel true true [3] ⟨[9], [1, 0, 0, 0, 1, 0, 0, 0, 1]⟩).bind fun s =>
      (addPoints true s [2, 0]).bind fun s => ok s.label.toList) = ok [2, 0, 1] ∧
    (kernelToDx true ⟨[9], [1, 0, 0, 0, 1, 0, 0, 0, 1]⟩).get? = some [[-4], [4]] ∧
    ((0 : Int) + -4) % 3 = 2 := by
  refine ⟨by decide +kernel, by decide, by decide⟩

/-! ### C16: asymmetric kernels -/

/-- With the kernel `[0, 1, 1]` the order of the points decides the number of clusters. -/
theorem C16_asymmetric :
    ((constructKernel true false [2] ⟨[3], [0, 1, 1]⟩).bind fun s =>
      (addPoints true s [0, 1]).bind fun s => ok s.label.toList) = ok [1, 2] ∧
    ((constructKernel true false [2] ⟨[3], [0, 1, 1]⟩).bind fun s =>
      (addPoints true s [1, 0]).bind fun s => ok s.label.toList) = ok [1, 1] := by
  decide +kernel

/-! ### C03: `clusters` -/

theorem getD_of_ge {l : List Int} {p : Nat} (h : l.length ≤ p) : l.getD p 0 = 0 := by
  simp [List.getD, List.getElem?_eq_none h]

theorem getD_of_lt {l : List Int} {p : Nat} (h : p < l.length) : l.getD p 0 = l[p] := by
  simp [List.getD, h]

theorem idxOf_lt_iff_of_sorted : ∀ {l : List Nat}, l.Pairwise (· < ·) → ∀ {a b : Nat}, a ∈ l → b ∈ l →
    (l.idxOf a < l.idxOf b ↔ a < b) := by
  intro l
  induction l with
  | nil => intro _ a b ha; simp at ha
  | cons c l ih =>
    intro h a b ha hb
    rw [List.pairwise_cons] at h
    rw [List.idxOf_cons, List.idxOf_cons]
    by_cases h1 : c = a <;> by_cases h2 : c = b
    · subst h1; subst h2; simp
    · subst h1
      have hb' : b ∈ l := by simpa [Ne.symm h2] using hb
      have := h.1 b hb'
      simp [cond, beq_eq_false_iff_ne.2 h2, this]
    · subst h2
      have ha' : a ∈ l := by simpa [Ne.symm h1] using ha
      have := h.1 a ha'
      simp [cond]; omega
    · have ha' : a ∈ l := by simpa [Ne.symm h1] using ha
      have hb' : b ∈ l := by simpa [Ne.symm h2] using hb
      simp [cond, beq_eq_false_iff_ne.2 h1, beq_eq_false_iff_ne.2 h2, ih h.2 ha' hb']

/-- The claims on `clusters(f, periodic)` in one statement; `f p` is `f.getD p 0`, `L p` is
`labels.getD p 0`. -/
theorem C03_clusters (dbg periodic : Bool) {shape : List Nat} (hn : 1 ≤ shape.length)
    (hn' : shape.length ≤ 3) (hsmall : shape.prod < 2 ^ 62) {f : List Int}
    (hf : f.length = shape.prod) :
    ∃ labels : List Int, clusters dbg shape f periodic = ok labels ∧ labels.length = shape.prod ∧
      -- background
      (∀ p < shape.prod, labels.getD p 0 = 0 ↔ f.getD p 0 = 0) ∧
      -- connectivity
      (∀ p < shape.prod, ∀ q < shape.prod, f.getD p 0 ≠ 0 → f.getD q 0 ≠ 0 →
        (labels.getD p 0 = labels.getD q 0 ↔
          Joined (FaceAdj periodic shape) (fun r => f.getD r 0 ≠ 0) p q)) ∧
      -- the labels are 1 .. k
      (∃ k : Nat, ∀ l : Int, 1 ≤ l ∧ l ≤ k ↔ l ≠ 0 ∧ ∃ p < shape.prod, labels.getD p 0 = l) ∧
      -- in the order of the first pixel
      (∀ p < shape.prod, ∀ q < shape.prod, f.getD p 0 ≠ 0 → f.getD q 0 ≠ 0 →
        (labels.getD p 0 < labels.getD q 0 ↔
          ∃ o, Joined (FaceAdj periodic shape) (fun r => f.getD r 0 ≠ 0) p o ∧
            ∀ o', Joined (FaceAdj periodic shape) (fun r => f.getD r 0 ≠ 0) q o' → o < o')) := by
  obtain ⟨dx, e, hv, hadj⟩ := C14_default_configuration periodic hn hn' hsmall
  have hc : ∀ c ∈ [Call.addImage f], c.Valid shape.prod := by simp [Call.Valid, hf]
  have hc' : ∀ c ∈ [Call.addImage f, .prune], c.Valid shape.prod := by simp [Call.Valid, hf]
  obtain ⟨s, rets, e1, -⟩ := C09_safe dbg hv hc
  obtain ⟨s', k, e2, -, hk, -⟩ := C07_prune hv hc e1
  have e3 : run dbg (init periodic shape dx) [Call.addImage f, .prune] = ok (s', rets ++ [[]]) := by
    have := run_append dbg [Call.addImage f] .prune (init periodic shape dx)
    simp only [List.cons_append, List.nil_append] at this
    rw [this, e1]
    simp [Outcome.bind, e2]
  obtain ⟨s'', rets', e4, hsz, -⟩ := C09_safe dbg hv hc'
  rw [e3] at e4
  cases e4
  -- the pixels added
  have hadd : added [] [Call.addImage f, .prune] =
      (List.range f.length).filter fun p => f.getD p 0 ≠ 0 := by
    have : ∀ l : List Nat, l.Nodup → visitAll [] l = l := by
      intro l hl
      rw [visitAll_new l [] hl (by simp)]; simp
    simp only [added, Call.visits, visitAll]
    exact this _ (List.nodup_range.filter _)
  have hmem : ∀ p, p ∈ added [] [Call.addImage f, .prune] ↔ p < shape.prod ∧ f.getD p 0 ≠ 0 := by
    intro p
    rw [hadd, List.mem_filter, List.mem_range, hf, decide_eq_true_eq]
  have hmem' : ∀ p, p ∈ added [] [Call.addImage f, .prune] ↔ f.getD p 0 ≠ 0 := by
    intro p
    rw [hmem]
    constructor
    · exact fun h => h.2
    · intro h
      refine ⟨?_, h⟩
      by_contra hge
      apply h
      rw [getD_of_ge (by omega)]
  have hset : (fun r => r ∈ added [] [Call.addImage f, .prune]) = fun r => f.getD r 0 ≠ 0 := by
    funext p; exact propext (hmem' p)
  -- the result
  have hcl : clusters dbg shape f periodic = ok s'.label.toList := by
    have e1' := e1
    have e2' := e2
    unfold clusters
    rw [if_pos (by omega), e]
    simp only [Outcome.bind]
    simp only [run, stepCall, Outcome.bind] at e1' e2'
    have hshape : (init periodic shape dx).shape = shape := rfl
    rw [hshape] at e1'
    cases h1 : addImage dbg (init periodic shape dx) shape f with
    | ok s1 =>
      rw [h1] at e1'
      simp only at e1'
      cases e1'
      cases h2 : prune s with
      | ok s2 => rw [h2] at e2'; simp only at e2'; cases e2'; simp only [h2]
      | throws => rw [h2] at e2'; cases e2'
      | ub => rw [h2] at e2'; cases e2'
      | diverge => rw [h2] at e2'; cases e2'
    | throws => rw [h1] at e1'; cases e1'
    | ub => rw [h1] at e1'; cases e1'
    | diverge => rw [h1] at e1'; cases e1'
  have hget : ∀ p < shape.prod, s'.label.toList.getD p 0 = labelAt s' p := by
    intro p hp
    unfold Vec.toList labelAt
    rw [getD_of_lt (by simpa [hsz] using hp)]
    simp
  refine ⟨s'.label.toList, hcl, by simp [Vec.toList, hsz], ?_, ?_, ⟨k, ?_⟩, ?_⟩
  · intro p hp
    rw [hget p hp, C01_background hv hc' e3 hp, hmem' p, not_not]
  · intro p hp q hq fp fq
    rw [hget p hp, hget q hq, C02_connected hv hc' e3 ((hmem' p).2 fp) ((hmem' q).2 fq), hadj, hset]
  · intro l
    rw [hk l]
    constructor
    · rintro ⟨h0, p, hp, h1⟩
      exact ⟨h0, p, hp, by rw [hget p hp]; exact h1⟩
    · rintro ⟨h0, p, hp, h1⟩
      exact ⟨h0, p, hp, by rw [← hget p hp]; exact h1⟩
  · intro p hp q hq fp fq
    rw [hget p hp, hget q hq, C05_age hv hc' e3 ((hmem' p).2 fp) ((hmem' q).2 fq), hadj, hset]
    have hsorted : (added [] [Call.addImage f, .prune]).Pairwise (· < ·) := by
      rw [hadd]; exact List.pairwise_lt_range.filter _
    have hb : ∀ o o', f.getD o 0 ≠ 0 → f.getD o' 0 ≠ 0 →
        (Before (added [] [Call.addImage f, .prune]) o o' ↔ o < o') := fun o o' h1 h2 =>
      idxOf_lt_iff_of_sorted hsorted ((hmem' o).2 h1) ((hmem' o').2 h2)
    constructor
    · rintro ⟨o, h1, h2⟩
      exact ⟨o, h1, fun o' h3 => (hb o o' (Naive.Joined.mem_right h1) (Naive.Joined.mem_right h3)).1 (h2 o' h3)⟩
    · rintro ⟨o, h1, h2⟩
      exact ⟨o, h1, fun o' h3 => (hb o o' (Naive.Joined.mem_right h1) (Naive.Joined.mem_right h3)).2 (h2 o' h3)⟩

/-- A 3x4 periodic image. -/
example : (clusters true [3, 4] [5, 0, 0, 1, 0, -2, 0, 0, 0, 3, 0, 7] true).get? =
    some [1, 0, 0, 1, 0, 2, 0, 0, 0, 2, 0, 1] := by decide +kernel

/-- `clusters` depends only on which pixels are nonzero. -/
theorem C03_pattern (dbg dbg' periodic : Bool) {shape : List Nat} (hn : 1 ≤ shape.length)
    (hn' : shape.length ≤ 3) (hsmall : shape.prod < 2 ^ 62) {f g : List Int}
    (hf : f.length = shape.prod) (hg : g.length = shape.prod)
    (hfg : ∀ p < shape.prod, f.getD p 0 = 0 ↔ g.getD p 0 = 0) :
    clusters dbg shape f periodic = clusters dbg' shape g periodic := by
  obtain ⟨L, e, hl, b, c, ⟨k, hk⟩, o⟩ := C03_clusters dbg periodic hn hn' hsmall hf
  obtain ⟨L', e', hl', b', c', ⟨k', hk'⟩, o'⟩ := C03_clusters dbg' periodic hn hn' hsmall hg
  have hset : (fun r => f.getD r 0 ≠ 0) = fun r => g.getD r 0 ≠ 0 := by
    funext r
    apply propext
    by_cases hr : r < shape.prod
    · exact not_congr (hfg r hr)
    · rw [getD_of_ge (by omega), getD_of_ge (by omega)]
  have hz : ∀ p < shape.prod, L.getD p 0 = 0 ↔ L'.getD p 0 = 0 := fun p hp => by
    rw [b p hp, b' p hp, hfg p hp]
  have hpos : ∀ p < shape.prod, 0 ≤ L.getD p 0 := by
    intro p hp
    by_cases h : L.getD p 0 = 0
    · omega
    · have := (hk (L.getD p 0)).2 ⟨h, p, hp, rfl⟩; omega
  have hpos' : ∀ p < shape.prod, 0 ≤ L'.getD p 0 := by
    intro p hp
    by_cases h : L'.getD p 0 = 0
    · omega
    · have := (hk' (L'.getD p 0)).2 ⟨h, p, hp, rfl⟩; omega
  have := eq_of_order hk hk' hz (fun p hp q hq => by
    have z1 := hz p hp
    have z2 := hz q hq
    have p1 := hpos p hp
    have p2 := hpos q hq
    have p3 := hpos' p hp
    have p4 := hpos' q hq
    by_cases h1 : f.getD p 0 = 0
    · have := (b p hp).2 h1
      omega
    · by_cases h2 : f.getD q 0 = 0
      · have := (b q hq).2 h2
        omega
      · rw [o p hp q hq h1 h2, o' p hp q hq (fun h => h1 ((hfg p hp).2 h))
          (fun h => h2 ((hfg q hq).2 h)), hset])
  rw [e, e']
  congr 1
  apply List.ext_getElem (by rw [hl, hl'])
  intro i h1 h2
  have := this i (by omega)
  rwa [getD_of_lt h1, getD_of_lt h2] at this

/-- C01 for `clusters`. -/
theorem C01_clusters (dbg periodic : Bool) {shape : List Nat} (hn : 1 ≤ shape.length)
    (hn' : shape.length ≤ 3) (hsmall : shape.prod < 2 ^ 62) {f labels : List Int}
    (hf : f.length = shape.prod) (h : clusters dbg shape f periodic = ok labels) :
    ∀ p < shape.prod, labels.getD p 0 = 0 ↔ f.getD p 0 = 0 := by
  obtain ⟨L, e, -, b, -⟩ := C03_clusters dbg periodic hn hn' hsmall hf
  rw [h] at e
  cases e
  exact b

/-- Two images of 2 x 3 pixels with the same background. -/
example : [1, 0, 1, 0, 1, 0].length = [2, 3].prod ∧ [2, 3].prod < 2 ^ 62 ∧
    (∀ p < [2, 3].prod, ([1, 0, 1, 0, 1, 0] : List Int).getD p 0 = 0 ↔ ([7, 0, -2, 0, 5, 0] : List Int).getD p 0 = 0) ∧
    (clusters true [2, 3] [7, 0, -2, 0, 5, 0] false).get? = some [1, 0, 2, 0, 3, 0] := by
  refine ⟨by decide, by decide, by decide, by decide +kernel⟩

end Verif.Props
