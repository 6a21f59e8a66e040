import Verif.Props.Invariance

/-! # Images with a border of background (C130) -/

namespace Verif.Props

open Verif Outcome Spec Ens Cluster

variable {shape shape' : List Nat} {b : List Int} {periodic : Bool} {f g labels labels' : List Int} {dbg dbg' : Bool}

namespace Spec

/-- An image of the first shape, placed at `b`, fits in one of the second shape; if that is periodic with at least one
pixel to spare along every axis. -/
def Room (periodic : Bool) : List Nat → List Nat → List Int → Prop
  | n :: shape, n' :: shape', o :: b => 0 ≤ o ∧ o + n ≤ n' ∧ (periodic = true → n < n') ∧ Room periodic shape shape' b
  | [], [], [] => True
  | _, _, _ => False

/-- `g` is `f`, placed at `b`, and background around it. -/
structure Padded (periodic : Bool) (shape shape' : List Nat) (b : List Int) (f g : List Int) : Prop where
  room : Room periodic shape shape' b
  inside : ∀ x, InBox shape x → entry shape' g (move x b) = entry shape f x
  outside : ∀ y, InBox shape' y → entry shape' g y ≠ 0 → ∃ x, InBox shape x ∧ y = move x b

end Spec

open Spec

theorem room_length : ∀ {shape shape' : List Nat} {b : List Int}, Room periodic shape shape' b →
    shape'.length = shape.length ∧ b.length = shape.length
  | [], [], [], _ => ⟨rfl, rfl⟩
  | n :: s, n' :: s', o :: b, h => by
    have := room_length h.2.2.2
    simp only [List.length_cons]
    omega
  | [], [], _ :: _, h | [], _ :: _, _, h | _ :: _, [], _, h | _ :: _, _ :: _, [], h => by simp [Room] at h

theorem embed_inbox : ∀ {shape shape' : List Nat} {b x : List Int}, Room periodic shape shape' b → InBox shape x →
    InBox shape' (move x b)
  | [], [], [], _, _, h => by cases h; exact List.Forall₂.nil
  | n :: s, n' :: s', o :: b, _, h, hx => by
    cases hx with
    | cons h1 h2 =>
      refine List.Forall₂.cons ?_ (embed_inbox h.2.2.2 h2)
      have := h.1; have := h.2.1
      show 0 ≤ _ + _ ∧ _ + _ < _
      omega
  | [], [], _ :: _, _, h, _ | [], _ :: _, _, _, h, _ | _ :: _, [], _, _, h, _ | _ :: _, _ :: _, [], _, h, _ => by
    simp [Room] at h

/-- The order of the pixels stays the same. -/
theorem embed_lt : ∀ {shape shape' : List Nat} {b x y : List Int}, Room periodic shape shape' b → InBox shape x →
    InBox shape y → flat shape x < flat shape y → flat shape' (move x b) < flat shape' (move y b)
  | [], [], [], _, _, _, hx, hy, h => by cases hx; cases hy; simp [flat] at h
  | n :: s, n' :: s', o :: b, _, _, hr, hx, hy, h => by
    cases hx with
    | cons h1 h2 =>
    cases hy with
    | cons h3 h4 =>
      rename_i i x j y
      have r1 := flat_range h2
      have r2 := flat_range h4
      have r3 := flat_range (embed_inbox hr.2.2.2 h2)
      have r4 := flat_range (embed_inbox hr.2.2.2 h4)
      have ih := embed_lt hr.2.2.2 h2 h4
      simp only [flat, move, List.zipWith_cons_cons] at h r3 r4 ih ⊢
      rcases lt_trichotomy i j with hij | rfl | hij
      · have := mul_le_mul_of_nonneg_right (show i + o + 1 ≤ j + o by omega) (show (0 : Int) ≤ (s'.prod : Nat) by omega)
        rw [add_mul, one_mul] at this
        omega
      · have := ih (by omega)
        omega
      · have := mul_le_mul_of_nonneg_right (show j + 1 ≤ i by omega) (show (0 : Int) ≤ (s.prod : Nat) by omega)
        rw [add_mul, one_mul] at this
        omega
  | [], [], _ :: _, _, _, h, _, _, _ | [], _ :: _, _, _, _, h, _, _, _ | _ :: _, [], _, _, _, h, _, _, _
  | _ :: _, _ :: _, [], _, _, h, _, _, _ => by simp [Room] at h

theorem embed_shift : ∀ {shape shape' : List Nat} {b x d y : List Int}, Room periodic shape shape' b →
    Spec.Shifted false shape x d y → Spec.Shifted periodic shape' (move x b) d (move y b)
  | [], [], [], [], [], [], _, _ => by simp [Spec.Shifted, move]
  | n :: s, n' :: s', o :: b, i :: x, e :: d, j :: y, hr, h => by
    have ih := embed_shift hr.2.2.2 h.2
    have h := h.1
    simp only [Bool.false_eq_true, if_false] at h
    simp only [move, List.zipWith_cons_cons, Spec.Shifted] at ih ⊢
    refine ⟨?_, ih⟩
    cases periodic
    · simp only [Bool.false_eq_true, if_false]; omega
    · simp only [if_true]
      exact ⟨0, by omega⟩

theorem unembed_shift : ∀ {shape shape' : List Nat} {b x d y : List Int}, Room periodic shape shape' b → InBox shape x →
    InBox shape y → (∀ e ∈ d, -1 ≤ e ∧ e ≤ 1) → Spec.Shifted periodic shape' (move x b) d (move y b) →
    Spec.Shifted false shape x d y
  | [], [], [], _, d, _, _, hx, hy, _, h => by
    cases hx; cases hy
    cases d with
    | nil => trivial
    | cons => simp [move, Spec.Shifted] at h
  | n :: s, n' :: s', o :: b, _, [], _, _, hx, hy, _, h => by
    cases hx; cases hy
    simp [move, Spec.Shifted] at h
  | n :: s, n' :: s', o :: b, _, e :: d, _, hr, hx, hy, he, h => by
    cases hx with
    | cons h1 h2 =>
    cases hy with
    | cons h3 h4 =>
      rename_i i x j y
      simp only [move, List.zipWith_cons_cons, Spec.Shifted] at h
      refine ⟨?_, unembed_shift hr.2.2.2 h2 h4 (fun e' h' => he e' (List.mem_cons_of_mem _ h')) h.2⟩
      have h := h.1
      have hb := he e (List.mem_cons_self ..)
      simp only [Bool.false_eq_true, if_false]
      cases periodic
      · simp only [Bool.false_eq_true, if_false] at h
        omega
      · simp only [if_true] at h
        have hn := hr.2.2.1 rfl
        have := Int.eq_zero_of_abs_lt_dvd h (by rw [abs_lt]; constructor <;> omega)
        omega
  | [], [], _ :: _, _, _, _, h, _, _, _, _ | [], _ :: _, _, _, _, _, h, _, _, _, _ | _ :: _, [], _, _, _, _, h, _, _, _, _
  | _ :: _, _ :: _, [], _, _, _, h, _, _, _, _ => by simp [Room] at h

/-- The index of a pixel in the larger image. -/
private def place (shape shape' : List Nat) (b : List Int) (p : Nat) : Nat :=
  (flat shape' (move (unravelFromStrides (p : Int) (xstrides shape)) b)).toNat

private theorem coords {p : Nat} (hp : p < shape.prod) : ∃ x, InBox shape x ∧ flat shape x = p ∧
    place shape shape' b p = (flat shape' (move x b)).toNat := by
  obtain ⟨h1, h2⟩ := unravel_ok (shape := shape) (p := (p : Int)) (by omega) (by omega)
  exact ⟨_, h1, h2, rfl⟩

private theorem place_flat {x : List Int} (hx : InBox shape x) :
    place shape shape' b (flat shape x).toNat = (flat shape' (move x b)).toNat := by
  have r := flat_range hx
  obtain ⟨y, hy, e, e'⟩ := coords (shape' := shape') (b := b) (show (flat shape x).toNat < shape.prod by omega)
  rw [e', flat_inj hy hx (by omega)]

private theorem place_mono (hr : Room periodic shape shape' b) {p q : Nat} (hp : p < shape.prod) (hq : q < shape.prod) :
    p < q ↔ place shape shape' b p < place shape shape' b q := by
  obtain ⟨x, hx, ex, e1⟩ := coords (shape' := shape') (b := b) hp
  obtain ⟨y, hy, ey, e2⟩ := coords (shape' := shape') (b := b) hq
  have r1 := flat_range (embed_inbox hr hx)
  have r2 := flat_range (embed_inbox hr hy)
  rw [e1, e2]
  rcases lt_trichotomy p q with h | rfl | h
  · have := embed_lt hr hx hy (by omega)
    omega
  · rw [flat_inj hx hy (by omega)]
    simp
  · have := embed_lt hr hy hx (by omega)
    omega

private theorem face_place (hr : Room periodic shape shape' b) {p q : Nat} (h : FaceAdj false shape p q) :
    FaceAdj periodic shape' (place shape shape' b p) (place shape shape' b q) := by
  obtain ⟨x, y, d, h1, h2, hx, hy, hs, ex, ey⟩ := h
  have e1 := place_flat (shape' := shape') (b := b) hx
  have e2 := place_flat (shape' := shape') (b := b) hy
  rw [ex, Int.toNat_natCast] at e1
  rw [ey, Int.toNat_natCast] at e2
  have r1 := flat_range (embed_inbox hr hx)
  have r2 := flat_range (embed_inbox hr hy)
  have hl : d.length = shape'.length := by rw [(room_length hr).1, h1]
  exact ⟨_, _, d, hl, h2, embed_inbox hr hx, embed_inbox hr hy, embed_shift hr hs, by omega, by omega⟩

private theorem face_unplace (hr : Room periodic shape shape' b) {p q : Nat} (hp : p < shape.prod) (hq : q < shape.prod)
    (h : FaceAdj periodic shape' (place shape shape' b p) (place shape shape' b q)) : FaceAdj false shape p q := by
  obtain ⟨x, hx, ex, e1⟩ := coords (shape' := shape') (b := b) hp
  obtain ⟨y, hy, ey, e2⟩ := coords (shape' := shape') (b := b) hq
  obtain ⟨u, v, d, h1, h2, hu, hv, hs, eu, ev⟩ := h
  have r1 := flat_range (embed_inbox hr hx)
  have r2 := flat_range (embed_inbox hr hy)
  have e3 : u = move x b := flat_inj hu (embed_inbox hr hx) (by omega)
  have e4 : v = move y b := flat_inj hv (embed_inbox hr hy) (by omega)
  subst e3 e4
  refine ⟨x, y, d, by rw [h1, (room_length hr).1], h2, hx, hy, unembed_shift hr hx hy ?_ hs, ex, ey⟩
  intro e he
  have := List.le_sum_of_mem (List.mem_map_of_mem (f := Int.natAbs) he)
  omega

private theorem joined_place (hr : Room periodic shape shape' b)
    (hfg : ∀ p < shape.prod, f.getD p 0 ≠ 0 → g.getD (place shape shape' b p) 0 ≠ 0) (hf : f.length = shape.prod) {p q : Nat}
    (h : Joined (FaceAdj false shape) (fun r => f.getD r 0 ≠ 0) p q) :
    Joined (FaceAdj periodic shape') (fun r => g.getD r 0 ≠ 0) (place shape shape' b p) (place shape shape' b q) := by
  refine joined_map (fun p q h => face_place hr h) (fun p hp => hfg p ?_ hp) h
  by_contra hc
  exact hp (getD_of_ge (by omega))

private theorem joined_unplace (hr : Room periodic shape shape' b)
    (hgf : ∀ q, g.getD q 0 ≠ 0 → ∃ p < shape.prod, q = place shape shape' b p ∧ f.getD p 0 ≠ 0) {p q : Nat}
    (hp : p < shape.prod)
    (h : Joined (FaceAdj periodic shape') (fun r => g.getD r 0 ≠ 0) (place shape shape' b p) q) :
    ∃ o < shape.prod, q = place shape shape' b o ∧ Joined (FaceAdj false shape) (fun r => f.getD r 0 ≠ 0) p o := by
  have inj : ∀ {a c : Nat}, a < shape.prod → c < shape.prod → place shape shape' b a = place shape shape' b c → a = c := by
    intro a c ha hc e
    have h1 := place_mono hr ha hc
    have h2 := place_mono hr hc ha
    omega
  generalize e : place shape shape' b p = p' at h
  induction h with
  | refl h =>
    subst e
    obtain ⟨o, ho, e, hv⟩ := hgf _ h
    have := inj hp ho e
    subst this
    exact ⟨p, hp, rfl, .refl hv⟩
  | step _ h1 h2 ih =>
    subst e
    obtain ⟨o, ho, rfl, hj⟩ := ih
    obtain ⟨q, hq, rfl, hv⟩ := hgf _ h2
    exact ⟨q, hq, rfl, .step hj (face_unplace hr ho hq h1) hv⟩

/-- C130: `clusters` of an image with background around it (periodic or not; if periodic with at least one pixel of
background along every axis) is `clusters` of the image without periodicity, with zeros around it. -/
theorem C130_clusters (dbg dbg' : Bool) (hn : 1 ≤ shape.length) (hn' : shape.length ≤ 3) (hsmall : shape'.prod < 2 ^ 62)
    (hf : f.length = shape.prod) (hg : g.length = shape'.prod) (h : Padded periodic shape shape' b f g) :
    ∃ labels labels', clusters dbg shape f false = ok labels ∧ clusters dbg' shape' g periodic = ok labels' ∧
      Padded periodic shape shape' b labels labels' := by
  have hr := h.room
  obtain ⟨hl, hb⟩ := room_length hr
  have lt' : ∀ {p : Nat}, p < shape.prod → place shape shape' b p < shape'.prod := by
    intro p hp
    obtain ⟨x, hx, -, e⟩ := coords (shape' := shape') (b := b) hp
    have := flat_range (embed_inbox hr hx)
    omega
  have hsmall' : shape.prod < 2 ^ 62 := by
    refine lt_of_le_of_lt ?_ hsmall
    have : Function.Injective fun p : Fin shape.prod => (⟨place shape shape' b p.1, lt' p.2⟩ : Fin shape'.prod) := by
      intro a c e
      have e : place shape shape' b a.1 = place shape shape' b c.1 := congrArg Fin.val e
      have h1 := place_mono hr a.2 c.2
      have h2 := place_mono hr c.2 a.2
      exact Fin.ext (by omega)
    simpa using Fintype.card_le_of_injective _ this
  obtain ⟨labels, e, hlen, hbg, -, ⟨k, hk⟩, hord⟩ := C03_clusters dbg false hn hn' hsmall' hf
  obtain ⟨labels', e', hlen', hbg', -, ⟨k', hk'⟩, hord'⟩ := C03_clusters dbg' periodic (by omega) (by omega) hsmall hg
  have hfg : ∀ p < shape.prod, g.getD (place shape shape' b p) 0 = f.getD p 0 := by
    intro p hp
    obtain ⟨x, hx, ex, e⟩ := coords (shape' := shape') (b := b) hp
    have := h.inside x hx
    unfold entry at this
    rwa [ex, Int.toNat_natCast, ← e] at this
  have hgf : ∀ q, g.getD q 0 ≠ 0 → ∃ p < shape.prod, q = place shape shape' b p ∧ f.getD p 0 ≠ 0 := by
    intro q hq
    have hq' : q < shape'.prod := by
      by_contra hc
      exact hq (getD_of_ge (by omega))
    obtain ⟨h1, h2⟩ := unravel_ok (shape := shape') (p := (q : Int)) (by omega) (by omega)
    obtain ⟨x, hx, ex⟩ := h.outside _ h1 (by unfold entry; rw [h2]; exact hq)
    have r := flat_range hx
    have e : q = place shape shape' b (flat shape x).toNat := by rw [place_flat hx, ← ex, h2]; rfl
    refine ⟨(flat shape x).toNat, by omega, e, ?_⟩
    rw [← hfg _ (by omega), ← e]
    exact hq
  have hz : ∀ p < shape.prod, labels.getD p 0 = 0 ↔ labels'.getD (place shape shape' b p) 0 = 0 := by
    intro p hp
    rw [hbg p hp, hbg' _ (lt' hp), hfg p hp]
  have hpos : ∀ p < shape.prod, 0 ≤ labels.getD p 0 := by
    intro p hp
    by_cases h0 : labels.getD p 0 = 0
    · omega
    · have := (hk _).2 ⟨h0, p, hp, rfl⟩
      omega
  have hpos' : ∀ p < shape'.prod, 0 ≤ labels'.getD p 0 := by
    intro p hp
    by_cases h0 : labels'.getD p 0 = 0
    · omega
    · have := (hk' _).2 ⟨h0, p, hp, rfl⟩
      omega
  have key : ∀ p < shape.prod, labels.getD p 0 = labels'.getD (place shape shape' b p) 0 := by
    refine eq_of_order (N := shape.prod) (f := fun p => labels.getD p 0)
      (g := fun p => labels'.getD (place shape shape' b p) 0) hk (k' := k') ?_ hz ?_
    · intro l
      rw [hk' l]
      refine and_congr_right fun hl0 => ⟨?_, fun ⟨p, hp, e⟩ => ⟨_, lt' hp, e⟩⟩
      rintro ⟨q, hq, e⟩
      obtain ⟨p, hp, rfl, -⟩ := hgf q (fun h0 => hl0 (by rw [← e]; exact (hbg' q hq).2 h0))
      exact ⟨p, hp, e⟩
    · intro p hp q hq
      show labels.getD p 0 < labels.getD q 0 ↔ labels'.getD (place shape shape' b p) 0 < labels'.getD (place shape shape' b q) 0
      have z1 := hz p hp
      have z2 := hz q hq
      have p1 := hpos p hp
      have p2 := hpos q hq
      have p3 := hpos' _ (lt' hp)
      have p4 := hpos' _ (lt' hq)
      by_cases h1 : labels.getD p 0 = 0
      · have := z1.1 h1
        omega
      by_cases h2 : labels.getD q 0 = 0
      · have := z2.1 h2
        omega
      have f1 : f.getD p 0 ≠ 0 := fun h0 => h1 ((hbg p hp).2 h0)
      have f2 : f.getD q 0 ≠ 0 := fun h0 => h2 ((hbg q hq).2 h0)
      rw [hord p hp q hq f1 f2, hord' _ (lt' hp) _ (lt' hq) (by rwa [hfg p hp]) (by rwa [hfg q hq])]
      have fwd : ∀ {p q}, Joined (FaceAdj false shape) (fun r => f.getD r 0 ≠ 0) p q →
          Joined (FaceAdj periodic shape') (fun r => g.getD r 0 ≠ 0) (place shape shape' b p) (place shape shape' b q) :=
        fun hj => joined_place hr (fun p hp h0 => by rwa [hfg p hp]) hf hj
      have lim : ∀ {p q}, Joined (FaceAdj false shape) (fun r => f.getD r 0 ≠ 0) p q → q < shape.prod := by
        intro p q hj
        by_contra hc
        exact (Naive.Joined.mem_right hj) (getD_of_ge (by omega))
      constructor
      · rintro ⟨o, ho, hlt⟩
        refine ⟨_, fwd ho, fun o' ho' => ?_⟩
        obtain ⟨o'', ho'', rfl, hj⟩ := joined_unplace hr hgf hq ho'
        exact (place_mono hr (lim ho) ho'').1 (hlt _ hj)
      · rintro ⟨o, ho, hlt⟩
        obtain ⟨o', ho', rfl, hj⟩ := joined_unplace hr hgf hp ho
        refine ⟨o', hj, fun o'' ho'' => ?_⟩
        exact (place_mono hr ho' (lim ho'')).2 (hlt _ (fwd ho''))
  refine ⟨labels, labels', e, e', hr, fun x hx => ?_, fun y hy hv => ?_⟩
  · have r := flat_range hx
    unfold entry
    rw [key _ (by omega), place_flat hx]
  · have r := flat_range hy
    exact h.outside y hy (fun h0 => hv ((hbg' _ (by omega)).2 h0))

/-- An image, and the image with a border (of two rows and one column). -/
private def small : List Int := [1, 0, 1, 1, 0, 0]
private def large : List Int := [0, 0, 0, 0, 1, 0, 1, 0, 1, 0, 0, 0, 0, 0, 0, 0]

example : Padded true [2, 3] [4, 4] [1, 0] small large := by
  have h1 : ∀ x ∈ pixels [2, 3], entry [4, 4] large (move x [1, 0]) = entry [2, 3] small x := by decide
  have h2 : ∀ y ∈ pixels [4, 4], entry [4, 4] large y ≠ 0 → ∃ x ∈ pixels [2, 3], y = move x [1, 0] := by decide
  refine ⟨by simp [Room], fun x hx => h1 x (mem_pixels.2 hx), fun y hy hv => ?_⟩
  obtain ⟨x, hx, e⟩ := h2 y (mem_pixels.2 hy) hv
  exact ⟨x, mem_pixels.1 hx, e⟩

/-- With periodicity the border matters. -/
example : clusters true [2, 3] small false = ok [1, 0, 2, 1, 0, 0] ∧
    clusters true [4, 4] large true = ok [0, 0, 0, 0, 1, 0, 2, 0, 1, 0, 0, 0, 0, 0, 0, 0] ∧
    clusters true [2, 3] small true = ok [1, 0, 1, 1, 0, 0] := by decide +kernel

end Verif.Props
