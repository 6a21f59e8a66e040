import Verif.Props.DilatePadding

/-! # Where an image with a border of background is dilated, for other kernels (C132) -/

namespace Verif.Props

open Verif Outcome Spec Cluster Nd Ens Dilate

variable {shape shape' : List Nat} {b : List Int} {f g kernel : Nd Int}

namespace Spec

/-- `d'` goes along every axis in the direction of `d`, at most as far. -/
def Shorter : List Int → List Int → Prop :=
  List.Forall₂ fun e e' => min 0 e ≤ e' ∧ e' ≤ max 0 e

/-- With each step the kernel has all shorter ones (but for no step at all): solid boxes, crosses, discs, ... -/
def Solid (kernel : Nd Int) : Prop :=
  ∀ d d', Offset kernel d → Shorter d d' → (∀ e ∈ d', e = 0) ∨ Offset kernel d'

end Spec

open Spec

/-- A step moves the nearest pixel along, as far as it can. -/
theorem clamp_shorter : ∀ {shape shape' : List Nat} {b y d : List Int}, Room false shape shape' b → 0 ∉ shape →
    y.length = shape.length → d.length = shape.length →
    ∃ d', Spec.Shorter d d' ∧ clamp shape b (move y d) = move (clamp shape b y) d'
  | [], [], [], [], [], _, _, _, _ => ⟨[], .nil, rfl⟩
  | n :: s, n' :: s', o :: b, i :: y, e :: d, hr, h0, hy, hd => by
    have : n ≠ 0 := fun h => h0 (by rw [h]; exact List.mem_cons_self ..)
    simp only [List.length_cons, Nat.add_right_cancel_iff] at hy hd
    obtain ⟨d', h1, h2⟩ := clamp_shorter hr.2.2.2 (fun h => h0 (List.mem_cons_of_mem _ h)) hy hd
    refine ⟨(max o (min (i + e) (o + n - 1)) - max o (min i (o + n - 1))) :: d', .cons ?_ h1, ?_⟩
    · omega
    · simp only [clamp, move, List.zipWith_cons_cons] at h2 ⊢
      rw [h2]
      congr 1
      omega
  | [], [], _ :: _, _, _, h, _, _, _ | [], _ :: _, _, _, _, h, _, _, _ | _ :: _, [], _, _, _, h, _, _, _
  | _ :: _, _ :: _, [], _, _, h, _, _, _ => by simp [Room] at h

theorem move_zero_all : ∀ {d : List Int} (y : List Int), y.length = d.length → (∀ e ∈ d, e = 0) → move y d = y := by
  intro d y h h0
  refine move_zeros y h ?_
  clear h
  induction d with
  | nil => rfl
  | cons e d ih =>
    rw [List.map_cons, List.sum_cons, h0 e (List.mem_cons_self ..), ih fun e he => h0 e (List.mem_cons_of_mem _ he)]
    rfl

theorem shorter_length {d d' : List Int} (h : Spec.Shorter d d') : d.length = d'.length := List.Forall₂.length_eq h

/-- A walk in the large image, seen from the nearest pixels of the small one. -/
theorem reach_clamped (hr : Room false shape shape' b) (h0 : 0 ∉ shape) (hk : Spec.Solid kernel)
    (hlen : ∀ d, Offset kernel d → d.length = shape.length) {y z : List Int} (hy : y ∈ pixels shape) {n : Nat}
    (h : Reach false shape' kernel (move y b) n z) :
    z ∈ pixels shape' ∧ ∃ x ∈ pixels shape, clamp shape b z = move x b ∧ Reach false shape kernel y n x := by
  obtain ⟨l1, l2⟩ := room_length hr
  induction h with
  | here n =>
    exact ⟨mem_pixels.2 (embed_inbox hr (mem_pixels.1 hy)), y, hy, clamp_inside hr (mem_pixels.1 hy), .here _⟩
  | step n w d hw hd ht ih =>
    obtain ⟨hw', x, hx, e, hx'⟩ := ih
    refine ⟨ht, ?_⟩
    have lw := (mem_pixels.1 hw').length_eq
    have lx := (mem_pixels.1 hx).length_eq
    obtain ⟨d', hs, e'⟩ := clamp_shorter hr h0 (y := w) (d := d) (by omega) (hlen d hd)
    have ld' := shorter_length hs
    have ld := hlen d hd
    have et : target false shape' w d = move w d := rfl
    rw [et] at ht ⊢
    obtain ⟨x', hx'', e''⟩ := clamp_mem hr h0 (mem_pixels.1 ht)
    have lx' := hx''.length_eq
    have : move x d' = x' := by
      rw [e', e, move_swap] at e''
      exact move_cancel (by simp [move]; omega) (by omega) e''
    refine ⟨x', mem_pixels.2 hx'', e'', ?_⟩
    rcases hk d d' hd hs with hz | hd'
    · rw [move_zero_all x (by omega) hz] at this
      subst this
      exact Reach.mono hx' (by omega)
    · subst this
      exact Reach.step _ _ _ hx' hd' (mem_pixels.2 hx'')

theorem reach_embed (hr : Room false shape shape' b) {y z : List Int} {n : Nat}
    (h : Reach false shape kernel y n z) : Reach false shape' kernel (move y b) n (move z b) := by
  induction h with
  | here n => exact .here _
  | step n w d hw hd ht ih =>
    have e : target false shape' (move w b) d = move (target false shape w d) b := move_swap ..
    rw [← e]
    exact .step _ _ _ ih hd (by rw [e]; exact mem_pixels.2 (embed_inbox hr (mem_pixels.1 ht)))

/-- C132 for every solid kernel: without periodicity, a border of background does not change which pixels of the image get
a label. -/
theorem C132_support (dbg dbg' : Bool) {n : Nat} (a : SameArgs false f kernel) (hk : Spec.Solid kernel)
    (hp : Spec.Framed b f g) :
    ∃ r r', dilateSame dbg f kernel n false = ok r ∧ dilateSame dbg' g kernel n false = ok r' ∧
      r.shape = f.shape ∧ r'.shape = g.shape ∧ ∀ x ∈ pixels f.shape, val r' (move x b) ≠ 0 ↔ val r x ≠ 0 := by
  have hlen : ∀ d, Offset kernel d → d.length = f.shape.length := by
    rintro d ⟨i, hi, -, rfl⟩
    have := (mem_pixels.1 hi).length_eq
    simp [displacement, a.legal.same, ← this]
  have a' := framed_args a hp
  obtain ⟨r, e1, s1, -, h3, h4⟩ := C23_same dbg (k := n) a.legal a.image a.mask a.label
  obtain ⟨r', e2, s2, -, h3', h4'⟩ := C23_same dbg' (k := n) a'.legal a'.image a'.mask a'.label
  refine ⟨r, r', e1, e2, s1, s2, fun x hx => ?_⟩
  have hx' := mem_pixels.2 (embed_inbox hp.room (mem_pixels.1 hx))
  constructor
  · intro h
    obtain ⟨y, hy, hv, hr⟩ := h3' _ hx' h
    obtain ⟨w, hw, rfl⟩ := hp.outside y hy (by rw [hv]; exact h)
    obtain ⟨-, x', hx'', e, hr'⟩ := reach_clamped hp.room a.image hk hlen hw hr
    rw [clamp_inside hp.room (mem_pixels.1 hx)] at e
    have l1 := (mem_pixels.1 hx).length_eq
    have l2 := (mem_pixels.1 hx'').length_eq
    have l3 := (room_length hp.room).2
    obtain rfl : x = x' := move_cancel (by omega) (by omega) e
    refine h4 x hx ⟨w, hw, ?_, hr'⟩
    rw [← hp.inside w hw, hv]
    exact h
  · intro h
    obtain ⟨y, hy, hv, hr⟩ := h3 x hx h
    refine h4' _ hx' ⟨move y b, mem_pixels.2 (embed_inbox hp.room (mem_pixels.1 hy)), ?_, reach_embed hp.room hr⟩
    rw [hp.inside y hy, hv]
    exact h

theorem nearest_solid {n : Nat} {k : Nd Int} (hk : ∀ d, Offset k d ↔ NearestStep n d) : Spec.Solid k := by
  intro d d' hd hs
  right
  obtain ⟨l, hb, h0⟩ := (hk d).1 hd
  refine (hk d').2 ⟨by rw [← shorter_length hs, l], ?_, h0.imp id fun h => ?_⟩
  · clear h0 l hd
    induction hs with
    | nil => simp
    | cons h _ ih =>
      intro e he
      rcases List.mem_cons.1 he with rfl | he
      · have := hb _ (List.mem_cons_self ..)
        omega
      · exact ih (fun e he => hb e (List.mem_cons_of_mem _ he)) e he
  · clear h0 l hd hb
    induction hs with
    | nil => exact h
    | cons h' _ ih =>
      rcases List.mem_cons.1 h with rfl | h
      · exact List.mem_cons.2 (Or.inl (by omega))
      · exact List.mem_cons_of_mem _ (ih h)

/-- C132 with the default kernel, in one to three dimensions. -/
theorem C132_support_default (dbg : Bool) {n : Nat} (hn : 1 ≤ f.shape.length) (hn' : f.shape.length ≤ 3)
    (h0 : 0 ∉ f.shape) (hf : ∀ x ∈ pixels f.shape, 0 ≤ val f x) (hp : Spec.Framed b f g) :
    ∃ r r', dilateNearestSame dbg f n false = ok r ∧ dilateNearestSame dbg g n false = ok r' ∧
      r.shape = f.shape ∧ r'.shape = g.shape ∧ ∀ x ∈ pixels f.shape, val r' (move x b) ≠ 0 ↔ val r x ≠ 0 := by
  have hgl := (room_length hp.room).1
  obtain ⟨K, eK, sK, mK, oK⟩ := nearest_facts dbg hn hn'
  have hl : Legal false f.shape K.shape := by rw [sK]; exact nearest_legal rfl (by omega) h0
  obtain ⟨r, r', e1, e2, h⟩ := C132_support dbg dbg (n := n) ⟨hl, h0, mK, hf⟩ (nearest_solid oK) hp
  refine ⟨r, r', ?_, ?_, h⟩
  · unfold dilateSame at e1
    unfold dilateNearestSame
    simp only [eK, ok_bind]
    exact e1
  · unfold dilateSame at e2
    unfold dilateNearestSame
    rw [hgl]
    simp only [eK, ok_bind]
    exact e2

/-! ### The hypotheses are met -/

private def image : Nd Int := Nd.ofList [2, 2] [2, 0, 0, 0]
private def framed : Nd Int := Nd.ofList [2, 3] [0, 2, 0, 0, 0, 0]
private def square : Nd Int := Nd.ofList [3, 3] [1, 1, 1, 1, 1, 1, 1, 1, 1]

example : SameArgs false image square ∧ Spec.Framed [0, 1] image framed := by
  refine ⟨⟨⟨?_, ?_, ?_, ?_⟩, ?_, ?_, ?_⟩, ⟨?_, ?_, ?_⟩⟩
  · decide
  · decide
  · decide
  · simp [Fits]
  · decide
  · unfold IsMask; decide
  · decide
  · show Room false [2, 2] [2, 3] [0, 1]
    simp [Room]
  · decide +kernel
  · decide +kernel

/-- The square is solid. -/
example : Spec.Solid square := by
  have key : ∀ d, Offset square d ↔ d.length = 2 ∧ ∀ e ∈ d, -1 ≤ e ∧ e ≤ 1 := by
    intro d
    constructor
    · rintro ⟨i, hi, hv, rfl⟩
      revert i
      decide
    · rintro ⟨h1, h2⟩
      obtain ⟨i, j, rfl⟩ := List.length_eq_two.1 h1
      have := h2 i (by simp)
      have := h2 j (by simp)
      refine ⟨[i + 1, j + 1], ?_, ?_, ?_⟩
      · rw [mem_pixels]
        exact .cons (by show 0 ≤ _ + _ ∧ _ + _ < _; omega) (.cons (by show 0 ≤ _ + _ ∧ _ + _ < _; omega) .nil)
      · obtain rfl | rfl | rfl : i = -1 ∨ i = 0 ∨ i = 1 := by omega
        all_goals obtain rfl | rfl | rfl : j = -1 ∨ j = 0 ∨ j = 1 := by omega
        all_goals decide
      · simp [displacement, square, Nd.ofList]
  intro d d' hd hs
  right
  obtain ⟨h1, h2⟩ := (key d).1 hd
  refine (key d').2 ⟨by rw [← shorter_length hs, h1], ?_⟩
  clear h1 hd
  induction hs with
  | nil => simp
  | cons h _ ih =>
    intro e he
    rcases List.mem_cons.1 he with rfl | he
    · have := h2 _ (List.mem_cons_self ..)
      omega
    · exact ih (fun e he => h2 e (List.mem_cons_of_mem _ he)) e he

end Verif.Props
