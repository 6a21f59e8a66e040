import Verif.Props.Padding
import Verif.Props.Gap
import Verif.Props.Crop
import Verif.Props.Regions

/-! # Dilation of images with a border of background (C132) -/

namespace Verif.Props

open Verif Outcome Spec Cluster Nd Ens Dilate

variable {shape shape' : List Nat} {b : List Int} {f g kernel : Nd Int}

namespace Spec

/-- `g` is `f`, placed at `b`, and background around it. -/
structure Framed (b : List Int) (f g : Nd Int) : Prop where
  room : Room false f.shape g.shape b
  inside : ∀ x ∈ pixels f.shape, val g (move x b) = val f x
  outside : ∀ y ∈ pixels g.shape, val g y ≠ 0 → ∃ x ∈ pixels f.shape, y = move x b

end Spec

open Spec

/-- The nearest pixel of the small image. -/
def clamp : List Nat → List Int → List Int → List Int
  | n :: s, o :: b, i :: y => max o (min i (o + n - 1)) :: clamp s b y
  | _, _, _ => []

theorem clamp_mem : ∀ {shape shape' : List Nat} {b y : List Int}, Room false shape shape' b → 0 ∉ shape → InBox shape' y →
    ∃ x, InBox shape x ∧ clamp shape b y = move x b
  | [], [], [], _, _, _, hy => by cases hy; exact ⟨[], List.Forall₂.nil, rfl⟩
  | n :: s, n' :: s', o :: b, _, hr, h0, hy => by
    cases hy with
    | cons h1 h2 =>
      rename_i i y
      obtain ⟨x, hx, e⟩ := clamp_mem hr.2.2.2 (fun h => h0 (List.mem_cons_of_mem _ h)) h2
      have : n ≠ 0 := fun h => h0 (by rw [h]; exact List.mem_cons_self ..)
      refine ⟨(max o (min i (o + n - 1)) - o) :: x, List.Forall₂.cons ?_ hx, ?_⟩
      · show 0 ≤ _ - _ ∧ _ - _ < _
        omega
      · simp only [clamp, e, move, List.zipWith_cons_cons]
        congr 1
        omega
  | [], [], _ :: _, _, h, _, _ | [], _ :: _, _, _, h, _, _ | _ :: _, [], _, _, h, _, _ | _ :: _, _ :: _, [], _, h, _, _ => by
    simp [Room] at h

theorem clamp_inside : ∀ {shape shape' : List Nat} {b x : List Int}, Room false shape shape' b → InBox shape x →
    clamp shape b (move x b) = move x b
  | [], [], [], _, _, hx => by cases hx; rfl
  | n :: s, n' :: s', o :: b, _, hr, hx => by
    cases hx with
    | cons h1 h2 =>
      simp only [clamp, move, List.zipWith_cons_cons]
      have := clamp_inside hr.2.2.2 h2
      rw [show List.zipWith (fun a b => a + b) _ b = move _ b from rfl, this]
      congr 1
      omega
  | [], [], _ :: _, _, h, _ | [], _ :: _, _, _, h, _ | _ :: _, [], _, _, h, _ | _ :: _, _ :: _, [], _, h, _ => by
    simp [Room] at h

theorem move_zeros : ∀ {d : List Int} (y : List Int), y.length = d.length → (d.map Int.natAbs).sum = 0 → move y d = y
  | [], [], _, _ => rfl
  | e :: d, i :: y, h, h0 => by
    simp only [List.map_cons, List.sum_cons, Nat.add_eq_zero_iff, Int.natAbs_eq_zero] at h0
    simp only [List.length_cons, Nat.add_right_cancel_iff] at h
    have := move_zeros y h h0.2
    simp only [move, List.zipWith_cons_cons] at this ⊢
    rw [this, h0.1, add_zero]

theorem clamp_length : ∀ {shape shape' : List Nat} {b y : List Int}, Room false shape shape' b → y.length = shape.length →
    (clamp shape b y).length = shape.length
  | [], [], [], [], _, _ => rfl
  | n :: s, n' :: s', o :: b, i :: y, hr, hy => by
    have := clamp_length hr.2.2.2 (y := y) (by simpa using hy)
    simp only [clamp, List.length_cons, this]
  | [], [], _ :: _, _, h, _ | [], _ :: _, _, _, h, _ | _ :: _, [], _, _, h, _ | _ :: _, _ :: _, [], _, h, _ => by
    simp [Room] at h

/-- A step moves the nearest pixel along, or not at all. -/
theorem clamp_move : ∀ {shape shape' : List Nat} {b y d : List Int}, Room false shape shape' b → 0 ∉ shape →
    y.length = shape.length → d.length = shape.length → (d.map Int.natAbs).sum ≤ 1 →
    clamp shape b (move y d) = clamp shape b y ∨ clamp shape b (move y d) = move (clamp shape b y) d
  | [], [], [], [], [], _, _, _, _, _ => Or.inl rfl
  | n :: s, n' :: s', o :: b, i :: y, e :: d, hr, h0, hy, hd, hs => by
    have : n ≠ 0 := fun h => h0 (by rw [h]; exact List.mem_cons_self ..)
    simp only [List.map_cons, List.sum_cons] at hs
    simp only [List.length_cons, Nat.add_right_cancel_iff] at hy hd
    have ih := clamp_move hr.2.2.2 (fun h => h0 (List.mem_cons_of_mem _ h)) hy hd (by omega)
    simp only [clamp, move, List.zipWith_cons_cons] at ih ⊢
    by_cases he : e = 0
    · subst he
      rcases ih with ih | ih
      · exact Or.inl (by rw [ih, add_zero])
      · exact Or.inr (by rw [ih, add_zero, add_zero])
    · have hz : (d.map Int.natAbs).sum = 0 := by omega
      have e1 := move_zeros y (by omega) hz
      have e2 := move_zeros (clamp s b y) (by rw [clamp_length hr.2.2.2 hy, hd]) hz
      unfold move at e1 e2
      rw [e1, e2]
      by_cases hc : max o (min (i + e) (o + n - 1)) = max o (min i (o + n - 1))
      · exact Or.inl (by rw [hc])
      · refine Or.inr ?_
        congr 1
        omega
  | [], [], _ :: _, _, _, h, _, _, _, _ | [], _ :: _, _, _, _, h, _, _, _, _ | _ :: _, [], _, _, _, h, _, _, _, _
  | _ :: _, _ :: _, [], _, _, h, _, _, _, _ => by simp [Room] at h

theorem pixels_sorted : ∀ s : List Nat, (pixels s).Pairwise fun x y => flat s x < flat s y
  | [] => by simp [pixels]
  | n :: s => by
    rw [pixels, List.pairwise_flatMap]
    constructor
    · intro i _
      rw [List.pairwise_map]
      refine (pixels_sorted s).imp fun h => ?_
      simp only [flat]
      omega
    · refine (List.pairwise_lt_range (n := n)).imp fun {i j} hij x hx y hy => ?_
      rw [List.mem_map] at hx hy
      obtain ⟨x, hx, rfl⟩ := hx
      obtain ⟨y, hy, rfl⟩ := hy
      have r1 := flat_range (mem_pixels.1 hx)
      have r2 := flat_range (mem_pixels.1 hy)
      simp only [flat]
      have := mul_le_mul_of_nonneg_right (show (i : Int) + 1 ≤ j by omega) (show (0 : Int) ≤ (s.prod : Nat) by omega)
      rw [add_mul, one_mul] at this
      omega

/-- The pixels of a selection inside the small image, in the order of the large one. -/
theorem filter_embed (hr : Room false shape shape' b) {P Q : List Int → Bool}
    (h : ∀ x ∈ pixels shape, Q (move x b) = P x)
    (ho : ∀ y ∈ pixels shape', Q y = true → ∃ x ∈ pixels shape, y = move x b) :
    (pixels shape').filter Q = ((pixels shape).filter P).map (move · b) := by
  have s1 : ((pixels shape').filter Q).Pairwise fun x y => flat shape' x < flat shape' y :=
    (pixels_sorted shape').filter _
  have s2 : (((pixels shape).filter P).map (move · b)).Pairwise fun x y => flat shape' x < flat shape' y := by
    rw [List.pairwise_map]
    refine List.Pairwise.imp_of_mem (fun {x y} hx hy hxy => ?_) ((pixels_sorted shape).filter P)
    exact embed_lt hr (mem_pixels.1 (List.mem_filter.1 hx).1) (mem_pixels.1 (List.mem_filter.1 hy).1) hxy
  have nd : ∀ {l : List (List Int)}, l.Pairwise (fun x y => flat shape' x < flat shape' y) → l.Nodup := fun h =>
    h.imp fun hxy e => by rw [e] at hxy; omega
  refine List.Perm.eq_of_pairwise (le := fun x y => flat shape' x < flat shape' y) (fun x y _ _ h1 h2 => by omega) s1 s2 ?_
  rw [List.perm_ext_iff_of_nodup (nd s1) (nd s2)]
  intro y
  rw [List.mem_filter, List.mem_map]
  constructor
  · rintro ⟨hy, hq⟩
    obtain ⟨x, hx, rfl⟩ := ho y hy hq
    exact ⟨x, List.mem_filter.2 ⟨hx, by rw [← h x hx]; exact hq⟩, rfl⟩
  · rintro ⟨x, hx, rfl⟩
    rw [List.mem_filter] at hx
    exact ⟨mem_pixels.2 (embed_inbox hr (mem_pixels.1 hx.1)), by rw [h x hx.1]; exact hx.2⟩

theorem layers_label {it : Int → Nat} {φ : List Int → Int} {k : Nat} (hk : ∀ x ∈ pixels shape, φ x ≠ 0 → it (φ x) = k) {T : Nat}
    {z : List Int} (hz : z ∈ pixels shape) (h : layers shape kernel it φ T z ≠ 0) :
    it (layers shape kernel it φ T z) = k := by
  obtain ⟨y, hy, e, -⟩ := layers_joined T z hz h
  rw [← e]
  exact hk y hy (by rw [e]; exact h)

theorem move_cancel : ∀ {y z d : List Int}, y.length = d.length → z.length = d.length → move y d = move z d → y = z
  | [], [], [], _, _, _ => rfl
  | i :: y, j :: z, e :: d, hy, hz, h => by
    simp only [move, List.zipWith_cons_cons, List.cons.injEq] at h
    have := move_cancel (y := y) (z := z) (d := d) (by simpa using hy) (by simpa using hz) h.2
    rw [this, show i = j by omega]
  | [], _ :: _, _, h1, h2, _ | _ :: _, [], _, h1, h2, _ => by rw [← h2] at h1; simp at h1

/-- Both images, layer by layer. -/
theorem layers_framed (hr : Room false shape shape' b) (h0 : 0 ∉ shape) (hk : (∀ d, Offset kernel d → d.length = shape.length ∧ (d.map Int.natAbs).sum ≤ 1))
    {it it' : Int → Nat} {φ ψ : List Int → Int} {k : Nat}
    (hin : ∀ x ∈ pixels shape, ψ (move x b) = φ x)
    (hout : ∀ y ∈ pixels shape', ψ y ≠ 0 → ∃ x ∈ pixels shape, y = move x b)
    (hi : ∀ x ∈ pixels shape, φ x ≠ 0 → it (φ x) = k) (hi' : ∀ y ∈ pixels shape', ψ y ≠ 0 → it' (ψ y) = k) :
    ∀ T, T ≤ k →
      (∀ y ∈ pixels shape', layers shape' kernel it' ψ T y ≠ 0 → layers shape' kernel it' ψ T (clamp shape b y) ≠ 0) ∧
      ∀ x ∈ pixels shape, layers shape' kernel it' ψ T (move x b) = layers shape kernel it φ T x
  | 0, _ => by
    refine ⟨fun y hy h => ?_, hin⟩
    obtain ⟨x, hx, rfl⟩ := hout y hy h
    rw [clamp_inside hr (mem_pixels.1 hx)]
    exact h
  | T + 1, hT => by
    obtain ⟨hA, hB⟩ := layers_framed hr h0 hk hin hout hi hi' T (by omega)
    obtain ⟨hl, hl'⟩ := room_length hr
    have len : ∀ {y : List Int}, y ∈ pixels shape' → y.length = shape.length := fun hy => by
      rw [← hl]; exact (mem_pixels.1 hy).length_eq.symm
    have cmem : ∀ {y : List Int}, y ∈ pixels shape' → clamp shape b y ∈ pixels shape' := fun hy => by
      obtain ⟨x, hx, e⟩ := clamp_mem hr h0 (mem_pixels.1 hy)
      rw [e]
      exact mem_pixels.2 (embed_inbox hr hx)
    refine ⟨fun y hy h => ?_, fun x hx => ?_⟩
    · by_cases hc : layers shape' kernel it' ψ T (clamp shape b y) = 0
      · have h' : layers shape' kernel it' ψ T y = 0 := by
          by_contra h'
          exact hA y hy h' hc
        obtain ⟨w, hw, e, -, d, hd, rfl⟩ := layers_new h' h
        have hw0 := hA w hw (by rw [e]; exact h)
        rcases clamp_move hr h0 (len hw) (hk d hd).1 (hk d hd).2 with e' | e'
        · rw [e'] at hc
          exact absurd hc hw0
        · rw [e']
          refine layers_grow (cmem hw) hw0 ?_ ⟨d, hd, rfl⟩
          rw [layers_label hi' (cmem hw) hw0]
          omega
      · rw [layers_keep hc]
        exact hc
    · show spread _ _ _ _ _ = spread _ _ _ _ _
      unfold spread
      rw [hB x hx]
      by_cases hv : layers shape kernel it φ T x = 0
      · rw [if_neg (by simpa using hv), if_neg (by simpa using hv)]
        rw [filter_embed hr (P := fun w => decide (layers shape kernel it φ T w ≠ 0 ∧
          decide (T < it (layers shape kernel it φ T w)) = true ∧ Covers kernel w x))]
        · rw [List.getLast?_map, Option.map_map]
          cases e : ((pixels shape).filter fun w => decide (layers shape kernel it φ T w ≠ 0 ∧
            decide (T < it (layers shape kernel it φ T w)) = true ∧ Covers kernel w x)).getLast? with
          | none => rfl
          | some w =>
            have hw := List.mem_of_getLast? e
            exact hB w (List.mem_filter.1 hw).1
        · intro w hw
          rw [hB w hw, decide_eq_decide]
          refine and_congr_right fun hw0 => ?_
          have hw' := mem_pixels.2 (embed_inbox hr (mem_pixels.1 hw))
          have e1 := layers_label hi hw hw0
          have e2 := layers_label hi' hw' (by rw [hB w hw]; exact hw0)
          rw [hB w hw] at e2
          show decide (T < it' _) = true ∧ _ ↔ _
          rw [e1, e2]
          refine and_congr_right fun _ => ?_
          unfold Covers
          have key : ∀ i, val kernel i = 1 → i ∈ pixels kernel.shape →
              (move (move w b) (displacement kernel.shape i) = move x b ↔ move w (displacement kernel.shape i) = x) := by
            intro i hv' hi'
            have hdl := (hk _ ⟨i, hi', hv', rfl⟩).1
            have wl := (mem_pixels.1 hw).length_eq
            have xl := (mem_pixels.1 hx).length_eq
            rw [move_swap]
            constructor
            · exact move_cancel (by simp [move]; omega) (by omega)
            · intro h; rw [h]
          constructor
          · rintro ⟨i, hi, hv', e⟩
            exact ⟨i, hi, hv', (key i hv' hi).1 e⟩
          · rintro ⟨i, hi, hv', e⟩
            exact ⟨i, hi, hv', (key i hv' hi).2 e⟩
        · intro w hw hq
          simp only [decide_eq_true_eq] at hq
          obtain ⟨hw0, -, hc⟩ := hq
          obtain ⟨d, hd, e⟩ := offset_covers.2 hc
          have hwc := hA w hw hw0
          have ec := clamp_move hr h0 (len hw) (hk d hd).1 (hk d hd).2
          rw [← e, clamp_inside hr (mem_pixels.1 hx)] at ec
          rcases ec with ec | ec
          · rw [← ec, hB x hx] at hwc
            exact absurd hv hwc
          · rw [e] at ec
            have : w = clamp shape b w := move_cancel (by rw [len hw, (hk d hd).1])
              (by rw [clamp_length hr (len hw), (hk d hd).1]) ec
            obtain ⟨z, hz, e'⟩ := clamp_mem hr h0 (mem_pixels.1 hw)
            exact ⟨z, mem_pixels.2 hz, this.trans e'⟩
      · rw [if_pos hv, if_pos hv]

theorem framed_args (a : SameArgs false f kernel) (hp : Spec.Framed b f g) : SameArgs false g kernel := by
  have hgl := (room_length hp.room).1
  have hg0 : 0 ∉ g.shape := by
    obtain ⟨x, hx⟩ := exists_pixel a.image
    have := embed_inbox hp.room (mem_pixels.1 hx)
    intro h
    have := flat_range this
    rw [List.prod_eq_zero h] at this
    omega
  have hgl' : ∀ y ∈ pixels g.shape, 0 ≤ val g y := by
    intro y hy
    by_cases h : val g y = 0
    · omega
    · obtain ⟨x, hx, rfl⟩ := hp.outside y hy h
      rw [hp.inside x hx]
      exact a.label x hx
  exact ⟨⟨a.legal.rank, a.legal.pos, hgl.trans a.legal.same, by simp [Fits]⟩, hg0, a.mask, hgl'⟩

/-- C132: without periodicity, a border of background does not change the dilation by a kernel whose steps are by one
pixel along one axis, with the same number of iterations for all labels: every pixel of the image gets the label that it gets without the border. -/
theorem C132_dilate (dbg dbg' : Bool) {n : Nat} (a : SameArgs false f kernel) (hk : ∀ d, Offset kernel d → (d.map Int.natAbs).sum ≤ 1)
    (hp : Spec.Framed b f g) :
    ∃ r r', dilateSame dbg f kernel n false = ok r ∧ dilateSame dbg' g kernel n false = ok r' ∧
      r.shape = f.shape ∧ r'.shape = g.shape ∧ ∀ x ∈ pixels f.shape, val r' (move x b) = val r x := by
  have hk' : ∀ d, Offset kernel d → d.length = f.shape.length ∧ (d.map Int.natAbs).sum ≤ 1 := by
    intro d hd
    refine ⟨?_, hk d hd⟩
    obtain ⟨i, hi, -, rfl⟩ := hd
    have := (mem_pixels.1 hi).length_eq
    simp [displacement, a.legal.same, ← this]
  have a' := framed_args a hp
  obtain ⟨m, e1, -, d1, i1⟩ := same_args (k := n) a.legal a.image a.mask a.label
  obtain ⟨m', e2, -, d2, i2⟩ := same_args (k := n) a'.legal a'.image a'.mask a'.label
  obtain ⟨r, h1, s1, v1⟩ := C59_layers dbg d1 (T := n) (fun j hj => by rw [List.eq_of_mem_replicate hj])
  obtain ⟨r', h2, s2, v2⟩ := C59_layers dbg' d2 (T := n) (fun j hj => by rw [List.eq_of_mem_replicate hj])
  refine ⟨r, r', ?_, ?_, s1, s2, fun x hx => ?_⟩
  · unfold dilateSame; rw [e1]; exact h1
  · unfold dilateSame; rw [e2]; exact h2
  · rw [v1 x hx, v2 _ (mem_pixels.2 (embed_inbox hp.room (mem_pixels.1 hx)))]
    exact (layers_framed hp.room a.image hk' hp.inside hp.outside (fun x hx _ => i1 x hx) (fun y hy _ => i2 y hy) n
      (le_refl _)).2 x hx

/-- C132 with the default kernel, in one and two dimensions. -/
theorem C132_default (dbg : Bool) {n : Nat} (hn : 1 ≤ f.shape.length) (hn' : f.shape.length ≤ 2)
    (h0 : 0 ∉ f.shape) (hf : ∀ x ∈ pixels f.shape, 0 ≤ val f x) (hp : Spec.Framed b f g) :
    ∃ r r', dilateNearestSame dbg f n false = ok r ∧ dilateNearestSame dbg g n false = ok r' ∧
      r.shape = f.shape ∧ r'.shape = g.shape ∧ ∀ x ∈ pixels f.shape, val r' (move x b) = val r x := by
  have hgl := (room_length hp.room).1
  obtain ⟨K, eK, sK, mK, oK⟩ := nearest_facts dbg hn (by omega : f.shape.length ≤ 3)
  have hl : Legal false f.shape K.shape := by rw [sK]; exact nearest_legal rfl (by omega) h0
  have hk := nearest_face hn hn' oK
  obtain ⟨r, r', e1, e2, h⟩ := C132_dilate dbg dbg (n := n) ⟨hl, h0, mK, hf⟩ (fun d hd => (hk.1 d hd).2) hp
  refine ⟨r, r', ?_, ?_, h⟩
  · unfold dilateSame at e1
    unfold dilateNearestSame
    simp only [eK, ok_bind]
    exact e1
  · unfold dilateSame at e2
    unfold dilateNearestSame
    rw [hgl]
    simp only [eK, ok_bind]
    exact e2

/-! ### The hypotheses are met -/

private def image : Nd Int := Nd.ofList [1, 4] [2, 0, 0, 1]
private def framed : Nd Int := Nd.ofList [3, 4] [0, 0, 0, 0, 2, 0, 0, 1, 0, 0, 0, 0]
private def plus : Nd Int := Nd.ofList [3, 3] [0, 1, 0, 1, 1, 1, 0, 1, 0]

example : SameArgs false image plus ∧ (∀ d, Offset plus d → (d.map Int.natAbs).sum ≤ 1) ∧
    Spec.Framed [1, 0] image framed := by
  refine ⟨⟨⟨?_, ?_, ?_, ?_⟩, ?_, ?_, ?_⟩, ?_, ⟨?_, ?_, ?_⟩⟩
  · decide
  · decide
  · decide
  · simp [Fits]
  · decide
  · unfold IsMask; decide
  · decide
  · rintro d ⟨i, hi, hv, rfl⟩
    revert i
    decide
  · show Room false [1, 4] [3, 4] [1, 0]
    simp [Room]
  · decide +kernel
  · decide +kernel

/-- Two layers of the image, and of the image in its frame. -/
example : (dilateSame true image plus 2 false).map Nd.toList = ok [2, 2, 1, 1] ∧
    (dilateSame true framed plus 2 false).map Nd.toList = ok [2, 2, 1, 1, 2, 2, 1, 1, 2, 2, 1, 1] := by decide +kernel

/-- With different numbers of iterations the frame does matter: a label passes another one through it. -/
example : (dilate true (Nd.ofList [1, 3] [2, 1, 0]) plus [0, 0, 4] false).map Nd.toList = ok [2, 1, 0] ∧
    (dilate true (Nd.ofList [2, 3] [2, 1, 0, 0, 0, 0]) plus [0, 0, 4] false).map Nd.toList = ok [2, 1, 2, 2, 2, 2] := by
  decide +kernel

end Verif.Props
