import Verif.Props.Tiling
import Verif.Props.Gap

/-! # Dilation and clusters of a repeated periodic image (C136) -/

namespace Verif.Props

open Verif Outcome Spec Cluster Nd Ens Dilate

variable {dbg dbg' : Bool} {f f' kernel : Nd Int} {copies s s' : List Nat}

namespace Spec

/-- The shape `s'` is that of copies of an image of shape `s`: `copies[k]` along axis `k`, at least one. -/
def CopiesOf (copies s s' : List Nat) : Prop :=
  copies.length = s.length ∧ 0 ∉ copies ∧ s' = List.zipWith (fun c n => c * n) copies s

end Spec

open Spec

theorem copies_length (h : CopiesOf copies s s') : s'.length = s.length := by
  rw [h.2.2]; simp [h.1]

private theorem copies_nonzero : ∀ {copies s : List Nat}, 0 ∉ copies → 0 ∉ s →
    0 ∉ List.zipWith (fun c n => c * n) copies s
  | [], s, _, _ => by simp
  | c :: copies, [], _, _ => by simp
  | c :: copies, n :: s, h, h' => by
    simp only [List.mem_cons, not_or, List.zipWith_cons_cons] at h h' ⊢
    exact ⟨fun e => by rcases Nat.mul_eq_zero.1 e.symm with e | e <;> omega, copies_nonzero h.2 h'.2⟩

private theorem pos_of_copies : ∀ {copies s : List Nat}, copies.length = s.length →
    0 ∉ List.zipWith (fun c n => c * n) copies s → 0 ∉ s
  | [], [], _, _ => by simp
  | c :: copies, n :: s, e, h => by
    simp only [List.mem_cons, not_or, List.zipWith_cons_cons] at h ⊢
    refine ⟨fun e' => h.1 (by rw [← e', Nat.mul_zero]), pos_of_copies (by simpa using e) h.2⟩

private theorem copies_fit : ∀ {copies s k : List Nat}, copies.length = s.length → 0 ∉ copies →
    List.Forall₂ (fun n r => r / 2 ≤ n) s k →
    List.Forall₂ (fun n r => r / 2 ≤ n) (List.zipWith (fun c n => c * n) copies s) k
  | [], [], _, _, _, h => by cases h; exact .nil
  | c :: copies, n :: s, _, e, h0, h => by
    cases h with
    | cons h1 h2 =>
      simp only [List.mem_cons, not_or] at h0
      refine .cons ?_ (copies_fit (by simpa using e) h0.2 h2)
      exact h1.trans (Nat.le_mul_of_pos_left n (by omega))

theorem down_inbox (h : CopiesOf copies s s') {y : List Int} (hy : InBox s' y) : InBox s (wrap s y) := by
  have := inbox_pos hy
  rw [h.2.2] at this
  exact wrap_inbox (by rw [inbox_length hy, copies_length h]) (pos_of_copies h.1 this)

theorem down_target (h : CopiesOf copies s s') {y d : List Int} (hy : InBox s' y) (hd : d.length = s.length) :
    wrap s (target true s' y d) = target true s (wrap s y) d := by
  have := inbox_length hy
  have := copies_length h
  simp only [target, if_true]
  rw [h.2.2, wrap_tiled h.1 (by omega) hd]

private theorem neg_neg_list (d : List Int) : neg (neg d) = d := by
  simp [neg, Function.comp_def]

/-- A step of the image to a pixel is, for every copy of that pixel, a step of the copies to it. -/
private theorem up_target (h : CopiesOf copies s s') {z x d : List Int} (hz : InBox s z) (hx : InBox s' x)
    (hd : d.length = s.length) (e : wrap s x = target true s z d) :
    ∃ z', InBox s' z' ∧ wrap s z' = z ∧ target true s' z' d = x := by
  have hl := copies_length h
  have hd' : (neg d).length = s.length := by rw [neg_length, hd]
  refine ⟨target true s' x (neg d), ?_, ?_, ?_⟩
  · simp only [target, if_true]
    exact shift_inbox hx (by omega)
  · rw [down_target h hx hd', e]
    simp only [target, if_true]
    exact shift_neg hz hd
  · simp only [target, if_true]
    have := shift_neg (d := neg d) hx (by omega)
    rwa [neg_neg_list] at this

private theorem offset_len {d : List Int} (hk : kernel.shape.length = s.length) (ho : Offset kernel d) :
    d.length = s.length := by
  obtain ⟨i, hi, -, rfl⟩ := ho
  rw [displacement_length (inbox_length (mem_pixels.1 hi)), hk]

/-- **C136**: repeating a periodic image repeats the pixels that it is dilated to, for every kernel and number of
iterations: a pixel of the dilated copies has a label if and only if it is a copy of a pixel of the dilated image that
has one. -/
theorem C136_dilate (a : SameArgs true f kernel) (h : CopiesOf copies f.shape f'.shape)
    (hc : ∀ y, InBox f'.shape y → val f' y = val f (wrap f.shape y)) (n : Nat) :
    ∃ r r', dilateSame dbg f kernel n true = ok r ∧ dilateSame dbg' f' kernel n true = ok r' ∧ r.shape = f.shape ∧
      r'.shape = f'.shape ∧ ∀ y, InBox f'.shape y → (val r' y ≠ 0 ↔ val r (wrap f.shape y) ≠ 0) := by
  have hk : kernel.shape.length = f.shape.length := a.legal.same.symm
  have hl := copies_length h
  have a' : SameArgs true f' kernel := by
    refine ⟨⟨a.legal.rank, a.legal.pos, by rw [hl, hk], fun _ => ?_⟩, ?_, a.mask, fun y hy => ?_⟩
    · rw [h.2.2]
      exact copies_fit h.1 h.2.1 (a.legal.fits rfl)
    · rw [h.2.2]
      exact copies_nonzero h.2.1 a.image
    · have hy := mem_pixels.1 hy
      rw [hc y hy]
      exact a.label _ (mem_pixels.2 (down_inbox h hy))
  obtain ⟨r, e1, s1, -, f1, g1⟩ := C23_same dbg (k := n) a.legal a.image a.mask a.label
  obtain ⟨r', e2, s2, -, f2, g2⟩ := C23_same dbg' (k := n) a'.legal a'.image a'.mask a'.label
  refine ⟨r, r', e1, e2, s1, s2, fun x hx => ⟨fun hv => ?_, fun hv => ?_⟩⟩
  · obtain ⟨y, hy, ey, hr⟩ := f2 x (mem_pixels.2 hx) hv
    have hyb := mem_pixels.1 hy
    refine g1 _ (mem_pixels.2 (down_inbox h hx)) ⟨wrap f.shape y, mem_pixels.2 (down_inbox h hyb), ?_, ?_⟩
    · rw [← hc y hyb, ey]
      exact hv
    · refine reach_map (φ := wrap f.shape) (ψ := id) (s := f'.shape)
        (fun z hz => mem_pixels.2 (down_inbox h (mem_pixels.1 hz))) (fun z hz d ho _ => ⟨ho, ?_⟩) hy hr
      exact (down_target h (mem_pixels.1 hz) (offset_len hk ho)).symm
  · obtain ⟨y, hy, ey, hr⟩ := f1 _ (mem_pixels.2 (down_inbox h hx)) hv
    have key : ∀ {m : Nat} {z : List Int}, Reach true f.shape kernel y m z → ∀ x, InBox f'.shape x → wrap f.shape x = z →
        ∃ y', InBox f'.shape y' ∧ wrap f.shape y' = y ∧ Reach true f'.shape kernel y' m x := by
      intro m z hr
      induction hr with
      | here m => exact fun x hx e => ⟨x, hx, e, .here m⟩
      | step m z d hz ho _ ih =>
        intro x hx e
        obtain ⟨z', b1, b2, b3⟩ := up_target h (mem_pixels.1 (reach_mem hz hy)) hx (offset_len hk ho) e
        obtain ⟨y', c1, c2, c3⟩ := ih z' b1 b2
        refine ⟨y', c1, c2, ?_⟩
        rw [← b3]
        exact .step m z' d c3 ho (by rw [b3]; exact mem_pixels.2 hx)
    obtain ⟨y', c1, c2, c3⟩ := key hr x hx rfl
    refine g2 x (mem_pixels.2 hx) ⟨y', mem_pixels.2 c1, ?_, c3⟩
    rw [hc y' c1, c2, ey]
    exact hv

/-- A row of three pixels, and two copies of it. -/
example : SameArgs true (Nd.ofList [3] [1, 0, 0]) (Nd.ofList [3] [1, 1, 0]) ∧ Spec.CopiesOf [2] [3] [6] ∧
    ∀ y, InBox [6] y → val (Nd.ofList [6] [1, 0, 0, 1, 0, 0]) y = val (Nd.ofList [3] [1, 0, 0]) (wrap [3] y) := by
  refine ⟨⟨⟨by decide, by decide, rfl, fun _ => .cons (by decide) .nil⟩, by decide, ?_, by decide⟩, ?_, ?_⟩
  · unfold IsMask; decide
  · unfold Spec.CopiesOf; decide
  · have : ∀ y ∈ pixels [6], val (Nd.ofList [6] [1, 0, 0, 1, 0, 0]) y = val (Nd.ofList [3] [1, 0, 0]) (wrap [3] y) := by
      decide
    exact fun y hy => this y (mem_pixels.2 hy)

/-- The pixels with row-major index `p` and `q` differ by a displacement in `D`, modulo the shape. -/
private def StepAdj (D : List Int → Prop) (s : List Nat) (p q : Nat) : Prop :=
  ∃ x y d, D d ∧ InBox s x ∧ InBox s y ∧ Spec.Shifted true s x d y ∧ flat s x = p ∧ flat s y = q

/-- Paths of the image are the paths of the copies, from any copy of the first pixel to some copy of the last one. -/
private theorem joined_copies {D : List Int → Prop} {S S' : Nat → Prop} (h : CopiesOf copies s s')
    (hD : ∀ d, D d → d.length = s.length)
    (hS : ∀ y, InBox s' y → (S' (flat s' y).toNat ↔ S (flat s (wrap s y)).toNat)) {x y : List Int} (hx : InBox s' x)
    (hy : InBox s y) :
    Joined (StepAdj D s) S (flat s (wrap s x)).toNat (flat s y).toNat ↔
      ∃ y', InBox s' y' ∧ wrap s y' = y ∧ Joined (StepAdj D s') S' (flat s' x).toNat (flat s' y').toNat := by
  have hl := copies_length h
  have r1 := flat_range (down_inbox h hx)
  have r2 := flat_range hy
  constructor
  · intro e
    have up : ∀ {p q : Nat}, Joined (StepAdj D s) S p q → p = (flat s (wrap s x)).toNat →
        ∃ y', InBox s' y' ∧ (flat s (wrap s y')).toNat = q ∧
          Joined (StepAdj D s') S' (flat s' x).toNat (flat s' y').toNat := by
      intro p q hj
      induction hj with
      | refl hp =>
        rintro rfl
        exact ⟨x, hx, rfl, .refl ((hS x hx).2 hp)⟩
      | step hj ha hr ih =>
        intro hp
        obtain ⟨z, hz, ez, hz'⟩ := ih hp
        obtain ⟨a, b, d, hd, ia, ib, hsh, fa, fb⟩ := ha
        have hdl := hD d hd
        have ra := flat_range ia
        have hwz := down_inbox h hz
        have rz := flat_range hwz
        have eaz : a = wrap s z := flat_inj ia hwz (by omega)
        have eb := shifted_eq true ib hsh
        have hy' : InBox s' (target true s' z d) := by
          simp only [target, if_true]
          exact shift_inbox hz (by omega)
        have ew : wrap s (target true s' z d) = b := by rw [down_target h hz hdl, eb, eaz]
        have rz' := flat_range hz
        have ry' := flat_range hy'
        refine ⟨target true s' z d, hy', by rw [ew]; omega, .step hz' ⟨z, _, d, hd, hz, hy',
          shifted_target true (by rw [inbox_length hz]) (by omega), by omega, by omega⟩ ((hS _ hy').2 ?_)⟩
        rw [ew, fb, Int.toNat_natCast]
        exact hr
    obtain ⟨y', hy', ey', hj⟩ := up e rfl
    have hwy := down_inbox h hy'
    have r5 := flat_range hwy
    exact ⟨y', hy', flat_inj hwy hy (by omega), hj⟩
  · rintro ⟨y', hy', ew, e⟩
    have down : ∀ {p q : Nat}, Joined (StepAdj D s') S' p q → ∀ b, InBox s' b → flat s' b = q →
        ∃ a, InBox s' a ∧ flat s' a = p ∧
          Joined (StepAdj D s) S (flat s (wrap s a)).toNat (flat s (wrap s b)).toNat := by
      intro p q hj
      induction hj with
      | refl hp =>
        intro b hb eb
        refine ⟨b, hb, eb, .refl ((hS b hb).1 ?_)⟩
        rw [eb, Int.toNat_natCast]
        exact hp
      | step hj ha hr ih =>
        intro b hb eb
        obtain ⟨z, b', d, hd, iz, ib, hsh, fz, fb⟩ := ha
        have hdl := hD d hd
        have ebb : b' = b := flat_inj ib hb (by omega)
        subst ebb
        obtain ⟨a, ha, ea, hj'⟩ := ih z iz fz
        have wz := down_inbox h iz
        have wb := down_inbox h ib
        have rz := flat_range wz
        have rb := flat_range wb
        refine ⟨a, ha, ea, .step hj' ⟨wrap s z, wrap s b', d, hd, wz, wb, ?_, by omega, by omega⟩ ((hS b' ib).1 ?_)⟩
        · rw [shifted_eq true ib hsh, down_target h iz (by omega)]
          exact shifted_target true (inbox_length wz) (by omega)
        · rw [fb, Int.toNat_natCast]
          exact hr
    have r3 := flat_range hx
    have r4 := flat_range hy'
    obtain ⟨a, ha, ea, hj⟩ := down e y' hy' (by omega)
    have : a = x := flat_inj ha hx (by omega)
    subst this
    rwa [ew] at hj

private theorem joined_congr {A B : Nat → Nat → Prop} {S : Nat → Prop} (h : ∀ p q, A p q ↔ B p q) {p q : Nat} :
    Joined A S p q ↔ Joined B S p q := by
  have : A = B := funext fun p => funext fun q => propext (h p q)
  rw [this]

/-- **C136**: two pixels of a periodic image are in the same cluster if and only if, for every copy of the one in the image
of copies, some copy of the other is in the same cluster as it. -/
theorem C136_clusters {f f' : List Int} (hn : 1 ≤ s.length) (hn' : s.length ≤ 3) (hsmall : s'.prod < 2 ^ 62)
    (hf : f.length = s.prod) (hf' : f'.length = s'.prod) (h : CopiesOf copies s s')
    (hc : ∀ y, InBox s' y → entry s' f' y = entry s f (wrap s y)) :
    ∃ labels labels', clusters dbg s f true = ok labels ∧ clusters dbg' s' f' true = ok labels' ∧
      ∀ x y, InBox s' x → InBox s y → entry s f (wrap s x) ≠ 0 → entry s f y ≠ 0 →
        (entry s labels (wrap s x) = entry s labels y ↔
          ∃ y', InBox s' y' ∧ wrap s y' = y ∧ entry s' labels' x = entry s' labels' y') := by
  have hl := copies_length h
  have hsmall' : s.prod < 2 ^ 62 := by
    refine lt_of_le_of_lt ?_ hsmall
    rw [h.2.2, prod_tiled h.1]
    exact Nat.le_mul_of_pos_left _ (Nat.pos_of_ne_zero (List.prod_ne_zero h.2.1))
  obtain ⟨labels, e1, -, -, j1, -⟩ := C03_clusters dbg true hn hn' hsmall' hf
  obtain ⟨labels', e2, -, -, j2, -⟩ := C03_clusters dbg' true (by omega) (by omega) hsmall hf'
  have face : ∀ t : List Nat, t.length = s.length → ∀ p q, FaceAdj true t p q ↔
      StepAdj (fun d => d.length = s.length ∧ (d.map Int.natAbs).sum = 1) t p q := by
    intro t ht p q
    simp only [FaceAdj, StepAdj, ht, and_assoc]
  refine ⟨labels, labels', e1, e2, fun x y hx hy hfx hfy => ?_⟩
  have r1 := flat_range (down_inbox h hx)
  have r2 := flat_range hy
  have r3 := flat_range hx
  have hS : ∀ y, InBox s' y → (f'.getD (flat s' y).toNat 0 ≠ 0 ↔ f.getD (flat s (wrap s y)).toNat 0 ≠ 0) := by
    intro y hy
    have := hc y hy
    unfold entry at this
    rw [this]
  unfold entry at hfx hfy ⊢
  rw [j1 _ (by omega) _ (by omega) hfx hfy, joined_congr (face s rfl),
    joined_copies (S := fun r => f.getD r 0 ≠ 0) (S' := fun r => f'.getD r 0 ≠ 0) h (fun d hd => hd.1) hS hx hy]
  refine exists_congr fun y' => and_congr_right fun hy' => and_congr_right fun e => ?_
  have r4 := flat_range hy'
  rw [j2 _ (by omega) _ (by omega) ((hS x hx).2 hfx) ((hS y' hy').2 (by rw [e]; exact hfy)), joined_congr (face s' hl)]

/-- **C136**: likewise for a periodic labeller with offsets as in C02, after any calls, and a labeller with the same offsets to
which the copies of these pixels were added, by any calls. -/
theorem C136_labeller {offsets : List (List Int)} {calls calls' : List Call} {l l' : State} {rets rets' : List (List Nat)}
    (hv : ValidConfig true s offsets) (hv' : ValidConfig true s' offsets) (hcalls : ∀ c ∈ calls, c.Valid s.prod)
    (hcalls' : ∀ c ∈ calls', c.Valid s'.prod) (h : CopiesOf copies s s')
    (hc : ∀ y, InBox s' y → ((flat s' y).toNat ∈ added [] calls' ↔ (flat s (wrap s y)).toNat ∈ added [] calls))
    (e : run dbg (init true s offsets) calls = ok (l, rets)) (e' : run dbg' (init true s' offsets) calls' = ok (l', rets'))
    {x y : List Int} (hx : InBox s' x) (hy : InBox s y) (hax : (flat s (wrap s x)).toNat ∈ added [] calls)
    (hay : (flat s y).toNat ∈ added [] calls) :
    labelAt l (flat s (wrap s x)).toNat = labelAt l (flat s y).toNat ↔
      ∃ y', InBox s' y' ∧ wrap s y' = y ∧ labelAt l' (flat s' x).toNat = labelAt l' (flat s' y').toNat := by
  have adj : ∀ (t : List Nat) (p q : Nat), Adj true t offsets p q ↔ StepAdj (· ∈ offsets) t p q := by
    intro t p q
    simp only [Adj, StepAdj]
  rw [C02_connected hv hcalls e hax hay, joined_congr (adj s),
    joined_copies (S := (· ∈ added [] calls)) (S' := (· ∈ added [] calls')) h (fun d hd => hv.len d hd) hc hx hy]
  refine exists_congr fun y' => and_congr_right fun hy' => and_congr_right fun ey => ?_
  rw [C02_connected hv' hcalls' e' ((hc x hx).2 hax) ((hc y' hy').2 (by rw [ey]; exact hay)), joined_congr (adj s')]

/-- Two copies, one below the other, of an image with two clusters. -/
example : Spec.CopiesOf [2, 1] [1, 4] [2, 4] ∧
    ∀ y, InBox [2, 4] y → entry [2, 4] [1, 0, 1, 0, 1, 0, 1, 0] y = entry [1, 4] [1, 0, 1, 0] (wrap [1, 4] y) := by
  refine ⟨by unfold Spec.CopiesOf; decide, ?_⟩
  have : ∀ y ∈ pixels [2, 4],
      entry [2, 4] [1, 0, 1, 0, 1, 0, 1, 0] y = entry [1, 4] [1, 0, 1, 0] (wrap [1, 4] y) := by
    decide
  exact fun y hy => this y (mem_pixels.2 hy)

/-- A row of three pixels, and two copies of it, with a pixel of each. The cluster is connected with the next copy
through the edge. -/
example : ValidConfig true [3] [[-1], [1]] ∧ ValidConfig true [6] [[-1], [1]] ∧ Spec.CopiesOf [2] [3] [6] ∧
    (∀ y, InBox [6] y → ((flat [6] y).toNat ∈ added [] [.addPoints [0, 2, 3, 5]] ↔
      (flat [3] (wrap [3] y)).toNat ∈ added [] [.addPoints [0], .addPoints [2]])) ∧
    ((run true (init true [3] [[-1], [1]]) [.addPoints [0], .addPoints [2]]).get?.map fun r => r.1.label.toList) =
      some [1, 0, 1] ∧
    ((run true (init true [6] [[-1], [1]]) [.addPoints [0, 2, 3, 5]]).get?.map fun r => r.1.label.toList) =
      some [1, 0, 2, 2, 0, 1] := by
  have v : ∀ n : Nat, 1 ≤ n → n < 2 ^ 62 → ValidConfig true [n] [[-1], [1]] := by
    intro n h1 h2
    refine ⟨by simp, by simp, by simp, by simpa using h2, ?_, by simp⟩
    intro _ _ d hd
    simp only [List.mem_cons, List.not_mem_nil, or_false] at hd
    rcases hd with rfl | rfl <;> exact .cons (Or.inr ⟨by omega, by norm_num⟩) .nil
  refine ⟨v 3 (by omega) (by norm_num), v 6 (by omega) (by norm_num), by unfold Spec.CopiesOf; decide, ?_,
    by decide +kernel, by decide +kernel⟩
  have : ∀ y ∈ pixels [6], ((flat [6] y).toNat ∈ added [] [.addPoints [0, 2, 3, 5]] ↔
      (flat [3] (wrap [3] y)).toNat ∈ added [] [.addPoints [0], .addPoints [2]]) := by
    decide +kernel
  exact fun y hy => this y (mem_pixels.2 hy)

end Verif.Props
