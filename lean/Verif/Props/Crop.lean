import Verif.Props.Correlation

/-! # A border of masked pixels (C131) -/

namespace Verif.Props

open Verif Outcome Spec Ens

variable {K : Type} [Field K] [LinearOrder K] [IsStrictOrderedRing K] {roi s s' : List Nat} {b : List Int} {periodic : Bool}

namespace Spec

/-- An image of shape `s`, placed at `b`, fits in one of shape `s'`; if that is periodic, with half the region of interest to
spare on every side. -/
def Border (periodic : Bool) : List Nat → List Nat → List Nat → List Int → Prop
  | r :: roi, n :: s, n' :: s', o :: b => 0 ≤ o ∧ o + n ≤ n' ∧
    (periodic = true → ((r - 1) / 2 : Nat) ≤ o ∧ o + n + (r / 2 : Nat) ≤ n') ∧ Border periodic roi s s' b
  | [], [], [], [] => True
  | _, _, _, _ => False

/-- The large array holds the small one at `b`. -/
def Holds {α : Type} (b : List Int) (small large : Nd α) : Prop :=
  ∀ x ∈ pixels small.shape, val large (move x b) = val small x

/-- All pixels outside the image of shape `s` at `b` are masked. -/
def Hides (b : List Int) (s : List Nat) (mask : Nd Int) : Prop :=
  ∀ y ∈ pixels mask.shape, val mask y = 0 → ∃ x ∈ pixels s, y = move x b

end Spec

open Spec

theorem border_cases {P : Prop} (h : Border periodic roi s s' b)
    (h0 : roi = [] → s = [] → s' = [] → b = [] → P)
    (h1 : ∀ r roi' n t n' t' o b', roi = r :: roi' → s = n :: t → s' = n' :: t' → b = o :: b' → P) : P := by
  cases roi <;> cases s <;> cases s' <;> cases b <;> first
    | exact h0 rfl rfl rfl rfl
    | exact h1 _ _ _ _ _ _ _ _ rfl rfl rfl rfl
    | exact h.elim

theorem border_length : ∀ {roi s s' : List Nat} {b : List Int}, Border periodic roi s s' b →
    s.length = roi.length ∧ s'.length = roi.length ∧ b.length = roi.length := by
  intro roi
  induction roi with
  | nil =>
    intro s s' b h
    refine border_cases h ?_ (by rintro _ _ _ _ _ _ _ _ ⟨⟩)
    rintro - rfl rfl rfl
    exact ⟨rfl, rfl, rfl⟩
  | cons r roi ih =>
    intro s s' b h
    refine border_cases h (by rintro ⟨⟩) ?_
    rintro _ _ n t n' t' o b' ⟨⟩ rfl rfl rfl
    have := ih h.2.2.2
    simp only [List.length_cons]
    omega

theorem border_inbox : ∀ {roi s s' : List Nat} {b x : List Int}, Border periodic roi s s' b → InBox s x →
    InBox s' (move x b) := by
  intro roi
  induction roi with
  | nil =>
    intro s s' b x h hx
    refine border_cases h ?_ (by rintro _ _ _ _ _ _ _ _ ⟨⟩)
    rintro - rfl rfl rfl
    cases hx
    exact List.Forall₂.nil
  | cons r roi ih =>
    intro s s' b x h hx
    refine border_cases h (by rintro ⟨⟩) ?_
    rintro _ _ n t n' t' o b' ⟨⟩ rfl rfl rfl
    cases hx with
    | cons h1 h2 =>
      refine List.Forall₂.cons ?_ (ih h.2.2.2 h2)
      have := h.1; have := h.2.1
      show 0 ≤ _ + _ ∧ _ + _ < _
      omega

/-- With periodicity, no displacement of the region of interest leaves the large image. -/
theorem border_stay : ∀ {roi s s' : List Nat} {b x i : List Int}, Border true roi s s' b → InBox s x → InBox roi i →
    InBox s' (move (move x b) (displacement roi i)) := by
  intro roi
  induction roi with
  | nil =>
    intro s s' b x i h hx hi
    refine border_cases h ?_ (by rintro _ _ _ _ _ _ _ _ ⟨⟩)
    rintro - rfl rfl rfl
    cases hx
    exact List.Forall₂.nil
  | cons r roi ih =>
    intro s s' b x i h hx hi
    refine border_cases h (by rintro ⟨⟩) ?_
    rintro _ _ n t n' t' o b' ⟨⟩ rfl rfl rfl
    cases hx with
    | cons h1 h2 =>
    cases hi with
    | cons h3 h4 =>
      refine List.Forall₂.cons ?_ (ih h.2.2.2 h2 h4)
      have := h.2.2.1 rfl
      show 0 ≤ _ + _ + (_ - _) ∧ _ + _ + (_ - _) < _
      omega

theorem border_fits : ∀ {roi s s' : List Nat} {b : List Int}, Border periodic roi s s' b → Fits periodic s' roi := by
  intro roi
  induction roi with
  | nil =>
    intro s s' b h _
    refine border_cases h ?_ (by rintro _ _ _ _ _ _ _ _ ⟨⟩)
    rintro - rfl rfl rfl
    exact .nil
  | cons r roi ih =>
    intro s s' b h hp
    refine border_cases h (by rintro ⟨⟩) ?_
    rintro _ _ n t n' t' o b' ⟨⟩ rfl rfl rfl
    have := h.2.2.1 hp
    have := h.1
    exact .cons (by omega) (ih h.2.2.2 hp)

theorem move_swap : ∀ (x d e : List Int), move (move x d) e = move (move x e) d
  | [], _, _ => by simp [move]
  | _ :: _, [], [] => rfl
  | _ :: _, [], _ :: _ => by simp [move]
  | _ :: _, _ :: _, [] => by simp [move]
  | i :: x, o :: d, j :: e => by
    have := move_swap x d e
    simp only [move, List.zipWith_cons_cons] at this ⊢
    rw [this, show i + o + j = i + j + o by omega]

theorem move_right_inj : ∀ {x y b : List Int}, x.length = b.length → y.length = b.length → move x b = move y b → x = y
  | [], [], [], _, _, _ => rfl
  | i :: x, j :: y, o :: b, h1, h2, h => by
    simp only [move, List.zipWith_cons_cons, List.cons.injEq] at h
    rw [move_right_inj (by simpa using h1) (by simpa using h2) h.2, show i = j by omega]
  | [], _ :: _, [], _, h, _ | _ :: _, _, [], h, _, _ | [], _, _ :: _, h, _, _ | _ :: _, [], _ :: _, _, h, _ => by simp at h

theorem pairs_nodup (periodic : Bool) (s : List Nat) (adm : List Int → List Int → Prop) [∀ x y, Decidable (adm x y)]
    (d : List Int) : (pairs periodic s adm d).Nodup := by
  unfold pairs
  refine List.Nodup.filter _ (List.Nodup.map_on ?_ (pixels_nodup s))
  intro x _ y _ h
  exact congrArg Prod.fst h

/-- The pairs of the large image are those of the small one. -/
theorem border_pairs (h : Border periodic roi s s' b) {i : List Int} (hi : InBox roi i)
    {adm adm' : List Int → List Int → Prop} [∀ x y, Decidable (adm x y)] [∀ x y, Decidable (adm' x y)]
    (hin : ∀ x ∈ pixels s, ∀ y ∈ pixels s, move (move x b) (displacement roi i) = move y b →
      (adm' (move x b) (move y b) ↔ adm x y))
    (hout : ∀ x ∈ pixels s', ∀ y ∈ pixels s', adm' x y → ∃ u ∈ pixels s, x = move u b)
    (hout' : ∀ x ∈ pixels s, ∀ y ∈ pixels s', y = move (move x b) (displacement roi i) → adm' (move x b) y →
      ∃ v ∈ pixels s, y = move v b) :
    (pairs periodic s' adm' (displacement roi i)).Perm
      ((pairs false s adm (displacement roi i)).map fun p => (move p.1 b, move p.2 b)) := by
  obtain ⟨l1, l2, l3⟩ := border_length h
  have hlen : ∀ {x}, x ∈ pixels s → x.length = b.length := fun hx => by
    rw [inbox_length (mem_pixels.1 hx), l1, l3]
  have hdl : (displacement roi i).length = roi.length := displacement_length (inbox_length hi)
  have htarget : ∀ x ∈ pixels s, target periodic s' (move x b) (displacement roi i) =
      move (move x b) (displacement roi i) := by
    intro x hx
    cases periodic
    · rfl
    · exact wrap_of_inbox (border_stay h (mem_pixels.1 hx) hi)
  have hcomm : ∀ x ∈ pixels s, move (move x b) (displacement roi i) = move (move x (displacement roi i)) b := by
    intro x hx
    rw [move_swap]
  rw [List.perm_ext_iff_of_nodup (pairs_nodup ..)]
  · intro p
    rw [List.mem_map]
    constructor
    · intro hp
      obtain ⟨m1, m2, m3, m4⟩ := mem_pairs.1 hp
      obtain ⟨u, hu, e1⟩ := hout _ m1 _ m3 m4
      rw [e1, htarget u hu] at m2
      obtain ⟨v, hv, e2⟩ := hout' u hu _ m3 m2 (by rw [← e1]; exact m4)
      have e3 : move (move u b) (displacement roi i) = move v b := by rw [← m2, e2]
      have e4 : v = move u (displacement roi i) := by
        refine move_right_inj (hlen hv) ?_ (by rw [← e3, hcomm u hu])
        rw [move_length (by rw [hdl, hlen hu, l3]), hlen hu]
      refine ⟨(u, v), mem_pairs.2 ⟨hu, e4, hv, ?_⟩, Prod.ext e1.symm e2.symm⟩
      exact (hin u hu v hv e3).1 (by rw [← e1, ← e2]; exact m4)
    · rintro ⟨⟨u, v⟩, hq, rfl⟩
      obtain ⟨m1, m2, m3, m4⟩ := mem_pairs.1 hq
      have e3 : move (move u b) (displacement roi i) = move v b := by
        rw [hcomm u m1]
        exact congrArg (fun t => move t b) m2.symm
      exact mem_pairs.2 ⟨mem_pixels.2 (border_inbox h (mem_pixels.1 m1)), by rw [htarget u m1]; exact e3.symm,
        mem_pixels.2 (border_inbox h (mem_pixels.1 m3)), (hin u m1 v m3 e3).2 m4⟩
  · refine List.Nodup.map_on ?_ (pairs_nodup ..)
    rintro ⟨x, y⟩ hp ⟨x', y'⟩ hp' e
    obtain ⟨m1, -, m3, -⟩ := mem_pairs.1 hp
    obtain ⟨n1, -, n3, -⟩ := mem_pairs.1 hp'
    simp only [Prod.mk.injEq] at e
    exact Prod.ext (move_right_inj (hlen m1) (hlen n1) e.1) (move_right_inj (hlen m3) (hlen n3) e.2)

theorem total_perm {l l' : List (List Int × List Int)} (h : l.Perm l') (φ : List Int → List Int → K) :
    total l φ = total l' φ := (h.map _).sum_eq

theorem average_placed {l l' : List (List Int × List Int)} (h : l'.Perm (l.map fun p => (move p.1 b, move p.2 b)))
    {φ φ' : List Int → List Int → K} (hφ : ∀ p ∈ l, φ' (move p.1 b) (move p.2 b) = φ p.1 p.2) :
    average l' φ' = average l φ := by
  have e : total l' φ' = total l φ := by
    rw [total_perm h]
    unfold total
    rw [List.map_map]
    exact congrArg List.sum (List.map_congr_left hφ)
  rw [average_eq_div, average_eq_div, e, h.length_eq, List.length_map]

variable {f g F G : Nd K} {fmask gmask Fmask Gmask : Nd Int}

theorem border_legal (L : Legal false s roi) (h : Border periodic roi s s' b) : Legal periodic s' roi :=
  ⟨L.rank, L.pos, (border_length h).2.1, border_fits h⟩

private theorem seen_large {m : Nd Int} (h : Border periodic roi s m.shape b) {i x y : List Int} (hi : InBox roi i)
    (hx : x ∈ pixels s) (e : y = move (move x b) (displacement roi i)) :
    Seen periodic m (displacement roi i) (move x b) y ↔ val m y = 0 := by
  unfold Seen
  cases periodic
  · simp
  · rw [if_neg]
    rintro ⟨-, h'⟩
    exact h' (mem_pixels.2 (border_stay h (mem_pixels.1 hx) hi))

/-- The pairs that S2, C2 and heightheight average over. -/
private theorem masked_pairs (hf : fmask.shape = s) (hg : gmask.shape = s) (hF : Fmask.shape = s') (hG : Gmask.shape = s')
    (h : Border periodic roi s s' b) (mf : Holds b fmask Fmask) (mg : Holds b gmask Gmask) (of : Hides b s Fmask)
    (og : Hides b s Gmask) {i : List Int} (hi : InBox roi i) :
    (pairs periodic s' (fun x y => val Fmask x = 0 ∧ Seen periodic Gmask (displacement roi i) x y) (displacement roi i)).Perm
      ((pairs false s (fun x y => val fmask x = 0 ∧ Seen false gmask (displacement roi i) x y) (displacement roi i)).map
        fun p => (move p.1 b, move p.2 b)) := by
  subst hF
  refine border_pairs h hi (fun x hx y hy e => ?_) (fun x hx y hy ha => of x hx ha.1) (fun x hx y hy e ha => ?_)
  · rw [mf x (by rw [hf]; exact hx), seen_large (by rw [hG]; exact h) hi hx e.symm, mg y (by rw [hg]; exact hy)]
    simp [Seen]
  · exact og y (by rw [hG]; exact hy) ((seen_large (by rw [hG]; exact h) hi hx e).1 ha.2)

/-- C131: S2 does not change if the images get a border of masked pixels, whatever these hold; with periodicity, if the border
is as wide as the region of interest reaches, it is S2 of the images without border and without periodicity. -/
theorem C131_S2 (L : Legal false f.shape roi) (hg : g.shape = f.shape) (hfm : fmask.shape = f.shape)
    (hgm : gmask.shape = f.shape) (bf : IsMask fmask) (bg : IsMask gmask) (hG : G.shape = F.shape)
    (hFm : Fmask.shape = F.shape) (hGm : Gmask.shape = F.shape) (bF : IsMask Fmask) (bG : IsMask Gmask)
    (h : Border periodic roi f.shape F.shape b) (ef : Holds b f F) (eg : Holds b g G) (mf : Holds b fmask Fmask)
    (mg : Holds b gmask Gmask) (of : Hides b f.shape Fmask) (og : Hides b f.shape Gmask) (pow05 : K → K) (dbg : Bool) :
    ∃ r r', Api.S2Mask pow05 dbg roi f g fmask gmask false = ok r ∧
      Api.S2Mask pow05 dbg roi F G Fmask Gmask periodic = ok r' ∧ r.shape = roi ∧ r'.shape = roi ∧
      ∀ i, InBox roi i → val r' i = val r i := by
  obtain ⟨r, h1, h2, h3⟩ := S2_value L hg hfm hgm bf bg pow05 dbg
  obtain ⟨r', h1', h2', h3'⟩ := S2_value (border_legal L h) hG hFm hGm bF bG pow05 dbg
  refine ⟨r, r', h1, h1', h2, h2', fun i hi => ?_⟩
  rw [h3 i hi, h3' i hi]
  refine average_placed (masked_pairs hfm hgm hFm hGm h mf mg of og hi) fun p hp => ?_
  obtain ⟨m1, -, m3, -⟩ := mem_pairs.1 hp
  rw [ef _ m1, eg _ (by rw [hg]; exact m3)]

/-- Likewise C2. -/
theorem C131_C2 (L : Legal false f.shape roi) (hg : g.shape = f.shape) (hfm : fmask.shape = f.shape)
    (hgm : gmask.shape = f.shape) (bf : IsMask fmask) (bg : IsMask gmask) (hG : G.shape = F.shape)
    (hFm : Fmask.shape = F.shape) (hGm : Gmask.shape = F.shape) (bF : IsMask Fmask) (bG : IsMask Gmask)
    (h : Border periodic roi f.shape F.shape b) (ef : Holds b f F) (eg : Holds b g G) (mf : Holds b fmask Fmask)
    (mg : Holds b gmask Gmask) (of : Hides b f.shape Fmask) (og : Hides b f.shape Gmask) (pow05 : K → K) (dbg : Bool) :
    ∃ r r', Api.C2Mask pow05 dbg roi f g fmask gmask false = ok r ∧
      Api.C2Mask pow05 dbg roi F G Fmask Gmask periodic = ok r' ∧ r.shape = roi ∧ r'.shape = roi ∧
      ∀ i, InBox roi i → val r' i = val r i := by
  obtain ⟨r, h1, h2, h3⟩ := C2_value L hg hfm hgm bf bg pow05 dbg
  obtain ⟨r', h1', h2', h3'⟩ := C2_value (border_legal L h) hG hFm hGm bF bG pow05 dbg
  refine ⟨r, r', h1, h1', h2, h2', fun i hi => ?_⟩
  rw [h3 i hi, h3' i hi]
  refine average_placed (masked_pairs hfm hgm hFm hGm h mf mg of og hi) fun p hp => ?_
  obtain ⟨m1, -, m3, -⟩ := mem_pairs.1 hp
  rw [ef _ m1, eg _ (by rw [hg]; exact m3)]

/-- Likewise heightheight. -/
theorem C131_heightheight (L : Legal false f.shape roi) (hfm : fmask.shape = f.shape) (bf : IsMask fmask)
    (hFm : Fmask.shape = F.shape) (bF : IsMask Fmask) (h : Border periodic roi f.shape F.shape b) (ef : Holds b f F)
    (mf : Holds b fmask Fmask) (of : Hides b f.shape Fmask) (pow05 : K → K) (dbg : Bool) :
    ∃ r r', Api.heightheightMask pow05 dbg roi f fmask false = ok r ∧
      Api.heightheightMask pow05 dbg roi F Fmask periodic = ok r' ∧ r.shape = roi ∧ r'.shape = roi ∧
      ∀ i, InBox roi i → val r' i = val r i := by
  obtain ⟨r, h1, h2, h3⟩ := HH_value L hfm bf pow05 dbg
  obtain ⟨r', h1', h2', h3'⟩ := HH_value (border_legal L h) hFm bF pow05 dbg
  refine ⟨r, r', h1, h1', h2, h2', fun i hi => ?_⟩
  rw [h3 i hi, h3' i hi]
  refine congrArg pow05 (average_placed (masked_pairs hfm hfm hFm hFm h mf mf of of hi) fun p hp => ?_)
  obtain ⟨m1, -, m3, -⟩ := mem_pairs.1 hp
  rw [ef _ m1, ef _ m3]

/-- Pairs that contribute nothing can be left out. -/
private theorem total_filter (periodic : Bool) (s : List Nat) (P : List Int → Prop) [∀ x, Decidable (P x)]
    (adm : List Int → List Int → Prop) [∀ x y, Decidable (adm x y)] (d : List Int) {φ : List Int → List Int → K}
    (h : ∀ x y, ¬ P x → φ x y = 0) :
    total (pairs periodic s adm d) φ = total (pairs periodic s (fun x y => P x ∧ adm x y) d) φ := by
  unfold pairs total
  induction (pixels s).map fun x => (x, target periodic s x d) with
  | nil => rfl
  | cons p l ih =>
    simp only [List.filter_cons]
    by_cases hP : P p.1
    · by_cases hm : p.2 ∈ pixels s ∧ adm p.1 p.2 <;> simp [hP, hm] at ih ⊢ <;> exact ih
    · by_cases hm : p.2 ∈ pixels s ∧ adm p.1 p.2 <;> simp [hP, hm, h _ p.2 hP] at ih ⊢ <;> exact ih

/-- Likewise W2, if the weights in the border are zero. -/
theorem C131_W2 (L : Legal false f.shape roi) (hg : g.shape = f.shape) (hgm : gmask.shape = f.shape) (bg : IsMask gmask)
    (hG : G.shape = F.shape) (hGm : Gmask.shape = F.shape) (bG : IsMask Gmask)
    (h : Border periodic roi f.shape F.shape b) (ef : Holds b f F) (eg : Holds b g G) (mg : Holds b gmask Gmask)
    (of : ∀ y ∈ pixels F.shape, val F y ≠ 0 → ∃ x ∈ pixels f.shape, y = move x b) (og : Hides b f.shape Gmask)
    (pow05 : K → K) (dbg : Bool) :
    ∃ r r', Api.W2Mask pow05 dbg roi f g gmask false = ok r ∧
      Api.W2Mask pow05 dbg roi F G Gmask periodic = ok r' ∧ r.shape = roi ∧ r'.shape = roi ∧
      ∀ i, InBox roi i → val r' i = val r i := by
  obtain ⟨r, h1, h2, h3⟩ := W2_value L hg hgm bg pow05 dbg
  obtain ⟨r', h1', h2', h3'⟩ := W2_value (border_legal L h) hG hGm bG pow05 dbg
  refine ⟨r, r', h1, h1', h2, h2', fun i hi => ?_⟩
  have hp : (pairs periodic F.shape (fun x y => val F x ≠ 0 ∧ Seen periodic Gmask (displacement roi i) x y)
      (displacement roi i)).Perm
      ((pairs false f.shape (fun x y => val f x ≠ 0 ∧ Seen false gmask (displacement roi i) x y) (displacement roi i)).map
        fun p => (move p.1 b, move p.2 b)) := by
    refine border_pairs h hi (fun x hx y hy e => ?_) (fun x hx y hy ha => of x hx ha.1) (fun x hx y hy e ha => ?_)
    · rw [ef x hx, seen_large (by rw [hGm]; exact h) hi hx e.symm, mg y (by rw [hgm]; exact hy)]
      simp [Seen]
    · exact og y (by rw [hGm]; exact hy) ((seen_large (by rw [hGm]; exact h) hi hx e).1 ha.2)
  have placed : ∀ φ φ' : List Int → List Int → K, (∀ x ∈ pixels f.shape, ∀ y ∈ pixels f.shape,
      φ' (move x b) (move y b) = φ x y) → (∀ x y, ¬ val f x ≠ 0 → φ x y = 0) → (∀ x y, ¬ val F x ≠ 0 → φ' x y = 0) →
      total (pairs periodic F.shape (Seen periodic Gmask (displacement roi i)) (displacement roi i)) φ' =
        total (pairs false f.shape (Seen false gmask (displacement roi i)) (displacement roi i)) φ := by
    intro φ φ' e z z'
    rw [total_filter periodic F.shape (fun x => val F x ≠ 0) _ _ z', total_filter false f.shape (fun x => val f x ≠ 0) _ _ z,
      total_perm hp]
    unfold total
    rw [List.map_map]
    refine congrArg List.sum (List.map_congr_left fun p hp => ?_)
    obtain ⟨m1, -, m3, -⟩ := mem_pairs.1 hp
    exact e _ m1 _ m3
  rw [h3 i hi, h3' i hi]
  show total _ _ / norm1 (total _ _) = total _ _ / norm1 (total _ _)
  rw [placed (fun x y => val f x * val g y) (fun x y => val F x * val G y), placed (fun x _ => val f x) fun x _ => val F x]
  · exact fun x hx _ _ => ef x hx
  · exact fun x _ hz => not_not.1 hz
  · exact fun x _ hz => not_not.1 hz
  · exact fun x hx y hy => by rw [ef x hx, eg y (by rw [hg]; exact hy)]
  · exact fun x y hz => by rw [not_not.1 hz, zero_mul]
  · exact fun x y hz => by rw [not_not.1 hz, zero_mul]

/-! ### The hypotheses are met -/

/-- Two pixels, and a border with other values. -/
private def small : Nd ℚ := im [3, 5]
private def large : Nd ℚ := im [7, 3, 5, 8]
private def weights : Nd ℚ := im [0, 3, 5, 0]
private def shown : Nd Int := mk [0, 0]
private def hidden : Nd Int := mk [1, 0, 0, 1]

example : Legal false small.shape [3] ∧ small.shape = [2] ∧ large.shape = [4] ∧ hidden.shape = [4] ∧ IsMask shown ∧
    IsMask hidden ∧ Border true [3] small.shape large.shape [1] ∧ Border false [3] small.shape large.shape [1] ∧
    Holds [1] small large ∧ Holds [1] small weights ∧ Holds [1] shown hidden ∧ Hides [1] small.shape hidden ∧
    (∀ y ∈ pixels weights.shape, val weights y ≠ 0 → ∃ x ∈ pixels small.shape, y = move x [1]) := by
  refine ⟨⟨by decide, by decide, rfl, by simp [Fits]⟩, rfl, rfl, rfl, mk_isMask (by decide), mk_isMask (by decide), ?_, ?_,
    ?_, ?_, ?_, ?_, ?_⟩
  · show Border true [3] [2] [4] [1]
    simp [Border]
  · show Border false [3] [2] [4] [1]
    simp [Border]
  all_goals (first | unfold Holds | unfold Hides | skip); decide +kernel

/-- S2 of two pixels, and of the periodic image with a border. -/
example : (Api.S2Mask id true [3] small small shown shown false).map Nd.toList = ok [15, 17, 15] ∧
    (Api.S2Mask id true [3] large large hidden hidden true).map Nd.toList = ok [15, 17, 15] := by decide +kernel

end Verif.Props
