import Verif.Props.Dilate
import Verif.Props.Invariance
import Verif.Lemmas.Pairs

/-! # How dilate depends on its arguments (C78) -/

namespace Verif.Props

open Verif Outcome Spec Cluster Nd Ens Dilate

variable {periodic periodic' dbg dbg' : Bool} {f g h kernel kernel' r r' r'' : Nd Int} {k k' : Nat}

/-- Legal arguments of dilate with the same number of iterations for all labels. -/
structure SameArgs (periodic : Bool) (f kernel : Nd Int) : Prop where
  legal : Legal periodic f.shape kernel.shape
  image : 0 ∉ f.shape
  mask : IsMask kernel
  label : ∀ x ∈ pixels f.shape, 0 ≤ val f x

/-- The pixels that have a label. -/
def Labelled (f : Nd Int) (x : List Int) : Prop := x ∈ pixels f.shape ∧ val f x ≠ 0

instance (f : Nd Int) (x : List Int) : Decidable (Labelled f x) := by unfold Labelled; infer_instance

theorem dilate_support (a : SameArgs periodic f kernel) (e : dilateSame dbg f kernel k periodic = ok r)
    (x : List Int) : Labelled r x ↔ ∃ y, Labelled f y ∧ Reach periodic f.shape kernel y k x := by
  obtain ⟨q, e', hs, -, h1, h2⟩ := C23_same dbg (k := k) a.legal a.image a.mask a.label
  obtain rfl : r = q := by rw [e] at e'; exact Outcome.ok.inj e'
  unfold Labelled
  rw [hs]
  constructor
  · rintro ⟨hx, hv⟩
    obtain ⟨y, hy, ey, hr⟩ := h1 x hx hv
    exact ⟨y, ⟨hy, by rw [ey]; exact hv⟩, hr⟩
  · rintro ⟨y, ⟨hy, hv⟩, hr⟩
    have hx := reach_mem hr hy
    exact ⟨hx, h2 x hx ⟨y, hy, hv, hr⟩⟩

/-- A map of pixels that respects the steps respects what is reached. -/
theorem reach_map {s s' : List Nat} {φ ψ : List Int → List Int}
    (hφ : ∀ x ∈ pixels s, φ x ∈ pixels s')
    (hψ : ∀ x ∈ pixels s, ∀ d, Offset kernel d → target periodic s x d ∈ pixels s → Offset kernel' (ψ d) ∧
      target periodic' s' (φ x) (ψ d) = φ (target periodic s x d))
    {x y : List Int} {n : Nat} (hx : x ∈ pixels s) (hr : Reach periodic s kernel x n y) :
    Reach periodic' s' kernel' (φ x) n (φ y) := by
  induction hr with
  | here n => exact .here n
  | step n w d hw hd ht ih =>
    obtain ⟨h1, h2⟩ := hψ w (reach_mem hw hx) d hd ht
    rw [← h2]
    exact .step n _ _ ih h1 (by rw [h2]; exact hφ _ ht)

/-- More iterations: more pixels. -/
theorem C78_iterations (a : SameArgs periodic f kernel) (hk : k ≤ k')
    (e : dilateSame dbg f kernel k periodic = ok r) (e' : dilateSame dbg' f kernel k' periodic = ok r')
    {x : List Int} (hx : Labelled r x) : Labelled r' x := by
  rw [dilate_support a e] at hx
  rw [dilate_support a e']
  obtain ⟨y, hy, hr⟩ := hx
  exact ⟨y, hy, Reach.mono hr hk⟩

/-- A larger image: more pixels. -/
theorem C78_image (a : SameArgs periodic f kernel) (b : SameArgs periodic g kernel) (hs : g.shape = f.shape)
    (hfg : ∀ x, Labelled f x → Labelled g x)
    (e : dilateSame dbg f kernel k periodic = ok r) (e' : dilateSame dbg' g kernel k periodic = ok r')
    {x : List Int} (hx : Labelled r x) : Labelled r' x := by
  rw [dilate_support a e] at hx
  rw [dilate_support b e', hs]
  obtain ⟨y, hy, hr⟩ := hx
  exact ⟨y, hfg y hy, hr⟩

/-- Which pixels are labelled does not depend on the labels. -/
theorem C78_labels (a : SameArgs periodic f kernel) (b : SameArgs periodic g kernel) (hs : g.shape = f.shape)
    (hfg : ∀ x, Labelled f x ↔ Labelled g x)
    (e : dilateSame dbg f kernel k periodic = ok r) (e' : dilateSame dbg' g kernel k periodic = ok r')
    {x : List Int} : Labelled r x ↔ Labelled r' x :=
  ⟨C78_image a b hs (fun x => (hfg x).1) e e', C78_image b a hs.symm (fun x => (hfg x).2) e' e⟩

/-- A larger kernel: more pixels. -/
theorem C78_kernel (a : SameArgs periodic f kernel) (b : SameArgs periodic f kernel')
    (hk : ∀ d, Offset kernel d → Offset kernel' d)
    (e : dilateSame dbg f kernel k periodic = ok r) (e' : dilateSame dbg' f kernel' k periodic = ok r')
    {x : List Int} (hx : Labelled r x) : Labelled r' x := by
  rw [dilate_support a e] at hx
  rw [dilate_support b e']
  obtain ⟨y, hy, hr⟩ := hx
  exact ⟨y, hy, reach_map (φ := id) (ψ := id) (fun x hx => hx) (fun x _ d hd _ => ⟨hk d hd, rfl⟩) hy.1 hr⟩

/-- Kernels of one shape are compared element by element. -/
theorem offset_mono (hs : kernel'.shape = kernel.shape)
    (hk : ∀ i ∈ pixels kernel.shape, val kernel i = 1 → val kernel' i = 1) (d : List Int)
    (hd : Offset kernel d) : Offset kernel' d := by
  obtain ⟨i, hi, hv, rfl⟩ := hd
  exact ⟨i, by rw [hs]; exact hi, hk i hi hv, by rw [hs]⟩

/-- Periodic: more pixels than not periodic. -/
theorem C78_periodic (a : SameArgs true f kernel)
    (e : dilateSame dbg f kernel k false = ok r) (e' : dilateSame dbg' f kernel k true = ok r')
    {x : List Int} (hx : Labelled r x) : Labelled r' x := by
  have b : SameArgs false f kernel :=
    ⟨⟨a.legal.rank, a.legal.pos, a.legal.same, fun h => absurd h (by simp)⟩, a.image, a.mask, a.label⟩
  rw [dilate_support b e] at hx
  rw [dilate_support a e']
  obtain ⟨y, hy, hr⟩ := hx
  refine ⟨y, hy, reach_map (φ := id) (ψ := id) (fun x hx => hx) (fun x _ d hd ht => ⟨hd, ?_⟩) hy.1 hr⟩
  exact wrap_of_inbox (mem_pixels.1 ht)

/-- The dilation of a union is the union of the dilations. -/
theorem C78_union (a : SameArgs periodic f kernel) (b : SameArgs periodic g kernel)
    (c : SameArgs periodic h kernel) (hf : f.shape = h.shape) (hg : g.shape = h.shape)
    (hu : ∀ x, Labelled h x ↔ Labelled f x ∨ Labelled g x)
    (e : dilateSame dbg f kernel k periodic = ok r) (e' : dilateSame dbg' g kernel k periodic = ok r')
    (e'' : dilateSame dbg'' h kernel k periodic = ok r'') {x : List Int} :
    Labelled r'' x ↔ Labelled r x ∨ Labelled r' x := by
  rw [dilate_support a e, dilate_support b e', dilate_support c e'', hf, hg]
  constructor
  · rintro ⟨y, hy, hr⟩
    rcases (hu y).1 hy with h | h
    · exact .inl ⟨y, h, hr⟩
    · exact .inr ⟨y, h, hr⟩
  · rintro (⟨y, hy, hr⟩ | ⟨y, hy, hr⟩)
    · exact ⟨y, (hu y).2 (.inl hy), hr⟩
    · exact ⟨y, (hu y).2 (.inr hy), hr⟩

theorem shift_target {s : List Nat} {x d t : List Int} (hx : x.length = s.length) (hd : d.length = s.length)
    (ht : t.length = s.length) :
    target true s (wrap s (move x t)) d = wrap s (move (target true s x d) t) := by
  show wrap s (move (wrap s (move x t)) d) = wrap s (move (wrap s (move x d)) t)
  rw [shift_shift hx ht hd, shift_shift hx hd ht, move_comm (d := t)]

theorem shift_reach {s : List Nat} {x y t : List Int} {n : Nat} (hk : kernel.shape.length = s.length)
    (ht : t.length = s.length) (hx : x ∈ pixels s) (hr : Reach true s kernel x n y) :
    Reach true s kernel (wrap s (move x t)) n (wrap s (move y t)) :=
  reach_map (φ := fun x => wrap s (move x t)) (ψ := id)
    (fun x hx => mem_pixels.2 (shift_inbox (mem_pixels.1 hx) ht))
    (fun x hx d hd _ => ⟨hd, shift_target (inbox_length (mem_pixels.1 hx))
      (by rw [id, Dilate.offset_length hd, hk]) ht⟩) hx hr

/-- The periodic dilation of the shifted image is the shifted dilation. -/
theorem C78_shift {t : List Int} (a : SameArgs true f kernel) (b : SameArgs true g kernel)
    (hs : g.shape = f.shape) (ht : t.length = f.shape.length)
    (hfg : ∀ x ∈ pixels f.shape, Labelled g (wrap f.shape (move x t)) ↔ Labelled f x)
    (e : dilateSame dbg f kernel k true = ok r) (e' : dilateSame dbg' g kernel k true = ok r')
    {x : List Int} (hx : x ∈ pixels f.shape) : Labelled r' (wrap f.shape (move x t)) ↔ Labelled r x := by
  have hk : kernel.shape.length = f.shape.length := a.legal.same.symm
  rw [dilate_support a e, dilate_support b e', hs]
  constructor
  · rintro ⟨y, hy, hr⟩
    have hyb : InBox f.shape y := mem_pixels.1 (hs ▸ hy.1)
    have e1 : wrap f.shape (move (wrap f.shape (move y (neg t))) t) = y := by
      have := shift_neg (d := neg t) hyb (by rw [neg_length, ht])
      rwa [neg_neg'] at this
    refine ⟨wrap f.shape (move y (neg t)), ?_, ?_⟩
    · rw [← hfg _ (mem_pixels.2 (shift_inbox hyb (by rw [neg_length, ht]))), e1]
      exact hy
    · have := shift_reach (t := neg t) hk (by rw [neg_length, ht]) (mem_pixels.2 hyb) hr
      rwa [shift_neg (mem_pixels.1 hx) ht] at this
  · rintro ⟨y, hy, hr⟩
    exact ⟨_, (hfg y hy.1).2 hy, shift_reach hk ht hy.1 hr⟩

theorem reach_symm {s : List Nat} (hk : kernel.shape.length = s.length)
    (hsym : ∀ d, Offset kernel d → Offset kernel (neg d)) {x y : List Int} {n : Nat} (hx : x ∈ pixels s)
    (hr : Reach periodic s kernel x n y) : Reach periodic s kernel y n x := by
  induction hr with
  | here n => exact .here n
  | step n w d hw hd ht ih =>
    have hwm := reach_mem hw hx
    have e := target_neg (periodic := periodic) (mem_pixels.1 hwm) (by rw [Dilate.offset_length hd, hk])
    have one : Reach periodic s kernel (target periodic s w d) 1 w := by
      have := Reach.step 0 _ _ (Reach.here (periodic := periodic) (shape := s) (kernel := kernel) 0)
        (hsym d hd) (by rw [e]; exact hwm)
      rwa [e] at this
    have := reach_trans one ih
    rwa [Nat.add_comm] at this

/-- With a symmetric kernel, `y` is in the dilation of `x` if and only if `x` is in the dilation of `y`. -/
theorem C78_symmetric {x y : List Int} (a : SameArgs periodic f kernel) (b : SameArgs periodic g kernel)
    (hs : g.shape = f.shape) (hsym : ∀ d, Offset kernel d → Offset kernel (neg d))
    (hf : ∀ z, Labelled f z ↔ z = x) (hg : ∀ z, Labelled g z ↔ z = y)
    (e : dilateSame dbg f kernel k periodic = ok r) (e' : dilateSame dbg' g kernel k periodic = ok r') :
    Labelled r y ↔ Labelled r' x := by
  have hk : kernel.shape.length = f.shape.length := a.legal.same.symm
  have hx : x ∈ pixels f.shape := ((hf x).2 rfl).1
  have hy : y ∈ pixels f.shape := hs ▸ ((hg y).2 rfl).1
  rw [dilate_support a e, dilate_support b e', hs]
  simp only [hf, hg, exists_eq_left]
  exact ⟨reach_symm hk hsym hx, reach_symm hk hsym hy⟩

theorem mirror_target {s : List Nat} : ∀ {rr : List Bool} {x d : List Int}, rr.length = s.length →
    x.length = s.length → d.length = s.length → (0 ∉ s) →
    target periodic s (mirror s rr x) (mirrorStep rr d) = mirror s rr (target periodic s x d) := by
  cases periodic with
  | false =>
    show ∀ {rr : List Bool} {x d : List Int}, rr.length = s.length →
      x.length = s.length → d.length = s.length → (0 ∉ s) →
      move (mirror s rr x) (mirrorStep rr d) = mirror s rr (move x d)
    induction s with
    | nil => intro rr x d h1 h2 h3 _; cases rr <;> cases x <;> cases d <;> simp_all [mirror, mirrorStep, move]
    | cons n s ih =>
      intro rr x d h1 h2 h3 h0
      obtain ⟨b, rr, rfl⟩ := List.exists_cons_of_length_eq_add_one h1
      obtain ⟨i, x, rfl⟩ := List.exists_cons_of_length_eq_add_one h2
      obtain ⟨j, d, rfl⟩ := List.exists_cons_of_length_eq_add_one h3
      have := ih (rr := rr) (x := x) (d := d) (by simpa using h1) (by simpa using h2) (by simpa using h3)
        (fun h => h0 (List.mem_cons_of_mem _ h))
      simp only [mirror, mirrorStep, move, List.zipWith_cons_cons, List.cons.injEq] at this ⊢
      refine ⟨?_, this⟩
      cases b <;> simp
      omega
  | true =>
    show ∀ {rr : List Bool} {x d : List Int}, rr.length = s.length →
      x.length = s.length → d.length = s.length → (0 ∉ s) →
      wrap s (move (mirror s rr x) (mirrorStep rr d)) = mirror s rr (wrap s (move x d))
    induction s with
    | nil => intro rr x d h1 h2 h3 _; cases rr <;> cases x <;> cases d <;> simp_all [mirror, mirrorStep, move, wrap]
    | cons n s ih =>
      intro rr x d h1 h2 h3 h0
      obtain ⟨b, rr, rfl⟩ := List.exists_cons_of_length_eq_add_one h1
      obtain ⟨i, x, rfl⟩ := List.exists_cons_of_length_eq_add_one h2
      obtain ⟨j, d, rfl⟩ := List.exists_cons_of_length_eq_add_one h3
      have := ih (rr := rr) (x := x) (d := d) (by simpa using h1) (by simpa using h2) (by simpa using h3)
        (fun h => h0 (List.mem_cons_of_mem _ h))
      simp only [mirror, mirrorStep, move, wrap, List.zipWith_cons_cons, List.cons.injEq] at this ⊢
      refine ⟨?_, this⟩
      have hn : 0 < (n : Int) := by
        have : n ≠ 0 := fun h => h0 (by simp [h])
        omega
      cases b with
      | false => simp
      | true =>
        simp only [if_true]
        rw [show (n : Int) - 1 - i + -j = (n - 1 - (i + j) % n) + n * (-((i + j) / n)) by
          have := Int.emod_add_mul_ediv (i + j) n
          linarith, Int.add_mul_emod_self_left]
        have h1 := Int.emod_nonneg (i + j) hn.ne'
        have h2 := Int.emod_lt_of_pos (i + j) hn
        exact Int.emod_eq_of_lt (by omega) (by omega)

theorem mirror_reach {s : List Nat} {rr : List Bool} (hrr : rr.length = s.length) (h0 : 0 ∉ s)
    (hk : kernel.shape.length = s.length) (hsym : ∀ d, Offset kernel d → Offset kernel' (mirrorStep rr d))
    {x y : List Int} {n : Nat} (hx : x ∈ pixels s) (hr : Reach periodic s kernel x n y) :
    Reach periodic s kernel' (mirror s rr x) n (mirror s rr y) :=
  reach_map (φ := mirror s rr) (ψ := mirrorStep rr)
    (fun x hx => mem_pixels.2 (mirror_inbox hrr (mem_pixels.1 hx)))
    (fun x hx d hd _ => ⟨hsym d hd, mirror_target hrr (inbox_length (mem_pixels.1 hx))
      (by rw [Dilate.offset_length hd, hk]) h0⟩) hx hr

/-- The dilation of the reflected image with the reflected kernel is the reflected dilation. -/
theorem C78_reflect {rr : List Bool} (a : SameArgs periodic f kernel) (b : SameArgs periodic g kernel')
    (hs : g.shape = f.shape) (hrr : rr.length = f.shape.length)
    (hk : ∀ d, Offset kernel d → Offset kernel' (mirrorStep rr d))
    (hk' : ∀ d, Offset kernel' d → Offset kernel (mirrorStep rr d))
    (hfg : ∀ x ∈ pixels f.shape, Labelled g (mirror f.shape rr x) ↔ Labelled f x)
    (e : dilateSame dbg f kernel k periodic = ok r) (e' : dilateSame dbg' g kernel' k periodic = ok r')
    {x : List Int} (hx : x ∈ pixels f.shape) : Labelled r' (mirror f.shape rr x) ↔ Labelled r x := by
  have hl : kernel.shape.length = f.shape.length := a.legal.same.symm
  have hl' : kernel'.shape.length = f.shape.length := by rw [← b.legal.same, hs]
  rw [dilate_support a e, dilate_support b e', hs]
  constructor
  · rintro ⟨y, hy, hr⟩
    have hyb : InBox f.shape y := mem_pixels.1 (hs ▸ hy.1)
    refine ⟨mirror f.shape rr y, ?_, ?_⟩
    · rw [← hfg _ (mem_pixels.2 (mirror_inbox hrr hyb)), mirror_mirror hrr hyb]
      exact hy
    · have := mirror_reach hrr a.image hl' hk' (mem_pixels.2 hyb) hr
      rwa [mirror_mirror hrr (mem_pixels.1 hx)] at this
  · rintro ⟨y, hy, hr⟩
    exact ⟨_, (hfg y hy.1).2 hy, mirror_reach hrr a.image hl hk hy.1 hr⟩

/-- The number of steps along the axes between two pixels. -/
def gridDistance (x y : List Int) : Nat := (List.zipWith (fun a b => (a - b).natAbs) x y).sum

/-- A step along one axis towards `x`. -/
theorem toward : ∀ {s : List Nat} {x y : List Int}, InBox s x → InBox s y → x ≠ y →
    ∃ d, d.length = s.length ∧ (d.map Int.natAbs).sum = 1 ∧ InBox s (move y d) ∧
      gridDistance x (move y d) + 1 = gridDistance x y
  | [], [], [], _, _, h => absurd rfl h
  | n :: s, a :: x, b :: y, .cons ha hx, .cons hb hy, h => by
    by_cases hab : a = b
    · subst hab
      obtain ⟨d, h1, h2, h3, h4⟩ := toward hx hy (fun e => h (by rw [e]))
      refine ⟨0 :: d, by simp [h1], by simpa using h2, ?_, ?_⟩
      · simp only [move, List.zipWith_cons_cons, add_zero]
        exact .cons hb h3
      · simp only [gridDistance, move, List.zipWith_cons_cons, List.sum_cons] at h4 ⊢
        simpa using h4
    · have hy' : move y (List.replicate s.length 0) = y := by
        have := inbox_length hy
        unfold move
        apply List.ext_getElem (by simp [this])
        intro i _ _
        simp
      refine ⟨(if b < a then 1 else -1) :: List.replicate s.length 0, by simp, ?_, ?_, ?_⟩
      · split <;> simp
      · simp only [move, List.zipWith_cons_cons] at hy' ⊢
        rw [hy']
        exact .cons (by split <;> omega) hy
      · simp only [gridDistance, move, List.zipWith_cons_cons, List.sum_cons] at hy' ⊢
        rw [hy']
        split <;> omega

theorem nearestStep_of_one {d : List Int} (hd : (d.map Int.natAbs).sum = 1) : NearestStep d.length d := by
  refine ⟨rfl, fun e he => ?_, ?_⟩
  · have := List.le_sum_of_mem (List.mem_map_of_mem (f := Int.natAbs) he)
    omega
  · by_contra hcon
    rw [not_or] at hcon
    have : d.length ≤ (d.map Int.natAbs).sum := by
      have := List.length_le_sum_of_one_le (d.map Int.natAbs) (fun i hi => by
        obtain ⟨e, he, rfl⟩ := List.mem_map.1 hi
        have : e ≠ 0 := fun h => hcon.2 (h ▸ he)
        omega)
      simpa using this
    have : d.length ≠ 0 := fun h => by
      rw [List.length_eq_zero_iff] at h
      simp [h] at hd
    omega

theorem reach_distance {s : List Nat} (hk : ∀ d, NearestStep s.length d → Offset kernel d) {x : List Int}
    (hx : InBox s x) : ∀ (n : Nat) {y : List Int}, InBox s y → gridDistance x y ≤ n →
    Reach periodic s kernel y n x := by
  intro n
  induction n with
  | zero =>
    intro y hy hd
    by_cases e : x = y
    · subst e; exact .here 0
    · obtain ⟨_, _, _, _, h⟩ := toward hx hy e
      omega
  | succ n ih =>
    intro y hy hd
    by_cases e : x = y
    · subst e; exact .here _
    · obtain ⟨d, h1, h2, h3, h4⟩ := toward hx hy e
      have et : target periodic s y d = move y d := by
        cases periodic with
        | false => rfl
        | true => exact wrap_of_inbox h3
      have one : Reach periodic s kernel y 1 (move y d) := by
        have := Reach.step 0 _ _ (Reach.here (periodic := periodic) (shape := s) (kernel := kernel) 0)
          (hk d (h1 ▸ nearestStep_of_one h2)) (by rw [et]; exact mem_pixels.2 h3)
        rwa [et] at this
      have := reach_trans one (ih h3 (by omega))
      rwa [Nat.add_comm] at this

theorem gridDistance_le : ∀ {s : List Nat} {x y : List Int}, InBox s x → InBox s y →
    gridDistance x y ≤ (s.map fun n => n - 1).sum
  | [], [], [], _, _ => by simp [gridDistance]
  | n :: s, a :: x, b :: y, .cons ha hx, .cons hb hy => by
    have := gridDistance_le hx hy
    simp only [gridDistance, List.zipWith_cons_cons, List.sum_cons, List.map_cons] at this ⊢
    omega

/-- The default kernel labels at least the pixels that are at most `k` steps along the axes away from a
labelled pixel. -/
theorem C78_distance (h1 : 1 ≤ f.shape.length) (h3 : f.shape.length ≤ 3) (h0 : 0 ∉ f.shape)
    (hf : ∀ x ∈ pixels f.shape, 0 ≤ val f x) (e : dilateNearestSame dbg f k periodic = ok r)
    {x y : List Int} (hy : Labelled f y) (hx : x ∈ pixels f.shape) (hd : gridDistance x y ≤ k) :
    Labelled r x := by
  obtain ⟨q, K, e', hs, hK, -, -, h2⟩ := C23_nearest dbg (periodic := periodic) (k := k) h1 h3 h0 hf
  obtain rfl : r = q := by rw [e] at e'; exact Outcome.ok.inj e'
  refine ⟨hs ▸ hx, h2 x hx ⟨y, hy.1, hy.2, ?_⟩⟩
  exact reach_distance (fun d hd => (hK d).2 hd) (mem_pixels.1 hx) k (mem_pixels.1 hy.1) hd

/-- Enough iterations with the default kernel label every pixel, if any pixel is labelled. -/
theorem C78_fill (h1 : 1 ≤ f.shape.length) (h3 : f.shape.length ≤ 3) (h0 : 0 ∉ f.shape)
    (hf : ∀ x ∈ pixels f.shape, 0 ≤ val f x) (e : dilateNearestSame dbg f k periodic = ok r)
    (hk : (f.shape.map fun n => n - 1).sum ≤ k) (hne : ∃ y, Labelled f y) {x : List Int}
    (hx : x ∈ pixels f.shape) : Labelled r x := by
  obtain ⟨y, hy⟩ := hne
  exact C78_distance h1 h3 h0 hf e hy hx
    ((gridDistance_le (mem_pixels.1 hx) (mem_pixels.1 hy.1)).trans hk)

/-- In two dimensions without periodicity the default kernel labels no other pixel: the dilation is the set
of pixels at most `k` steps along the axes away. -/
theorem C78_exact {n m : Nat} (hs : f.shape = [n, m]) (h0 : 0 ∉ f.shape)
    (hf : ∀ x ∈ pixels f.shape, 0 ≤ val f x) (e : dilateNearestSame dbg f k false = ok r)
    {x : List Int} (hx : x ∈ pixels f.shape) :
    Labelled r x ↔ ∃ y, Labelled f y ∧ gridDistance x y ≤ k := by
  constructor
  · intro hl
    obtain ⟨q, K, e', hsq, hK, -, h2, -⟩ := C23_nearest dbg (periodic := false) (k := k) (by simp [hs])
      (by simp [hs]) h0 hf
    obtain rfl : r = q := by rw [e] at e'; exact Outcome.ok.inj e'
    obtain ⟨y, hy, ey, hr⟩ := h2 x hx hl.2
    refine ⟨y, ⟨hy, by rw [ey]; exact hl.2⟩, ?_⟩
    clear e e' hl h2 ey hx
    induction hr with
    | here n =>
      obtain ⟨i, j, rfl⟩ := List.length_eq_two.1 (by simpa [hs] using inbox_length (mem_pixels.1 hy))
      simp [gridDistance]
    | step l w d hw hd _ ih =>
      have hw' := reach_mem hw hy
      rw [hK, hs] at hd
      obtain ⟨i, j, rfl⟩ := List.length_eq_two.1 (by simpa [hs] using inbox_length (mem_pixels.1 hy))
      obtain ⟨i', j', rfl⟩ := List.length_eq_two.1 (by simpa [hs] using inbox_length (mem_pixels.1 hw'))
      obtain ⟨p, q, rfl⟩ := List.length_eq_two.1 hd.1
      obtain ⟨-, h1, h2⟩ := hd
      have hp := h1 p (by simp)
      have hq := h1 q (by simp)
      simp only [List.length_cons, List.length_nil, List.mem_cons, List.not_mem_nil, or_false] at h2
      simp only [gridDistance, target, move, List.zipWith_cons_cons, List.zipWith_nil_left, List.sum_cons,
        List.sum_nil, Bool.false_eq_true, if_false] at ih ⊢
      omega
  · rintro ⟨y, hy, hd⟩
    exact C78_distance (by simp [hs]) (by simp [hs]) h0 hf e hy hx hd

/-! ### The hypotheses are met -/

/-- Two kernels and two images. -/
private def cross : Nd Int := Nd.ofList [3, 3] [0, 1, 0, 1, 1, 1, 0, 1, 0]
private def line : Nd Int := Nd.ofList [3, 3] [0, 0, 0, 1, 1, 0, 0, 0, 0]
private def one : Nd Int := Nd.ofList [3, 4] [0, 0, 0, 0, 0, 2, 0, 0, 0, 0, 0, 0]
private def two : Nd Int := Nd.ofList [3, 4] [0, 0, 0, 0, 0, 1, 0, 3, 0, 0, 0, 0]

example : SameArgs true one cross ∧ SameArgs true two cross ∧ SameArgs true one line ∧
    SameArgs false one cross := by
  refine ⟨⟨⟨?_, ?_, ?_, ?_⟩, ?_, ?_, ?_⟩, ⟨⟨?_, ?_, ?_, ?_⟩, ?_, ?_, ?_⟩, ⟨⟨?_, ?_, ?_, ?_⟩, ?_, ?_, ?_⟩,
    ⟨⟨?_, ?_, ?_, ?_⟩, ?_, ?_, ?_⟩⟩ <;>
    first | decide | (unfold IsMask; decide) | (unfold Fits; decide)

/-- C78_image, C78_kernel, C78_union: the inclusions. -/
example : (∀ x ∈ pixels [3, 4], Labelled one x → Labelled two x) ∧
    (∀ i ∈ pixels line.shape, val line i = 1 → val cross i = 1) ∧
    (∃ x ∈ pixels [3, 4], Labelled two x ∧ ¬ Labelled one x) := by decide

/-- C78_symmetric: the cross is symmetric, the line is not. -/
example : (∀ i ∈ pixels cross.shape, val cross i = 1 → ∃ j ∈ pixels cross.shape, val cross j = 1 ∧
      displacement cross.shape j = neg (displacement cross.shape i)) ∧
    ¬ (∀ i ∈ pixels line.shape, val line i = 1 → ∃ j ∈ pixels line.shape, val line j = 1 ∧
      displacement line.shape j = neg (displacement line.shape i)) := by decide

/-- The results are not trivial: two iterations with the cross, with and without periodicity. -/
example : (dilateSame true one cross 1 false).map Nd.toList =
      ok [0, 2, 0, 0, 2, 2, 2, 0, 0, 2, 0, 0] ∧
    (dilateSame true one line 2 true).map Nd.toList =
      ok [0, 0, 0, 0, 2, 2, 0, 2, 0, 0, 0, 0] ∧
    (dilateSame true one line 2 false).map Nd.toList =
      ok [0, 0, 0, 0, 2, 2, 0, 0, 0, 0, 0, 0] := by
  refine ⟨?_, ?_, ?_⟩ <;> decide +kernel

/-- C78_shift: the second image is the first shifted by `[1, 3]`. -/
example : ∀ x ∈ pixels [3, 4],
    (Labelled (Nd.ofList [3, 4] [0, 0, 0, 0, 0, 0, 0, 0, 7, 0, 0, 0]) (wrap [3, 4] (move x [1, 3])) ↔
      Labelled one x) := by decide

/-- C78_reflect: the columns reversed, the line reversed. -/
example : (∀ x ∈ pixels [3, 4],
      (Labelled (Nd.ofList [3, 4] [0, 0, 0, 0, 0, 0, 1, 0, 0, 0, 0, 0]) (mirror [3, 4] [false, true] x) ↔
        Labelled one x)) ∧
    ∀ i ∈ pixels line.shape, val line i = 1 →
      ∃ j ∈ pixels [3, 3], val (Nd.ofList [3, 3] [0, 0, 0, 0, 1, 1, 0, 0, 0]) j = 1 ∧
        displacement [3, 3] j = mirrorStep [false, true] (displacement line.shape i) := by decide

/-- C78_fill: five iterations suffice for 3 by 4 pixels, four do not if the corner is labelled. -/
example : (∃ y ∈ pixels [3, 4], Labelled one y) ∧ (([3, 4] : List Nat).map fun n => n - 1).sum = 5 ∧
    (dilateNearestSame true (Nd.ofList [3, 4] [1, 0, 0, 0, 0, 0, 0, 0, 0, 0, 0, 0]) 4 false).map Nd.toList =
      ok [1, 1, 1, 1, 1, 1, 1, 1, 1, 1, 1, 0] := by
  refine ⟨by decide, rfl, by decide +kernel⟩

end Verif.Props
