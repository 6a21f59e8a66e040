import Verif.Props.DilateAlgebra
import Verif.Props.DilateAlone

/-!
# Dilation and the orientation of the image (C78)

Which pixels are labelled follows the image also if its axes are permuted. If no two labels meet, so do the labels.
-/

namespace Verif.Props

open Verif Outcome Spec Cluster Nd Ens Dilate

variable {periodic dbg dbg' : Bool} {f g kernel kernel' r r' : Nd Int} {k : Nat} {iterations : List Nat}

/-! ### Permuting the axes -/

theorem axes_zipWith {α β : Type*} [Inhabited α] [Inhabited β] {σ : List Nat} {op : α → β → α} {x : List α}
    {y : List β} (hσ : σ.Perm (List.range x.length)) (h : y.length = x.length) :
    axes σ (List.zipWith op x y) = List.zipWith op (axes σ x) (axes σ y) := by
  apply List.ext_getElem
  · simp [axes]
  · intro k h1 h2
    have hk : k < σ.length := by simpa [axes] using h1
    have := perm_lt hσ hk
    simp [axes, List.getD, this, h]

theorem axes_target {σ s : List Nat} (hσ : σ.Perm (List.range s.length)) {x d : List Int} (hx : x.length = s.length)
    (hd : d.length = s.length) :
    target periodic (axes σ s) (axes σ x) (axes σ d) = axes σ (target periodic s x d) := by
  have hm : axes σ (move x d) = move (axes σ x) (axes σ d) := by
    unfold move
    exact axes_zipWith (by rwa [hx]) (by omega)
  cases periodic with
  | false => exact hm.symm
  | true =>
    show wrap _ (move _ _) = axes σ (wrap s (move x d))
    rw [← hm]
    have hl : (move x d).length = s.length := by simp [move, hx, hd]
    unfold wrap
    apply List.ext_getElem
    · simp [axes]
    · intro k h1 h2
      have hk : k < σ.length := by simpa [axes] using h2
      have := perm_lt hσ hk
      simp [axes, List.getD, this, hl]

theorem axes_reach {σ s : List Nat} (hσ : σ.Perm (List.range s.length)) (hk : kernel.shape.length = s.length)
    (hsym : ∀ d, Offset kernel d → Offset kernel' (axes σ d)) {x y : List Int} {n : Nat} (hx : x ∈ pixels s)
    (hr : Reach periodic s kernel x n y) : Reach periodic (axes σ s) kernel' (axes σ x) n (axes σ y) :=
  reach_map (φ := axes σ) (ψ := axes σ) (fun x hx => mem_pixels.2 (axes_inbox hσ (mem_pixels.1 hx)))
    (fun x hx d hd _ => ⟨hsym d hd, axes_target hσ (inbox_length (mem_pixels.1 hx))
      (by rw [Dilate.offset_length hd, hk])⟩) hx hr

/-! ### Motions -/

/-- A map of the pixels of one image onto those of another that respects what is reached. -/
structure ReachMotion (periodic : Bool) (s s' : List Nat) (kernel kernel' : Nd Int) (τ : List Int → List Int) : Prop where
  map : ∀ x ∈ pixels s, τ x ∈ pixels s'
  onto : ∀ y ∈ pixels s', ∃ x ∈ pixels s, τ x = y
  reach : ∀ x ∈ pixels s, ∀ y ∈ pixels s, ∀ n, Reach periodic s' kernel' (τ x) n (τ y) ↔ Reach periodic s kernel x n y

/-- From two maps that are each other's inverse. -/
theorem ReachMotion.of_inverse {s s' : List Nat} {τ τ' : List Int → List Int} (h1 : ∀ x ∈ pixels s, τ x ∈ pixels s')
    (h2 : ∀ y ∈ pixels s', τ' y ∈ pixels s) (h3 : ∀ x ∈ pixels s, τ' (τ x) = x) (h4 : ∀ y ∈ pixels s', τ (τ' y) = y)
    (h5 : ∀ {x y n}, x ∈ pixels s → Reach periodic s kernel x n y → Reach periodic s' kernel' (τ x) n (τ y))
    (h6 : ∀ {x y n}, x ∈ pixels s' → Reach periodic s' kernel' x n y → Reach periodic s kernel (τ' x) n (τ' y)) :
    ReachMotion periodic s s' kernel kernel' τ := by
  refine ⟨h1, fun y hy => ⟨_, h2 y hy, h4 y hy⟩, fun x hx y hy n => ⟨fun h => ?_, h5 hx⟩⟩
  have := h6 (h1 x hx) h
  rwa [h3 x hx, h3 y hy] at this

theorem motion_shift {s : List Nat} {t : List Int} (hk : kernel.shape.length = s.length) (ht : t.length = s.length) :
    ReachMotion true s s kernel kernel fun x => wrap s (move x t) := by
  refine .of_inverse (τ' := fun x => wrap s (move x (neg t)))
    (fun x hx => mem_pixels.2 (shift_inbox (mem_pixels.1 hx) ht))
    (fun x hx => mem_pixels.2 (shift_inbox (mem_pixels.1 hx) (by rw [neg_length, ht])))
    (fun x hx => shift_neg (mem_pixels.1 hx) ht) (fun y hy => ?_)
    (fun hx hr => shift_reach hk ht hx hr) (fun hx hr => shift_reach hk (by rw [neg_length, ht]) hx hr)
  have := shift_neg (d := neg t) (mem_pixels.1 hy) (by rw [neg_length, ht])
  rwa [neg_neg'] at this

theorem motion_reflect {s : List Nat} {rr : List Bool} (hrr : rr.length = s.length) (h0 : 0 ∉ s)
    (hl : kernel.shape.length = s.length) (hl' : kernel'.shape.length = s.length)
    (hk : ∀ d, Offset kernel d → Offset kernel' (mirrorStep rr d))
    (hk' : ∀ d, Offset kernel' d → Offset kernel (mirrorStep rr d)) :
    ReachMotion periodic s s kernel kernel' (mirror s rr) :=
  .of_inverse (τ' := mirror s rr) (fun x hx => mem_pixels.2 (mirror_inbox hrr (mem_pixels.1 hx)))
    (fun x hx => mem_pixels.2 (mirror_inbox hrr (mem_pixels.1 hx)))
    (fun x hx => mirror_mirror hrr (mem_pixels.1 hx)) (fun x hx => mirror_mirror hrr (mem_pixels.1 hx))
    (fun hx hr => mirror_reach hrr h0 hl hk hx hr) (fun hx hr => mirror_reach hrr h0 hl' hk' hx hr)

theorem motion_axes {σ s : List Nat} (hσ : σ.Perm (List.range s.length)) (hl : kernel.shape.length = s.length)
    (hl' : kernel'.shape.length = s.length) (hk : ∀ d, Offset kernel d → Offset kernel' (axes σ d))
    (hk' : ∀ d, Offset kernel' d → Offset kernel (axes (inverse σ) d)) :
    ReachMotion periodic s (axes σ s) kernel kernel' (axes σ) := by
  have hσl : σ.length = s.length := by simpa using hσ.length_eq
  have hi := inverse_perm hσ
  have hi' : (inverse σ).Perm (List.range (axes σ s).length) := by rwa [axes_length, hσl]
  have hs : axes (inverse σ) (axes σ s) = s := axes_inverse hσ
  refine .of_inverse (τ' := axes (inverse σ)) (fun x hx => mem_pixels.2 (axes_inbox hσ (mem_pixels.1 hx)))
    (fun x hx => ?_) (fun x hx => axes_inverse (by rwa [inbox_length (mem_pixels.1 hx)]))
    (fun x hx => inverse_axes (by rwa [inbox_length (mem_pixels.1 hx), axes_length, hσl]))
    (fun hx hr => axes_reach hσ hl hk hx hr) (fun hx hr => ?_)
  · have := axes_inbox hi' (mem_pixels.1 hx)
    rw [hs] at this
    exact mem_pixels.2 this
  · have := axes_reach hi' (by rw [hl', axes_length, hσl]) hk' hx hr
    rwa [hs] at this

theorem labelled_motion {τ : List Int → List Int} (m : ReachMotion periodic f.shape g.shape kernel kernel' τ)
    (a : SameArgs periodic f kernel) (b : SameArgs periodic g kernel')
    (hfg : ∀ x ∈ pixels f.shape, Labelled g (τ x) ↔ Labelled f x)
    (e : dilateSame dbg f kernel k periodic = ok r) (e' : dilateSame dbg' g kernel' k periodic = ok r')
    {x : List Int} (hx : x ∈ pixels f.shape) : Labelled r' (τ x) ↔ Labelled r x := by
  rw [dilate_support a e, dilate_support b e']
  constructor
  · rintro ⟨y, hy, hr⟩
    obtain ⟨z, hz, rfl⟩ := m.onto y hy.1
    exact ⟨z, (hfg z hz).1 hy, (m.reach z hz x hx k).1 hr⟩
  · rintro ⟨y, hy, hr⟩
    exact ⟨τ y, (hfg y hy.1).2 hy, (m.reach y hy.1 x hx k).2 hr⟩

/-- The dilation of the image with permuted axes, with the kernel with permuted axes, is the dilation with permuted
axes. -/
theorem C78_axes {σ : List Nat} (a : SameArgs periodic f kernel) (b : SameArgs periodic g kernel')
    (hσ : σ.Perm (List.range f.shape.length)) (hs : g.shape = axes σ f.shape)
    (hk : ∀ d, Offset kernel d → Offset kernel' (axes σ d))
    (hk' : ∀ d, Offset kernel' d → Offset kernel (axes (inverse σ) d))
    (hfg : ∀ x ∈ pixels f.shape, Labelled g (axes σ x) ↔ Labelled f x)
    (e : dilateSame dbg f kernel k periodic = ok r) (e' : dilateSame dbg' g kernel' k periodic = ok r')
    {x : List Int} (hx : x ∈ pixels f.shape) : Labelled r' (axes σ x) ↔ Labelled r x := by
  have hσl : σ.length = f.shape.length := by simpa using hσ.length_eq
  have m := motion_axes (periodic := periodic) hσ a.legal.same.symm
    (by rw [← b.legal.same, hs, axes_length, hσl]) hk hk'
  rw [← hs] at m
  exact labelled_motion m a b hfg e e' hx

/-! ### The labels -/

theorem grows_motion {τ : List Int → List Int} (m : ReachMotion periodic f.shape g.shape kernel kernel' τ)
    (hfg : ∀ x ∈ pixels f.shape, val g (τ x) = val f x) {l : Int} {x : List Int} (hx : x ∈ pixels f.shape) :
    Grows periodic g kernel' iterations l (τ x) ↔ Grows periodic f kernel iterations l x := by
  constructor
  · rintro ⟨y, hy, ey, hr⟩
    obtain ⟨z, hz, rfl⟩ := m.onto y hy
    exact ⟨z, hz, by rw [← hfg z hz]; exact ey, (m.reach z hz x hx _).1 hr⟩
  · rintro ⟨y, hy, ey, hr⟩
    exact ⟨τ y, m.map y hy, by rw [hfg y hy]; exact ey, (m.reach y hy x hx _).2 hr⟩

theorem dilate_motion {τ : List Int → List Int} (m : ReachMotion periodic f.shape g.shape kernel kernel' τ)
    (a : DilateArgs periodic f kernel iterations) (b : DilateArgs periodic g kernel' iterations)
    (hfg : ∀ x ∈ pixels f.shape, val g (τ x) = val f x)
    (ha : ∀ x ∈ pixels f.shape, val f x ≠ 0 → Alone periodic f kernel iterations (val f x))
    (e : dilate dbg f kernel iterations periodic = ok r) (e' : dilate dbg' g kernel' iterations periodic = ok r')
    {x : List Int} (hx : x ∈ pixels f.shape) : val r' (τ x) = val r x := by
  have hb : ∀ x ∈ pixels g.shape, val g x ≠ 0 → Alone periodic g kernel' iterations (val g x) := by
    intro y hy hy0
    obtain ⟨x, hx, rfl⟩ := m.onto y hy
    rw [hfg x hx] at hy0 ⊢
    intro z hz l hl hz'
    have hzm : z ∈ pixels g.shape := by
      obtain ⟨p, hp, -, hr⟩ := hz
      exact reach_mem hr hp
    obtain ⟨w, hw, rfl⟩ := m.onto z hzm
    exact ha x hx hy0 w ((grows_motion m hfg hw).1 hz) l hl ((grows_motion m hfg hw).1 hz')
  obtain ⟨q, h1, -, h2⟩ := C24_all_alone dbg a ha
  obtain ⟨q', h1', -, h2'⟩ := C24_all_alone dbg' b hb
  obtain rfl : q = r := by rw [e] at h1; exact (Outcome.ok.inj h1).symm
  obtain rfl : q' = r' := by rw [e'] at h1'; exact (Outcome.ok.inj h1').symm
  by_cases h : ∃ l, l ≠ 0 ∧ Grows periodic f kernel iterations l x
  · obtain ⟨l, hl, hg⟩ := h
    rw [(h2 x hx).1 l hl hg, (h2' _ (m.map x hx)).1 l hl ((grows_motion m hfg hx).2 hg)]
  · push Not at h
    rw [(h2 x hx).2 h, (h2' _ (m.map x hx)).2 fun l hl hg => h l hl ((grows_motion m hfg hx).1 hg)]

/-- If no two labels meet, also the labels follow a periodic shift. -/
theorem C78_shift_labels {t : List Int} (a : DilateArgs true f kernel iterations)
    (b : DilateArgs true g kernel iterations) (hs : g.shape = f.shape) (ht : t.length = f.shape.length)
    (hfg : ∀ x ∈ pixels f.shape, val g (wrap f.shape (move x t)) = val f x)
    (ha : ∀ x ∈ pixels f.shape, val f x ≠ 0 → Alone true f kernel iterations (val f x))
    (e : dilate dbg f kernel iterations true = ok r) (e' : dilate dbg' g kernel iterations true = ok r')
    {x : List Int} (hx : x ∈ pixels f.shape) : val r' (wrap f.shape (move x t)) = val r x := by
  have m := motion_shift (kernel := kernel) a.legal.same.symm ht
  exact dilate_motion (by rw [hs]; exact m) a b hfg ha e e' hx

/-- If no two labels meet, also the labels follow a reflection of image and kernel. -/
theorem C78_reflect_labels {rr : List Bool} (a : DilateArgs periodic f kernel iterations)
    (b : DilateArgs periodic g kernel' iterations) (hs : g.shape = f.shape) (hrr : rr.length = f.shape.length)
    (hk : ∀ d, Offset kernel d → Offset kernel' (mirrorStep rr d))
    (hk' : ∀ d, Offset kernel' d → Offset kernel (mirrorStep rr d))
    (hfg : ∀ x ∈ pixels f.shape, val g (mirror f.shape rr x) = val f x)
    (ha : ∀ x ∈ pixels f.shape, val f x ≠ 0 → Alone periodic f kernel iterations (val f x))
    (e : dilate dbg f kernel iterations periodic = ok r) (e' : dilate dbg' g kernel' iterations periodic = ok r')
    {x : List Int} (hx : x ∈ pixels f.shape) : val r' (mirror f.shape rr x) = val r x := by
  have m := motion_reflect (periodic := periodic) hrr a.image a.legal.same.symm
    (by rw [← b.legal.same, hs]) hk hk'
  exact dilate_motion (by rw [hs]; exact m) a b hfg ha e e' hx

/-- If no two labels meet, also the labels follow a permutation of the axes of image and kernel. -/
theorem C78_axes_labels {σ : List Nat} (a : DilateArgs periodic f kernel iterations)
    (b : DilateArgs periodic g kernel' iterations) (hσ : σ.Perm (List.range f.shape.length))
    (hs : g.shape = axes σ f.shape) (hk : ∀ d, Offset kernel d → Offset kernel' (axes σ d))
    (hk' : ∀ d, Offset kernel' d → Offset kernel (axes (inverse σ) d))
    (hfg : ∀ x ∈ pixels f.shape, val g (axes σ x) = val f x)
    (ha : ∀ x ∈ pixels f.shape, val f x ≠ 0 → Alone periodic f kernel iterations (val f x))
    (e : dilate dbg f kernel iterations periodic = ok r) (e' : dilate dbg' g kernel' iterations periodic = ok r')
    {x : List Int} (hx : x ∈ pixels f.shape) : val r' (axes σ x) = val r x := by
  have hσl : σ.length = f.shape.length := by simpa using hσ.length_eq
  have m := motion_axes (periodic := periodic) hσ a.legal.same.symm
    (by rw [← b.legal.same, hs, axes_length, hσl]) hk hk'
  rw [← hs] at m
  exact dilate_motion m a b hfg ha e e' hx

/-- The line of the example of C24_alone shifted by three pixels, and reflected: label 1 crosses the edge or not. -/
example : (∀ x ∈ pixels [9], val (mk [0, 0, 0, 1, 0, 0, 0, 0, 2]) (wrap [9] (move x [3])) =
      val (mk [1, 0, 0, 0, 0, 2, 0, 0, 0]) x) ∧
    (∀ x ∈ pixels [9], val (mk [0, 0, 0, 2, 0, 0, 0, 0, 1]) (mirror [9] [true] x) =
      val (mk [1, 0, 0, 0, 0, 2, 0, 0, 0]) x) ∧
    ((dilate true (mk [0, 0, 0, 1, 0, 0, 0, 0, 2]) (mk [1, 1, 1]) [0, 2, 1] true).map fun r => r.toList) =
      ok [2, 1, 1, 1, 1, 1, 0, 2, 2] ∧
    ((dilate true (mk [0, 0, 0, 2, 0, 0, 0, 0, 1]) (mk [1, 1, 1]) [0, 2, 1] true).map fun r => r.toList) =
      ok [1, 1, 2, 2, 2, 0, 1, 1, 1] := by
  refine ⟨by decide, by decide, by decide +kernel, by decide +kernel⟩

/-- The transpose of an image with two labels that do not meet, with the transpose of a kernel that is not symmetric. -/
example : [1, 0].Perm (List.range [2, 3].length) ∧ axes [1, 0] [2, 3] = [3, 2] ∧
    (∀ x ∈ pixels [2, 3], val (Nd.ofList [3, 2] [1, 0, 0, 0, 0, 2]) (axes [1, 0] x) =
      val (Nd.ofList [2, 3] [1, 0, 0, 0, 0, 2]) x) ∧
    (∀ i ∈ pixels [3, 3], val (Nd.ofList [3, 3] [0, 0, 0, 0, 1, 1, 0, 0, 0]) i = 1 →
      ∃ j ∈ pixels [3, 3], val (Nd.ofList [3, 3] [0, 0, 0, 0, 1, 0, 0, 1, 0]) j = 1 ∧
        displacement [3, 3] j = axes [1, 0] (displacement [3, 3] i)) ∧
    ((dilate true (Nd.ofList [2, 3] [1, 0, 0, 0, 0, 2]) (Nd.ofList [3, 3] [0, 0, 0, 0, 1, 1, 0, 0, 0]) [0, 1, 1]
      false).map fun r => r.toList) = ok [1, 1, 0, 0, 0, 2] ∧
    ((dilate true (Nd.ofList [3, 2] [1, 0, 0, 0, 0, 2]) (Nd.ofList [3, 3] [0, 0, 0, 0, 1, 0, 0, 1, 0]) [0, 1, 1]
      false).map fun r => r.toList) = ok [1, 0, 1, 0, 0, 2] := by
  refine ⟨by decide, by decide, by decide, by decide, by decide +kernel, by decide +kernel⟩

end Verif.Props
