import Verif.Lemmas.DilateRefine
import Verif.Props.Correlation

/-! # Properties of dilate (C22-C25, C58-C60) -/

namespace Verif.Props

open Verif Outcome Spec Cluster Nd Ens Dilate

variable {periodic : Bool} {f kernel : Nd Int} {iterations : List Nat}

/-- The result of dilate without assertions and the facts about its iterations. -/
theorem dilate_facts_release (hl : Legal periodic f.shape kernel.shape) (hi : 0 ∉ f.shape)
    (hlab : ∀ x ∈ pixels f.shape, LabelOk iterations (val f x)) :
    ∃ r, dilate false f kernel iterations periodic = ok r ∧ r.shape = f.shape ∧
      (∀ x ∈ pixels f.shape, val f x ≠ 0 → val r x = val f x) ∧
      (∀ x ∈ pixels f.shape, val r x ≠ 0 → ∃ y ∈ pixels f.shape, val f y = val r x ∧
        Reach periodic f.shape kernel y (iterationsOf iterations (val r x)) x) ∧
      (∀ m, (∀ x ∈ pixels f.shape, val f x ≠ 0 → m ≤ iterationsOf iterations (val f x)) →
        ∀ y ∈ pixels f.shape, val f y ≠ 0 → ∀ x, Reach periodic f.shape kernel y m x →
          x ∈ pixels f.shape ∧ val r x ≠ 0) := by
  have hf3 : f.shape.length ≤ 3 := by rw [hl.same]; exact hl.rank
  obtain ⟨g, hN, hR, hhalf, hfits, hstart, r, hr, hs, hv⟩ := dilate_refines_release hl hi hlab
  have up : ∀ {x}, x ∈ pixels f.shape → raise x ∈ pixels g.N := fun hx => by
    rw [hN]; exact (mem_pixels_raise hf3 (inbox_length (mem_pixels.1 hx))).2 hx
  have coords : ∀ {x}, x ∈ pixels f.shape → ∃ a b c, raise x = [a, b, c] ∧ g.Core a b c := fun hx =>
    inbox3.1 (mem_pixels.1 (up hx))
  have down : ∀ {z}, z ∈ pixels g.N → ∃ x ∈ pixels f.shape, raise x = z := fun hz => by
    rw [hN, pixels_raise hf3] at hz
    exact List.mem_map.1 hz
  have hK : kernel.atleast3d.shape = g.R := hR.symm
  refine ⟨r, hr, hs, fun x hx h0 => ?_, fun x hx h0 => ?_, fun m hm y hy h0 x hreach => ?_⟩
  · obtain ⟨a, b, c, e, hc⟩ := coords hx
    have e0 := extend_image (periodic := periodic) hf3 hx
    rw [hv x hx, ← e0, e]
    rw [e] at e0
    exact evolve_old hfits hstart _ a b c (Geo.Core.in hc) (by rw [e0]; exact h0)
  · obtain ⟨a, b, c, e, hc⟩ := coords hx
    rw [hv x hx] at h0 ⊢
    have hp := pos_core (periodic := periodic) (up hx)
    have hmem := up hx
    rw [e] at h0 hp hmem ⊢
    obtain ⟨z, hz, e1, hreach⟩ := evolve_sound (K := kernel.atleast3d) (it := iterations) hfits hstart _ a b c
      (Geo.Core.in hc) h0 (by rw [hp]; exact hmem)
    obtain ⟨y, hy, rfl⟩ := down hz
    rw [extend_image hf3 hy] at e1
    refine ⟨y, hy, e1, ?_⟩
    rw [hp, hN] at hreach
    obtain ⟨x', ex, hlen, hreach⟩ := reach_lower hf3 hl.same.symm (inbox_length (mem_pixels.1 hy)) hreach
    have hxl := inbox_length (mem_pixels.1 hx)
    obtain rfl : x = x' := raise_inj (by omega) (by omega) (e.trans ex)
    exact Reach.mono hreach (Nat.min_le_right _ _)
  · have hyl := inbox_length (mem_pixels.1 hy)
    have e0 := extend_image (periodic := periodic) hf3 hy
    obtain ⟨hxl, hreach'⟩ := reach_raise hf3 hl.same.symm hyl hreach
    rw [← hN] at hreach'
    have hm' : ∀ z ∈ pixels g.N, f.atleast3d.extend (padMode periodic) 0 z ≠ 0 →
        m ≤ iterationsOf iterations (f.atleast3d.extend (padMode periodic) 0 z) := by
      intro z hz h
      obtain ⟨w, hw, rfl⟩ := down hz
      rw [extend_image hf3 hw] at h ⊢
      exact hm w hw h
    obtain ⟨hmem, hne⟩ := evolve_complete hhalf hK hfits hstart (it := iterations) hm' (up hy)
      (by rw [e0]; exact h0) hreach' (le_refl m)
    have hx : x ∈ pixels f.shape := by rwa [hN, mem_pixels_raise hf3 hxl] at hmem
    refine ⟨hx, ?_⟩
    rw [hv x hx]
    have hmc : m ≤ count iterations := by
      exact (hm y hy h0).trans (iterationsOf_le_count _ _)
    have := evolve_stay hfits hmem hne (count iterations - m)
    rwa [show m + (count iterations - m) = count iterations by omega] at this

/-- The result of dilate and the facts about its iterations. -/
theorem dilate_facts (dbg : Bool) (h : DilateArgs periodic f kernel iterations) :
    ∃ r, dilate dbg f kernel iterations periodic = ok r ∧ r.shape = f.shape ∧
      (∀ x ∈ pixels f.shape, val f x ≠ 0 → val r x = val f x) ∧
      (∀ x ∈ pixels f.shape, val r x ≠ 0 → ∃ y ∈ pixels f.shape, val f y = val r x ∧
        Reach periodic f.shape kernel y (iterationsOf iterations (val r x)) x) ∧
      (∀ m, (∀ x ∈ pixels f.shape, val f x ≠ 0 → m ≤ iterationsOf iterations (val f x)) →
        ∀ y ∈ pixels f.shape, val f y ≠ 0 → ∀ x, Reach periodic f.shape kernel y m x →
          x ∈ pixels f.shape ∧ val r x ≠ 0) := by
  rw [dilate_release dbg h]
  exact dilate_facts_release h.legal h.image (DilateArgs.facts h).1

/-- Labelled pixels keep their label. -/
theorem C22_keep (dbg : Bool) (h : DilateArgs periodic f kernel iterations) :
    ∃ r, dilate dbg f kernel iterations periodic = ok r ∧ r.shape = f.shape ∧
      ∀ x ∈ pixels f.shape, val f x ≠ 0 → val r x = val f x := by
  obtain ⟨r, h1, h2, h3, -⟩ := dilate_facts dbg h
  exact ⟨r, h1, h2, h3⟩

/-- A pixel of label `l` is reached from a pixel of label `l` in at most `iterations(l)` steps. -/
theorem C24_own (dbg : Bool) (h : DilateArgs periodic f kernel iterations) :
    ∃ r, dilate dbg f kernel iterations periodic = ok r ∧ r.shape = f.shape ∧
      ∀ x ∈ pixels f.shape, val r x ≠ 0 → ∃ y ∈ pixels f.shape, val f y = val r x ∧
        Reach periodic f.shape kernel y (iterationsOf iterations (val r x)) x := by
  obtain ⟨r, h1, h2, -, h3, -⟩ := dilate_facts dbg h
  exact ⟨r, h1, h2, h3⟩

/-- A label without iterations does not grow. -/
theorem C24_zero (dbg : Bool) (h : DilateArgs periodic f kernel iterations) :
    ∃ r, dilate dbg f kernel iterations periodic = ok r ∧
      ∀ x ∈ pixels f.shape, iterationsOf iterations (val r x) = 0 → val r x = val f x := by
  obtain ⟨r, h1, h2, h4, h3, -⟩ := dilate_facts dbg h
  refine ⟨r, h1, fun x hx h0 => ?_⟩
  by_cases hv : val r x = 0
  · by_contra hne
    have := h4 x hx (fun e => hne (hv.trans e.symm))
    exact hne this
  · obtain ⟨y, hy, e, hr⟩ := h3 x hx hv
    rw [h0] at hr
    cases hr
    exact e.symm

/-- Which pixels are labelled: exactly those within `k` steps of a labelled pixel. The result is nonzero
also at pixels that are reached within the smallest number of iterations of all labels in the image. -/
theorem C23_reach (dbg : Bool) (h : DilateArgs periodic f kernel iterations) {k : Nat}
    (hk : ∀ x ∈ pixels f.shape, val f x ≠ 0 → iterationsOf iterations (val f x) = k) :
    ∃ r, dilate dbg f kernel iterations periodic = ok r ∧ r.shape = f.shape ∧
      ∀ x ∈ pixels f.shape, val r x ≠ 0 ↔
        ∃ y ∈ pixels f.shape, val f y ≠ 0 ∧ Reach periodic f.shape kernel y k x := by
  obtain ⟨r, h1, h2, -, h3, h4⟩ := dilate_facts dbg h
  refine ⟨r, h1, h2, fun x hx => ⟨fun hv => ?_, ?_⟩⟩
  · obtain ⟨y, hy, e, hr⟩ := h3 x hx hv
    refine ⟨y, hy, by rw [e]; exact hv, ?_⟩
    rw [← e, hk y hy (by rw [e]; exact hv)] at hr
    exact hr
  · rintro ⟨y, hy, hv, hr⟩
    exact (h4 k (fun x hx h => (hk x hx h).ge) y hy hv x hr).2

/-- With different numbers of iterations: every pixel within the smallest one. -/
theorem C23_least (dbg : Bool) (h : DilateArgs periodic f kernel iterations) {m : Nat}
    (hm : ∀ x ∈ pixels f.shape, val f x ≠ 0 → m ≤ iterationsOf iterations (val f x)) :
    ∃ r, dilate dbg f kernel iterations periodic = ok r ∧
      ∀ y ∈ pixels f.shape, val f y ≠ 0 → ∀ x, Reach periodic f.shape kernel y m x → val r x ≠ 0 := by
  obtain ⟨r, h1, -, -, -, h4⟩ := dilate_facts dbg h
  exact ⟨r, h1, fun y hy hv x hr => (h4 m hm y hy hv x hr).2⟩

/-- The image has an entry for every label. -/
theorem same_args {k : Nat} (hl : Legal periodic f.shape kernel.shape) (h0 : 0 ∉ f.shape) (hm : IsMask kernel)
    (hf : ∀ x ∈ pixels f.shape, 0 ≤ val f x) :
    ∃ n : Nat, sameIterations f k = ok (List.replicate n k) ∧ 0 < n ∧
      DilateArgs periodic f kernel (List.replicate n k) ∧
      ∀ x ∈ pixels f.shape, iterationsOf (List.replicate n k) (val f x) = k := by
  have hle : ∀ x ∈ pixels f.shape, 0 ≤ val f x ∧ val f x < amax f.toList + 1 := by
    intro x hx
    have := (foldl_max_le (l := f.toList) (b := amax f.toList)).1 (le_refl _) |>.2 _ (mem_toList.2 ⟨x, hx, rfl⟩)
    have := hf x hx
    omega
  obtain ⟨x, hx⟩ := exists_pixel h0
  have hx0 := hle x hx
  refine ⟨(amax f.toList + 1).toNat, ?_, by omega, ⟨hl, h0, hm, Or.inl fun x hx => ?_⟩, fun x hx => ?_⟩
  · unfold sameIterations
    rw [if_neg (by omega)]
  · have := hle x hx
    rw [List.length_replicate]
    omega
  · have := hle x hx
    have hlt : (val f x).toNat < (amax f.toList + 1).toNat := by omega
    unfold iterationsOf
    rw [List.getD_eq_getElem?_getD, List.getD_eq_getElem?_getD, List.getElem?_replicate, List.getElem?_replicate,
      if_pos hlt, if_pos (by omega : 0 < (amax f.toList + 1).toNat)]
    simp

/-- One number of iterations for all labels. -/
theorem C23_same (dbg : Bool) {k : Nat} (hl : Legal periodic f.shape kernel.shape) (h0 : 0 ∉ f.shape)
    (hm : IsMask kernel) (hf : ∀ x ∈ pixels f.shape, 0 ≤ val f x) :
    ∃ r, dilateSame dbg f kernel k periodic = ok r ∧ r.shape = f.shape ∧
      (∀ x ∈ pixels f.shape, val f x ≠ 0 → val r x = val f x) ∧
      (∀ x ∈ pixels f.shape, val r x ≠ 0 → ∃ y ∈ pixels f.shape, val f y = val r x ∧
        Reach periodic f.shape kernel y k x) ∧
      ∀ x ∈ pixels f.shape, (∃ y ∈ pixels f.shape, val f y ≠ 0 ∧ Reach periodic f.shape kernel y k x) →
        val r x ≠ 0 := by
  obtain ⟨n, e1, -, ha, hi⟩ := same_args (k := k) hl h0 hm hf
  obtain ⟨r, h1, h2, h3, h4, h5⟩ := dilate_facts dbg ha
  refine ⟨r, by unfold dilateSame; rw [e1, ok_bind, h1], h2, h3, fun x hx hv => ?_, ?_⟩
  · obtain ⟨y, hy, e, hr⟩ := h4 x hx hv
    refine ⟨y, hy, e, ?_⟩
    rwa [← e, hi y hy] at hr
  · rintro x hx ⟨y, hy, hv, hr⟩
    exact (h5 k (fun x hx _ => (hi x hx).ge) y hy hv x hr).2

/-- Two labels in two dimensions, with an even kernel and different numbers of iterations, meet the
hypotheses of C22-C24. -/
example : DilateArgs true (Nd.ofList [2, 3] [0, 1, 0, 2, 0, 0]) (Nd.ofList [2, 3] [0, 1, 0, 1, 1, 1])
    [0, 2, 1] := by
  refine ⟨⟨by decide, by decide, rfl, fun _ => ?_⟩, by decide, by unfold IsMask; decide, by decide⟩
  simp [Nd.ofList]

/-! ### The default kernel -/

/-- The displacements of `kernel::nearest`: at most one along every axis, and along some axis zero in two
and three dimensions. -/
def NearestStep (ndim : Nat) (d : List Int) : Prop :=
  d.length = ndim ∧ (∀ e ∈ d, -1 ≤ e ∧ e ≤ 1) ∧ (ndim = 1 ∨ 0 ∈ d)

instance (ndim : Nat) (d : List Int) : Decidable (NearestStep ndim d) := by
  unfold NearestStep; infer_instance

theorem mem_cube : ∀ {n : Nat} {d : List Int}, d.length = n → (∀ e ∈ d, -1 ≤ e ∧ e ≤ 1) →
    ∃ i ∈ pixels (List.replicate n 3), displacement (List.replicate n 3) i = d
  | 0, [], _, _ => ⟨[], by simp [pixels], rfl⟩
  | n + 1, e :: d, hl, h => by
    obtain ⟨i, hi, ed⟩ := mem_cube (n := n) (by simpa using hl) fun x hx => h x (List.mem_cons_of_mem _ hx)
    have he := h e (by simp)
    refine ⟨(e + 1) :: i, ?_, ?_⟩
    · rw [List.replicate_succ, mem_pixels]
      exact .cons ⟨by omega, by push_cast; omega⟩ (mem_pixels.1 hi)
    · rw [List.replicate_succ]
      show (e + 1 - ((3 - 1) / 2 : Nat)) :: displacement (List.replicate n 3) i = _
      rw [ed]
      simp

theorem nearest_facts (dbg : Bool) {n : Nat} (h1 : 1 ≤ n) (h3 : n ≤ 3) :
    ∃ k, Dilate.nearest dbg n = ok k ∧ k.shape = List.replicate n 3 ∧ IsMask k ∧
      ∀ d, Offset k d ↔ NearestStep n d := by
  have key : ∀ k : Nd Int, k.shape = List.replicate n 3 → (∀ i ∈ pixels (List.replicate n 3),
      val k i = 1 ↔ NearestStep n (displacement (List.replicate n 3) i)) →
      ∀ d, Offset k d ↔ NearestStep n d := by
    intro k hs hk d
    unfold Offset
    rw [hs]
    constructor
    · rintro ⟨i, hi, hv, rfl⟩
      exact (hk i hi).1 hv
    · intro hd
      obtain ⟨i, hi, e⟩ := mem_cube hd.1 hd.2.1
      exact ⟨i, hi, (hk i hi).2 (by rw [e]; exact hd), e⟩
  obtain rfl | rfl | rfl : n = 1 ∨ n = 2 ∨ n = 3 := by omega
  · refine ⟨Nd.ofList [3] [1, 1, 1], by cases dbg <;> rfl, rfl, by unfold IsMask; decide,
      key _ rfl (by decide)⟩
  · refine ⟨Nd.ofList [3, 3] [0, 1, 0, 1, 1, 1, 0, 1, 0], by cases dbg <;> rfl, rfl, by unfold IsMask; decide,
      key _ rfl (by decide)⟩
  · refine ⟨Nd.ofList [3, 3, 3] [0, 1, 0, 1, 1, 1, 0, 1, 0, 1, 1, 1, 1, 1, 1, 1, 1, 1,
      0, 1, 0, 1, 1, 1, 0, 1, 0], by cases dbg <;> rfl, rfl, by unfold IsMask; decide,
      key _ rfl (by decide)⟩

theorem nearest_legal {n : Nat} (e : f.shape.length = n) (h3 : n ≤ 3) (h0 : 0 ∉ f.shape) :
    Legal periodic f.shape (List.replicate n 3) := by
  subst e
  refine ⟨by simpa using h3, by simp, by simp, fun _ => ?_⟩
  generalize f.shape = s at h0
  induction s with
  | nil => exact .nil
  | cons m s ih =>
    rw [List.mem_cons, not_or] at h0
    rw [List.length_cons, List.replicate_succ]
    exact .cons (by omega) (ih h0.2)

/-- The overload with the default kernel and one number of iterations: every step is by at most one pixel
along every axis, and in two and three dimensions not along all axes. -/
theorem C23_nearest (dbg : Bool) {k : Nat} (h1 : 1 ≤ f.shape.length) (h3 : f.shape.length ≤ 3)
    (h0 : 0 ∉ f.shape) (hf : ∀ x ∈ pixels f.shape, 0 ≤ val f x) :
    ∃ r kernel, dilateNearestSame dbg f k periodic = ok r ∧ r.shape = f.shape ∧
      (∀ d, Offset kernel d ↔ NearestStep f.shape.length d) ∧
      (∀ x ∈ pixels f.shape, val f x ≠ 0 → val r x = val f x) ∧
      (∀ x ∈ pixels f.shape, val r x ≠ 0 → ∃ y ∈ pixels f.shape, val f y = val r x ∧
        Reach periodic f.shape kernel y k x) ∧
      ∀ x ∈ pixels f.shape, (∃ y ∈ pixels f.shape, val f y ≠ 0 ∧ Reach periodic f.shape kernel y k x) →
        val r x ≠ 0 := by
  obtain ⟨K, eK, sK, mK, oK⟩ := nearest_facts dbg h1 h3
  have hl : Legal periodic f.shape K.shape := by rw [sK]; exact nearest_legal rfl h3 h0
  obtain ⟨r, e, h⟩ := C23_same dbg (k := k) hl h0 mK hf
  refine ⟨r, K, ?_, h.1, oK, h.2⟩
  unfold dilateSame at e
  unfold dilateNearestSame
  simp only [eK, ok_bind]
  exact e

/-- Likewise with a number of iterations per label. -/
theorem C24_nearest (dbg : Bool) (h1 : 1 ≤ f.shape.length) (h3 : f.shape.length ≤ 3)
    (h0 : 0 ∉ f.shape) (hf : ∀ x ∈ pixels f.shape, 0 ≤ val f x ∧ val f x < iterations.length) :
    ∃ r kernel, dilateNearest dbg f iterations periodic = ok r ∧ r.shape = f.shape ∧
      (∀ d, Offset kernel d ↔ NearestStep f.shape.length d) ∧
      (∀ x ∈ pixels f.shape, val f x ≠ 0 → val r x = val f x) ∧
      ∀ x ∈ pixels f.shape, val r x ≠ 0 → ∃ y ∈ pixels f.shape, val f y = val r x ∧
        Reach periodic f.shape kernel y (iterationsOf iterations (val r x)) x := by
  obtain ⟨K, eK, sK, mK, oK⟩ := nearest_facts dbg h1 h3
  have hl : Legal periodic f.shape K.shape := by rw [sK]; exact nearest_legal rfl h3 h0
  obtain ⟨r, e1, e2, e3, e4, -⟩ := dilate_facts dbg ⟨hl, h0, mK, Or.inl hf⟩
  refine ⟨r, K, ?_, e2, oK, e3, e4⟩
  unfold dilateNearest
  rw [eK, ok_bind, e1]

/-- A three-dimensional image with two labels meets the hypotheses of C23_nearest. -/
example : ∃ f : Nd Int, f.shape = [1, 2, 2] ∧ (∀ x ∈ pixels f.shape, 0 ≤ val f x) ∧
    (∃ x ∈ pixels f.shape, val f x = 3) :=
  ⟨Nd.ofList [1, 2, 2] [0, 3, 1, 0], rfl, by decide, by decide⟩

/-! ### C25 -/

/-- The look-up of the number of iterations is legal if there is one for every label: no undefined
behaviour, nothing thrown, with and without assertions. Missing: the assertion lets images through whose
largest label is the size of the array, or one more: `C25_violated`. -/
theorem C25_partial (dbg : Bool) (h : DilateArgs periodic f kernel iterations) :
    ∃ r, dilate dbg f kernel iterations periodic = ok r := by
  obtain ⟨r, h1, -⟩ := dilate_facts dbg h
  exact ⟨r, h1⟩

/-- A label larger than the size plus one is refused. -/
theorem C25_throws (h : ∃ x ∈ pixels f.shape, (iterations.length : Int) + 1 < val f x) :
    dilate true f kernel iterations periodic = throws := by
  obtain ⟨x, hx, hv⟩ := h
  have := (foldl_max_le (l := f.toList) (b := amax f.toList)).1 (le_refl _) |>.2 _ (mem_toList.2 ⟨x, hx, rfl⟩)
  have e4 : gassert true (decide (0 ≤ amax f.toList ∧ amax f.toList ≤ iterations.length + 1)) = throws := by
    have h : ¬ (0 ≤ amax f.toList ∧ amax f.toList ≤ iterations.length + 1) := by omega
    simp [gassert, h]
  have cases : ∀ c, gassert true c = ok () ∨ gassert true c = throws := by
    intro c
    cases c
    · exact Or.inr rfl
    · exact Or.inl rfl
  unfold dilate
  rcases cases (decide (f.shape.length ≤ 3)) with e | e <;> rw [e]
  · rw [ok_bind]
    rcases cases (decide (f.shape.length = kernel.shape.length)) with e | e <;> rw [e]
    · rw [ok_bind]
      rcases cases (binary kernel) with e | e <;> rw [e]
      · rw [ok_bind, e4]
        rfl
      · rfl
    · rfl
  · rfl

example : ∃ x ∈ pixels (mk [0, 5]).shape, (([1, 1] : List Nat).length : Int) + 1 < val (mk [0, 5]) x := by
  decide

/-- The assertion does not guard the look-up: one pixel with label 2 (or 3) and an array of two numbers
of iterations pass it, and the element behind the end is read. -/
theorem C25_violated : ∀ l ∈ [(2 : Int), 3], (∀ x ∈ pixels (mk [l]).shape, 0 ≤ val (mk [l]) x) ∧
    dilate true (mk [l]) (mk [1]) [1, 1] false = ub := by
  intro l hl
  obtain rfl | rfl : l = 2 ∨ l = 3 := by simpa using hl
  · exact ⟨by decide, rfl⟩
  · exact ⟨by decide, rfl⟩

/-! ### C58: composition -/

theorem count_replicate {n k : Nat} (h : 0 < n) : count (List.replicate n k) = k := by
  have h1 : count (List.replicate n k) ≤ k :=
    foldl_max_nat.2 ⟨Nat.zero_le _, fun x hx => (List.eq_of_mem_replicate hx).le⟩
  have h2 := (foldl_max_nat (l := List.replicate n k) (a := 0) (b := count (List.replicate n k))).1 (le_refl _)
    |>.2 k (List.mem_replicate.2 ⟨by omega, rfl⟩)
  omega

theorem reach_mem {s : List Nat} {x y : List Int} {n : Nat} (h : Reach periodic s kernel x n y)
    (hx : x ∈ pixels s) : y ∈ pixels s := by
  cases h with
  | here => exact hx
  | step _ _ _ _ _ ht => exact ht

theorem reach_trans {s : List Nat} {x y z : List Int} {a b : Nat} (h1 : Reach periodic s kernel x a y)
    (h2 : Reach periodic s kernel y b z) : Reach periodic s kernel x (a + b) z := by
  induction h2 with
  | here n => exact Reach.mono h1 (by omega)
  | step n w d _ hd ht ih => exact .step _ w d ih hd ht

theorem reach_split {s : List Nat} {x z : List Int} {a b : Nat} (h : Reach periodic s kernel x (a + b) z) :
    ∃ y, Reach periodic s kernel x a y ∧ Reach periodic s kernel y b z := by
  generalize hn : a + b = n at h
  induction h generalizing b with
  | here n => exact ⟨x, .here a, .here b⟩
  | step n w d hw hd ht ih =>
    rcases Nat.eq_zero_or_pos b with rfl | hb
    · exact ⟨_, by rw [show a = n + 1 by omega]; exact .step n w d hw hd ht, .here 0⟩
    · obtain ⟨b, rfl⟩ : ∃ b', b = b' + 1 := ⟨b - 1, by omega⟩
      obtain ⟨y, h1, h2⟩ := ih (b := b) (by omega)
      exact ⟨y, h1, .step b w d h2 hd ht⟩

/-- Without periodicity dilating `a + b` times is dilating `a` times and then `b` times. Missing: periodic
images with several labels, for which this is false (`C58_violated`). -/
theorem C58_partial (dbg : Bool) {a b : Nat} (hl : Legal false f.shape kernel.shape) (h0 : 0 ∉ f.shape)
    (hm : IsMask kernel) (hf : ∀ x ∈ pixels f.shape, 0 ≤ val f x) :
    ∃ r r₁ r₂, dilateSame dbg f kernel (a + b) false = ok r ∧ dilateSame dbg f kernel a false = ok r₁ ∧
      dilateSame dbg r₁ kernel b false = ok r₂ ∧ r.shape = f.shape ∧ r₂.shape = f.shape ∧
      ∀ x ∈ pixels f.shape, val r x = val r₂ x := by
  have hf3 : f.shape.length ≤ 3 := by rw [hl.same]; exact hl.rank
  obtain ⟨n, e, hn, ha, hi⟩ := same_args (k := a + b) hl h0 hm hf
  obtain ⟨n₁, e₁, hn₁, ha₁, hi₁⟩ := same_args (k := a) hl h0 hm hf
  obtain ⟨r₁, q₁, s₁, k₁, w₁, -⟩ := dilate_facts dbg ha₁
  have hf₁ : ∀ x ∈ pixels r₁.shape, 0 ≤ val r₁ x := by
    intro x hx
    rw [s₁] at hx
    by_cases hv : val r₁ x = 0
    · omega
    · obtain ⟨y, hy, ey, -⟩ := w₁ x hx hv
      rw [← ey]
      exact hf y hy
  obtain ⟨n₂, e₂, hn₂, ha₂, hi₂⟩ := same_args (f := r₁) (k := b) (by rw [s₁]; exact hl) (by rw [s₁]; exact h0) hm hf₁
  obtain ⟨g, hN, -, -, hfits, hstart, r, q, s, hv⟩ := dilate_refines dbg ha
  obtain ⟨g₁, hN₁, -, -, -, hstart₁, r₁', q₁', -, hv₁⟩ := dilate_refines dbg ha₁
  obtain rfl : r₁ = r₁' := by rw [q₁] at q₁'; exact Outcome.ok.inj q₁'
  obtain ⟨g₂, hN₂, -, -, -, hstart₂, r₂, q₂, s₂, hv₂⟩ := dilate_refines dbg ha₂
  rw [s₁] at hN₂ s₂ hv₂
  rw [count_replicate hn] at hv
  rw [count_replicate hn₁] at hv₁
  rw [count_replicate hn₂] at hv₂
  refine ⟨r, r₁, r₂, by unfold dilateSame; rw [e, ok_bind, q], by unfold dilateSame; rw [e₁, ok_bind, q₁],
    by unfold dilateSame; rw [e₂, ok_bind, q₂], s, s₂, fun x hx => ?_⟩
  have down : ∀ {z}, z ∈ pixels g.N → ∃ x ∈ pixels f.shape, raise x = z := fun hz => by
    rw [hN, pixels_raise hf3] at hz
    exact List.mem_map.1 hz
  have up : ∀ {x}, x ∈ pixels f.shape → raise x ∈ pixels g.N := fun hx => by
    rw [hN]; exact (mem_pixels_raise hf3 (inbox_length (mem_pixels.1 hx))).2 hx
  -- labels in the evolution are labels of `f`
  have lab : ∀ t, ∀ z ∈ pixels g.N, evolve g kernel.atleast3d (List.replicate n (a + b)) false
      (f.atleast3d.extend (padMode false) 0) t z ≠ 0 → ∃ y ∈ pixels f.shape, val f y =
        evolve g kernel.atleast3d (List.replicate n (a + b)) false (f.atleast3d.extend (padMode false) 0) t z := by
    intro t z hz hne
    have hp := pos_core (periodic := false) hz
    obtain ⟨i, j, k, rfl, hc⟩ := inbox3.1 (mem_pixels.1 hz)
    obtain ⟨w, hw, ew, -⟩ := evolve_sound (K := kernel.atleast3d) (it := List.replicate n (a + b)) hfits hstart t
      i j k (Geo.Core.in hc) hne (by rw [hp]; exact hz)
    obtain ⟨y, hy, rfl⟩ := down hw
    rw [extend_image hf3 hy] at ew
    exact ⟨y, hy, ew⟩
  have first := evolve_local (g := g) (g' := g₁) (K := kernel.atleast3d) (it := List.replicate n (a + b))
    (it' := List.replicate n₁ a) (φ := f.atleast3d.extend (padMode false) 0)
    (ψ := f.atleast3d.extend (padMode false) 0) (s := 0) (T := a) (hN₁.trans hN.symm) (fun _ _ => rfl)
    (fun t ht z hz hne => by
      obtain ⟨y, hy, ey⟩ := lab (0 + t) z hz hne
      have c1 := hi y hy
      have c2 := hi₁ y hy
      rw [← ey, c1, c2]
      omega)
  have second := evolve_local (g := g) (g' := g₂) (K := kernel.atleast3d) (it := List.replicate n (a + b))
    (it' := List.replicate n₂ b) (φ := f.atleast3d.extend (padMode false) 0)
    (ψ := r₁.atleast3d.extend (padMode false) 0) (s := a) (T := b) (hN₂.trans hN.symm)
    (fun z hz => by
      obtain ⟨y, hy, rfl⟩ := down hz
      have := first a (le_refl _) _ hz
      rw [Nat.zero_add] at this
      rw [this, ← hv₁ y hy, extend_image (by rw [s₁]; exact hf3) (by rw [s₁]; exact hy)])
    (fun t ht z hz hne => by
      obtain ⟨y, hy, ey⟩ := lab (a + t) z hz hne
      have c1 := hi y hy
      have hne' : val f y ≠ 0 := by rw [ey]; exact hne
      have c2 := hi₂ y (by rw [s₁]; exact hy)
      rw [k₁ y hy hne'] at c2
      rw [← ey, c1, c2]
      omega)
  rw [hv x hx, hv₂ x hx]
  exact second b (le_refl _) _ (up hx)

/-- With one label it holds also with periodicity. Missing: several labels (`C58_violated`). -/
theorem C58_single_partial (dbg : Bool) {a b : Nat} {l : Int} (hl : Legal periodic f.shape kernel.shape)
    (h0 : 0 ∉ f.shape) (hm : IsMask kernel) (hpos : 0 < l)
    (hf : ∀ x ∈ pixels f.shape, val f x = 0 ∨ val f x = l) :
    ∃ r r₁ r₂, dilateSame dbg f kernel (a + b) periodic = ok r ∧
      dilateSame dbg f kernel a periodic = ok r₁ ∧
      dilateSame dbg r₁ kernel b periodic = ok r₂ ∧ r.shape = f.shape ∧ r₂.shape = f.shape ∧
      ∀ x ∈ pixels f.shape, val r x = val r₂ x := by
  have hf' : ∀ x ∈ pixels f.shape, 0 ≤ val f x := fun x hx => by rcases hf x hx with h | h <;> omega
  obtain ⟨r, e, s, -, w, c⟩ := C23_same dbg (k := a + b) hl h0 hm hf'
  obtain ⟨r₁, e₁, s₁, k₁, w₁, c₁⟩ := C23_same dbg (k := a) hl h0 hm hf'
  have vals : ∀ (u r : Nd Int) (k : Nat), (∀ x ∈ pixels u.shape, val u x = 0 ∨ val u x = l) →
      (∀ x ∈ pixels u.shape, val r x ≠ 0 → ∃ y ∈ pixels u.shape, val u y = val r x ∧
        Reach periodic u.shape kernel y k x) → ∀ x ∈ pixels u.shape, val r x = 0 ∨ val r x = l := by
    intro u r k hu hw x hx
    by_cases hv : val r x = 0
    · exact Or.inl hv
    · obtain ⟨y, hy, ey, -⟩ := hw x hx hv
      rcases hu y hy with h | h
      · exact absurd (ey.symm.trans h) hv
      · exact Or.inr (ey.symm.trans h)
  have v₁ := vals f r₁ a hf w₁
  have hf₁ : ∀ x ∈ pixels r₁.shape, val r₁ x = 0 ∨ val r₁ x = l := by rw [s₁]; exact v₁
  obtain ⟨r₂, e₂, s₂, -, w₂, c₂⟩ := C23_same (f := r₁) dbg (k := b) (by rw [s₁]; exact hl) (by rw [s₁]; exact h0) hm
    (fun x hx => by rcases hf₁ x hx with h | h <;> omega)
  have v₂ := vals r₁ r₂ b hf₁ w₂
  rw [s₁] at s₂ w₂ c₂ v₂
  have v := vals f r (a + b) hf w
  refine ⟨r, r₁, r₂, e, e₁, e₂, s, s₂, fun x hx => ?_⟩
  have iff : val r x ≠ 0 ↔ val r₂ x ≠ 0 := by
    constructor
    · intro h
      obtain ⟨y, hy, ey, hr⟩ := w x hx h
      obtain ⟨z, h1, h2⟩ := reach_split hr
      have hz := reach_mem h1 hy
      exact c₂ x hx ⟨z, hz, c₁ z hz ⟨y, hy, by rw [ey]; exact h, h1⟩, h2⟩
    · intro h
      obtain ⟨z, hz, ez, h2⟩ := w₂ x hx h
      obtain ⟨y, hy, ey, h1⟩ := w₁ z hz (by rw [ez]; exact h)
      exact c x hx ⟨y, hy, by rw [ey, ez]; exact h, reach_trans h1 h2⟩
  rcases v x hx with h | h <;> rcases v₂ x hx with h' | h'
  · rw [h, h']
  · exact absurd h (iff.2 (by omega))
  · exact absurd h' (iff.1 (by omega))
  · rw [h, h']

/-- With periodicity and two labels it does not hold: dilating twice changes a pixel that was labelled
by the first dilation. -/
theorem C58_violated :
    ((dilateSame true (mk [0, 1, 0, 0, 2, 0]) (mk [1, 1, 1]) 1 true).bind fun r => ok r.toList) =
      ok [1, 1, 1, 2, 2, 2] ∧
    ((dilateSame true (mk [1, 1, 1, 2, 2, 2]) (mk [1, 1, 1]) 1 true).bind fun r => ok r.toList) =
      ok [1, 1, 1, 2, 2, 2] ∧
    ((dilateSame true (mk [0, 1, 0, 0, 2, 0]) (mk [1, 1, 1]) 2 true).bind fun r => ok r.toList) =
      ok [2, 1, 1, 2, 2, 1] := by
  decide +kernel

/-- An image in two dimensions meets the hypotheses of C58_partial; one with one label, periodic, those of
C58_single_partial. -/
example : Legal false [2, 3] [3, 2] ∧ Legal true [2, 3] [3, 2] ∧
    IsMask (Nd.ofList [3, 2] [0, 1, 1, 1, 0, 0]) ∧
    (∀ x ∈ pixels [2, 3], val (Nd.ofList [2, 3] [0, 2, 0, 0, 0, (2 : Int)]) x = 0 ∨
      val (Nd.ofList [2, 3] [0, 2, 0, 0, 0, (2 : Int)]) x = 2) := by
  refine ⟨⟨by decide, by decide, rfl, by simp [Fits]⟩, ⟨by decide, by decide, rfl, fun _ => by simp⟩,
    by unfold IsMask; decide, by decide⟩

/-! ### C59: which label -/

theorem offset_covers {x z : List Int} : (∃ d, Offset kernel d ∧ z = move x d) ↔ Covers kernel x z := by
  unfold Offset Covers
  constructor
  · rintro ⟨_, ⟨i, hi, hv, rfl⟩, rfl⟩
    exact ⟨i, hi, hv, rfl⟩
  · rintro ⟨i, hi, hv, rfl⟩
    exact ⟨_, ⟨i, hi, hv, rfl⟩, rfl⟩

theorem covers_raise (hk : kernel.shape.length ≤ 3) {x z : List Int} (hx : x.length = kernel.shape.length)
    (hz : z.length = kernel.shape.length) : Covers kernel.atleast3d (raise x) (raise z) ↔ Covers kernel x z := by
  rw [← offset_covers, ← offset_covers]
  constructor
  · rintro ⟨d', hd', e⟩
    obtain ⟨d, hd, rfl⟩ := (offset_raise hk).1 hd'
    have hl := offset_length hd
    rw [move_raise (by omega) (by omega)] at e
    exact ⟨d, hd, raise_inj (by omega) (by rw [move_length (by omega)]; omega) e⟩
  · rintro ⟨d, hd, rfl⟩
    have hl := offset_length hd
    exact ⟨raise d, (offset_raise hk).2 ⟨d, hd, rfl⟩, by rw [move_raise (by omega) (by omega)]⟩

theorem layers_eq (hl : Legal false f.shape kernel.shape) {g : Geo} (hN : g.N = shape3 f.shape) :
    ∀ t, ∀ x ∈ pixels f.shape,
      evolve g kernel.atleast3d iterations false (f.atleast3d.extend (padMode false) 0) t (raise x) =
        layers f.shape kernel (iterationsOf iterations) (val f) t x
  | 0, x, hx => extend_image (by rw [hl.same]; exact hl.rank) hx
  | t + 1, z, hz => by
    classical
    have hf3 : f.shape.length ≤ 3 := by rw [hl.same]; exact hl.rank
    have ih := layers_eq hl hN t
    show growing kernel.atleast3d iterations t _ (pixels g.N) _ (raise z) = spread _ _ _ _ z
    rw [hN, pixels_raise hf3]
    unfold spread
    by_cases hv : layers f.shape kernel (iterationsOf iterations) (val f) t z = 0
    · rw [if_neg (by simpa using hv)]
      have e0 := ih z hz
      rw [hv] at e0
      unfold growing
      rw [e0, List.foldl_map, ← foldl_last]
      refine List.foldl_ext _ _ _ fun v x hx => ?_
      have hiff : Hit kernel.atleast3d iterations t
          (evolve g kernel.atleast3d iterations false (f.atleast3d.extend (padMode false) 0) t) (raise x) (raise z) ↔
          layers f.shape kernel (iterationsOf iterations) (val f) t x ≠ 0 ∧
            decide (t < iterationsOf iterations (layers f.shape kernel (iterationsOf iterations) (val f) t x)) = true ∧
            Covers kernel x z := by
        unfold Hit
        rw [ih x hx, e0, offset_covers, covers_raise hl.rank
          (by rw [inbox_length (mem_pixels.1 hx), hl.same]) (by rw [inbox_length (mem_pixels.1 hz), hl.same])]
        simp
      rw [ih x hx]
      exact if_congr hiff rfl rfl
    · rw [if_pos hv, growing_old (by rw [ih z hz]; exact hv), ih z hz]

theorem layers_stable {shape : List Nat} {it : Int → Nat} {φ : List Int → Int} {T : Nat} (h : ∀ l, it l ≤ T) :
    ∀ n, layers shape kernel it φ (T + n) = layers shape kernel it φ T
  | 0 => rfl
  | n + 1 => by
    have ih := layers_stable (shape := shape) (φ := φ) h n
    funext z
    show spread shape kernel (fun l => decide (T + n < it l)) (layers shape kernel it φ (T + n)) z = _
    rw [ih]
    unfold spread
    beta_reduce
    have e : ((pixels shape).filter fun x => layers shape kernel it φ T x ≠ 0 ∧
        decide (T + n < it (layers shape kernel it φ T x)) = true ∧ Covers kernel x z) = [] := by
      rw [List.filter_eq_nil_iff]
      intro x _ hx
      have := h (layers shape kernel it φ T x)
      simp only [ne_eq, decide_eq_true_eq] at hx
      omega
    rw [e]
    by_cases hv : layers shape kernel it φ T z = 0 <;> simp [hv]

/-- Without periodicity the result is determined layer by layer: a pixel without a label takes the label
of the last pixel, in row-major order, that has a label that still grows and whose kernel covers it. -/
theorem C59_layers (dbg : Bool) (h : DilateArgs false f kernel iterations) {T : Nat}
    (hT : ∀ n ∈ iterations, n ≤ T) :
    ∃ r, dilate dbg f kernel iterations false = ok r ∧ r.shape = f.shape ∧
      ∀ x ∈ pixels f.shape,
        val r x = layers f.shape kernel (iterationsOf iterations) (val f) T x := by
  obtain ⟨g, hN, -, -, -, -, r, hr, hs, hv⟩ := dilate_refines dbg h
  refine ⟨r, hr, hs, fun x hx => ?_⟩
  rw [hv x hx, layers_eq h.legal hN _ x hx]
  have hc : count iterations ≤ T := foldl_max_nat.2 ⟨Nat.zero_le _, hT⟩
  have := layers_stable (kernel := kernel) (shape := f.shape) (it := iterationsOf iterations) (φ := val f)
    (T := count iterations) (fun l => iterationsOf_le_count _ _) (T - count iterations)
  rw [show count iterations + (T - count iterations) = T by omega] at this
  rw [this]

/-- Two labels that meet: the second row-major one wins. -/
example : DilateArgs false (mk [1, 0, 2]) (mk [1, 1, 1]) [0, 1, 3] ∧
    (pixels [3]).map (layers [3] (mk [1, 1, 1]) (iterationsOf [0, 1, 3]) (val (mk [1, 0, 2])) 3) = [1, 2, 2] :=
  ⟨⟨⟨by decide, by decide, rfl, by simp [Fits]⟩, by decide, by unfold IsMask; decide, by decide⟩, by decide⟩

/-! ### C60: labels are names -/

theorem geo_unique {g g' : Geo} (hN : g.N = g'.N) (hR : g.R = g'.R) (h : g.Half) (h' : g'.Half) : g = g' := by
  obtain ⟨p0, p1, p2, n0, n1, n2, q0, q1, q2⟩ := g
  obtain ⟨p0', p1', p2', n0', n1', n2', q0', q1', q2'⟩ := g'
  simp only [Geo.N, Geo.R, Geo.Half, List.cons.injEq, Geo.mk.injEq] at *
  omega

theorem wrap_mem (h0 : 0 ∉ f.shape) (h3 : f.shape.length ≤ 3) {g : Geo} (hN : g.N = shape3 f.shape) (i j k : Int) :
    wrap g.N [i, j, k] ∈ pixels g.N := by
  rw [mem_pixels]
  refine wrap_inbox rfl fun h => ?_
  rw [hN] at h
  exact absurd (shape3_pos h3 h0 0 h) (by omega)

/-- Renaming the labels renames those of the result (the names need not be different), if the numbers of
iterations go with them. The array of the numbers of iterations has the same maximum. -/
theorem C60_rename (dbg : Bool) {f' : Nd Int} {iterations' : List Nat} {name : Int → Int}
    (h : DilateArgs periodic f kernel iterations) (h' : DilateArgs periodic f' kernel iterations')
    (hname : ∀ l, name l = 0 ↔ l = 0) (hs : f'.shape = f.shape)
    (hv : ∀ x ∈ pixels f.shape, val f' x = name (val f x))
    (hi : ∀ x ∈ pixels f.shape, iterationsOf iterations' (name (val f x)) = iterationsOf iterations (val f x))
    (hmax : ∀ T, (∀ n ∈ iterations', n ≤ T) ↔ ∀ n ∈ iterations, n ≤ T) :
    ∃ r r', dilate dbg f kernel iterations periodic = ok r ∧ dilate dbg f' kernel iterations' periodic = ok r' ∧
      r'.shape = f.shape ∧ ∀ x ∈ pixels f.shape, val r' x = name (val r x) := by
  have hf3 : f.shape.length ≤ 3 := by rw [h.legal.same]; exact h.legal.rank
  obtain ⟨g, hN, hR, hh, hfits, hstart, r, q, s, hv1⟩ := dilate_refines dbg h
  obtain ⟨g', hN', hR', hh', -, hstart', r', q', s', hv2⟩ := dilate_refines dbg h'
  rw [hs] at hN' hv2 s'
  obtain rfl : g = g' := geo_unique (hN.trans hN'.symm) (hR.trans hR'.symm) hh hh'
  have down : ∀ {z}, z ∈ pixels g.N → ∃ x ∈ pixels f.shape, raise x = z := fun hz => by
    rw [hN, pixels_raise hf3] at hz
    exact List.mem_map.1 hz
  have core : ∀ z ∈ pixels g.N, f'.atleast3d.extend (padMode periodic) 0 z =
      name (f.atleast3d.extend (padMode periodic) 0 z) := by
    intro z hz
    obtain ⟨x, hx, rfl⟩ := down hz
    rw [extend_image hf3 hx, extend_image (by rw [hs]; exact hf3) (by rw [hs]; exact hx), hv x hx]
  have all : ∀ i j k, g.In i j k → f'.atleast3d.extend (padMode periodic) 0 [i, j, k] =
      name (f.atleast3d.extend (padMode periodic) 0 [i, j, k]) := by
    intro i j k hin
    by_cases hp : periodic = true
    · rw [hstart.copy hp i j k hin, hstart'.copy hp i j k hin]
      exact core _ (wrap_mem h.image hf3 hN i j k)
    · by_cases hc : g.Core i j k
      · exact core _ (core_iff.2 hc)
      · have hp' : periodic = false := by simpa using hp
        rw [hstart.zero hp' i j k hin hc, hstart'.zero hp' i j k hin hc, (hname 0).2 rfl]
  have lab : ∀ t, ∀ z ∈ pixels g.N, evolve g kernel.atleast3d iterations periodic
      (f.atleast3d.extend (padMode periodic) 0) t z ≠ 0 → ∃ y ∈ pixels f.shape, val f y =
        evolve g kernel.atleast3d iterations periodic (f.atleast3d.extend (padMode periodic) 0) t z := by
    intro t z hz hne
    have hp := pos_core (periodic := periodic) hz
    obtain ⟨i, j, k, rfl, hc⟩ := inbox3.1 (mem_pixels.1 hz)
    obtain ⟨w, hw, ew, -⟩ := evolve_sound (K := kernel.atleast3d) (it := iterations) hfits hstart t
      i j k (Geo.Core.in hc) hne (by rw [hp]; exact hz)
    obtain ⟨y, hy, rfl⟩ := down hw
    rw [extend_image hf3 hy] at ew
    exact ⟨y, hy, ew⟩
  have ren := evolve_renames (g := g) (K := kernel.atleast3d) (it := iterations) (it' := iterations') hname hfits all
    (fun t z hz hne => by
      obtain ⟨y, hy, ey⟩ := lab t z hz hne
      rw [← ey]
      exact hi y hy)
  have hcount : count iterations' = count iterations := by
    have h1 : count iterations' ≤ count iterations := foldl_max_nat.2 ⟨Nat.zero_le _,
      (hmax _).2 (foldl_max_nat.1 (le_refl (count iterations))).2⟩
    have h2 : count iterations ≤ count iterations' := foldl_max_nat.2 ⟨Nat.zero_le _,
      (hmax _).1 (foldl_max_nat.1 (le_refl (count iterations'))).2⟩
    omega
  refine ⟨r, r', q, q', s', fun x hx => ?_⟩
  have hz : raise x ∈ pixels g.N := by
    rw [hN]; exact (mem_pixels_raise hf3 (inbox_length (mem_pixels.1 hx))).2 hx
  obtain ⟨a, b, c, e, hc⟩ := inbox3.1 (mem_pixels.1 hz)
  rw [hv2 x hx, hv1 x hx, hcount, e]
  exact ren _ a b c (Geo.Core.in hc)

/-- Labels 1 and 2 are exchanged. -/
example : ∃ name : Int → Int, (∀ l, name l = 0 ↔ l = 0) ∧
    DilateArgs true (mk [0, 1, 0, 0, 2, 0]) (mk [1, 1, 1]) [0, 1, 2] ∧
    DilateArgs true (mk [0, 2, 0, 0, 1, 0]) (mk [1, 1, 1]) [0, 2, 1] ∧
    (∀ x ∈ pixels [6], val (mk [0, 2, 0, 0, 1, 0]) x = name (val (mk [0, 1, 0, 0, 2, 0]) x)) ∧
    (∀ x ∈ pixels [6], iterationsOf [0, 2, 1] (name (val (mk [0, 1, 0, 0, 2, 0]) x)) =
      iterationsOf [0, 1, 2] (val (mk [0, 1, 0, 0, 2, 0]) x)) := by
  refine ⟨fun l => if l = 1 then 2 else if l = 2 then 1 else l, fun l => ?_, ?_, ?_, by decide, by decide⟩
  · beta_reduce
    split
    · omega
    · split <;> omega
  · exact ⟨⟨by decide, by decide, rfl, fun _ => by simp [mk, Nd.ofList]⟩, by decide, by unfold IsMask; decide, by decide⟩
  · exact ⟨⟨by decide, by decide, rfl, fun _ => by simp [mk, Nd.ofList]⟩, by decide, by unfold IsMask; decide, by decide⟩

end Verif.Props
