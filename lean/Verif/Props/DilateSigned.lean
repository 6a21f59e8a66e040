import Verif.Props.DilateGuard

/-!
# Dilation of labels of any sign (C119)

The test "dilate - 2d - 1" of the repository dilates an image with the label `-1`. Whether that is possible depends on
the other labels.
-/

namespace Verif.Props

open Verif Outcome Spec Cluster Nd Ens Dilate

variable {periodic : Bool} {f kernel : Nd Int}

/-- Labelled pixels keep their label; a label is that of a pixel at most `k` steps away; every pixel at most `k` steps
away from a labelled one is labelled. -/
def Dilated (periodic : Bool) (f kernel : Nd Int) (k : Nat) (r : Nd Int) : Prop :=
  r.shape = f.shape ∧
    (∀ x ∈ pixels f.shape, val f x ≠ 0 → val r x = val f x) ∧
    (∀ x ∈ pixels f.shape, val r x ≠ 0 → ∃ y ∈ pixels f.shape, val f y = val r x ∧
      Reach periodic f.shape kernel y k x) ∧
    ∀ x ∈ pixels f.shape, (∃ y ∈ pixels f.shape, val f y ≠ 0 ∧ Reach periodic f.shape kernel y k x) → val r x ≠ 0

theorem amax_le {b : Int} (hb : -2147483648 ≤ b) : amax f.toList ≤ b ↔ ∀ x ∈ pixels f.shape, val f x ≤ b := by
  unfold amax
  rw [foldl_max_le]
  constructor
  · intro h x hx
    exact h.2 _ (mem_toList.2 ⟨x, hx, rfl⟩)
  · intro h
    refine ⟨hb, fun v hv => ?_⟩
    obtain ⟨x, hx, rfl⟩ := mem_toList.1 hv
    exact h x hx

/-- **C119**: one number of iterations is that of all labels, whatever their sign and (without assertions) their
size. -/
theorem C119_one (dbg : Bool) {k : Nat} (hl : Legal periodic f.shape kernel.shape) (h0 : 0 ∉ f.shape)
    (hm : IsMask kernel) (ha : dbg = true → Accepted f [k]) :
    ∃ r, dilate dbg f kernel [k] periodic = ok r ∧ Dilated periodic f kernel k r := by
  have hk : ∀ l, iterationsOf [k] l = k := fun l => rfl
  obtain ⟨r, h1, h2, h3, h4, h5⟩ := dilate_facts_release (iterations := [k]) hl h0 fun _ _ => Or.inl rfl
  refine ⟨r, ?_, h2, h3, fun x hx hv => ?_, ?_⟩
  · rw [dilate_asserted dbg hl hm, if_neg (fun c => c.2 (ha c.1)), h1]
  · obtain ⟨y, hy, e, hr⟩ := h4 x hx hv
    rw [hk] at hr
    exact ⟨y, hy, e, hr⟩
  · rintro x hx ⟨y, hy, hv, hr⟩
    exact (h5 k (fun x _ _ => (hk _).ge) y hy hv x hr).2

example : Legal true (mk [0, -7, 2]).shape (mk [1, 1, 1]).shape ∧ IsMask (mk [1, 1, 1]) ∧ Accepted (mk [0, -7, 2]) [4] := by
  refine ⟨⟨by decide, by decide, rfl, fun _ => by simp [mk, Nd.ofList]⟩, ?_, by decide⟩
  unfold IsMask
  decide

/-- **C119** (partial): an image with labels of one sign, and with a pixel without a label if they are negative, is
dilated as if the labels were positive. Missing: images with labels of both signs (`C119_violated`), and images
without a pixel that is not negative. -/
theorem C119_sign_partial (dbg : Bool) {k : Nat} (hl : Legal periodic f.shape kernel.shape) (h0 : 0 ∉ f.shape)
    (hm : IsMask kernel) (hf : (∀ x ∈ pixels f.shape, 0 ≤ val f x) ∨
      (∀ x ∈ pixels f.shape, val f x ≤ 0) ∧ ∃ x ∈ pixels f.shape, val f x = 0) :
    ∃ r, dilateSame dbg f kernel k periodic = ok r ∧ Dilated periodic f kernel k r := by
  rcases hf with hf | ⟨hf, x, hx, hz⟩
  · exact C23_same dbg hl h0 hm hf
  · have e : amax f.toList = 0 := by
      have h1 := (amax_le (f := f) (b := 0) (by norm_num)).2 hf
      have h2 : ¬ amax f.toList ≤ -1 := fun c => by
        have := (amax_le (by norm_num)).1 c x hx
        omega
      omega
    unfold dilateSame sameIterations
    rw [e]
    exact C119_one dbg hl h0 hm fun _ => ⟨⟨x, hx, hz.ge⟩, fun y hy => by
      have := hf y hy
      push_cast
      omega⟩

/-- The image of the test of the repository, and what the test expects. -/
example : (∀ x ∈ pixels [5, 5], val (Nd.ofList [5, 5] [(-1 : Int)]) x ≤ 0) ∧
    (∃ x ∈ pixels [5, 5], val (Nd.ofList [5, 5] [(-1 : Int)]) x = 0) ∧
    ((dilateNearestSame true (Nd.ofList [5, 5] [-1]) 1 true).bind fun r => ok r.toList) =
      ok [-1, -1, 0, 0, -1, -1, 0, 0, 0, 0, 0, 0, 0, 0, 0, 0, 0, 0, 0, 0, -1, 0, 0, 0, 0] := by
  decide +kernel

/-! ### Which calls return -/

/-- Labels of both signs. -/
def BothSigns (f : Nd Int) : Prop := (∃ x ∈ pixels f.shape, 0 < val f x) ∧ ∃ x ∈ pixels f.shape, val f x < 0

/-- The largest label is `-1`. -/
def LargestMinusOne (f : Nd Int) : Prop :=
  (∃ x ∈ pixels f.shape, val f x = -1) ∧ ∀ x ∈ pixels f.shape, val f x ≤ -1

theorem same_cases (dbg : Bool) {k : Nat} (hl : Legal periodic f.shape kernel.shape) (h0 : 0 ∉ f.shape)
    (hm : IsMask kernel) :
    ((∀ x ∈ pixels f.shape, val f x ≤ -2) ∧ dilateSame dbg f kernel k periodic = ub) ∨
    (LargestMinusOne f ∧ dbg = true ∧ dilateSame dbg f kernel k periodic = throws) ∨
    (LargestMinusOne f ∧ dbg = false ∧ ∃ r, dilateSame dbg f kernel k periodic = ok r) ∨
    ((∃ x ∈ pixels f.shape, 0 ≤ val f x) ∧ 0 < k ∧ BothSigns f ∧ dilateSame dbg f kernel k periodic = ub) ∨
    ((∃ x ∈ pixels f.shape, 0 ≤ val f x) ∧ ¬ (0 < k ∧ BothSigns f) ∧
      ∃ r, dilateSame dbg f kernel k periodic = ok r) := by
  have hle := (amax_le (f := f) (b := amax f.toList) (by
    have := (foldl_max_le (l := f.toList) (b := amax f.toList)).1 (le_refl _)
    exact this.1)).1 (le_refl _)
  have hge : ∀ b : Int, -2147483648 ≤ b → ¬ amax f.toList ≤ b → ∃ x ∈ pixels f.shape, b < val f x := by
    intro b hb h
    by_contra hc
    refine h ((amax_le hb).2 fun x hx => ?_)
    by_contra hn
    exact hc ⟨x, hx, by omega⟩
  have hun : dilateSame dbg f kernel k periodic = if amax f.toList + 1 < 0 then ub else
      dilate dbg f kernel (List.replicate (amax f.toList + 1).toNat k) periodic := by
    unfold dilateSame sameIterations
    split <;> rfl
  rw [hun]
  by_cases h2 : amax f.toList ≤ -2
  · exact Or.inl ⟨(amax_le (by norm_num)).1 h2, if_pos (by omega)⟩
  rw [if_neg (by omega)]
  by_cases h1 : amax f.toList ≤ -1
  · have hmax : LargestMinusOne f := by
      obtain ⟨x, hx, hv⟩ := hge (-2) (by norm_num) h2
      have := hle x hx
      exact ⟨⟨x, hx, by omega⟩, (amax_le (by norm_num)).1 h1⟩
    have hn : ¬ Accepted f [] := by
      rintro ⟨⟨x, hx, hv⟩, -⟩
      have := hle x hx
      omega
    have e : (amax f.toList + 1).toNat = 0 := by omega
    rw [e]
    cases dbg with
    | true => exact Or.inr (Or.inl ⟨hmax, rfl, (C25_throws_iff true hl h0 hm).2 ⟨rfl, hn⟩⟩)
    | false => exact Or.inr (Or.inr (Or.inl ⟨hmax, rfl, (C25_returns_iff false hl h0 hm).2
        ⟨fun c => by simp at c, fun ⟨_, c, _⟩ => by simp at c⟩⟩))
  · have hnn : ∃ x ∈ pixels f.shape, 0 ≤ val f x := by
      obtain ⟨x, hx, hv⟩ := hge (-1) (by norm_num) h1
      exact ⟨x, hx, by omega⟩
    have hacc : Accepted f (List.replicate (amax f.toList + 1).toNat k) := by
      refine ⟨hnn, fun x hx => ?_⟩
      have := hle x hx
      rw [List.length_replicate]
      omega
    have hit : Iterates (List.replicate (amax f.toList + 1).toNat k) ↔ 0 < k := by
      unfold Iterates
      constructor
      · rintro ⟨n, hn, h⟩
        rw [List.eq_of_mem_replicate hn] at h
        exact h
      · intro h
        exact ⟨k, List.mem_replicate.2 ⟨by omega, rfl⟩, h⟩
    have hul : Unlisted f (List.replicate (amax f.toList + 1).toNat k) ↔ BothSigns f := by
      unfold Unlisted BothSigns
      rw [List.length_replicate]
      constructor
      · rintro ⟨hne, x, hx, hv, hn⟩
        obtain ⟨y, hy, hy'⟩ := hge 0 (by norm_num) (by omega)
        refine ⟨⟨y, hy, hy'⟩, x, hx, ?_⟩
        have := hle x hx
        omega
      · rintro ⟨⟨y, hy, hy'⟩, x, hx, hv⟩
        have := hle y hy
        exact ⟨by omega, x, hx, by omega, by omega⟩
    by_cases hb : 0 < k ∧ BothSigns f
    · exact Or.inr (Or.inr (Or.inr (Or.inl ⟨hnn, hb.1, hb.2,
        (C25_ub_iff dbg hl h0 hm).2 ⟨fun _ => hacc, hit.2 hb.1, hul.2 hb.2⟩⟩)))
    · exact Or.inr (Or.inr (Or.inr (Or.inr ⟨hnn, hb, (C25_returns_iff dbg hl h0 hm).2
        ⟨fun _ => hacc, fun hi hu => hb ⟨hit.1 hi, hul.1 hu⟩⟩⟩)))

/-- **C119**: what is refused: with assertions, images whose largest label is `-1`. -/
theorem C119_throws_iff (dbg : Bool) {k : Nat} (hl : Legal periodic f.shape kernel.shape) (h0 : 0 ∉ f.shape)
    (hm : IsMask kernel) : dilateSame dbg f kernel k periodic = throws ↔ dbg = true ∧ LargestMinusOne f := by
  rcases same_cases dbg (k := k) hl h0 hm with ⟨h, e⟩ | ⟨h, hd, e⟩ | ⟨h, hd, r, e⟩ | ⟨h, hk, hb, e⟩ | ⟨h, hb, r, e⟩ <;> rw [e]
  · refine iff_of_false (by simp) ?_
    rintro ⟨-, ⟨x, hx, hv⟩, -⟩
    have := h x hx
    omega
  · exact iff_of_true rfl ⟨hd, h⟩
  · exact iff_of_false (by simp) fun c => by rw [hd] at c; cases c.1
  · refine iff_of_false (by simp) ?_
    rintro ⟨-, -, hn⟩
    obtain ⟨x, hx, hv⟩ := h
    have := hn x hx
    omega
  · refine iff_of_false (by simp) ?_
    rintro ⟨-, -, hn⟩
    obtain ⟨x, hx, hv⟩ := h
    have := hn x hx
    omega

/-- **C119**: what is undefined, with and without assertions: images without a label above `-2`, and, if there is
something to do, images with labels of both signs. -/
theorem C119_ub_iff (dbg : Bool) {k : Nat} (hl : Legal periodic f.shape kernel.shape) (h0 : 0 ∉ f.shape)
    (hm : IsMask kernel) : dilateSame dbg f kernel k periodic = ub ↔
      (∀ x ∈ pixels f.shape, val f x ≤ -2) ∨ 0 < k ∧ BothSigns f := by
  have hone : LargestMinusOne f → ¬ ((∀ x ∈ pixels f.shape, val f x ≤ -2) ∨ 0 < k ∧ BothSigns f) := by
    rintro ⟨⟨x, hx, hv⟩, hn⟩ (c | ⟨-, ⟨y, hy, hy'⟩, -⟩)
    · have := c x hx
      omega
    · have := hn y hy
      omega
  rcases same_cases dbg (k := k) hl h0 hm with ⟨h, e⟩ | ⟨h, hd, e⟩ | ⟨h, hd, r, e⟩ | ⟨h, hk, hb, e⟩ | ⟨h, hb, r, e⟩ <;> rw [e]
  · exact iff_of_true rfl (Or.inl h)
  · exact iff_of_false (by simp) (hone h)
  · exact iff_of_false (by simp) (hone h)
  · exact iff_of_true rfl (Or.inr ⟨hk, hb⟩)
  · refine iff_of_false (by simp) ?_
    rintro (c | c)
    · obtain ⟨x, hx, hv⟩ := h
      have := c x hx
      omega
    · exact hb c

/-- Labels of both signs pass the assertion; a label is looked up in front of the numbers of iterations. -/
theorem C119_violated : ∀ dbg periodic, (∀ x ∈ pixels [3], val (mk [-1, 0, 1]) x ≠ 0 → |val (mk [-1, 0, 1]) x| = 1) ∧
    dilateSame dbg (mk [-1, 0, 1]) (mk [1, 1, 1]) 1 periodic = ub := by
  intro dbg periodic
  refine ⟨by decide, ?_⟩
  cases dbg <;> cases periodic <;> rfl

/-- The hypotheses of the equivalences, with labels of both signs. -/
example : Legal true (mk [-1, 0, 1]).shape (mk [1, 1, 1]).shape ∧ 0 ∉ (mk [-1, 0, 1]).shape ∧ IsMask (mk [1, 1, 1]) ∧
    BothSigns (mk [-1, 0, 1]) ∧ LargestMinusOne (mk [-1, -3]) := by
  refine ⟨⟨by decide, by decide, rfl, fun _ => by simp [mk, Nd.ofList]⟩, by decide, ?_, ?_, ?_⟩
  · unfold IsMask; decide
  · unfold BothSigns; decide
  · unfold LargestMinusOne; decide

end Verif.Props
