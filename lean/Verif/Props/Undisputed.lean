import Verif.Props.Regions

/-!
# Dilation where labels do not meet, periodic or not (C58, C91, C92)

`C58_violated`, `C91_violated` and `C92_violated` need two labels that reach the same pixel. Where that does not happen,
the claims hold also for periodic images.
-/

namespace Verif.Props

open Verif Outcome Spec Dilate

variable {periodic : Bool} {f kernel : Nd Int}

/-- No pixel is reached in `k` steps from pixels with different labels. -/
def Undisputed (periodic : Bool) (f kernel : Nd Int) (k : Nat) (x : List Int) : Prop :=
  ∀ y ∈ pixels f.shape, ∀ z ∈ pixels f.shape, val f y ≠ 0 → val f z ≠ 0 →
    Reach periodic f.shape kernel y k x → Reach periodic f.shape kernel z k x → val f y = val f z

/-- A smallest number of steps in which a pixel is reached. -/
theorem exists_nearest {x y : List Int} {k : Nat} (hy : y ∈ pixels f.shape) (hl : val f y ≠ 0)
    (h : Reach periodic f.shape kernel y k x) : ∃ y n, Nearest periodic f kernel x y n ∧ n ≤ k := by
  classical
  have hex : ∃ n, ∃ y ∈ pixels f.shape, val f y ≠ 0 ∧ Reach periodic f.shape kernel y n x := ⟨k, y, hy, hl, h⟩
  obtain ⟨y', hy', hl', h'⟩ := Nat.find_spec hex
  exact ⟨y', _, ⟨hy', hl', h', fun z hz hlz m hm => Nat.find_min' hex ⟨z, hz, hlz, hm⟩⟩,
    Nat.find_min' hex ⟨y, hy, hl, h⟩⟩

/-- With one number of iterations, periodic or not: a pixel that is not disputed gets the label of a pixel with a label
that is nearest to it, if there is one within so many steps. -/
theorem C92_undisputed_partial (dbg : Bool) {k : Nat} (hl : Legal periodic f.shape kernel.shape) (h0 : 0 ∉ f.shape)
    (hm : IsMask kernel) (hf : ∀ x ∈ pixels f.shape, 0 ≤ val f x) :
    ∃ r, dilateSame dbg f kernel k periodic = ok r ∧ r.shape = f.shape ∧
      ∀ x ∈ pixels f.shape,
        (val r x ≠ 0 → Undisputed periodic f kernel k x →
          ∃ y n, Nearest periodic f kernel x y n ∧ n ≤ k ∧ val r x = val f y) ∧
        (val r x = 0 → ∀ y n, Nearest periodic f kernel x y n → k < n) := by
  obtain ⟨r, h1, h2, h3, h4, h5⟩ := C23_same (periodic := periodic) dbg (k := k) hl h0 hm hf
  refine ⟨r, h1, h2, fun x hx => ⟨fun hne hu => ?_, fun hz y n hn => ?_⟩⟩
  · obtain ⟨y, hy, ey, hr⟩ := h4 x hx hne
    have hy0 : val f y ≠ 0 := by rw [ey]; exact hne
    obtain ⟨z, n, hz, hn⟩ := exists_nearest hy hy0 hr
    exact ⟨z, n, hz, hn, by rw [← ey]; exact hu y hy z hz.1 hy0 hz.2.1 hr (Reach.mono hz.2.2.1 hn)⟩
  · by_contra hle
    exact h5 x hx ⟨y, hn.1, hn.2.1, Reach.mono hn.2.2.1 (by omega)⟩ hz

/-- With one number of iterations, periodic or not: a label that is nowhere disputed stays in one piece with what it
grew from. -/
theorem C91_undisputed_partial (dbg : Bool) {k : Nat} (hl : Legal periodic f.shape kernel.shape) (h0 : 0 ∉ f.shape)
    (hm : IsMask kernel) (hf : ∀ x ∈ pixels f.shape, 0 ≤ val f x) :
    ∃ r, dilateSame dbg f kernel k periodic = ok r ∧ r.shape = f.shape ∧
      ∀ x ∈ pixels f.shape, val r x ≠ 0 →
        (∀ z ∈ pixels f.shape, ∀ y ∈ pixels f.shape, val f y = val r x → Reach periodic f.shape kernel y k z →
          Undisputed periodic f kernel k z) →
        ∃ y ∈ pixels f.shape, val f y = val r x ∧
          ReachIn periodic f.shape kernel (fun z => z ∈ pixels f.shape ∧ val r z = val r x) y k x := by
  obtain ⟨r, h1, h2, h3, h4, h5⟩ := C23_same (periodic := periodic) dbg (k := k) hl h0 hm hf
  refine ⟨r, h1, h2, fun x hx hne hu => ?_⟩
  obtain ⟨y, hy, ey, hr⟩ := h4 x hx hne
  have hy0 : val f y ≠ 0 := by rw [ey]; exact hne
  refine ⟨y, hy, ey, ?_⟩
  -- every pixel that is reached from `y` has its label
  have key : ∀ z ∈ pixels f.shape, Reach periodic f.shape kernel y k z → val r z = val r x := by
    intro z hz hrz
    have hz0 := h5 z hz ⟨y, hy, hy0, hrz⟩
    obtain ⟨y', hy', ey', hr'⟩ := h4 z hz hz0
    rw [← ey', ← ey]
    exact (hu z hz y hy ey hrz y hy y' hy' hy0 (by rw [ey']; exact hz0) hrz hr').symm
  have walk : ∀ {n : Nat} {z : List Int}, Reach periodic f.shape kernel y n z → n ≤ k →
      ReachIn periodic f.shape kernel (fun z => z ∈ pixels f.shape ∧ val r z = val r x) y n z := by
    intro n z h
    induction h with
    | here n => exact fun _ => .here n ⟨hy, key y hy (.here k)⟩
    | step n z d h hd ht ih =>
      exact fun hn => .step n z d (ih (by omega)) hd ht ⟨ht, key _ ht (Reach.mono (.step n z d h hd ht) hn)⟩
  exact walk hr (le_refl k)

/-- Periodic or not: at a pixel that is not disputed within `a + b` steps, dilating `a + b` times is dilating `a` times
and then `b` times. -/
theorem C58_undisputed_partial (dbg : Bool) {a b : Nat} (hl : Legal periodic f.shape kernel.shape)
    (h0 : 0 ∉ f.shape) (hm : IsMask kernel) (hf : ∀ x ∈ pixels f.shape, 0 ≤ val f x) :
    ∃ r r₁ r₂, dilateSame dbg f kernel (a + b) periodic = ok r ∧
      dilateSame dbg f kernel a periodic = ok r₁ ∧
      dilateSame dbg r₁ kernel b periodic = ok r₂ ∧ r.shape = f.shape ∧ r₂.shape = f.shape ∧
      ∀ x ∈ pixels f.shape, Undisputed periodic f kernel (a + b) x → val r x = val r₂ x := by
  obtain ⟨r, e, s, -, w, c⟩ := C23_same dbg (k := a + b) hl h0 hm hf
  obtain ⟨r₁, e₁, s₁, k₁, w₁, c₁⟩ := C23_same dbg (k := a) hl h0 hm hf
  have hf₁ : ∀ x ∈ pixels r₁.shape, 0 ≤ val r₁ x := by
    rw [s₁]
    intro x hx
    by_cases hv : val r₁ x = 0
    · omega
    · obtain ⟨y, hy, ey, -⟩ := w₁ x hx hv
      rw [← ey]
      exact hf y hy
  obtain ⟨r₂, e₂, s₂, -, w₂, c₂⟩ := C23_same (f := r₁) dbg (k := b) (by rw [s₁]; exact hl) (by rw [s₁]; exact h0) hm hf₁
  rw [s₁] at s₂ w₂ c₂
  refine ⟨r, r₁, r₂, e, e₁, e₂, s, s₂, fun x hx hu => ?_⟩
  have back : val r₂ x ≠ 0 → ∃ y ∈ pixels f.shape, val f y = val r₂ x ∧ Reach periodic f.shape kernel y (a + b) x := by
    intro h
    obtain ⟨z, hz, ez, h2⟩ := w₂ x hx h
    obtain ⟨y, hy, ey, h1⟩ := w₁ z hz (by rw [ez]; exact h)
    exact ⟨y, hy, by rw [ey, ez], reach_trans h1 h2⟩
  by_cases h : val r x = 0
  · by_contra hne
    obtain ⟨y, hy, ey, hr⟩ := back (fun h' => hne (by rw [h, h']))
    exact c x hx ⟨y, hy, by rw [ey]; exact fun h' => hne (by rw [h, h']), hr⟩ h
  · obtain ⟨y, hy, ey, hr⟩ := w x hx h
    obtain ⟨z, h1, h2⟩ := reach_split hr
    have hz := reach_mem h1 hy
    have hne := c₂ x hx ⟨z, hz, c₁ z hz ⟨y, hy, by rw [ey]; exact h, h1⟩, h2⟩
    obtain ⟨y', hy', ey', hr'⟩ := back hne
    rw [← ey, ← ey']
    exact hu y hy y' hy' (by rw [ey]; exact h) (by rw [ey']; exact hne) hr hr'

/-- In particular if there is one label. -/
theorem undisputed_single {k : Nat} {l : Int} (hf : ∀ x ∈ pixels f.shape, val f x = 0 ∨ val f x = l) (x : List Int) :
    Undisputed periodic f kernel k x := by
  intro y hy z hz hy0 hz0 _ _
  rcases hf y hy with h | h
  · exact absurd h hy0
  · rcases hf z hz with h' | h'
    · exact absurd h' hz0
    · rw [h, h']

/-- Two labels at opposite sides of a periodic line that do not meet in one step; the first grows across the edge. -/
example : Legal true [7] [3] ∧ IsMask (mk [1, 1, 1]) ∧ (∀ x ∈ pixels [7], 0 ≤ val (mk [1, 0, 0, 2, 0, 0, 0]) x) ∧
    (∀ x ∈ pixels [7], Undisputed true (mk [1, 0, 0, 2, 0, 0, 0]) (mk [1, 1, 1]) 1 x) ∧
    ((dilateSame true (mk [1, 0, 0, 2, 0, 0, 0]) (mk [1, 1, 1]) 1 true).map fun r => r.toList) =
      ok [1, 1, 2, 2, 2, 0, 1] := by
  refine ⟨⟨by decide, by decide, rfl, fun _ => by simp⟩, by unfold IsMask; decide, by decide, ?_, by decide +kernel⟩
  have step : ∀ {y x : List Int}, Reach true [7] (mk [1, 1, 1]) y 1 x →
      x = y ∨ ∃ d, (d = [-1] ∨ d = [0] ∨ d = [1]) ∧ x = target true [7] y d := by
    intro y x h
    cases h with
    | here => exact Or.inl rfl
    | step n z d h hd ht =>
      cases h with
      | here => exact Or.inr ⟨d, offset_line hd, rfl⟩
  intro x _ y hy z hz hy0 hz0 h1 h2
  have e1 := step h1
  have e2 := step h2
  have vals : ∀ y ∈ pixels [7], val (mk [1, 0, 0, 2, 0, 0, 0]) y ≠ 0 → y = [0] ∨ y = [3] := by decide
  rcases vals y hy hy0 with rfl | rfl <;> rcases vals z hz hz0 with rfl | rfl
  · rfl
  · exfalso
    rcases e1 with rfl | ⟨d, hd, rfl⟩
    · rcases e2 with e | ⟨d', hd', e⟩
      · revert e; decide
      · rcases hd' with rfl | rfl | rfl <;> revert e <;> decide
    · rcases e2 with e | ⟨d', hd', e⟩
      · rcases hd with rfl | rfl | rfl <;> revert e <;> decide
      · rcases hd with rfl | rfl | rfl <;> rcases hd' with rfl | rfl | rfl <;> revert e <;> decide
  · exfalso
    rcases e1 with rfl | ⟨d, hd, rfl⟩
    · rcases e2 with e | ⟨d', hd', e⟩
      · revert e; decide
      · rcases hd' with rfl | rfl | rfl <;> revert e <;> decide
    · rcases e2 with e | ⟨d', hd', e⟩
      · rcases hd with rfl | rfl | rfl <;> revert e <;> decide
      · rcases hd with rfl | rfl | rfl <;> rcases hd' with rfl | rfl | rfl <;> revert e <;> decide
  · rfl

end Verif.Props
