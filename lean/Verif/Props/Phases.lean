import Verif.Props.Weighted

/-! # Correlations of an image and of its phases (C139) -/

set_option linter.unusedSectionVars false

namespace Verif.Props

open Verif Outcome Spec Ens

variable {K : Type} [Field K] [LinearOrder K] [IsStrictOrderedRing K]
variable {roi : List Nat} {periodic : Bool} {f g : Nd K} {fmask gmask : Nd Int}

/-- The image that is one where `f` has one of the values `A`, and zero elsewhere. -/
def Spec.phase (f : Nd K) (A : List K) : Nd K := f.map fun v => if v ∈ A then 1 else 0

/-! ### Proof -/

theorem val_phase (f : Nd K) (A : List K) (x : List Int) :
    val (Spec.phase f A) x = if val f x ∈ A then 1 else 0 := rfl

theorem phase_shape (f : Nd K) (A : List K) : (Spec.phase f A).shape = f.shape := rfl

theorem sum_mem {A : List K} (h : A.Nodup) (v : K) :
    (A.map fun a => if v ∈ [a] then (1 : K) else 0).sum = if v ∈ A then 1 else 0 := by
  induction A with
  | nil => simp
  | cons a A ih =>
    rw [List.map_cons, List.sum_cons, ih h.of_cons]
    have := (List.nodup_cons.1 h).1
    by_cases e : v = a
    · subst e
      simp [this]
    · simp [e]

theorem average_sum {ι : Type} (l : List (List Int × List Int)) (A : List ι) (φ : ι → List Int → List Int → K) :
    average l (fun x y => (A.map fun a => φ a x y).sum) = (A.map fun a => average l (φ a)).sum := by
  simp only [average_eq_div]
  induction A with
  | nil => simp [total]
  | cons a A ih =>
    simp only [List.map_cons, List.sum_cons]
    rw [total_add, add_div, ih]

theorem sum_same {A : List K} (h : A.Nodup) (h0 : (0 : K) ∉ A) {u v : K} (hu : u ≠ 0 → u ∈ A) :
    (A.map fun a => (if u ∈ [a] then (1 : K) else 0) * if v ∈ [a] then 1 else 0).sum =
      if u ≠ 0 ∧ u = v then 1 else 0 := by
  by_cases e : u = v
  · subst e
    have : (fun a : K => (if u ∈ [a] then (1 : K) else 0) * if u ∈ [a] then 1 else 0) =
        fun a => if u ∈ [a] then 1 else 0 := by
      funext a
      split <;> simp
    rw [this, sum_mem h]
    by_cases z : u = 0
    · subst z
      simp [h0]
    · simp [z, hu z]
  · rw [if_neg fun k => e k.2]
    refine List.sum_eq_zero fun c hc => ?_
    obtain ⟨a, -, rfl⟩ := List.mem_map.1 hc
    by_cases k : u = a
    · rw [if_neg (c := v ∈ [a]) (by simpa using fun w : v = a => e (k.trans w.symm)), mul_zero]
    · rw [if_neg (by simpa using k), zero_mul]

/-! ### Properties -/

/-- **C139**: C2 of labels is the sum over the labels of S2 of the images of one label each, whatever the masks and the
periodicity. -/
theorem C139_C2 (L : Legal periodic f.shape roi) (hg : g.shape = f.shape) (hfm : fmask.shape = f.shape)
    (hgm : gmask.shape = f.shape) (bf : IsMask fmask) (bg : IsMask gmask) {labels : List K} (hn : labels.Nodup)
    (h0 : 0 ∉ labels) (hl : ∀ x ∈ pixels f.shape, val f x ≠ 0 → val f x ∈ labels) (pow05 : K → K) (dbg : Bool) :
    ∃ (r : Nd K) (s : K → Nd K), Api.C2Mask pow05 dbg roi f g fmask gmask periodic = ok r ∧ r.shape = roi ∧
      (∀ a, Api.S2Mask pow05 dbg roi (Spec.phase f [a]) (Spec.phase g [a]) fmask gmask periodic = ok (s a)) ∧
      ∀ i, InBox roi i → val r i = (labels.map fun a => val (s a) i).sum := by
  obtain ⟨r, h1, h2, h3⟩ := C38_code L hg hfm hgm bf bg pow05 dbg
  choose s k1 _ k3 using fun a => C34_code (f := Spec.phase f [a]) (g := Spec.phase g [a]) L hg hfm hgm bf bg pow05 dbg
  refine ⟨r, s, h1, h2, k1, fun i hi => ?_⟩
  simp only [h3 i hi, k3 _ i hi, phase_shape]
  rw [← average_sum]
  refine average_congr fun p hp => ?_
  simp only [val_phase]
  rw [sum_same hn h0 (hl _ (mem_pairs.1 hp).1)]

/-- **C139**: S2 is additive over phases: of the pixels with values in `A` and those with values in `B` it is the sum over
the values of each. -/
theorem C139_S2 (L : Legal periodic f.shape roi) (hg : g.shape = f.shape) (hfm : fmask.shape = f.shape)
    (hgm : gmask.shape = f.shape) (bf : IsMask fmask) (bg : IsMask gmask) {A B : List K} (hA : A.Nodup) (hB : B.Nodup)
    (pow05 : K → K) (dbg : Bool) :
    ∃ (r : Nd K) (s : K → K → Nd K),
      Api.S2Mask pow05 dbg roi (Spec.phase f A) (Spec.phase g B) fmask gmask periodic = ok r ∧ r.shape = roi ∧
      (∀ a b, Api.S2Mask pow05 dbg roi (Spec.phase f [a]) (Spec.phase g [b]) fmask gmask periodic = ok (s a b)) ∧
      ∀ i, InBox roi i → val r i = (A.map fun a => (B.map fun b => val (s a b) i).sum).sum := by
  obtain ⟨r, h1, h2, h3⟩ := C34_code (f := Spec.phase f A) (g := Spec.phase g B) L hg hfm hgm bf bg pow05 dbg
  choose s k1 _ k3 using fun a b => C34_code (f := Spec.phase f [a]) (g := Spec.phase g [b]) L hg hfm hgm bf bg pow05 dbg
  refine ⟨r, s, h1, h2, k1, fun i hi => ?_⟩
  simp only [h3 i hi, k3 _ _ i hi, phase_shape]
  simp only [← average_sum]
  refine average_congr fun p _ => ?_
  simp only [val_phase, List.sum_map_mul_left, List.sum_map_mul_right, sum_mem hA, sum_mem hB]

/-- **C139**: the correlations of all phases of an image (the background included) add up to one at every displacement at
which the image has pairs of pixels, without masks. -/
theorem C139_one (L : Legal periodic f.shape roi) (hg : g.shape = f.shape) {A B : List K} (hA : A.Nodup) (hB : B.Nodup)
    (hf : ∀ x ∈ pixels f.shape, val f x ∈ A) (hb : ∀ x ∈ pixels f.shape, val g x ∈ B) (pow05 : K → K) (dbg : Bool) :
    ∃ s : K → K → Nd K,
      (∀ a b, Api.S2 pow05 dbg roi (Spec.phase f [a]) (Spec.phase g [b]) periodic = ok (s a b)) ∧
      ∀ i, InBox roi i → (∃ x ∈ pixels f.shape, target periodic f.shape x (displacement roi i) ∈ pixels f.shape) →
        (A.map fun a => (B.map fun b => val (s a b) i).sum).sum = 1 := by
  choose s k1 _ k3 using fun a b => C34_unmasked (f := Spec.phase f [a]) (g := Spec.phase g [b]) L hg pow05 dbg
  refine ⟨s, k1, fun i hi hx => ?_⟩
  simp only [k3 _ _ i hi, phase_shape]
  simp only [← average_sum]
  rw [average_congr (ψ := fun _ _ => 1)]
  · obtain ⟨x, hx, ht⟩ := hx
    have hm : (x, target periodic f.shape x (displacement roi i)) ∈
        pairs periodic f.shape (fun _ _ => True) (displacement roi i) := mem_pairs.2 ⟨hx, rfl, ht, trivial⟩
    have : ((pairs periodic f.shape (fun _ _ => True) (displacement roi i)).length : K) ≠ 0 := by
      simp only [ne_eq, Nat.cast_eq_zero]
      exact fun e => List.ne_nil_of_mem hm (List.length_eq_zero_iff.1 e)
    rw [average_eq_div, total_const, mul_one, div_self this]
  · intro p hp
    obtain ⟨q1, -, q2, -⟩ := mem_pairs.1 hp
    simp only [val_phase, List.sum_map_mul_left, List.sum_map_mul_right, sum_mem hA, sum_mem hB, if_pos (hf _ q1),
      if_pos (hb _ q2), one_mul]

/-- Labels 1 and 2 in an image of five pixels, one of which is masked. -/
example : Legal false [5] [3] ∧ ([1, 2] : List ℚ).Nodup ∧ (0 : ℚ) ∉ ([1, 2] : List ℚ) ∧
    (∀ x ∈ pixels [5], val (im [1, 1, 0, 2, 2] : Nd ℚ) x ≠ 0 → val (im [1, 1, 0, 2, 2] : Nd ℚ) x ∈ ([1, 2] : List ℚ)) ∧
    IsMask (mk [0, 0, 0, 0, 1]) := by
  refine ⟨⟨by decide, by decide, rfl, by unfold Fits; decide⟩, by decide, by decide, by decide +kernel,
    mk_isMask (by decide)⟩

/-- The values there: 1/3 at displacement one (pairs (0, 1), (1, 2), (2, 3) are not masked). -/
example :
    ((Api.C2Mask id true [3] (im [1, 1, 0, 2, 2] : Nd ℚ) (im [1, 1, 0, 2, 2]) (mk [0, 0, 0, 0, 1]) (mk [0, 0, 0, 0, 1])
      false).map fun r => val r [2]) = ok (1 / 3) := by
  decide +kernel

end Verif.Props
