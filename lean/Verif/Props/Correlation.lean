import Verif.Lemmas.Pairs
import Mathlib.Analysis.Real.Sqrt
import Mathlib.Tactic.Linarith
import Mathlib.Tactic.Ring
import Mathlib.Tactic.FieldSimp

/-!
# Spatial correlations of one image (C34-C40)

`roi` is the shape of the region of interest, `dbg` whether assertions are compiled in, `pow05` the
function used for `pow(x, 0.5)` (only relevant to `heightheight`). The value of a result at index `i` is
compared with an average over pairs of pixels at displacement `displacement roi i`, see
`Verif.Spec.Ensemble`.
-/

set_option linter.unusedSectionVars false

namespace Verif.Props

open Verif Outcome Spec Ens

variable {K : Type} [Field K] [LinearOrder K] [IsStrictOrderedRing K]
variable {roi : List Nat} {periodic : Bool} {f g f' g' : Nd K} {fmask gmask : Nd Int}

/-- All pixels of the mask are zero. -/
theorem noMask_isMask (f : Nd K) : IsMask (noMask f) := fun _ _ => Or.inl rfl

theorem val_noMask (f : Nd K) (x : List Int) : val (noMask f) x = 0 := rfl

theorem seen_noMask (f : Nd K) (d x y : List Int) : Seen periodic (noMask f) d x y := by
  unfold Seen
  split
  · trivial
  · rfl

/-- Not periodic, or no masked pixels: the mask excludes exactly the masked pixels. -/
theorem seen_iff {m : Nd Int} {shape : List Nat} (h : periodic = false ∨ ∀ x ∈ pixels shape, val m x = 0)
    {d x y : List Int} (hy : y ∈ pixels shape) : Seen periodic m d x y ↔ val m y = 0 := by
  unfold Seen
  rcases h with rfl | h
  · simp
  · simp [h y hy]

/-! ### C34 -/

/-- What S2 computes, in all cases: the average over the pairs of pixels for which the first is not
masked and the second is not masked or (periodic only) reached through the boundary. -/
theorem C34_code (L : Legal periodic f.shape roi) (hg : g.shape = f.shape)
    (hfm : fmask.shape = f.shape) (hgm : gmask.shape = f.shape) (bf : IsMask fmask) (bg : IsMask gmask)
    (pow05 : K → K) (dbg : Bool) :
    ∃ r, Api.S2Mask pow05 dbg roi f g fmask gmask periodic = ok r ∧ r.shape = roi ∧
      ∀ i, InBox roi i → let d := displacement roi i
        val r i = average (pairs periodic f.shape
          (fun x y => val fmask x = 0 ∧ Seen periodic gmask d x y) d) fun x y => val f x * val g y :=
  S2_value L hg hfm hgm bf bg pow05 dbg

/-- S2 is the average of `f(x) g(x + d)` over the unmasked pairs. Missing: periodic images with masked
pixels of `g`, for which this is false (`C34_violated`, see `C34_code` for what is computed). -/
theorem C34_partial (L : Legal periodic f.shape roi) (hg : g.shape = f.shape)
    (hfm : fmask.shape = f.shape) (hgm : gmask.shape = f.shape) (bf : IsMask fmask) (bg : IsMask gmask)
    (h : periodic = false ∨ ∀ x ∈ pixels f.shape, val gmask x = 0) (pow05 : K → K) (dbg : Bool) :
    ∃ r, Api.S2Mask pow05 dbg roi f g fmask gmask periodic = ok r ∧ r.shape = roi ∧
      ∀ i, InBox roi i → val r i =
        average (pairs periodic f.shape (fun x y => val fmask x = 0 ∧ val gmask y = 0)
          (displacement roi i)) fun x y => val f x * val g y := by
  obtain ⟨r, h1, h2, h3⟩ := S2_value L hg hfm hgm bf bg pow05 dbg
  refine ⟨r, h1, h2, fun i hi => ?_⟩
  rw [h3 i hi]
  refine congrArg (fun l => average l _) (pairs_congr fun x _ ht => ?_)
  rw [seen_iff h ht]

/-- Without masks: the average over all pairs. -/
theorem C34_unmasked (L : Legal periodic f.shape roi) (hg : g.shape = f.shape) (pow05 : K → K) (dbg : Bool) :
    ∃ r, Api.S2 pow05 dbg roi f g periodic = ok r ∧ r.shape = roi ∧
      ∀ i, InBox roi i → val r i =
        average (pairs periodic f.shape (fun _ _ => True) (displacement roi i))
          fun x y => val f x * val g y := by
  obtain ⟨r, h1, h2, h3⟩ := S2_value L hg (fmask := noMask f) (gmask := noMask f) rfl rfl
    (noMask_isMask f) (noMask_isMask f) pow05 dbg
  refine ⟨r, h1, h2, fun i hi => ?_⟩
  rw [h3 i hi]
  refine congrArg (fun l => average l _) (pairs_congr fun x _ _ => ?_)
  simp [val_noMask, seen_noMask]

/-- A small one-dimensional image and mask. -/
abbrev im (l : List ℚ) : Nd ℚ := Nd.ofList [l.length] l

abbrev mk (l : List Int) : Nd Int := Nd.ofList [l.length] l

theorem mk_isMask {l : List Int} (h : ∀ m ∈ l, m = 0 ∨ m = 1) : IsMask (mk l) := by
  intro k hk
  have hk' : k < l.length := by simpa [Nd.size, Nd.ofList, prodShape] using hk
  show l.getD k default = 0 ∨ l.getD k default = 1
  rw [List.getD_eq_getElem?_getD, List.getElem?_eq_getElem hk', Option.getD_some]
  exact h _ (List.getElem_mem _)

/-- A masked, periodic image of two pixels and a ROI of three pixels meet the hypotheses of C34_code. -/
example : Legal true (im [1, 1]).shape [3] ∧ IsMask (mk [1, 0]) := by
  refine ⟨⟨by decide, by decide, rfl, fun _ => ?_⟩, mk_isMask (by decide)⟩
  simp [im, Nd.ofList]

/-- A masked image in two dimensions that is not periodic meets the hypotheses of C34_partial. -/
example : Legal false [4, 5] [3, 4] := ⟨by decide, by decide, rfl, by simp [Fits]⟩

/-- A periodic image with a masked pixel: the masked pixel contributes (the second pixel is paired with
the first, masked, through the boundary). -/
theorem C34_violated : ∃ (f g : Nd ℚ) (fmask gmask : Nd Int) (roi : List Nat) (r : Nd ℚ) (i : List Int),
    Legal true f.shape roi ∧ IsMask fmask ∧ IsMask gmask ∧ g.shape = f.shape ∧ fmask.shape = f.shape ∧
    gmask.shape = f.shape ∧ InBox roi i ∧
    Api.S2Mask id true roi f g fmask gmask true = ok r ∧
    val r i ≠ average (pairs true f.shape (fun x y => val fmask x = 0 ∧ val gmask y = 0)
      (displacement roi i)) fun x y => val f x * val g y := by
  have L : Legal true (im [1, 1]).shape [3] := ⟨by decide, by decide, rfl, fun _ => by simp [im, Nd.ofList]⟩
  have b1 : IsMask (mk [0, 0]) := mk_isMask (by decide)
  have b2 : IsMask (mk [1, 0]) := mk_isMask (by decide)
  have hi : InBox [3] [2] := by simp [InBox]
  obtain ⟨r, h1, h2, h3⟩ := C34_code (f := im [1, 1]) (g := im [5, 1]) L rfl rfl rfl b1 b2 id true
  refine ⟨im [1, 1], im [5, 1], mk [0, 0], mk [1, 0], [3], r, [2], L, b1, b2, rfl, rfl, rfl, hi, h1, ?_⟩
  rw [h3 [2] hi]
  decide +kernel

/-! ### C35 -/

/-- Masked pixels do not contribute to S2. Missing: masked pixels of `g` of a periodic image, for which
this is false (`C35_violated`). -/
theorem C35_S2_partial (L : Legal periodic f.shape roi) (hg : g.shape = f.shape)
    (hf' : f'.shape = f.shape) (hg' : g'.shape = f.shape)
    (hfm : fmask.shape = f.shape) (hgm : gmask.shape = f.shape) (bf : IsMask fmask) (bg : IsMask gmask)
    (h : periodic = false ∨ ∀ x ∈ pixels f.shape, val g x = val g' x)
    (ef : ∀ x ∈ pixels f.shape, val fmask x = 0 → val f x = val f' x)
    (eg : ∀ x ∈ pixels f.shape, val gmask x = 0 → val g x = val g' x) (pow05 : K → K) (dbg : Bool) :
    ∃ r r', Api.S2Mask pow05 dbg roi f g fmask gmask periodic = ok r ∧
      Api.S2Mask pow05 dbg roi f' g' fmask gmask periodic = ok r' ∧ r.shape = roi ∧ r'.shape = roi ∧
      ∀ i, InBox roi i → val r i = val r' i := by
  obtain ⟨r, h1, h2, h3⟩ := S2_value L hg hfm hgm bf bg pow05 dbg
  obtain ⟨r', h1', h2', h3'⟩ := S2_value (f := f') (g := g') (hf' ▸ L) (hg'.trans hf'.symm)
    (hfm.trans hf'.symm) (hgm.trans hf'.symm) bf bg pow05 dbg
  refine ⟨r, r', h1, h1', h2, h2', fun i hi => ?_⟩
  rw [h3 i hi, h3' i hi, hf']
  refine average_congr fun p hp => ?_
  obtain ⟨m1, m2, m3, m4, m5⟩ := mem_pairs.1 hp
  rw [ef _ m1 m4]
  congr 1
  rcases h with rfl | h
  · exact eg _ m3 (by simpa [Seen] using m5)
  · exact h _ m3

/-- As `C35_S2_partial`, for C2. -/
theorem C35_C2_partial (L : Legal periodic f.shape roi) (hg : g.shape = f.shape)
    (hf' : f'.shape = f.shape) (hg' : g'.shape = f.shape)
    (hfm : fmask.shape = f.shape) (hgm : gmask.shape = f.shape) (bf : IsMask fmask) (bg : IsMask gmask)
    (h : periodic = false ∨ ∀ x ∈ pixels f.shape, val g x = val g' x)
    (ef : ∀ x ∈ pixels f.shape, val fmask x = 0 → val f x = val f' x)
    (eg : ∀ x ∈ pixels f.shape, val gmask x = 0 → val g x = val g' x) (pow05 : K → K) (dbg : Bool) :
    ∃ r r', Api.C2Mask pow05 dbg roi f g fmask gmask periodic = ok r ∧
      Api.C2Mask pow05 dbg roi f' g' fmask gmask periodic = ok r' ∧ r.shape = roi ∧ r'.shape = roi ∧
      ∀ i, InBox roi i → val r i = val r' i := by
  obtain ⟨r, h1, h2, h3⟩ := C2_value L hg hfm hgm bf bg pow05 dbg
  obtain ⟨r', h1', h2', h3'⟩ := C2_value (f := f') (g := g') (hf' ▸ L) (hg'.trans hf'.symm)
    (hfm.trans hf'.symm) (hgm.trans hf'.symm) bf bg pow05 dbg
  refine ⟨r, r', h1, h1', h2, h2', fun i hi => ?_⟩
  rw [h3 i hi, h3' i hi, hf']
  refine average_congr fun p hp => ?_
  obtain ⟨m1, m2, m3, m4, m5⟩ := mem_pairs.1 hp
  have e : val g p.2 = val g' p.2 := by
    rcases h with rfl | h
    · exact eg _ m3 (by simpa [Seen] using m5)
    · exact h _ m3
  rw [ef _ m1 m4, e]

/-- As `C35_S2_partial`, for W2 (which has no mask for the weights). -/
theorem C35_W2_partial (L : Legal false f.shape roi) (hg : g.shape = f.shape) (hg' : g'.shape = f.shape)
    (hgm : gmask.shape = f.shape) (bg : IsMask gmask)
    (eg : ∀ x ∈ pixels f.shape, val gmask x = 0 → val g x = val g' x) (pow05 : K → K) (dbg : Bool) :
    ∃ r r', Api.W2Mask pow05 dbg roi f g gmask false = ok r ∧
      Api.W2Mask pow05 dbg roi f g' gmask false = ok r' ∧ r.shape = roi ∧ r'.shape = roi ∧
      ∀ i, InBox roi i → val r i = val r' i := by
  obtain ⟨r, h1, h2, h3⟩ := W2_value L hg hgm bg pow05 dbg
  obtain ⟨r', h1', h2', h3'⟩ := W2_value L hg' hgm bg pow05 dbg
  refine ⟨r, r', h1, h1', h2, h2', fun i hi => ?_⟩
  rw [h3 i hi, h3' i hi]
  refine congrArg (fun a => a / _) (total_congr fun p hp => ?_)
  obtain ⟨m1, m2, m3, m4⟩ := mem_pairs.1 hp
  rw [eg _ m3 (by simpa [Seen] using m4)]

/-- As `C35_S2_partial`, for heightheight. -/
theorem C35_heightheight_partial (L : Legal false f.shape roi) (hf' : f'.shape = f.shape)
    (hfm : fmask.shape = f.shape) (bf : IsMask fmask)
    (ef : ∀ x ∈ pixels f.shape, val fmask x = 0 → val f x = val f' x) (pow05 : K → K) (dbg : Bool) :
    ∃ r r', Api.heightheightMask pow05 dbg roi f fmask false = ok r ∧
      Api.heightheightMask pow05 dbg roi f' fmask false = ok r' ∧ r.shape = roi ∧ r'.shape = roi ∧
      ∀ i, InBox roi i → val r i = val r' i := by
  obtain ⟨r, h1, h2, h3⟩ := HH_value L hfm bf pow05 dbg
  obtain ⟨r', h1', h2', h3'⟩ := HH_value (f := f') (hf' ▸ L) (hfm.trans hf'.symm) bf pow05 dbg
  refine ⟨r, r', h1, h1', h2, h2', fun i hi => ?_⟩
  rw [h3 i hi, h3' i hi, hf']
  refine congrArg pow05 (average_congr fun p hp => ?_)
  obtain ⟨m1, m2, m3, m4, m5⟩ := mem_pairs.1 hp
  rw [ef _ m1 m4, ef _ m3 (by simpa [Seen] using m5)]

/-- Two images that differ only in the masked pixel meet the hypotheses. -/
example : ∀ x ∈ pixels (im [1, 2, 3]).shape, val (mk [0, 0, 1]) x = 0 →
    val (im [1, 2, 3]) x = val (im [1, 2, 4]) x := by decide +kernel

/-- In the periodic case masked pixels do contribute, to each of the four statistics: the results for
two images that differ only in a masked pixel differ. -/
theorem C35_violated : ∃ (f f' : Nd ℚ) (w : Nd ℚ) (mask : Nd Int) (roi : List Nat) (i : List Int),
    Legal true f.shape roi ∧ IsMask mask ∧ f'.shape = f.shape ∧ w.shape = f.shape ∧ mask.shape = f.shape ∧
    InBox roi i ∧ (∀ x ∈ pixels f.shape, val mask x = 0 → val f x = val f' x) ∧
    (∃ r r', Api.S2Mask id true roi f f mask mask true = ok r ∧
      Api.S2Mask id true roi f' f' mask mask true = ok r' ∧ val r i ≠ val r' i) ∧
    (∃ r r', Api.C2Mask id true roi f f mask mask true = ok r ∧
      Api.C2Mask id true roi f' f' mask mask true = ok r' ∧ val r i ≠ val r' i) ∧
    (∃ r r', Api.W2Mask id true roi w f mask true = ok r ∧
      Api.W2Mask id true roi w f' mask true = ok r' ∧ val r i ≠ val r' i) ∧
    (∃ r r', Api.heightheightMask id true roi f mask true = ok r ∧
      Api.heightheightMask id true roi f' mask true = ok r' ∧ val r i ≠ val r' i) := by
  have hL : ∀ f : Nd ℚ, f.shape = [2] → Legal true f.shape [3] := by
    intro f h
    rw [h]
    exact ⟨by decide, by decide, rfl, fun _ => by simp⟩
  have b : IsMask (mk [1, 0]) := mk_isMask (by decide)
  have hi : InBox [3] [2] := by simp [InBox]
  refine ⟨im [1, 1], im [5, 1], im [1, 1], mk [1, 0], [3], [2], hL _ rfl, b, rfl, rfl, rfl, hi,
    by decide +kernel, ?_, ?_, ?_, ?_⟩
  · obtain ⟨r, h1, _, h3⟩ := S2_value (f := im [1, 1]) (g := im [1, 1]) (hL _ rfl) rfl rfl rfl b b id true
    obtain ⟨r', h1', _, h3'⟩ := S2_value (f := im [5, 1]) (g := im [5, 1]) (hL _ rfl) rfl rfl rfl b b id true
    refine ⟨r, r', h1, h1', ?_⟩
    rw [h3 _ hi, h3' _ hi]
    decide +kernel
  · obtain ⟨r, h1, _, h3⟩ := C2_value (f := im [1, 1]) (g := im [1, 1]) (hL _ rfl) rfl rfl rfl b b id true
    obtain ⟨r', h1', _, h3'⟩ := C2_value (f := im [5, 1]) (g := im [5, 1]) (hL _ rfl) rfl rfl rfl b b id true
    refine ⟨r, r', h1, h1', ?_⟩
    rw [h3 _ hi, h3' _ hi]
    decide +kernel
  · obtain ⟨r, h1, _, h3⟩ := W2_value (f := im [1, 1]) (g := im [1, 1]) (hL _ rfl) rfl rfl b id true
    obtain ⟨r', h1', _, h3'⟩ := W2_value (f := im [1, 1]) (g := im [5, 1]) (hL _ rfl) rfl rfl b id true
    refine ⟨r, r', h1, h1', ?_⟩
    rw [h3 _ hi, h3' _ hi]
    decide +kernel
  · obtain ⟨r, h1, _, h3⟩ := HH_value (f := im [1, 1]) (hL _ rfl) rfl b id true
    obtain ⟨r', h1', _, h3'⟩ := HH_value (f := im [5, 1]) (hL _ rfl) rfl b id true
    refine ⟨r, r', h1, h1', ?_⟩
    rw [h3 _ hi, h3' _ hi]
    decide +kernel

/-! ### C36 -/

/-- A binary image. -/
def IsBinary (f : Nd K) : Prop := ∀ x ∈ pixels f.shape, val f x = 0 ∨ val f x = 1

/-- The fraction of nonzero pixels of a binary image, the mean of any image. -/
def meanOf (f : Nd K) : K := ((pixels f.shape).map (val f)).sum / (f.shape.prod : K)

/-- All components are zero. -/
def IsZero (d : List Int) : Prop := ∀ a ∈ d, a = 0

theorem move_zero : ∀ {x d : List Int}, d.length = x.length → IsZero d → move x d = x
  | [], [], _, _ => rfl
  | a :: x, b :: d, h, hz => by
    have ih := move_zero (x := x) (d := d) (by simpa using h) fun a ha => hz a (List.mem_cons_of_mem _ ha)
    have hb := hz b (by simp)
    simp only [move, List.zipWith_cons_cons, List.cons.injEq] at ih ⊢
    exact ⟨by omega, ih⟩

theorem target_zero {shape : List Nat} {x d : List Int} (hx : x ∈ pixels shape)
    (hd : d.length = shape.length) (hz : IsZero d) : target periodic shape x d = x := by
  have hx := mem_pixels.1 hx
  have e := inbox_length hx
  unfold target
  rw [move_zero (by omega) hz]
  split
  · exact wrap_of_inbox hx
  · rfl

theorem average_zero {shape : List Nat} {d : List Int} (hd : d.length = shape.length) (hz : IsZero d)
    (φ : List Int → List Int → K) :
    average (pairs periodic shape (fun _ _ => True) d) φ =
      ((pixels shape).map fun x => φ x x).sum / (shape.prod : K) := by
  rw [average_eq_div, total_pairs, length_pairs, ← pixels_length]
  have e1 : ∀ x ∈ pixels shape, (target periodic shape x d ∈ pixels shape ∧ True) := fun x hx =>
    ⟨by rw [target_zero hx hd hz]; exact hx, trivial⟩
  congr 1
  · refine congrArg List.sum (List.map_congr_left fun x hx => ?_)
    rw [if_pos (e1 x hx), target_zero hx hd hz]
  · rw [List.map_congr_left (g := fun _ => (1 : K)) fun x hx => if_pos (e1 x hx)]
    simp

/-- The value at displacement zero is the area fraction. -/
theorem C36_zero (L : Legal periodic f.shape roi) (hb : IsBinary f) (pow05 : K → K) (dbg : Bool) :
    ∃ r, Api.S2 pow05 dbg roi f f periodic = ok r ∧ r.shape = roi ∧
      ∀ i, InBox roi i → IsZero (displacement roi i) → val r i = meanOf f := by
  obtain ⟨r, h1, h2, h3⟩ := C34_unmasked L rfl pow05 dbg
  refine ⟨r, h1, h2, fun i hi hz => ?_⟩
  rw [h3 i hi, average_zero (by rw [displacement_length (inbox_length hi), L.same]) hz, meanOf]
  congr 2
  refine List.map_congr_left fun x hx => ?_
  rcases hb x hx with e | e <;> simp [e]

/-- S2 of binary images is between 0 and 1, whatever the masks. -/
theorem C36_range (L : Legal periodic f.shape roi) (hg : g.shape = f.shape)
    (hfm : fmask.shape = f.shape) (hgm : gmask.shape = f.shape) (bf : IsMask fmask) (bg : IsMask gmask)
    (hf : IsBinary f) (hg' : IsBinary g) (pow05 : K → K) (dbg : Bool) :
    ∃ r, Api.S2Mask pow05 dbg roi f g fmask gmask periodic = ok r ∧ r.shape = roi ∧
      ∀ i, InBox roi i → 0 ≤ val r i ∧ val r i ≤ 1 := by
  obtain ⟨r, h1, h2, h3⟩ := S2_value L hg hfm hgm bf bg pow05 dbg
  refine ⟨r, h1, h2, fun i hi => ?_⟩
  rw [h3 i hi]
  refine ⟨average_nonneg fun p hp => ?_, average_le_one fun p hp => ?_⟩
  all_goals
    obtain ⟨m1, m2, m3, -⟩ := mem_pairs.1 hp
    rcases hf _ m1 with e | e <;> rcases hg' _ (hg ▸ m3) with e' | e' <;> simp [e, e']

/-- A periodic S2 of any real image with itself is largest at displacement zero. -/
theorem C36_max (L : Legal true f.shape roi) (pow05 : K → K) (dbg : Bool) :
    ∃ r, Api.S2 pow05 dbg roi f f true = ok r ∧ r.shape = roi ∧
      ∀ i j, InBox roi i → InBox roi j → IsZero (displacement roi j) → val r i ≤ val r j := by
  obtain ⟨r, h1, h2, h3⟩ := C34_unmasked L rfl pow05 dbg
  refine ⟨r, h1, h2, fun i j hi hj hz => ?_⟩
  have hd : (displacement roi i).length = f.shape.length := by
    rw [displacement_length (inbox_length hi), L.same]
  rw [h3 i hi, h3 j hj, average_zero (by rw [displacement_length (inbox_length hj), L.same]) hz,
    average_periodic hd (fun _ _ => trivial)]
  refine div_le_div_of_nonneg_right ?_ (Nat.cast_nonneg _)
  have e1 := sum_shift hd fun x => val f x * val f x
  have e2 : ((pixels f.shape).map fun x => 2 * (val f x * val f (wrap f.shape (move x (displacement roi i))))).sum
      ≤ ((pixels f.shape).map fun x => val f x * val f x +
        val f (wrap f.shape (move x (displacement roi i))) *
          val f (wrap f.shape (move x (displacement roi i)))).sum := by
    refine List.sum_le_sum fun x _ => ?_
    have := mul_self_nonneg (val f x - val f (wrap f.shape (move x (displacement roi i))))
    linarith
  rw [List.sum_map_add, e1] at e2
  have e3 : ∀ l : List (List Int), (l.map fun x => 2 * (val f x *
      val f (wrap f.shape (move x (displacement roi i))))).sum =
      2 * (l.map fun x => val f x * val f (wrap f.shape (move x (displacement roi i)))).sum := by
    intro l
    induction l with
    | nil => simp
    | cons a l ih => rw [List.map_cons, List.sum_cons, ih, List.map_cons, List.sum_cons]; ring
  rw [e3] at e2
  linarith

/-- S2 of an image with itself is symmetric, periodic or not. -/
theorem C36_symmetric (L : Legal periodic f.shape roi) (pow05 : K → K) (dbg : Bool) :
    ∃ r, Api.S2 pow05 dbg roi f f periodic = ok r ∧ r.shape = roi ∧
      ∀ i j, InBox roi i → InBox roi j →
        displacement roi j = (displacement roi i).map (fun a => -a) → val r i = val r j := by
  obtain ⟨r, h1, h2, h3⟩ := C34_unmasked L rfl pow05 dbg
  refine ⟨r, h1, h2, fun i j hi hj hz => ?_⟩
  have hd : (displacement roi i).length = f.shape.length := by
    rw [displacement_length (inbox_length hi), L.same]
  rw [h3 i hi, h3 j hj, hz]
  have := average_swap (K := K) (periodic := periodic) hd (adm := fun _ _ => True)
    fun x y => val f x * val f y
  unfold neg at this
  rw [this]
  exact average_congr fun p _ => mul_comm _ _

/-- S2 of an image of ones is one wherever there is a pair of pixels. -/
theorem C36_ones (L : Legal periodic f.shape roi) (h1 : ∀ x ∈ pixels f.shape, val f x = 1)
    (pow05 : K → K) (dbg : Bool) :
    ∃ r, Api.S2 pow05 dbg roi f f periodic = ok r ∧ r.shape = roi ∧
      ∀ i, InBox roi i → (∃ x ∈ pixels f.shape,
        target periodic f.shape x (displacement roi i) ∈ pixels f.shape) → val r i = 1 := by
  obtain ⟨r, h1', h2, h3⟩ := C34_unmasked L rfl pow05 dbg
  refine ⟨r, h1', h2, fun i hi ⟨x, hx, ht⟩ => ?_⟩
  rw [h3 i hi, average_congr (ψ := fun _ _ => 1), average_eq_div, total_const, mul_one]
  · refine div_self ?_
    have hm : (x, target periodic f.shape x (displacement roi i)) ∈
        pairs periodic f.shape (fun _ _ => True) (displacement roi i) := mem_pairs.2 ⟨hx, rfl, ht, trivial⟩
    exact_mod_cast Nat.pos_iff_ne_zero.1 (List.length_pos_of_mem hm)
  · intro p hp
    obtain ⟨m1, m2, m3, -⟩ := mem_pairs.1 hp
    simp [h1 _ m1, h1 _ m3]

/-- A ROI of five pixels has an index of displacement zero and two opposite indices. -/
example : IsZero (displacement [5] [2]) ∧ InBox [5] [2] ∧
    displacement [5] [1] = (displacement [5] [3]).map (fun a => -a) := by
  refine ⟨?_, by simp [InBox], by decide⟩
  have : displacement [5] [2] = [0] := by decide
  rw [this]
  simp [IsZero]

/-! ### C37 -/

/-- `f'` is `f`, shifted periodically by `s`. -/
def Shifted (s : List Int) (f f' : Nd K) : Prop :=
  f'.shape = f.shape ∧ s.length = f.shape.length ∧
    ∀ x ∈ pixels f.shape, val f' (wrap f.shape (move x s)) = val f x

theorem average_shifted {s d : List Int} (h : Shifted s f f') (h' : Shifted s g g') (hg : g.shape = f.shape)
    (hd : d.length = f.shape.length) (φ : K → K → K) :
    average (pairs true f.shape (fun _ _ => True) d) (fun x y => φ (val f' x) (val g' y)) =
      average (pairs true f.shape (fun _ _ => True) d) (fun x y => φ (val f x) (val g y)) := by
  obtain ⟨e1, e2, e3⟩ := h
  obtain ⟨e1', e2', e3'⟩ := h'
  rw [average_periodic hd (fun _ _ => trivial), average_periodic hd (fun _ _ => trivial)]
  congr 1
  rw [← sum_shift e2 fun x => φ (val f' x) (val g' (wrap f.shape (move x d)))]
  congr 1
  refine List.map_congr_left fun x hx => ?_
  have hb := mem_pixels.1 hx
  have el := inbox_length hb
  rw [e3 x hx, shift_shift el e2 hd, move_comm (d := s), ← shift_shift el hd e2]
  have := e3' (wrap f.shape (move x d)) (by rw [hg]; exact mem_pixels.2 (shift_inbox hb hd))
  rw [hg] at this
  rw [this]

/-- S2 does not change if both images are shifted. -/
theorem C37_S2 {s : List Int} (L : Legal true f.shape roi) (hg : g.shape = f.shape)
    (hs : Shifted s f f') (hs' : Shifted s g g') (pow05 : K → K) (dbg : Bool) :
    ∃ r r', Api.S2 pow05 dbg roi f g true = ok r ∧ Api.S2 pow05 dbg roi f' g' true = ok r' ∧
      r.shape = roi ∧ r'.shape = roi ∧ ∀ i, InBox roi i → val r i = val r' i := by
  obtain ⟨r, h1, h2, h3⟩ := C34_unmasked L hg pow05 dbg
  obtain ⟨r', h1', h2', h3'⟩ := C34_unmasked (f := f') (g := g') (hs.1 ▸ L)
    (by rw [hs.1, hs'.1, hg]) pow05 dbg
  refine ⟨r, r', h1, h1', h2, h2', fun i hi => ?_⟩
  rw [h3 i hi, h3' i hi, hs.1]
  exact (average_shifted hs hs' hg (by rw [displacement_length (inbox_length hi), L.same])
    fun a b => a * b).symm

/-- What C2 computes without masks. -/
theorem C38_unmasked (L : Legal periodic f.shape roi) (hg : g.shape = f.shape) (pow05 : K → K) (dbg : Bool) :
    ∃ r, Api.C2 pow05 dbg roi f g periodic = ok r ∧ r.shape = roi ∧
      ∀ i, InBox roi i → val r i =
        average (pairs periodic f.shape (fun _ _ => True) (displacement roi i))
          fun x y => if val f x ≠ 0 ∧ val f x = val g y then 1 else 0 := by
  obtain ⟨r, h1, h2, h3⟩ := C2_value L hg (fmask := noMask f) (gmask := noMask f) rfl rfl
    (noMask_isMask f) (noMask_isMask f) pow05 dbg
  refine ⟨r, h1, h2, fun i hi => ?_⟩
  rw [h3 i hi]
  refine congrArg (fun l => average l _) (pairs_congr fun x _ _ => ?_)
  simp [val_noMask, seen_noMask]

/-- What heightheight computes without mask. -/
theorem C40_unmasked (L : Legal periodic f.shape roi) (pow05 : K → K) (dbg : Bool) :
    ∃ r, Api.heightheight pow05 dbg roi f periodic = ok r ∧ r.shape = roi ∧
      ∀ i, InBox roi i → val r i =
        pow05 (average (pairs periodic f.shape (fun _ _ => True) (displacement roi i))
          fun x y => (val f y - val f x) ^ 2) := by
  obtain ⟨r, h1, h2, h3⟩ := HH_value L (fmask := noMask f) rfl (noMask_isMask f) pow05 dbg
  refine ⟨r, h1, h2, fun i hi => ?_⟩
  rw [h3 i hi]
  refine congrArg (fun l => pow05 (average l _)) (pairs_congr fun x _ _ => ?_)
  simp [val_noMask, seen_noMask]

/-- What W2 computes without mask. -/
theorem C39_unmasked (L : Legal periodic f.shape roi) (hg : g.shape = f.shape) (pow05 : K → K) (dbg : Bool) :
    ∃ r, Api.W2 pow05 dbg roi f g periodic = ok r ∧ r.shape = roi ∧
      ∀ i, InBox roi i →
        let l := pairs periodic f.shape (fun _ _ => True) (displacement roi i)
        val r i = (total l fun x y => val f x * val g y) /
          (if total l (fun x _ => val f x) ≤ 0 then 1 else total l fun x _ => val f x) := by
  obtain ⟨r, h1, h2, h3⟩ := W2_value L hg (gmask := noMask f) rfl (noMask_isMask f) pow05 dbg
  refine ⟨r, h1, h2, fun i hi => ?_⟩
  rw [h3 i hi]
  refine congrArg (fun l => total l _ / norm1 (total l _)) (pairs_congr fun x _ _ => ?_)
  simp [seen_noMask]

/-- C2 does not change if both images are shifted. -/
theorem C37_C2 {s : List Int} (L : Legal true f.shape roi) (hg : g.shape = f.shape)
    (hs : Shifted s f f') (hs' : Shifted s g g') (pow05 : K → K) (dbg : Bool) :
    ∃ r r', Api.C2 pow05 dbg roi f g true = ok r ∧ Api.C2 pow05 dbg roi f' g' true = ok r' ∧
      r.shape = roi ∧ r'.shape = roi ∧ ∀ i, InBox roi i → val r i = val r' i := by
  obtain ⟨r, h1, h2, h3⟩ := C38_unmasked L hg pow05 dbg
  obtain ⟨r', h1', h2', h3'⟩ := C38_unmasked (f := f') (g := g') (hs.1 ▸ L)
    (by rw [hs.1, hs'.1, hg]) pow05 dbg
  refine ⟨r, r', h1, h1', h2, h2', fun i hi => ?_⟩
  rw [h3 i hi, h3' i hi, hs.1]
  exact (average_shifted hs hs' hg (by rw [displacement_length (inbox_length hi), L.same])
    fun a b => if a ≠ 0 ∧ a = b then 1 else 0).symm

/-- heightheight does not change if the image is shifted. -/
theorem C37_heightheight {s : List Int} (L : Legal true f.shape roi)
    (hs : Shifted s f f') (pow05 : K → K) (dbg : Bool) :
    ∃ r r', Api.heightheight pow05 dbg roi f true = ok r ∧
      Api.heightheight pow05 dbg roi f' true = ok r' ∧
      r.shape = roi ∧ r'.shape = roi ∧ ∀ i, InBox roi i → val r i = val r' i := by
  obtain ⟨r, h1, h2, h3⟩ := C40_unmasked L pow05 dbg
  obtain ⟨r', h1', h2', h3'⟩ := C40_unmasked (f := f') (hs.1 ▸ L) pow05 dbg
  refine ⟨r, r', h1, h1', h2, h2', fun i hi => ?_⟩
  rw [h3 i hi, h3' i hi, hs.1]
  exact congrArg pow05 (average_shifted hs hs rfl
    (by rw [displacement_length (inbox_length hi), L.same]) fun a b => (b - a) ^ 2).symm

/-- W2 does not change if the weights and the image are shifted. -/
theorem C37_W2 {s : List Int} (L : Legal true f.shape roi) (hg : g.shape = f.shape)
    (hs : Shifted s f f') (hs' : Shifted s g g') (pow05 : K → K) (dbg : Bool) :
    ∃ r r', Api.W2 pow05 dbg roi f g true = ok r ∧ Api.W2 pow05 dbg roi f' g' true = ok r' ∧
      r.shape = roi ∧ r'.shape = roi ∧ ∀ i, InBox roi i → val r i = val r' i := by
  obtain ⟨r, h1, h2, h3⟩ := C39_unmasked L hg pow05 dbg
  obtain ⟨r', h1', h2', h3'⟩ := C39_unmasked (f := f') (g := g') (hs.1 ▸ L)
    (by rw [hs.1, hs'.1, hg]) pow05 dbg
  refine ⟨r, r', h1, h1', h2, h2', fun i hi => ?_⟩
  have hd : (displacement roi i).length = f.shape.length := by
    rw [displacement_length (inbox_length hi), L.same]
  have key : ∀ φ : K → K → K,
      total (pairs true f.shape (fun _ _ => True) (displacement roi i)) (fun x y => φ (val f' x) (val g' y)) =
      total (pairs true f.shape (fun _ _ => True) (displacement roi i)) (fun x y => φ (val f x) (val g y)) := by
    intro φ
    have := average_shifted hs hs' hg hd φ
    rw [average_eq_div, average_eq_div] at this
    by_cases h : (pairs true f.shape (fun _ _ => True) (displacement roi i)).length = 0
    · rw [List.length_eq_zero_iff.1 h]
      rfl
    · have h' : ((pairs true f.shape (fun _ _ => True) (displacement roi i)).length : K) ≠ 0 := by
        exact_mod_cast h
      rwa [div_left_inj' h'] at this
  have k1 := key fun a b => a * b
  have k2 := key fun a _ => a
  rw [h3 i hi, h3' i hi, hs.1]
  simp only [k1, k2]

/-- A shifted image. -/
example : Shifted [1] (im [1, 2, 3]) (im [3, 1, 2]) := ⟨rfl, rfl, by decide +kernel⟩

/-! ### C38 -/

/-- What C2 computes, in all cases (compare `C34_code`). -/
theorem C38_code (L : Legal periodic f.shape roi) (hg : g.shape = f.shape)
    (hfm : fmask.shape = f.shape) (hgm : gmask.shape = f.shape) (bf : IsMask fmask) (bg : IsMask gmask)
    (pow05 : K → K) (dbg : Bool) :
    ∃ r, Api.C2Mask pow05 dbg roi f g fmask gmask periodic = ok r ∧ r.shape = roi ∧
      ∀ i, InBox roi i → let d := displacement roi i
        val r i = average (pairs periodic f.shape
          (fun x y => val fmask x = 0 ∧ Seen periodic gmask d x y) d)
          fun x y => if val f x ≠ 0 ∧ val f x = val g y then 1 else 0 :=
  C2_value L hg hfm hgm bf bg pow05 dbg

/-- C2 is the fraction of the unmasked pairs with equal nonzero values. Missing: periodic images with
masked pixels of `g`, for which this is false (`C38_violated`). -/
theorem C38_partial (L : Legal periodic f.shape roi) (hg : g.shape = f.shape)
    (hfm : fmask.shape = f.shape) (hgm : gmask.shape = f.shape) (bf : IsMask fmask) (bg : IsMask gmask)
    (h : periodic = false ∨ ∀ x ∈ pixels f.shape, val gmask x = 0) (pow05 : K → K) (dbg : Bool) :
    ∃ r, Api.C2Mask pow05 dbg roi f g fmask gmask periodic = ok r ∧ r.shape = roi ∧
      ∀ i, InBox roi i → val r i =
        average (pairs periodic f.shape (fun x y => val fmask x = 0 ∧ val gmask y = 0)
          (displacement roi i)) fun x y => if val f x ≠ 0 ∧ val f x = val g y then 1 else 0 := by
  obtain ⟨r, h1, h2, h3⟩ := C2_value L hg hfm hgm bf bg pow05 dbg
  refine ⟨r, h1, h2, fun i hi => ?_⟩
  rw [h3 i hi]
  refine congrArg (fun l => average l _) (pairs_congr fun x _ ht => ?_)
  rw [seen_iff h ht]

/-- Masked pixels reached through the boundary are counted. -/
theorem C38_violated : ∃ (f g : Nd ℚ) (fmask gmask : Nd Int) (roi : List Nat) (r : Nd ℚ) (i : List Int),
    Legal true f.shape roi ∧ IsMask fmask ∧ IsMask gmask ∧ g.shape = f.shape ∧ fmask.shape = f.shape ∧
    gmask.shape = f.shape ∧ InBox roi i ∧
    Api.C2Mask id true roi f g fmask gmask true = ok r ∧
    val r i ≠ average (pairs true f.shape (fun x y => val fmask x = 0 ∧ val gmask y = 0)
      (displacement roi i)) fun x y => if val f x ≠ 0 ∧ val f x = val g y then 1 else 0 := by
  have L : Legal true (im [1, 1]).shape [3] := ⟨by decide, by decide, rfl, fun _ => by simp [im, Nd.ofList]⟩
  have b1 : IsMask (mk [0, 0]) := mk_isMask (by decide)
  have b2 : IsMask (mk [1, 0]) := mk_isMask (by decide)
  have hi : InBox [3] [2] := by simp [InBox]
  obtain ⟨r, h1, h2, h3⟩ := C38_code (f := im [1, 1]) (g := im [5, 1]) L rfl rfl rfl b1 b2 id true
  refine ⟨im [1, 1], im [5, 1], mk [0, 0], mk [1, 0], [3], r, [2], L, b1, b2, rfl, rfl, rfl, hi, h1, ?_⟩
  rw [h3 [2] hi]
  decide +kernel

/-- For binary images C2 and S2 are equal, whatever the masks and the periodicity. -/
theorem C38_binary (L : Legal periodic f.shape roi) (hg : g.shape = f.shape)
    (hfm : fmask.shape = f.shape) (hgm : gmask.shape = f.shape) (bf : IsMask fmask) (bg : IsMask gmask)
    (hf : IsBinary f) (hg' : IsBinary g) (pow05 : K → K) (dbg : Bool) :
    ∃ r r', Api.C2Mask pow05 dbg roi f g fmask gmask periodic = ok r ∧
      Api.S2Mask pow05 dbg roi f g fmask gmask periodic = ok r' ∧ r.shape = roi ∧ r'.shape = roi ∧
      ∀ i, InBox roi i → val r i = val r' i := by
  obtain ⟨r, h1, h2, h3⟩ := C2_value L hg hfm hgm bf bg pow05 dbg
  obtain ⟨r', h1', h2', h3'⟩ := S2_value L hg hfm hgm bf bg pow05 dbg
  refine ⟨r, r', h1, h1', h2, h2', fun i hi => ?_⟩
  rw [h3 i hi, h3' i hi]
  refine average_congr fun p hp => ?_
  obtain ⟨m1, m2, m3, -⟩ := mem_pairs.1 hp
  rcases hf _ m1 with e | e <;> rcases hg' _ (hg ▸ m3) with e' | e' <;> simp [e, e']

/-- A binary image. -/
example : IsBinary (im [1, 0, 1]) := by unfold IsBinary; decide +kernel

end Verif.Props
