import Verif.Props.Weighted
import Verif.Props.RawData

/-! # Correlations at a displacement for different regions of interest (C138) -/

set_option linter.unusedSectionVars false

namespace Verif.Props

open Verif Outcome Spec Ens

variable {K : Type} [Field K] [LinearOrder K] [IsStrictOrderedRing K]
variable {roi roi' : List Nat} {periodic : Bool} {f g w : Nd K} {fmask gmask : Nd Int}

/-- Both calls return, arrays of the shapes of the regions of interest, with the same values wherever their displacements
are the same. -/
def Spec.SameAtDisplacements (roi roi' : List Nat) (a b : Outcome (Nd K)) : Prop :=
  ∃ r r', a = ok r ∧ b = ok r' ∧ r.shape = roi ∧ r'.shape = roi' ∧
    ∀ i i', InBox roi i → InBox roi' i' → displacement roi i = displacement roi' i' → val r i = val r' i'

/-- **C138**: S2 at a displacement does not depend on the region of interest, whatever the masks and the periodicity. -/
theorem C138_S2 (L : Legal periodic f.shape roi) (L' : Legal periodic f.shape roi') (hg : g.shape = f.shape)
    (hfm : fmask.shape = f.shape) (hgm : gmask.shape = f.shape) (bf : IsMask fmask) (bg : IsMask gmask)
    (pow05 : K → K) (dbg : Bool) :
    Spec.SameAtDisplacements roi roi' (Api.S2Mask pow05 dbg roi f g fmask gmask periodic)
        (Api.S2Mask pow05 dbg roi' f g fmask gmask periodic) ∧
      Spec.SameAtDisplacements roi roi' (Api.S2 pow05 dbg roi f g periodic) (Api.S2 pow05 dbg roi' f g periodic) := by
  constructor
  · obtain ⟨r, h1, h2, h3⟩ := C34_code L hg hfm hgm bf bg pow05 dbg
    obtain ⟨r', h1', h2', h3'⟩ := C34_code L' hg hfm hgm bf bg pow05 dbg
    refine ⟨r, r', h1, h1', h2, h2', fun i i' hi hi' e => ?_⟩
    rw [h3 i hi, h3' i' hi', e]
  · obtain ⟨r, h1, h2, h3⟩ := C34_unmasked L hg pow05 dbg
    obtain ⟨r', h1', h2', h3'⟩ := C34_unmasked L' hg pow05 dbg
    refine ⟨r, r', h1, h1', h2, h2', fun i i' hi hi' e => ?_⟩
    rw [h3 i hi, h3' i' hi', e]

/-- **C138**: nor does C2. -/
theorem C138_C2 (L : Legal periodic f.shape roi) (L' : Legal periodic f.shape roi') (hg : g.shape = f.shape)
    (hfm : fmask.shape = f.shape) (hgm : gmask.shape = f.shape) (bf : IsMask fmask) (bg : IsMask gmask)
    (pow05 : K → K) (dbg : Bool) :
    Spec.SameAtDisplacements roi roi' (Api.C2Mask pow05 dbg roi f g fmask gmask periodic)
        (Api.C2Mask pow05 dbg roi' f g fmask gmask periodic) ∧
      Spec.SameAtDisplacements roi roi' (Api.C2 pow05 dbg roi f g periodic) (Api.C2 pow05 dbg roi' f g periodic) := by
  constructor
  · obtain ⟨r, h1, h2, h3⟩ := C38_code L hg hfm hgm bf bg pow05 dbg
    obtain ⟨r', h1', h2', h3'⟩ := C38_code L' hg hfm hgm bf bg pow05 dbg
    refine ⟨r, r', h1, h1', h2, h2', fun i i' hi hi' e => ?_⟩
    rw [h3 i hi, h3' i' hi', e]
  · obtain ⟨r, h1, h2, h3⟩ := C38_unmasked L hg pow05 dbg
    obtain ⟨r', h1', h2', h3'⟩ := C38_unmasked L' hg pow05 dbg
    refine ⟨r, r', h1, h1', h2, h2', fun i i' hi hi' e => ?_⟩
    rw [h3 i hi, h3' i' hi', e]

/-- **C138**: nor does W2. -/
theorem C138_W2 (L : Legal periodic w.shape roi) (L' : Legal periodic w.shape roi') (hf : f.shape = w.shape)
    (hfm : fmask.shape = w.shape) (bf : IsMask fmask) (pow05 : K → K) (dbg : Bool) :
    Spec.SameAtDisplacements roi roi' (Api.W2Mask pow05 dbg roi w f fmask periodic)
        (Api.W2Mask pow05 dbg roi' w f fmask periodic) ∧
      Spec.SameAtDisplacements roi roi' (Api.W2 pow05 dbg roi w f periodic) (Api.W2 pow05 dbg roi' w f periodic) := by
  constructor
  · obtain ⟨r, h1, h2, h3⟩ := C39_code L hf hfm bf pow05 dbg
    obtain ⟨r', h1', h2', h3'⟩ := C39_code L' hf hfm bf pow05 dbg
    refine ⟨r, r', h1, h1', h2, h2', fun i i' hi hi' e => ?_⟩
    rw [h3 i hi, h3' i' hi', e]
  · obtain ⟨r, h1, h2, h3⟩ := C39_unmasked L hf pow05 dbg
    obtain ⟨r', h1', h2', h3'⟩ := C39_unmasked L' hf pow05 dbg
    refine ⟨r, r', h1, h1', h2, h2', fun i i' hi hi' e => ?_⟩
    rw [h3 i hi, h3' i' hi', e]

/-- **C138**: nor does the height-height correlation. -/
theorem C138_heightheight (L : Legal periodic f.shape roi) (L' : Legal periodic f.shape roi')
    (hfm : fmask.shape = f.shape) (bf : IsMask fmask) (pow05 : K → K) (dbg : Bool) :
    Spec.SameAtDisplacements roi roi' (Api.heightheightMask pow05 dbg roi f fmask periodic)
        (Api.heightheightMask pow05 dbg roi' f fmask periodic) ∧
      Spec.SameAtDisplacements roi roi' (Api.heightheight pow05 dbg roi f periodic)
        (Api.heightheight pow05 dbg roi' f periodic) := by
  constructor
  · obtain ⟨r, h1, h2, h3⟩ := HH_value L hfm bf pow05 dbg
    obtain ⟨r', h1', h2', h3'⟩ := HH_value L' hfm bf pow05 dbg
    refine ⟨r, r', h1, h1', h2, h2', fun i i' hi hi' e => ?_⟩
    rw [h3 i hi, h3' i' hi', e]
  · obtain ⟨r, h1, h2, h3⟩ := C40_unmasked L pow05 dbg
    obtain ⟨r', h1', h2', h3'⟩ := C40_unmasked L' pow05 dbg
    refine ⟨r, r', h1, h1', h2, h2', fun i i' hi hi' e => ?_⟩
    rw [h3 i hi, h3' i' hi', e]

/-- **C138**: nor do the data, the norm and the result of an ensemble, after any calls of S2, of C2, of W2 or of
heightheight. -/
theorem C138_history (hr : roi.length ≤ 3) (h0 : 0 ∉ roi) (hr' : roi'.length ≤ 3) (h0' : 0 ∉ roi') {st : Stat}
    (hst : st = .S2 ∨ st = .C2 ∨ st = .W2 ∨ st = .heightheight) {l : List (Realisation K)} (hne : l ≠ []) {fuel : Nat}
    (hl : ∀ r ∈ l, r.Legal fuel periodic roi ∧ r.stat = st) (hl' : ∀ r ∈ l, r.Legal fuel periodic roi')
    (junk : ℚ) (variance : Bool) (pow05 : K → K) (dbg : Bool) :
    (∃ E E', history dbg junk fuel roi periodic variance l = ok E ∧ history dbg junk fuel roi' periodic variance l = ok E' ∧
      ∀ i i', InBox roi i → InBox roi' i' → displacement roi i = displacement roi' i' →
        val (dataFirst E) i = val (dataFirst E') i' ∧ val (dataSecond E) i = val (dataSecond E') i' ∧
          val (dataNorm E) i = val (dataNorm E') i') ∧
    Spec.SameAtDisplacements roi roi'
      (do
        let E ← history dbg junk fuel roi periodic variance l
        result pow05 E)
      (do
        let E ← history dbg junk fuel roi' periodic variance l
        result pow05 E) := by
  have choice : ∀ roi : List Nat, roi.length ≤ 3 → ∃ paths : Path.Mode → List (List (List Int)),
      ∀ mode, Enough fuel roi mode → ArePaths junk fuel mode roi (paths mode) := by
    intro roi hr
    have hpaths : ∀ mode, ∃ paths, Enough fuel roi mode → ArePaths junk fuel mode roi paths := by
      intro mode
      by_cases h : Enough fuel roi mode
      · obtain ⟨P, hP⟩ := choose_paths junk hr h
        exact ⟨_, fun _ => (paths_unique hr hP).2 rfl⟩
      · exact ⟨[], fun h' => absurd h' h⟩
    choose paths hpaths using hpaths
    exact ⟨paths, hpaths⟩
  obtain ⟨paths, hp⟩ := choice roi hr
  obtain ⟨paths', hp'⟩ := choice roi' hr'
  have same : ∀ r ∈ l, ∀ d, r.sums paths periodic variance d = r.sums paths' periodic variance d := by
    intro r hm d
    have e := (hl r hm).2
    cases r <;> first | rfl | (exfalso; subst e; simp [Realisation.stat] at hst)
  have hl'' : ∀ r ∈ l, r.Legal fuel periodic roi' ∧ r.stat = st := fun r hm => ⟨hl' r hm, (hl r hm).2⟩
  constructor
  · obtain ⟨E, e, -, -, -, k⟩ := C84_data (K := K) (variance := variance) hr h0 hl hp dbg
    obtain ⟨E', e', -, -, -, k'⟩ := C84_data (K := K) (variance := variance) hr' h0' hl'' hp' dbg
    refine ⟨E, E', e, e', fun i i' hi hi' q => ?_⟩
    have a := k i hi
    have b := k' i' hi'
    rw [List.map_congr_left fun r hm => same r hm _, q, ← b] at a
    simpa only [Prod.mk.injEq] using a
  · obtain ⟨a, e1, e2, k⟩ := C84_result (K := K) (variance := variance) hr h0 hne hl hp pow05 dbg
    obtain ⟨a', e1', e2', k'⟩ := C84_result (K := K) (variance := variance) hr' h0' hne hl'' hp' pow05 dbg
    refine ⟨a, a', e1, e1', e2, e2', fun i i' hi hi' q => ?_⟩
    have s1 : (l.map fun r => (r.sums paths periodic variance (displacement roi i)).1) =
        l.map fun r => (r.sums paths' periodic variance (displacement roi' i')).1 :=
      List.map_congr_left fun r hm => by rw [same r hm, q]
    have s2 : (l.map fun r => (r.sums paths periodic variance (displacement roi i)).2.2) =
        l.map fun r => (r.sums paths' periodic variance (displacement roi' i')).2.2 :=
      List.map_congr_left fun r hm => by rw [same r hm, q]
    rw [k i hi, k' i' hi']
    simp only [s1, s2]

/-- Two regions of interest for a periodic image of 4 x 5 pixels, and two of their pixels at the same displacement. -/
example : Legal true [4, 5] [3, 4] ∧ Legal true [4, 5] [1, 5] ∧ InBox [3, 4] [1, 3] ∧ InBox [1, 5] [0, 4] ∧
    displacement [3, 4] [1, 3] = [0, 2] ∧ displacement [1, 5] [0, 4] = [0, 2] := by
  refine ⟨⟨by decide, by decide, rfl, by unfold Fits; decide⟩, ⟨by decide, by decide, rfl, by unfold Fits; decide⟩,
    by simp [InBox], by simp [InBox], by decide, by decide⟩

/-- Two images of different shapes, the second with masks, legal for regions of interest of three and of one pixel. -/
example : ∃ l : List (Realisation ℚ), 1 < l.length ∧ (∀ r ∈ l, r.Legal 10 true [3] ∧ r.stat = .S2) ∧
    ∀ r ∈ l, r.Legal 10 true [1] := by
  refine ⟨[.S2 (im [1, 0, 1]) (im [0, 1, 1]) none, .S2 (im [1, 1]) (im [0, 1]) (some (mk [0, 1], mk [0, 0]))],
    by decide, ?_, ?_⟩ <;> intro r hr <;> simp only [List.mem_cons, List.not_mem_nil, or_false] at hr
  · rcases hr with rfl | rfl
    · exact ⟨⟨⟨by decide, by decide, rfl, fun _ => by decide⟩, rfl, by simp⟩, rfl⟩
    · refine ⟨⟨⟨by decide, by decide, rfl, fun _ => by decide⟩, rfl, ?_⟩, rfl⟩
      rintro m' ⟨⟩
      exact ⟨⟨rfl, mk_isMask (by decide)⟩, rfl, mk_isMask (by decide)⟩
  · rcases hr with rfl | rfl
    · exact ⟨⟨by decide, by decide, rfl, fun _ => by decide⟩, rfl, by simp⟩
    · refine ⟨⟨by decide, by decide, rfl, fun _ => by decide⟩, rfl, ?_⟩
      rintro m' ⟨⟩
      exact ⟨⟨rfl, mk_isMask (by decide)⟩, rfl, mk_isMask (by decide)⟩

/-- Not so for W2c, which stores nothing at the edge of the region of interest (`C47_code`): at displacement one it depends
on the region of interest. -/
example :
    ((Api.W2c id true (0 : ℚ) 0 [3] (mk [0, 0, 0, 1, 0, 0, 0]) (mk [0, 0, 0, 1, 0, 0, 0]) (im [1, 2, 4, 8, 16, 32, 64])
      .bresenham false).map fun r => val r [2]) = ok 0 ∧
    ((Api.W2c id true (0 : ℚ) 0 [5] (mk [0, 0, 0, 1, 0, 0, 0]) (mk [0, 0, 0, 1, 0, 0, 0]) (im [1, 2, 4, 8, 16, 32, 64])
      .bresenham false).map fun r => val r [3]) = ok 32 := by
  refine ⟨by decide +kernel, by decide +kernel⟩

end Verif.Props
