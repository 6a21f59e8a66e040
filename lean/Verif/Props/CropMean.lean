import Verif.Props.DilatePadding
import Verif.Props.Moments

/-! # Mean and variance of images with a border of masked pixels (C131) -/

namespace Verif.Props

open Verif Outcome Spec Ens

variable {K : Type} [Field K] [LinearOrder K] [IsStrictOrderedRing K]

namespace Spec

/-- The large image holds the small one, with its mask, somewhere, and masked pixels around it. -/
def Cropped (small large : Nd K × Option (Nd Int)) : Prop :=
  ∃ b mask, Room false small.1.shape large.1.shape b ∧ Holds b small.1 large.1 ∧ large.2 = some mask ∧
    Hides b small.1.shape mask ∧
    match small.2 with
    | none => ∀ x ∈ pixels small.1.shape, val mask (move x b) = 0
    | some m => ∀ x ∈ pixels small.1.shape, val mask (move x b) = val m x

end Spec

open Spec

theorem cropped_values {a a' : Nd K × Option (Nd Int)} (hl' : LegalImage a') (h : Spec.Cropped a a') :
    unmaskedValues a'.1 a'.2 = unmaskedValues a.1 a.2 := by
  obtain ⟨f, m⟩ := a
  obtain ⟨f', m'⟩ := a'
  obtain ⟨b, mask, hr, hv, e, hm, hi⟩ := h
  simp only at hr hv e hm hi
  subst e
  have hs : mask.shape = f'.shape := (hl' mask rfl).1
  have key : ∀ P : List Int → Bool, (∀ x ∈ pixels f.shape, decide (val mask (move x b) = 0) = P x) →
      unmaskedValues f' (some mask) = ((pixels f.shape).filter P).map (val f) := by
    intro P hP
    show ((pixels f'.shape).filter fun x => decide (val mask x = 0)).map (val f') = _
    rw [filter_embed hr hP (fun y hy h => hm y (by rw [hs]; exact hy) (by simpa using h)), List.map_map]
    exact List.map_congr_left fun x hx => hv x (List.mem_filter.1 hx).1
  cases m with
  | none =>
    simp only at hi
    rw [key (fun _ => true) (fun x hx => by simpa using hi x hx)]
    simp [unmaskedValues]
  | some m =>
    simp only at hi
    rw [key (fun x => decide (val m x = 0)) (fun x hx => by rw [hi x hx])]
    rfl

/-- C131 for `mean`: the mean and the variance of images with borders of masked pixels are those of the images without
them. -/
theorem C131_mean {roi : List Nat} (hr : roi.length ≤ 3) (h1 : ∀ n ∈ roi, n = 1)
    {small large : List (Nd K × Option (Nd Int))} (hne : small ≠ []) (hl : ∀ a ∈ small, LegalImage a)
    (hl' : ∀ a ∈ large, LegalImage a) (hc : List.Forall₂ Spec.Cropped small large)
    (periodic variance dbg : Bool) (pow05 : K → K) :
    ∃ E E' r r' v v', (do
        let E ← make K dbg roi periodic variance
        forM small E (addMean dbg)) = ok E ∧
      (do
        let E ← make K dbg roi periodic variance
        forM large E (addMean dbg)) = ok E' ∧
      result pow05 E = ok r ∧ result pow05 E' = ok r' ∧ varianceResult pow05 E = ok v ∧ varianceResult pow05 E' = ok v' ∧
      r.shape = roi ∧ r'.shape = roi ∧ v.shape = roi ∧ v'.shape = roi ∧
      ∀ i, InBox roi i → val r' i = val r i ∧ val v' i = val v i := by
  have hne' : large ≠ [] := by
    rintro rfl
    cases hc
    exact hne rfl
  have hd : (large.flatMap fun a => unmaskedValues a.1 a.2) = small.flatMap fun a => unmaskedValues a.1 a.2 := by
    clear hne hne' hl
    induction hc with
    | nil => rfl
    | cons h _ ih =>
      rw [List.flatMap_cons, List.flatMap_cons, cropped_values (hl' _ (List.mem_cons_self ..)) h,
        ih fun a ha => hl' a (List.mem_cons_of_mem _ ha)]
  obtain ⟨E, e1, hg, hs, e2⟩ := mean_moments (K := K) hr h1 hne hl periodic variance dbg
  obtain ⟨E', e1', hg', hs', e2'⟩ := mean_moments (K := K) hr h1 hne' hl' periodic variance dbg
  refine ⟨E, E', ⟨roi, fun k => E.first.get k / norm1 (E.norm.get k)⟩, ⟨roi, fun k => E'.first.get k / norm1 (E'.norm.get k)⟩,
    ⟨roi, fun k => varianceOf (E.first.get k) (E.second.get k) (E.norm.get k)⟩,
    ⟨roi, fun k => varianceOf (E'.first.get k) (E'.second.get k) (E'.norm.get k)⟩, e1, e1', ?_, ?_, ?_, ?_, rfl, rfl, rfl, rfl,
    fun i hi => ?_⟩
  · simp [result, hs, hg.first, hg.norm, hg.shapeOrig, Nd.map₂, Nd.reshape]
  · simp [result, hs', hg'.first, hg'.norm, hg'.shapeOrig, Nd.map₂, Nd.reshape]
  · simp [varianceResult, hs, hg.first, hg.second, hg.norm, hg.shapeOrig, Nd.map₂, Nd.reshape]
  · simp [varianceResult, hs', hg'.first, hg'.second, hg'.norm, hg'.shapeOrig, Nd.map₂, Nd.reshape]
  obtain ⟨a1, a2, a3⟩ := e2 i hi
  obtain ⟨b1, b2, b3⟩ := e2' i hi
  rw [hd] at b1 b2 b3
  constructor
  · show E'.first.get (flat roi i).toNat / norm1 (E'.norm.get (flat roi i).toNat) =
      E.first.get (flat roi i).toNat / norm1 (E.norm.get (flat roi i).toNat)
    rw [a1, a3, b1, b3]
  · show varianceOf (E'.first.get (flat roi i).toNat) (E'.second.get (flat roi i).toNat) (E'.norm.get (flat roi i).toNat) =
      varianceOf (E.first.get (flat roi i).toNat) (E.second.get (flat roi i).toNat) (E.norm.get (flat roi i).toNat)
    rw [a1, a2, a3, b1, b2, b3]

/-- Two pixels, and the same with a masked one on both sides; with and without masks of their own. -/
example : List.Forall₂ Spec.Cropped [(im [1, 2], none), (im [3, 4], some (mk [0, 1]))]
    [(im [7, 1, 2, 9], some (mk [1, 0, 0, 1])), (im [3, 4, 8], some (mk [0, 1, 1]))] := by
  refine .cons ⟨[1], mk [1, 0, 0, 1], ?_, ?_, rfl, ?_, ?_⟩ (.cons ⟨[0], mk [0, 1, 1], ?_, ?_, rfl, ?_, ?_⟩ .nil)
  · show Room false [2] [4] [1]
    simp [Room]
  · unfold Holds; decide +kernel
  · unfold Hides; decide +kernel
  · decide +kernel
  · show Room false [2] [3] [0]
    simp [Room]
  · unfold Holds; decide +kernel
  · unfold Hides; decide +kernel
  · decide +kernel

end Verif.Props
