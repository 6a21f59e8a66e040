import Verif.Props.Repeated
import Verif.Props.PathSymmetry

/-! # W2c of a repeated periodic image (C83) -/

set_option linter.unusedSectionVars false

namespace Verif.Props

open Verif Outcome Spec Ens

variable {K : Type} [Field K] [LinearOrder K] [IsStrictOrderedRing K]
variable {roi copies s s' : List Nat} {f f' : Nd K} {fmask fmask' clusters clusters' centers centers' : Nd Int}

/-- `a'`, of shape `s'`, consists of copies of `a`, of shape `s`. -/
def Spec.Repeats {α : Type} (s s' : List Nat) (a a' : Nd α) : Prop :=
  a.shape = s ∧ a'.shape = s' ∧ ∀ y, InBox s' y → val a' y = val a (wrap s y)

private theorem valueAt_repeated {α : Type} [Zero α] {a a' : Nd α} (h : Spec.CopiesOf copies s s')
    (ha : Spec.Repeats s s' a a') {y e : List Int} (hy : InBox s' y) (he : e.length = s.length) :
    valueAt true a' y e = valueAt true a (wrap s y) e := by
  have hl := copies_length h
  unfold valueAt
  have ht : InBox s' (target true s' y e) := by
    simp only [target, if_true]
    exact shift_inbox hy (by omega)
  rw [ha.1, ha.2.1, if_pos (mem_pixels.2 ht), if_pos (target_mem (down_inbox h hy) he), ha.2.2 _ ht, down_target h hy he]

private theorem sum_filter_ite {α M : Type*} [AddCommMonoid M] (l : List α) (q : α → Prop) [DecidablePred q] (g : α → M) :
    ((l.filter fun x => q x).map g).sum = (l.map fun x => if q x then g x else 0).sum := by
  induction l with
  | nil => rfl
  | cons a l ih => by_cases h : q a <;> simp [h, ih]

private theorem samples_repeated {M : Type*} [AddCommMonoid M] (φ : K → M) (h : Spec.CopiesOf copies s s')
    (hf : Spec.Repeats s s' f f') (hfm : Spec.Repeats s s' fmask fmask')
    (hcl : Spec.Repeats s s' clusters clusters') (hce : Spec.Repeats s s' centers centers')
    {paths : List (List (List Int))} (hp : ∀ p ∈ paths, ∀ e ∈ p, e.length = s.length) (d : List Int) :
    ((samples true f' fmask' clusters' centers' (fun _ p => p.tail) paths d).map φ).sum =
      copies.prod • ((samples true f fmask clusters centers (fun _ p => p.tail) paths d).map φ).sum := by
  unfold samples
  rw [sum_flatMap, sum_flatMap, ← sum_smul']
  congr 1
  refine List.map_congr_left fun p hpp => ?_
  rw [sum_flatMap, sum_flatMap, sum_filter_ite, sum_filter_ite, ← sum_tiled (by rw [hf.1]; exact h.1), hf.1, hf.2.1, ← h.2.2]
  congr 1
  refine List.map_congr_left fun y hy => ?_
  have hy := mem_pixels.1 hy
  have ec : IsCentre clusters' centers' y ↔ IsCentre clusters centers (wrap s y) := by
    unfold IsCentre
    rw [hcl.2.2 y hy, hce.2.2 y hy]
  have el : ∀ ab ∈ p.zip p.tail, ab.2.length = s.length := by
    rintro ⟨a, b⟩ hab
    exact hp p hpp b (List.mem_of_mem_tail (List.of_mem_zip hab).2)
  have e1 : ((p.zip p.tail).filter fun ab => ab.1 = d ∧ valueAt true fmask' y ab.2 = 0) =
      (p.zip p.tail).filter fun ab => ab.1 = d ∧ valueAt true fmask (wrap s y) ab.2 = 0 := by
    refine List.filter_congr fun ab hab => ?_
    rw [valueAt_repeated h hfm hy (el ab hab)]
  rw [e1]
  by_cases hc : IsCentre clusters centers (wrap s y)
  · rw [if_pos hc, if_pos (ec.2 hc), List.map_map, List.map_map]
    congr 1
    refine List.map_congr_left fun ab hab => ?_
    simp only [Function.comp]
    rw [valueAt_repeated h hf hy (el ab (List.mem_of_mem_filter hab))]
  · rw [if_neg hc, if_neg fun q => hc (ec.1 q)]

/-- W2c of copies of periodic clusters, centres, an image and its mask is W2c of the originals. -/
theorem C83_W2c (L : Legal true s roi) (L' : Legal true s' roi) (h3 : FlatOrEqual roi) (h : Spec.CopiesOf copies s s')
    (hf : Spec.Repeats s s' f f') (hfm : Spec.Repeats s s' fmask fmask')
    (hcl : Spec.Repeats s s' clusters clusters') (hce : Spec.Repeats s s' centers centers')
    (bf : IsMask fmask) (bf' : IsMask fmask') (junk : ℚ) {fuel : Nat} {mode : Path.Mode} (hm : Enough fuel roi mode)
    (pow05 : K → K) (dbg : Bool) :
    ∃ r r', Api.W2cMask pow05 dbg junk fuel roi clusters centers f fmask mode true = ok r ∧
      Api.W2cMask pow05 dbg junk fuel roi clusters' centers' f' fmask' mode true = ok r' ∧
      r.shape = roi ∧ r'.shape = roi ∧ ∀ i, InBox roi i → val r' i = val r i := by
  obtain ⟨P, hP⟩ := choose_paths junk L.rank hm
  have hp := (paths_unique L.rank hP).2 rfl
  obtain ⟨r, h1, h2, k⟩ := C47_code (f := f) (hf.1.symm ▸ L) h3 (hfm.1.trans hf.1.symm) (hcl.1.trans hf.1.symm)
    (hce.1.trans hf.1.symm) bf hm hp pow05 dbg
  obtain ⟨r', h1', h2', k'⟩ := C47_code (f := f') (hf.2.1.symm ▸ L') h3 (hfm.2.1.trans hf.2.1.symm)
    (hcl.2.1.trans hf.2.1.symm) (hce.2.1.trans hf.2.1.symm) bf' hm hp pow05 dbg
  refine ⟨r, r', h1, h1', h2, h2', fun i hi => ?_⟩
  have hlen : ∀ p ∈ (edge roi).map P, ∀ e ∈ p, e.length = s.length := by
    intro p h e he
    obtain ⟨x, hx, rfl⟩ := List.mem_map.1 h
    rw [((hP x hx).mem e he).1, L.same]
  have e1 := samples_repeated (fun x : K => x) h hf hfm hcl hce hlen (displacement roi i)
  have e2 := samples_repeated (fun _ : K => 1) h hf hfm hcl hce hlen (displacement roi i)
  have hc := List.prod_ne_zero h.2.1
  rw [k i hi, k' i hi]
  generalize samples true f' fmask' clusters' centers' (fun _ p => p.tail) ((edge roi).map P) (displacement roi i) = l' at *
  generalize samples true f fmask clusters centers (fun _ p => p.tail) ((edge roi).map P) (displacement roi i) = l at *
  simp only [List.map_id', List.map_const', List.sum_replicate, smul_eq_mul, mul_one, nsmul_eq_mul] at e1 e2
  unfold averageOf
  have hK : (copies.prod : K) ≠ 0 := by exact_mod_cast hc
  have e2' : l'.length = copies.prod * l.length := by exact_mod_cast e2
  rw [e1, e2']
  by_cases h0 : l.length = 0
  · simp [h0]
  · rw [if_neg h0, if_neg (Nat.mul_ne_zero hc h0), Nat.cast_mul, mul_div_mul_left _ _ hK]

/-- Two copies of an image of five pixels, with a cluster of two pixels. -/
example : Legal true [5] [3] ∧ Legal true [10] [3] ∧ FlatOrEqual [3] ∧ Spec.CopiesOf [2] [5] [10] ∧
    Spec.Repeats [5] [10] (im [1, 2, 4, 8, 16]) (im [1, 2, 4, 8, 16, 1, 2, 4, 8, 16]) ∧
    Spec.Repeats [5] [10] (mk [1, 1, 0, 0, 0]) (mk [1, 1, 0, 0, 0, 1, 1, 0, 0, 0]) ∧
    Spec.Repeats [5] [10] (mk [1, 0, 0, 0, 0]) (mk [1, 0, 0, 0, 0, 1, 0, 0, 0, 0]) ∧
    Spec.Repeats [5] [10] (mk [0, 1, 0, 0, 0]) (mk [0, 1, 0, 0, 0, 0, 1, 0, 0, 0]) ∧
    IsMask (mk [0, 1, 0, 0, 0]) ∧ IsMask (mk [0, 1, 0, 0, 0, 0, 1, 0, 0, 0]) ∧ Enough 0 [3] .bresenham ∧
    ((Api.W2cMask id true (0 : ℚ) 0 [3] (mk [1, 1, 0, 0, 0]) (mk [1, 0, 0, 0, 0]) (im [1, 2, 4, 8, 16])
      (mk [0, 1, 0, 0, 0]) .bresenham true).map fun r => val r [1]) = ok 16 := by
  refine ⟨⟨by decide, by decide, rfl, by unfold Fits; decide⟩, ⟨by decide, by decide, rfl, by unfold Fits; decide⟩,
    (fun h => by cases h), by unfold Spec.CopiesOf; decide, ⟨rfl, rfl, ?_⟩, ⟨rfl, rfl, ?_⟩, ⟨rfl, rfl, ?_⟩, ⟨rfl, rfl, ?_⟩,
    mk_isMask (by decide), mk_isMask (by decide), fun h => absurd rfl h, by decide +kernel⟩
  · have : ∀ y ∈ pixels [10], val (im [1, 2, 4, 8, 16, 1, 2, 4, 8, 16]) y = val (im [1, 2, 4, 8, 16]) (wrap [5] y) := by
      decide +kernel
    exact fun y hy => this y (mem_pixels.2 hy)
  all_goals
    refine fun y hy => ?_
    have hy := mem_pixels.2 hy
    have e : pixels [10] = [[0], [1], [2], [3], [4], [5], [6], [7], [8], [9]] := by decide
    rw [e] at hy
    simp only [List.mem_cons, List.not_mem_nil, or_false] at hy
    rcases hy with rfl | rfl | rfl | rfl | rfl | rfl | rfl | rfl | rfl | rfl <;> decide

end Verif.Props
