import Verif.Props.CollapsedStored
import Verif.Props.Algebra

/-!
# Algebra of the collapsed weighted correlation (C118)

For every region of interest, with the results that are undefined (`C48_outside`) included.
-/

set_option linter.unusedSectionVars false

namespace Verif.Props

open Verif Outcome Spec Ens

variable {K : Type} [Field K] [LinearOrder K] [IsStrictOrderedRing K]
variable {roi : List Nat} {periodic : Bool} {f g h : Nd K} {fmask clusters centers clusters' centers' : Nd Int}

/-- Two results are the same: both are undefined, or both are arrays of shape `roi` with the same elements. -/
def SameOutcome (roi : List Nat) (o o' : Outcome (Nd K)) : Prop :=
  (o = ub ∧ o' = ub) ∨
    ∃ r r', o = ok r ∧ o' = ok r' ∧ r.shape = roi ∧ r'.shape = roi ∧ ∀ i, InBox roi i → val r i = val r' i

/-- The pixels, as centre and displacement, of which the values are stored `here`. -/
def places (periodic : Bool) (shape : List Nat) (fmask clusters centers : Nd Int)
    (paths : List (List (List Int))) (here : List Int → Prop) [DecidablePred here] : List (List Int × List Int) :=
  paths.flatMap fun p =>
    ((pixels shape).filter fun x => IsCentre clusters centers x).flatMap fun x =>
      ((p.zip p.tail).filter fun ab => here ab.1 ∧ valueAt periodic fmask x ab.2 = 0).map fun ab => (x, ab.2)

theorem samplesWhere_eq (paths : List (List (List Int))) (here : List Int → Prop) [DecidablePred here] :
    samplesWhere periodic f fmask clusters centers paths here =
      (places periodic f.shape fmask clusters centers paths here).map fun q => valueAt periodic f q.1 q.2 := by
  unfold samplesWhere places
  rw [List.map_flatMap]
  simp only [List.map_flatMap, List.map_map, Function.comp_def]

theorem mem_places {shape : List Nat} {paths : List (List (List Int))} {here : List Int → Prop} [DecidablePred here]
    {q : List Int × List Int} (hq : q ∈ places periodic shape fmask clusters centers paths here) :
    q.1 ∈ pixels shape ∧ valueAt periodic fmask q.1 q.2 = 0 ∧ ∃ p ∈ paths, q.2 ∈ p := by
  unfold places at hq
  obtain ⟨p, hp, hq⟩ := List.mem_flatMap.1 hq
  obtain ⟨x, hx, hq⟩ := List.mem_flatMap.1 hq
  obtain ⟨ab, hab, rfl⟩ := List.mem_map.1 hq
  have := (List.mem_filter.1 hab).2
  simp only [decide_eq_true_eq] at this
  exact ⟨List.mem_of_mem_filter hx, this.2, p, hp,
    List.mem_of_mem_tail (List.of_mem_zip (List.mem_of_mem_filter hab)).2⟩

theorem places_congr {shape : List Nat}
    (hc : ∀ x ∈ pixels shape, IsCentre clusters centers x ↔ IsCentre clusters' centers' x)
    (paths : List (List (List Int))) (here : List Int → Prop) [DecidablePred here] :
    places periodic shape fmask clusters centers paths here = places periodic shape fmask clusters' centers' paths here := by
  unfold places
  have : ((pixels shape).filter fun x => decide (IsCentre clusters centers x)) =
      (pixels shape).filter fun x => decide (IsCentre clusters' centers' x) :=
    List.filter_congr fun x hx => by simp only [hc x hx]
  rw [this]

theorem within_congr {shape : List Nat} (hcl : clusters.shape = shape) (hcl' : clusters'.shape = shape)
    (hc : ∀ x ∈ pixels shape, IsCentre clusters centers x ↔ IsCentre clusters' centers' x)
    (paths : List (List (List Int))) :
    Within periodic fmask clusters centers roi paths ↔ Within periodic fmask clusters' centers' roi paths := by
  unfold Within
  rw [hcl, hcl']
  constructor
  · exact fun k p hp x hx h => k p hp x hx ((hc x hx).2 h)
  · exact fun k p hp x hx h => k p hp x hx ((hc x hx).1 h)

theorem W2c_same (L : Legal periodic f.shape roi) (hfm : fmask.shape = f.shape)
    (hcl : clusters.shape = f.shape) (hce : centers.shape = f.shape) (hcl' : clusters'.shape = f.shape)
    (hce' : centers'.shape = f.shape) (hg : g.shape = f.shape) (bf : IsMask fmask)
    (hc : ∀ x ∈ pixels f.shape, IsCentre clusters centers x ↔ IsCentre clusters' centers' x)
    (hv : ∀ x ∈ pixels f.shape, ∀ e, valueAt periodic fmask x e = 0 → valueAt periodic f x e = valueAt periodic g x e)
    (junk : ℚ) {fuel : Nat} {mode : Path.Mode} (hm : Enough fuel roi mode) (pow05 : K → K) (dbg : Bool) :
    SameOutcome roi (Api.W2cMask pow05 dbg junk fuel roi clusters centers f fmask mode periodic)
      (Api.W2cMask pow05 dbg junk fuel roi clusters' centers' g fmask mode periodic) := by
  obtain ⟨P, hP⟩ := choose_paths junk L.rank hm
  have hp := (paths_unique L.rank hP).2 rfl
  have L' : Legal periodic g.shape roi := hg ▸ L
  by_cases hw : Within periodic fmask clusters centers roi ((edge roi).map P)
  · obtain ⟨r, h1, h2, h3⟩ := C48_code L hfm hcl hce bf hm hp hw pow05 dbg
    obtain ⟨r', h1', h2', h3'⟩ := C48_code L' (hfm.trans hg.symm) (hcl'.trans hg.symm) (hce'.trans hg.symm) bf hm hp
      ((within_congr hcl hcl' hc _).1 hw) pow05 dbg
    refine Or.inr ⟨r, r', h1, h1', h2, h2', fun i hi => ?_⟩
    rw [h3 i hi, h3' i hi, samplesWhere_eq, samplesWhere_eq, hg, ← places_congr hc]
    congr 1
    exact List.map_congr_left fun q hq => hv _ (mem_places hq).1 _ (mem_places hq).2.1
  · exact Or.inl ⟨C48_outside L hfm hcl hce bf hm hp hw pow05 dbg,
      C48_outside L' (hfm.trans hg.symm) (hcl'.trans hg.symm) (hce'.trans hg.symm) bf hm hp
        (fun h => hw ((within_congr hcl hcl' hc _).2 h)) pow05 dbg⟩

/-- The names of the clusters do not matter: changing the labels of the clusters and of the centres in the
same way does not change W2c. -/
theorem C118_names (L : Legal periodic f.shape roi) (hfm : fmask.shape = f.shape)
    (hcl : clusters.shape = f.shape) (hce : centers.shape = f.shape) (hcl' : clusters'.shape = f.shape)
    (hce' : centers'.shape = f.shape) (bf : IsMask fmask) {ρ : Int → Int} (hρ : Function.Injective ρ) (h0 : ρ 0 = 0)
    (k : ∀ x ∈ pixels f.shape, val clusters' x = ρ (val clusters x))
    (k' : ∀ x ∈ pixels f.shape, val centers' x = ρ (val centers x))
    (junk : ℚ) {fuel : Nat} {mode : Path.Mode} (hm : Enough fuel roi mode) (pow05 : K → K) (dbg : Bool) :
    SameOutcome roi (Api.W2cMask pow05 dbg junk fuel roi clusters centers f fmask mode periodic)
      (Api.W2cMask pow05 dbg junk fuel roi clusters' centers' f fmask mode periodic) := by
  refine W2c_same L hfm hcl hce hcl' hce' rfl bf (fun x hx => ?_) (fun _ _ _ _ => rfl) junk hm pow05 dbg
  unfold IsCentre
  rw [k x hx, k' x hx, hρ.eq_iff]
  refine and_congr_left fun _ => not_congr ⟨fun h => by rw [h, h0], fun h => hρ (by rw [h, h0])⟩

/-- W2c depends on the clusters and the centres only by which pixels are the centre of a cluster; not even
the extent of the clusters matters (compare `C47_violated`). -/
theorem C118_centres (L : Legal periodic f.shape roi) (hfm : fmask.shape = f.shape)
    (hcl : clusters.shape = f.shape) (hce : centers.shape = f.shape) (hcl' : clusters'.shape = f.shape)
    (hce' : centers'.shape = f.shape) (bf : IsMask fmask)
    (hc : ∀ x ∈ pixels f.shape, IsCentre clusters centers x ↔ IsCentre clusters' centers' x)
    (junk : ℚ) {fuel : Nat} {mode : Path.Mode} (hm : Enough fuel roi mode) (pow05 : K → K) (dbg : Bool) :
    SameOutcome roi (Api.W2cMask pow05 dbg junk fuel roi clusters centers f fmask mode periodic)
      (Api.W2cMask pow05 dbg junk fuel roi clusters' centers' f fmask mode periodic) :=
  W2c_same L hfm hcl hce hcl' hce' rfl bf hc (fun _ _ _ _ => rfl) junk hm pow05 dbg

theorem valueAt_eq_zero_iff {x e : List Int} (a : Nd Int) :
    valueAt periodic a x e = 0 ↔ (target periodic a.shape x e ∈ pixels a.shape → val a (target periodic a.shape x e) = 0) := by
  unfold valueAt
  split <;> simp_all

/-- The values of `f` at masked pixels do not matter. -/
theorem C118_masked (L : Legal periodic f.shape roi) (hfm : fmask.shape = f.shape)
    (hcl : clusters.shape = f.shape) (hce : centers.shape = f.shape) (hg : g.shape = f.shape) (bf : IsMask fmask)
    (k : ∀ x ∈ pixels f.shape, val fmask x = 0 → val f x = val g x)
    (junk : ℚ) {fuel : Nat} {mode : Path.Mode} (hm : Enough fuel roi mode) (pow05 : K → K) (dbg : Bool) :
    SameOutcome roi (Api.W2cMask pow05 dbg junk fuel roi clusters centers f fmask mode periodic)
      (Api.W2cMask pow05 dbg junk fuel roi clusters centers g fmask mode periodic) := by
  refine W2c_same L hfm hcl hce hcl hce hg bf (fun _ _ => Iff.rfl) (fun x hx e he => ?_) junk hm pow05 dbg
  rw [valueAt_eq_zero_iff, hfm] at he
  unfold valueAt
  rw [hg]
  split
  · next ht => exact k _ ht (he ht)
  · rfl

/-- W2c is linear in `f`; whether it is defined does not depend on `f`. -/
theorem C118_linear {a b : K} (L : Legal periodic f.shape roi) (hfm : fmask.shape = f.shape)
    (hcl : clusters.shape = f.shape) (hce : centers.shape = f.shape) (hg : g.shape = f.shape) (hh : h.shape = f.shape)
    (bf : IsMask fmask) (k : ∀ x ∈ pixels f.shape, val h x = a * val f x + b * val g x)
    (junk : ℚ) {fuel : Nat} {mode : Path.Mode} (hm : Enough fuel roi mode) (pow05 : K → K) (dbg : Bool) :
    (Api.W2cMask pow05 dbg junk fuel roi clusters centers f fmask mode periodic = ub ∧
      Api.W2cMask pow05 dbg junk fuel roi clusters centers g fmask mode periodic = ub ∧
      Api.W2cMask pow05 dbg junk fuel roi clusters centers h fmask mode periodic = ub) ∨
    ∃ r s t, Api.W2cMask pow05 dbg junk fuel roi clusters centers f fmask mode periodic = ok r ∧
      Api.W2cMask pow05 dbg junk fuel roi clusters centers g fmask mode periodic = ok s ∧
      Api.W2cMask pow05 dbg junk fuel roi clusters centers h fmask mode periodic = ok t ∧
      ∀ i, InBox roi i → val t i = a * val r i + b * val s i := by
  obtain ⟨P, hP⟩ := choose_paths junk L.rank hm
  have hp := (paths_unique L.rank hP).2 rfl
  have L1 : Legal periodic g.shape roi := hg ▸ L
  have L2 : Legal periodic h.shape roi := hh ▸ L
  by_cases hw : Within periodic fmask clusters centers roi ((edge roi).map P)
  · obtain ⟨r, r1, -, r3⟩ := C48_code L hfm hcl hce bf hm hp hw pow05 dbg
    obtain ⟨s, s1, -, s3⟩ := C48_code L1 (hfm.trans hg.symm) (hcl.trans hg.symm) (hce.trans hg.symm) bf hm hp hw pow05 dbg
    obtain ⟨t, t1, -, t3⟩ := C48_code L2 (hfm.trans hh.symm) (hcl.trans hh.symm) (hce.trans hh.symm) bf hm hp hw pow05 dbg
    refine Or.inr ⟨r, s, t, r1, s1, t1, fun i hi => ?_⟩
    rw [r3 i hi, s3 i hi, t3 i hi, samplesWhere_eq, samplesWhere_eq, samplesWhere_eq, hg, hh]
    generalize places periodic f.shape fmask clusters centers ((edge roi).map P) (fun d => slot roi d = flat roi i) = l
    have e : (l.map fun q => valueAt periodic h q.1 q.2).sum =
        a * (l.map fun q => valueAt periodic f q.1 q.2).sum + b * (l.map fun q => valueAt periodic g q.1 q.2).sum := by
      rw [← List.sum_map_mul_left, ← List.sum_map_mul_left, ← List.sum_map_add]
      refine congrArg List.sum (List.map_congr_left fun q _ => ?_)
      unfold valueAt
      rw [hg, hh]
      split
      · next ht => exact k _ ht
      · simp
    unfold averageOf
    simp only [List.length_map]
    split
    · simp
    · rw [e]
      ring
  · exact Or.inl ⟨C48_outside L hfm hcl hce bf hm hp hw pow05 dbg,
      C48_outside L1 (hfm.trans hg.symm) (hcl.trans hg.symm) (hce.trans hg.symm) bf hm hp hw pow05 dbg,
      C48_outside L2 (hfm.trans hh.symm) (hcl.trans hh.symm) (hce.trans hh.symm) bf hm hp hw pow05 dbg⟩

theorem averageOf_between {l : List K} {lo hi : K} (k : ∀ v ∈ l, lo ≤ v ∧ v ≤ hi) :
    averageOf l = 0 ∨ (lo ≤ averageOf l ∧ averageOf l ≤ hi) := by
  unfold averageOf
  split
  · exact Or.inl rfl
  · next h =>
    right
    have hpos : (0 : K) < l.length := by exact_mod_cast Nat.pos_of_ne_zero h
    rw [le_div_iff₀ hpos, div_le_iff₀ hpos]
    have h1 := List.card_nsmul_le_sum l lo fun v hv => (k v hv).1
    have h2 := List.sum_le_card_nsmul l hi fun v hv => (k v hv).2
    rw [nsmul_eq_mul] at h1 h2
    exact ⟨by linarith [mul_comm lo (l.length : K)], by linarith [mul_comm hi (l.length : K)]⟩

/-- W2c is zero (nothing contributes), or between the bounds of the values of `f` at pixels that are not
masked; the pixels outside a non-periodic image are zeros. -/
theorem C118_between {lo hi : K} (L : Legal periodic f.shape roi) (hfm : fmask.shape = f.shape)
    (hcl : clusters.shape = f.shape) (hce : centers.shape = f.shape) (bf : IsMask fmask)
    (k : ∀ x ∈ pixels f.shape, val fmask x = 0 → lo ≤ val f x ∧ val f x ≤ hi)
    (h0 : periodic = false → lo ≤ 0 ∧ 0 ≤ hi)
    (junk : ℚ) {fuel : Nat} {mode : Path.Mode} (hm : Enough fuel roi mode) (pow05 : K → K) (dbg : Bool) :
    ∀ r, Api.W2cMask pow05 dbg junk fuel roi clusters centers f fmask mode periodic = ok r →
      ∀ i, InBox roi i → val r i = 0 ∨ (lo ≤ val r i ∧ val r i ≤ hi) := by
  intro r' hr' i hi'
  obtain ⟨P, hP⟩ := choose_paths junk L.rank hm
  have hp := (paths_unique L.rank hP).2 rfl
  by_cases hw : Within periodic fmask clusters centers roi ((edge roi).map P)
  · obtain ⟨r, r1, -, r3⟩ := C48_code L hfm hcl hce bf hm hp hw pow05 dbg
    rw [r1] at hr'
    cases hr'
    rw [r3 i hi', samplesWhere_eq]
    refine averageOf_between fun v hv => ?_
    obtain ⟨q, hq, rfl⟩ := List.mem_map.1 hv
    obtain ⟨m1, m2, p, hpm, m3⟩ := mem_places hq
    rw [valueAt_eq_zero_iff, hfm] at m2
    unfold valueAt
    split
    · next ht => exact k _ ht (m2 ht)
    · next ht =>
      cases periodic
      · exact h0 rfl
      · refine absurd (mem_pixels.2 (shift_inbox (mem_pixels.1 m1) ?_)) ht
        obtain ⟨c, hc, rfl⟩ := List.mem_map.1 hpm
        rw [((hP c hc).mem _ m3).1, L.same]
  · rw [C48_outside L hfm hcl hce bf hm hp hw pow05 dbg] at hr'
    cases hr'

/-- Two clusters, with other names (2 and 1 swapped), and other clusters with the same centres. -/
example : Legal true [5] [3] ∧ Enough 0 [3] .bresenham ∧ IsMask (mk [0, 0, 0, 1, 0]) ∧
    Function.Injective (fun l : Int => if l = 1 then 2 else if l = 2 then 1 else l) ∧
    (∀ x ∈ pixels [5], val (mk [2, 2, 0, 0, 1]) x =
      (fun l : Int => if l = 1 then 2 else if l = 2 then 1 else l) (val (mk [1, 1, 0, 0, 2]) x)) ∧
    (∀ x ∈ pixels [5], IsCentre (mk [1, 1, 0, 0, 2]) (mk [1, 0, 0, 0, 2]) x ↔
      IsCentre (mk [7, 0, 0, 0, 7]) (mk [7, 0, 0, 0, 7]) x) ∧ IsCentre (mk [1, 1, 0, 0, 2]) (mk [1, 0, 0, 0, 2]) [4] := by
  refine ⟨⟨by decide, by decide, rfl, fun _ => by decide⟩, fun h => absurd rfl h, mk_isMask (by decide),
    fun a b h => ?_, by decide +kernel, by unfold IsCentre; decide +kernel, by unfold IsCentre; decide +kernel⟩
  dsimp only at h
  split at h <;> split at h <;> (try split at h) <;> (try split at h) <;> omega

end Verif.Props
