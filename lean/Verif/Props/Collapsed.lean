import Verif.Lemmas.Collapsed
import Verif.Props.Lineal

/-!
# The collapsed weighted correlation, W2c (C47, C48)

`paths` are the pixel paths from the centre of the region of interest to its edge (`ArePaths`); see
`Verif.Spec.Collapsed` for the values that are averaged.
-/

set_option linter.unusedSectionVars false

namespace Verif.Props

open Verif Outcome Spec Ens

variable {K : Type} [Field K] [LinearOrder K] [IsStrictOrderedRing K]
variable {roi : List Nat} {periodic : Bool} {f : Nd K} {fmask clusters centers : Nd Int}

/-- Average of a list; zero if it is empty. -/
def averageOf (l : List K) : K := if l.length = 0 then 0 else l.sum / (l.length : K)

theorem averageOf_eq (l : List K) : l.sum / norm1 (l.length : K) = averageOf l := by
  rw [norm1_nat, averageOf]
  by_cases h : l.length = 0
  · have : l = [] := List.length_eq_zero_iff.1 h
    simp [this]
  · rw [if_neg h, if_neg h]

/-- In three dimensions the pads of the second and third axis are equal, or there is a single pixel along
the third axis. -/
def FlatOrEqual (roi : List Nat) : Prop :=
  roi.length = 3 → roi.getD 2 0 = 1 ∨ (roi.getD 1 0 - 1) / 2 = (roi.getD 2 0 - 1) / 2

theorem thirdAxis (hr : roi.length ≤ 3) (h : FlatOrEqual roi) : ThirdAxis (Nd.shape3 roi) := by
  rcases length_cases hr with rfl | ⟨a, rfl⟩ | ⟨a, b, rfl⟩ | ⟨a, b, c, rfl⟩
  · exact ⟨_, _, _, rfl, Or.inl rfl⟩
  · exact ⟨_, _, _, rfl, Or.inl rfl⟩
  · exact ⟨_, _, _, rfl, Or.inl rfl⟩
  · exact ⟨_, _, _, rfl, by simpa using h rfl⟩

/-! ### C47 -/

/-- What W2c computes: along each path from each centre, the value at each row but the first is stored at
the row before it, whether or not it is inside the cluster. Pixels outside a non-periodic image count as
zeros. -/
theorem C47_code (L : Legal periodic f.shape roi) (h3 : FlatOrEqual roi) (hfm : fmask.shape = f.shape)
    (hcl : clusters.shape = f.shape) (hce : centers.shape = f.shape) (bf : IsMask fmask) {junk : ℚ}
    {fuel : Nat} {mode : Path.Mode} (hm : Enough fuel roi mode) {paths : List (List (List Int))}
    (hp : ArePaths junk fuel mode roi paths) (pow05 : K → K) (dbg : Bool) :
    ∃ r, Api.W2cMask pow05 dbg junk fuel roi clusters centers f fmask mode periodic = ok r ∧ r.shape = roi ∧
      ∀ i, InBox roi i → val r i =
        averageOf (samples periodic f fmask clusters centers (fun _ p => p.tail) paths (displacement roi i)) := by
  obtain ⟨P, hP⟩ := choose_paths junk L.rank hm
  rw [paths_unique L.rank hP] at hp
  subst hp
  obtain ⟨r, h1, h2, h3⟩ := once (K := K) pow05 L.rank L.pos
    (W2c_effect (K := K) (variance := true) L.rank L.pos (thirdAxis L.rank h3) L.same hfm hcl hce bf L.fits hP) dbg
  refine ⟨r, h1, h2, fun i hi => ?_⟩
  rw [h3 i hi, ← averageOf_eq]
  rfl

/-- The same without a mask: no pixel is masked. -/
theorem C47_unmasked (L : Legal periodic f.shape roi) (h3 : FlatOrEqual roi)
    (hcl : clusters.shape = f.shape) (hce : centers.shape = f.shape) {junk : ℚ}
    {fuel : Nat} {mode : Path.Mode} (hm : Enough fuel roi mode) {paths : List (List (List Int))}
    (hp : ArePaths junk fuel mode roi paths) (pow05 : K → K) (dbg : Bool) :
    ∃ r, Api.W2c pow05 dbg junk fuel roi clusters centers f mode periodic = ok r ∧ r.shape = roi ∧
      ∀ i, InBox roi i → val r i =
        averageOf (samples periodic f ⟨f.shape, fun _ => 0⟩ clusters centers (fun _ p => p.tail) paths
          (displacement roi i)) :=
  C47_code (fmask := noMask f) L h3 rfl hcl hce (noMask_isMask f) hm hp pow05 dbg

/-- W2c is the average of `f` outside the cluster, with the cluster collapsed to its centre, if every path
leaves the cluster with its first step. Missing: larger clusters, for which this is false
(`C47_violated`, see `C47_code` for what is computed). -/
theorem C47_partial (L : Legal periodic f.shape roi) (h3 : FlatOrEqual roi) (hfm : fmask.shape = f.shape)
    (hcl : clusters.shape = f.shape) (hce : centers.shape = f.shape) (bf : IsMask fmask) {junk : ℚ}
    {fuel : Nat} {mode : Path.Mode} (hm : Enough fuel roi mode) {paths : List (List (List Int))}
    (hp : ArePaths junk fuel mode roi paths)
    (hsmall : ∀ x ∈ pixels f.shape, IsCentre clusters centers x → ∀ p ∈ paths, ∀ e, p[1]? = some e →
      valueAt periodic clusters x e ≠ val centers x) (pow05 : K → K) (dbg : Bool) :
    ∃ r, Api.W2cMask pow05 dbg junk fuel roi clusters centers f fmask mode periodic = ok r ∧ r.shape = roi ∧
      ∀ i, InBox roi i → val r i = averageOf (samples periodic f fmask clusters centers
        (outside periodic clusters centers) paths (displacement roi i)) := by
  obtain ⟨r, h1, h2, h4⟩ := C47_code L h3 hfm hcl hce bf hm hp pow05 dbg
  refine ⟨r, h1, h2, fun i hi => ?_⟩
  rw [h4 i hi]
  congr 1
  have hhead : ∀ p ∈ paths, ∃ rest, p = List.replicate roi.length 0 :: rest := by
    obtain ⟨P, hP⟩ := choose_paths junk L.rank hm
    rw [paths_unique L.rank hP] at hp
    subst hp
    intro p hp
    obtain ⟨s, hs, rfl⟩ := List.mem_map.1 hp
    exact (hP s hs).head
  unfold samples
  rw [List.flatMap, List.flatMap]
  congr 1
  refine List.map_congr_left fun p hpp => ?_
  rw [List.flatMap, List.flatMap]
  congr 1
  refine List.map_congr_left fun x hx => ?_
  obtain ⟨hx1, hx2⟩ := List.mem_filter.1 hx
  have hc : IsCentre clusters centers x := by simpa using hx2
  have key : p.tail = outside periodic clusters centers x p := by
    obtain ⟨rest, rfl⟩ := hhead p hpp
    have e1 : valueAt periodic clusters x (List.replicate roi.length 0) = val centers x := by
      have hx' : InBox clusters.shape x := by rw [hcl]; exact mem_pixels.1 hx1
      have e2 : move x (List.replicate roi.length 0) = x := by
        have := Ens.move_zero hx'
        rwa [hcl, L.same] at this
      have e3 : target periodic clusters.shape x (List.replicate roi.length 0) = x := by
        unfold target
        rw [e2]
        split
        · exact wrap_of_inbox hx'
        · rfl
      unfold valueAt
      rw [e3, if_pos (mem_pixels.2 hx')]
      exact hc.2
    unfold outside
    rw [List.dropWhile_cons_of_pos (by simpa using e1)]
    cases rest with
    | nil => rfl
    | cons e rest =>
      rw [List.dropWhile_cons_of_neg (by simpa using hsmall x hx1 hc _ hpp e rfl)]
      rfl
  beta_reduce
  rw [key]

/-- A one-dimensional ROI of 7 pixels: the two paths. -/
theorem paths7 : ArePaths 0 0 .bresenham [7] [[[0], [-1], [-2], [-3]], [[0], [1], [2], [3]]] := by
  have he : edge [7] = [[-3], [3]] := by decide
  unfold ArePaths
  rw [he]
  exact .cons ⟨by rfl, by decide⟩ (.cons ⟨by rfl, by decide⟩ .nil)

/-- The hypotheses of `C47_partial` are met by an image with a cluster of one pixel. -/
example : ∀ x ∈ pixels (im [1, 2, 3, 4, 5, 6, 7]).shape,
    IsCentre (mk [0, 0, 1, 0, 0, 2, 2]) (mk [0, 0, 1, 0, 0, 0, 0]) x →
    ∀ p ∈ [[[0], [-1], [-2], [-3]], [[0], [1], [2], [3]]], ∀ e, p[1]? = some e →
      valueAt false (mk [0, 0, 1, 0, 0, 2, 2]) x e ≠ val (mk [0, 0, 1, 0, 0, 0, 0]) x := by
  intro x hx hc p hp e he
  simp only [List.mem_cons, List.not_mem_nil, or_false] at hp
  revert x
  rcases hp with rfl | rfl
  · simp only [List.getElem?_cons_succ, List.getElem?_cons_zero, Option.some.injEq] at he
    subst he
    decide
  · simp only [List.getElem?_cons_succ, List.getElem?_cons_zero, Option.some.injEq] at he
    subst he
    decide

/-- A cluster of three pixels (1, 2, 3) with its centre (2); `f` is one outside the cluster and zero
inside. Both pixels next to the cluster are one, but W2c is zero at displacement zero: the pixels of the
cluster next to its centre have been stored there. -/
theorem C47_violated : ∃ (f : Nd ℚ) (fmask clusters centers : Nd Int) (roi : List Nat)
    (paths : List (List (List Int))) (r : Nd ℚ) (i : List Int),
    Legal false f.shape roi ∧ fmask.shape = f.shape ∧ clusters.shape = f.shape ∧ centers.shape = f.shape ∧
    IsMask fmask ∧ InBox roi i ∧ ArePaths 0 0 .bresenham roi paths ∧
    Api.W2cMask id true (0 : ℚ) 0 roi clusters centers f fmask .bresenham false = ok r ∧ val r i = 0 ∧
    averageOf (samples false f fmask clusters centers (outside false clusters centers) paths
      (displacement roi i)) = 1 := by
  have L : Legal false (im [1, 0, 0, 0, 1, 1, 1]).shape [7] :=
    ⟨by decide, by decide, rfl, fun h => by cases h⟩
  have b1 : IsMask (mk [0, 0, 0, 0, 0, 0, 0]) := mk_isMask (by decide)
  have hi : InBox [7] [3] := by simp [InBox]
  obtain ⟨r, h1, -, h3⟩ := C47_code (f := im [1, 0, 0, 0, 1, 1, 1]) (fmask := mk [0, 0, 0, 0, 0, 0, 0])
    (clusters := mk [0, 1, 1, 1, 0, 0, 0]) (centers := mk [0, 0, 1, 0, 0, 0, 0]) L
    (fun h => by cases h) rfl rfl rfl b1 (fun h => absurd rfl h) paths7 id true
  refine ⟨im [1, 0, 0, 0, 1, 1, 1], mk [0, 0, 0, 0, 0, 0, 0], mk [0, 1, 1, 1, 0, 0, 0],
    mk [0, 0, 1, 0, 0, 0, 0], [7], _, r, [3], L, rfl, rfl, rfl, b1, hi, paths7, h1, ?_, ?_⟩
  · rw [h3 [3] hi]
    decide +kernel
  · decide +kernel

/-! ### C48 -/

/-- W2c never accesses its arrays out of bounds (and throws nothing): any number of realisations can be
added. Where the values are stored: `C47_code`. Missing: three-dimensional ROIs with different pads along
the second and third axis, for which this is false (`C48_violated`). -/
theorem C48_partial {images : List (Nd K × Nd Int × Nd Int × Nd Int × Path.Mode)} {junk : ℚ} {fuel : Nat}
    (h3 : FlatOrEqual roi) (hl : ∀ a ∈ images, Legal periodic a.1.shape roi ∧ a.2.1.shape = a.1.shape ∧
      IsMask a.2.1 ∧ a.2.2.1.shape = a.1.shape ∧ a.2.2.2.1.shape = a.1.shape ∧ Enough fuel roi a.2.2.2.2)
    (hr : roi.length ≤ 3) (h0 : 0 ∉ roi) (variance dbg : Bool) (pow05 : K → K) :
    ∃ E r, (do
        let E ← make K dbg roi periodic variance
        forM images E fun E a => Ens.W2c dbg junk fuel E a.2.2.1 a.2.2.2.1 a.1 a.2.1 a.2.2.2.2) = ok E ∧
      result pow05 E = ok r := by
  have hE' : ∀ a, ∃ φ, a ∈ images → Effect (K := K) roi periodic variance .W2c
      (fun dbg E => Ens.W2c dbg junk fuel E a.2.2.1 a.2.2.2.1 a.1 a.2.1 a.2.2.2.2) φ := by
    intro a
    by_cases ha : a ∈ images
    · obtain ⟨hL, e1, e2, e3, e4, hm⟩ := hl a ha
      obtain ⟨P, hP⟩ := choose_paths junk hr hm
      exact ⟨_, fun _ => W2c_effect hr h0 (thirdAxis hr h3) hL.same e1 e3 e4 e2 hL.fits hP⟩
    · exact ⟨0, fun h => absurd h ha⟩
  choose φ hφ using hE'
  obtain ⟨δ, h1, -⟩ := effects_run (K := K)
    (call := fun (a : Nd K × Nd Int × Nd Int × Nd Int × Path.Mode) dbg E =>
      Ens.W2c dbg junk fuel E a.2.2.1 a.2.2.2.1 a.1 a.2.1 a.2.2.2.2)
    (l := images) (φ := φ) fun a ha => hφ a ha
  rw [make_ok dbg hr h0, ok_bind, h1 dbg _ good_fresh (Or.inr rfl)]
  exact ⟨_, _, rfl, result_good ((good_fresh.stat _).plus _) pow05⟩

/-- The hypotheses of `C48_partial` are met, e.g. by a 5 x 4 x 3 image and a ROI of the same shape (pads 2,
1 and 1), by all one- and two-dimensional ROIs. -/
example : FlatOrEqual [5, 4, 3] ∧ FlatOrEqual [3, 8] ∧ Legal true [5, 4, 3] [5, 4, 3] ∧
    Enough 100 [5, 4, 3] .actual :=
  ⟨fun _ => (by decide), fun h => (by cases h), ⟨by decide, by decide, rfl, fun _ => (by decide)⟩,
    fun _ => by decide⟩

/-- A three-dimensional ROI of 1 x 1 x 5 pixels: W2c writes outside its arrays, for a legal image of the
same shape with a cluster of one pixel. -/
theorem C48_violated : ∃ (f : Nd ℚ) (clusters centers : Nd Int) (roi : List Nat),
    Legal false f.shape roi ∧ clusters.shape = f.shape ∧ centers.shape = f.shape ∧
    ∀ dbg, Api.W2c id dbg (0 : ℚ) 0 roi clusters centers f .bresenham false = ub := by
  refine ⟨⟨[1, 1, 5], fun _ => 1⟩, Nd.ofList [1, 1, 5] [0, 0, 1, 0, 0], Nd.ofList [1, 1, 5] [0, 0, 1, 0, 0],
    [1, 1, 5], ⟨by decide, by decide, rfl, fun h => by cases h⟩, rfl, rfl, fun dbg => ?_⟩
  cases dbg <;> rfl

end Verif.Props
