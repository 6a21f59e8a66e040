import Verif.Lemmas.Lineal
import Verif.Lemmas.Moments
import Verif.Props.Correlation
import Mathlib.Tactic.Linarith
import Mathlib.Tactic.Positivity

/-!
# The lineal-path function (C44-C46)

`junk` and `fuel`: see `Verif.Props.Path`. `paths` are the pixel paths (results of `path`) from the centre
of the region of interest to the pixels on its edge, as displacements; see `Verif.Spec.Lineal`.
-/

set_option linter.unusedSectionVars false

namespace Verif.Props

open Verif Outcome Spec Ens

variable {K : Type} [Field K] [LinearOrder K] [IsStrictOrderedRing K]
variable {roi : List Nat} {periodic : Bool} {f : Nd K}

/-- `paths` are the pixel paths from the centre of the ROI to its edge. -/
def ArePaths (junk : ℚ) (fuel : Nat) (mode : Path.Mode) (roi : List Nat) (paths : List (List (List Int))) : Prop :=
  List.Forall₂ (fun s p => Path.path junk fuel [0, 0, 0] (inSpace s) mode = ok (p.map inSpace) ∧
    ∀ d ∈ p, d.length = roi.length) (edge roi) paths

theorem choose_paths (junk : ℚ) {fuel : Nat} {mode : Path.Mode} (hr : roi.length ≤ 3)
    (hm : Enough fuel roi mode) :
    ∃ P : List Int → List (List Int), ∀ s ∈ edge roi, IsPath junk fuel mode roi s (P s) := by
  have h : ∀ s, ∃ p, s ∈ edge roi → IsPath junk fuel mode roi s p := by
    intro s
    by_cases hs : s ∈ edge roi
    · obtain ⟨i, hi, rfl⟩ := mem_edge hs
      obtain ⟨p, hp⟩ := isPath_exists junk hr hm hi
      exact ⟨p, fun _ => hp⟩
    · exact ⟨[], fun h => absurd h hs⟩
  choose P hP using h
  exact ⟨P, fun s hs => hP s hs⟩

theorem raise_eq : raise = inSpace := funext fun x => (inSpace_eq x).symm

theorem paths_unique {junk : ℚ} {fuel : Nat} {mode : Path.Mode} (hr : roi.length ≤ 3)
    {P : List Int → List (List Int)} (hP : ∀ s ∈ edge roi, IsPath junk fuel mode roi s (P s))
    {paths : List (List (List Int))} : ArePaths junk fuel mode roi paths ↔ paths = (edge roi).map P := by
  unfold ArePaths
  generalize edge roi = l at hP
  induction l generalizing paths with
  | nil => simp
  | cons s l ih =>
    have h1 := hP s (by simp)
    have h2 : ∀ {paths}, _ := fun {paths} => @ih paths (fun s hs => hP s (List.mem_cons_of_mem _ hs))
    constructor
    · intro h
      cases h with
      | @cons _ p _ rest a b =>
        rw [List.map_cons, List.cons.injEq]
        refine ⟨?_, h2.1 b⟩
        obtain ⟨a, a'⟩ := a
        have h1' := h1.path
        rw [raise_eq] at h1'
        rw [h1', ok.injEq] at a
        have hm := h1.mem
        revert a a' hm
        generalize P s = q
        clear * - hr
        induction p generalizing q with
        | nil => cases q <;> simp
        | cons x p ih =>
          cases q with
          | nil => simp
          | cons y q =>
            intro a a' hm
            simp only [List.map_cons, List.cons.injEq] at a ⊢
            have l1 := a' x (by simp)
            have l2 := (hm y (by simp)).1
            have l3 := a.1
            rw [← raise_eq, raise_inj (by omega) (by omega)] at l3
            exact ⟨l3.symm, ih q a.2 (fun d hd => a' d (List.mem_cons_of_mem _ hd))
              fun d hd => hm d (List.mem_cons_of_mem _ hd)⟩
    · rintro rfl
      refine .cons ⟨?_, fun d hd => (h1.mem d hd).1⟩ (h2.2 rfl)
      rw [← raise_eq]
      exact h1.path

/-- The value of L for given paths. -/
theorem L_value (L : Legal periodic f.shape roi) {junk : ℚ} {fuel : Nat} {mode : Path.Mode}
    {P : List Int → List (List Int)} (hP : ∀ s ∈ edge roi, IsPath junk fuel mode roi s (P s))
    (pow05 : K → K) (dbg : Bool) :
    ∃ r, Api.L pow05 dbg junk fuel roi f periodic mode = ok r ∧ r.shape = roi ∧
      ∀ i, InBox roi i → let d := displacement roi i
        val r i = (reached periodic f ((edge roi).map P) d : K) /
          norm1 ((visits ((edge roi).map P) d : K) * ((pixels f.shape).length : K)) := by
  obtain ⟨r, h1, h2, h3⟩ := once (K := K) pow05 L.rank L.pos
    (L_effect (K := K) (variance := true) L.rank L.pos L.same L.fits hP) dbg
  refine ⟨r, h1, h2, fun i hi => ?_⟩
  rw [h3 i hi, pixels_length, ← Cluster.prodShape_eq]
  rfl

theorem norm1_nat (n : Nat) : norm1 (n : K) = if n = 0 then 1 else (n : K) := by
  unfold norm1
  by_cases h : n = 0
  · simp [h]
  · have : ¬ ((n : K) ≤ 0) := not_le.2 (by exact_mod_cast Nat.pos_of_ne_zero h)
    rw [if_neg this, if_neg h]

theorem sum_le_mul {α : Type} {φ : α → Nat} {c : Nat} : ∀ {l : List α}, (∀ x ∈ l, φ x ≤ c) →
    (l.map φ).sum ≤ l.length * c
  | [], _ => by simp
  | x :: l, h => by
    have h1 := h x (by simp)
    have h2 := sum_le_mul (φ := φ) fun y hy => h y (List.mem_cons_of_mem x hy)
    simp only [List.map_cons, List.sum_cons, List.length_cons, Nat.add_mul]
    omega

theorem sum_le_filter {α : Type} {φ : α → Nat} {c : Nat} {q : α → Bool} : ∀ {l : List α},
    (∀ x ∈ l, φ x ≤ if q x then c else 0) → (l.map φ).sum ≤ (l.filter q).length * c
  | [], _ => by simp
  | x :: l, h => by
    have h1 := h x (by simp)
    have h2 := sum_le_filter (φ := φ) (q := q) fun y hy => h y (List.mem_cons_of_mem x hy)
    simp only [List.map_cons, List.sum_cons]
    cases hq : q x
    · rw [hq] at h1
      rw [List.filter_cons_of_neg (by simp [hq])]
      simp only [Bool.false_eq_true, if_false] at h1
      omega
    · rw [hq] at h1
      rw [List.filter_cons_of_pos hq, List.length_cons, Nat.add_mul]
      simp only [if_true] at h1
      omega

theorem sum_eq_filter {α : Type} {φ : α → Nat} {c : Nat} {q : α → Bool} : ∀ {l : List α},
    (∀ x ∈ l, φ x = if q x then c else 0) → (l.map φ).sum = (l.filter q).length * c
  | [], _ => by simp
  | x :: l, h => by
    have h1 := h x (by simp)
    have h2 := sum_eq_filter (φ := φ) (q := q) fun y hy => h y (List.mem_cons_of_mem x hy)
    simp only [List.map_cons, List.sum_cons]
    cases hq : q x
    · rw [hq] at h1
      rw [List.filter_cons_of_neg (by simp [hq])]
      simp only [Bool.false_eq_true, if_false] at h1
      omega
    · rw [hq] at h1
      rw [List.filter_cons_of_pos hq, List.length_cons, Nat.add_mul]
      simp only [if_true] at h1
      omega

theorem reached_le (periodic : Bool) (f : Nd K) (paths : List (List (List Int))) (d : List Int) :
    reached periodic f paths d ≤ visits paths d * (pixels f.shape).length := by
  unfold reached visits
  induction paths with
  | nil => simp
  | cons p paths ih =>
    simp only [List.map_cons, List.sum_cons, Nat.add_mul]
    have : ((pixels f.shape).map fun x => (p.takeWhile fun e => Lit periodic f x e).count d).sum ≤
        (pixels f.shape).length * p.count d :=
      sum_le_mul fun x _ => (List.takeWhile_sublist _).count_le _
    rw [Nat.mul_comm] at this
    omega

/-- Division of a count by another, zero if there is nothing to count. -/
theorem ratio_eq {a b : Nat} (h : a ≤ b) :
    (a : K) / norm1 (b : K) = if b = 0 then 0 else (a : K) / (b : K) := by
  rw [norm1_nat]
  by_cases hb : b = 0
  · have : a = 0 := by omega
    simp [hb, this]
  · simp [hb]

/-! ### C44 -/

/-- L is the lineal-path function: at displacement `d`, the number of times the paths from the centre of
the ROI to its edge reach `d` when followed from each pixel of the image up to the first zero pixel, over
the number of times they pass `d` at all (times the number of pixels). The paths are those of `path`. -/
theorem C44_lineal_path (L : Legal periodic f.shape roi) (junk : ℚ) {fuel : Nat} {mode : Path.Mode}
    (hm : Enough fuel roi mode) (pow05 : K → K) (dbg : Bool) :
    ∃ paths r, ArePaths junk fuel mode roi paths ∧
      Api.L pow05 dbg junk fuel roi f periodic mode = ok r ∧ r.shape = roi ∧
      ∀ i, InBox roi i → let d := displacement roi i
        val r i = if visits paths d * (pixels f.shape).length = 0 then 0 else
          (reached periodic f paths d : K) / ((visits paths d * (pixels f.shape).length : Nat) : K) := by
  obtain ⟨P, hP⟩ := choose_paths junk L.rank hm
  obtain ⟨r, h1, h2, h3⟩ := L_value L hP pow05 dbg
  refine ⟨_, r, (paths_unique L.rank hP).2 rfl, h1, h2, fun i hi => ?_⟩
  have := h3 i hi
  simp only at this ⊢
  rw [this, ← ratio_eq (reached_le _ _ _ _)]
  push_cast
  rfl

/-- An image of 2 x 3 pixels and a ROI of 3 x 4: legal. -/
example : Legal false (⟨[2, 3], fun _ => 1⟩ : Nd ℚ).shape [3, 4] ∧ Enough 100 [3, 4] .full ∧
    [-1, 2] ∈ edge [3, 4] ∧ [0, 0] ∉ edge [3, 4] := by
  refine ⟨⟨by decide, by decide, rfl, fun h => by cases h⟩, fun _ => ⟨by decide, by decide⟩, by decide, by decide⟩

/-- The paths always exist and are unique: the previous theorem determines the result. -/
theorem C44_paths (hr : roi.length ≤ 3) (junk : ℚ) {fuel : Nat} {mode : Path.Mode}
    (hm : Enough fuel roi mode) : ∃! paths, ArePaths junk fuel mode roi paths := by
  obtain ⟨P, hP⟩ := choose_paths junk hr hm
  exact ⟨_, (paths_unique hr hP).2 rfl, fun q hq => (paths_unique hr hP).1 hq⟩

/-! ### C45 -/

/-- L is between 0 and 1. -/
theorem C45_bounds (L : Legal periodic f.shape roi) (junk : ℚ) {fuel : Nat} {mode : Path.Mode}
    (hm : Enough fuel roi mode) (pow05 : K → K) (dbg : Bool) :
    ∃ r, Api.L pow05 dbg junk fuel roi f periodic mode = ok r ∧
      ∀ i, InBox roi i → 0 ≤ val r i ∧ val r i ≤ 1 := by
  obtain ⟨paths, r, -, h1, -, h3⟩ := C44_lineal_path L junk hm pow05 dbg
  refine ⟨r, h1, fun i hi => ?_⟩
  rw [h3 i hi]
  split
  · exact ⟨le_refl _, zero_le_one⟩
  · rename_i hn
    refine ⟨by positivity, ?_⟩
    rw [div_le_one (by exact_mod_cast Nat.pos_of_ne_zero hn)]
    exact_mod_cast reached_le _ _ _ _

theorem lit_zero {x : List Int} (hx : x ∈ pixels f.shape) :
    Lit periodic f x (List.replicate f.shape.length 0) ↔ val f x ≠ 0 := by
  have e : move x (List.replicate f.shape.length 0) = x := by
    rw [← inbox_length (mem_pixels.1 hx)]
    clear hx
    induction x with
    | nil => rfl
    | cons a x ih => simpa [move, List.replicate_succ] using ih
  have : target periodic f.shape x (List.replicate f.shape.length 0) = x := by
    unfold target
    rw [e]
    split
    · exact wrap_of_inbox (mem_pixels.1 hx)
    · rfl
  unfold Lit
  rw [this]
  simp [hx]

/-- Following a path from a pixel: only if the pixel is nonzero, and so is the pixel reached. -/
theorem count_le {junk : ℚ} {fuel : Nat} {mode : Path.Mode} {s : List Int} {p : List (List Int)}
    (hp : IsPath junk fuel mode roi s p) (x d : List Int) :
    (p.takeWhile fun e => Lit periodic f x e).count d ≤
      if decide (Lit periodic f x (List.replicate roi.length 0) ∧ Lit periodic f x d) then p.count d else 0 := by
  by_cases h : Lit periodic f x (List.replicate roi.length 0) ∧ Lit periodic f x d
  · rw [if_pos (by simpa using h)]
    exact (List.takeWhile_sublist _).count_le _
  · rw [if_neg (by simpa using h), Nat.le_zero, List.count_eq_zero]
    intro hd
    obtain ⟨rest, rfl⟩ := hp.head
    have h2 : Lit periodic f x d := by
      have := List.all_takeWhile (p := fun e => decide (Lit periodic f x e))
        (l := List.replicate roi.length 0 :: rest)
      rw [List.all_eq_true] at this
      simpa using this d hd
    apply h
    refine ⟨?_, h2⟩
    by_contra h0
    rw [List.takeWhile_cons_of_neg (by simpa using h0)] at hd
    simp at hd

theorem count_zero {junk : ℚ} {fuel : Nat} {mode : Path.Mode} {s : List Int} {p : List (List Int)}
    (hp : IsPath junk fuel mode roi s p) (x : List Int) :
    (p.takeWhile fun e => Lit periodic f x e).count (List.replicate roi.length 0) =
      if decide (Lit periodic f x (List.replicate roi.length 0)) then p.count (List.replicate roi.length 0) else 0 := by
  by_cases h : Lit periodic f x (List.replicate roi.length 0)
  · rw [if_pos (by simpa using h)]
    obtain ⟨rest, hrest⟩ := hp.head
    by_cases hs : s = List.replicate roi.length 0
    · have : (p.takeWhile fun e => Lit periodic f x e) = p := by
        have h1 : ∀ e ∈ p, decide (Lit periodic f x e) = true := by
          intro e he
          rw [hp.stay hs e he]
          simpa using h
        clear * - h1
        induction p with
        | nil => rfl
        | cons a p ih =>
          rw [List.takeWhile_cons_of_pos (p := fun e => decide (Lit periodic f x e)) (h1 a (by simp)), ih fun e he => h1 e (List.mem_cons_of_mem _ he)]
      rw [this]
    · have hn := hp.nodup hs
      subst hrest
      have h1 := (List.nodup_cons.1 hn).1
      rw [List.takeWhile_cons_of_pos (by simpa using h), List.count_cons_self, List.count_cons_self,
        List.count_eq_zero_of_not_mem h1, List.count_eq_zero_of_not_mem]
      exact fun h' => h1 ((List.takeWhile_sublist _).mem h')
  · rw [if_neg (by simpa using h), List.count_eq_zero]
    obtain ⟨rest, rfl⟩ := hp.head
    rw [List.takeWhile_cons_of_neg (by simpa using h)]
    simp

/-- L at displacement `d` never exceeds the fraction of the pixels that are nonzero and for which the
pixel at displacement `d` is nonzero as well. -/
theorem C45_both_nonzero (L : Legal periodic f.shape roi) (junk : ℚ) {fuel : Nat} {mode : Path.Mode}
    (hm : Enough fuel roi mode) (pow05 : K → K) (dbg : Bool) :
    ∃ r, Api.L pow05 dbg junk fuel roi f periodic mode = ok r ∧
      ∀ i, InBox roi i → val r i ≤
        (((pixels f.shape).filter fun x => val f x ≠ 0 ∧ Lit periodic f x (displacement roi i)).length : K) /
          ((pixels f.shape).length : K) := by
  obtain ⟨P, hP⟩ := choose_paths junk L.rank hm
  obtain ⟨r, h1, h2, h3⟩ := L_value L hP pow05 dbg
  refine ⟨r, h1, fun i hi => ?_⟩
  have := h3 i hi
  simp only at this
  rw [this]
  set d := displacement roi i
  set n := ((pixels f.shape).filter fun x => decide (val f x ≠ 0 ∧ Lit periodic f x d)).length
  have key : reached periodic f ((edge roi).map P) d ≤ visits ((edge roi).map P) d * n := by
    unfold reached visits
    generalize edge roi = l at hP
    induction l with
    | nil => simp
    | cons s l ih =>
      have h5 := ih fun s hs => hP s (List.mem_cons_of_mem _ hs)
      simp only [List.map_cons, List.sum_cons, Nat.add_mul] at h5 ⊢
      have h4 : ((pixels f.shape).map fun x => ((P s).takeWhile fun e => Lit periodic f x e).count d).sum ≤
          n * (P s).count d := by
        refine sum_le_filter fun x hx => (count_le (hP s (by simp)) x d).trans ?_
        rw [← L.same]
        simp only [decide_eq_true_eq, lit_zero hx, le_refl]
      rw [Nat.mul_comm] at h4
      omega
  have hle := reached_le periodic f ((edge roi).map P) d
  have e : (visits ((edge roi).map P) d : K) * ((pixels f.shape).length : K) =
      ((visits ((edge roi).map P) d * (pixels f.shape).length : Nat) : K) := by push_cast; rfl
  rw [e, ratio_eq hle]
  split
  · positivity
  · rename_i hn
    have hv : 0 < visits ((edge roi).map P) d := Nat.pos_of_ne_zero fun h => hn (by simp [h])
    have hN : 0 < (pixels f.shape).length := Nat.pos_of_ne_zero fun h => hn (by simp [h])
    rw [div_le_div_iff₀ (by exact_mod_cast Nat.pos_of_ne_zero hn) (by exact_mod_cast hN)]
    have := Nat.mul_le_mul_right (pixels f.shape).length key
    calc (reached periodic f ((edge roi).map P) d : K) * ((pixels f.shape).length : K)
        ≤ ((visits ((edge roi).map P) d * n * (pixels f.shape).length : Nat) : K) := by exact_mod_cast this
      _ = _ := by push_cast; ring

/-- At displacement zero L is the fraction of pixels that are nonzero. Missing: a ROI of a single pixel,
for which there is no path (`C45_violated`). -/
theorem C45_origin_partial (L : Legal periodic f.shape roi) (h1 : ∃ n ∈ roi, 1 < n) (junk : ℚ) {fuel : Nat}
    {mode : Path.Mode} (hm : Enough fuel roi mode) (pow05 : K → K) (dbg : Bool) :
    ∃ r, Api.L pow05 dbg junk fuel roi f periodic mode = ok r ∧
      ∀ i, InBox roi i → IsZero (displacement roi i) → val r i =
        (((pixels f.shape).filter fun x => val f x ≠ 0).length : K) / ((pixels f.shape).length : K) := by
  obtain ⟨P, hP⟩ := choose_paths junk L.rank hm
  obtain ⟨r, hr1, hr2, h3⟩ := L_value L hP pow05 dbg
  refine ⟨r, hr1, fun i hi hz => ?_⟩
  have := h3 i hi
  simp only at this
  rw [this]
  have hd : displacement roi i = List.replicate roi.length 0 := by
    rw [← displacement_length (inbox_length hi), List.eq_replicate_iff]
    exact ⟨rfl, hz⟩
  rw [hd]
  set d := List.replicate roi.length (0 : Int) with hdd
  set n := ((pixels f.shape).filter fun x => decide (val f x ≠ 0)).length
  have key : reached periodic f ((edge roi).map P) d = visits ((edge roi).map P) d * n := by
    unfold reached visits
    generalize edge roi = l at hP
    induction l with
    | nil => simp
    | cons s l ih =>
      have h5 := ih fun s hs => hP s (List.mem_cons_of_mem _ hs)
      simp only [List.map_cons, List.sum_cons, Nat.add_mul] at h5 ⊢
      have h4 : ((pixels f.shape).map fun x => ((P s).takeWhile fun e => Lit periodic f x e).count d).sum =
          n * (P s).count d := by
        refine sum_eq_filter fun x hx => (count_zero (hP s (by simp)) x).trans ?_
        have := lit_zero (periodic := periodic) hx
        rw [L.same] at this
        simp only [decide_eq_true_eq, this, hdd]
      rw [Nat.mul_comm] at h4
      omega
  have hv : 0 < visits ((edge roi).map P) d := by
    obtain ⟨s, hs⟩ : ∃ s, s ∈ edge roi := by
      obtain ⟨n, hn, h1⟩ := h1
      obtain ⟨k, hk, rfl⟩ := List.mem_iff_getElem.1 hn
      refine ⟨displacement roi (List.replicate roi.length 0), List.mem_map_of_mem ?_⟩
      rw [List.mem_filter, mem_pixels]
      constructor
      · have h0 := L.pos
        clear * - h0
        induction roi with
        | nil => exact .nil
        | cons n roi ih =>
          rw [List.mem_cons, not_or] at h0
          exact .cons ⟨le_refl _, by omega⟩ (ih h0.2)
      · simp only [decide_eq_true_eq]
        refine ⟨k, hk, by simpa [hk] using h1, Or.inl ?_⟩
        simp [List.getD_eq_getElem?_getD, hk]
    obtain ⟨rest, hrest⟩ := (hP s hs).head
    have h4 : 0 < (P s).count d := by
      rw [hrest, List.count_cons_self]
      omega
    unfold visits
    rw [List.map_map]
    exact lt_of_lt_of_le h4 (List.single_le_sum (by simp) _ (List.mem_map.2 ⟨s, hs, rfl⟩))
  have e : (visits ((edge roi).map P) d : K) * ((pixels f.shape).length : K) =
      ((visits ((edge roi).map P) d * (pixels f.shape).length : Nat) : K) := by push_cast; rfl
  rw [e, ratio_eq (by rw [key]; exact Nat.mul_le_mul_left _ (List.length_filter_le _ _)), key]
  by_cases hN : (pixels f.shape).length = 0
  · simp [hN]
  · rw [if_neg (by positivity)]
    have : (visits ((edge roi).map P) d : K) ≠ 0 := by exact_mod_cast hv.ne'
    push_cast
    rw [mul_div_mul_left _ _ this]

/-- A ROI of a single pixel: all pixels of the image are nonzero, but L is zero. -/
theorem C45_violated (pow05 : ℚ → ℚ) (dbg : Bool) (junk : ℚ) (fuel : Nat) (periodic : Bool) (mode : Path.Mode) :
    ∃ r, Api.L pow05 dbg junk fuel [1] (⟨[2], fun _ => 1⟩ : Nd ℚ) periodic mode = ok r ∧
      val r [0] = 0 := by
  have L : Legal periodic (⟨[2], fun _ => 1⟩ : Nd ℚ).shape [1] :=
    ⟨by decide, by decide, rfl, fun _ => .cons (by decide) .nil⟩
  have he : edge [1] = [] := by decide
  obtain ⟨r, h1, -, h3⟩ := L_value (junk := junk) (fuel := fuel) (mode := mode) L (P := fun _ => [])
    (by simp [he]) pow05 dbg
  refine ⟨r, h1, ?_⟩
  rw [h3 [0] (.cons (by decide) .nil), he]
  simp [reached]

/-! ### C46 -/

/-- L never accesses its arrays out of bounds (and terminates, and throws nothing): any number of images
can be added to an ensemble. -/
theorem C46_defined {images : List (Nd K × Path.Mode)} {junk : ℚ} {fuel : Nat}
    (hl : ∀ a ∈ images, Legal periodic a.1.shape roi ∧ Enough fuel roi a.2) (hr : roi.length ≤ 3) (h0 : 0 ∉ roi)
    (variance dbg : Bool) (pow05 : K → K) :
    ∃ E r, (do
        let E ← make K dbg roi periodic variance
        forM images E fun E a => Ens.L dbg junk fuel E a.1 a.2) = ok E ∧
      result pow05 E = ok r := by
  have hE : ∀ a ∈ images, ∃ φ, Effect roi periodic variance .L (fun dbg E => Ens.L dbg junk fuel E a.1 a.2) φ := by
    intro a ha
    obtain ⟨hL, hm⟩ := hl a ha
    obtain ⟨P, hP⟩ := choose_paths junk hr hm
    exact ⟨_, L_effect hL.rank hL.pos hL.same hL.fits hP⟩
  have hE' : ∀ a, ∃ φ, a ∈ images → Effect (K := K) roi periodic variance .L
      (fun dbg E => Ens.L dbg junk fuel E a.1 a.2) φ := by
    intro a
    by_cases ha : a ∈ images
    · obtain ⟨φ, h⟩ := hE a ha
      exact ⟨φ, fun _ => h⟩
    · exact ⟨0, fun h => absurd h ha⟩
  choose φ hφ using hE'
  obtain ⟨δ, h1, -⟩ := effects_run (K := K) (call := fun (a : Nd K × Path.Mode) dbg E => Ens.L dbg junk fuel E a.1 a.2)
    (l := images) (φ := φ) fun a ha => hφ a ha
  rw [make_ok dbg hr h0, ok_bind, h1 dbg _ good_fresh (Or.inr rfl)]
  exact ⟨_, _, rfl, result_good ((good_fresh.stat _).plus _) pow05⟩

end Verif.Props
