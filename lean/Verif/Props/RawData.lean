import Verif.Props.History

/-!
# The data of an ensemble after any history of calls (C84)

`data_first`, `data_second`, `norm`, `result` and `variance` after any list of calls of one statistic, as
sums over the images of sums over pairs of pixels.
-/

set_option linter.unusedSectionVars false

namespace Verif.Props

open Verif Outcome Spec Ens Cluster

variable {K : Type} [Field K] [LinearOrder K] [IsStrictOrderedRing K]

/-! ### Specification -/

/-- A pair of pixels takes part: neither is masked (in the sense of `Seen` for the second). -/
def Admitted (periodic : Bool) (masks : Option (Nd Int × Nd Int)) (d x y : List Int) : Prop :=
  ∀ m ∈ masks, val m.1 x = 0 ∧ Seen periodic m.2 d x y

instance (periodic : Bool) (masks : Option (Nd Int × Nd Int)) (d x y : List Int) :
    Decidable (Admitted periodic masks d x y) := by
  unfold Admitted; infer_instance

/-- The second pixel of a pair is not masked. -/
def Visible (periodic : Bool) (mask : Option (Nd Int)) (d x y : List Int) : Prop :=
  ∀ m ∈ mask, Seen periodic m d x y

instance (periodic : Bool) (mask : Option (Nd Int)) (d x y : List Int) :
    Decidable (Visible periodic mask d x y) := by
  unfold Visible; infer_instance

/-- What one call contributes at displacement `d` to the first moment, to the second moment and to the
norm. `paths mode`: the paths from the centre of the region of interest to its edge. -/
def Realisation.sums (paths : Path.Mode → List (List (List Int))) (periodic variance : Bool) (d : List Int) :
    Realisation K → K × K × K
  | .mean f m =>
    let v := unmaskedValues f m
    (v.sum, (v.map fun a => a ^ 2).sum, (v.length : K))
  | .S2 f g m =>
    let l := pairs periodic f.shape (Admitted periodic m d) d
    (total l fun x y => val f x * val g y, 0, (l.length : K))
  | .C2 f g m =>
    let l := pairs periodic f.shape (Admitted periodic m d) d
    (total l fun x y => if val f x ≠ 0 ∧ val f x = val g y then 1 else 0, 0, (l.length : K))
  | .W2 w f m =>
    let l := pairs periodic w.shape (Visible periodic m d) d
    (total l fun x y => val w x * val f y, 0, total l fun x _ => val w x)
  | .W2c clusters centers f m mode =>
    let l := samples periodic f (m.getD (Nd.fill f.shape 0)) clusters centers (fun _ p => p.tail) (paths mode) d
    (l.sum, 0, (l.length : K))
  | .heightheight f m =>
    let l := pairs periodic f.shape (Admitted periodic (m.map fun a => (a, a)) d) d
    (total l fun x y => (val f y - val f x) ^ 2,
      if variance then total l fun x y => (val f y - val f x) ^ 4 else 0, (l.length : K))
  | .L f mode =>
    ((reached periodic f (paths mode) d : K), 0, (visits (paths mode) d : K) * ((pixels f.shape).length : K))

/-! ### Proof -/

theorem effect_congr {roi : List Nat} {periodic variance : Bool} {st : Stat}
    {call : Bool → Ensemble K → Outcome (Ensemble K)} {φ ψ : List Int → K × K × K}
    (h : Effect roi periodic variance st call φ)
    (e : ∀ i, InBox roi i → φ (displacement roi i) = ψ (displacement roi i)) :
    Effect roi periodic variance st call ψ := by
  obtain ⟨δ, h1, h2⟩ := h
  exact ⟨δ, h1, fun i hi => (h2 i hi).trans (e i hi)⟩

/-- A sum over pixels as a sum over pairs. -/
theorem sums_pairs {periodic : Bool} {shape : List Nat} {adm : List Int → List Int → Prop}
    [∀ x y, Decidable (adm x y)] {d : List Int} {A : List Int → K × K × K}
    {a b c : List Int → List Int → K}
    (h : ∀ x ∈ pixels shape, A x = if target periodic shape x d ∈ pixels shape ∧
        adm x (target periodic shape x d) then
      (a x (target periodic shape x d), b x (target periodic shape x d), c x (target periodic shape x d))
      else (0, 0, 0)) :
    ((pixels shape).map A).sum = (total (pairs periodic shape adm d) a,
      total (pairs periodic shape adm d) b, total (pairs periodic shape adm d) c) := by
  rw [sum_prod, total_pairs, total_pairs, total_pairs]
  simp only [List.map_map]
  refine Prod.ext ?_ (Prod.ext ?_ ?_)
  all_goals
    refine congrArg List.sum (List.map_congr_left fun x hx => ?_)
    simp only [Function.comp, h x hx]
    split <;> rfl

theorem total_zero (l : List (List Int × List Int)) : total l (fun _ _ => (0 : K)) = 0 := by
  simp [total]

section

variable {roi : List Nat} {periodic variance : Bool} {junk : ℚ} {fuel : Nat}

/-- The effect of a call is `Realisation.sums`. -/
theorem Realisation.effect_sums (hr : roi.length ≤ 3) (h0 : 0 ∉ roi) {r : Realisation K}
    (h : r.Legal fuel periodic roi) {paths : Path.Mode → List (List (List Int))}
    (hp : ∀ mode, Enough fuel roi mode → ArePaths junk fuel mode roi (paths mode)) :
    Effect roi periodic variance r.stat (fun dbg E => r.call junk fuel dbg E)
      (fun d => r.sums paths periodic variance d) := by
  have hlen : ∀ {s : List Nat} {i : List Int}, s.length = roi.length → InBox roi i →
      (displacement roi i).length = s.length := fun hs hi => by
    rw [displacement_length (inbox_length hi), hs]
  have hext : ∀ {s : List Nat} {a : Nd K} {x d : List Int}, a.shape = s →
      target periodic s x d ∈ pixels s → ext periodic a (move x d) = val a (target periodic s x d) := by
    rintro s a x d rfl h
    exact ext_target h
  have hw : ∀ {s : List Nat} {m : Nd Int} {x i : List Int}, s.length = roi.length → InBox roi i →
      LegalMask s m → x ∈ pixels s → 1 - ((maskAt periodic m (move x (displacement roi i)) : Int) : K) =
      if target periodic s x (displacement roi i) ∈ pixels s ∧
        Seen periodic m (displacement roi i) x (target periodic s x (displacement roi i)) then 1 else 0 := by
    rintro s m x i hs hi ⟨rfl, bm⟩ hx
    exact mask_weight bm (mem_pixels.1 hx) (hlen hs hi)
  have hn : ∀ {a : Nd K}, LegalMask a.shape (noMask a) := ⟨rfl, noMask_isMask _⟩
  have hseen : ∀ {a : Nd K} {d x y : List Int}, Seen periodic (noMask a) d x y := seen_noMask _ _ _ _
  cases r with
  | mean f m =>
    have h3 : Nd.shape3 roi = [1, 1, 1] := by
      have h1 := h.1
      rcases length_cases hr with rfl | ⟨a, rfl⟩ | ⟨a, b, rfl⟩ | ⟨a, b, c, rfl⟩ <;>
        simp at h1 <;> simp [Nd.shape3, h1]
    cases m with
    | none =>
      refine effect_congr (mean_effect hr h3 f) fun i hi => ?_
      simp [Realisation.sums, unmaskedValues, pixels_length, Function.comp_def]
    | some m =>
      refine effect_congr (meanMask_effect hr h3 (h.2 m rfl).1 (h.2 m rfl).2) fun i hi => ?_
      simp only [Realisation.sums, unmaskedValues, List.length_map, List.map_map]
      generalize pixels f.shape = l
      induction l with
      | nil => simp
      | cons x l ih =>
        simp only [Prod.mk.injEq, Function.comp_def] at ih
        by_cases hx : val m x = 0 <;> simp [hx, ih, Function.comp_def, add_comm]
  | S2 f g m =>
    obtain ⟨L, hg, hm⟩ := h
    have key : ∀ {fm gm : Nd Int}, LegalMask f.shape fm → LegalMask f.shape gm →
        (∀ d x y, (val fm x = 0 ∧ Seen periodic gm d x y) ↔ Admitted periodic m d x y) →
        Effect roi periodic variance .S2 (fun dbg E => Ens.S2 dbg E f g fm gm)
          (fun d => (Realisation.S2 f g m).sums paths periodic variance d) := by
      intro fm gm a b hA
      refine effect_congr (S2_effect hr h0 L.same hg a.1 b.1 a.2 b.2 L.fits) fun i hi => ?_
      rw [sums_pairs (periodic := periodic) (d := displacement roi i) (adm := Admitted periodic m (displacement roi i))
        (a := fun x y => val f x * val g y) (b := fun _ _ => 0) (c := fun _ _ => 1), total_zero,
        ← length_eq_total]
      · rfl
      · intro x hx
        rw [hw L.same hi b hx]
        by_cases ht : target periodic f.shape x (displacement roi i) ∈ pixels f.shape
        · rw [hext hg ht]
          by_cases c : val fm x = 0 <;> by_cases e : Seen periodic gm (displacement roi i) x
            (target periodic f.shape x (displacement roi i)) <;> simp [ht, c, e, ← hA]
        · simp [ht]
    cases m with
    | none => exact key hn hn fun d x y => by simp [Admitted, hseen, val_noMask]
    | some m => exact key (hm m rfl).1 (hm m rfl).2 fun d x y => by simp [Admitted]
  | C2 f g m =>
    obtain ⟨L, hg, hm⟩ := h
    have key : ∀ {fm gm : Nd Int}, LegalMask f.shape fm → LegalMask f.shape gm →
        (∀ d x y, (val fm x = 0 ∧ Seen periodic gm d x y) ↔ Admitted periodic m d x y) →
        Effect roi periodic variance .C2 (fun dbg E => Ens.C2 dbg E f g fm gm)
          (fun d => (Realisation.C2 f g m).sums paths periodic variance d) := by
      intro fm gm a b hA
      refine effect_congr (C2_effect hr h0 L.same hg a.1 b.1 a.2 b.2 L.fits) fun i hi => ?_
      rw [sums_pairs (periodic := periodic) (d := displacement roi i) (adm := Admitted periodic m (displacement roi i))
        (a := fun x y => if val f x ≠ 0 ∧ val f x = val g y then 1 else 0) (b := fun _ _ => 0)
        (c := fun _ _ => 1), total_zero, ← length_eq_total]
      · rfl
      · intro x hx
        rw [hw L.same hi b hx]
        by_cases ht : target periodic f.shape x (displacement roi i) ∈ pixels f.shape
        · rw [hext hg ht]
          by_cases c : val fm x = 0 <;> by_cases e : Seen periodic gm (displacement roi i) x
            (target periodic f.shape x (displacement roi i)) <;> simp [ht, c, e, ← hA]
        · simp [ht]
    cases m with
    | none => exact key hn hn fun d x y => by simp [Admitted, hseen, val_noMask]
    | some m => exact key (hm m rfl).1 (hm m rfl).2 fun d x y => by simp [Admitted]
  | W2 f g m =>
    obtain ⟨L, hg, hm⟩ := h
    have key : ∀ {gm : Nd Int}, LegalMask f.shape gm →
        (∀ d x y, Seen periodic gm d x y ↔ Visible periodic m d x y) →
        Effect roi periodic variance .W2 (fun dbg E => Ens.W2 dbg E f g gm)
          (fun d => (Realisation.W2 f g m).sums paths periodic variance d) := by
      intro gm b hA
      refine effect_congr (W2_effect hr h0 L.same hg b.1 b.2 L.fits) fun i hi => ?_
      rw [sums_pairs (periodic := periodic) (d := displacement roi i) (adm := Visible periodic m (displacement roi i))
        (a := fun x y => val f x * val g y) (b := fun _ _ => 0) (c := fun x _ => val f x), total_zero]
      · rfl
      · intro x hx
        rw [hw L.same hi b hx]
        by_cases ht : target periodic f.shape x (displacement roi i) ∈ pixels f.shape
        · rw [hext hg ht]
          by_cases e : Seen periodic gm (displacement roi i) x
            (target periodic f.shape x (displacement roi i)) <;> simp [ht, e, ← hA]
        · simp [ht]
    cases m with
    | none => exact key hn fun d x y => by simp [Visible, hseen]
    | some m => exact key (hm m rfl) fun d x y => by simp [Visible]
  | W2c cl ce f m mode =>
    obtain ⟨L, h3, hcl, hce, hm, hf⟩ := h
    obtain ⟨P, hP⟩ := choose_paths junk hr hf
    have e := (paths_unique hr hP).1 (hp mode hf)
    cases m with
    | none =>
      refine effect_congr (W2c_effect hr h0 (thirdAxis hr h3) L.same rfl hcl hce (noMask_isMask f) L.fits hP)
        fun i hi => ?_
      simp only [Realisation.sums, e]
      rfl
    | some m =>
      have a := hm m rfl
      refine effect_congr (W2c_effect hr h0 (thirdAxis hr h3) L.same a.1 hcl hce a.2 L.fits hP)
        fun i hi => ?_
      simp only [Realisation.sums, e]
      rfl
  | heightheight f m =>
    obtain ⟨L, hm⟩ := h
    have key : ∀ {fm : Nd Int}, LegalMask f.shape fm →
        (∀ d x y, (val fm x = 0 ∧ Seen periodic fm d x y) ↔
          Admitted periodic (m.map fun a => (a, a)) d x y) →
        Effect roi periodic variance .heightheight (fun dbg E => Ens.heightheight dbg E f fm)
          (fun d => (Realisation.heightheight f m).sums paths periodic variance d) := by
      intro fm a hA
      refine effect_congr (HH_effect hr h0 L.same a.1 a.2 L.fits) fun i hi => ?_
      rw [sums_pairs (periodic := periodic) (d := displacement roi i)
        (adm := Admitted periodic (m.map fun a => (a, a)) (displacement roi i))
        (a := fun x y => (val f y - val f x) ^ 2)
        (b := fun x y => if variance then (val f y - val f x) ^ 4 else 0) (c := fun _ _ => 1),
        ← length_eq_total]
      · by_cases hv : variance = true <;> simp [Realisation.sums, total_zero, hv]
      · intro x hx
        rw [hw L.same hi a hx]
        by_cases ht : target periodic f.shape x (displacement roi i) ∈ pixels f.shape
        · rw [hext rfl ht]
          by_cases c : val fm x = 0 <;> by_cases e : Seen periodic fm (displacement roi i) x
            (target periodic f.shape x (displacement roi i)) <;> simp [ht, c, e, ← hA]
        · simp [ht]
    cases m with
    | none => exact key hn fun d x y => by simp [Admitted, hseen, val_noMask]
    | some m => exact key (hm m rfl) fun d x y => by simp [Admitted]
  | L f mode =>
    obtain ⟨L, hf⟩ := h
    obtain ⟨P, hP⟩ := choose_paths junk hr hf
    have e := (paths_unique hr hP).1 (hp mode hf)
    refine effect_congr (L_effect hr h0 L.same L.fits hP) fun i hi => ?_
    simp only [Realisation.sums, e, pixels_length, ← prodShape_eq]
    rfl

/-! ### C84 -/

/-- **C84** After any list of legal calls of one statistic, with or without masks, images of any shapes:
`data_first`, `data_second` and `norm` at every displacement are the sums over the calls of
`Realisation.sums`. -/
theorem C84_data (hr : roi.length ≤ 3) (h0 : 0 ∉ roi) {st : Stat} {l : List (Realisation K)}
    (hl : ∀ r ∈ l, r.Legal fuel periodic roi ∧ r.stat = st) {paths : Path.Mode → List (List (List Int))}
    (hp : ∀ mode, Enough fuel roi mode → ArePaths junk fuel mode roi (paths mode)) (dbg : Bool) :
    ∃ E, history dbg junk fuel roi periodic variance l = ok E ∧
      (dataFirst E).shape = roi ∧ (dataSecond E).shape = roi ∧ (dataNorm E).shape = roi ∧
      ∀ i, InBox roi i → (val (dataFirst E) i, val (dataSecond E) i, val (dataNorm E) i) =
        (l.map fun r => r.sums paths periodic variance (displacement roi i)).sum := by
  obtain ⟨δ, h1, h2⟩ := effects_run (K := K) (roi := roi) (periodic := periodic) (variance := variance)
    (st := st) (call := fun r dbg E => Realisation.call junk fuel dbg E r) (l := l)
    (φ := fun r d => r.sums paths periodic variance d)
    fun r hm => (hl r hm).2 ▸ r.effect_sums hr h0 (hl r hm).1 hp
  refine ⟨({ fresh K roi periodic variance .unset with stat := if l = [] then .unset else st } :
    Ensemble K).plus δ, ?_, rfl, rfl, rfl, fun i hi => ?_⟩
  · unfold history
    rw [make_ok dbg hr h0, ok_bind]
    exact h1 dbg _ good_fresh (Or.inr rfl)
  · rw [← h2 i hi]
    simp [dataFirst, dataSecond, dataNorm, val, Nd.reshape, Ensemble.plus, fresh, Nd.fill, Delta.at]

/-- **C84** `result()` after any such list of calls: the sum of the first moments over the sum of the norms
(1 if the latter is not positive); its square root for the height-height correlation. -/
theorem C84_result (hr : roi.length ≤ 3) (h0 : 0 ∉ roi) {st : Stat} {l : List (Realisation K)} (hne : l ≠ [])
    (hl : ∀ r ∈ l, r.Legal fuel periodic roi ∧ r.stat = st) {paths : Path.Mode → List (List (List Int))}
    (hp : ∀ mode, Enough fuel roi mode → ArePaths junk fuel mode roi (paths mode)) (pow05 : K → K)
    (dbg : Bool) :
    ∃ a, (do
        let E ← history dbg junk fuel roi periodic variance l
        result pow05 E) = ok a ∧ a.shape = roi ∧
      ∀ i, InBox roi i →
        let first := (l.map fun r => (r.sums paths periodic variance (displacement roi i)).1).sum
        let norm := (l.map fun r => (r.sums paths periodic variance (displacement roi i)).2.2).sum
        let v := if norm ≤ 0 then first else first / norm
        val a i = if st = .heightheight then pow05 v else v := by
  obtain ⟨δ, h1, h2⟩ := effects_run (K := K) (roi := roi) (periodic := periodic) (variance := variance)
    (st := st) (call := fun r dbg E => Realisation.call junk fuel dbg E r) (l := l)
    (φ := fun r d => r.sums paths periodic variance d)
    fun r hm => (hl r hm).2 ▸ r.effect_sums hr h0 (hl r hm).1 hp
  have e : history dbg junk fuel roi periodic variance l = ok (({ fresh K roi periodic variance .unset with
      stat := st } : Ensemble K).plus δ) := by
    unfold history
    rw [make_ok dbg hr h0, ok_bind]
    have := h1 dbg _ good_fresh (Or.inr rfl)
    rwa [if_neg hne] at this
  rw [e, ok_bind, result_good ((good_fresh.stat _).plus δ) pow05]
  refine ⟨_, rfl, rfl, fun i hi => ?_⟩
  have h3 := h2 i hi
  rw [sum_prod] at h3
  simp only [List.map_map, Function.comp_def, Delta.at, Prod.mk.injEq] at h3
  have h4 : ∀ a b : K, a / norm1 b = if b ≤ 0 then a else a / b := by
    intro a b
    unfold norm1
    split <;> simp
  simp only [val, Ensemble.plus, fresh, Nd.fill, Pi.add_apply, zero_add, h3, h4]

/-- **C84** `variance()` after any such list of calls of `mean`, or of `heightheight` on an ensemble that
keeps the variance. -/
theorem C84_variance (hr : roi.length ≤ 3) (h0 : 0 ∉ roi) {st : Stat} {l : List (Realisation K)} (hne : l ≠ [])
    (hst : st = .mean ∨ st = .heightheight)
    (hl : ∀ r ∈ l, r.Legal fuel periodic roi ∧ r.stat = st) {paths : Path.Mode → List (List (List Int))}
    (hp : ∀ mode, Enough fuel roi mode → ArePaths junk fuel mode roi (paths mode)) (pow05 : K → K)
    (dbg : Bool) :
    ∃ a, (do
        let E ← history dbg junk fuel roi periodic variance l
        varianceResult pow05 E) = ok a ∧ a.shape = roi ∧
      ∀ i, InBox roi i →
        let first := (l.map fun r => (r.sums paths periodic variance (displacement roi i)).1).sum
        let second := (l.map fun r => (r.sums paths periodic variance (displacement roi i)).2.1).sum
        let norm := (l.map fun r => (r.sums paths periodic variance (displacement roi i)).2.2).sum
        let n := if norm ≤ 0 then 1 else norm
        let v := (second / n - (first / n) ^ 2) * n / (n - 1)
        val a i = if st = .heightheight then pow05 v else v := by
  obtain ⟨δ, h1, h2⟩ := effects_run (K := K) (roi := roi) (periodic := periodic) (variance := variance)
    (st := st) (call := fun r dbg E => Realisation.call junk fuel dbg E r) (l := l)
    (φ := fun r d => r.sums paths periodic variance d)
    fun r hm => (hl r hm).2 ▸ r.effect_sums hr h0 (hl r hm).1 hp
  have e : history dbg junk fuel roi periodic variance l = ok (({ fresh K roi periodic variance .unset with
      stat := st } : Ensemble K).plus δ) := by
    unfold history
    rw [make_ok dbg hr h0, ok_bind]
    have := h1 dbg _ good_fresh (Or.inr rfl)
    rwa [if_neg hne] at this
  rw [e, ok_bind, variance_good ((good_fresh.stat _).plus δ) pow05]
  refine ⟨_, if_pos hst.symm, rfl, fun i hi => ?_⟩
  have h3 := h2 i hi
  rw [sum_prod] at h3
  simp only [List.map_map, Function.comp_def, Delta.at, Prod.mk.injEq] at h3
  simp only [val, Ensemble.plus, fresh, Nd.fill, Pi.add_apply, zero_add, h3, varianceOf, norm1]

end

/-! ### The number of pairs -/

theorem countP_range (lo hi n : Nat) :
    (List.range n).countP (fun i => lo ≤ i ∧ i < hi) = min hi n - lo := by
  induction n with
  | zero => simp
  | succ n ih =>
    rw [List.range_succ, List.countP_append, ih]
    by_cases h : lo ≤ n ∧ n < hi
    · rw [List.countP_singleton, if_pos (by simpa using h)]
      omega
    · rw [List.countP_singleton, if_neg (by simpa using h)]
      omega

/-- The overlap of an image with itself shifted by `d`. -/
def overlap (shape : List Nat) (d : List Int) : Nat :=
  (List.zipWith (fun (n : Nat) (a : Int) => n - a.natAbs) shape d).prod

theorem countP_overlap : ∀ {shape : List Nat} {d : List Int}, d.length = shape.length →
    (pixels shape).countP (fun x => move x d ∈ pixels shape) = overlap shape d
  | [], [], _ => by simp [pixels, overlap, move]
  | n :: s, a :: d, h => by
    have ih := countP_overlap (shape := s) (d := d) (by simpa using h)
    have e : ∀ (i : Nat) (x : List Int), (move ((i : Int) :: x) (a :: d) ∈ pixels (n :: s)) ↔
        (((-a).toNat ≤ i ∧ i < (n - a).toNat) ∧ move x d ∈ pixels s) := by
      intro i x
      simp only [mem_pixels, move, List.zipWith_cons_cons, InBox, List.forall₂_cons]
      constructor
      · rintro ⟨⟨h1, h2⟩, h3⟩
        exact ⟨⟨by omega, by omega⟩, h3⟩
      · rintro ⟨⟨h1, h2⟩, h3⟩
        exact ⟨⟨by omega, by omega⟩, h3⟩
    have e2 : overlap (n :: s) (a :: d) = (n - a.natAbs) * overlap s d := by simp [overlap]
    rw [e2, ← ih]
    have e3 : n - a.natAbs = (List.range n).countP
        (fun i => (-a).toNat ≤ i ∧ i < ((n : Int) - a).toNat) := by
      rw [countP_range]; omega
    rw [e3, show pixels (n :: s) = (List.range n).flatMap fun (i : Nat) =>
      (pixels s).map fun x => (i : Int) :: x from rfl]
    generalize hp : (fun x : List Int => decide (move x (a :: d) ∈ (List.range n).flatMap fun (i : Nat) =>
      (pixels s).map fun x => (i : Int) :: x)) = p
    have hp' : ∀ (i : Nat) (x : List Int), p ((i : Int) :: x) =
        (decide ((-a).toNat ≤ i ∧ i < ((n : Int) - a).toNat) && decide (move x d ∈ pixels s)) := by
      intro i x
      rw [← hp, ← Bool.decide_and]
      exact decide_eq_decide.2 (e i x)
    generalize List.range n = l
    induction l with
    | nil => simp
    | cons i l ih' =>
      rw [List.flatMap_cons, List.countP_append, ih', List.countP_map, List.countP_cons, Nat.add_mul,
        Nat.add_comm]
      congr 1
      simp only [Function.comp_def, hp']
      generalize decide ((-a).toNat ≤ i ∧ i < ((n : Int) - a).toNat) = b
      cases b <;> simp
  | [], _ :: _, h => by simp at h
  | _ :: _, [], h => by simp at h

/-- **C84** Without masks the number of pairs that is averaged over at a displacement: all pixels if the
image is periodic, the overlap of the image with itself if it is not. -/
theorem C84_count {periodic : Bool} {shape : List Nat} {d : List Int} (hd : d.length = shape.length) :
    (pairs periodic shape (fun _ _ => True) d).length =
      if periodic then shape.prod else (List.zipWith (fun (n : Nat) (a : Int) => n - a.natAbs) shape d).prod := by
  cases periodic with
  | true =>
    rw [if_pos rfl, ← pixels_length, pairs, List.filter_eq_self.2, List.length_map]
    intro p hp
    obtain ⟨x, hx, rfl⟩ := List.mem_map.1 hp
    simpa using target_mem (mem_pixels.1 hx) hd
  | false =>
    have := countP_overlap hd
    rw [if_neg (by simp), show (List.zipWith (fun (n : Nat) (a : Int) => n - a.natAbs) shape d).prod =
      overlap shape d from rfl, ← this, pairs, List.filter_map, List.length_map, List.countP_eq_length_filter]
    simp [Function.comp_def, target]

section

variable {roi : List Nat} {periodic variance : Bool} {junk : ℚ} {fuel : Nat}

/-- **C84** The norm of a history of two-point correlations without masks: the total number of pairs, that
does not depend on the images but for their shapes. -/
theorem C84_norm (hr : roi.length ≤ 3) (h0 : 0 ∉ roi) {l : List (Nd K × Nd K)}
    (hl : ∀ p ∈ l, Legal periodic p.1.shape roi ∧ p.2.shape = p.1.shape) (dbg : Bool) :
    ∃ E, history dbg junk fuel roi periodic variance (l.map fun p => .S2 p.1 p.2 none) = ok E ∧
      ∀ i, InBox roi i → val (dataNorm E) i = (l.map fun p =>
        (((if periodic then p.1.shape.prod else
          (List.zipWith (fun (n : Nat) (a : Int) => n - a.natAbs) p.1.shape (displacement roi i)).prod) : Nat) :
            K)).sum := by
  have hpaths : ∀ mode, ∃ paths, Enough fuel roi mode → ArePaths junk fuel mode roi paths := by
    intro mode
    by_cases h : Enough fuel roi mode
    · obtain ⟨P, hP⟩ := choose_paths junk hr h
      exact ⟨_, fun _ => (paths_unique hr hP).2 rfl⟩
    · exact ⟨[], fun h' => absurd h' h⟩
  choose paths hpaths using hpaths
  obtain ⟨E, h1, -, -, -, h2⟩ := C84_data (K := K) (fuel := fuel) (periodic := periodic)
    (variance := variance) (junk := junk) (st := .S2) hr h0 (l := l.map fun p => .S2 p.1 p.2 none)
    (by
      intro r hm
      obtain ⟨p, hp, rfl⟩ := List.mem_map.1 hm
      exact ⟨⟨(hl p hp).1, (hl p hp).2, by simp⟩, rfl⟩) hpaths dbg
  refine ⟨E, h1, fun i hi => ?_⟩
  have h3 := h2 i hi
  rw [sum_prod] at h3
  simp only [List.map_map, Prod.mk.injEq] at h3
  rw [h3.2.2]
  refine congrArg List.sum (List.map_congr_left fun p hp => ?_)
  rw [← C84_count (by rw [displacement_length (inbox_length hi), (hl p hp).1.same])]
  simp only [Function.comp, Realisation.sums]
  rw [pairs_congr (adm' := fun _ _ => True)]
  simp [Admitted]

end

/-! ### Examples -/

/-- Two images of different shapes, the second with masks, one history: the paths exist and the hypotheses
of `C84_data` hold. -/
example : ∃ (l : List (Realisation ℚ)) (paths : Path.Mode → List (List (List Int))), 1 < l.length ∧
    (∀ r ∈ l, r.Legal 10 true [3] ∧ r.stat = .S2) ∧
    ∀ mode, Enough 10 [3] mode → ArePaths 0 10 mode [3] (paths mode) := by
  have hpaths : ∀ mode, ∃ paths, Enough 10 [3] mode → ArePaths 0 10 mode [3] paths := by
    intro mode
    by_cases h : Enough 10 [3] mode
    · obtain ⟨P, hP⟩ := choose_paths (0 : ℚ) (by decide) h
      exact ⟨_, fun _ => (paths_unique (by decide) hP).2 rfl⟩
    · exact ⟨[], fun h' => absurd h' h⟩
  choose paths hpaths using hpaths
  refine ⟨[.S2 (im [1, 0, 1]) (im [0, 1, 1]) none, .S2 (im [1, 1]) (im [0, 1]) (some (mk [0, 1], mk [0, 0]))],
    paths, by decide, ?_, hpaths⟩
  intro r hr
  simp only [List.mem_cons, List.not_mem_nil, or_false] at hr
  rcases hr with rfl | rfl
  · exact ⟨⟨⟨by decide, by decide, rfl, fun _ => by decide⟩, rfl, by simp⟩, rfl⟩
  · refine ⟨⟨⟨by decide, by decide, rfl, fun _ => by decide⟩, rfl, ?_⟩, rfl⟩
    rintro m' ⟨⟩
    exact ⟨⟨rfl, mk_isMask (by decide)⟩, rfl, mk_isMask (by decide)⟩

/-- The sums of the first of these at displacement 1: 1·1 + 0·1 + 1·0 over three pairs. -/
example : (Realisation.S2 (im [1, 0, 1]) (im [0, 1, 1]) none).sums (fun _ => []) true true [1] = (1, 0, 3) := by
  decide +kernel

/-- The height-height correlation with a mask: pairs (1,2) and (2,4) remain. -/
example : (Realisation.heightheight (im [1, 2, 4, 9]) (some (mk [0, 0, 0, 1]))).sums (fun _ => []) false true [1] =
    (5, 17, 2) := by
  decide +kernel

/-- `(5 - 2) * (4 - 1)` pairs at displacement (-2, 1) of an image that is not periodic. -/
example : (pairs false [5, 4] (fun _ _ => True) [-2, 1]).length = 9 := by
  rw [C84_count rfl]
  decide

end Verif.Props
