import Verif.Props.Runs
import Verif.Spec.Segment

/-! # The lineal-path function at the ends of the paths (C116) -/

set_option linter.unusedSectionVars false

namespace Verif.Props

open Verif Outcome Spec Ens

variable {K : Type} [Field K] [LinearOrder K] [IsStrictOrderedRing K]
variable {roi : List Nat} {periodic : Bool} {f : Nd K}

/-- A displacement that is passed only by the path that ends there. -/
theorem only_path (L : Legal periodic f.shape roi) {junk : ℚ} {fuel : Nat} {mode : Path.Mode}
    (hm : Enough fuel roi mode) {P : List Int → List (List Int)}
    (hP : ∀ s ∈ edge roi, IsPath junk fuel mode roi s (P s)) {r : Nd K} {i : List Int}
    (hd0 : displacement roi i ≠ List.replicate roi.length 0) (hde : displacement roi i ∈ edge roi)
    (honly : ∀ s ∈ edge roi, s ≠ List.replicate roi.length 0 → displacement roi i ∈ P s → s = displacement roi i)
    (hr : val r i = (reached periodic f ((edge roi).map P) (displacement roi i) : K) /
      norm1 ((visits ((edge roi).map P) (displacement roi i) : K) * ((pixels f.shape).length : K))) :
    val r i = (((pixels f.shape).filter fun x => LitAlong periodic f (P (displacement roi i)) x).length : K) /
      ((pixels f.shape).length : K) := by
  rw [hr]
  set d := displacement roi i with hdd
  set n := ((pixels f.shape).filter fun x => decide (LitAlong periodic f (P d) x)).length
  have hpd := hP d hde
  have hnd := hpd.nodup hd0
  obtain ⟨-, hlast⟩ := isPath_towards L.rank hm hde hd0 hpd
  have hdm : d ∈ P d := List.mem_of_getLast? hlast
  have h1 : (P d).count d = 1 := List.count_eq_one_of_mem hnd hdm
  have hall : ∀ x, d ∈ ((P d).takeWhile fun e => decide (Lit periodic f x e)) ↔ LitAlong periodic f (P d) x := by
    intro x
    obtain ⟨pre, e⟩ : ∃ pre, P d = pre ++ [d] := by
      obtain ⟨pre, h⟩ := List.getLast?_eq_some_iff.1 hlast
      exact ⟨pre, h⟩
    have hdpre : d ∉ pre := by
      rw [e] at hnd
      intro h
      exact (List.nodup_append.1 hnd).2.2 d h d (by simp) rfl
    unfold LitAlong
    rw [e, mem_takeWhile_iff (post := []) hdpre]
    simp only [decide_eq_true_eq]
  have hcount : ∀ x, ((P d).takeWhile fun e => decide (Lit periodic f x e)).count d =
      if LitAlong periodic f (P d) x then 1 else 0 := by
    intro x
    have hnd' := (List.takeWhile_sublist (fun e => decide (Lit periodic f x e)) (l := P d)).nodup hnd
    split
    · rename_i h
      exact List.count_eq_one_of_mem hnd' ((hall x).2 h)
    · rename_i h
      exact List.count_eq_zero.2 fun h' => h ((hall x).1 h')
  have key : reached periodic f ((edge roi).map P) d = visits ((edge roi).map P) d * n := by
    unfold reached visits
    suffices ∀ l : List (List Int), (∀ s ∈ l, s ∈ edge roi) →
        ((l.map P).map fun p => ((pixels f.shape).map fun x =>
          (p.takeWhile fun e => Lit periodic f x e).count d).sum).sum =
        ((l.map P).map fun p => p.count d).sum * n from this _ fun _ h => h
    intro l hl
    induction l with
    | nil => simp
    | cons s l ih =>
      have h5 := ih fun s hs => hl s (List.mem_cons_of_mem _ hs)
      simp only [List.map_cons, List.sum_cons, Nat.add_mul] at h5 ⊢
      have h4 : ((pixels f.shape).map fun x => ((P s).takeWhile fun e => Lit periodic f x e).count d).sum =
          (P s).count d * n := by
        by_cases hs : d ∈ P s
        · have hse := hl s (by simp)
          have hs0 : s ≠ List.replicate roi.length 0 := fun h => hd0 ((hP s hse).stay h d hs)
          have e := honly s hse hs0 hs
          rw [e, h1, sum_eq_filter (c := 1) (q := fun x => decide (LitAlong periodic f (P d) x))]
          · rw [Nat.mul_comm]
          · intro x hx
            rw [hcount x]
            simp only [decide_eq_true_eq]
        · rw [List.count_eq_zero.2 hs, Nat.zero_mul]
          refine List.sum_eq_zero fun a ha => ?_
          obtain ⟨x, -, rfl⟩ := List.mem_map.1 ha
          exact List.count_eq_zero.2 fun h => hs ((List.takeWhile_sublist _).mem h)
      omega
  have hv : 0 < visits ((edge roi).map P) d := by
    have h4 : 0 < (P d).count d := List.count_pos_iff.2 hdm
    unfold visits
    rw [List.map_map]
    exact lt_of_lt_of_le h4 (List.single_le_sum (by simp) _ (List.mem_map.2 ⟨_, hde, rfl⟩))
  have e : (visits ((edge roi).map P) d : K) * ((pixels f.shape).length : K) =
      ((visits ((edge roi).map P) d * (pixels f.shape).length : Nat) : K) := by push_cast; rfl
  rw [e, ratio_eq (by rw [key]; exact Nat.mul_le_mul_left _ (List.length_filter_le _ _)), key]
  by_cases hN : (pixels f.shape).length = 0
  · simp [hN]
  · rw [if_neg (by positivity)]
    have : (visits ((edge roi).map P) d : K) ≠ 0 := by exact_mod_cast hv.ne'
    push_cast
    rw [mul_div_mul_left _ _ this]

theorem zero_getD (n i : Nat) : (List.replicate n (0 : Int)).getD i 0 = 0 := by
  rw [List.getD_eq_getElem?_getD, List.getElem?_replicate]
  split <;> rfl

theorem isZero_iff_replicate {d : List Int} {n : Nat} (h : d.length = n) : IsZero d ↔ d = List.replicate n 0 := by
  rw [List.eq_replicate_iff]
  exact ⟨fun h' => ⟨h, h'⟩, fun h' => h'.2⟩

theorem roi_pos (h0 : 0 ∉ roi) {b : Nat} (hb : b < roi.length) : 0 < roi.getD b 0 := by
  refine Nat.pos_of_ne_zero fun h => h0 ?_
  rw [← h]
  simp [List.getD_eq_getElem?_getD, hb]

theorem nonzero_coordinate {d : List Int} (h : ¬ IsZero d) : ∃ k < d.length, d.getD k 0 ≠ 0 := by
  by_contra hc
  apply h
  intro a ha
  obtain ⟨k, hk, rfl⟩ := List.mem_iff_getElem.1 ha
  by_contra hne
  exact hc ⟨k, hk, by simpa [List.getD_eq_getElem?_getD, hk] using hne⟩

theorem mem_edge_of {i : List Int} (hi : InBox roi i) (h : OnEdge roi i) : displacement roi i ∈ edge roi :=
  List.mem_map_of_mem (List.mem_filter.2 ⟨mem_pixels.2 hi, by rw [decide_eq_true_eq]; exact h⟩)

/-- The value of L, by displacement, if the displacement is passed only by the path that ends there. -/
theorem only_value (L : Legal periodic f.shape roi) {junk : ℚ} {fuel : Nat} {mode : Path.Mode}
    (hm : Enough fuel roi mode) (pow05 : K → K) (dbg : Bool) {Q : List Int → Prop}
    (hQ : ∀ i, InBox roi i → Q i → ¬ IsZero (displacement roi i) → OnEdge roi i ∧
      ∀ s ∈ edge roi, s ≠ List.replicate roi.length 0 → ∀ p, IsPath junk fuel mode roi s p →
        displacement roi i ∈ p → s = displacement roi i) :
    ∃ r, Api.L pow05 dbg junk fuel roi f periodic mode = ok r ∧ r.shape = roi ∧
      ∀ i, InBox roi i → Q i → ¬ IsZero (displacement roi i) →
        ∃ p, Path.path junk fuel [0, 0, 0] (inSpace (displacement roi i)) mode = ok (p.map inSpace) ∧
          (∀ e ∈ p, e.length = roi.length) ∧
          val r i = (((pixels f.shape).filter fun x => LitAlong periodic f p x).length : K) /
            ((pixels f.shape).length : K) := by
  obtain ⟨P, hP⟩ := choose_paths junk L.rank hm
  obtain ⟨r, hr1, hr2, h3⟩ := L_value (K := K) (f := f) L hP pow05 dbg
  refine ⟨r, hr1, hr2, fun i hi hq h0 => ?_⟩
  obtain ⟨he, honly⟩ := hQ i hi hq h0
  have hde := mem_edge_of hi he
  have hl := displacement_length (inbox_length hi)
  refine ⟨P (displacement roi i), ?_, fun e h => ((hP _ hde).mem e h).1, ?_⟩
  · have := (hP _ hde).path
    rwa [raise_eq] at this
  · refine only_path L hm hP (fun h => h0 ((isZero_iff_replicate hl).2 h)) hde
      (fun s hs hs0 h => honly s hs hs0 _ (hP s hs) h) ?_
    have := h3 i hi
    simpa only using this

/-- At the corners of the region of interest L is, in all modes, the fraction of the pixels from which the
whole path to that corner is nonzero. Missing: displacements that are passed on the way to other pixels of
the edge, for which L depends on the region of interest (`C116_violated`). -/
theorem C116_corner_partial (L : Legal periodic f.shape roi) (junk : ℚ) {fuel : Nat} {mode : Path.Mode}
    (hm : Enough fuel roi mode) (pow05 : K → K) (dbg : Bool) :
    ∃ r, Api.L pow05 dbg junk fuel roi f periodic mode = ok r ∧ r.shape = roi ∧
      ∀ i, InBox roi i → IsCorner roi i → ¬ IsZero (displacement roi i) →
        ∃ p, Path.path junk fuel [0, 0, 0] (inSpace (displacement roi i)) mode = ok (p.map inSpace) ∧
          (∀ e ∈ p, e.length = roi.length) ∧
          val r i = (((pixels f.shape).filter fun x => LitAlong periodic f p x).length : K) /
            ((pixels f.shape).length : K) := by
  refine only_value L hm pow05 dbg fun i hi hc h0 => ?_
  have hil := inbox_length hi
  have hl := displacement_length hil
  constructor
  · obtain ⟨k, hk, hne⟩ := nonzero_coordinate h0
    rw [hl] at hk
    rw [displacement_getD hil hk] at hne
    have := hc k hk
    have h1 := inbox_getD hi hk
    exact ⟨k, hk, by omega, by omega⟩
  · intro s hs hs0 p hp hdp
    obtain ⟨hch, -⟩ := isPath_towards L.rank hm hs hs0 hp
    obtain ⟨rest, hrest⟩ := hp.head
    obtain ⟨j, hj, rfl⟩ := mem_edge hs
    have hjl := inbox_length hj
    have hjl' := displacement_length hjl
    rw [hrest] at hch hdp
    have hb := chain_between hch (fun b _ => by rw [zero_getD]; unfold Between; omega) _ hdp
    refine ext_getD (by omega) fun b hb' => ?_
    rw [hjl'] at hb'
    have h1 := (hb b (by omega)).2
    rw [displacement_getD hjl hb', displacement_getD hil hb'] at h1 ⊢
    have h2 := hc b hb'
    have h3 := inbox_getD hi hb'
    have h4 := inbox_getD hj hb'
    unfold Between at h1
    omega

theorem chain_steps {s : List Int} {b : Nat} (hb : b < s.length) : ∀ {p : List (List Int)} {e : List Int} {n : Nat},
    (e :: p).IsChain (Toward s) → (e.getD b 0).natAbs ≤ n → ∀ (k : Nat) (d : List Int),
      (e :: p)[k]? = some d → (d.getD b 0).natAbs ≤ n + k
  | p, e, n, hc, he, 0, d, hd => by
    obtain rfl : e = d := by simpa using hd
    omega
  | [], e, n, hc, he, k + 1, d, hd => by simp at hd
  | c :: p, e, n, hc, he, k + 1, d, hd => by
    rw [List.isChain_cons_cons] at hc
    have h1 := hc.1 b hb
    unfold TowardsOrStay at h1
    have := chain_steps hb (n := n + 1) hc.2 (by omega) k d (by simpa using hd)
    omega

theorem foldr_max_le {l : List Nat} {m : Nat} (h : ∀ a ∈ l, a ≤ m) : l.foldr max 0 ≤ m := by
  induction l with
  | nil => simp
  | cons a l ih =>
    simp only [List.foldr_cons]
    exact max_le (h a (by simp)) (ih fun b hb => h b (List.mem_cons_of_mem _ hb))

theorem chebyshev_raise_le {s : List Int} {m : Nat} (hs : s.length ≤ 3) (h : ∀ b < s.length, (s.getD b 0).natAbs ≤ m) :
    chebyshev [0, 0, 0] (raise s) ≤ m := by
  unfold chebyshev
  refine foldr_max_le fun a ha => ?_
  rcases length_cases hs with rfl | ⟨x, rfl⟩ | ⟨x, y, rfl⟩ | ⟨x, y, z, rfl⟩
  · simp [raise] at ha; omega
  · have h0 := h 0 (by simp)
    simp [raise] at ha h0; omega
  · have h0 := h 0 (by simp)
    have h1 := h 1 (by simp)
    simp [raise] at ha h0 h1; omega
  · have h0 := h 0 (by simp)
    have h1 := h 1 (by simp)
    have h2 := h 2 (by simp)
    simp [raise] at ha h0 h1 h2; omega

/-- With Bresenham paths the same holds at all displacements that are as far from the centre as the region
of interest extends: for a region of `2 n + 1` pixels along each axis, all displacements with a coordinate
`n` or `-n`. Missing: the other displacements, for which L depends on the region of interest
(`C116_violated`). -/
theorem C116_farthest_partial (L : Legal periodic f.shape roi) (junk : ℚ) (fuel : Nat) (pow05 : K → K) (dbg : Bool) :
    ∃ r, Api.L pow05 dbg junk fuel roi f periodic .bresenham = ok r ∧ r.shape = roi ∧
      ∀ i, InBox roi i → IsFarthest roi i → ¬ IsZero (displacement roi i) →
        ∃ p, Path.path junk fuel [0, 0, 0] (inSpace (displacement roi i)) .bresenham = ok (p.map inSpace) ∧
          (∀ e ∈ p, e.length = roi.length) ∧
          val r i = (((pixels f.shape).filter fun x => LitAlong periodic f p x).length : K) /
            ((pixels f.shape).length : K) := by
  have hm : Enough fuel roi .bresenham := fun h => absurd rfl h
  refine only_value L hm pow05 dbg fun i hi hc h0 => ?_
  have hil := inbox_length hi
  have hl := displacement_length hil
  obtain ⟨a, ha, hfar⟩ := hc
  constructor
  · obtain ⟨k, hk, hne⟩ := nonzero_coordinate h0
    rw [hl] at hk
    have hk' := hfar i hi k hk
    have hia := inbox_getD hi ha
    rw [displacement_getD hil ha] at hk' hfar
    refine ⟨a, ha, by omega, ?_⟩
    by_contra hno
    -- otherwise the next pixel along the axis is farther
    have hset : ∀ v : Int, 0 ≤ v → v < roi.getD a 0 →
        (v - ((roi.getD a 0 - 1) / 2 : Nat)).natAbs ≤ (i.getD a 0 - ((roi.getD a 0 - 1) / 2 : Nat)).natAbs := by
      intro v v0 v1
      have gl : (i.set a v).length = roi.length := by simp [hil]
      have hin : InBox roi (i.set a v) := by
        refine inbox_of_getD gl fun b hb => ?_
        by_cases hab : a = b
        · subst hab
          simpa [List.getD_eq_getElem?_getD, hil, ha] using And.intro v0 v1
        · have := inbox_getD hi hb
          simpa [List.getD_eq_getElem?_getD, hab] using this
      have := hfar _ hin a ha
      rw [displacement_getD gl ha] at this
      rwa [show (i.set a v).getD a 0 = v by simp [List.getD_eq_getElem?_getD, hil, ha]] at this
    have h1 := hset (i.getD a 0 + 1) (by omega) (by omega)
    have h2 := hset (i.getD a 0 - 1) (by omega) (by omega)
    omega
  · intro s hs hs0 p hp hdp
    obtain ⟨hch, hlast⟩ := isPath_towards L.rank hm hs hs0 hp
    obtain ⟨rest, hrest⟩ := hp.head
    obtain ⟨j, hj, rfl⟩ := mem_edge hs
    have hjl := inbox_length hj
    have hjl' := displacement_length hjl
    have hr := L.rank
    have h3 : (raise (displacement roi j)).length = 3 := by
      rcases length_cases (show (displacement roi j).length ≤ 3 by omega) with e | ⟨a, e⟩ | ⟨a, b, e⟩ | ⟨a, b, c, e⟩ <;>
        rw [e] <;> rfl
    have hne0 : ([0, 0, 0] : List Int) ≠ raise (displacement roi j) := by
      intro h
      apply hs0
      rw [← raise_inj (by omega) (by simp [hjl']), raise_zero hr, h]
    obtain ⟨ret, e, hlen, -⟩ := C26_bresenham junk fuel (x0 := [0, 0, 0]) (x1 := raise (displacement roi j))
      (by simp) (by rw [h3]; rfl) hne0
    rw [hp.path] at e
    cases e
    rw [List.length_map] at hlen
    have hle : chebyshev [0, 0, 0] (raise (displacement roi j)) ≤ ((displacement roi i).getD a 0).natAbs :=
      chebyshev_raise_le (by omega) fun b hb => hfar j hj b (by omega)
    obtain ⟨k, hk⟩ := List.mem_iff_getElem?.1 hdp
    have hkl : k < p.length := (List.getElem?_eq_some_iff.1 hk).1
    have hk2 : ((displacement roi i).getD a 0).natAbs ≤ k := by
      have hk' := hk
      rw [hrest] at hch hk'
      have := chain_steps (b := a) (n := 0) (by omega) hch (by rw [zero_getD]; simp) k _ hk'
      omega
    have hkk : k = p.length - 1 := by omega
    rw [List.getLast?_eq_getElem?, ← hkk, hk] at hlast
    simpa using hlast.symm

/-- A corner of five by four pixels, displacement `(-2, 2)`. -/
example : Legal false [4, 5] [5, 4] ∧ Enough 10 [5, 4] .full ∧ InBox [5, 4] [0, 3] ∧ IsCorner [5, 4] [0, 3] ∧
    displacement [5, 4] [0, 3] = [-2, 2] :=
  ⟨⟨by decide, by decide, rfl, fun h => by cases h⟩, fun _ => ⟨by decide, by decide⟩, by simp [InBox],
    by unfold IsCorner; decide, by decide⟩

/-- All displacements with a coordinate 2 or -2 are farthest in a region of five by five pixels. -/
example (i : List Int) (h : InBox [5, 5] i) (h2 : i.getD 0 0 = 4 ∨ i.getD 0 0 = 0) : IsFarthest [5, 5] i := by
  have hb : ∀ j, InBox [5, 5] j → ∀ b < [5, 5].length, ((displacement [5, 5] j).getD b 0).natAbs ≤ 2 := by
    intro j hj b hb
    rw [displacement_getD (inbox_length hj) hb]
    have h1 := inbox_getD hj hb
    have e : ([5, 5] : List Nat).getD b 0 = 5 := by
      match b, hb with
      | 0, _ => rfl
      | 1, _ => rfl
    rw [e] at h1 ⊢
    omega
  refine ⟨0, by decide, fun j hj b hb' => (hb j hj b hb').trans ?_⟩
  rw [displacement_getD (inbox_length h) (by decide)]
  simp only [List.getD_cons_zero]
  omega

/-! ### The region of interest matters elsewhere -/

theorem of_get {α β : Type} {o : Outcome α} {φ : α → β} {b : β} (h : o.get?.map φ = some b) :
    ∃ a, o = ok a ∧ φ a = b := by
  cases o with
  | ok a => exact ⟨a, rfl, by simpa [Outcome.get?] using h⟩
  | _ => simp [Outcome.get?] at h

/-- Three nonzero pixels that are on the path to displacement `(2, 1)`, and on no other: L there is one
sixth with a region of interest of five by five pixels, one twelfth with seven by seven. -/
theorem C116_violated : ∃ (f : Nd ℚ) (roi roi' : List Nat) (r r' : Nd ℚ) (i i' : List Int),
    Legal false f.shape roi ∧ Legal false f.shape roi' ∧ InBox roi i ∧ InBox roi' i' ∧
    displacement roi i = displacement roi' i' ∧
    Api.L id true (0 : ℚ) 0 roi f false .bresenham = ok r ∧
    Api.L id true (0 : ℚ) 0 roi' f false .bresenham = ok r' ∧ val r i ≠ val r' i' := by
  have e1 : (Api.L id true (0 : ℚ) 0 [5, 5] (ofInts ℚ [3, 2] [1, 0, 0, 1, 0, 1]) false .bresenham).get?.map
      (fun r => val r [4, 3]) = some (1 / 6) := by decide +kernel
  have e2 : (Api.L id true (0 : ℚ) 0 [7, 7] (ofInts ℚ [3, 2] [1, 0, 0, 1, 0, 1]) false .bresenham).get?.map
      (fun r => val r [5, 4]) = some (1 / 12) := by decide +kernel
  obtain ⟨r, h1, h2⟩ := of_get e1
  obtain ⟨r', h3, h4⟩ := of_get e2
  refine ⟨_, [5, 5], [7, 7], r, r', [4, 3], [5, 4], ⟨by decide, by decide, rfl, fun h => by cases h⟩,
    ⟨by decide, by decide, rfl, fun h => by cases h⟩, by simp [InBox], by simp [InBox], by decide, h1, h3, ?_⟩
  rw [h2, h4]
  norm_num

end Verif.Props
