import Verif.Lemmas.LineSymmetry
import Verif.Props.Path
import Verif.Props.Algebra
import Verif.Props.Collapsed
import Verif.Props.Orientation

/-!
# Paths, L and W2c of images in another orientation (C87)
-/

set_option linter.unusedSectionVars false

namespace Verif.Props

open Verif Outcome Spec Ens

/-! #### paths -/

/-- Reflecting both end points reflects the path, in every mode, from every start: also where `actual` and
`full` do not terminate. (Bresenham: the end points differ.) -/
theorem C87_reflect (junk : ℚ) (fuel : Nat) {x0 x1 s : List Int} (h3 : x0.length ≤ 3)
    (hl : x0.length = x1.length) (hc : s.length = x0.length) (hs : ∀ a ∈ s, a = 1 ∨ a = -1)
    {mode : Path.Mode} (hne : mode = .bresenham → x0 ≠ x1) :
    Path.path junk fuel (reflectPt s x0) (reflectPt s x1) mode =
      (Path.path junk fuel x0 x1 mode).map fun ret => ret.map fun x => reflectPt s x := by
  cases mode with
  | bresenham => exact C28_reflect junk fuel h3 hl hc hs (hne rfl)
  | actual => exact Path.line_flips hs Path.actual_flips junk fuel hl hc
  | full => exact Path.line_flips hs Path.full_flips junk fuel hl hc

/-- Permuting the axes permutes the axes of the path, except in mode `full`. -/
theorem C87_permute_partial (junk : ℚ) (fuel : Nat) {x0 x1 : List Int} {σ : List Nat} (h3 : x0.length ≤ 3)
    (hl : x0.length = x1.length) (hσ : σ.Perm (List.range x0.length)) {mode : Path.Mode}
    (hne : mode = .bresenham → x0 ≠ x1) (hm : mode ≠ .full) :
    Path.path junk fuel (permutePt σ x0) (permutePt σ x1) mode =
      (Path.path junk fuel x0 x1 mode).map fun ret => ret.map fun x => permutePt σ x := by
  cases mode with
  | bresenham => exact C28_permute junk fuel h3 hl hσ (hne rfl)
  | actual => exact Path.actual_line_axes junk fuel hl hσ
  | full => exact absurd rfl hm

/-- Lists of points of the same length that are mapped one-to-one. -/
theorem count_map_on {δ : List Int → List Int} {n : Nat}
    (inj : ∀ d e : List Int, d.length = n → e.length = n → δ d = δ e → d = e) {d : List Int}
    (hd : d.length = n) : ∀ {p : List (List Int)}, (∀ e ∈ p, e.length = n) → (p.map δ).count (δ d) = p.count d
  | [], _ => rfl
  | e :: p, h => by
    have he := h e (by simp)
    rw [List.map_cons, List.count_cons, List.count_cons, count_map_on inj hd fun e h' => h e (by simp [h'])]
    congr 1
    by_cases q : e = d
    · simp [q]
    · have : δ e ≠ δ d := fun h => q (inj e d he hd h)
      simp [q, this]

/-- `δ` maps displacements from the centre of region of interest `roi` to those of `roi'`, one-to-one, edge to
edge, and paths to paths. -/
structure Turn (mode : Path.Mode) (roi roi' : List Nat) (δ : List Int → List Int) : Prop where
  len : ∀ d, d.length = roi.length → (δ d).length = roi'.length
  inj : ∀ d e : List Int, d.length = roi.length → e.length = roi.length → δ d = δ e → d = e
  edges : ((edge roi).map δ).Perm (edge roi')
  path : ∀ (junk : ℚ) (fuel : Nat) s p, s ∈ edge roi → IsPath junk fuel mode roi s p →
    Path.path junk fuel [0, 0, 0] (raise (δ s)) mode = ok ((p.map δ).map raise)

variable {roi roi' : List Nat} {mode : Path.Mode} {δ τ : List Int → List Int}

theorem raise_map_inj {n : Nat} (hn : n ≤ 3) : ∀ {p q : List (List Int)}, (∀ e ∈ p, e.length = n) →
    (∀ e ∈ q, e.length = n) → p.map raise = q.map raise → p = q
  | [], [], _, _, _ => rfl
  | [], _ :: _, _, _, h => by simp at h
  | _ :: _, [], _, _, h => by simp at h
  | x :: p, y :: q, hp, hq, h => by
    simp only [List.map_cons, List.cons.injEq] at h
    have hx := hp x (by simp)
    have hy := hq y (by simp)
    rw [(raise_inj (by omega) (by omega)).1 h.1, raise_map_inj hn (fun e h => hp e (by simp [h]))
      (fun e h => hq e (by simp [h])) h.2]

theorem Turn.paths (T : Turn mode roi roi' δ) (hr' : roi'.length ≤ 3) {junk : ℚ} {fuel : Nat}
    {P P' : List Int → List (List Int)} (hP : ∀ s ∈ edge roi, IsPath junk fuel mode roi s (P s))
    (hP' : ∀ s ∈ edge roi', IsPath junk fuel mode roi' s (P' s)) :
    (((edge roi).map P).map fun p => p.map δ).Perm ((edge roi').map P') := by
  have h := T.edges.map P'
  refine List.Perm.trans (List.Perm.of_eq ?_) h
  rw [List.map_map, List.map_map]
  refine List.map_congr_left fun s hs => ?_
  have h1 := hP s hs
  have h2 := hP' (δ s) (T.edges.mem_iff.1 (List.mem_map_of_mem hs))
  have h3 := T.path junk fuel s (P s) hs h1
  rw [h2.path, ok.injEq] at h3
  simp only [Function.comp]
  refine (raise_map_inj hr' (fun e he => (h2.mem e he).1) (fun e he => ?_) h3).symm
  obtain ⟨d, hd, rfl⟩ := List.mem_map.1 he
  exact T.len d (h1.mem d hd).1

variable {K : Type} [Field K] [LinearOrder K] [IsStrictOrderedRing K]
variable {shape shape' : List Nat} {periodic : Bool} {f f' : Nd K}
  {fmask clusters centers fmask' clusters' centers' : Nd Int}

theorem lit_moved (M : Motion periodic shape shape' τ δ) (hf : Moved shape shape' τ f f') {x e : List Int}
    (hx : InBox shape x) (he : e.length = shape.length) : Lit periodic f' (τ x) (δ e) ↔ Lit periodic f x e := by
  unfold Lit
  have h := M.inside hx he
  rw [hf.1, hf.2.1]
  refine ⟨fun q => ⟨h.1 q.1, ?_⟩, fun q => ⟨h.2 q.1, ?_⟩⟩
  · have := q.2
    rwa [M.target x e hx he, hf.2.2 _ (mem_pixels.1 (h.1 q.1))] at this
  · rw [M.target x e hx he, hf.2.2 _ (mem_pixels.1 q.1)]
    exact q.2

theorem visits_moved {n : Nat} (inj : ∀ d e : List Int, d.length = n → e.length = n → δ d = δ e → d = e)
    {paths paths' : List (List (List Int))} (hp : (paths.map fun p => p.map δ).Perm paths')
    (hl : ∀ p ∈ paths, ∀ e ∈ p, e.length = n) {d : List Int} (hd : d.length = n) :
    visits paths' (δ d) = visits paths d := by
  unfold visits
  rw [← (hp.map _).sum_eq, List.map_map]
  congr 1
  refine List.map_congr_left fun p h => ?_
  exact count_map_on inj hd (hl p h)

theorem reached_moved (M : Motion periodic shape shape' τ δ) (hf : Moved shape shape' τ f f')
    (inj : ∀ d e : List Int, d.length = shape.length → e.length = shape.length → δ d = δ e → d = e)
    {paths paths' : List (List (List Int))} (hp : (paths.map fun p => p.map δ).Perm paths')
    (hl : ∀ p ∈ paths, ∀ e ∈ p, e.length = shape.length) {d : List Int} (hd : d.length = shape.length) :
    reached periodic f' paths' (δ d) = reached periodic f paths d := by
  unfold reached
  rw [← (hp.map _).sum_eq, List.map_map]
  congr 1
  refine List.map_congr_left fun p h => ?_
  simp only [Function.comp]
  rw [hf.1, hf.2.1, ← (M.perm.map _).sum_eq, List.map_map]
  congr 1
  refine List.map_congr_left fun x hx => ?_
  have hx := mem_pixels.1 hx
  simp only [Function.comp]
  rw [List.takeWhile_map, takeWhile_congr' (q := fun e => decide (Lit periodic f x e))]
  · exact count_map_on inj hd fun e he => hl p h e ((List.takeWhile_sublist _).subset he)
  · intro e he
    simp only [Function.comp, decide_eq_decide]
    exact lit_moved M hf hx (hl p h e he)

/-- L of a moved image is the moved L, if the motion moves paths to paths. -/
theorem L_moved (M : Motion periodic shape shape' τ δ) (T : Turn mode roi roi' δ)
    (L : Legal periodic shape roi) (L' : Legal periodic shape' roi') (hf : Moved shape shape' τ f f')
    {junk : ℚ} {fuel : Nat} (hm : Enough fuel roi mode) (hm' : Enough fuel roi' mode) (pow05 : K → K) (dbg : Bool) :
    ∃ r r', Api.L pow05 dbg junk fuel roi f periodic mode = ok r ∧
      Api.L pow05 dbg junk fuel roi' f' periodic mode = ok r' ∧ r.shape = roi ∧ r'.shape = roi' ∧
      ∀ i i', InBox roi i → InBox roi' i' → displacement roi' i' = δ (displacement roi i) →
        val r' i' = val r i := by
  obtain ⟨P, hP⟩ := choose_paths junk L.rank hm
  obtain ⟨P', hP'⟩ := choose_paths junk L'.rank hm'
  obtain ⟨r, h1, h2, h3⟩ := L_value (f := f) (hf.1.symm ▸ L) hP pow05 dbg
  obtain ⟨r', h1', h2', h3'⟩ := L_value (f := f') (hf.2.1.symm ▸ L') hP' pow05 dbg
  refine ⟨r, r', h1, h1', h2, h2', fun i i' hi hi' e => ?_⟩
  have hp := T.paths L'.rank hP hP'
  have hd := displacement_len L hi
  have hs := L.same
  have hlen : ∀ p ∈ (edge roi).map P, ∀ e ∈ p, e.length = shape.length := by
    intro p h e he
    obtain ⟨s, hs', rfl⟩ := List.mem_map.1 h
    rw [((hP s hs').mem e he).1, hs]
  have inj := T.inj
  rw [← hs] at inj
  rw [h3 i hi, h3' i' hi', e, reached_moved M hf inj hp hlen hd, visits_moved inj hp hlen hd, hf.1, hf.2.1,
    ← M.perm.length_eq, List.length_map]

theorem valueAt_moved {α : Type} [Zero α] {a a' : Nd α} (M : Motion periodic shape shape' τ δ)
    (ha : Moved shape shape' τ a a') {x e : List Int} (hx : InBox shape x) (he : e.length = shape.length) :
    valueAt periodic a' (τ x) (δ e) = valueAt periodic a x e := by
  unfold valueAt
  have h := M.inside hx he
  rw [ha.1, ha.2.1]
  by_cases q : target periodic shape x e ∈ pixels shape
  · rw [if_pos q, if_pos (h.2 q), M.target x e hx he, ha.2.2 _ (mem_pixels.1 q)]
  · rw [if_neg q, if_neg fun h' => q (h.1 h')]

theorem samples_moved (M : Motion periodic shape shape' τ δ) (hf : Moved shape shape' τ f f')
    (hfm : Moved shape shape' τ fmask fmask') (hcl : Moved shape shape' τ clusters clusters')
    (hce : Moved shape shape' τ centers centers')
    (inj : ∀ d e : List Int, d.length = shape.length → e.length = shape.length → δ d = δ e → d = e)
    {paths paths' : List (List (List Int))} (hp : (paths.map fun p => p.map δ).Perm paths')
    (hl : ∀ p ∈ paths, ∀ e ∈ p, e.length = shape.length) {d : List Int} (hd : d.length = shape.length) :
    (samples periodic f fmask clusters centers (fun _ p => p.tail) paths d).Perm
      (samples periodic f' fmask' clusters' centers' (fun _ p => p.tail) paths' (δ d)) := by
  unfold samples
  refine List.Perm.trans ?_ (hp.flatMap_right _)
  rw [List.flatMap_map]
  refine List.Perm.flatMap_left _ fun p h => ?_
  rw [hf.1, hf.2.1]
  refine List.Perm.trans ?_ ((M.perm.filter _).flatMap_right _)
  rw [List.filter_map, List.flatMap_map]
  refine List.Perm.of_eq ?_
  have e : (pixels shape).filter ((fun x => decide (IsCentre clusters' centers' x)) ∘ τ) =
      (pixels shape).filter fun x => IsCentre clusters centers x := by
    refine List.filter_congr fun x hx => ?_
    have hx := mem_pixels.1 hx
    simp only [Function.comp, IsCentre, hcl.2.2 x hx, hce.2.2 x hx]
  rw [e]
  refine congrArg List.flatten (List.map_congr_left fun x hx => ?_)
  have hx := mem_pixels.1 (List.mem_of_mem_filter hx)
  dsimp only
  rw [← List.map_tail, List.zip_map, List.filter_map, List.map_map]
  have key : ∀ ab ∈ p.zip p.tail, ab.1.length = shape.length ∧ ab.2.length = shape.length := by
    rintro ⟨a, b⟩ hab
    have := List.of_mem_zip hab
    exact ⟨hl p h a this.1, hl p h b (List.mem_of_mem_tail this.2)⟩
  have e : (p.zip p.tail).filter ((fun ab => decide (ab.1 = δ d ∧ valueAt periodic fmask' (τ x) ab.2 = 0)) ∘
      Prod.map δ δ) = (p.zip p.tail).filter fun ab => ab.1 = d ∧ valueAt periodic fmask x ab.2 = 0 := by
    refine List.filter_congr fun ab hab => ?_
    obtain ⟨k1, k2⟩ := key ab hab
    simp only [Function.comp, Prod.map, valueAt_moved M hfm hx k2, decide_eq_decide]
    refine and_congr_left fun _ => ⟨fun q => inj _ _ k1 hd q, fun q => by rw [q]⟩
  rw [e]
  refine List.map_congr_left fun ab hab => ?_
  obtain ⟨k1, k2⟩ := key ab (List.mem_of_mem_filter hab)
  simp only [Function.comp, Prod.map, valueAt_moved M hf hx k2]

theorem averageOf_perm {l l' : List K} (h : l.Perm l') : averageOf l = averageOf l' := by
  unfold averageOf
  rw [h.length_eq, h.sum_eq]

/-- W2c of moved images is the moved W2c, if the motion moves paths to paths. -/
theorem W2c_moved (M : Motion periodic shape shape' τ δ) (T : Turn mode roi roi' δ)
    (L : Legal periodic shape roi) (L' : Legal periodic shape' roi') (h3 : FlatOrEqual roi)
    (h3' : FlatOrEqual roi') (hf : Moved shape shape' τ f f') (hfm : Moved shape shape' τ fmask fmask')
    (hcl : Moved shape shape' τ clusters clusters') (hce : Moved shape shape' τ centers centers')
    (bf : IsMask fmask) (bf' : IsMask fmask')
    {junk : ℚ} {fuel : Nat} (hm : Enough fuel roi mode) (hm' : Enough fuel roi' mode) (pow05 : K → K) (dbg : Bool) :
    ∃ r r', Api.W2cMask pow05 dbg junk fuel roi clusters centers f fmask mode periodic = ok r ∧
      Api.W2cMask pow05 dbg junk fuel roi' clusters' centers' f' fmask' mode periodic = ok r' ∧
      r.shape = roi ∧ r'.shape = roi' ∧
      ∀ i i', InBox roi i → InBox roi' i' → displacement roi' i' = δ (displacement roi i) →
        val r' i' = val r i := by
  obtain ⟨P, hP⟩ := choose_paths junk L.rank hm
  obtain ⟨P', hP'⟩ := choose_paths junk L'.rank hm'
  obtain ⟨r, h1, h2, k3⟩ := C47_code (f := f) (hf.1.symm ▸ L) h3 (hfm.1.trans hf.1.symm)
    (hcl.1.trans hf.1.symm) (hce.1.trans hf.1.symm) bf hm ((paths_unique L.rank hP).2 rfl) pow05 dbg
  obtain ⟨r', h1', h2', k3'⟩ := C47_code (f := f') (hf.2.1.symm ▸ L') h3' (hfm.2.1.trans hf.2.1.symm)
    (hcl.2.1.trans hf.2.1.symm) (hce.2.1.trans hf.2.1.symm) bf' hm' ((paths_unique L'.rank hP').2 rfl) pow05 dbg
  refine ⟨r, r', h1, h1', h2, h2', fun i i' hi hi' e => ?_⟩
  have hp := T.paths L'.rank hP hP'
  have hd := displacement_len L hi
  have hs := L.same
  have hlen : ∀ p ∈ (edge roi).map P, ∀ e ∈ p, e.length = shape.length := by
    intro p h e he
    obtain ⟨s, hs', rfl⟩ := List.mem_map.1 h
    rw [((hP s hs').mem e he).1, hs]
  have inj := T.inj
  rw [← hs] at inj
  rw [k3 i hi, k3' i' hi', e]
  exact (averageOf_perm (samples_moved M hf hfm hcl hce inj hp hlen hd)).symm

theorem turn_path (hr : roi.length ≤ 3) {Δ : List Int → List Int}
    (hraise : ∀ d, d.length = roi.length → raise (δ d) = Δ (raise d))
    (hz : δ (List.replicate roi.length 0) = List.replicate roi.length 0)
    (hpath : ∀ (junk : ℚ) (fuel : Nat) y, y.length = 3 → y ≠ [0, 0, 0] →
      Path.path junk fuel [0, 0, 0] (Δ y) mode =
        (Path.path junk fuel [0, 0, 0] y mode).map fun ret => ret.map Δ)
    (junk : ℚ) (fuel : Nat) (s : List Int) (p : List (List Int)) (hs : s ∈ edge roi)
    (h : IsPath junk fuel mode roi s p) :
    Path.path junk fuel [0, 0, 0] (raise (δ s)) mode = ok ((p.map δ).map raise) := by
  obtain ⟨i, hi, e⟩ := mem_edge hs
  have hl : s.length = roi.length := by rw [e, displacement_length (inbox_length hi)]
  by_cases h0 : s = List.replicate roi.length 0
  · have hp : p.map δ = p := by
      conv_rhs => rw [← List.map_id p]
      refine List.map_congr_left fun e he => ?_
      rw [h.stay h0 e he, hz]
      rfl
    rw [hp, h0, hz, ← h0, h.path]
  · have hz3 : raise (List.replicate roi.length 0) = [0, 0, 0] := by
      rcases length_cases hr with e | ⟨a, e⟩ | ⟨a, b, e⟩ | ⟨a, b, c, e⟩ <;> rw [e] <;> rfl
    have h3 : (raise s).length = 3 := by
      rcases length_cases (show s.length ≤ 3 by omega) with e | ⟨a, e⟩ | ⟨a, b, e⟩ | ⟨a, b, c, e⟩ <;>
        rw [e] <;> rfl
    rw [hraise s hl, hpath junk fuel _ h3 (fun q => h0 ?_), h.path]
    · simp only [Outcome.map, ok.injEq, List.map_map]
      refine List.map_congr_left fun e he => ?_
      simp only [Function.comp]
      rw [hraise e (h.mem e he).1]
    · rw [← hz3] at q
      exact (raise_inj (by omega) (by simp [hl])).1 q

/-! #### reflections -/

/-- The signs of a reflection. -/
def signs (r : List Bool) : List Int := r.map fun b => if b then -1 else 1

theorem mirrorStep_eq : ∀ (r : List Bool) (d : List Int), mirrorStep r d = reflectPt (signs r) d
  | [], d => by cases d <;> rfl
  | b :: r, [] => rfl
  | b :: r, i :: d => by
    have := mirrorStep_eq r d
    simp only [mirrorStep, signs, reflectPt, List.map_cons, List.zipWith_cons_cons] at this ⊢
    rw [this]
    cases b <;> simp

theorem signs_sign (r : List Bool) : ∀ a ∈ signs r, a = 1 ∨ a = -1 := by
  intro a ha
  obtain ⟨b, -, rfl⟩ := List.mem_map.1 ha
  cases b <;> simp

theorem mirrorStep_twice : ∀ {r : List Bool} {d : List Int}, d.length = r.length →
    mirrorStep r (mirrorStep r d) = d
  | [], [], _ => rfl
  | b :: r, i :: d, h => by
    have := mirrorStep_twice (r := r) (d := d) (by simpa using h)
    simp only [mirrorStep, this]
    cases b <;> simp

theorem mirrorStep_length : ∀ {r : List Bool} {d : List Int}, d.length = r.length →
    (mirrorStep r d).length = d.length
  | [], [], _ => rfl
  | b :: r, i :: d, h => by
    have := mirrorStep_length (r := r) (d := d) (by simpa using h)
    simp only [mirrorStep, List.length_cons, this]

/-- With an odd number of pixels along each axis the centre stays at its place. -/
theorem mirror_displacement : ∀ {s : List Nat} {r : List Bool} {i : List Int}, (∀ n ∈ s, n % 2 = 1) →
    r.length = s.length → i.length = s.length →
    displacement s (mirror s r i) = mirrorStep r (displacement s i)
  | [], [], [], _, _, _ => rfl
  | n :: s, b :: r, a :: i, h, h1, h2 => by
    have ih := mirror_displacement (s := s) (r := r) (i := i) (fun m hm => h m (by simp [hm]))
      (by simpa using h1) (by simpa using h2)
    have hn := h n (by simp)
    simp only [displacement, mirror, mirrorStep, List.zipWith_cons_cons] at ih ⊢
    rw [ih]
    congr 1
    cases b
    · simp
    · simp only [if_true]; omega

theorem mirror_onEdge {s : List Nat} {r : List Bool} {i : List Int} (h1 : r.length = s.length)
    (h2 : i.length = s.length) : OnEdge s (mirror s r i) ↔ OnEdge s i := by
  unfold OnEdge
  refine exists_congr fun k => and_congr_right fun hk => and_congr_right fun h => ?_
  clear h
  have : (mirror s r i).getD k 0 = if r.getD k false then (s.getD k 0 : Int) - 1 - i.getD k 0 else i.getD k 0 := by
    induction s generalizing r i k with
    | nil => simp at hk
    | cons n s ih =>
      match r, i, h1, h2 with
      | b :: r, a :: i, h1, h2 =>
        cases k with
        | zero => simp [mirror]
        | succ k =>
          have := ih (by simpa using h1) (by simpa using h2) k (by simpa using hk)
          simpa [mirror] using this
  rw [this]
  split
  · omega
  · rfl

theorem turn_reflect {r : List Bool} (hr : roi.length ≤ 3) (hodd : ∀ n ∈ roi, n % 2 = 1)
    (hl : r.length = roi.length) (mode : Path.Mode) : Turn mode roi roi (mirrorStep r) where
  len d hd := by rw [mirrorStep_length (by omega), hd]
  inj d e hd he h := by rw [← mirrorStep_twice (r := r) (d := d) (by omega), h, mirrorStep_twice (by omega)]
  edges := by
    unfold edge
    have hp := (C82_reflect (periodic := true) hl).perm.filter fun i => decide (OnEdge roi i)
    refine List.Perm.trans (List.Perm.of_eq ?_) (hp.map _)
    rw [List.filter_map, List.map_map, List.map_map]
    have e : (pixels roi).filter ((fun i => decide (OnEdge roi i)) ∘ mirror roi r) =
        (pixels roi).filter fun i => OnEdge roi i := by
      refine List.filter_congr fun i hi => ?_
      simp only [Function.comp, mirror_onEdge hl (inbox_length (mem_pixels.1 hi))]
    rw [e]
    refine List.map_congr_left fun i hi => ?_
    have hi := inbox_length (mem_pixels.1 (List.mem_of_mem_filter hi))
    simp only [Function.comp, mirror_displacement hodd hl hi]
  path := by
    have key : ∃ s : List Int, s.length = 3 ∧ (∀ a ∈ s, a = 1 ∨ a = -1) ∧
        ∀ d, d.length = roi.length → raise (mirrorStep r d) = reflectPt s (raise d) := by
      have hs := signs_sign r
      rcases length_cases (show r.length ≤ 3 by omega) with rfl | ⟨a, rfl⟩ | ⟨a, b, rfl⟩ | ⟨a, b, c, rfl⟩
      · refine ⟨[1, 1, 1], rfl, by simp, fun d hd => ?_⟩
        match d, hd with
        | [], _ => rfl
        | _ :: _, hd => simp at hl hd; omega
      · refine ⟨1 :: signs [a] ++ [1], rfl, ?_, fun d hd => ?_⟩
        · intro x hx
          rcases List.mem_append.1 hx with hx | hx
          · rcases List.mem_cons.1 hx with hx | hx
            · exact Or.inl hx
            · exact hs _ hx
          · simp at hx; simp [hx]
        match d, hd.trans hl.symm with
        | [i], _ => simp [mirrorStep_eq, signs, reflectPt, raise]
      · refine ⟨signs [a, b] ++ [1], rfl, ?_, fun d hd => ?_⟩
        · intro x hx
          rcases List.mem_append.1 hx with hx | hx
          · exact hs _ hx
          · simp at hx; simp [hx]
        match d, hd.trans hl.symm with
        | [i, j], _ => simp [mirrorStep_eq, signs, reflectPt, raise]
      · refine ⟨signs [a, b, c], rfl, hs, fun d hd => ?_⟩
        match d, hd.trans hl.symm with
        | [i, j, k], _ => simp [mirrorStep_eq, signs, reflectPt, raise]
    obtain ⟨s, hs1, hs2, hs3⟩ := key
    refine turn_path hr hs3 ?_ ?_
    · rw [← hl]
      clear * -
      induction r with
      | nil => rfl
      | cons b r ih => simp only [List.length_cons, List.replicate_succ, mirrorStep, ih]; simp
    · intro junk fuel y hy h0
      have := C87_reflect junk fuel (x0 := [0, 0, 0]) (x1 := y) (s := s) (by simp) (by simp [hy]) (by simp [hs1])
        hs2 (mode := mode) (fun _ q => h0 q.symm)
      rwa [show reflectPt s [0, 0, 0] = [0, 0, 0] by
        match s, hs1 with
        | [a, b, c], _ => simp [reflectPt]] at this

/-! #### permutations of the axes -/

theorem axes_displacement {σ : List Nat} {i : List Int} (hσ : σ.Perm (List.range roi.length))
    (hi : i.length = roi.length) : displacement (axes σ roi) (axes σ i) = axes σ (displacement roi i) := by
  unfold displacement
  exact Path.axes_zipWith hσ hi _

theorem axes_onEdge {σ : List Nat} {i : List Int} (hσ : σ.Perm (List.range roi.length))
    (_hi : i.length = roi.length) : OnEdge (axes σ roi) (axes σ i) ↔ OnEdge roi i := by
  unfold OnEdge
  have hl : σ.length = roi.length := by simpa using hσ.length_eq
  rw [axes_length]
  constructor
  · rintro ⟨k, hk, h⟩
    have e1 := axes_getD roi hk
    have e2 := axes_getD i hk
    simp only [Nat.default_eq_zero, Int.default_eq_zero] at e1 e2
    rw [e1, e2] at h
    exact ⟨σ[k], perm_lt hσ hk, h⟩
  · rintro ⟨k, hk, h⟩
    have hm : k ∈ σ := hσ.mem_iff.2 (by simpa using hk)
    obtain ⟨j, hj, rfl⟩ := List.getElem_of_mem hm
    have e1 := axes_getD roi hj
    have e2 := axes_getD i hj
    simp only [Nat.default_eq_zero, Int.default_eq_zero] at e1 e2
    exact ⟨j, hj, by rw [e1, e2]; exact h⟩

theorem turn_axes {σ : List Nat} (hr : roi.length ≤ 3) (hσ : σ.Perm (List.range roi.length))
    (hm : mode ≠ .full) : Turn mode roi (axes σ roi) (axes σ) where
  len d hd := by rw [axes_length, axes_length]
  inj d e hd he h := by
    rw [← axes_inverse (σ := σ) (x := d) (by rwa [hd]), h, axes_inverse (by rwa [he])]
  edges := by
    unfold edge
    have hp := (C82_axes (periodic := true) hσ).perm.filter fun i => decide (OnEdge (axes σ roi) i)
    refine List.Perm.trans (List.Perm.of_eq ?_) (hp.map _)
    rw [List.filter_map, List.map_map, List.map_map]
    have e : (pixels roi).filter ((fun i => decide (OnEdge (axes σ roi) i)) ∘ axes σ) =
        (pixels roi).filter fun i => OnEdge roi i := by
      refine List.filter_congr fun i hi => ?_
      simp only [Function.comp, axes_onEdge hσ (inbox_length (mem_pixels.1 hi))]
    rw [e]
    refine List.map_congr_left fun i hi => ?_
    have hi := inbox_length (mem_pixels.1 (List.mem_of_mem_filter hi))
    simp only [Function.comp, axes_displacement hσ hi]
  path := by
    have hl : σ.length = roi.length := by simpa using hσ.length_eq
    have hlt : ∀ k ∈ σ, k < roi.length := fun k hk => by simpa using hσ.mem_iff.1 hk
    have key : ∃ ρ : List Nat, ρ.Perm (List.range 3) ∧
        ∀ d, d.length = roi.length → raise (axes σ d) = permutePt ρ (raise d) := by
      rcases length_cases hr with e | ⟨a, e⟩ | ⟨a, b, e⟩ | ⟨a, b, c, e⟩
      · refine ⟨[0, 1, 2], .refl _, fun d hd => ?_⟩
        rw [e] at hd hl
        match d, σ, hd, hl with
        | [], [], _, _ => rfl
      · refine ⟨[0, 1, 2], .refl _, fun d hd => ?_⟩
        rw [e] at hd hl hlt
        match d, σ, hd, hl, hlt with
        | [i], [k], _, _, hlt =>
          have : k = 0 := by simpa using hlt
          subst this
          rfl
      · refine ⟨σ ++ [2], ?_, fun d hd => ?_⟩
        · rw [show List.range 3 = List.range 2 ++ [2] from rfl]
          rw [e] at hσ
          exact hσ.append_right _
        rw [e] at hd hl hlt
        match d, σ, hd, hl, hlt with
        | [i, j], [k, l], _, _, hlt =>
          have h1 : k < 2 := hlt k (by simp)
          have h2 : l < 2 := hlt l (by simp)
          interval_cases k <;> interval_cases l <;> rfl
      · refine ⟨σ, by rwa [e] at hσ, fun d hd => ?_⟩
        rw [e] at hd hl
        match d, σ, hd, hl with
        | [i, j, m], [k, l, n], _, _ => rfl
    obtain ⟨ρ, hρ, hρ'⟩ := key
    refine turn_path hr hρ' ?_ ?_
    · refine List.eq_replicate_iff.2 ⟨by rw [axes_length, hl], fun a ha => ?_⟩
      obtain ⟨k, hk, rfl⟩ := List.mem_map.1 ha
      have := hlt k hk
      simp [List.getD, this]
    · intro junk fuel y hy h0
      have := C87_permute_partial junk fuel (x0 := [0, 0, 0]) (x1 := y) (σ := ρ) (by simp) (by simp [hy])
        (by simpa using hρ) (mode := mode) (fun _ q => h0 q.symm) hm
      rwa [show permutePt ρ [0, 0, 0] = [0, 0, 0] by
        have hn := hρ.length_eq
        refine List.eq_replicate_iff (n := 3).2 ⟨by simpa [permutePt] using hn, fun a ha => ?_⟩
        obtain ⟨k, hk, rfl⟩ := List.mem_map.1 ha
        have : k < 3 := by simpa using hρ.mem_iff.1 hk
        interval_cases k <;> rfl] at this

/-! #### L and W2c -/

theorem legal_axes {σ : List Nat} (L : Legal periodic shape roi) (hσ : σ.Perm (List.range shape.length)) :
    Legal periodic (axes σ shape) (axes σ roi) where
  rank := by
    have := L.rank
    have := L.same
    have hl : σ.length = shape.length := by simpa using hσ.length_eq
    rw [axes_length]; omega
  pos h := by
    obtain ⟨k, hk, h0⟩ := List.mem_map.1 h
    have hlt : k < shape.length := by simpa using hσ.mem_iff.1 hk
    have := L.same
    refine L.pos ?_
    rw [← h0]
    have : k < roi.length := by omega
    simp [List.getD, this]
  same := by rw [axes_length, axes_length]
  fits h := by
    have hf := L.fits h
    have hl : σ.length = shape.length := by simpa using hσ.length_eq
    rw [List.forall₂_iff_get] at hf ⊢
    refine ⟨by rw [axes_length, axes_length], fun k h1 h2 => ?_⟩
    have hk : k < σ.length := by rwa [axes_length] at h1
    have hlt := perm_lt hσ hk
    have hlt' : σ[k] < roi.length := by have := L.same; omega
    have := hf.2 σ[k] hlt hlt'
    simpa [Props.axes, List.getD, hlt, hlt'] using this

theorem enough_axes {σ : List Nat} {fuel : Nat} (hσ : σ.Perm (List.range roi.length))
    (h : Enough fuel roi mode) : Enough fuel (axes σ roi) mode := by
  intro hm
  have hp : (axes σ roi).Perm roi := Path.axes_perm_self hσ
  obtain ⟨h1, h2⟩ := h hm
  exact ⟨fun n hn => h1 n (hp.mem_iff.1 hn), by rwa [hp.sum_eq]⟩

/-- L of the reflected image is the reflected L, if the region of interest has odd sizes. `r`: the axes that
are reflected. -/
theorem C87_L_reflect {r : List Bool} (hr : r.length = shape.length) (L : Legal periodic shape roi)
    (hodd : ∀ n ∈ roi, n % 2 = 1) (hf : Moved shape shape (mirror shape r) f f')
    {junk : ℚ} {fuel : Nat} (hm : Enough fuel roi mode) (pow05 : K → K) (dbg : Bool) :
    ∃ R R', Api.L pow05 dbg junk fuel roi f periodic mode = ok R ∧
      Api.L pow05 dbg junk fuel roi f' periodic mode = ok R' ∧ R.shape = roi ∧ R'.shape = roi ∧
      ∀ i, InBox roi i → val R' (mirror roi r i) = val R i := by
  have hs := L.same
  obtain ⟨R, R', h1, h2, h3, h4, h5⟩ := L_moved (C82_reflect hr)
    (turn_reflect (r := r) L.rank hodd (by omega) mode) L L hf hm hm pow05 dbg
  exact ⟨R, R', h1, h2, h3, h4, fun i hi => h5 i _ hi (mirror_inbox (by omega) hi)
    (mirror_displacement hodd (by omega) (inbox_length hi))⟩

/-- L of the image with permuted axes is L with permuted axes. Missing: mode `full`, see `C87_violated`. -/
theorem C87_L_axes_partial {σ : List Nat} (hσ : σ.Perm (List.range shape.length)) (L : Legal periodic shape roi)
    (hf : Moved shape (axes σ shape) (axes σ) f f') {junk : ℚ} {fuel : Nat} (hfull : mode ≠ .full)
    (hm : Enough fuel roi mode) (pow05 : K → K) (dbg : Bool) :
    ∃ R R', Api.L pow05 dbg junk fuel roi f periodic mode = ok R ∧
      Api.L pow05 dbg junk fuel (axes σ roi) f' periodic mode = ok R' ∧ R.shape = roi ∧ R'.shape = axes σ roi ∧
      ∀ i, InBox roi i → val R' (axes σ i) = val R i := by
  have hσ' : σ.Perm (List.range roi.length) := by rwa [← L.same]
  obtain ⟨R, R', h1, h2, h3, h4, h5⟩ := L_moved (C82_axes hσ) (turn_axes L.rank hσ' hfull) L (legal_axes L hσ) hf hm
    (enough_axes hσ' hm) pow05 dbg
  exact ⟨R, R', h1, h2, h3, h4, fun i hi => h5 i _ hi (axes_inbox hσ' hi)
    (axes_displacement hσ' (inbox_length hi))⟩

/-- W2c of reflected images is the reflected W2c, if the region of interest has odd sizes. -/
theorem C87_W2c_reflect {r : List Bool} (hr : r.length = shape.length) (L : Legal periodic shape roi)
    (h3 : FlatOrEqual roi) (hodd : ∀ n ∈ roi, n % 2 = 1) (hf : Moved shape shape (mirror shape r) f f')
    (hfm : Moved shape shape (mirror shape r) fmask fmask')
    (hcl : Moved shape shape (mirror shape r) clusters clusters')
    (hce : Moved shape shape (mirror shape r) centers centers') (bf : IsMask fmask) (bf' : IsMask fmask')
    {junk : ℚ} {fuel : Nat} (hm : Enough fuel roi mode) (pow05 : K → K) (dbg : Bool) :
    ∃ R R', Api.W2cMask pow05 dbg junk fuel roi clusters centers f fmask mode periodic = ok R ∧
      Api.W2cMask pow05 dbg junk fuel roi clusters' centers' f' fmask' mode periodic = ok R' ∧
      R.shape = roi ∧ R'.shape = roi ∧ ∀ i, InBox roi i → val R' (mirror roi r i) = val R i := by
  have hs := L.same
  obtain ⟨R, R', h1, h2, k3, h4, h5⟩ := W2c_moved (C82_reflect hr)
    (turn_reflect (r := r) L.rank hodd (by omega) mode) L L h3 h3 hf hfm hcl hce bf bf' hm hm pow05 dbg
  exact ⟨R, R', h1, h2, k3, h4, fun i hi => h5 i _ hi (mirror_inbox (by omega) hi)
    (mirror_displacement hodd (by omega) (inbox_length hi))⟩

/-- W2c of images with permuted axes is W2c with permuted axes. Missing: mode `full`. -/
theorem C87_W2c_axes_partial {σ : List Nat} (hσ : σ.Perm (List.range shape.length))
    (L : Legal periodic shape roi) (h3 : FlatOrEqual roi) (h3' : FlatOrEqual (axes σ roi))
    (hf : Moved shape (axes σ shape) (axes σ) f f') (hfm : Moved shape (axes σ shape) (axes σ) fmask fmask')
    (hcl : Moved shape (axes σ shape) (axes σ) clusters clusters')
    (hce : Moved shape (axes σ shape) (axes σ) centers centers') (bf : IsMask fmask) (bf' : IsMask fmask')
    {junk : ℚ} {fuel : Nat} (hfull : mode ≠ .full) (hm : Enough fuel roi mode) (pow05 : K → K) (dbg : Bool) :
    ∃ R R', Api.W2cMask pow05 dbg junk fuel roi clusters centers f fmask mode periodic = ok R ∧
      Api.W2cMask pow05 dbg junk fuel (axes σ roi) clusters' centers' f' fmask' mode periodic = ok R' ∧
      R.shape = roi ∧ R'.shape = axes σ roi ∧ ∀ i, InBox roi i → val R' (axes σ i) = val R i := by
  have hσ' : σ.Perm (List.range roi.length) := by rwa [← L.same]
  obtain ⟨R, R', h1, h2, k3, h4, h5⟩ := W2c_moved (C82_axes hσ) (turn_axes L.rank hσ' hfull) L (legal_axes L hσ) h3 h3'
    hf hfm hcl hce bf bf' hm (enough_axes hσ' hm) pow05 dbg
  exact ⟨R, R', h1, h2, k3, h4, fun i hi => h5 i _ hi (axes_inbox hσ' hi)
    (axes_displacement hσ' (inbox_length hi))⟩

/-- In mode `full` the result depends on the order of the axes: the image `[[1, 1], [0, 1]]` and its
transpose, at the displacement `(1, 1)`. -/
theorem C87_violated : ∃ (f f' : Nd ℚ) (R R' : Nd ℚ),
    Legal false f.shape [3, 3] ∧ Enough 10 [3, 3] .full ∧ Moved [2, 2] (axes [1, 0] [2, 2]) (axes [1, 0]) f f' ∧
    Api.L id true (0 : ℚ) 10 [3, 3] f false .full = ok R ∧
    Api.L id true (0 : ℚ) 10 (axes [1, 0] [3, 3]) f' false .full = ok R' ∧
    val R' (axes [1, 0] [2, 2]) ≠ val R [2, 2] := by
  refine ⟨Nd.ofList [2, 2] [1, 1, 0, 1], Nd.ofList [2, 2] [1, 0, 1, 1], ?_⟩
  have h : ((Api.L id true (0 : ℚ) 10 [3, 3] (Nd.ofList [2, 2] [1, 1, 0, 1]) false .full).map
      fun (r : Nd ℚ) => val r [2, 2]) = ok 0 := by decide +kernel
  have h' : ((Api.L id true (0 : ℚ) 10 [3, 3] (Nd.ofList [2, 2] [1, 0, 1, 1]) false .full).map
      fun (r : Nd ℚ) => val r [2, 2]) = ok (1 / 4) := by decide +kernel
  have hM : ∀ x ∈ pixels [2, 2], val (Nd.ofList [2, 2] [1, 0, 1, 1] : Nd ℚ) (axes [1, 0] x) =
      val (Nd.ofList [2, 2] [1, 1, 0, 1] : Nd ℚ) x := by decide +kernel
  have L : Legal false [2, 2] [3, 3] := ⟨by decide, by decide, rfl, fun h => by cases h⟩
  cases hR : Api.L (K := ℚ) id true (0 : ℚ) 10 [3, 3] (Nd.ofList [2, 2] [1, 1, 0, 1]) false .full with
  | ok R =>
    cases hR' : Api.L (K := ℚ) id true (0 : ℚ) 10 [3, 3] (Nd.ofList [2, 2] [1, 0, 1, 1]) false .full with
    | ok R' =>
      refine ⟨R, R', L, fun _ => ⟨by decide, by decide⟩, ⟨rfl, rfl, fun x hx => hM x (mem_pixels.2 hx)⟩, rfl,
        hR', ?_⟩
      rw [hR] at h
      rw [hR'] at h'
      simp only [Outcome.map, ok.injEq] at h h'
      rw [show axes [1, 0] ([2, 2] : List Int) = [2, 2] from rfl, h, h']
      norm_num
    | throws => rw [hR'] at h'; cases h'
    | ub => rw [hR'] at h'; cases h'
    | diverge => rw [hR'] at h'; cases h'
  | throws => rw [hR] at h; cases h
  | ub => rw [hR] at h; cases h
  | diverge => rw [hR] at h; cases h

/-- The hypotheses are met. -/
example : Legal true [4, 5] [3, 5] ∧ (∀ n ∈ [3, 5], n % 2 = 1) ∧ Enough 100 [3, 5] .full ∧
    FlatOrEqual [3, 5] ∧ FlatOrEqual (axes [1, 0] [3, 5]) ∧ [1, 0].Perm (List.range [4, 5].length) ∧
    Moved [2, 2] [2, 2] (mirror [2, 2] [true, false]) (Nd.ofList [2, 2] [1, 2, 3, 4] : Nd ℚ)
      (Nd.ofList [2, 2] [3, 4, 1, 2]) ∧
    Moved [2, 2] (axes [1, 0] [2, 2]) (axes [1, 0]) (Nd.ofList [2, 2] [1, 2, 3, 4] : Nd ℚ)
      (Nd.ofList [2, 2] [1, 3, 2, 4]) := by
  refine ⟨⟨by decide, by decide, rfl, fun _ => by decide⟩, by decide, fun _ => ⟨by decide, by decide⟩,
    fun h => absurd h (by decide), fun h => absurd h (by decide), by decide, ⟨rfl, rfl, ?_⟩, ⟨rfl, rfl, ?_⟩⟩
  · have : ∀ x ∈ pixels [2, 2], val (Nd.ofList [2, 2] [3, 4, 1, 2] : Nd ℚ) (mirror [2, 2] [true, false] x) =
      val (Nd.ofList [2, 2] [1, 2, 3, 4] : Nd ℚ) x := by decide +kernel
    exact fun x hx => this x (mem_pixels.2 hx)
  · have : ∀ x ∈ pixels [2, 2], val (Nd.ofList [2, 2] [1, 3, 2, 4] : Nd ℚ) (axes [1, 0] x) =
      val (Nd.ofList [2, 2] [1, 2, 3, 4] : Nd ℚ) x := by decide +kernel
    exact fun x hx => this x (mem_pixels.2 hx)

/-- L of an image and of the image with its rows reversed, mode `full`. -/
example : ((Api.L id true (0 : ℚ) 10 [3, 3] (Nd.ofList [2, 2] [1, 1, 0, 1]) false .full).map
      fun (r : Nd ℚ) => (val r [1, 1], val r [2, 0], val r [2, 1])) = ok (3 / 4, 0, 1 / 4) ∧
    ((Api.L id true (0 : ℚ) 10 [3, 3] (Nd.ofList [2, 2] [0, 1, 1, 1]) false .full).map
      fun (r : Nd ℚ) => (val r [1, 1], val r [0, 0], val r [0, 1])) = ok (3 / 4, 0, 1 / 4) := by
  decide +kernel

end Verif.Props
