import Verif.Lemmas.Average
import Verif.Lemmas.OriginPath
import Verif.Spec.Lineal

/-! # The effect of a call of L -/

set_option linter.unusedSectionVars false

namespace Verif.Ens

open Verif Outcome Spec Cluster Nd

variable {K : Type} [Field K] [LinearOrder K] [IsStrictOrderedRing K]

theorem inSpace_eq (x : List Int) : inSpace x = raise x := by
  match x with
  | [] => rfl
  | [_] => rfl
  | [_, _] => rfl
  | _ :: _ :: _ :: _ => rfl

theorem raise_inj {x y : List Int} (h : x.length ≤ 3) (e : y.length = x.length) :
    raise x = raise y ↔ x = y := by
  cases same3 h e <;> simp [raise]

theorem origin_pad {R : List Nat} (h : ∀ n ∈ R, 0 < n) : origin (padWidth R) = ctr R := by
  simp only [origin, padWidth, ctr, List.map_map]
  refine List.map_congr_left fun n hn => ?_
  have := h n hn
  simp only [Function.comp]
  split <;> simp
  omega

theorem minus_ctr (R : List Nat) (x : List Int) : minus x (ctr R) = displacement R x := by
  induction R generalizing x with
  | nil => simp [minus, ctr, displacement]
  | cons n R ih =>
    cases x with
    | nil => simp [minus, ctr, displacement]
    | cons a x =>
      have := ih x
      simp only [minus, ctr, displacement, List.map_cons, List.zipWith_cons_cons] at this ⊢
      rw [this]

theorem onBoundary_iff : ∀ {s : List Nat} {x : List Int}, InBox s x →
    (onBoundary s x = true ↔ OnEdge s x) := by
  intro s
  induction s with
  | nil =>
    intro x h
    cases h
    simp [onBoundary, OnEdge]
  | cons n s ih =>
    intro x h
    cases h with
    | @cons _ a _ y h1 h2 =>
      have := ih h2
      have e : onBoundary (n :: s) (a :: y) = (!interior n a || onBoundary s y) := by
        simp [onBoundary]
      rw [e, Bool.or_eq_true, this]
      unfold OnEdge
      constructor
      · rintro (h | ⟨k, hk, h⟩)
        · refine ⟨0, by simp, ?_⟩
          simp only [List.getD_cons_zero]
          simp only [interior, Bool.not_eq_true'] at h
          split at h <;> simp at h <;> omega
        · exact ⟨k + 1, by simp; omega, by simpa using h⟩
      · rintro ⟨k, hk, h⟩
        cases k with
        | zero =>
          left
          simp only [List.getD_cons_zero] at h
          simp only [interior, Bool.not_eq_true']
          rw [if_pos (by omega)]
          simp
          omega
        | succ k => exact Or.inr ⟨k, by simpa using hk, by simpa using h⟩

theorem onEdge_raise {roi : List Nat} (hr : roi.length ≤ 3) {x : List Int} (e : x.length = roi.length) :
    OnEdge (shape3 roi) (raise x) ↔ OnEdge roi x := by
  have hs : ∀ {m : Nat} {P : Nat → Prop}, (∃ k < m + 1, P k) ↔ P m ∨ ∃ k < m, P k := by
    intro m P
    constructor
    · rintro ⟨k, hk, h⟩
      rcases Nat.lt_succ_iff_lt_or_eq.1 hk with h' | rfl
      · exact Or.inr ⟨k, h', h⟩
      · exact Or.inl h
    · rintro (h | ⟨k, hk, h⟩)
      · exact ⟨m, by omega, h⟩
      · exact ⟨k, by omega, h⟩
  cases same3 hr e <;> simp only [OnEdge, shape3, raise, List.length_cons, List.length_nil, hs] <;>
    simp

/-- The end points of the paths. -/
theorem stamps_eq {roi : List Nat} (hr : roi.length ≤ 3) (h0 : 0 ∉ roi) :
    stamps (shape3 roi) (padWidth (shape3 roi)) = (edge roi).map raise := by
  have hp := shape3_pos hr h0
  have e1 : (padWidth (shape3 roi)).map (fun p => (p.1 : Int)) = ctr (shape3 roi) := origin_pad hp
  rw [stamps, e1, loops_zero, pixels_raise hr, edge, List.map_map, List.filter_map, List.map_map]
  have e2 : (pixels roi).filter ((onBoundary (shape3 roi)) ∘ raise) =
      (pixels roi).filter fun i => OnEdge roi i := by
    refine List.filter_congr fun x hx => ?_
    rw [mem_pixels] at hx
    have hl := inbox_length hx
    rw [Bool.eq_iff_iff, Function.comp, onBoundary_iff ((inbox_raise hr hl).2 hx), onEdge_raise hr hl]
    simp
  rw [e2]
  refine List.map_congr_left fun x hx => ?_
  have hl := inbox_length (mem_pixels.1 (List.mem_of_mem_filter hx))
  simp only [Function.comp]
  rw [minus_ctr, displacement_raise hr hl]

theorem mem_edge {roi : List Nat} {s : List Int} (h : s ∈ edge roi) :
    ∃ i, InBox roi i ∧ s = displacement roi i := by
  obtain ⟨i, hi, rfl⟩ := List.mem_map.1 h
  exact ⟨i, mem_pixels.1 (List.mem_of_mem_filter hi), rfl⟩

/-- `p` is the path from the origin to `s`. -/
structure IsPath (junk : ℚ) (fuel : Nat) (mode : Path.Mode) (roi : List Nat) (s : List Int)
    (p : List (List Int)) : Prop where
  path : Path.path junk fuel [0, 0, 0] (raise s) mode = ok (p.map raise)
  head : ∃ rest, p = List.replicate roi.length 0 :: rest
  mem : ∀ e ∈ p, e.length = roi.length ∧ InBox roi (move (ctr roi) e)
  nodup : s ≠ List.replicate roi.length 0 → p.Nodup
  stay : s = List.replicate roi.length 0 → ∀ e ∈ p, e = List.replicate roi.length 0
  short : p.length ≤ max 1 roi.sum + 1

theorem lower {s : List Int} (hs : s.length ≤ 3) {x : List Int} (h : InSpan [0, 0, 0] (raise s) x) :
    ∃ y, y.length = s.length ∧ x = raise y ∧
      List.Forall₂ (fun a b : Int => Between 0 a b) s y := by
  obtain ⟨hl, h⟩ := h
  obtain ⟨a, b, c, rfl⟩ := Path.length3 hl
  have e0 := h 0 (by simp)
  have e1 := h 1 (by simp)
  have e2 := h 2 (by simp)
  rcases length_cases hs with rfl | ⟨s0, rfl⟩ | ⟨s0, s1, rfl⟩ | ⟨s0, s1, s2, rfl⟩ <;>
    simp only [raise, Between, List.getD_cons_zero, List.getD_cons_succ] at e0 e1 e2
  · refine ⟨[], rfl, ?_, .nil⟩
    simp only [raise, List.cons.injEq, and_true]
    omega
  · refine ⟨[b], rfl, ?_, .cons e1 .nil⟩
    simp only [raise, List.cons.injEq, and_true, true_and]
    omega
  · refine ⟨[a, b], rfl, ?_, .cons e0 (.cons e1 .nil)⟩
    simp only [raise, List.cons.injEq, and_true, true_and]
    omega
  · exact ⟨[a, b, c], rfl, rfl, .cons e0 (.cons e1 (.cons e2 .nil))⟩

theorem lower_list {s : List Int} (hs : s.length ≤ 3) : ∀ {l : List (List Int)},
    (∀ x ∈ l, InSpan [0, 0, 0] (raise s) x) →
    ∃ p : List (List Int), l = p.map raise ∧ ∀ y ∈ p, y.length = s.length ∧ List.Forall₂ (fun a b : Int => Between 0 a b) s y
  | [], _ => ⟨[], rfl, by simp⟩
  | x :: l, h => by
    obtain ⟨y, h1, h2, h3⟩ := lower hs (h x (by simp))
    obtain ⟨p, h4, h5⟩ := lower_list hs fun z hz => h z (List.mem_cons_of_mem _ hz)
    exact ⟨y :: p, by rw [h4, h2]; rfl, by simpa using ⟨⟨h1, h3⟩, h5⟩⟩

theorem raise_zero {n : Nat} (h : n ≤ 3) : raise (List.replicate n 0) = [0, 0, 0] := by
  match n, h with
  | 0, _ => rfl
  | 1, _ => rfl
  | 2, _ => rfl
  | 3, _ => rfl

theorem inbox_between : ∀ {roi : List Nat} {i y : List Int}, InBox roi i →
    List.Forall₂ (fun a b : Int => Between 0 a b) (displacement roi i) y → InBox roi (move (ctr roi) y)
  | [], [], y, _, h => by cases h; exact .nil
  | n :: roi, a :: i, y, hi, h => by
    cases hi with
    | cons h1 h2 =>
      cases h with
      | cons h3 h4 =>
        refine .cons ?_ (inbox_between h2 h4)
        unfold Between at h3
        beta_reduce at h3 ⊢
        omega

theorem manhattan_bound {roi : List Nat} (hr : roi.length ≤ 3) {i : List Int} (hi : InBox roi i) :
    manhattan [0, 0, 0] (raise (displacement roi i)) ≤ roi.sum := by
  have h := inbox_length hi
  cases same3 hr h <;>
    simp only [InBox, List.forall₂_cons, List.forall₂_nil_right_iff, and_true] at hi <;>
    simp only [displacement, raise, List.zipWith_cons_cons, List.zipWith_nil_left, Path.manhattan3,
      List.sum_cons, List.sum_nil] <;>
    omega

theorem isPath_exists (junk : ℚ) {fuel : Nat} {mode : Path.Mode} {roi : List Nat} (hr : roi.length ≤ 3)
    (hm : Enough fuel roi mode) {i : List Int} (hi : InBox roi i) :
    ∃ p, IsPath junk fuel mode roi (displacement roi i) p := by
  have hl := displacement_length (inbox_length hi)
  set s := displacement roi i with hs
  have hraise : (raise s).length = 3 := by
    rcases length_cases (show s.length ≤ 3 by omega) with e | ⟨a, e⟩ | ⟨a, b, e⟩ | ⟨a, b, c, e⟩ <;>
      rw [e] <;> rfl
  have hb : mode ≠ .bresenham → (∀ a ∈ raise s, a.natAbs ≤ 1000000) ∧
      manhattan [0, 0, 0] (raise s) < fuel := by
    intro h
    obtain ⟨h1, h2⟩ := hm h
    refine ⟨fun a ha => ?_, lt_of_le_of_lt (manhattan_bound hr hi) h2⟩
    have h3 := inbox_length hi
    revert ha
    rw [hs]
    clear hs hraise hl
    clear_value s
    cases same3 hr h3 <;>
      simp only [InBox, List.forall₂_cons, List.forall₂_nil_right_iff, and_true] at hi <;>
      simp only [displacement, raise, List.zipWith_cons_cons, List.zipWith_nil_left, List.mem_cons,
        List.not_mem_nil, or_false, forall_eq_or_imp, forall_eq] at h1 ⊢ <;> omega
  obtain ⟨rest, h1, h2, h3, h4, h7⟩ := Path.origin_path junk hraise hb
  obtain ⟨p, h5, h6⟩ := lower_list (by omega) fun x hx => h2 x (List.mem_cons_of_mem _ hx)
  have hz := raise_zero hr
  have e0 : s = List.replicate roi.length 0 ↔ raise s = [0, 0, 0] := by
    rw [← hz, raise_inj (by omega) (by simp [hl])]
  have emap : [0, 0, 0] :: rest = (List.replicate roi.length 0 :: p).map raise := by
    rw [List.map_cons, hz, h5]
  refine ⟨List.replicate roi.length 0 :: p, ?_, ⟨p, rfl⟩, ?_, ?_, ?_, ?_⟩
  · rw [h1, emap]
  · intro e he
    rcases List.mem_cons.1 he with rfl | he
    · refine ⟨by simp, inbox_between hi ?_⟩
      rw [← hs, ← hl]
      clear_value s
      clear * -
      induction s with
      | nil => exact .nil
      | cons a s ih => exact .cons ⟨min_le_left _ _, le_max_left _ _⟩ ih
    · obtain ⟨a, b⟩ := h6 e he
      exact ⟨by omega, inbox_between hi b⟩
  · intro hne
    have := h3 fun h => hne (e0.2 h)
    rw [emap] at this
    exact List.Nodup.of_map _ this
  · intro he e hmem
    rcases List.mem_cons.1 hmem with rfl | hmem
    · rfl
    · have := h4 (e0.1 he) (raise e) (by rw [h5]; exact List.mem_map_of_mem hmem)
      rw [← hz] at this
      have hel := (h6 e hmem).1
      exact (raise_inj (by omega) (by simp; omega)).1 this
  · have h8 := manhattan_bound hr hi
    rw [h5, List.length_map] at h7
    rw [List.length_cons]
    rw [← hs] at h8
    omega

/-! ### Accumulation -/

theorem addFirst_at {E : Ensemble K} {R : List Nat} (h : E.first.shape = R) {y : List Int} (hy : InBox R y)
    (v : K) (δ0 : Delta K) :
    (do
      let first ← (E.plus δ0).first.addAt y v
      pure { E.plus δ0 with first := first }) =
    ok (E.plus (δ0 + (fun k => if k = (flat R y).toNat then v else 0, 0, 0))) := by
  have hv : (E.plus δ0).first.valid y = true := valid_of_inbox (by simpa [Ensemble.plus, h] using hy)
  rw [Nd.addAt, if_pos hv, ok_bind, pure_eq]
  simp only [Ensemble.plus, h, ravelIndex_eq hy, Prod.fst_add, Prod.snd_add, add_zero]
  congr 3
  funext k
  simp only [Pi.add_apply]
  split <;> simp [add_assoc]

theorem addNorm_at {E : Ensemble K} {R : List Nat} (h : E.norm.shape = R) {y : List Int} (hy : InBox R y)
    (v : K) (δ0 : Delta K) :
    (do
      let norm ← (E.plus δ0).norm.addAt y v
      pure { E.plus δ0 with norm := norm }) =
    ok (E.plus (δ0 + (0, 0, fun k => if k = (flat R y).toNat then v else 0))) := by
  have hv : (E.plus δ0).norm.valid y = true := valid_of_inbox (by simpa [Ensemble.plus, h] using hy)
  rw [Nd.addAt, if_pos hv, ok_bind, pure_eq]
  simp only [Ensemble.plus, h, ravelIndex_eq hy, Prod.fst_add, Prod.snd_add, add_zero]
  congr 3
  funext k
  simp only [Pi.add_apply]
  split <;> simp [add_assoc]

/-- What one row of a path adds. -/
def rowFirst (R : List Nat) (v : K) (d : List Int) : Delta K :=
  (fun k => if k = (flat R (plus (ctr R) d)).toNat then v else 0, 0, 0)

/-- What one row of a path adds to the norm. -/
def rowNorm (R : List Nat) (v : K) (d : List Int) : Delta K :=
  (0, 0, fun k => if k = (flat R (plus (ctr R) d)).toNat then v else 0)

theorem walkL_adds {R : List Nat} {f F : Nd K} {mode : PadMode} {E : Ensemble K} {x : List Int}
    (hE : E.first.shape = R) (hR : ∀ n ∈ R, 0 < n) (hF : Padded R f mode 0 F) (hx : InBox f.shape x) :
    ∀ {rows : List (List Int)}, (∀ d ∈ rows, d.length = R.length ∧ InBox R (plus (ctr R) d)) →
      ∀ δ0, walkL (padWidth R) F (plus x (ctr R)) rows (E.plus δ0) = ok (E.plus (δ0 +
        ((rows.takeWhile fun d => decide (f.extend mode 0 (move x d) ≠ 0)).map (rowFirst R 1)).sum))
  | [], _, δ0 => by simp [walkL]
  | d :: rows, h, δ0 => by
    obtain ⟨h1, h2⟩ := h d (by simp)
    rw [walkL, hF.near hx h1 h2, ok_bind]
    by_cases hz : f.extend mode 0 (move x d) = 0
    · rw [if_pos hz, pure_eq, List.takeWhile_cons_of_neg (by simp [hz])]
      simp
    · rw [if_neg hz, List.takeWhile_cons_of_pos (by simp [hz]), List.map_cons, List.sum_cons, ← add_assoc,
        ← walkL_adds hE hR hF hx (fun e he => h e (List.mem_cons_of_mem _ he)) (δ0 + rowFirst R 1 d)]
      have := addFirst_at (E := E) hE h2 1 δ0
      rw [origin_pad hR]
      cases ha : (E.plus δ0).first.addAt (plus (ctr R) d) 1 with
      | ok a =>
        rw [ha, ok_bind, pure_eq, ok.injEq] at this
        rw [ok_bind, this]
        rfl
      | throws => rw [ha] at this; cases this
      | ub => rw [ha] at this; cases this
      | diverge => rw [ha] at this; cases this

/-- What a stamp point adds. -/
def stampDelta (R : List Nat) (f : Nd K) (mode : PadMode) (size : Nat) (rows : List (List Int)) : Delta K :=
  ((pixels f.shape).map fun x =>
    ((rows.takeWhile fun d => decide (f.extend mode 0 (move x d) ≠ 0)).map (rowFirst R 1)).sum).sum +
  (rows.map (rowNorm R (size : K))).sum

theorem stampL_adds {R : List Nat} {f F : Nd K} {mode : PadMode} {E : Ensemble K}
    (hE1 : E.first.shape = R) (hE3 : E.norm.shape = R) (hR : ∀ n ∈ R, 0 < n) (hF : Padded R f mode 0 F)
    {pathTo : List Int → Outcome (List (List Int))} {s : List Int} {rows : List (List Int)}
    (hp : pathTo s = ok rows) (hrows : ∀ d ∈ rows, d.length = R.length ∧ InBox R (plus (ctr R) d))
    (size : Nat) (δ0 : Delta K) :
    stampL pathTo (padWidth R) F size (E.plus δ0) s =
      ok (E.plus (δ0 + stampDelta R f mode size rows)) := by
  have h1 : ∀ (l : List (List Int)), (∀ x ∈ l, InBox f.shape x) → ∀ δ0 : Delta K,
      forM (l.map fun x => plus x (ctr R)) (E.plus δ0) (fun E x => walkL (padWidth R) F x rows E) =
      ok (E.plus (δ0 + (l.map fun x =>
        ((rows.takeWhile fun d => decide (f.extend mode 0 (move x d) ≠ 0)).map (rowFirst R 1)).sum).sum)) := by
    intro l
    induction l with
    | nil => intro _ δ0; simp [forM]
    | cons x l ih =>
      intro h δ0
      simp only [List.map_cons, forM, walkL_adds hE1 hR hF (h x (by simp)) hrows, Outcome.bind,
        ih (fun y hy => h y (List.mem_cons_of_mem _ hy)), List.sum_cons, add_assoc]
  have h2 : ∀ (l : List (List Int)), (∀ d ∈ l, d.length = R.length ∧ InBox R (plus (ctr R) d)) →
      ∀ δ0 : Delta K, (forM l (E.plus δ0) fun E d => do
        let norm ← E.norm.addAt (plus (origin (padWidth R)) d) (size : K)
        pure { E with norm := norm }) = ok (E.plus (δ0 + (l.map (rowNorm R (size : K))).sum)) := by
    intro l
    induction l with
    | nil => intro _ δ0; simp [forM]
    | cons d l ih =>
      intro h δ0
      rw [forM, origin_pad hR, addNorm_at hE3 (h d (by simp)).2]
      simp only [Outcome.bind]
      rw [← origin_pad hR, ih (fun y hy => h y (List.mem_cons_of_mem _ hy))]
      simp only [List.map_cons, List.sum_cons, add_assoc]
      rw [origin_pad hR]
      rfl
  rw [stampL, hp, ok_bind, hF.loop, h1 _ (fun x hx => mem_pixels.1 hx), ok_bind, h2 _ hrows]
  simp [stampDelta, add_assoc]

theorem ext_lit {periodic : Bool} {f : Nd K} {x e : List Int} (hx : InBox f.shape x)
    (he : e.length = f.shape.length) : ext periodic f (move x e) ≠ 0 ↔ Lit periodic f x e := by
  unfold ext Lit target
  cases periodic with
  | true =>
    have : wrap f.shape (move x e) ∈ pixels f.shape := by
      rw [mem_pixels]
      exact wrap_inbox (by rw [move_length (by rw [inbox_length hx]; exact he), inbox_length hx]) (inbox_pos hx)
    simp [this]
  | false =>
    simp only [Bool.false_eq_true, if_false]
    split <;> simp_all

theorem row_index {roi : List Nat} (hr : roi.length ≤ 3) (h0 : 0 ∉ roi) {i e : List Int} (hi : InBox roi i)
    (he : e.length = roi.length) (hb : InBox roi (move (ctr roi) e)) :
    (flat roi i).toNat = (flat (shape3 roi) (plus (ctr (shape3 roi)) (raise e))).toNat ↔
      e = displacement roi i := by
  have hc : plus (ctr (shape3 roi)) (raise e) = raise (move (ctr roi) e) := by
    have : (ctr roi).length = roi.length := by simp [ctr]
    rw [← move_raise (by omega) (by omega)]
    show move _ _ = _
    congr 1
    cases same3 hr he <;> simp [ctr, shape3, raise]
  have hl : (move (ctr roi) e).length = roi.length := by simp [move, ctr, he]
  rw [hc, flat_raise hr hl]
  constructor
  · intro h
    have r1 := flat_range hi
    have r2 := flat_range hb
    have h' : unravel roi (flat roi i).toNat = unravel roi (flat roi (move (ctr roi) e)).toNat := by rw [h]
    rw [unravel_flat hi, unravel_flat hb] at h'
    subst h'
    clear * - he
    induction roi generalizing e with
    | nil => cases e <;> simp_all [displacement]
    | cons n roi ih =>
      cases e with
      | nil => simp at he
      | cons a e =>
        have := ih (e := e) (by simpa using he)
        simp only [displacement, ctr, move, List.map_cons, List.zipWith_cons_cons, List.cons.injEq] at this ⊢
        exact ⟨by omega, this⟩
  · rintro rfl
    have : move (ctr roi) (displacement roi i) = i := by
      have hl := inbox_length hi
      clear * - hl
      induction roi generalizing i with
      | nil => cases i <;> simp_all [displacement, move]
      | cons n roi ih =>
        cases i with
        | nil => simp at hl
        | cons a i =>
          have := ih (i := i) (by simpa using hl)
          simp only [displacement, ctr, move, List.map_cons, List.zipWith_cons_cons, List.cons.injEq] at this ⊢
          exact ⟨by omega, this⟩
    rw [this]

theorem row_count {roi : List Nat} (hr : roi.length ≤ 3) (h0 : 0 ∉ roi) {i : List Int} (hi : InBox roi i)
    (v : K) : ∀ {p : List (List Int)}, (∀ e ∈ p, e.length = roi.length ∧ InBox roi (move (ctr roi) e)) →
      (p.map fun e => if (flat roi i).toNat = (flat (shape3 roi) (plus (ctr (shape3 roi)) (raise e))).toNat
        then v else 0).sum = (p.count (displacement roi i) : K) * v
  | [], _ => by simp
  | e :: p, h => by
    obtain ⟨h1, h2⟩ := h e (by simp)
    rw [List.map_cons, List.sum_cons, row_count hr h0 hi v fun y hy => h y (List.mem_cons_of_mem _ hy),
      List.count_cons]
    by_cases he : e = displacement roi i
    · rw [if_pos ((row_index hr h0 hi h1 h2).2 he), if_pos (by simp [he])]
      push_cast
      ring
    · rw [if_neg fun h => he ((row_index hr h0 hi h1 h2).1 h), if_neg (by simp [he])]
      push_cast
      ring

theorem cast_sum (l : List Nat) : ((l.sum : Nat) : K) = (l.map fun n : Nat => (n : K)).sum := by
  induction l with
  | nil => simp
  | cons a l ih => simp [ih]

theorem L_effect {roi : List Nat} {periodic variance : Bool} {f : Nd K} (hr : roi.length ≤ 3)
    (h0 : 0 ∉ roi) (hf : f.shape.length = roi.length) (hfit : Fits periodic f.shape roi)
    {junk : ℚ} {fuel : Nat} {mode : Path.Mode} {P : List Int → List (List Int)}
    (hP : ∀ s ∈ edge roi, IsPath junk fuel mode roi s (P s)) :
    Effect roi periodic variance .L (fun dbg E => L dbg junk fuel E f mode) fun d =>
      ((reached periodic f ((edge roi).map P) d : K), 0,
        (visits ((edge roi).map P) d : K) * (f.size : K)) := by
  have hp : padMode periodic = .periodic → periodic = true := by cases periodic <;> simp [padMode]
  obtain ⟨F, eF, pF⟩ := padded hr h0 hf (padMode periodic) 0 fun h => hfit (hp h)
  have hR := shape3_pos hr h0
  have hl3 : (shape3 roi).length = 3 := by
    obtain ⟨a, b, c, e⟩ := shape3_cases hr
    rw [e]; rfl
  have hrow : ∀ e : List Int, e.length = roi.length → InBox roi (move (ctr roi) e) →
      (raise e).length = (shape3 roi).length ∧ InBox (shape3 roi) (plus (ctr (shape3 roi)) (raise e)) := by
    intro e he hb
    have hl : (ctr roi).length = roi.length := by simp [ctr]
    have h1 : plus (ctr (shape3 roi)) (raise e) = raise (move (ctr roi) e) := by
      rw [← move_raise (by omega) (by omega)]
      show move _ _ = _
      congr 1
      cases same3 hr he <;> simp [ctr, shape3, raise]
    rw [h1, inbox_raise hr (by simp [move, hl, he]), hl3]
    refine ⟨?_, hb⟩
    cases same3 hr he <;> rfl
  have hloop : ∀ (l : List (List Int)), (∀ s ∈ l, IsPath junk fuel mode roi s (P s)) → ∀ δ0 : Delta K,
      forM (l.map raise) ((fresh K roi periodic variance .L).plus δ0)
        (stampL (fun s => Path.path junk fuel [0, 0, 0] s mode) (padWidth (shape3 roi)) F f.size) =
      ok ((fresh K roi periodic variance .L).plus (δ0 + (l.map fun s =>
        stampDelta (shape3 roi) f.atleast3d (padMode periodic) f.size ((P s).map raise)).sum)) := by
    intro l
    induction l with
    | nil => intro _ δ0; simp [forM]
    | cons s l ih =>
      intro h δ0
      have hs := h s (by simp)
      have := stampL_adds (E := fresh K roi periodic variance .L) (R := shape3 roi) rfl rfl hR pF
        (pathTo := fun s => Path.path junk fuel [0, 0, 0] s mode) hs.path (by
          intro d hd
          obtain ⟨e, he, rfl⟩ := List.mem_map.1 hd
          exact hrow e (hs.mem e he).1 (hs.mem e he).2) f.size δ0
      simp only [List.map_cons, forM, this, Outcome.bind,
        ih (fun y hy => h y (List.mem_cons_of_mem _ hy)), List.sum_cons, add_assoc]
  refine ⟨((edge roi).map fun s =>
    stampDelta (shape3 roi) f.atleast3d (padMode periodic) f.size ((P s).map raise)).sum,
    fun dbg E hE hs => ?_, fun i hi => ?_⟩
  rotate_left
  · rw [Delta.at_sum, List.map_map]
    have key : ∀ s ∈ edge roi, ((fun δ : Delta K => δ.at (flat roi i).toNat) ∘ fun s =>
        stampDelta (shape3 roi) f.atleast3d (padMode periodic) f.size ((P s).map raise)) s =
        (((((pixels f.shape).map fun x => ((P s).takeWhile fun e => Lit periodic f x e).count
            (displacement roi i)).sum : Nat) : K), 0, ((P s).count (displacement roi i) : K) * (f.size : K)) := by
      intro s hs
      have hm := (hP s hs).mem
      simp only [Function.comp, stampDelta, Delta.at_add]
      have e1 : ((P s).map ((fun δ : Delta K => δ.at (flat roi i).toNat) ∘
          rowNorm (shape3 roi) (f.size : K) ∘ raise)).sum =
          (0, 0, ((P s).count (displacement roi i) : K) * (f.size : K)) := by
        rw [← row_count hr h0 hi _ hm]
        simp only [sum_prod, List.map_map]
        refine Prod.ext ?_ (Prod.ext ?_ ?_)
        · simp [Function.comp_def, Delta.at, rowNorm]
        · simp [Function.comp_def, Delta.at, rowNorm]
        · rfl
      have e2 : ((pixels f.atleast3d.shape).map ((fun δ : Delta K => δ.at (flat roi i).toNat) ∘ fun x =>
          ((((P s).map raise).takeWhile fun d => decide (f.atleast3d.extend (padMode periodic) 0 (move x d) ≠ 0)).map
            (rowFirst (shape3 roi) 1)).sum)).sum =
          (((((pixels f.shape).map fun x => ((P s).takeWhile fun e => Lit periodic f x e).count
            (displacement roi i)).sum : Nat) : K), 0, 0) := by
        have e3 : pixels f.atleast3d.shape = (pixels f.shape).map raise := pixels_raise (by omega)
        rw [e3, List.map_map]
        have e4 : ∀ x ∈ pixels f.shape, (((fun δ : Delta K => δ.at (flat roi i).toNat) ∘ fun x =>
          ((((P s).map raise).takeWhile fun d => decide (f.atleast3d.extend (padMode periodic) 0 (move x d) ≠ 0)).map
            (rowFirst (shape3 roi) 1)).sum) ∘ raise) x =
            ((((P s).takeWhile fun e => Lit periodic f x e).count (displacement roi i) : K), 0, 0) := by
          intro x hx
          rw [mem_pixels] at hx
          have hxl := inbox_length hx
          simp only [Function.comp, Delta.at_sum, List.takeWhile_map, List.map_map]
          have e5 : (P s).takeWhile ((fun d => decide (f.atleast3d.extend (padMode periodic) 0
              (move (raise x) d) ≠ 0)) ∘ raise) = (P s).takeWhile fun e => Lit periodic f x e := by
            have : ∀ e ∈ P s, ((fun d => decide (f.atleast3d.extend (padMode periodic) 0
              (move (raise x) d) ≠ 0)) ∘ raise) e = decide (Lit periodic f x e) := by
              intro e he
              have hel := (hm e he).1
              simp only [Function.comp]
              rw [move_raise (by omega) (by omega), ext_eq (by omega) (by rw [move_length (by omega)]; omega)
                (inbox_pos hx), decide_eq_decide]
              exact ext_lit hx (by omega)
            revert this
            generalize P s = l
            intro this
            induction l with
            | nil => rfl
            | cons a l ih =>
              rw [List.takeWhile_cons, List.takeWhile_cons, this a (by simp),
                ih fun e he => this e (List.mem_cons_of_mem _ he)]
          rw [e5]
          have hm' : ∀ e ∈ (P s).takeWhile fun e => Lit periodic f x e,
              e.length = roi.length ∧ InBox roi (move (ctr roi) e) :=
            fun e he => hm e ((List.takeWhile_sublist _).mem he)
          have := row_count hr h0 hi (1 : K) hm'
          rw [mul_one] at this
          rw [← this]
          simp only [sum_prod, List.map_map]
          refine Prod.ext ?_ (Prod.ext ?_ ?_)
          · rfl
          · simp [Function.comp_def, Delta.at, rowFirst]
          · simp [Function.comp_def, Delta.at, rowFirst]
        rw [List.map_congr_left e4]
        simp only [sum_prod, List.map_map, cast_sum]
        refine Prod.ext ?_ (Prod.ext ?_ ?_)
        · rfl
        · simp [Function.comp_def]
        · simp [Function.comp_def]
      rw [Delta.at_sum, Delta.at_sum, List.map_map, List.map_map, List.map_map, Function.comp_assoc, e2, e1]
      simp
    rw [List.map_congr_left key]
    simp only [sum_prod, List.map_map]
    refine Prod.ext ?_ (Prod.ext ?_ ?_)
    · simp only [reached]
      rw [cast_sum, List.map_map, List.map_map]
      rfl
    · simp [Function.comp_def]
    · simp only [visits, Function.comp_def, List.map_map]
      induction edge roi with
      | nil => simp
      | cons a l ih => simp [ih, add_mul]
  · have e := (hE.stat .L).eq
    simp only [L, gassert, hf, hE.shapeOrig, hs, decide_true,
      Bool.not_true, Bool.and_false, Bool.false_eq_true, if_false, ok_bind, hE.pad, hE.shape, hE.periodic,
      eF, stamps_eq hr h0]
    simp only [hE.shapeOrig, hE.pad, hE.shape, hE.periodic] at e
    rw [e]
    rw [hloop _ hP, plus_plus]

end Verif.Ens
