import Verif.Props.Lineal
import Verif.Props.Path
import Verif.Props.Kernel

/-!
# Lineal path, cluster function and two-point probability (C67)

`labels` is an image of labels, e.g. of `clusters`. See `Verif.Spec.Lineal` for `Enough`.
-/

set_option linter.unusedSectionVars false

namespace Verif.Props

open Verif Outcome Spec Ens Cluster

variable {K : Type} [Field K] [LinearOrder K] [IsStrictOrderedRing K]
variable {roi : List Nat} {periodic : Bool} {f l : Nd K}

/-- `b - a` -/
def gap (a b : List Int) : List Int := List.zipWith (fun i j => j - i) a b

/-- One pixel along one axis. -/
def FaceStep (d : List Int) : Prop := (d.map Int.natAbs).sum = 1

/-- At most one pixel along each axis. -/
def AnyStep (d : List Int) : Prop := (∃ i ∈ d, i ≠ 0) ∧ ∀ i ∈ d, -1 ≤ i ∧ i ≤ 1

theorem FaceStep.any {d : List Int} (h : FaceStep d) : AnyStep d := by
  refine ⟨?_, abs_le_of_sum h⟩
  by_contra hc
  push Not at hc
  have : (d.map Int.natAbs).sum = 0 := by
    clear h
    induction d with
    | nil => rfl
    | cons a d ih =>
      rw [List.map_cons, List.sum_cons, ih fun i hi => hc i (by simp [hi]), hc a (by simp)]
      rfl
  rw [FaceStep] at h
  omega

theorem gap_length {a b : List Int} (h : b.length = a.length) : (gap a b).length = a.length := by
  simp [gap, h]

theorem move_gap : ∀ {x a b : List Int}, a.length = x.length → b.length = x.length →
    move (move x a) (gap a b) = move x b
  | [], [], [], _, _ => rfl
  | i :: x, j :: a, k :: b, h1, h2 => by
    have ih := move_gap (x := x) (a := a) (b := b) (by simpa using h1) (by simpa using h2)
    simp only [move, gap, List.zipWith_cons_cons, List.cons.injEq] at ih ⊢
    exact ⟨by omega, ih⟩

theorem move_gap' : ∀ {a b : List Int}, b.length = a.length → move a (gap a b) = b
  | [], [], _ => rfl
  | j :: a, k :: b, h => by
    have ih := move_gap' (a := a) (b := b) (by simpa using h)
    simp only [move, gap, List.zipWith_cons_cons, List.cons.injEq] at ih ⊢
    exact ⟨by omega, ih⟩

/-- The pixel at displacement `b` is at displacement `b - a` of the pixel at displacement `a`. -/
theorem target_gap {s : List Nat} {x a b : List Int} (hx : x.length = s.length) (ha : a.length = s.length)
    (hb : b.length = s.length) : target periodic s (target periodic s x a) (gap a b) = target periodic s x b := by
  unfold target
  split
  · rw [shift_shift hx ha (by rw [gap_length (by omega), ha]), move_gap' (by omega)]
  · exact move_gap (by omega) (by omega)

theorem faceStep_of_unit {s e e' : List Int} (hs : s.length ≤ 3) (he : e.length = s.length)
    (he' : e'.length = s.length) (h : UnitStep (raise s) (raise e) (raise e')) : FaceStep (gap e e') := by
  obtain ⟨i, hi, h⟩ := h
  have h3 : (raise s).length = 3 := by
    rcases length_cases hs with rfl | ⟨a, rfl⟩ | ⟨a, b, rfl⟩ | ⟨a, b, c, rfl⟩ <;> rfl
  rw [h3] at hi
  cases same3 hs he <;> cases same3 hs he' <;> (
    have hi' : i = 0 ∨ i = 1 ∨ i = 2 := by omega
    rcases hi' with rfl | rfl | rfl <;>
      simp [raise, FaceStep, gap] at h ⊢ <;> omega)

theorem anyStep_of_towards {s e e' : List Int} (hs : s.length ≤ 3) (he : e.length = s.length)
    (he' : e'.length = s.length) (h : StepTowards (raise s) (raise e) (raise e')) : AnyStep (gap e e') := by
  obtain ⟨hne, -, h⟩ := h
  have h3 : (raise s).length = 3 := by
    rcases length_cases hs with rfl | ⟨a, rfl⟩ | ⟨a, b, rfl⟩ | ⟨a, b, c, rfl⟩ <;> rfl
  rw [h3] at h
  have a0 := h 0 (by omega)
  have a1 := h 1 (by omega)
  have a2 := h 2 (by omega)
  clear h h3
  cases same3 hs he <;> cases same3 hs he' <;>
    simp [raise, AnyStep, gap, TowardsOrStay] at hne a0 a1 a2 ⊢ <;> omega

/-- The bounds that `Enough` gives for a displacement of the ROI. -/
theorem enough_bounds {fuel : Nat} {mode : Path.Mode} (hr : roi.length ≤ 3) (hm : Enough fuel roi mode)
    (hmode : mode ≠ .bresenham) {i : List Int} (hi : InBox roi i) :
    (∀ a ∈ raise (displacement roi i), a.natAbs ≤ 1000000) ∧
      manhattan [0, 0, 0] (raise (displacement roi i)) < fuel := by
  obtain ⟨h1, h2⟩ := hm hmode
  refine ⟨fun a ha => ?_, lt_of_le_of_lt (manhattan_bound hr hi) h2⟩
  have h3 := inbox_length hi
  revert ha
  cases same3 hr h3 <;>
    simp only [InBox, List.forall₂_cons, List.forall₂_nil_right_iff, and_true] at hi <;>
    simp only [displacement, raise, List.zipWith_cons_cons, List.zipWith_nil_left, List.mem_cons,
      List.not_mem_nil, or_false, forall_eq_or_imp, forall_eq] at h1 ⊢ <;> omega

theorem chain_of_map {α β : Type} {g : α → β} {R : β → β → Prop} {S : α → α → Prop} {P : α → Prop} :
    ∀ {p : List α}, (∀ a ∈ p, P a) → (∀ a b, P a → P b → R (g a) (g b) → S a b) →
      (p.map g).IsChain R → p.IsChain S
  | [], _, _, _ => .nil
  | [a], _, _, _ => .singleton a
  | a :: b :: p, h, hRS, hc => by
    simp only [List.map_cons, List.isChain_cons_cons] at hc ⊢
    exact ⟨hRS a b (h a (by simp)) (h b (by simp)) hc.1,
      chain_of_map (p := b :: p) (fun c hc => h c (by simp [hc])) hRS hc.2⟩

/-- `full`: consecutive displacements of a path differ by one pixel along one axis. -/
theorem isPath_full {junk : ℚ} {fuel : Nat} (hr : roi.length ≤ 3) (hm : Enough fuel roi .full) {s : List Int}
    (hs : s ∈ edge roi) {p : List (List Int)} (hp : IsPath junk fuel .full roi s p) :
    p.IsChain fun a b => b = a ∨ FaceStep (gap a b) := by
  obtain ⟨i, hi, rfl⟩ := mem_edge hs
  have hl := displacement_length (inbox_length hi)
  by_cases h0 : displacement roi i = List.replicate roi.length 0
  · have := hp.stay h0
    clear * - this
    induction p with
    | nil => exact .nil
    | cons a p ih =>
      cases p with
      | nil => exact .singleton a
      | cons b p =>
        rw [List.isChain_cons_cons]
        exact ⟨Or.inl (by rw [this a (by simp), this b (by simp)]), ih fun e he => this e (by simp [he])⟩
  · obtain ⟨b1, b2⟩ := enough_bounds hr hm (by decide) hi
    have h3 : (raise (displacement roi i)).length = 3 := by
      rcases length_cases (show (displacement roi i).length ≤ 3 by omega) with e | ⟨a, e⟩ | ⟨a, b, e⟩ | ⟨a, b, c, e⟩ <;>
        rw [e] <;> rfl
    have hne : manhattan (origin (raise (displacement roi i)).length) (raise (displacement roi i)) ≠ 0 := by
      rw [h3]
      intro h
      apply h0
      have hz := raise_zero hr
      rw [← raise_inj (by omega) (by simp [hl]), hz]
      obtain ⟨a, b, c, e⟩ := List.length_eq_three.1 h3
      rw [e] at h ⊢
      have h' : a.natAbs + (b.natAbs + c.natAbs) = 0 := by simpa [manhattan, origin, List.replicate_succ] using h
      have : a = 0 ∧ b = 0 ∧ c = 0 := by omega
      simp [this]
    obtain ⟨ret, e, -, hc, -⟩ := C31_full_partial junk (fuel := fuel) (x1 := raise (displacement roi i)) (by omega) b1 hne
      (by rw [h3]; exact b2.le)
    rw [h3] at e
    have e' := hp.path
    have : Path.path junk fuel (origin 3) (raise (displacement roi i)) .full = ok (p.map raise) := e'
    rw [this] at e
    cases e
    refine chain_of_map (P := fun e => e.length = roi.length) (fun a ha => (hp.mem a ha).1) ?_ hc
    intro a b ha hb hu
    exact Or.inr (faceStep_of_unit (by omega) (by omega) (by omega) hu)

/-- All modes: consecutive displacements of a path differ by at most one pixel along each axis. -/
theorem isPath_any {junk : ℚ} {fuel : Nat} {mode : Path.Mode} (hr : roi.length ≤ 3) (hm : Enough fuel roi mode)
    {s : List Int} (hs : s ∈ edge roi) {p : List (List Int)} (hp : IsPath junk fuel mode roi s p) :
    p.IsChain fun a b => b = a ∨ AnyStep (gap a b) := by
  by_cases hfull : mode = .full
  · subst hfull
    exact (isPath_full hr hm hs hp).imp fun a b h => h.imp_right FaceStep.any
  obtain ⟨i, hi, rfl⟩ := mem_edge hs
  have hl := displacement_length (inbox_length hi)
  by_cases h0 : displacement roi i = List.replicate roi.length 0
  · have := hp.stay h0
    clear * - this
    induction p with
    | nil => exact .nil
    | cons a p ih =>
      cases p with
      | nil => exact .singleton a
      | cons b p =>
        rw [List.isChain_cons_cons]
        exact ⟨Or.inl (by rw [this a (by simp), this b (by simp)]), ih fun e he => this e (by simp [he])⟩
  · have h3 : (raise (displacement roi i)).length = 3 := by
      rcases length_cases (show (displacement roi i).length ≤ 3 by omega) with e | ⟨a, e⟩ | ⟨a, b, e⟩ | ⟨a, b, c, e⟩ <;>
        rw [e] <;> rfl
    have hz := raise_zero hr
    have hne0 : ([0, 0, 0] : List Int) ≠ raise (displacement roi i) := by
      intro h
      apply h0
      rw [← raise_inj (by omega) (by simp [hl]), hz, h]
    have hne : manhattan (origin (raise (displacement roi i)).length) (raise (displacement roi i)) ≠ 0 := by
      rw [h3]
      intro h
      apply hne0
      obtain ⟨a, b, c, e⟩ := List.length_eq_three.1 h3
      rw [e] at h ⊢
      have h' : a.natAbs + (b.natAbs + c.natAbs) = 0 := by simpa [manhattan, origin, List.replicate_succ] using h
      have : a = 0 ∧ b = 0 ∧ c = 0 := by omega
      simp [this]
    have e' : Path.path junk fuel (origin 3) (raise (displacement roi i)) mode = ok (p.map raise) := hp.path
    have key : (p.map raise).IsChain (StepTowards (raise (displacement roi i))) := by
      cases mode with
      | bresenham =>
        obtain ⟨ret, e, -, -, -, -, hc⟩ := C26_bresenham junk fuel (x0 := [0, 0, 0])
          (x1 := raise (displacement roi i)) (by simp) (by rw [h3]; rfl) hne0
        have e'' : Path.path junk fuel [0, 0, 0] (raise (displacement roi i)) .bresenham = ok (p.map raise) := e'
        rw [e''] at e
        cases e
        exact hc.imp fun a b h => h.1
      | actual =>
        obtain ⟨b1, b2⟩ := enough_bounds hr hm (by decide) hi
        obtain ⟨ret, e, -, hc, -⟩ := C31_actual_partial junk (fuel := fuel) (x1 := raise (displacement roi i)) (by omega) b1 hne
          (by rw [h3]; exact b2.le)
        rw [h3, e'] at e
        cases e
        exact hc
      | full => exact absurd rfl hfull
    refine chain_of_map (P := fun e => e.length = roi.length) (fun a ha => (hp.mem a ha).1) ?_ key
    intro a b ha hb hu
    exact Or.inr (anyStep_of_towards (by omega) (by omega) (by omega) hu)


theorem target_origin {s : List Nat} {x : List Int} (hx : InBox s x) :
    target periodic s x (List.replicate s.length 0) = x := by
  have e : move x (List.replicate s.length 0) = x := by
    rw [← inbox_length hx]
    clear hx
    induction x with
    | nil => rfl
    | cons a x ih => simpa [move, List.replicate_succ] using ih
  unfold target
  rw [e]
  split
  · exact wrap_of_inbox hx
  · rfl

/-- Along the lit part of a path the label does not change. -/
theorem label_along {U : List Int → Prop} {x : List Int} (hx : x.length = f.shape.length)
    (hU : ∀ y ∈ pixels f.shape, ∀ d, d.length = f.shape.length → U d → val f y ≠ 0 →
      Lit periodic f y d → val l (target periodic f.shape y d) = val l y) :
    ∀ {p : List (List Int)}, (∀ e ∈ p, e.length = f.shape.length ∧ Lit periodic f x e) →
      p.IsChain (fun a b => b = a ∨ U (gap a b)) → ∀ a, p.head? = some a → ∀ e ∈ p,
        val l (target periodic f.shape x e) = val l (target periodic f.shape x a)
  | [], _, _, a, ha, _, _ => by simp at ha
  | [b], _, _, a, ha, e, he => by
    simp at ha he
    rw [he, ha]
  | b :: c :: p, h, hc, a, ha, e, he => by
    simp only [List.head?_cons, Option.some.injEq] at ha
    subst ha
    rw [List.isChain_cons_cons] at hc
    rcases List.mem_cons.1 he with rfl | he
    · rfl
    · rw [label_along hx hU (p := c :: p) (fun e he => h e (by simp [he])) hc.2 c rfl e he]
      obtain ⟨hb, lb⟩ := h b (by simp)
      obtain ⟨hc', lc⟩ := h c (by simp)
      rcases hc.1 with rfl | hu
      · rfl
      · have hg := target_gap (periodic := periodic) hx hb hc'
        rw [← hg]
        refine hU _ lb.1 _ (by rw [gap_length (by omega), hb]) hu lb.2 ?_
        unfold Lit
        rw [hg]
        exact lc

/-- If the paths take steps between pixels of the same label, L is at most the fraction of pixels `x` for
which `x` and `x + d` have the same label. -/
theorem L_le {U : List Int → Prop} (L : Legal periodic f.shape roi) {junk : ℚ} {fuel : Nat} {mode : Path.Mode}
    {P : List Int → List (List Int)} (hP : ∀ s ∈ edge roi, IsPath junk fuel mode roi s (P s))
    (hc : ∀ s ∈ edge roi, (P s).IsChain fun a b => b = a ∨ U (gap a b))
    (hU : ∀ y ∈ pixels f.shape, ∀ d, d.length = f.shape.length → U d → val f y ≠ 0 →
      Lit periodic f y d → val l (target periodic f.shape y d) = val l y) (d : List Int) :
    reached periodic f ((edge roi).map P) d ≤ visits ((edge roi).map P) d *
      ((pixels f.shape).filter fun x => val f x ≠ 0 ∧ Lit periodic f x d ∧
        val l x = val l (target periodic f.shape x d)).length := by
  set n := ((pixels f.shape).filter fun x => decide (val f x ≠ 0 ∧ Lit periodic f x d ∧
        val l x = val l (target periodic f.shape x d))).length
  unfold reached visits
  generalize edge roi = q at hP hc
  induction q with
  | nil => simp
  | cons s q ih =>
    have h5 := ih (fun s hs => hP s (List.mem_cons_of_mem _ hs)) fun s hs => hc s (List.mem_cons_of_mem _ hs)
    simp only [List.map_cons, List.sum_cons, Nat.add_mul] at h5 ⊢
    have hp := hP s (by simp)
    have h4 : ((pixels f.shape).map fun x => ((P s).takeWhile fun e => Lit periodic f x e).count d).sum ≤
        n * (P s).count d := by
      refine sum_le_filter fun x hx => ?_
      by_cases hd : d ∈ (P s).takeWhile fun e => Lit periodic f x e
      · have hlit : ∀ e ∈ (P s).takeWhile fun e => Lit periodic f x e, Lit periodic f x e := by
          intro e he
          have := List.all_takeWhile (p := fun e => decide (Lit periodic f x e)) (l := P s)
          rw [List.all_eq_true] at this
          simpa using this e he
        obtain ⟨rest, hrest⟩ := hp.head
        have hz := lit_zero (periodic := periodic) hx
        rw [L.same] at hz
        have hhead : ((P s).takeWhile fun e => Lit periodic f x e).head? = some (List.replicate roi.length 0) := by
          rw [hrest] at hd ⊢
          by_cases h0 : Lit periodic f x (List.replicate roi.length 0)
          · rw [List.takeWhile_cons_of_pos (by simpa using h0)]
            rfl
          · rw [List.takeWhile_cons_of_neg (by simpa using h0)] at hd
            simp at hd
        have h0 : Lit periodic f x (List.replicate roi.length 0) := hlit _ (List.mem_of_mem_head? (by rw [hhead]; rfl))
        have hxl := inbox_length (mem_pixels.1 hx)
        have hch : ((P s).takeWhile fun e => Lit periodic f x e).IsChain fun a b => b = a ∨ U (gap a b) :=
          (hc s (by simp)).prefix (List.takeWhile_prefix _)
        have := label_along (l := l) (x := x) hxl hU (fun e he => ⟨by
          rw [(hp.mem e ((List.takeWhile_sublist _).mem he)).1, L.same], hlit e he⟩) hch _ hhead d hd
        have ht : target periodic f.shape x (List.replicate roi.length 0) = x := by
          rw [← L.same]
          exact target_origin (mem_pixels.1 hx)
        rw [ht] at this
        rw [if_pos]
        · exact (List.takeWhile_sublist _).count_le _
        · simp only [decide_eq_true_eq]
          exact ⟨hz.1 h0, hlit d hd, this.symm⟩
      · rw [List.count_eq_zero.2 hd]
        exact Nat.zero_le _
    rw [Nat.mul_comm] at h4
    omega

/-- The number of pairs of pixels is at most the number of pixels. -/
theorem pairs_length_le (shape : List Nat) (adm : List Int → List Int → Prop) [∀ x y, Decidable (adm x y)]
    (d : List Int) : (pairs periodic shape adm d).length ≤ (pixels shape).length := by
  unfold pairs
  exact (List.length_filter_le _ _).trans (by simp)

theorem count_le_total (q : List Int → Prop) [DecidablePred q] (φ : List Int → List Int → K) (d : List Int)
    (h0 : ∀ x y, 0 ≤ φ x y)
    (h : ∀ x ∈ pixels f.shape, q x → target periodic f.shape x d ∈ pixels f.shape ∧
      φ x (target periodic f.shape x d) = 1) :
    (((pixels f.shape).filter fun x => q x).length : K) ≤
      total (pairs periodic f.shape (fun _ _ => True) d) φ := by
  unfold total pairs
  generalize pixels f.shape = px at h
  have key : ∀ (big : List (List Int)), (∀ x ∈ px, q x → target periodic f.shape x d ∈ big) →
      ((px.filter fun x => q x).length : K) ≤
        (((px.map fun x => (x, target periodic f.shape x d)).filter fun p =>
          p.2 ∈ big ∧ True).map fun p => φ p.1 p.2).sum := by
    intro big hbig
    have h' : ∀ x ∈ px, q x → φ x (target periodic f.shape x d) = 1 := fun x hx hq => (h x hx hq).2
    clear h
    induction px with
    | nil => simp
    | cons x px ih =>
      have ih' := ih (fun y hy => hbig y (by simp [hy])) fun y hy => h' y (by simp [hy])
      rw [List.map_cons]
      by_cases hq : q x
      · rw [List.filter_cons_of_pos (by simpa using hq), List.filter_cons_of_pos (by
          simpa using hbig x (by simp) hq), List.map_cons, List.sum_cons, h' x (by simp) hq,
          List.length_cons]
        push_cast
        linarith
      · rw [List.filter_cons_of_neg (by simpa using hq)]
        by_cases ht : target periodic f.shape x d ∈ big
        · rw [List.filter_cons_of_pos (by simpa using ht), List.map_cons, List.sum_cons]
          have := h0 x (target periodic f.shape x d)
          linarith
        · rw [List.filter_cons_of_neg (by simpa using ht)]
          exact ih'
  exact key px fun x hx hq => (h x hx hq).1

/-- L against C2, for paths whose steps stay within a cluster. -/
theorem L_le_C2 {U : List Int → Prop} (L : Legal periodic f.shape roi) {junk : ℚ} {fuel : Nat}
    {mode : Path.Mode} {P : List Int → List (List Int)}
    (hP : ∀ s ∈ edge roi, IsPath junk fuel mode roi s (P s))
    (hc : ∀ s ∈ edge roi, (P s).IsChain fun a b => b = a ∨ U (gap a b)) (hl : l.shape = f.shape)
    (hlab : ∀ x ∈ pixels f.shape, val f x ≠ 0 → val l x ≠ 0)
    (hU : ∀ y ∈ pixels f.shape, ∀ d, d.length = f.shape.length → U d → val f y ≠ 0 →
      Lit periodic f y d → val l (target periodic f.shape y d) = val l y) (pow05 : K → K) (dbg : Bool) :
    ∃ r c, Api.L pow05 dbg junk fuel roi f periodic mode = ok r ∧
      Api.C2 pow05 dbg roi l l periodic = ok c ∧ r.shape = roi ∧ c.shape = roi ∧
      ∀ i, InBox roi i → val r i ≤ val c i := by
  obtain ⟨r, h1, h2, h3⟩ := L_value L hP pow05 dbg
  obtain ⟨c, c1, c2, c3⟩ := C38_unmasked (f := l) (g := l) (hl ▸ L) rfl pow05 dbg
  refine ⟨r, c, h1, c1, h2, c2, fun i hi => ?_⟩
  rw [c3 i hi]
  have := h3 i hi
  simp only at this
  rw [this, hl]
  set d := displacement roi i
  have key := L_le L hP hc hU d
  set n := ((pixels f.shape).filter fun x => decide (val f x ≠ 0 ∧ Lit periodic f x d ∧
        val l x = val l (target periodic f.shape x d))).length with hn
  have hle := reached_le periodic f ((edge roi).map P) d
  have e : (visits ((edge roi).map P) d : K) * ((pixels f.shape).length : K) =
      ((visits ((edge roi).map P) d * (pixels f.shape).length : Nat) : K) := by push_cast; rfl
  have hcount : (n : K) ≤ total (pairs periodic f.shape (fun _ _ => True) d)
      fun x y => if val l x ≠ 0 ∧ val l x = val l y then 1 else 0 := by
    refine count_le_total (fun x => val f x ≠ 0 ∧ Lit periodic f x d ∧
        val l x = val l (target periodic f.shape x d)) _ d ?_ ?_
    · intro x y
      split <;> norm_num
    · rintro x hx ⟨hq, ht, hs⟩
      exact ⟨ht.1, if_pos ⟨hlab x hx hq, hs⟩⟩
  rw [e, ratio_eq hle]
  set T := total (pairs periodic f.shape (fun _ _ => True) d)
      fun x y => if val l x ≠ 0 ∧ val l x = val l y then (1 : K) else 0 with hT
  have hT0 : 0 ≤ T := le_trans (Nat.cast_nonneg n) hcount
  have hlen := pairs_length_le (periodic := periodic) f.shape (fun _ _ => True) d
  unfold average
  rw [← hT]
  split
  · split
    · exact le_refl _
    · positivity
  · rename_i hv
    have hv' : 0 < visits ((edge roi).map P) d := Nat.pos_of_ne_zero fun h => hv (by simp [h])
    split
    · rename_i h0
      have hl0 : (pairs periodic f.shape (fun _ _ => True) d) = [] := List.length_eq_zero_iff.1 h0
      have : T = 0 := by rw [hT, hl0]; rfl
      have hn0 : n = 0 := by
        have : (n : K) ≤ 0 := this ▸ hcount
        exact_mod_cast le_antisymm this (Nat.cast_nonneg n)
      rw [hn0, Nat.mul_zero, Nat.le_zero] at key
      rw [key]
      simp
    · rename_i h0
      have hp : (0 : K) < ((pairs periodic f.shape (fun _ _ => True) d).length : K) := by
        exact_mod_cast Nat.pos_of_ne_zero h0
      have hN : 0 < (pixels f.shape).length := Nat.pos_of_ne_zero fun h => hv (by simp [h])
      rw [div_le_div_iff₀ (by exact_mod_cast Nat.pos_of_ne_zero hv) hp]
      have k1 : (reached periodic f ((edge roi).map P) d : K) ≤ (visits ((edge roi).map P) d : K) * n := by
        exact_mod_cast key
      have k2 : ((pairs periodic f.shape (fun _ _ => True) d).length : K) ≤ ((pixels f.shape).length : K) := by
        exact_mod_cast hlen
      push_cast
      calc (reached periodic f ((edge roi).map P) d : K) * ((pairs periodic f.shape (fun _ _ => True) d).length : K)
          ≤ ((visits ((edge roi).map P) d : K) * n) * ((pixels f.shape).length : K) :=
            mul_le_mul k1 k2 hp.le (by positivity)
        _ ≤ ((visits ((edge roi).map P) d : K) * T) * ((pixels f.shape).length : K) := by
            refine mul_le_mul_of_nonneg_right (mul_le_mul_of_nonneg_left hcount ?_) ?_ <;> positivity
        _ = _ := by ring

/-! ### C67 -/

/-- Mode `full`: if nonzero pixels that share a face have the same, nonzero, label, then L is at most C2 of
the labels. -/
theorem C67_L_full (L : Legal periodic f.shape roi) (junk : ℚ) {fuel : Nat} (hm : Enough fuel roi .full)
    (hl : l.shape = f.shape) (hlab : ∀ x ∈ pixels f.shape, val f x ≠ 0 → val l x ≠ 0)
    (hsame : ∀ y ∈ pixels f.shape, ∀ d, d.length = f.shape.length → FaceStep d → val f y ≠ 0 →
      Lit periodic f y d → val l (target periodic f.shape y d) = val l y) (pow05 : K → K) (dbg : Bool) :
    ∃ r c, Api.L pow05 dbg junk fuel roi f periodic .full = ok r ∧
      Api.C2 pow05 dbg roi l l periodic = ok c ∧ r.shape = roi ∧ c.shape = roi ∧
      ∀ i, InBox roi i → val r i ≤ val c i := by
  obtain ⟨P, hP⟩ := choose_paths junk L.rank hm
  exact L_le_C2 L hP (fun s hs => isPath_full L.rank hm hs (hP s hs)) hl hlab hsame pow05 dbg

/-- All modes: the same if nonzero pixels that share a face, edge or corner have the same label. -/
theorem C67_L_any (L : Legal periodic f.shape roi) (junk : ℚ) {fuel : Nat} {mode : Path.Mode}
    (hm : Enough fuel roi mode)
    (hl : l.shape = f.shape) (hlab : ∀ x ∈ pixels f.shape, val f x ≠ 0 → val l x ≠ 0)
    (hsame : ∀ y ∈ pixels f.shape, ∀ d, d.length = f.shape.length → AnyStep d → val f y ≠ 0 →
      Lit periodic f y d → val l (target periodic f.shape y d) = val l y) (pow05 : K → K) (dbg : Bool) :
    ∃ r c, Api.L pow05 dbg junk fuel roi f periodic mode = ok r ∧
      Api.C2 pow05 dbg roi l l periodic = ok c ∧ r.shape = roi ∧ c.shape = roi ∧
      ∀ i, InBox roi i → val r i ≤ val c i := by
  obtain ⟨P, hP⟩ := choose_paths junk L.rank hm
  exact L_le_C2 L hP (fun s hs => isPath_any L.rank hm hs (hP s hs)) hl hlab hsame pow05 dbg

/-- If the labelled pixels of a binary image are nonzero, C2 of the labels is at most S2 of the image. -/
theorem C67_C2_le_S2 (L : Legal periodic f.shape roi) (hb : IsBinary f) (hl : l.shape = f.shape)
    (hlab : ∀ x ∈ pixels f.shape, val l x ≠ 0 → val f x ≠ 0) (pow05 : K → K) (dbg : Bool) :
    ∃ c s, Api.C2 pow05 dbg roi l l periodic = ok c ∧ Api.S2 pow05 dbg roi f f periodic = ok s ∧
      c.shape = roi ∧ s.shape = roi ∧ ∀ i, InBox roi i → val c i ≤ val s i := by
  obtain ⟨c, c1, c2, c3⟩ := C38_unmasked (f := l) (g := l) (hl ▸ L) rfl pow05 dbg
  obtain ⟨s, s1, s2, s3⟩ := C34_unmasked (f := f) (g := f) L rfl pow05 dbg
  refine ⟨c, s, c1, s1, c2, s2, fun i hi => ?_⟩
  rw [c3 i hi, s3 i hi, hl, average_eq_div, average_eq_div]
  refine div_le_div_of_nonneg_right (total_le fun p hp => ?_) (Nat.cast_nonneg _)
  obtain ⟨h1, -, hy, -⟩ := mem_pairs.1 hp
  split
  · rename_i h
    have a := hb p.1 h1
    have b := hb p.2 hy
    have a' := hlab p.1 h1 h.1
    have b' := hlab p.2 hy (h.2 ▸ h.1)
    rcases a with a | a
    · exact absurd a a'
    · rcases b with b | b
      · exact absurd b b'
      · rw [a, b]; norm_num
  · rcases hb p.1 h1 with a | a <;> rcases hb p.2 hy with b | b <;> simp [a, b]

/-- The image with these elements in row-major order. -/
def ofInts (K : Type) [IntCast K] (shape : List Nat) (elements : List Int) : Nd K :=
  ⟨shape, fun k => ((elements.getD k 0 : Int) : K)⟩

theorem shifted_target (periodic : Bool) : ∀ {s : List Nat} {x d : List Int}, x.length = s.length → d.length = s.length →
    Spec.Shifted periodic s x d (target periodic s x d)
  | [], [], [], _, _ => by cases periodic <;> simp [target, wrap, move, Spec.Shifted]
  | n :: s, i :: x, j :: d, h1, h2 => by
    have ih := shifted_target periodic (s := s) (x := x) (d := d) (by simpa using h1) (by simpa using h2)
    cases periodic
    · simp only [target, move, Bool.false_eq_true, if_false, List.zipWith_cons_cons, Spec.Shifted, true_and] at ih ⊢
      exact ih
    · simp only [target, move, wrap, if_true, List.zipWith_cons_cons, Spec.Shifted] at ih ⊢
      exact ⟨Int.dvd_self_sub_emod, ih⟩

/-- C67 for `clusters`: for an image of zeros and ones, at every displacement, the lineal-path function
(mode `full`) is at most the two-point cluster function, which is at most the two-point probability. -/
theorem C67_clusters (dbg : Bool) {shape : List Nat} (L : Legal periodic shape roi) (hn : 1 ≤ shape.length)
    (hsmall : shape.prod < 2 ^ 62) {img : List Int} (hlen : img.length = shape.prod)
    (hb : ∀ v ∈ img, v = 0 ∨ v = 1) (junk : ℚ) {fuel : Nat} (hm : Enough fuel roi .full) (pow05 : K → K) :
    ∃ labels r c s, clusters dbg shape img periodic = ok labels ∧
      Api.L pow05 dbg junk fuel roi (ofInts K shape img) periodic .full = ok r ∧
      Api.C2 pow05 dbg roi (ofInts K shape labels) (ofInts K shape labels) periodic = ok c ∧
      Api.S2 pow05 dbg roi (ofInts K shape img) (ofInts K shape img) periodic = ok s ∧
      r.shape = roi ∧ c.shape = roi ∧ s.shape = roi ∧
      ∀ i, InBox roi i → 0 ≤ val r i ∧ val r i ≤ val c i ∧ val c i ≤ val s i ∧ val s i ≤ 1 := by
  have hn' : shape.length ≤ 3 := by rw [L.same]; exact L.rank
  obtain ⟨labels, e, hl, bg, conn, -, -⟩ := C03_clusters dbg periodic hn hn' hsmall hlen
  have hv : ∀ (q : List Int) (x : List Int), val (ofInts K shape q) x = ((q.getD (flat shape x).toNat 0 : Int) : K) :=
    fun _ _ => rfl
  have hfl : ∀ x ∈ pixels shape, (flat shape x).toNat < shape.prod ∧ ((flat shape x).toNat : Int) = flat shape x := by
    intro x hx
    have := flat_range (mem_pixels.1 hx)
    omega
  have hbin : IsBinary (ofInts K shape img) := by
    intro x hx
    have h1 := (hfl x hx).1
    rw [hv, getD_of_lt (by omega)]
    rcases hb _ (List.getElem_mem (show (flat shape x).toNat < img.length by omega)) with h | h <;> simp [h]
  have hlab : ∀ x ∈ pixels shape, val (ofInts K shape labels) x ≠ 0 ↔ val (ofInts K shape img) x ≠ 0 := by
    intro x hx
    rw [hv, hv, Int.cast_ne_zero, Int.cast_ne_zero]
    exact not_congr (bg _ (hfl x hx).1)
  obtain ⟨r, c, h1, h2, h3, h4, h5⟩ := C67_L_full (f := ofInts K shape img) (l := ofInts K shape labels) L junk hm
    rfl (fun x hx => (hlab x hx).2) (by
      intro y hy d hd hu hfy hlit
      have hty : target periodic shape y d ∈ pixels shape := hlit.1
      rw [hv, hv, Int.cast_inj]
      have i1 : img.getD (flat shape y).toNat 0 ≠ 0 := by
        have := hfy
        rw [hv, Int.cast_ne_zero] at this
        exact this
      have i2 : img.getD (flat shape (target periodic shape y d)).toNat 0 ≠ 0 := by
        have := hlit.2
        rw [hv, Int.cast_ne_zero] at this
        exact this
      symm
      refine (conn _ (hfl y hy).1 _ (hfl _ hty).1 i1 i2).2 ?_
      refine .step (.refl i1) ?_ i2
      exact ⟨y, target periodic shape y d, d, hd, hu, mem_pixels.1 hy, mem_pixels.1 hty,
        shifted_target periodic (inbox_length (mem_pixels.1 hy)) hd, (hfl y hy).2.symm, (hfl _ hty).2.symm⟩) pow05 dbg
  obtain ⟨c', s, k1, k2, -, k4, k5⟩ := C67_C2_le_S2 (f := ofInts K shape img) (l := ofInts K shape labels)
    (periodic := periodic) L hbin rfl (fun x hx => (hlab x hx).1) pow05 dbg
  rw [h2] at k1
  cases k1
  obtain ⟨r', b1, b2⟩ := C45_bounds (f := ofInts K shape img) L junk hm pow05 dbg
  rw [h1] at b1
  cases b1
  obtain ⟨s', b3, -, b4⟩ := C36_range (f := ofInts K shape img) (g := ofInts K shape img) L rfl
    (fmask := noMask (ofInts K shape img)) (gmask := noMask (ofInts K shape img)) rfl rfl (noMask_isMask _)
    (noMask_isMask _) hbin hbin pow05 dbg
  have : Api.S2 pow05 dbg roi (ofInts K shape img) (ofInts K shape img) periodic = ok s' := b3
  rw [k2] at this
  cases this
  exact ⟨labels, r, c, s, e, h1, h2, k2, h3, h4, k4, fun i hi => ⟨(b2 i hi).1, h5 i hi, k5 i hi, (b4 i hi).2⟩⟩

/-- A periodic image of shape (3, 4) and a ROI of (3, 3) meet the hypotheses. -/
example : Legal true [3, 4] [3, 3] ∧ Enough 10 [3, 3] .full :=
  ⟨⟨by decide, by decide, rfl, fun _ => .cons (by decide) (.cons (by decide) .nil)⟩, fun _ => by decide⟩

/-- With the default mode of L (`bresenham`) the first inequality fails: the path steps diagonally, where
`clusters` sees two clusters. -/
theorem C67_default_violated : ∃ labels r c,
    clusters true [2, 2] [1, 0, 0, 1] false = ok labels ∧
    Api.L id true (0 : ℚ) 0 [3, 3] (ofInts ℚ [2, 2] [1, 0, 0, 1]) false .bresenham = ok r ∧
    Api.C2 id true [3, 3] (ofInts ℚ [2, 2] labels) (ofInts ℚ [2, 2] labels) false = ok c ∧
    val c [2, 2] = 0 ∧ val r [2, 2] = 1 / 4 := by
  have h0 : ∀ {α β : Type} {o : Outcome α} {φ : α → β} {b : β}, o.get?.map φ = some b →
      ∃ a, o = ok a ∧ φ a = b := by
    intro α β o φ b h
    cases o with
    | ok a => exact ⟨a, rfl, by simpa [Outcome.get?] using h⟩
    | _ => simp [Outcome.get?] at h
  have e1 : (clusters true [2, 2] [1, 0, 0, 1] false).get?.map id = some [1, 0, 0, 2] := by decide +kernel
  have e2 : (Api.L id true (0 : ℚ) 0 [3, 3] (ofInts ℚ [2, 2] [1, 0, 0, 1]) false .bresenham).get?.map
      (fun r => val r [2, 2]) = some (1 / 4) := by decide +kernel
  have e3 : (Api.C2 id true [3, 3] (ofInts ℚ [2, 2] [1, 0, 0, 2]) (ofInts ℚ [2, 2] [1, 0, 0, 2]) false).get?.map
      (fun r => val r [2, 2]) = some 0 := by decide +kernel
  obtain ⟨labels, h1, rfl⟩ := h0 e1
  obtain ⟨r, h2, h3⟩ := h0 e2
  obtain ⟨c, h4, h5⟩ := h0 e3
  exact ⟨_, r, c, h1, h2, h4, h5, h3⟩

/-- With a `ClusterLabeller` whose kernel connects faces, edges and corners L is at most C2 of the labels
in every mode. -/
theorem C67_labeller {dbg : Bool} {shape : List Nat} {offsets : List (List Int)} (L : Legal periodic shape roi)
    (hv : ValidConfig periodic shape offsets)
    (hall : ∀ d : List Int, d.length = shape.length → AnyStep d → d ∈ offsets)
    {img : List Int} (hlen : img.length = shape.prod) {s : State} {rets : List (List Nat)}
    (h : run dbg (init periodic shape offsets) [.addImage img] = ok (s, rets)) (junk : ℚ) {fuel : Nat}
    {mode : Path.Mode} (hm : Enough fuel roi mode) (pow05 : K → K) :
    ∃ r c, Api.L pow05 dbg junk fuel roi (ofInts K shape img) periodic mode = ok r ∧
      Api.C2 pow05 dbg roi (ofInts K shape s.label.toList) (ofInts K shape s.label.toList) periodic = ok c ∧
      r.shape = roi ∧ c.shape = roi ∧ ∀ i, InBox roi i → val r i ≤ val c i := by
  have hc : ∀ c ∈ [Call.addImage img], c.Valid shape.prod := by simp [Call.Valid, hlen]
  obtain ⟨s', rets', e, hsz, -⟩ := C09_safe dbg hv hc
  rw [h] at e
  cases e
  have hget : ∀ p < shape.prod, s.label.toList.getD p 0 = labelAt s p := by
    intro p hp
    unfold Vec.toList labelAt
    rw [getD_of_lt (by simpa [hsz] using hp)]
    simp
  have hmem : ∀ p, p ∈ added [] [Call.addImage img] ↔ p < shape.prod ∧ img.getD p 0 ≠ 0 := by
    intro p
    have : visitAll [] ((List.range img.length).filter fun p => img.getD p 0 ≠ 0) =
        (List.range img.length).filter fun p => img.getD p 0 ≠ 0 := by
      rw [visitAll_new _ [] (List.nodup_range.filter _) (by simp)]; simp
    simp only [added, Call.visits, this]
    rw [List.mem_filter, List.mem_range, hlen, decide_eq_true_eq]
  have hvv : ∀ (q : List Int) (x : List Int), val (ofInts K shape q) x = ((q.getD (flat shape x).toNat 0 : Int) : K) :=
    fun _ _ => rfl
  have hfl : ∀ x ∈ pixels shape, (flat shape x).toNat < shape.prod ∧ ((flat shape x).toNat : Int) = flat shape x := by
    intro x hx
    have := flat_range (mem_pixels.1 hx)
    omega
  refine C67_L_any (f := ofInts K shape img) (l := ofInts K shape s.label.toList) L junk hm rfl ?_ ?_ pow05 dbg
  · intro x hx hf
    rw [hvv, Int.cast_ne_zero] at hf ⊢
    rw [hget _ (hfl x hx).1, Ne, C01_background hv hc h (hfl x hx).1, not_not, hmem]
    exact ⟨(hfl x hx).1, hf⟩
  · intro y hy d hd hu hfy hlit
    have hty : target periodic shape y d ∈ pixels shape := hlit.1
    have i2 := hlit.2
    rw [hvv, Int.cast_ne_zero] at hfy i2
    have m1 := (hmem _).2 ⟨(hfl y hy).1, hfy⟩
    have m2 := (hmem _).2 ⟨(hfl _ hty).1, i2⟩
    rw [hvv, hvv, Int.cast_inj]
    change s.label.toList.getD (flat shape (target periodic shape y d)).toNat 0 = _
    rw [hget _ (hfl _ hty).1, hget _ (hfl y hy).1]
    symm
    refine (C02_connected hv hc h m1 m2).2 (.step (.refl m1) ?_ m2)
    exact ⟨y, target periodic shape y d, d, hall d hd hu, mem_pixels.1 hy, mem_pixels.1 hty,
        shifted_target periodic (inbox_length (mem_pixels.1 hy)) hd, (hfl y hy).2.symm, (hfl _ hty).2.symm⟩

/-- The eight neighbours in two dimensions meet the hypotheses. -/
example : ValidConfig true [3, 4] [[-1, -1], [-1, 0], [-1, 1], [0, -1], [0, 1], [1, -1], [1, 0], [1, 1]] ∧
    ∀ d : List Int, d.length = 2 → AnyStep d →
      d ∈ ([[-1, -1], [-1, 0], [-1, 1], [0, -1], [0, 1], [1, -1], [1, 0], [1, 1]] : List (List Int)) := by
  refine ⟨⟨by decide, by decide, by decide, by decide, fun _ _ => by decide, fun h => by cases h⟩, ?_⟩
  intro d hd h
  obtain ⟨a, b, rfl⟩ := List.length_eq_two.1 hd
  obtain ⟨⟨i, hi, h0⟩, h⟩ := h
  have ha := h a (by simp)
  have hb := h b (by simp)
  have : (a = -1 ∨ a = 0 ∨ a = 1) ∧ (b = -1 ∨ b = 0 ∨ b = 1) := by omega
  rcases this with ⟨rfl | rfl | rfl, rfl | rfl | rfl⟩ <;> simp at hi ⊢ <;> omega

end Verif.Props
