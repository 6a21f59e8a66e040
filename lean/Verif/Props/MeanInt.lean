import Verif.Model.MeanInt
import Verif.Props.Moments
import Verif.Props.Float

/-! # The mean of images of type `int` (C128) -/

namespace Verif.Props

open Verif Outcome Spec Ens Nd

/-- The order adds every pixel of the image once. -/
def AddsAll (order : Order) (f : Nd Int) : Prop := order.pixels.Perm (List.range f.size)

theorem order_total (f : Nd Int) : ∀ (o : Order) {s : Int}, o.sum f = ok s → s = (o.pixels.map f.get).sum
  | .pixel k, s, h => by
    cases h
    simp [Order.pixels]
  | .plus a b, s, h => by
    unfold Order.sum at h
    cases ha : a.sum f with
    | ok x =>
      cases hb : b.sum f with
      | ok y =>
        rw [ha, hb] at h
        have h : Path.i32 (x + y) = ok s := h
        unfold Path.i32 at h
        split at h
        · cases h
          rw [order_total f a ha, order_total f b hb]
          simp [Order.pixels]
        · cases h
      | _ => rw [ha, hb] at h; cases h
    | _ => rw [ha] at h; cases h

theorem order_fits (f : Nd Int) : ∀ (o : Order), (o.pixels.map fun k => |f.get k|).sum ≤ 2147483647 →
    o.sum f = ok (o.pixels.map f.get).sum
  | .pixel k, _ => by simp [Order.sum, Order.pixels]
  | .plus a b, h => by
    simp only [Order.pixels, List.map_append, List.sum_append] at h ⊢
    have pos : ∀ l : List Nat, 0 ≤ (l.map fun k => |f.get k|).sum := fun l =>
      List.sum_nonneg (by simp)
    have bound : ∀ l : List Nat, |(l.map f.get).sum| ≤ (l.map fun k => |f.get k|).sum := by
      intro l
      induction l with
      | nil => simp
      | cons c l ih =>
        simp only [List.map_cons, List.sum_cons]
        exact (abs_add_le _ _).trans (by omega)
    have := pos a.pixels
    have := pos b.pixels
    have ba := abs_le.1 (bound a.pixels)
    have bb := abs_le.1 (bound b.pixels)
    unfold Order.sum
    rw [order_fits f a (by omega), order_fits f b (by omega)]
    show Path.i32 _ = _
    unfold Path.i32
    rw [if_pos (by omega)]

theorem order_outcome (f : Nd Int) : ∀ (o : Order), (∀ k ∈ o.pixels, -2147483648 ≤ f.get k ∧ f.get k ≤ 2147483647) →
    o.sum f = ub ∨ ∃ s, o.sum f = ok s ∧ -2147483648 ≤ s ∧ s ≤ 2147483647
  | .pixel k, hf => Or.inr ⟨_, rfl, hf k (by simp [Order.pixels])⟩
  | .plus a b, hf => by
    unfold Order.sum
    rcases order_outcome f a (fun k hk => hf k (by simp [Order.pixels, hk])) with e | ⟨x, e, -⟩ <;> rw [e]
    · exact Or.inl rfl
    rcases order_outcome f b (fun k hk => hf k (by simp [Order.pixels, hk])) with e | ⟨y, e, -⟩ <;> rw [e]
    · exact Or.inl rfl
    show Path.i32 (x + y) = ub ∨ ∃ s, Path.i32 (x + y) = ok s ∧ _
    unfold Path.i32
    by_cases h : -2147483648 ≤ x + y ∧ x + y ≤ 2147483647
    · rw [if_pos h]
      exact Or.inr ⟨_, rfl, h⟩
    · rw [if_neg h]
      exact Or.inl rfl

theorem meanInt_ok {K : Type} [Zero K] [Add K] [Pow K Nat] [NatCast K] [IntCast K] (dbg : Bool) {order : Order} (E : Ensemble K)
    {f : Nd Int} (hs : ((f.sum : Int) : K) = (f.map fun (x : Int) => (x : K)).sum) (h : order.sum f = ok f.sum) :
    meanInt dbg order E f = Ens.mean dbg E (f.map fun (x : Int) => (x : K)) := by
  unfold meanInt Ens.mean
  rw [h, ← hs]
  rfl

theorem order_sum {order : Order} {f : Nd Int} (ho : AddsAll order f)
    (hf : (f.toList.map fun v => |v|).sum ≤ 2147483647) : order.sum f = ok f.sum := by
  have e := (ho.map fun k => |f.get k|).sum_eq
  rw [order_fits f order (by rw [e]; simpa [Nd.toList, Function.comp_def] using hf), (ho.map f.get).sum_eq]
  rfl

variable {K : Type} [Field K] [LinearOrder K] [IsStrictOrderedRing K]

theorem sum_cast (f : Nd Int) : ((f.sum : Int) : K) = (f.map fun (x : Int) => (x : K)).sum := by
  unfold Nd.sum Nd.toList
  show _ = ((List.range f.size).map fun k => ((f.get k : Int) : K)).sum
  generalize List.range f.size = l
  induction l with
  | nil => simp
  | cons a l ih => simp only [List.map_cons, List.sum_cons, Int.cast_add, ih]

/-- **C128**: in whatever order the pixels are added: the mean of an image of type `int` is that of its values as numbers if the
absolute values of the pixels add up to a number that fits in `int`. -/
theorem C128_partial (dbg : Bool) {order : Order} (E : Ensemble K) {f : Nd Int} (ho : AddsAll order f)
    (hf : (f.toList.map fun v => |v|).sum ≤ 2147483647) :
    meanInt dbg order E f = Ens.mean dbg E (f.map fun (x : Int) => (x : K)) := by
  exact meanInt_ok dbg E (sum_cast f) (order_sum ho hf)

/-- **C128**: exactly for which images, if no pixel is negative: those whose sum fits in `int`. For all others the call is
undefined. `E'` is what the ensemble should become. -/
theorem C128_iff (dbg : Bool) {order : Order} (E E' : Ensemble K) {f : Nd Int} (ho : AddsAll order f)
    (hpos : ∀ k < f.size, 0 ≤ f.get k ∧ f.get k ≤ 2147483647) (hE : Ens.mean dbg E (f.map fun (x : Int) => (x : K)) = ok E') :
    (meanInt dbg order E f = ok E' ↔ f.sum ≤ 2147483647) ∧ (¬ f.sum ≤ 2147483647 → meanInt dbg order E f = ub) := by
  have out : ¬ f.sum ≤ 2147483647 → meanInt dbg order E f = ub := by
    intro h
    have e : order.sum f = ub := by
      rcases order_outcome f order (fun k hk => by
          have := hpos k (List.mem_range.1 (ho.mem_iff.1 hk)); omega) with e | ⟨s, e, -, hs⟩
      · exact e
      · have := order_total f order e
        rw [(ho.map f.get).sum_eq] at this
        have this : s = f.sum := this
        omega
    unfold Ens.mean at hE
    unfold meanInt
    rw [e]
    cases h1 : gassert dbg (decide (E.shape = [1, 1, 1])) with
    | ok _ =>
      rw [h1] at hE
      cases h2 : gassert dbg (decide (E.stat = .mean ∨ E.stat = .unset)) with
      | ok _ => rfl
      | _ => rw [h2] at hE; cases hE
    | _ => rw [h1] at hE; cases hE
  refine ⟨⟨fun h => ?_, fun h => ?_⟩, out⟩
  · by_contra hn
    rw [out hn] at h
    cases h
  · rw [C128_partial dbg E ho, hE]
    have : f.toList.map (fun v => |v|) = f.toList := by
      conv_rhs => rw [← List.map_id f.toList]
      refine List.map_congr_left fun v hv => ?_
      obtain ⟨k, hk, rfl⟩ := List.mem_map.1 hv
      exact abs_of_nonneg (hpos k (List.mem_range.1 hk)).1
    rw [this]
    exact h

/-- **C128** in `double`. -/
theorem C128_double_partial {rnd : ℚ → ℚ} (hr : ExactInts rnd) (dbg : Bool) {order : Order} (E : Ensemble (Fl rnd)) {f : Nd Int}
    (ho : AddsAll order f) (hf : (f.toList.map fun v => |v|).sum ≤ 2147483647) :
    meanInt dbg order E f = Ens.mean dbg E (f.map fun (x : Int) => (x : Fl rnd)) := by
  refine meanInt_ok dbg E ?_ (order_sum ho hf)
  unfold Nd.sum Nd.toList at *
  show _ = ((List.range f.size).map fun k => ((f.get k : Int) : Fl rnd)).sum
  rw [List.map_map] at hf
  revert hf
  generalize List.range f.size = l
  have bound : ∀ l : List Nat, |(l.map f.get).sum| ≤ (l.map ((fun v => |v|) ∘ f.get)).sum := by
    intro l
    induction l with
    | nil => simp
    | cons c l ih =>
      simp only [List.map_cons, List.sum_cons, Function.comp_apply]
      exact (abs_add_le _ _).trans (by omega)
  intro hf
  induction l with
  | nil =>
    have := hr 0 (by decide)
    exact Fl.ext (show rnd ((0 : Int) : ℚ) = 0 by simpa using this)
  | cons a l ih =>
    have b1 := bound l
    have b2 := bound (a :: l)
    have p1 := abs_nonneg (f.get a)
    have p2 := abs_nonneg (l.map f.get).sum
    simp only [List.map_cons, List.sum_cons, Function.comp_apply] at hf b2 ⊢
    rw [← ih (by omega)]
    refine Fl.ext ?_
    show rnd _ = rnd (rnd _ + rnd _)
    rw [hr (f.get a) (by omega), hr _ (by omega : |(l.map f.get).sum| ≤ 2 ^ 53)]
    push_cast
    rfl

/-- Two pixels. -/
def two : Nd Int := Nd.ofList [2] [1073741824, 1073741824]

/-- The mean of two pixels of `2 ^ 30`: in whatever order they are added, the call is undefined; with a mask without masked
pixels the mean is `2 ^ 30`. -/
theorem C128_violated (dbg : Bool) {order : Order} (ho : AddsAll order two) :
    (do
      let E ← make ℚ dbg [1] false true
      meanInt dbg order E two) = ub ∧
    (do
      let E ← make ℚ dbg [1] false true
      let E ← meanMask dbg E (two.map fun (x : Int) => (x : ℚ)) (Nd.fill [2] 0)
      result id E).map Nd.toList = ok [1073741824] := by
  constructor
  · obtain ⟨E, E', e1, e2⟩ : ∃ E E' : Ensemble ℚ, make ℚ dbg [1] false true = ok E ∧
        Ens.mean dbg E (two.map fun (x : Int) => (x : ℚ)) = ok E' := by
      cases dbg <;> exact ⟨_, _, rfl, rfl⟩
    rw [e1]
    refine (C128_iff dbg E E' ho (fun k hk => ?_) e2).2 (by decide +kernel)
    rcases k with _ | _ | k
    · decide +kernel
    · decide +kernel
    · exact absurd (show k + 1 + 1 < 2 from hk) (by omega)
  · cases dbg <;> decide +kernel

/-- An order. -/
example : AddsAll (.plus (.pixel 0) (.pixel 1)) two ∧ ExactInts rnd64 := ⟨by unfold AddsAll; decide +kernel, rnd64_exact⟩

/-- Three pixels, added from the last to the first. -/
example : AddsAll (.plus (.plus (.pixel 2) (.pixel 1)) (.pixel 0)) (Nd.ofList [3] [5, -7, 2]) ∧
    (((Nd.ofList [3] [5, -7, 2] : Nd Int).toList.map fun v => |v|).sum ≤ 2147483647) := by
  unfold AddsAll
  decide +kernel

end Verif.Props
