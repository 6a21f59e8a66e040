import Verif.Lemmas.Effects
import Verif.Model.Measure
import Mathlib.Algebra.BigOperators.Group.List.Basic
import Mathlib.Algebra.Order.BigOperators.Group.List

/-! # From accumulators to averages over pairs of pixels -/

set_option linter.unusedSectionVars false

namespace Verif.Ens

open Verif Outcome Spec Cluster Nd

variable {K : Type} [Field K] [LinearOrder K] [IsStrictOrderedRing K] {α : Type}

theorem sum_prod (l : List (K × K × K)) :
    l.sum = ((l.map fun a => a.1).sum, (l.map fun a => a.2.1).sum, (l.map fun a => a.2.2).sum) := by
  induction l with
  | nil => rfl
  | cons a l ih =>
    simp [ih]
    rfl

theorem total_filter (l : List (List Int)) (t : List Int → List Int) (p : List Int × List Int → Bool)
    (φ : List Int → List Int → K) :
    total ((l.map fun x => (x, t x)).filter p) φ =
      (l.map fun x => if p (x, t x) then φ x (t x) else 0).sum := by
  induction l with
  | nil => rfl
  | cons a l ih =>
    unfold total at ih ⊢
    by_cases h : p (a, t a) <;> simp [h, ih]

theorem length_filter (l : List (List Int)) (t : List Int → List Int) (p : List Int × List Int → Bool) :
    (((l.map fun x => (x, t x)).filter p).length : K) =
      (l.map fun x => if p (x, t x) then (1 : K) else 0).sum := by
  rw [← total_filter l t p fun _ _ => 1, total]
  simp

theorem length_eq_total (l : List (List Int × List Int)) :
    (l.length : K) = total l fun _ _ => 1 := by
  simp [total]

/-- Dividing by the number of pairs. -/
theorem div_norm1 (l : List (List Int × List Int)) (φ : List Int → List Int → K) :
    total l φ / norm1 (l.length : K) = average l φ := by
  unfold average norm1
  by_cases h : l.length = 0
  · have : l = [] := List.length_eq_zero_iff.1 h
    simp [this, total]
  · have : ¬ ((l.length : K) ≤ 0) := by
      rw [not_le]
      exact_mod_cast Nat.pos_of_ne_zero h
    rw [if_neg this, if_neg h]

theorem wrap_of_inbox : ∀ {s : List Nat} {x : List Int}, InBox s x → wrap s x = x
  | [], [], _ => rfl
  | n :: s, i :: x, h => by
    cases h with
    | cons h1 h2 =>
      have := wrap_of_inbox h2
      simp only [wrap, List.zipWith_cons_cons] at this ⊢
      rw [this, Int.emod_eq_of_lt h1.1 h1.2]
  | [], _ :: _, h => by cases h
  | _ :: _, [], h => by cases h

/-- The value of the extended image is that of the target, which is in the image if periodic. -/
theorem ext_target {periodic : Bool} {a : Nd K} {x d : List Int}
    (h : target periodic a.shape x d ∈ pixels a.shape) :
    ext periodic a (move x d) = val a (target periodic a.shape x d) := by
  cases periodic with
  | true => rfl
  | false =>
    have h' : move x d ∈ pixels a.shape := h
    simp [ext, target, h']

theorem target_mem {s : List Nat} {x d : List Int} (hx : InBox s x) (hd : d.length = s.length) :
    target true s x d ∈ pixels s := by
  have e := inbox_length hx
  exact mem_pixels.2 (wrap_inbox (by rw [move_length (by omega), e]) (inbox_pos hx))

theorem _root_.Verif.Spec.IsMask.val {m : Nd Int} (h : IsMask m) {x : List Int} (hx : InBox m.shape x) :
    Spec.val m x = 0 ∨ Spec.val m x = 1 := by
  refine h _ ?_
  rw [Nd.size, prodShape_eq]
  exact flat_lt hx

theorem mask_weight {periodic : Bool} {m : Nd Int} (hm : IsMask m) {x d : List Int}
    (hx : InBox m.shape x) (hd : d.length = m.shape.length) :
    1 - ((maskAt periodic m (move x d) : Int) : K) =
      if target periodic m.shape x d ∈ pixels m.shape ∧
        Seen periodic m d x (target periodic m.shape x d) then 1 else 0 := by
  unfold maskAt
  by_cases h : move x d ∈ pixels m.shape
  · have ht : target periodic m.shape x d = move x d := by
      unfold target
      split
      · exact wrap_of_inbox (mem_pixels.1 h)
      · rfl
    rw [if_pos h, ht]
    rcases hm.val (mem_pixels.1 h) with e | e <;> simp [h, e, Seen]
  · rw [if_neg h]
    cases periodic with
    | true => simp [Seen, h, target_mem hx hd]
    | false =>
      have ht : target false m.shape x d = move x d := rfl
      simp [ht, h]

/-! ### One realisation -/

theorem norm1_ne (n : K) : norm1 n ≠ 0 := by
  unfold norm1
  split
  · exact one_ne_zero
  · rename_i h
    exact fun h' => h h'.le

/-- `result` never fails. -/
theorem result_good {roi : List Nat} {periodic variance : Bool} {E : Ensemble K}
    (h : Good roi periodic variance E) (pow05 : K → K) :
    result pow05 E = ok ⟨roi, fun k =>
      let v := E.first.get k / norm1 (E.norm.get k)
      if E.stat = .heightheight then pow05 v else v⟩ := by
  simp only [result, Nd.map₂, h.first, h.norm, if_true, ok_bind, h.shapeOrig, pure_eq, Nd.reshape]
  by_cases hs : E.stat = .heightheight <;> simp [hs, Nd.map]

/-- The result of an ensemble to which one realisation was added. -/
theorem once {roi : List Nat} {periodic : Bool} {st : Stat}
    {call : Bool → Ensemble K → Outcome (Ensemble K)} {φ : List Int → K × K × K} (pow05 : K → K)
    (hr : roi.length ≤ 3) (h0 : 0 ∉ roi) (h : Effect roi periodic true st call φ) (dbg : Bool) :
    ∃ r, (do
        let E ← make K dbg roi periodic true
        let E ← call dbg E
        result pow05 E) = ok r ∧ r.shape = roi ∧
      ∀ i, InBox roi i → val r i =
        let v := (φ (displacement roi i)).1 / norm1 (φ (displacement roi i)).2.2
        if st = .heightheight then pow05 v else v := by
  obtain ⟨δ, h1, h2⟩ := h
  rw [make_ok dbg hr h0]
  simp only [ok_bind]
  rw [h1 dbg _ good_fresh (Or.inr rfl), ok_bind]
  simp only [result, Ensemble.plus, fresh, Nd.fill, Nd.map₂, if_true, ok_bind]
  refine ⟨_, rfl, rfl, fun i hi => ?_⟩
  have e := h2 i hi
  rw [← e]
  simp only [val, Nd.reshape, Delta.at]
  by_cases hst : st = .heightheight <;> simp [hst, Nd.map]

theorem total_pairs (periodic : Bool) (shape : List Nat) (adm : List Int → List Int → Prop)
    [∀ x y, Decidable (adm x y)] (d : List Int) (φ : List Int → List Int → K) :
    total (pairs periodic shape adm d) φ = ((pixels shape).map fun x =>
      if target periodic shape x d ∈ pixels shape ∧ adm x (target periodic shape x d) then
        φ x (target periodic shape x d) else 0).sum := by
  rw [pairs, total_filter]
  simp

theorem length_pairs (periodic : Bool) (shape : List Nat) (adm : List Int → List Int → Prop)
    [∀ x y, Decidable (adm x y)] (d : List Int) :
    ((pairs periodic shape adm d).length : K) = ((pixels shape).map fun x =>
      if target periodic shape x d ∈ pixels shape ∧ adm x (target periodic shape x d) then
        (1 : K) else 0).sum := by
  rw [length_eq_total, total_pairs]

section values

variable {roi : List Nat} {periodic : Bool} {f g : Nd K} {fmask gmask : Nd Int}

theorem S2_value (L : Legal periodic f.shape roi)
    (hg : g.shape = f.shape) (hfm : fmask.shape = f.shape) (hgm : gmask.shape = f.shape)
    (bf : IsMask fmask) (bg : IsMask gmask) (pow05 : K → K) (dbg : Bool) :
    ∃ r, Api.S2Mask pow05 dbg roi f g fmask gmask periodic = ok r ∧ r.shape = roi ∧
      ∀ i, InBox roi i → let d := displacement roi i
        val r i = average (pairs periodic f.shape
          (fun x y => val fmask x = 0 ∧ Seen periodic gmask d x y) d) fun x y => val f x * val g y := by
  obtain ⟨r, h1, h2, h3⟩ := once (K := K) pow05 L.rank L.pos
    (S2_effect (K := K) (variance := true) L.rank L.pos L.same hg hfm hgm bf bg L.fits) dbg
  refine ⟨r, h1, h2, fun i hi => ?_⟩
  rw [h3 i hi]
  have hd : (displacement roi i).length = f.shape.length := by
    rw [displacement_length (inbox_length hi), L.same]
  simp only [sum_prod, List.map_map, if_neg (show ¬ Stat.S2 = .heightheight by decide)]
  rw [← div_norm1, total_pairs, length_pairs]
  refine congrArg₂ (fun a b => a / b) (congrArg List.sum ?_)
    (congrArg (fun z => norm1 (List.sum z)) ?_)
  · refine List.map_congr_left fun x hx => ?_
    rw [mem_pixels] at hx
    simp only [Function.comp]
    rw [mask_weight bg (by rw [hgm]; exact hx) (by rw [hgm]; exact hd), hgm]
    by_cases ht : target periodic f.shape x (displacement roi i) ∈ pixels f.shape
    · have e : ext periodic g (move x (displacement roi i)) =
          val g (target periodic f.shape x (displacement roi i)) := by
        have := ext_target (periodic := periodic) (a := g) (x := x) (d := displacement roi i)
          (by rw [hg]; exact ht)
        rwa [hg] at this
      rw [e]
      by_cases a : val fmask x = 0 <;> simp [ht, a]
    · simp [ht]
  · refine List.map_congr_left fun x hx => ?_
    rw [mem_pixels] at hx
    simp only [Function.comp]
    rw [mask_weight bg (by rw [hgm]; exact hx) (by rw [hgm]; exact hd), hgm]
    by_cases a : val fmask x = 0 <;> simp [a]

theorem C2_value (L : Legal periodic f.shape roi)
    (hg : g.shape = f.shape) (hfm : fmask.shape = f.shape) (hgm : gmask.shape = f.shape)
    (bf : IsMask fmask) (bg : IsMask gmask) (pow05 : K → K) (dbg : Bool) :
    ∃ r, Api.C2Mask pow05 dbg roi f g fmask gmask periodic = ok r ∧ r.shape = roi ∧
      ∀ i, InBox roi i → let d := displacement roi i
        val r i = average (pairs periodic f.shape
          (fun x y => val fmask x = 0 ∧ Seen periodic gmask d x y) d)
          fun x y => if val f x ≠ 0 ∧ val f x = val g y then 1 else 0 := by
  obtain ⟨r, h1, h2, h3⟩ := once (K := K) pow05 L.rank L.pos
    (C2_effect (K := K) (variance := true) L.rank L.pos L.same hg hfm hgm bf bg L.fits) dbg
  refine ⟨r, h1, h2, fun i hi => ?_⟩
  rw [h3 i hi]
  have hd : (displacement roi i).length = f.shape.length := by
    rw [displacement_length (inbox_length hi), L.same]
  simp only [sum_prod, List.map_map, if_neg (show ¬ Stat.C2 = .heightheight by decide)]
  rw [← div_norm1, total_pairs, length_pairs]
  refine congrArg₂ (fun a b => a / b) (congrArg List.sum ?_)
    (congrArg (fun z => norm1 (List.sum z)) ?_)
  · refine List.map_congr_left fun x hx => ?_
    rw [mem_pixels] at hx
    simp only [Function.comp]
    rw [mask_weight bg (by rw [hgm]; exact hx) (by rw [hgm]; exact hd), hgm]
    by_cases ht : target periodic f.shape x (displacement roi i) ∈ pixels f.shape
    · have e : ext periodic g (move x (displacement roi i)) =
          val g (target periodic f.shape x (displacement roi i)) := by
        have := ext_target (periodic := periodic) (a := g) (x := x) (d := displacement roi i)
          (by rw [hg]; exact ht)
        rwa [hg] at this
      rw [e]
      by_cases a : val fmask x = 0 <;> by_cases b : Seen periodic gmask (displacement roi i) x
        (target periodic f.shape x (displacement roi i)) <;> simp [ht, a, b]
    · simp [ht]
  · refine List.map_congr_left fun x hx => ?_
    rw [mem_pixels] at hx
    simp only [Function.comp]
    rw [mask_weight bg (by rw [hgm]; exact hx) (by rw [hgm]; exact hd), hgm]
    by_cases a : val fmask x = 0 <;> simp [a]

theorem W2_value (L : Legal periodic f.shape roi)
    (hg : g.shape = f.shape) (hgm : gmask.shape = f.shape)
    (bg : IsMask gmask) (pow05 : K → K) (dbg : Bool) :
    ∃ r, Api.W2Mask pow05 dbg roi f g gmask periodic = ok r ∧ r.shape = roi ∧
      ∀ i, InBox roi i → let d := displacement roi i
        let l := pairs periodic f.shape (Seen periodic gmask d) d
        val r i = (total l fun x y => val f x * val g y) / norm1 (total l fun x _ => val f x) := by
  obtain ⟨r, h1, h2, h3⟩ := once (K := K) pow05 L.rank L.pos
    (W2_effect (K := K) (variance := true) L.rank L.pos L.same hg hgm bg L.fits) dbg
  refine ⟨r, h1, h2, fun i hi => ?_⟩
  rw [h3 i hi]
  have hd : (displacement roi i).length = f.shape.length := by
    rw [displacement_length (inbox_length hi), L.same]
  simp only [sum_prod, List.map_map, if_neg (show ¬ Stat.W2 = .heightheight by decide)]
  rw [total_pairs, total_pairs]
  refine congrArg₂ (fun a b => a / b) (congrArg List.sum ?_)
    (congrArg (fun z => norm1 (List.sum z)) ?_)
  · refine List.map_congr_left fun x hx => ?_
    rw [mem_pixels] at hx
    simp only [Function.comp]
    rw [mask_weight bg (by rw [hgm]; exact hx) (by rw [hgm]; exact hd), hgm]
    by_cases ht : target periodic f.shape x (displacement roi i) ∈ pixels f.shape
    · have e : ext periodic g (move x (displacement roi i)) =
          val g (target periodic f.shape x (displacement roi i)) := by
        have := ext_target (periodic := periodic) (a := g) (x := x) (d := displacement roi i)
          (by rw [hg]; exact ht)
        rwa [hg] at this
      rw [e]
      simp [ht]
    · simp [ht]
  · refine List.map_congr_left fun x hx => ?_
    rw [mem_pixels] at hx
    simp only [Function.comp]
    rw [mask_weight bg (by rw [hgm]; exact hx) (by rw [hgm]; exact hd), hgm]
    simp

theorem HH_value (L : Legal periodic f.shape roi) (hfm : fmask.shape = f.shape)
    (bf : IsMask fmask) (pow05 : K → K) (dbg : Bool) :
    ∃ r, Api.heightheightMask pow05 dbg roi f fmask periodic = ok r ∧ r.shape = roi ∧
      ∀ i, InBox roi i → let d := displacement roi i
        val r i = pow05 (average (pairs periodic f.shape
          (fun x y => val fmask x = 0 ∧ Seen periodic fmask d x y) d)
          fun x y => (val f y - val f x) ^ 2) := by
  obtain ⟨r, h1, h2, h3⟩ := once (K := K) pow05 L.rank L.pos
    (HH_effect (K := K) (variance := true) L.rank L.pos L.same hfm bf L.fits) dbg
  refine ⟨r, h1, h2, fun i hi => ?_⟩
  rw [h3 i hi]
  have hd : (displacement roi i).length = f.shape.length := by
    rw [displacement_length (inbox_length hi), L.same]
  simp only [sum_prod, List.map_map, if_true]
  rw [← div_norm1, total_pairs, length_pairs]
  refine congrArg pow05 (congrArg₂ (fun a b => a / b) (congrArg List.sum ?_)
    (congrArg (fun z => norm1 (List.sum z)) ?_))
  · refine List.map_congr_left fun x hx => ?_
    rw [mem_pixels] at hx
    simp only [Function.comp]
    rw [mask_weight bf (by rw [hfm]; exact hx) (by rw [hfm]; exact hd), hfm]
    by_cases ht : target periodic f.shape x (displacement roi i) ∈ pixels f.shape
    · rw [ext_target ht]
      by_cases a : val fmask x = 0 <;> simp [ht, a]
    · simp [ht]
  · refine List.map_congr_left fun x hx => ?_
    rw [mem_pixels] at hx
    simp only [Function.comp]
    rw [mask_weight bf (by rw [hfm]; exact hx) (by rw [hfm]; exact hd), hfm]
    by_cases a : val fmask x = 0 <;> simp [a]

end values

end Verif.Ens
