import Verif.Lemmas.Shift

/-! # Averages over pairs of pixels -/

set_option linter.unusedSectionVars false

namespace Verif.Ens

open Verif Outcome Spec Cluster Nd

variable {K : Type} [Field K] [LinearOrder K] [IsStrictOrderedRing K]

section
variable {periodic : Bool} {shape : List Nat} {d : List Int}
  {adm adm' : List Int → List Int → Prop} [∀ x y, Decidable (adm x y)] [∀ x y, Decidable (adm' x y)]

theorem mem_pairs {p : List Int × List Int} : p ∈ pairs periodic shape adm d ↔
    p.1 ∈ pixels shape ∧ p.2 = target periodic shape p.1 d ∧ p.2 ∈ pixels shape ∧ adm p.1 p.2 := by
  simp only [pairs, List.mem_filter, List.mem_map, decide_eq_true_eq]
  constructor
  · rintro ⟨⟨x, hx, rfl⟩, h⟩
    exact ⟨hx, rfl, h⟩
  · rintro ⟨hx, e, h⟩
    exact ⟨⟨p.1, hx, by rw [← e]⟩, h⟩

theorem pairs_congr (h : ∀ x ∈ pixels shape, target periodic shape x d ∈ pixels shape →
    (adm x (target periodic shape x d) ↔ adm' x (target periodic shape x d))) :
    pairs periodic shape adm d = pairs periodic shape adm' d := by
  unfold pairs
  refine List.filter_congr fun p hp => ?_
  obtain ⟨x, hx, rfl⟩ := List.mem_map.1 hp
  by_cases ht : target periodic shape x d ∈ pixels shape
  · simp [ht, h x hx ht]
  · simp [ht]

end

theorem total_congr {l : List (List Int × List Int)} {φ ψ : List Int → List Int → K}
    (h : ∀ p ∈ l, φ p.1 p.2 = ψ p.1 p.2) : total l φ = total l ψ := by
  unfold total
  rw [List.map_congr_left h]

theorem average_congr {l : List (List Int × List Int)} {φ ψ : List Int → List Int → K}
    (h : ∀ p ∈ l, φ p.1 p.2 = ψ p.1 p.2) : average l φ = average l ψ := by
  unfold average
  rw [total_congr h]

theorem average_eq_div (l : List (List Int × List Int)) (φ : List Int → List Int → K) :
    average l φ = total l φ / (l.length : K) := by
  unfold average
  split
  · rename_i h
    simp [h]
  · rfl

theorem total_nonneg {l : List (List Int × List Int)} {φ : List Int → List Int → K}
    (h : ∀ p ∈ l, 0 ≤ φ p.1 p.2) : 0 ≤ total l φ := by
  refine List.sum_nonneg fun a ha => ?_
  obtain ⟨p, hp, rfl⟩ := List.mem_map.1 ha
  exact h p hp

theorem total_le {l : List (List Int × List Int)} {φ ψ : List Int → List Int → K}
    (h : ∀ p ∈ l, φ p.1 p.2 ≤ ψ p.1 p.2) : total l φ ≤ total l ψ :=
  List.sum_le_sum fun p hp => h p hp

theorem total_const (l : List (List Int × List Int)) (c : K) : total l (fun _ _ => c) = l.length * c := by
  simp [total]

theorem total_mul (l : List (List Int × List Int)) (c : K) (φ : List Int → List Int → K) :
    total l (fun x y => c * φ x y) = c * total l φ := by
  unfold total
  induction l with
  | nil => simp
  | cons a l ih => simp [mul_add, ih]

theorem total_add (l : List (List Int × List Int)) (φ ψ : List Int → List Int → K) :
    total l (fun x y => φ x y + ψ x y) = total l φ + total l ψ := by
  unfold total
  rw [List.sum_map_add]

theorem average_nonneg {l : List (List Int × List Int)} {φ : List Int → List Int → K}
    (h : ∀ p ∈ l, 0 ≤ φ p.1 p.2) : 0 ≤ average l φ := by
  rw [average_eq_div]
  exact div_nonneg (total_nonneg h) (Nat.cast_nonneg _)

theorem average_le_one {l : List (List Int × List Int)} {φ : List Int → List Int → K}
    (h : ∀ p ∈ l, φ p.1 p.2 ≤ 1) : average l φ ≤ 1 := by
  rw [average_eq_div]
  refine div_le_one_of_le₀ ?_ (Nat.cast_nonneg _)
  have := total_le (ψ := fun _ _ => 1) h
  rwa [total_const, mul_one] at this

/-- The average over all pixels of a periodic image. -/
theorem average_periodic {shape : List Nat} {d : List Int} (hd : d.length = shape.length)
    {adm : List Int → List Int → Prop} [∀ x y, Decidable (adm x y)]
    (ha : ∀ x ∈ pixels shape, adm x (wrap shape (move x d))) (φ : List Int → List Int → K) :
    average (pairs true shape adm d) φ =
      ((pixels shape).map fun x => φ x (wrap shape (move x d))).sum / (shape.prod : K) := by
  rw [average_eq_div, total_pairs, length_pairs, ← pixels_length]
  have e1 : ∀ x ∈ pixels shape, (target true shape x d ∈ pixels shape ∧
      adm x (target true shape x d)) := fun x hx => ⟨target_mem (mem_pixels.1 hx) hd, ha x hx⟩
  congr 1
  · refine congrArg List.sum (List.map_congr_left fun x hx => ?_)
    rw [if_pos (e1 x hx)]
    rfl
  · rw [List.map_congr_left (g := fun _ => (1 : K)) fun x hx => if_pos (e1 x hx)]
    simp

theorem move_assoc_neg {x d : List Int} (h : d.length = x.length) : move (move x d) (neg d) = x := by
  induction x generalizing d with
  | nil => simp [move]
  | cons a x ih =>
    match d, h with
    | b :: d, h =>
      have := ih (d := d) (by simpa using h)
      simp only [move, neg, List.map_cons, List.zipWith_cons_cons, List.cons.injEq] at this ⊢
      exact ⟨by omega, this⟩

theorem target_neg {periodic : Bool} {s : List Nat} {x d : List Int} (hx : InBox s x)
    (hd : d.length = s.length) :
    target periodic s (target periodic s x d) (neg d) = x := by
  have e := inbox_length hx
  cases periodic with
  | true => exact shift_neg hx hd
  | false => exact move_assoc_neg (by omega)

theorem neg_neg' (d : List Int) : neg (neg d) = d := by
  simp [neg]

/-- The pairs at displacement `-d` are the swapped pairs at displacement `d`. -/
theorem pairs_swap {periodic : Bool} {s : List Nat} {d : List Int} (hd : d.length = s.length)
    {adm : List Int → List Int → Prop} [∀ x y, Decidable (adm x y)] :
    ((pairs periodic s adm d).map Prod.swap).Perm (pairs periodic s (fun x y => adm y x) (neg d)) := by
  have nd : ∀ (e : List Int) (adm : List Int → List Int → Prop) [∀ x y, Decidable (adm x y)],
      (pairs periodic s adm e).Nodup := by
    intro e adm _
    unfold pairs
    refine List.Nodup.filter _ (List.Nodup.map ?_ (pixels_nodup s))
    intro x y h
    exact (Prod.mk.injEq .. ▸ h).1
  refine (List.perm_ext_iff_of_nodup ((nd d adm).map Prod.swap_injective) (nd _ _)).2 fun p => ?_
  rw [List.mem_map, mem_pairs]
  constructor
  · rintro ⟨q, hq, rfl⟩
    rw [mem_pairs] at hq
    obtain ⟨h1, h2, h3, h4⟩ := hq
    refine ⟨h3, ?_, h1, h4⟩
    show q.1 = target periodic s q.2 (neg d)
    rw [h2, target_neg (mem_pixels.1 h1) hd]
  · rintro ⟨h1, h2, h3, h4⟩
    refine ⟨p.swap, mem_pairs.2 ⟨h3, ?_, h1, h4⟩, Prod.swap_swap p⟩
    show p.1 = target periodic s p.2 d
    have := target_neg (periodic := periodic) (mem_pixels.1 h1) (d := neg d) (by rw [neg_length, hd])
    rw [neg_neg', ← h2] at this
    exact this.symm

theorem average_swap {periodic : Bool} {s : List Nat} {d : List Int} (hd : d.length = s.length)
    {adm : List Int → List Int → Prop} [∀ x y, Decidable (adm x y)] (φ : List Int → List Int → K) :
    average (pairs periodic s (fun x y => adm y x) (neg d)) φ =
      average (pairs periodic s adm d) fun x y => φ y x := by
  have hp := pairs_swap (periodic := periodic) hd (adm := adm)
  rw [average_eq_div, average_eq_div, ← hp.length_eq, List.length_map]
  congr 1
  have := (hp.map fun p => φ p.1 p.2).sum_eq
  unfold total
  rw [← this, List.map_map]
  rfl

end Verif.Ens
