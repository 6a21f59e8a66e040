import Verif.Lemmas.ClusterRefine
import Verif.Lemmas.Naive
import Mathlib.Tactic.Ring
import Mathlib.Tactic.Linarith

/-! # The neighbours computed by `get_compare_*` are the neighbours of the specification -/

namespace Verif.Cluster

open Verif Outcome Spec

theorem prodShape_eq (shape : List Nat) : prodShape shape = shape.prod := by
  induction shape with
  | nil => rfl
  | cons n s ih => simp [prodShape, ih]

/-! ### coordinates -/

theorem flat_range : ∀ {shape : List Nat} {x : List Int}, InBox shape x →
    0 ≤ flat shape x ∧ flat shape x < shape.prod
  | [], _, h => by cases h; simp [flat]
  | n :: s, _, h => by
    cases h with
    | cons h1 h2 =>
      rename_i i x
      have ih := flat_range h2
      simp only [flat, List.prod_cons, Nat.cast_mul]
      have h3 : 0 ≤ i * (s.prod : Nat) := mul_nonneg h1.1 (by omega)
      have h4 : (i + 1) * ((s.prod : Nat) : Int) ≤ n * ((s.prod : Nat) : Int) :=
        mul_le_mul_of_nonneg_right (by omega) (by omega)
      rw [add_mul, one_mul] at h4
      omega

theorem flat_inj : ∀ {shape : List Nat} {x y : List Int}, InBox shape x → InBox shape y →
    flat shape x = flat shape y → x = y
  | [], _, _, h, h', _ => by cases h; cases h'; rfl
  | n :: s, _, _, h, h', e => by
    cases h with
    | cons h1 h2 =>
      cases h' with
      | cons h1' h2' =>
        rename_i i x j y
        have r1 := flat_range h2
        have r2 := flat_range h2'
        simp only [flat] at e
        have hij : i = j := by
          by_contra hne
          rcases lt_or_gt_of_ne hne with hlt | hlt
          · have := mul_le_mul_of_nonneg_right (show i + 1 ≤ j by omega)
              (show (0 : Int) ≤ (s.prod : Nat) by omega)
            rw [add_mul, one_mul] at this
            omega
          · have := mul_le_mul_of_nonneg_right (show j + 1 ≤ i by omega)
              (show (0 : Int) ≤ (s.prod : Nat) by omega)
            rw [add_mul, one_mul] at this
            omega
        subst hij
        rw [flat_inj h2 h2' (by omega)]

/-- Every index is the index of a pixel, with the coordinates that `unravel_from_strides` gives. -/
theorem unravel_ok : ∀ {shape : List Nat} {p : Int}, 0 ≤ p → p < shape.prod →
    InBox shape (unravelFromStrides p (xstrides shape)) ∧
      flat shape (unravelFromStrides p (xstrides shape)) = p
  | [], p, h0, h1 => by
    simp at h1
    have : p = 0 := by omega
    subst this
    exact ⟨List.Forall₂.nil, rfl⟩
  | n :: s, p, h0, h1 => by
    simp only [xstrides]
    have hs : 0 < s.prod := by
      by_contra hc
      have : s.prod = 0 := by omega
      simp [this] at h1
      omega
    simp only [List.prod_cons, Nat.cast_mul] at h1
    by_cases hn : n = 1
    · subst hn
      simp only [unravelFromStrides, if_true]
      obtain ⟨a, b⟩ := unravel_ok (shape := s) (p := p) h0 (by simpa using h1)
      exact ⟨List.Forall₂.cons ⟨le_refl _, by simp⟩ a, by simp [flat, b]⟩
    · simp only [if_neg hn, unravelFromStrides, prodShape_eq]
      rw [if_neg (by omega)]
      have hsp : (0 : Int) < (s.prod : Nat) := by exact_mod_cast hs
      rw [Int.tdiv_eq_ediv_of_nonneg h0, Int.tmod_eq_emod_of_nonneg h0]
      obtain ⟨a, b⟩ := unravel_ok (shape := s) (p := p % (s.prod : Nat))
        (Int.emod_nonneg _ (by omega)) (Int.emod_lt_of_pos _ hsp)
      refine ⟨List.Forall₂.cons ⟨Int.ediv_nonneg h0 (by omega), ?_⟩ a, ?_⟩
      · exact Int.ediv_lt_of_lt_mul hsp h1
      · simp only [flat, b]
        have := Int.mul_ediv_add_emod p (s.prod : Nat)
        rw [mul_comm]
        exact this

theorem ravelIndex_eq : ∀ {shape : List Nat} {x : List Int}, InBox shape x →
    ravelIndex x shape = flat shape x
  | [], _, h => by cases h; rfl
  | n :: s, _, h => by
    cases h with
    | cons h1 h2 =>
      rename_i i x
      simp only [ravelIndex, flat, ravelIndex_eq h2, prodShape_eq]
      split
      · rename_i hn
        subst hn
        have : i = 0 := by omega
        simp [this]
      · rfl

/-! ### shifting -/

theorem tmod_shift {n : Nat} (hn : 0 < n) (a : Int) :
    ((n : Int) + a.tmod n).tmod n = a % n := by
  have hn' : (0 : Int) < n := by exact_mod_cast hn
  have h1 : -(n : Int) < a.tmod n ∧ a.tmod n < n :=
    ⟨Int.lt_tmod_of_pos a hn', Int.tmod_lt_of_pos a hn'⟩
  rw [Int.tmod_eq_emod_of_nonneg (by omega), Int.add_emod_left]
  have h2 := Int.mul_tdiv_add_tmod a n
  have h3 : a.tmod n = a + n * (-(a.tdiv n)) := by rw [mul_neg]; omega
  rw [h3, Int.add_mul_emod_self_left]

theorem shifted_unique {periodic : Bool} : ∀ {shape : List Nat} {x d y y' : List Int},
    InBox shape y → InBox shape y' → Shifted periodic shape x d y → Shifted periodic shape x d y' →
    y = y'
  | [], x, d, _, _, h, h', _, _ => by cases h; cases h'; rfl
  | n :: s, x, d, _, _, h, h', e, e' => by
    cases h with
    | cons h1 h2 =>
      cases h' with
      | cons h1' h2' =>
        rename_i j y j' y'
        match x, d, e, e' with
        | i :: x, d :: ds, e, e' =>
          simp only [Shifted] at e e'
          have hj : j = j' := by
            cases periodic
            · simp at e e'; omega
            · simp only [if_true] at e e'
              have h3 : (n : Int) ∣ j - j' := by
                have := Int.dvd_sub e'.1 e.1
                rwa [show i + d - j' - (i + d - j) = j - j' by ring] at this
              obtain ⟨k, hk⟩ := h3
              have hk0 : k = 0 := by
                by_contra hne
                rcases lt_or_gt_of_ne hne with hlt | hlt
                · have := mul_le_mul_of_nonneg_left (show k ≤ -1 by omega)
                    (show (0 : Int) ≤ n by omega)
                  omega
                · have := mul_le_mul_of_nonneg_left (show 1 ≤ k by omega)
                    (show (0 : Int) ≤ n by omega)
                  omega
              subst hk0
              omega
          rw [hj, shifted_unique h2 h2' e.2 e'.2]

theorem shiftLoop_ok {periodic : Bool} : ∀ {shape : List Nat} {x d : List Int}, InBox shape x →
    d.length = shape.length →
    (∃ y, shiftLoop periodic shape x d = ok (some y) ∧ InBox shape y ∧
      Shifted periodic shape x d y) ∨
    (shiftLoop periodic shape x d = ok none ∧ periodic = false ∧
      ¬ ∃ y, InBox shape y ∧ Shifted periodic shape x d y)
  | [], _, d, h, hl => by
    cases h
    match d, hl with
    | [], _ => exact Or.inl ⟨[], rfl, List.Forall₂.nil, trivial⟩
  | n :: s, _, d, h, hl => by
    cases h with
    | cons h1 h2 =>
      rename_i i x
      match d, hl with
      | d :: ds, hl =>
        have ih := shiftLoop_ok (periodic := periodic) h2 (d := ds) (by simpa using hl)
        have hn : 0 < n := by omega
        unfold shiftLoop
        cases periodic
        · simp only [Bool.false_eq_true, if_false]
          by_cases hr : i + d < 0 ∨ i + d ≥ n
          · right
            rw [if_pos hr]
            refine ⟨rfl, trivial, ?_⟩
            rintro ⟨y, hy, hsh⟩
            cases hy with
            | cons g1 g2 =>
              simp [Shifted] at hsh
              omega
          · rw [if_neg hr]
            rcases ih with ⟨y, e, a, b⟩ | ⟨e, -, b⟩
            · left
              refine ⟨(i + d) :: y, by simp [e, Outcome.bind], List.Forall₂.cons (by omega) a, ?_⟩
              simp [Shifted, b]
            · right
              refine ⟨by simp [e, Outcome.bind], trivial, ?_⟩
              rintro ⟨y, hy, hsh⟩
              cases hy with
              | cons g1 g2 => exact b ⟨_, g2, hsh.2⟩
        · simp only [if_true]
          rw [if_neg (by omega)]
          rcases ih with ⟨y, e, a, b⟩ | ⟨e, hf, b⟩
          · left
            refine ⟨((n : Int) + (i + d).tmod n).tmod n :: y, by simp [e, Outcome.bind], ?_, ?_⟩
            · rw [tmod_shift hn]
              refine List.Forall₂.cons ⟨Int.emod_nonneg _ (by omega), Int.emod_lt_of_pos _ (by omega)⟩ a
            · rw [tmod_shift hn]
              refine ⟨?_, b⟩
              simp only [if_true]
              exact Int.dvd_self_sub_emod
          · cases hf

/-- What one `get_compare` call returns. -/
def CompareSpec (periodic : Bool) (shape : List Nat) (x d : List Int) (p c : Int) : Prop :=
  (∃ y, InBox shape y ∧ Shifted periodic shape x d y ∧ flat shape y = c) ∨
  (periodic = false ∧ (c = -1 ∨ c = p) ∧ ¬ ∃ y, InBox shape y ∧ Shifted periodic shape x d y)

theorem toSize_of_lt {a : Int} (h0 : 0 ≤ a) (h1 : a < 2 ^ 64) : toSize a = a :=
  Int.emod_eq_of_lt h0 (by norm_num at h1; omega)

theorem usizeMod_ok {n : Nat} {a d : Int} (h0 : 0 < n) (h1 : n < 2 ^ 62) (ha : 0 ≤ a) (ha' : a < n)
    (hd : n ≤ 1 ∨ (-(n : Int) ≤ d ∧ d ≤ 2 ^ 62)) :
    usizeMod (n + a + d) n = ok ((a + d) % n) := by
  have h1' : (n : Int) < 2 ^ 62 := by exact_mod_cast h1
  norm_num at h1' hd
  unfold usizeMod
  rw [if_neg (by omega), toSize_of_lt (a := n) (by omega) (by norm_num; omega)]
  congr 1
  rcases hd with hd | hd
  · have : n = 1 := by omega
    subst this
    simp only [Nat.cast_one, Int.emod_one]
  · rw [toSize_of_lt (by omega) (by norm_num; omega)]
    rw [show (n : Int) + a + d = (a + d) + n * 1 by ring, Int.add_mul_emod_self_left]

theorem emod_inbox {n : Nat} (h0 : 0 < n) (a : Int) : 0 ≤ a % (n : Int) ∧ a % (n : Int) < n :=
  ⟨Int.emod_nonneg _ (by omega), Int.emod_lt_of_pos _ (by omega)⟩

theorem getCompare_ok {periodic : Bool} {shape : List Nat} {offsets : List (List Int)}
    (hv : SafeConfig periodic shape offsets) {d x : List Int} (hd : d ∈ offsets)
    (hx : InBox shape x) :
    ∃ c, getCompare periodic shape (flat shape x) d = ok c ∧
      CompareSpec periodic shape x d (flat shape x) c := by
  have hlen := hv.len d hd
  have hsmall := hv.small
  have hwrap := hv.wrap
  have hthin := hv.thin
  have hgen : ∀ r, shiftLoop periodic shape (unravelFromStrides (flat shape x) (xstrides shape)) d = r →
      ∃ c, (r.bind fun r => match r with
        | none => ok (-1)
        | some index => ok (ravelIndex index shape)) = ok c ∧
        CompareSpec periodic shape x d (flat shape x) c := by
    intro r hr
    have hrange := flat_range hx
    obtain ⟨h1, h2⟩ := unravel_ok hrange.1 hrange.2
    rw [flat_inj h1 hx h2] at hr
    rcases shiftLoop_ok (periodic := periodic) hx hlen with ⟨y, e, a, b⟩ | ⟨e, hf, b⟩
    · rw [e] at hr
      subst hr
      exact ⟨_, rfl, Or.inl ⟨y, a, b, (ravelIndex_eq a).symm⟩⟩
    · rw [e] at hr
      subst hr
      exact ⟨_, rfl, Or.inr ⟨hf, Or.inl rfl, b⟩⟩
  match shape, d, x, hx, hlen with
  | [n], [d0], [i], hx, _ =>
    have hi : 0 ≤ i ∧ i < n := by cases hx; assumption
    have hn : n < 2 ^ 62 := by simpa using hsmall
    have hflat : flat [n] [i] = i := by simp [flat]
    have hflat' : ∀ j, flat [n] [j] = j := fun j => by simp [flat]
    rw [hflat]
    unfold getCompare
    simp only
    cases periodic
    · simp only [Bool.false_eq_true, if_false]
      by_cases hr : i + d0 < 0 ∨ i + d0 ≥ n
      · rw [if_pos hr]
        refine ⟨-1, rfl, Or.inr ⟨rfl, Or.inl rfl, ?_⟩⟩
        rintro ⟨y, hy, hsh⟩
        cases hy with
        | cons g1 g2 => simp [Shifted] at hsh; omega
      · rw [if_neg hr]
        refine ⟨i + d0, rfl, Or.inl ⟨[i + d0], List.Forall₂.cons (by omega) List.Forall₂.nil, ?_,
          hflat' _⟩⟩
        simp [Shifted]
    · simp only [if_true]
      have hw := hwrap rfl (by simp) _ hd
      cases hw with
      | cons hw _ =>
        rw [usizeMod_ok (by omega) hn hi.1 hi.2 hw]
        refine ⟨_, rfl, Or.inl ⟨[(i + d0) % n], List.Forall₂.cons (emod_inbox (by omega) _)
          List.Forall₂.nil, ?_, hflat' _⟩⟩
        simp only [Shifted, if_true, and_true]
        exact Int.dvd_self_sub_emod
  | [n0, n1], [d0, d1], [i0, i1], hx, _ =>
    have hi : (0 ≤ i0 ∧ i0 < n0) ∧ (0 ≤ i1 ∧ i1 < n1) := by
      cases hx with
      | cons h1 h2 => cases h2 with | cons h2 _ => exact ⟨h1, h2⟩
    have hprod : n0 * n1 < 2 ^ 62 := by simpa using hsmall
    have hn0 : n0 < 2 ^ 62 := lt_of_le_of_lt (Nat.le_mul_of_pos_right n0 (by omega)) hprod
    have hn1 : n1 < 2 ^ 62 := lt_of_le_of_lt (Nat.le_mul_of_pos_left n1 (by omega)) hprod
    have hflat' : ∀ a b : Int, flat [n0, n1] [a, b] = a * n1 + b := fun a b => by simp [flat]
    have hbox : ∀ a b : Int, (0 ≤ a ∧ a < n0) → (0 ≤ b ∧ b < n1) → InBox [n0, n1] [a, b] :=
      fun a b h1 h2 => List.Forall₂.cons h1 (List.Forall₂.cons h2 List.Forall₂.nil)
    have hboxinv : ∀ y, InBox [n0, n1] y → ∃ a b : Int, y = [a, b] ∧ (0 ≤ a ∧ a < n0) ∧
        (0 ≤ b ∧ b < n1) := by
      intro y hy
      cases hy with
      | cons g1 g2 =>
        cases g2 with
        | cons g2 g3 => cases g3; exact ⟨_, _, rfl, g1, g2⟩
    rw [hflat']
    unfold getCompare
    simp only
    by_cases h0 : n0 = 1
    · rw [if_pos h0]
      subst h0
      have hi0 : i0 = 0 := by omega
      subst hi0
      simp only [zero_mul, zero_add]
      cases periodic
      · simp only [Bool.false_eq_true, if_false]
        have ht := hthin rfl n1 (Or.inl rfl) d0 d1 hd
        by_cases hr : i1 + d1 < 0 ∨ i1 + d1 ≥ n1
        · rw [if_pos hr]
          refine ⟨-1, rfl, Or.inr ⟨rfl, Or.inl rfl, ?_⟩⟩
          rintro ⟨y, hy, hsh⟩
          obtain ⟨a, b, rfl, g1, g2⟩ := hboxinv y hy
          simp [Shifted] at hsh; omega
        · rw [if_neg hr]
          by_cases hd0 : d0 = 0
          · refine ⟨i1 + d1, rfl, Or.inl ⟨[0, i1 + d1], hbox _ _ (by omega) (by omega), ?_, ?_⟩⟩
            · simp [Shifted, hd0]
            · simp [flat]
          · have hd1 : d1 = 0 := by omega
            refine ⟨i1 + d1, rfl, Or.inr ⟨rfl, Or.inr (by omega), ?_⟩⟩
            rintro ⟨y, hy, hsh⟩
            obtain ⟨a, b, rfl, g1, g2⟩ := hboxinv y hy
            simp [Shifted] at hsh; omega
      · simp only [if_true]
        have hw := hwrap rfl (by simp) _ hd
        cases hw with
        | cons hw0 hw =>
          cases hw with
          | cons hw1 _ =>
            rw [usizeMod_ok (by omega) hn1 hi.2.1 hi.2.2 hw1]
            refine ⟨_, rfl, Or.inl ⟨[0, (i1 + d1) % n1], hbox _ _ (by omega)
              (emod_inbox (by omega) _), ?_, by simp [flat]⟩⟩
            simp only [Shifted, if_true, and_true]
            exact ⟨by simp, Int.dvd_self_sub_emod⟩
    · rw [if_neg h0]
      by_cases h1 : n1 = 1
      · rw [if_pos h1]
        subst h1
        have hi1 : i1 = 0 := by omega
        subst hi1
        simp only [Nat.cast_one, mul_one, add_zero]
        cases periodic
        · simp only [Bool.false_eq_true, if_false]
          have ht := hthin rfl n0 (Or.inr rfl) d0 d1 hd
          by_cases hr : i0 + d0 < 0 ∨ i0 + d0 ≥ n0
          · rw [if_pos hr]
            refine ⟨-1, rfl, Or.inr ⟨rfl, Or.inl rfl, ?_⟩⟩
            rintro ⟨y, hy, hsh⟩
            obtain ⟨a, b, rfl, g1, g2⟩ := hboxinv y hy
            simp [Shifted] at hsh; omega
          · rw [if_neg hr]
            by_cases hd1 : d1 = 0
            · refine ⟨i0 + d0, rfl, Or.inl ⟨[i0 + d0, 0], hbox _ _ (by omega) (by omega), ?_, ?_⟩⟩
              · simp [Shifted, hd1]
              · simp [flat]
            · have hd0 : d0 = 0 := by omega
              refine ⟨i0 + d0, rfl, Or.inr ⟨rfl, Or.inr (by omega), ?_⟩⟩
              rintro ⟨y, hy, hsh⟩
              obtain ⟨a, b, rfl, g1, g2⟩ := hboxinv y hy
              simp [Shifted] at hsh; omega
        · simp only [if_true]
          have hw := hwrap rfl (by simp) _ hd
          cases hw with
          | cons hw0 hw =>
            rw [usizeMod_ok (by omega) hn0 hi.1.1 hi.1.2 hw0]
            refine ⟨_, rfl, Or.inl ⟨[(i0 + d0) % n0, 0], hbox _ _ (emod_inbox (by omega) _)
              (by omega), ?_, by simp [flat]⟩⟩
            simp only [Shifted, if_true, and_true]
            exact ⟨Int.dvd_self_sub_emod, by simp⟩
      · rw [if_neg h1]
        have hst : (((xstrides [n0, n1]).getD 0 0 : Nat) : Int) = n1 := by
          simp [xstrides, h0, prodShape]
        simp only [hst]
        have hidx0 : 0 ≤ i0 * (n1 : Int) + i1 := by
          have := mul_nonneg hi.1.1 (show (0 : Int) ≤ n1 by omega); omega
        have hidx1 : i0 * (n1 : Int) + i1 < 2 ^ 62 := by
          have h3 : (i0 + 1) * (n1 : Int) ≤ n0 * n1 :=
            mul_le_mul_of_nonneg_right (by omega) (by omega)
          rw [add_mul, one_mul] at h3
          have h4 : ((n0 * n1 : Nat) : Int) < 2 ^ 62 := by exact_mod_cast hprod
          push_cast at h4
          omega
        have hn1' : (n1 : Int) < 2 ^ 62 := by exact_mod_cast hn1
        have hts1 : toSize (i0 * (n1 : Int) + i1) = i0 * (n1 : Int) + i1 :=
          toSize_of_lt hidx0 (by norm_num at hidx1 ⊢; omega)
        have hts2 : toSize (n1 : Int) = n1 := toSize_of_lt (by omega) (by norm_num at hn1' ⊢; omega)
        have hdiv : usizeDiv (i0 * (n1 : Int) + i1) n1 = ok i0 := by
          unfold usizeDiv
          rw [if_neg (by omega), hts1, hts2, add_comm, Int.add_mul_ediv_right _ _ (by omega),
            Int.ediv_eq_zero_of_lt hi.2.1 hi.2.2, zero_add]
        have hmod : usizeMod (i0 * (n1 : Int) + i1) n1 = ok i1 := by
          unfold usizeMod
          rw [if_neg (by omega), hts1, hts2, add_comm, Int.add_mul_emod_self_right,
            Int.emod_eq_of_lt hi.2.1 hi.2.2]
        rw [hdiv, hmod]
        simp only [Outcome.bind]
        cases periodic
        · simp only [Bool.false_eq_true, if_false]
          by_cases hr : i0 + d0 < 0 ∨ i0 + d0 ≥ n0 ∨ i1 + d1 < 0 ∨ i1 + d1 ≥ n1
          · rw [if_pos hr]
            refine ⟨-1, rfl, Or.inr ⟨rfl, Or.inl rfl, ?_⟩⟩
            rintro ⟨y, hy, hsh⟩
            obtain ⟨a, b, rfl, g1, g2⟩ := hboxinv y hy
            simp [Shifted] at hsh; omega
          · rw [if_neg hr]
            refine ⟨_, rfl, Or.inl ⟨[i0 + d0, i1 + d1], hbox _ _ (by omega) (by omega), ?_, hflat' _ _⟩⟩
            simp [Shifted]
        · simp only [if_true]
          have hw := hwrap rfl (by simp) _ hd
          cases hw with
          | cons hw0 hw =>
            cases hw with
            | cons hw1 _ =>
              rw [usizeMod_ok (by omega) hn0 hi.1.1 hi.1.2 hw0]
              simp only
              rw [usizeMod_ok (by omega) hn1 hi.2.1 hi.2.2 hw1]
              refine ⟨_, rfl, Or.inl ⟨[(i0 + d0) % n0, (i1 + d1) % n1],
                hbox _ _ (emod_inbox (by omega) _) (emod_inbox (by omega) _), ?_, hflat' _ _⟩⟩
              simp only [Shifted, if_true, and_true]
              exact ⟨Int.dvd_self_sub_emod, Int.dvd_self_sub_emod⟩
  | a :: b :: c :: shape, d, x, hx, hlen =>
    unfold getCompare
    exact hgen _ rfl
  | [], d, x, hx, hlen => have := hv.rank; simp at this

/-! ### neighbours -/

theorem safeNb_of_valid {periodic : Bool} {shape : List Nat} {offsets : List (List Int)}
    (hv : SafeConfig periodic shape offsets) : SafeNb periodic shape offsets := by
  intro p hp d hd
  rw [prodShape_eq] at hp ⊢
  obtain ⟨h1, h2⟩ := unravel_ok (shape := shape) (p := p) (by omega) (by exact_mod_cast hp)
  obtain ⟨c, hc, hs⟩ := getCompare_ok hv hd h1
  rw [h2] at hc hs
  refine ⟨c, hc, ?_⟩
  rcases hs with ⟨y, hy, -, e⟩ | ⟨hf, h3 | h3, -⟩
  · right
    rw [← e]; exact flat_range hy
  · exact Or.inl ⟨hf, h3⟩
  · right; omega

theorem mem_nbs {periodic : Bool} {shape : List Nat} {offsets : List (List Int)}
    (hv : SafeConfig periodic shape offsets) {p q : Nat} (hp : p < shape.prod) (hpq : p ≠ q) :
    q ∈ nbs periodic shape offsets p ↔ Adj periodic shape offsets p q := by
  obtain ⟨h1, h2⟩ := unravel_ok (shape := shape) (p := p) (by omega) (by exact_mod_cast hp)
  unfold nbs
  rw [List.mem_filterMap]
  constructor
  · rintro ⟨d, hd, e⟩
    obtain ⟨c, hc, hs⟩ := getCompare_ok hv hd h1
    rw [h2] at hc hs
    rw [hc] at e
    simp only at e
    split at e
    · rename_i h0
      cases e
      rcases hs with ⟨y, hy, hsh, e⟩ | ⟨hf, h3 | h3, -⟩
      · exact ⟨_, y, d, hd, h1, hy, hsh, h2, by omega⟩
      · omega
      · omega
    · cases e
  · rintro ⟨x, y, d, hd, hx, hy, hsh, ex, ey⟩
    have hxx := flat_inj h1 hx (by rw [h2, ex])
    obtain ⟨c, hc, hs⟩ := getCompare_ok hv hd hx
    rw [ex] at hc hs
    refine ⟨d, hd, ?_⟩
    rw [hc]
    rcases hs with ⟨y', hy', hsh', e⟩ | ⟨-, -, hno⟩
    · have := shifted_unique hy hy' hsh hsh'
      subst this
      simp only
      rw [if_pos (by omega)]
      congr 1
      omega
    · exact absurd ⟨y, hy, hsh⟩ hno

theorem shifted_neg {periodic : Bool} : ∀ {shape : List Nat} {x d y : List Int},
    Shifted periodic shape x d y → Shifted periodic shape y (d.map fun i => -i) x
  | n :: s, i :: x, d :: ds, j :: y, h => by
    simp only [Shifted, List.map_cons] at h ⊢
    refine ⟨?_, shifted_neg h.2⟩
    cases periodic
    · simp at h ⊢; omega
    · simp only [if_true] at h ⊢
      have := Int.dvd_neg.2 h.1
      rwa [show -(i + d - j) = j + -d - i by ring] at this
  | [], [], [], [], _ => trivial
  | [], _ :: _, _, _, h => by simp [Shifted] at h
  | [], [], _ :: _, _, h => by simp [Shifted] at h
  | [], [], [], _ :: _, h => by simp [Shifted] at h
  | _ :: _, [], _, _, h => by simp [Shifted] at h
  | _ :: _, _ :: _, [], _, h => by simp [Shifted] at h
  | _ :: _, _ :: _, _ :: _, [], h => by simp [Shifted] at h

theorem adj_symm {periodic : Bool} {shape : List Nat} {offsets : List (List Int)}
    (hv : ValidConfig periodic shape offsets) {p q : Nat}
    (h : Adj periodic shape offsets p q) : Adj periodic shape offsets q p := by
  obtain ⟨x, y, d, hd, hx, hy, hsh, ex, ey⟩ := h
  exact ⟨y, x, _, hv.sym d hd, hy, hx, shifted_neg hsh, ey, ex⟩

theorem mutual_nbs {periodic : Bool} {shape : List Nat} {offsets : List (List Int)}
    (hv : ValidConfig periodic shape offsets) :
    Naive.Mutual shape.prod (nbs periodic shape offsets) := by
  intro p q hp hq hpq h
  rw [mem_nbs hv.safe hp hpq] at h
  rw [mem_nbs hv.safe hq (Ne.symm hpq)]
  exact adj_symm hv h

end Verif.Cluster
