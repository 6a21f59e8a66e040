import Verif.Spec.ClusterAny
import Verif.Lemmas.ClusterDirected

/-! # `get_compare_*` for every shape and every offset -/

namespace Verif.Cluster

open Verif Outcome Spec

variable {periodic : Bool} {shape : List Nat} {offsets : List (List Int)}

theorem wrapped_inbox {n : Nat} (h0 : 0 < n) (a : Int) : 0 ≤ wrapped n a ∧ wrapped n a < n := by
  unfold wrapped
  split
  · exact emod_inbox h0 _
  · exact emod_inbox h0 _

theorem wrapped_one (a : Int) : wrapped 1 a = 0 := by
  have := wrapped_inbox (n := 1) (by omega) a
  omega

theorem usizeMod_any {n : Nat} {a d : Int} (h0 : 0 < n) (h1 : n < 2 ^ 62) (ha : 0 ≤ a) (ha' : a < n)
    (hd : -2 ^ 62 ≤ d ∧ d ≤ 2 ^ 62) : usizeMod (n + a + d) n = ok (wrapped n (a + d)) := by
  have h1' : (n : Int) < 2 ^ 62 := by exact_mod_cast h1
  norm_num at h1' hd
  unfold usizeMod wrapped
  rw [if_neg (by omega), toSize_of_lt (a := n) (by omega) (by norm_num; omega)]
  congr 1
  by_cases h : a + d < -(n : Int)
  · rw [if_pos h]
    have : toSize (n + a + d) = (a + d + 2 ^ 64) + n * 1 := by
      unfold toSize
      norm_num
      omega
    rw [this, Int.add_mul_emod_self_left]
  · rw [if_neg h, toSize_of_lt (by omega) (by norm_num; omega)]
    rw [show (n : Int) + a + d = (a + d) + n * 1 by ring, Int.add_mul_emod_self_left]

/-- What one `get_compare` call returns. -/
def LooksSpec (periodic : Bool) (shape : List Nat) (x d : List Int) (p c : Int) : Prop :=
  (∃ y, InBox shape y ∧ Looks periodic shape x d y ∧ flat shape y = c) ∨
  (periodic = false ∧ (c = -1 ∨ c = p) ∧ ¬ ∃ y, InBox shape y ∧ Looks periodic shape x d y)

theorem alongLine_length (shape : List Nat) (d : List Int) : (alongLine shape d).length = d.length := by
  unfold alongLine
  split <;> rfl

theorem alongLine_thin {n : Nat} (h : shape = [1, n] ∨ shape = [n, 1]) (d0 d1 : Int) :
    alongLine shape [d0, d1] = [0, d1] ∨ alongLine shape [d0, d1] = [d0, 0] := by
  rcases h with rfl | rfl
  · exact Or.inl rfl
  · unfold alongLine
    split <;> simp_all

theorem alongLine_idem (shape : List Nat) (d : List Int) : alongLine shape (alongLine shape d) = alongLine shape d := by
  match shape, d with
  | [n0, n1], [d0, d1] =>
    by_cases h0 : n0 = 1
    · subst h0; rfl
    · by_cases h1 : n1 = 1
      · subst h1
        have : ∀ a b : Int, alongLine [n0, 1] [a, b] = [a, 0] := fun a b => by
          unfold alongLine; split <;> simp_all
        rw [this, this]
      · have : ∀ a b : Int, alongLine [n0, n1] [a, b] = [a, b] := fun a b => by
          unfold alongLine; split <;> simp_all
        rw [this, this]
  | [], d => rfl
  | [_], d => simp [alongLine]
  | _ :: _ :: _ :: _, d => simp [alongLine]
  | [_, _], [] => simp [alongLine]
  | [_, _], [_] => simp [alongLine]
  | [_, _], _ :: _ :: _ :: _ => simp [alongLine]

/-- On one row or one column the other component of the offset is not read. -/
theorem getCompare_alongLine (shape : List Nat) (idx : Int) (d : List Int) :
    getCompare false shape idx d = getCompare false shape idx (alongLine shape d) := by
  unfold alongLine
  split
  · simp [getCompare]
  · rename_i n d0 d1 h
    have hn : n ≠ 1 := by
      rintro rfl
      simp at h
    simp [getCompare, hn]
  · rfl

theorem getCompare_any (hv : AnyConfig shape offsets) {d x : List Int} (hd : d ∈ offsets) (hx : InBox shape x) :
    ∃ c, getCompare periodic shape (flat shape x) d = ok c ∧ LooksSpec periodic shape x d (flat shape x) c := by
  have hlen := hv.len d hd
  have hsmall := hv.small
  have hrange := hv.range d hd
  cases periodic with
  | false =>
    have hs : SafeConfig false shape [alongLine shape d] := by
      refine ⟨hv.rank, ?_, hsmall, by simp, ?_⟩
      · intro d' h
        rw [List.mem_singleton.1 h, alongLine_length, hlen]
      · intro _ n hn d0 d1 h
        rw [List.mem_singleton] at h
        have hl2 : d.length = 2 := by rw [hlen]; rcases hn with rfl | rfl <;> rfl
        obtain ⟨e0, e1, rfl⟩ := List.length_eq_two.1 hl2
        rcases alongLine_thin hn e0 e1 with e | e <;> rw [e] at h <;> simp at h <;> omega
    obtain ⟨c, hc, h⟩ := getCompare_ok hs (List.mem_singleton.2 rfl) hx
    refine ⟨c, by rw [getCompare_alongLine, hc], ?_⟩
    unfold CompareSpec at h
    simpa [LooksSpec, Looks] using h
  | true =>
    match shape, d, x, hx, hlen with
    | [n], [d0], [i], hx, _ =>
      have hi : 0 ≤ i ∧ i < n := by cases hx; assumption
      have hn : n < 2 ^ 62 := by simpa using hsmall
      have hflat : ∀ j, flat [n] [j] = j := fun j => by simp [flat]
      refine ⟨wrapped n (i + d0), ?_, Or.inl ⟨[wrapped n (i + d0)], .cons (wrapped_inbox (by omega) _) .nil, ?_,
        hflat _⟩⟩
      · rw [hflat]
        simp only [getCompare, if_true]
        exact usizeMod_any (by omega) hn hi.1 hi.2 (hrange d0 (by simp))
      · simp [Looks]
    | [n0, n1], [d0, d1], [i0, i1], hx, _ =>
      have hi : (0 ≤ i0 ∧ i0 < n0) ∧ (0 ≤ i1 ∧ i1 < n1) := by
        cases hx with
        | cons h1 h2 => cases h2 with | cons h2 _ => exact ⟨h1, h2⟩
      have hprod : n0 * n1 < 2 ^ 62 := by simpa using hsmall
      have hn0 : n0 < 2 ^ 62 := lt_of_le_of_lt (Nat.le_mul_of_pos_right n0 (by omega)) hprod
      have hn1 : n1 < 2 ^ 62 := lt_of_le_of_lt (Nat.le_mul_of_pos_left n1 (by omega)) hprod
      have hflat : ∀ a b : Int, flat [n0, n1] [a, b] = a * n1 + b := fun a b => by simp [flat]
      have hr0 := hrange d0 (by simp)
      have hr1 := hrange d1 (by simp)
      refine ⟨wrapped n0 (i0 + d0) * n1 + wrapped n1 (i1 + d1), ?_,
        Or.inl ⟨[wrapped n0 (i0 + d0), wrapped n1 (i1 + d1)],
          .cons (wrapped_inbox (by omega) _) (.cons (wrapped_inbox (by omega) _) .nil), by simp [Looks], hflat _ _⟩⟩
      rw [hflat]
      unfold getCompare
      simp only
      by_cases h0 : n0 = 1
      · subst h0
        have hi0 : i0 = 0 := by omega
        subst hi0
        simp only [if_true, wrapped_one, zero_mul, zero_add]
        exact usizeMod_any (by omega) hn1 hi.2.1 hi.2.2 hr1
      · rw [if_neg h0]
        by_cases h1 : n1 = 1
        · subst h1
          have hi1 : i1 = 0 := by omega
          subst hi1
          simp only [if_true, wrapped_one, Nat.cast_one, mul_one, add_zero]
          exact usizeMod_any (by omega) hn0 hi.1.1 hi.1.2 hr0
        · rw [if_neg h1]
          have hst : (((xstrides [n0, n1]).getD 0 0 : Nat) : Int) = n1 := by
            simp [xstrides, h0, prodShape]
          simp only [hst]
          have hidx0 : 0 ≤ i0 * (n1 : Int) + i1 := by
            have := mul_nonneg hi.1.1 (show (0 : Int) ≤ n1 by omega); omega
          have hidx1 : i0 * (n1 : Int) + i1 < 2 ^ 62 := by
            have h3 : (i0 + 1) * (n1 : Int) ≤ n0 * n1 :=
              mul_le_mul_of_nonneg_right (by omega) (by omega)
            rw [add_mul, one_mul] at h3
            have h4 : ((n0 * n1 : Nat) : Int) < 2 ^ 62 := by exact_mod_cast hprod
            push_cast at h4
            omega
          have hn1' : (n1 : Int) < 2 ^ 62 := by exact_mod_cast hn1
          have hts1 : toSize (i0 * (n1 : Int) + i1) = i0 * (n1 : Int) + i1 :=
            toSize_of_lt hidx0 (by norm_num at hidx1 ⊢; omega)
          have hts2 : toSize (n1 : Int) = n1 := toSize_of_lt (by omega) (by norm_num at hn1' ⊢; omega)
          have hdiv : usizeDiv (i0 * (n1 : Int) + i1) n1 = ok i0 := by
            unfold usizeDiv
            rw [if_neg (by omega), hts1, hts2, add_comm, Int.add_mul_ediv_right _ _ (by omega),
              Int.ediv_eq_zero_of_lt hi.2.1 hi.2.2, zero_add]
          have hmod : usizeMod (i0 * (n1 : Int) + i1) n1 = ok i1 := by
            unfold usizeMod
            rw [if_neg (by omega), hts1, hts2, add_comm, Int.add_mul_emod_self_right,
              Int.emod_eq_of_lt hi.2.1 hi.2.2]
          rw [hdiv, hmod]
          simp only [Outcome.bind, if_true]
          rw [usizeMod_any (by omega) hn0 hi.1.1 hi.1.2 hr0]
          simp only
          rw [usizeMod_any (by omega) hn1 hi.2.1 hi.2.2 hr1]
    | a :: b :: c :: shape, d, x, hx, hlen =>
      have hs : SafeConfig true (a :: b :: c :: shape) [d] :=
        ⟨by simp, fun d' h => by rw [List.mem_singleton.1 h, hlen], hsmall, fun _ h => by simp at h, by simp⟩
      obtain ⟨r, hr, h⟩ := getCompare_ok hs (List.mem_singleton.2 rfl) hx
      refine ⟨r, hr, ?_⟩
      unfold CompareSpec at h
      simpa [LooksSpec, Looks] using h
    | [], d, x, hx, hlen => have := hv.rank; simp at this

theorem looks_unique {x d y y' : List Int} (h : InBox shape y) (h' : InBox shape y')
    (e : Looks periodic shape x d y) (e' : Looks periodic shape x d y') : y = y' := by
  unfold Looks at e e'
  split at e
  · rw [if_pos (by assumption)] at e'
    exact shifted_unique h h' e e'
  · rw [if_neg (by assumption)] at e'
    split at e
    · rw [if_pos (by assumption)] at e'
      rw [e, e']
    · rw [if_neg (by assumption)] at e'
      exact shifted_unique h h' e e'

theorem safeNb_any (hv : AnyConfig shape offsets) : SafeNb periodic shape offsets := by
  intro p hp d hd
  rw [prodShape_eq] at hp ⊢
  obtain ⟨h1, h2⟩ := unravel_ok (shape := shape) (p := p) (by omega) (by exact_mod_cast hp)
  obtain ⟨c, hc, hs⟩ := getCompare_any (periodic := periodic) hv hd h1
  rw [h2] at hc hs
  refine ⟨c, hc, ?_⟩
  rcases hs with ⟨y, hy, -, e⟩ | ⟨hf, h3 | h3, -⟩
  · right
    rw [← e]; exact flat_range hy
  · exact Or.inl ⟨hf, h3⟩
  · right; omega

theorem mem_nbs_any (hv : AnyConfig shape offsets) {p q : Nat} (hp : p < shape.prod) (hpq : p ≠ q) :
    q ∈ nbs periodic shape offsets p ↔ Sees periodic shape offsets p q := by
  obtain ⟨h1, h2⟩ := unravel_ok (shape := shape) (p := p) (by omega) (by exact_mod_cast hp)
  unfold nbs
  rw [List.mem_filterMap]
  constructor
  · rintro ⟨d, hd, e⟩
    obtain ⟨c, hc, hs⟩ := getCompare_any (periodic := periodic) hv hd h1
    rw [h2] at hc hs
    rw [hc] at e
    simp only at e
    split at e
    · rename_i h0
      cases e
      rcases hs with ⟨y, hy, hsh, e⟩ | ⟨hf, h3 | h3, -⟩
      · exact ⟨_, y, d, hd, h1, hy, hsh, h2, by omega⟩
      · omega
      · omega
    · cases e
  · rintro ⟨x, y, d, hd, hx, hy, hsh, ex, ey⟩
    have hxx := flat_inj h1 hx (by rw [h2, ex])
    obtain ⟨c, hc, hs⟩ := getCompare_any (periodic := periodic) hv hd hx
    rw [ex] at hc hs
    refine ⟨d, hd, ?_⟩
    rw [hc]
    rcases hs with ⟨y', hy', hsh', e⟩ | ⟨-, -, hno⟩
    · have := looks_unique hy hy' hsh hsh'
      subst this
      simp only
      rw [if_pos (by omega)]
      congr 1
      omega
    · exact absurd ⟨y, hy, hsh⟩ hno

theorem link_any (hv : AnyConfig shape offsets) {hist : List Nat} (hlt : ∀ p ∈ hist, p < shape.prod) {p q : Nat} :
    Joined (Naive.adj (Naive.linkNb (nbs periodic shape offsets) hist)) (· ∈ hist) p q ↔
      Joined (LaterSees (Sees periodic shape offsets) hist) (· ∈ hist) p q := by
  refine Naive.Joined.congr_iff fun p q hp hq hpq => ?_
  show q ∈ Naive.linkNb _ hist p ↔ _
  rw [Naive.mem_linkNb]
  unfold LaterSees Naive.adj
  rw [mem_nbs_any hv (hlt p hp) hpq, mem_nbs_any hv (hlt q hq) (Ne.symm hpq)]
  simp [hp, hq]

/-- Labels are determined by the neighbours. -/
theorem nbs_alongLine : nbs false shape offsets = nbs false shape (offsets.map (alongLine shape)) := by
  funext p
  unfold nbs
  rw [List.filterMap_map]
  refine List.filterMap_congr fun d _ => ?_
  simp only [Function.comp]
  rw [getCompare_alongLine]

end Verif.Cluster
