import Verif.Props.Collapsed
import Verif.Props.Segment

/-! # The collapsed weighted correlation in one dimension (C117) -/

set_option linter.unusedSectionVars false

namespace Verif.Props

open Verif Outcome Spec Ens

variable {K : Type} [Field K] [LinearOrder K] [IsStrictOrderedRing K]
variable {n : Nat} {periodic : Bool} {f : Nd K} {fmask clusters centers : Nd Int}

/-- The path along a line. -/
def ray (σ : Int) (m : Nat) : List (List Int) := (List.range (m + 1)).map fun j : Nat => [σ * (j : Int)]

theorem ray_of_chain {s : Int} {σ : Int} (hσ : σ = 1 ∨ σ = -1) : ∀ {p : List (List Int)} {j m : Nat}, s = σ * ((j + m : Nat) : Int) →
    ([σ * (j : Int)] :: p).IsChain (Toward [s]) → ([σ * (j : Int)] :: p).Nodup →
    (∀ e ∈ p, e.length = 1) → ([σ * (j : Int)] :: p).getLast? = some [s] →
    [σ * (j : Int)] :: p = (List.range (m + 1)).map fun t : Nat => [σ * ((j + t : Nat) : Int)]
  | [], j, m, hs, _, _, _, hl => by
    have : σ * (j : Int) = s := by simpa using hl
    have hm : m = 0 := by rcases hσ with rfl | rfl <;> omega
    subst hm
    simp
  | e :: p, j, m, hs, hc, hn, hle, hl => by
    rw [List.isChain_cons_cons] at hc
    obtain ⟨v, rfl⟩ := List.length_eq_one_iff.1 (hle e (by simp))
    have h1 := hc.1 0 (by simp)
    have h2 : v ≠ σ * (j : Int) := by
      rintro rfl
      simp at hn
    simp only [List.getD_cons_zero] at h1
    unfold TowardsOrStay at h1
    have hm : m ≠ 0 := by
      rintro rfl
      rcases hσ with rfl | rfl <;> omega
    obtain ⟨m, rfl⟩ : ∃ m', m = m' + 1 := ⟨m - 1, by omega⟩
    have hv : v = σ * ((j + 1 : Nat) : Int) := by rcases hσ with rfl | rfl <;> omega
    subst hv
    have ih := ray_of_chain hσ (p := p) (j := j + 1) (m := m) (by rw [hs]; congr 2; omega) hc.2
      (List.nodup_cons.1 hn).2 (fun e he => hle e (by simp [he])) (by
        rw [List.getLast?_cons_cons] at hl; exact hl)
    rw [ih, List.range_succ_eq_map (n := m + 1), List.map_cons, List.map_map]
    simp only [Nat.add_zero, List.cons.injEq, true_and]
    refine List.map_congr_left fun t _ => ?_
    simp only [Function.comp_apply, Nat.succ_eq_add_one]
    congr 3
    omega

/-- The path to the end of a line. -/
theorem ray_of_path {junk : ℚ} {fuel : Nat} {mode : Path.Mode} (hm : Enough fuel [n] mode) {s : Int}
    (hs : [s] ∈ edge [n]) (h0 : s ≠ 0) {p : List (List Int)} (hp : IsPath junk fuel mode [n] [s] p) :
    p = ray s.sign s.natAbs := by
  have h0' : [s] ≠ List.replicate [n].length 0 := by simpa using h0
  obtain ⟨hc, hl⟩ := isPath_towards (by simp) hm hs h0' hp
  have hn := hp.nodup h0'
  obtain ⟨rest, e⟩ := hp.head
  subst e
  have hσ : s.sign = 1 ∨ s.sign = -1 := by
    rcases lt_or_gt_of_ne h0 with h | h
    · exact Or.inr (Int.sign_eq_neg_one_of_neg h)
    · exact Or.inl (Int.sign_eq_one_of_pos h)
  have e0 : List.replicate [n].length (0 : Int) = [s.sign * ((0 : Nat) : Int)] := by simp
  rw [e0] at hc hl hn ⊢
  have := ray_of_chain hσ (s := s) (j := 0) (m := s.natAbs)
    (by rw [Nat.zero_add]; exact (Int.sign_mul_natAbs s).symm) hc hn
    (fun e he => (hp.mem e (by simp [he])).1) hl
  rw [this]
  unfold ray
  simp

/-- Consecutive pixels of a line. -/
theorem ray_zip (σ : Int) (m : Nat) : (ray σ m).zip (ray σ m).tail =
    (List.range m).map fun j : Nat => ([σ * (j : Int)], [σ * ((j + 1 : Nat) : Int)]) := by
  refine List.ext_getElem (by simp [ray]) fun j h1 h2 => ?_
  simp [ray]

theorem filter_range_eq {m k : Nat} {q : Nat → Bool} (hk : k < m) :
    ((List.range m).filter fun j => decide (j = k) && q j) = if q k then [k] else [] := by
  induction m with
  | zero => omega
  | succ m ih =>
    rw [List.range_succ, List.filter_append]
    by_cases h : k < m
    · rw [ih h]
      have : m ≠ k := by omega
      simp [this]
    · obtain rfl : k = m := by omega
      have : ((List.range k).filter fun j => decide (j = k) && q j) = [] := by
        rw [List.filter_eq_nil_iff]
        intro j hj
        have := List.mem_range.1 hj
        simp [show j ≠ k by omega]
      rw [this]
      by_cases h : q k = true <;> simp [h]

theorem ray_samples {σ k : Int} {m : Nat} (hσ : σ = 1 ∨ σ = -1) {M : List Int → Prop} [DecidablePred M]
    {v : List Int → K} : (((ray σ m).zip (ray σ m).tail).filter fun ab => ab.1 = [k] ∧ M ab.2).map (fun ab => v ab.2) =
      if 0 ≤ σ * k ∧ σ * k < m then (if M [k + σ] then [v [k + σ]] else []) else [] := by
  rw [ray_zip, List.filter_map, List.map_map]
  by_cases h : 0 ≤ σ * k ∧ σ * k < m
  · rw [if_pos h]
    have hk : (σ * k).toNat < m := by omega
    have e : ∀ j : Nat, σ * (j : Int) = k ↔ j = (σ * k).toNat := by
      intro j
      rcases hσ with rfl | rfl <;> omega
    have e2 : σ * (((σ * k).toNat + 1 : Nat) : Int) = k + σ := by
      rcases hσ with rfl | rfl <;> omega
    have := filter_range_eq (q := fun j => decide (M [σ * ((j + 1 : Nat) : Int)])) hk
    have e3 : ((List.range m).filter ((fun ab : List Int × List Int => decide (ab.1 = [k] ∧ M ab.2)) ∘
        fun j : Nat => ([σ * (j : Int)], [σ * ((j + 1 : Nat) : Int)]))) =
        (List.range m).filter fun j => decide (j = (σ * k).toNat) && decide (M [σ * ((j + 1 : Nat) : Int)]) := by
      refine List.filter_congr fun j _ => ?_
      simp only [Function.comp_apply, List.cons.injEq, and_true, e j, Bool.decide_and]
    rw [e3, this, e2]
    by_cases hM : M [k + σ]
    · simp only [hM, decide_true, if_true, List.map_cons, List.map_nil, Function.comp_apply, e2]
    · simp [hM]
  · rw [if_neg h]
    rw [List.map_eq_nil_iff, List.filter_eq_nil_iff]
    intro j hj
    have := List.mem_range.1 hj
    simp only [Function.comp_apply, List.cons.injEq, and_true, decide_eq_true_eq, not_and]
    intro hk
    exfalso
    apply h
    rcases hσ with rfl | rfl <;> constructor <;> omega

theorem edge_line (hn : 1 < n) : edge [n] = [[-(((n - 1) / 2 : Nat) : Int)], [(n : Int) - 1 - ((n - 1) / 2 : Nat)]] := by
  have e : pixels [n] = (List.range n).map fun j : Nat => [(j : Int)] := by
    rw [List.map_eq_flatMap]
    simp [pixels]
  have e2 : List.range n = 0 :: ((List.range (n - 2)).map fun j => j + 1) ++ [n - 1] := by
    obtain ⟨m, rfl⟩ : ∃ m, n = m + 2 := ⟨n - 2, by omega⟩
    rw [List.range_succ, List.range_succ_eq_map]
    rfl
  unfold edge
  rw [e, e2]
  have e3 : ∀ j : Nat, OnEdge [n] [(j : Int)] ↔ j = 0 ∨ j = n - 1 := by
    intro j
    unfold OnEdge
    constructor
    · rintro ⟨k, hk, -, h⟩
      obtain rfl : k = 0 := by simpa using hk
      simp only [List.getD_cons_zero] at h
      omega
    · intro h
      refine ⟨0, by simp, hn, ?_⟩
      simp only [List.getD_cons_zero]
      omega
  simp only [List.map_cons, List.map_append, List.map_map, List.map_nil, List.cons_append, List.filter_cons,
    List.filter_append, List.filter_nil, e3, decide_eq_true_eq]
  rw [List.filter_map]
  have e4 : ((List.range (n - 2)).filter ((fun i => decide (OnEdge [n] i)) ∘
      ((fun j : Nat => [(j : Int)]) ∘ fun j => j + 1))) = [] := by
    rw [List.filter_eq_nil_iff]
    intro j hj
    have := List.mem_range.1 hj
    simp only [Function.comp_apply, e3, decide_eq_true_eq]
    omega
  rw [e4]
  simp [displacement]
  omega

theorem flatMap_if {α β : Type} {c q : α → Prop} [DecidablePred c] [DecidablePred q] {v : α → β} (l : List α) :
    ((l.filter fun x => decide (c x)).flatMap fun x => if q x then [v x] else []) =
      (l.filter fun x => decide (c x ∧ q x)).map v := by
  induction l with
  | nil => rfl
  | cons a l ih =>
    by_cases h1 : c a
    · by_cases h2 : q a
      · rw [List.filter_cons_of_pos (by simpa using h1), List.filter_cons_of_pos (by simp [h1, h2]),
          List.flatMap_cons, ih, if_pos h2]
        rfl
      · rw [List.filter_cons_of_pos (by simpa using h1), List.filter_cons_of_neg (by simp [h2]),
          List.flatMap_cons, ih, if_neg h2]
        rfl
    · rw [List.filter_cons_of_neg (by simpa using h1), List.filter_cons_of_neg (by simp [h1]), ih]

theorem ray_contributes {σ k : Int} {m : Nat} (hσ : σ = 1 ∨ σ = -1) :
    ((pixels f.shape).filter fun x => IsCentre clusters centers x).flatMap (fun x =>
      (((ray σ m).zip (ray σ m).tail).filter fun ab => ab.1 = [k] ∧ valueAt periodic fmask x ab.2 = 0).map fun ab =>
        valueAt periodic f x ab.2) =
      if 0 ≤ σ * k ∧ σ * k < m then atCentres periodic f fmask clusters centers [k + σ] else [] := by
  have e : ∀ x, ((((ray σ m).zip (ray σ m).tail).filter fun ab => ab.1 = [k] ∧ valueAt periodic fmask x ab.2 = 0).map
      fun ab => valueAt periodic f x ab.2) = if 0 ≤ σ * k ∧ σ * k < m then
        (if valueAt periodic fmask x [k + σ] = 0 then [valueAt periodic f x [k + σ]] else []) else [] :=
    fun x => ray_samples (M := fun e => valueAt periodic fmask x e = 0) (v := fun e => valueAt periodic f x e) hσ
  simp only [e]
  split
  · exact flatMap_if _
  · simp

/-- W2c in one dimension: at a displacement that is not on the edge of the region of interest it is the
average, over the centres, of `f` one pixel farther (at the centre: of the two pixels next to it), whatever
the clusters, the region of interest and the path mode; on the edge it is zero. -/
theorem C117_line (L : Legal periodic f.shape [n]) (hn : 2 < n) (hfm : fmask.shape = f.shape)
    (hcl : clusters.shape = f.shape) (hce : centers.shape = f.shape) (bf : IsMask fmask) (junk : ℚ)
    {fuel : Nat} {mode : Path.Mode} (hm : Enough fuel [n] mode) (pow05 : K → K) (dbg : Bool) :
    ∃ r, Api.W2cMask pow05 dbg junk fuel [n] clusters centers f fmask mode periodic = ok r ∧ r.shape = [n] ∧
      ∀ i : Int, 0 ≤ i → i < n →
        (0 < i ∧ i < n - 1 → val r [i] = averageOf ((oneFarther (i - ((n - 1) / 2 : Nat))).flatMap fun e =>
          atCentres periodic f fmask clusters centers e)) ∧
        (i = 0 ∨ i = n - 1 → val r [i] = 0) := by
  obtain ⟨P, hP⟩ := choose_paths junk L.rank hm
  obtain ⟨r, h1, h2, h3⟩ := C47_code L (fun h => by simp at h) hfm hcl hce bf hm ((paths_unique L.rank hP).2 rfl) pow05 dbg
  refine ⟨r, h1, h2, fun i i0 i1 => ?_⟩
  have hi : InBox [n] [i] := .cons ⟨i0, i1⟩ .nil
  have he := edge_line (n := n) (by omega)
  have hv := h3 [i] hi
  have hd : displacement [n] [i] = [i - ((n - 1) / 2 : Nat)] := rfl
  set a : Nat := (n - 1) / 2 with ha
  set k : Int := i - a with hk
  have e1 : P [-(a : Int)] = ray (-1) a := by
    have := ray_of_path hm (s := -(a : Int)) (by rw [he]; simp) (by omega) (hP _ (by rw [he]; simp))
    rw [this, Int.sign_eq_neg_one_of_neg (by omega), show (-(a : Int)).natAbs = a by omega]
  have e2 : P [(n : Int) - 1 - a] = ray 1 (n - 1 - a) := by
    have := ray_of_path hm (s := (n : Int) - 1 - a) (by rw [he]; simp) (by omega) (hP _ (by rw [he]; simp))
    rw [this, Int.sign_eq_one_of_pos (by omega), show ((n : Int) - 1 - a).natAbs = n - 1 - a by omega]
  have hs : samples periodic f fmask clusters centers (fun _ p => p.tail) ((edge [n]).map P) [k] =
      (if 0 ≤ -1 * k ∧ -1 * k < (a : Int) then atCentres periodic f fmask clusters centers [k + -1] else []) ++
      (if 0 ≤ 1 * k ∧ 1 * k < ((n - 1 - a : Nat) : Int) then atCentres periodic f fmask clusters centers [k + 1] else []) := by
    rw [he]
    unfold samples
    simp only [List.map_cons, List.map_nil, List.flatMap_cons, List.flatMap_nil, List.append_nil, e1, e2]
    rw [ray_contributes (Or.inr rfl), ray_contributes (Or.inl rfl)]
  rw [hd, hs] at hv
  constructor
  · rintro ⟨j0, j1⟩
    rw [hv]
    congr 1
    unfold oneFarther
    rcases lt_trichotomy k 0 with h | h | h
    · rw [if_pos (by omega), if_neg (by omega), if_neg (by omega), Int.sign_eq_neg_one_of_neg h]
      simp
    · rw [if_pos (by omega), if_pos (by omega), if_pos h, h]
      simp
    · rw [if_neg (by omega), if_pos (by omega), if_neg (by omega), Int.sign_eq_one_of_pos h]
      simp
  · intro j
    rw [hv, if_neg (by omega), if_neg (by omega)]
    simp [averageOf]

/-- Hence, in one dimension, W2c does not depend on the region of interest nor on the path mode, but on its
edge. -/
theorem C117_regions {n' : Nat} (L : Legal periodic f.shape [n]) (L' : Legal periodic f.shape [n']) (hn : 2 < n)
    (hn' : 2 < n') (hfm : fmask.shape = f.shape) (hcl : clusters.shape = f.shape) (hce : centers.shape = f.shape)
    (bf : IsMask fmask) (junk : ℚ) {fuel fuel' : Nat} {mode mode' : Path.Mode} (hm : Enough fuel [n] mode)
    (hm' : Enough fuel' [n'] mode') (pow05 : K → K) (dbg : Bool) :
    ∃ r r', Api.W2cMask pow05 dbg junk fuel [n] clusters centers f fmask mode periodic = ok r ∧
      Api.W2cMask pow05 dbg junk fuel' [n'] clusters centers f fmask mode' periodic = ok r' ∧
      ∀ i i' : Int, 0 < i → i < n - 1 → 0 < i' → i' < n' - 1 → displacement [n] [i] = displacement [n'] [i'] →
        val r [i] = val r' [i'] := by
  obtain ⟨r, h1, -, h2⟩ := C117_line L hn hfm hcl hce bf junk hm pow05 dbg
  obtain ⟨r', h1', -, h2'⟩ := C117_line L' hn' hfm hcl hce bf junk hm' pow05 dbg
  refine ⟨r, r', h1, h1', fun i i' i0 i1 i0' i1' h => ?_⟩
  have e : i - (((n - 1) / 2 : Nat) : Int) = i' - (((n' - 1) / 2 : Nat) : Int) := by
    simpa [displacement] using h
  rw [(h2 i (by omega) (by omega)).1 ⟨i0, i1⟩, (h2' i' (by omega) (by omega)).1 ⟨i0', i1'⟩, e]

/-- A line of seven pixels with a cluster of three, two regions of interest and two modes. -/
example : Legal false [7] [5] ∧ Legal false [7] [6] ∧ Enough 0 [5] .bresenham ∧ Enough 7 [6] .actual ∧
    IsMask (mk [0, 0, 0, 0, 0, 0, 1]) ∧
    IsCentre (mk [0, 1, 1, 1, 0, 0, 0]) (mk [0, 0, 1, 0, 0, 0, 0]) [2] ∧
    oneFarther (3 - ((5 - 1) / 2 : Nat)) = [[2]] :=
  ⟨⟨by decide, by decide, rfl, fun h => by cases h⟩, ⟨by decide, by decide, rfl, fun h => by cases h⟩,
    fun h => absurd rfl h, fun _ => ⟨by decide, by decide⟩, mk_isMask (by decide), by unfold IsCentre; decide,
    by decide⟩

end Verif.Props
