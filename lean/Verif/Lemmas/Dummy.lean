import Verif.Model.Dummy
import Verif.Spec.Dummy
import Verif.Lemmas.Raise
import Mathlib.Tactic.Ring
import Mathlib.Tactic.Linarith
import Mathlib.Tactic.Positivity

/-! # Drawing circles -/

namespace Verif.Dummy

open Verif Outcome Spec Cluster Nd

theorem ceilSqrt_eq (m : Nat) : ((ceilSqrt m : Nat) : Int) = ⌈Real.sqrt (m : ℝ)⌉ := by
  symm
  have h1 : ((Nat.sqrt m : Nat) : ℝ) ^ 2 ≤ m := by
    have := Nat.sqrt_le' m
    exact_mod_cast this
  have h2 : (m : ℝ) < ((Nat.sqrt m : Nat) + 1 : ℝ) ^ 2 := by
    have := Nat.lt_succ_sqrt' m
    exact_mod_cast this
  rw [Int.ceil_eq_iff]
  unfold ceilSqrt
  split
  · rename_i h
    have hs : Real.sqrt (m : ℝ) = (Nat.sqrt m : ℝ) := by
      rw [Real.sqrt_eq_iff_mul_self_eq (Nat.cast_nonneg _) (Nat.cast_nonneg _)]
      exact_mod_cast h.symm
    rw [hs]
    push_cast
    constructor
    · linarith
    · exact le_refl _
  · rename_i h
    have hlt : ((Nat.sqrt m : Nat) : ℝ) ^ 2 < m := by
      have h3 := Nat.sqrt_le' m
      have : Nat.sqrt m ^ 2 ≠ m := by rw [pow_two]; exact h
      exact_mod_cast lt_of_le_of_ne h3 this
    push_cast
    constructor
    · rw [add_sub_cancel_right]
      exact Real.lt_sqrt_of_sq_lt hlt
    · exact Real.sqrt_le_iff.2 ⟨by positivity, h2.le⟩

/-- With exact roots. -/
abbrev exactRoot (m : Nat) : Int := ceilSqrt m

theorem distance_lt {r di dj : Int} : distance exactRoot di dj < r ↔ InDisc r di dj := by
  unfold distance InDisc
  unfold exactRoot
  rw [ceilSqrt_eq]
  have : (((di ^ 2 + dj ^ 2).toNat : Nat) : ℝ) = (di : ℝ) ^ 2 + (dj : ℝ) ^ 2 := by
    have h : (((di ^ 2 + dj ^ 2).toNat : Nat) : Int) = di ^ 2 + dj ^ 2 := Int.toNat_of_nonneg (by positivity)
    have := congrArg (fun z : Int => (z : ℝ)) h
    push_cast at this
    exact this
  rw [this]

/-- In integers: the square of the distance is at most `(r - 1)²`. -/
theorem inDisc_iff {r di dj : Int} : InDisc r di dj ↔ 1 ≤ r ∧ di ^ 2 + dj ^ 2 ≤ (r - 1) ^ 2 := by
  unfold InDisc
  have key : ⌈Real.sqrt ((di : ℝ) ^ 2 + (dj : ℝ) ^ 2)⌉ < r ↔
      ⌈Real.sqrt ((di : ℝ) ^ 2 + (dj : ℝ) ^ 2)⌉ ≤ r - 1 := by omega
  rw [key, Int.ceil_le, Real.sqrt_le_iff]
  push_cast
  constructor
  · rintro ⟨h1, h2⟩
    have h1' : (1 : ℝ) ≤ r := by linarith
    refine ⟨by exact_mod_cast h1', ?_⟩
    exact_mod_cast h2
  · rintro ⟨h1, h2⟩
    have h1' : (1 : ℝ) ≤ r := by exact_mod_cast h1
    refine ⟨by linarith, ?_⟩
    exact_mod_cast h2

theorem inDisc_bound {r di dj : Int} (h : InDisc r di dj) : (-r ≤ di ∧ di ≤ r) ∧ (-r ≤ dj ∧ dj ≤ r) := by
  rw [inDisc_iff] at h
  obtain ⟨h1, h2⟩ := h
  refine ⟨⟨?_, ?_⟩, ⟨?_, ?_⟩⟩ <;> by_contra hc <;> nlinarith [sq_nonneg di, sq_nonneg dj]

theorem mem_range {r d : Int} : d ∈ range r ↔ -r ≤ d ∧ d ≤ r := by
  unfold range
  rw [List.mem_map]
  constructor
  · rintro ⟨k, hk, rfl⟩
    rw [List.mem_range] at hk
    omega
  · rintro ⟨h1, h2⟩
    exact ⟨(d + r).toNat, by rw [List.mem_range]; omega, by omega⟩

/-! ### The image as a set of pixels -/

/-- The image is one exactly on this set. -/
def Rep (shape : List Nat) (out : Nd Int) (S : List Int → Prop) : Prop :=
  out.shape = shape ∧ ∀ x, InBox shape x → (S x → val out x = 1) ∧ (¬ S x → val out x = 0)

theorem Rep.congr {shape : List Nat} {out : Nd Int} {S T : List Int → Prop} (h : Rep shape out S)
    (e : ∀ x, S x ↔ T x) : Rep shape out T := by
  refine ⟨h.1, fun x hx => ?_⟩
  rw [← e]
  exact h.2 x hx

theorem rep_fill (shape : List Nat) : Rep shape (Nd.fill shape 0) fun _ => False :=
  ⟨rfl, fun _ _ => ⟨fun h => h.elim, fun _ => rfl⟩⟩

theorem rep_write {shape : List Nat} {out : Nd Int} {S : List Int → Prop} (h : Rep shape out S) {y : List Int}
    (hy : InBox shape y) : ∃ out', out.write y 1 = ok out' ∧ Rep shape out' fun x => S x ∨ x = y := by
  have hs := h.1
  have hv : out.valid y = true := valid_of_inbox (by rw [hs]; exact hy)
  have hr : (ravelIndex y out.shape).toNat = (flat shape y).toNat := by
    rw [hs, ravelIndex_eq hy]
  refine ⟨⟨out.shape, fun k => if k = (ravelIndex y out.shape).toNat then 1 else out.get k⟩,
    by rw [Nd.write, if_pos hv], hs, fun x hx => ?_⟩
  have h2 := h.2 x hx
  unfold val at h2 ⊢
  rw [hs] at h2
  dsimp only
  rw [hr, hs]
  by_cases e : x = y
  · subst e
    rw [if_pos rfl]
    exact ⟨fun _ => rfl, fun hn => (hn (Or.inr rfl)).elim⟩
  · rw [if_neg]
    · exact ⟨fun hn => h2.1 (hn.resolve_right e), fun hn => h2.2 fun hS => hn (Or.inl hS)⟩
    · intro e'
      have a := flat_range hx
      have b := flat_range hy
      exact e (flat_inj hx hy (by omega))

theorem forM_rep {α : Type} {shape : List Nat} {f : Nd Int → α → Outcome (Nd Int)} (T : α → List Int → Prop) :
    ∀ (l : List α) (out : Nd Int) (S : List Int → Prop),
    (∀ a ∈ l, ∀ out S, Rep shape out S → ∃ out', f out a = ok out' ∧ Rep shape out' fun x => S x ∨ T a x) →
    Rep shape out S → ∃ out', forM l out f = ok out' ∧ Rep shape out' fun x => S x ∨ ∃ a ∈ l, T a x
  | [], out, S, _, h => ⟨out, rfl, h.congr fun x => by simp⟩
  | a :: l, out, S, hf, h => by
    obtain ⟨out', e, h'⟩ := hf a List.mem_cons_self out S h
    obtain ⟨out'', e', h''⟩ := forM_rep T l out' _ (fun b hb => hf b (List.mem_cons_of_mem _ hb)) h'
    refine ⟨out'', by rw [forM, e]; exact e', h''.congr fun x => ?_⟩
    simp only [List.mem_cons, exists_eq_or_imp, or_assoc]

/-- The pixel that one step of the loops draws. -/
def Drawn (periodic : Bool) (shape : List Nat) (c : Circle) (di dj : Int) (x : List Int) : Prop :=
  InDisc c.r di dj ∧ pixelOf periodic shape [c.row + di, c.col + dj] = x

theorem rep_step {periodic : Bool} {m n : Nat} (h0 : periodic = true → 0 < m ∧ 0 < n) (c : Circle) (di dj : Int)
    {out : Nd Int} {S : List Int → Prop} (h : Rep [m, n] out S) :
    ∃ out', (if periodic then stampPeriodic exactRoot out c.row c.col c.r di dj else stamp exactRoot out c.row c.col c.r di dj) =
      ok out' ∧ Rep [m, n] out' fun x => S x ∨ Drawn periodic [m, n] c di dj x := by
  cases periodic with
  | true =>
    simp only [if_true]
    unfold stampPeriodic
    obtain ⟨hm, hn⟩ := h0 rfl
    by_cases hd : distance exactRoot di dj < c.r
    · rw [if_pos hd]
      have hz : 0 ∉ [m, n] := by simp; omega
      obtain ⟨out', e, h'⟩ := rep_write h (wrap_inbox (x := [c.row + di, c.col + dj]) (s := [m, n]) rfl hz)
      refine ⟨out', ?_, h'.congr fun x => ?_⟩
      · rw [h.1, periodicIndex, if_neg hz]
        exact e
      · unfold Drawn pixelOf
        rw [if_pos rfl, ← distance_lt]
        constructor
        · rintro (a | a)
          · exact Or.inl a
          · exact Or.inr ⟨hd, a.symm⟩
        · rintro (a | a)
          · exact Or.inl a
          · exact Or.inr a.2.symm
    · rw [if_neg hd]
      refine ⟨out, rfl, h.congr fun x => ?_⟩
      unfold Drawn
      rw [← distance_lt]
      constructor
      · exact Or.inl
      · rintro (a | a)
        · exact a
        · exact (hd a.1).elim
  | false =>
    simp only [Bool.false_eq_true, if_false]
    unfold stamp
    rw [h.1]
    by_cases hi : Nd.inside [m, n] [c.row + di, c.col + dj] = true
    · rw [if_pos hi]
      by_cases hd : distance exactRoot di dj < c.r
      · rw [if_pos hd]
        obtain ⟨out', e, h'⟩ := rep_write h (inside_iff.1 hi)
        refine ⟨out', e, h'.congr fun x => ?_⟩
        unfold Drawn pixelOf
        rw [if_neg (by simp), ← distance_lt]
        constructor
        · rintro (a | a)
          · exact Or.inl a
          · exact Or.inr ⟨hd, a.symm⟩
        · rintro (a | a)
          · exact Or.inl a
          · exact Or.inr a.2.symm
      · rw [if_neg hd]
        refine ⟨out, rfl, h.congr fun x => ?_⟩
        unfold Drawn
        rw [← distance_lt]
        constructor
        · exact Or.inl
        · rintro (a | a)
          · exact a
          · exact (hd a.1).elim
    · rw [if_neg hi]
      refine ⟨out, rfl, h.1, fun x hx => ?_⟩
      have : ¬ Drawn false [m, n] c di dj x := by
        rintro ⟨-, e⟩
        unfold pixelOf at e
        rw [if_neg (by simp)] at e
        rw [inside_iff, e] at hi
        exact hi hx
      have h2 := h.2 x hx
      exact ⟨fun a => h2.1 (a.resolve_right this), fun a => h2.2 fun b => a (Or.inl b)⟩

theorem at1_full {α : Type} {l : List α} {i : Nat} (h : i < l.length) : at1 l i = l[i]? := by
  unfold at1
  split
  · rw [show i = 0 by omega]
  · rw [if_neg (by omega), Int.toNat_natCast]

theorem mem_of_at1 {α : Type} {l : List α} {i : Int} {a : α} (h : at1 l i = some a) : a ∈ l := by
  unfold at1 at h
  split at h
  · exact List.mem_of_getElem? h
  · split at h
    · cases h
    · exact List.mem_of_getElem? h

theorem circlesOf_get {row col r : List Int} (h1 : row.length = col.length) (h2 : row.length = r.length) {i : Nat}
    (hi : i < row.length) : ∃ c ∈ circlesOf row col r, (circlesOf row col r)[i]? = some c ∧
      circle row col r i = ok (c.row, c.col, c.r) := by
  have hl : (circlesOf row col r).length = row.length := by simp [circlesOf, ← h1, ← h2]
  refine ⟨_, List.getElem_mem (by rw [hl]; exact hi), List.getElem?_eq_getElem _, ?_⟩
  unfold circle
  rw [at1_full (by omega : i < col.length), at1_full (by omega : i < r.length), List.getElem?_eq_getElem hi, List.getElem?_eq_getElem (by omega : i < col.length),
    List.getElem?_eq_getElem (by omega : i < r.length)]
  simp [circlesOf]

/-- The image. -/
theorem dummy_rep (dbg : Bool) {m n : Nat} {row col r : List Int} {periodic : Bool} (h1 : row.length = col.length)
    (h2 : row.length = r.length) (h0 : periodic = true → 0 < m ∧ 0 < n) :
    ∃ out, dummyCircles dbg [m, n] row col r periodic = ok out ∧
      Rep [m, n] out (Covered periodic [m, n] (circlesOf row col r)) := by
  obtain ⟨out, e, h⟩ := forM_rep (shape := [m, n])
    (f := fun out i => do
      let c ← circle row col r i
      forM (range c.2.2) out fun out di =>
        forM (range c.2.2) out fun out dj =>
          if periodic then stampPeriodic exactRoot out c.1 c.2.1 c.2.2 di dj else stamp exactRoot out c.1 c.2.1 c.2.2 di dj)
    (fun i x => ∃ c, (circlesOf row col r)[i]? = some c ∧ ∃ di ∈ range c.r, ∃ dj ∈ range c.r,
      Drawn periodic [m, n] c di dj x)
    (List.range row.length) (Nd.fill [m, n] 0) (fun _ => False) (by
      intro i hi out S hS
      rw [List.mem_range] at hi
      obtain ⟨c, -, hc, e⟩ := circlesOf_get h1 h2 hi
      rw [e]
      obtain ⟨out', e', h'⟩ := forM_rep (shape := [m, n])
        (f := fun out di => forM (range c.r) out fun out dj =>
          if periodic then stampPeriodic exactRoot out c.row c.col c.r di dj else stamp exactRoot out c.row c.col c.r di dj)
        (fun di x => ∃ dj ∈ range c.r, Drawn periodic [m, n] c di dj x) (range c.r) out S (by
          intro di _ out S hS
          exact forM_rep (shape := [m, n]) (fun dj x => Drawn periodic [m, n] c di dj x) (range c.r) out S
            (fun dj _ out S hS => rep_step h0 c di dj hS) hS) hS
      refine ⟨out', e', h'.congr fun x => ?_⟩
      simp only [hc, Option.some.injEq, exists_eq_left']) (rep_fill _)
  refine ⟨out, ?_, h.congr fun x => ?_⟩
  · unfold dummyCircles circlesWith
    have g : ∀ p : Bool, p = true → gassert dbg p = ok () := by
      rintro p rfl
      simp [gassert]
    rw [g _ (decide_eq_true h1), g _ (decide_eq_true h2), g (decide ([m, n].length = 2)) (decide_eq_true rfl)]
    exact e
  · constructor
    · rintro (a | ⟨i, -, c, hc, di, -, dj, -, hd⟩)
      · exact a.elim
      · exact ⟨c, List.mem_of_getElem? hc, di, dj, hd.1, hd.2⟩
    · rintro ⟨c, hc, di, dj, hd, e⟩
      obtain ⟨i, hi⟩ := List.getElem?_of_mem hc
      have hl : (circlesOf row col r).length = row.length := by simp [circlesOf, ← h1, ← h2]
      have hb := inDisc_bound hd
      refine Or.inr ⟨i, ?_, c, hi, di, mem_range.2 hb.1, dj, mem_range.2 hb.2, hd, e⟩
      rw [List.mem_range]
      have := (List.getElem?_eq_some_iff.1 hi).1
      omega

/-! ### Rounded roots -/

theorem forM_congr_mem {σ α : Type} {f g : σ → α → Outcome σ} : ∀ (l : List α) (s : σ),
    (∀ x ∈ l, ∀ s, f s x = g s x) → forM l s f = forM l s g
  | [], _, _ => rfl
  | x :: l, s, h => by
    simp only [forM]
    rw [h x (by simp) s]
    congr 1
    funext s'
    exact forM_congr_mem l s' fun y hy => h y (by simp [hy])

/-- Only the roots of the squared distances in the square around a circle matter. -/
theorem circlesWith_congr {root root' : Nat → Int} {dbg : Bool} {shape : List Nat} {row col r : List Int}
    {periodic : Bool} (h : ∀ a ∈ r, ∀ m : Nat, (m : Int) ≤ 2 * a ^ 2 → root m = root' m) :
    circlesWith root dbg shape row col r periodic = circlesWith root' dbg shape row col r periodic := by
  unfold circlesWith
  congr 1; funext _
  congr 1; funext _
  congr 1; funext _
  split
  · rfl
  refine forM_congr_mem _ _ fun i _ out => ?_
  cases hc : circle row col r i with
  | ok c =>
    have hm : c.2.2 ∈ r := by
      unfold circle at hc
      split at hc
      · rename_i h3
        cases hc
        exact mem_of_at1 h3
      · cases hc
    simp only [ok_bind]
    refine forM_congr_mem _ _ fun di hdi out => forM_congr_mem _ _ fun dj hdj out => ?_
    rw [mem_range] at hdi hdj
    have e : distance root di dj = distance root' di dj := by
      unfold distance
      refine h _ hm _ ?_
      rw [Int.toNat_of_nonneg (by positivity)]
      nlinarith
    unfold stampPeriodic stamp
    rw [e]
  | throws => rfl
  | ub => rfl
  | diverge => rfl

/-- A root with a relative error of at most `2 ^ -52` that is exact for squares is rounded up to the same integer
as an exact root. -/
theorem ceil_root {ρ : Nat → ℝ} {m : Nat} (hm : m < 2 ^ 50)
    (h1 : |ρ m - Real.sqrt m| ≤ Real.sqrt m / 2 ^ 52) (h2 : ∀ k : Nat, k * k = m → ρ m = k) :
    ⌈ρ m⌉ = (ceilSqrt m : Int) := by
  unfold ceilSqrt
  split
  · rename_i h
    rw [h2 _ h, Int.ceil_natCast]
  rename_i h
  set s := Nat.sqrt m with hs
  have a1 : s ^ 2 < m := lt_of_le_of_ne (Nat.sqrt_le' m) (by rw [pow_two]; exact h)
  have a2 : m < (s + 1) ^ 2 := Nat.lt_succ_sqrt' m
  have hs25 : s < 2 ^ 25 := by
    by_contra hc
    have : (2 ^ 25) ^ 2 ≤ s ^ 2 := Nat.pow_le_pow_left (by omega) 2
    norm_num at this hm
    omega
  -- the root is at least `1 / (2 s + 2)` away from `s` and `s + 1`
  set t := Real.sqrt (m : ℝ) with ht
  have ht2 : t ^ 2 = m := Real.sq_sqrt (Nat.cast_nonneg _)
  have ht0 : 0 ≤ t := Real.sqrt_nonneg _
  have b1 : ((s : ℝ)) ^ 2 + 1 ≤ t ^ 2 := by rw [ht2]; exact_mod_cast a1
  have b2 : t ^ 2 + 1 ≤ ((s : ℝ) + 1) ^ 2 := by rw [ht2]; exact_mod_cast a2
  have hs0 : (0 : ℝ) ≤ s := Nat.cast_nonneg _
  have hsr : (s : ℝ) + 1 ≤ 2 ^ 25 := by exact_mod_cast hs25
  have c1 : t ≤ s + 1 := by
    by_contra hc
    rw [not_le] at hc
    nlinarith
  have d1 : 1 ≤ (t - s) * 2 ^ 26 := by nlinarith
  have d2 : 1 ≤ (s + 1 - t) * 2 ^ 26 := by nlinarith
  have e1 : t / 2 ^ 52 ≤ 1 / 2 ^ 27 := by
    rw [div_le_div_iff₀ (by norm_num) (by norm_num)]
    nlinarith
  rw [abs_le] at h1
  norm_num at d1 d2 e1
  rw [Int.ceil_eq_iff]
  push_cast
  constructor
  · linarith [h1.1]
  · linarith [h1.2]

theorem grid_length (N M : Nat) :
    ((List.range N).flatMap fun i => (List.range M).map fun j => (i, j)).length = N * M := by
  simp [List.length_flatMap]

/-- Entry `i M + j` of a list over a grid. -/
theorem grid_getD {α : Type} [Zero α] (f : Nat × Nat → α) {N M i j : Nat} (hi : i < N) (hj : j < M) :
    (((List.range N).flatMap fun i => (List.range M).map fun j => (i, j)).map f).getD (i * M + j) 0 = f (i, j) := by
  induction N with
  | zero => omega
  | succ N ih =>
    rw [List.range_succ, List.flatMap_append, List.map_append, List.flatMap_singleton, List.getD_eq_getElem?_getD]
    have hlen := grid_length N M
    by_cases h : i < N
    · have : i * M + j < N * M := by nlinarith
      rw [List.getElem?_append_left (by rw [List.length_map, hlen]; exact this), ← List.getD_eq_getElem?_getD]
      exact ih h
    · obtain rfl : i = N := by omega
      rw [List.getElem?_append_right (by rw [List.length_map, hlen]; omega), List.length_map, hlen,
        Nat.add_sub_cancel_left, List.map_map, List.getElem?_map, List.getElem?_range hj]
      rfl

end Verif.Dummy
