import Verif.Model.Path32
import Verif.Lemmas.BresenhamRows

/-!
# 32 bits suffice for Bresenham paths with displacements below 2^30
-/

namespace Verif.Path

open Verif Outcome Spec

/-- The value fits in an `int`. -/
def Fits (a : Int) : Prop := -2147483648 ≤ a ∧ a ≤ 2147483647

theorem i32_ok {a : Int} (h : Fits a) : i32 a = ok a := if_pos h

theorem i32_ub {a : Int} (h : ¬ Fits a) : i32 a = ub := if_neg h

theorem upd_eq (f : Nat → Int) (i : Nat) (v : Int) : upd f i v i = v := by simp [upd]

theorem upd_ne (f : Nat → Int) {i k : Nat} (h : k ≠ i) (v : Int) : upd f i v k = f k := by simp [upd, h]

theorem others_spec {j : Nat} (hj : j < 3) :
    ∃ p q, others j = [p, q] ∧ p ≠ q ∧ p ≠ j ∧ q ≠ j ∧ p < 3 ∧ q < 3 ∧ ∀ i < 3, i ≠ j → i = p ∨ i = q := by
  interval_cases j
  · exact ⟨1, 2, rfl, by omega, by omega, by omega, by omega, by omega, fun i _ _ => by omega⟩
  · exact ⟨0, 2, rfl, by omega, by omega, by omega, by omega, by omega, fun i _ _ => by omega⟩
  · exact ⟨0, 1, rfl, by omega, by omega, by omega, by omega, by omega, fun i _ _ => by omega⟩

theorem twice32_ok {xa xb : Int} (h : |xb - xa| < 1073741824) : twice32 xa xb = ok (2 * |xb - xa|) := by
  have h0 := abs_nonneg (xb - xa)
  have h1 := abs_lt.1 h
  rw [twice32, i32_ok ⟨by omega, by omega⟩]
  show (i32 |xb - xa|).bind _ = _
  rw [i32_ok ⟨by omega, by omega⟩]
  exact i32_ok ⟨by omega, by omega⟩

theorem twice32_ub {xa xb : Int} (h : 1073741824 ≤ |xb - xa|) : twice32 xa xb = ub := by
  rw [twice32]
  by_cases h1 : Fits (xb - xa)
  · rw [i32_ok h1]
    show (i32 |xb - xa|).bind _ = _
    by_cases h2 : Fits |xb - xa|
    · rw [i32_ok h2]
      exact i32_ub fun h3 => by have := h3.2; omega
    · rw [i32_ub h2]; rfl
  · rw [i32_ub h1]; rfl

theorem forM_append {σ : Type u} {α : Type v} (f : σ → α → Outcome σ) :
    ∀ (l m : List α) (s : σ), forM (l ++ m) s f = (forM l s f).bind fun s => forM m s f
  | [], m, s => rfl
  | x :: l, m, s => by
    show (f s x).bind _ = ((f s x).bind _).bind _
    cases f s x with
    | ok s' => exact forM_append f l m s'
    | throws => rfl
    | ub => rfl
    | diverge => rfl

theorem twices32_ok {xa xb : List Int} (h : ∀ i < xa.length, |xb.getD i 0 - xa.getD i 0| < 1073741824) :
    twices32 xa xb = ok fun i => if i < xa.length then 2 * |xb.getD i 0 - xa.getD i 0| else 1 := by
  rw [twices32]
  have key : ∀ n ≤ xa.length, forM (List.range n) (fun _ => (1 : Int)) (fun a i =>
      (twice32 (xa.getD i 0) (xb.getD i 0)).bind fun v => ok (upd a i v)) =
      ok fun i => if i < n then 2 * |xb.getD i 0 - xa.getD i 0| else 1 := by
    intro n
    induction n with
    | zero => intro _; rfl
    | succ n ih =>
      intro hn
      rw [List.range_succ, forM_append, ih (by omega)]
      show ((twice32 _ _).bind _).bind _ = _
      rw [twice32_ok (h n (by omega))]
      show ok _ = ok _
      congr 1
      funext i
      by_cases hi : i = n
      · subst hi; simp [upd]
      · rw [upd_ne _ hi]
        have : (i < n + 1) = (i < n) := by apply propext; omega
        simp [this]
  exact key _ le_rfl

theorem twices32_ub {xa xb : List Int} {i : Nat} (hi : i < xa.length)
    (h : 1073741824 ≤ |xb.getD i 0 - xa.getD i 0|) : twices32 xa xb = ub := by
  have gen : ∀ (l : List Nat) (a : Nat → Int), i ∈ l → forM l a (fun a i =>
      (twice32 (xa.getD i 0) (xb.getD i 0)).bind fun v => ok (upd a i v)) = ub := by
    intro l
    induction l with
    | nil => intro a h; simp at h
    | cons k l ih =>
      intro a hm
      show ((twice32 _ _).bind _).bind _ = _
      by_cases hk : 1073741824 ≤ |xb.getD k 0 - xa.getD k 0|
      · rw [twice32_ub hk]; rfl
      · rw [twice32_ok (by omega)]
        rcases List.mem_cons.1 hm with rfl | hm
        · exact absurd h hk
        · exact ih _ hm
  exact gen _ _ (List.mem_range.2 hi)

/-- The bounds of the error terms. -/
def ErrorsIn (a : Nat → Int) (j : Nat) (d : Nat → Int) : Prop := ∀ i < 3, i ≠ j → -(a j) ≤ d i ∧ d i ≤ a i

theorem errors32_ok {a : Nat → Int} {j : Nat} (hj : j < 3) (ha : ∀ i < 3, 0 ≤ a i ∧ a i ≤ a j)
    (hb : a j ≤ 2147483646) :
    errors32 a j = ok ((others j).foldl (fun d i => upd d i (a i - a j / 2)) fun _ => 0) ∧
    ErrorsIn a j ((others j).foldl (fun d i => upd d i (a i - a j / 2)) fun _ => 0) := by
  obtain ⟨p, q, e, hpq, hp, hq, hp3, hq3, hall⟩ := others_spec hj
  have hap := ha p hp3
  have haq := ha q hq3
  rw [errors32, e]
  constructor
  · show ((i32 _).bind _).bind _ = _
    rw [i32_ok ⟨by omega, by omega⟩]
    show ((i32 _).bind _).bind _ = _
    rw [i32_ok ⟨by omega, by omega⟩]
    rfl
  · intro i hi hij
    simp only [List.foldl_cons, List.foldl_nil]
    rcases hall i hi hij with rfl | rfl
    · rw [upd_ne _ hpq, upd_eq]; omega
    · rw [upd_eq]; omega

theorem check32_ok {s : Nat → Int} {aj : Int} {st : (Nat → Int) × (Nat → Int)} {i : Nat}
    (hx : Fits (if st.2 i ≥ 0 then st.1 i + s i else st.1 i)) (h0 : 0 ≤ aj) (h1 : aj ≤ 2147483646)
    (hd : st.2 i ≤ 2147483646) : check32 s aj st i = ok (bCheck s aj st i) := by
  unfold check32 bCheck
  by_cases h : st.2 i ≥ 0
  · rw [if_pos h] at hx
    rw [if_pos h, if_pos h, i32_ok hx]
    show (i32 _).bind _ = _
    rw [i32_ok ⟨by omega, by omega⟩]
    rfl
  · rw [if_neg h, if_neg h]

theorem bCheck_other {s : Nat → Int} {aj : Int} {st : (Nat → Int) × (Nat → Int)} {i k : Nat} (h : k ≠ i) :
    (bCheck s aj st i).1 k = st.1 k ∧ (bCheck s aj st i).2 k = st.2 k := by
  unfold bCheck
  split
  · exact ⟨upd_ne _ h _, upd_ne _ h _⟩
  · exact ⟨rfl, rfl⟩

theorem bCheck_self {s : Nat → Int} {aj : Int} {st : (Nat → Int) × (Nat → Int)} {i : Nat} :
    (bCheck s aj st i).1 i = (if st.2 i ≥ 0 then st.1 i + s i else st.1 i) ∧
    (bCheck s aj st i).2 i = (if st.2 i ≥ 0 then st.2 i - aj else st.2 i) := by
  unfold bCheck
  by_cases h : st.2 i ≥ 0
  · rw [if_pos h, if_pos h, if_pos h]
    exact ⟨upd_eq _ _ _, upd_eq _ _ _⟩
  · rw [if_neg h, if_neg h, if_neg h]
    exact ⟨rfl, rfl⟩

theorem step32_ok {a s : Nat → Int} {j : Nat} (hj : j < 3) (ha : ∀ i < 3, 0 ≤ a i ∧ a i ≤ a j)
    (hb : a j ≤ 2147483646) {st : (Nat → Int) × (Nat → Int)} (hd : ErrorsIn a j st.2)
    (hx : ∀ i < 3, Fits ((bStep a s j st).1 i)) :
    step32 a s j st = ok (bStep a s j st) ∧ ErrorsIn a j (bStep a s j st).2 := by
  obtain ⟨p, q, e, hpq, hp, hq, hp3, hq3, hall⟩ := others_spec hj
  have haj := ha j hj
  obtain ⟨hs1, hs2⟩ := bStep_spec (a := a) (s := s) hj st
  refine ⟨?_, ?_⟩
  · have hxp := hx p hp3
    have hxq := hx q hq3
    have hxj := hx j hj
    rw [(hs2 p hp3 hp).1] at hxp
    rw [(hs2 q hq3 hq).1] at hxq
    rw [hs1] at hxj
    have hdp := hd p hp3 hp
    have hdq := hd q hq3 hq
    have hap := ha p hp3
    have haq := ha q hq3
    have hqo := bCheck_other (s := s) (aj := a j) (st := st) (i := p) (k := q) (Ne.symm hpq)
    rw [step32, bStep, e]
    show ((check32 s (a j) st p).bind _).bind _ = _
    rw [check32_ok hxp (by omega) hb (by omega)]
    show ((check32 s (a j) _ q).bind _).bind _ = _
    rw [check32_ok (by rw [hqo.1, hqo.2]; exact hxq) (by omega) hb (by rw [hqo.2]; omega)]
    have hself := bCheck_self (s := s) (aj := a j) (st := st) (i := p)
    have hself' := bCheck_self (s := s) (aj := a j) (st := bCheck s (a j) st p) (i := q)
    have ho' := bCheck_other (s := s) (aj := a j) (st := bCheck s (a j) st p) (i := q) (k := p) hpq
    have hjo := bCheck_other (s := s) (aj := a j) (st := st) (i := p) (k := j) (Ne.symm hp)
    have hjo' := bCheck_other (s := s) (aj := a j) (st := bCheck s (a j) st p) (i := q) (k := j) (Ne.symm hq)
    set t := bCheck s (a j) (bCheck s (a j) st p) q with ht
    have htp : t.2 p = if st.2 p ≥ 0 then st.2 p - a j else st.2 p := by rw [ho'.2, hself.2]
    have htq : t.2 q = if st.2 q ≥ 0 then st.2 q - a j else st.2 q := by rw [hself'.2, hqo.2]
    show (i32 (t.1 j + s j)).bind _ = _
    rw [i32_ok (by rw [hjo'.1, hjo.1]; exact hxj)]
    show (((i32 (t.2 p + a p)).bind _).bind _).bind _ = _
    rw [i32_ok (by rw [htp]; unfold Fits; split <;> omega)]
    show ((((i32 (upd t.2 p (t.2 p + a p) q + a q)).bind _).bind _)).bind _ = _
    rw [upd_ne _ (Ne.symm hpq), i32_ok (by rw [htq]; unfold Fits; split <;> omega)]
    show ok _ = ok _
    simp only [List.foldl_cons, List.foldl_nil]
    rw [← ht, upd_ne _ (Ne.symm hpq)]
  · intro i hi hij
    have h1 := hd i hi hij
    have h2 := ha i hi
    rw [(hs2 i hi hij).2]
    split <;> omega

theorem bLoop_prefix {ndim : Nat} {xb : List Int} {a s : Nat → Int} {j : Nat} :
    ∀ {fuel : Nat} {st : (Nat → Int) × (Nat → Int)} {ret rows : List (List Int)},
      bLoop ndim xb a s j fuel st ret = ok rows → ret ++ [(List.range ndim).map st.1] <+: rows
  | 0, st, ret, rows, h => by simp [bLoop] at h
  | fuel + 1, st, ret, rows, h => by
    unfold bLoop at h
    simp only at h
    cases hb : xb[j]? with
    | none => rw [hb] at h; simp at h
    | some b =>
      rw [hb] at h
      simp only at h
      split at h
      · cases h; exact List.prefix_rfl
      · exact (List.prefix_append _ _).trans (bLoop_prefix h)

theorem bStep_outside {a s : Nat → Int} {j : Nat} (hj : j < 3) {st : (Nat → Int) × (Nat → Int)} {i : Nat}
    (hi : i < 3) (hs : s i = 0) (hx : st.1 i = 0) : (bStep a s j st).1 i = 0 := by
  obtain ⟨h1, h2⟩ := bStep_spec (a := a) (s := s) hj st
  by_cases hij : i = j
  · subst hij; rw [h1, hx, hs]; rfl
  · rw [(h2 i hi hij).1, hx, hs]; simp

theorem loop32_ok {ndim : Nat} {xb : List Int} {a s : Nat → Int} {j : Nat} (hj : j < 3)
    (ha : ∀ i < 3, 0 ≤ a i ∧ a i ≤ a j) (hb : a j ≤ 2147483646) (hs : ∀ i < 3, ndim ≤ i → s i = 0)
    {rows : List (List Int)} (hrows : ∀ x ∈ rows, ∀ i < ndim, Fits (x.getD i 0))
    (hlen : rows.length ≤ 2147483647) :
    ∀ {fuel : Nat} {nnz : Int} {st : (Nat → Int) × (Nat → Int)} {ret : List (List Int)},
      nnz = ret.length → ErrorsIn a j st.2 → (∀ i < 3, ndim ≤ i → st.1 i = 0) →
      bLoop ndim xb a s j fuel st ret = ok rows → loop32 ndim xb a s j fuel nnz st ret = ok rows
  | 0, nnz, st, ret, _, _, _, h => by simp [bLoop] at h
  | fuel + 1, nnz, st, ret, hn, hd, hx, h => by
    have hpre := (bLoop_prefix h).length_le
    rw [List.length_append] at hpre
    simp only [List.length_cons, List.length_nil] at hpre
    unfold bLoop at h
    unfold loop32
    simp only at h ⊢
    rw [i32_ok ⟨by omega, by omega⟩]
    show (match xb[j]? with | none => _ | some b => _) = _
    cases hbj : xb[j]? with
    | none => rw [hbj] at h; simp at h
    | some b =>
      rw [hbj] at h
      simp only at h ⊢
      split at h
      · next he => rw [if_pos he]; exact h
      · next he =>
        rw [if_neg he]
        have hout : ∀ i < 3, ndim ≤ i → (bStep a s j st).1 i = 0 := fun i hi hni =>
          bStep_outside hj hi (hs i hi hni) (hx i hi hni)
        obtain ⟨e, hd'⟩ := step32_ok (s := s) hj ha hb hd (fun i hi => by
          by_cases hni : ndim ≤ i
          · rw [hout i hi hni]; exact ⟨by omega, by omega⟩
          · have hmem : (List.range ndim).map (bStep a s j st).1 ∈ rows :=
              (bLoop_prefix h).subset (by simp)
            have := hrows _ hmem i (by omega)
            have hl : i < ndim := by omega
            simpa [List.getD, hl] using this)
        rw [e]
        exact loop32_ok hj ha hb hs hrows hlen (by simp; omega) hd' hout h

end Verif.Path
