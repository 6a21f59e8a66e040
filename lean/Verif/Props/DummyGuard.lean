import Verif.Props.Dummy32

/-!
# Which calls of `dummy_circles` throw, are undefined and return (C53, C63)
-/

namespace Verif.Dummy

open Outcome Spec Path

theorem plain_stampPeriodic (root : Nat → Int) (out : Nd Int) (row col r di dj : Int) :
    Plain (stampPeriodic root out row col r di dj) := by
  unfold stampPeriodic
  split
  · exact plain_bind (plain_periodicIndex _ _) fun _ => plain_write _ _ _
  · exact plain_ok _

theorem plain_stamp (root : Nat → Int) (out : Nd Int) (row col r di dj : Int) :
    Plain (stamp root out row col r di dj) := by
  unfold stamp
  split
  · split
    · exact plain_write _ _ _
    · exact plain_ok _
  · exact plain_ok _

/-- One circle. -/
def drawn (root : Nat → Int) (periodic : Bool) (out : Nd Int) (c : Int × Int × Int) : Outcome (Nd Int) :=
  forM (range c.2.2) out fun out di =>
    forM (range c.2.2) out fun out dj =>
      if periodic then stampPeriodic root out c.1 c.2.1 c.2.2 di dj else stamp root out c.1 c.2.1 c.2.2 di dj

theorem plain_drawn (root : Nat → Int) (periodic : Bool) (out : Nd Int) (c : Int × Int × Int) :
    Plain (drawn root periodic out c) := by
  refine plain_forM (fun _ _ => plain_forM (fun _ _ => ?_) _ _) _ _
  split
  · exact plain_stampPeriodic _ _ _ _ _ _ _
  · exact plain_stamp _ _ _ _ _ _ _

theorem plain_all (root : Nat → Int) (periodic : Bool) (row col r : List Int) (l : List Nat) (out : Nd Int) :
    Plain (forM l out fun out i => (circle row col r i).bind fun c => drawn root periodic out c) :=
  plain_forM (fun _ _ => plain_bind (plain_circle _ _ _ _) fun _ => plain_drawn _ _ _ _) _ _

/-- The function after its checks. -/
theorem circlesWith_eq (root : Nat → Int) (dbg : Bool) (shape : List Nat) (row col r : List Int) (periodic : Bool) :
    circlesWith root dbg shape row col r periodic =
      if dbg = true ∧ (row.length ≠ col.length ∨ row.length ≠ r.length ∨ shape.length ≠ 2) then throws
      else if shape.length ≠ 2 then ub
      else forM (List.range row.length) (Nd.fill shape 0) fun out i =>
        (circle row col r i).bind fun c => drawn root periodic out c := by
  unfold circlesWith
  cases dbg
  · simp only [gassert, Bool.false_and, if_false, ok_bind, Bool.false_eq_true, false_and]
    rfl
  · by_cases h1 : row.length = col.length
    · by_cases h2 : row.length = r.length
      · by_cases h3 : shape.length = 2
        · rw [if_neg (c := true = true ∧ _) (by tauto)]
          simp only [gassert, decide_eq_true h1, decide_eq_true h2, decide_eq_true h3]
          rfl
        · simp only [gassert, decide_eq_true h1, decide_eq_true h2, decide_eq_false h3]
          simp [h3]
      · simp only [gassert, decide_eq_true h1, decide_eq_false h2]
        simp [h2]
    · simp only [gassert, decide_eq_false h1]
      simp [h1]

/-- A step that is undefined in all states that can occur. -/
theorem forM_ub_of {σ α : Type} {P : σ → Prop} {f : σ → α → Outcome σ} (hf : ∀ s x, P s → Plain (f s x))
    (hP : ∀ s x s', P s → f s x = ok s' → P s') {y : α} (hy : ∀ s, P s → f s y = ub) :
    ∀ {l : List α}, y ∈ l → ∀ s : σ, P s → forM l s f = ub
  | x :: l, h, s, hs => by
    rw [forM]
    rcases List.mem_cons.1 h with rfl | h
    · rw [hy s hs]; rfl
    · rcases hf s x hs with e | ⟨a, e⟩
      · rw [e]; rfl
      · rw [e]
        exact forM_ub_of hf hP hy h a (hP s x a hs e)

theorem forM_keeps {σ α : Type} {P : σ → Prop} {f : σ → α → Outcome σ}
    (hP : ∀ s x s', P s → f s x = ok s' → P s') : ∀ (l : List α) (s s' : σ), P s → forM l s f = ok s' → P s'
  | [], s, s', h, e => by
    rw [forM] at e
    cases e
    exact h
  | x :: l, s, s', h, e => by
    rw [forM] at e
    cases e1 : f s x with
    | ok a => rw [e1] at e; exact forM_keeps hP l a s' (hP s x a h e1) e
    | throws => rw [e1] at e; cases e
    | ub => rw [e1] at e; cases e
    | diverge => rw [e1] at e; cases e

theorem write_shape {α : Type} {a b : Nd α} {x : List Int} {v : α} (h : a.write x v = ok b) : b.shape = a.shape := by
  unfold Nd.write at h
  split at h
  · cases h; rfl
  · cases h

theorem pixel_shape {root : Nat → Int} {periodic : Bool} {out out' : Nd Int} {row col r di dj : Int}
    (h : (if periodic then stampPeriodic root out row col r di dj else stamp root out row col r di dj) = ok out') :
    out'.shape = out.shape := by
  split at h
  · unfold stampPeriodic at h
    split at h
    · cases e : periodicIndex out.shape [row + di, col + dj] with
      | ok x => rw [e] at h; exact write_shape h
      | throws => rw [e] at h; cases h
      | ub => rw [e] at h; cases h
      | diverge => rw [e] at h; cases h
    · cases h; rfl
  · unfold stamp at h
    split at h
    · split at h
      · exact write_shape h
      · cases h; rfl
    · cases h; rfl

theorem drawn_shape {root : Nat → Int} {periodic : Bool} {shape : List Nat} {out out' : Nd Int} {c : Int × Int × Int}
    (hs : out.shape = shape) (h : drawn root periodic out c = ok out') : out'.shape = shape :=
  forM_keeps (P := fun o => o.shape = shape)
    (fun _ _ _ h1 e1 => forM_keeps (P := fun o => o.shape = shape) (fun _ _ _ h2 e2 => (pixel_shape e2).trans h2) _ _ _ h1 e1)
    _ _ _ hs h

theorem mem_range_zero {r : Int} (h : 1 ≤ r) : (0 : Int) ∈ range r := by
  unfold range
  rw [List.mem_map]
  exact ⟨r.toNat, List.mem_range.2 (by omega), by omega⟩

/-- A circle on a periodic image without pixels. -/
theorem drawn_ub {shape : List Nat} (h0 : 0 ∈ shape) {out : Nd Int} (hs : out.shape = shape) {c : Int × Int × Int}
    (hr : 1 ≤ c.2.2) : drawn exactRoot true out c = ub := by
  have hpl : ∀ (o : Nd Int) (di dj : Int), Plain (if true then stampPeriodic exactRoot o c.1 c.2.1 c.2.2 di dj
      else stamp exactRoot o c.1 c.2.1 c.2.2 di dj) := fun o di dj => plain_stampPeriodic _ _ _ _ _ _ _
  refine forM_ub_of (P := fun o => o.shape = shape) (fun s x _ => plain_forM (fun o dj => hpl o x dj) _ _) ?_ ?_
    (mem_range_zero hr) out hs
  · intro s x s' h1 e1
    exact forM_keeps (P := fun o => o.shape = shape) (fun _ _ _ h2 e2 => (pixel_shape (periodic := true) e2).trans h2) _ _ _ h1 e1
  · intro s h1
    refine forM_ub_of (P := fun o => o.shape = shape) (fun o dj _ => hpl o 0 dj) ?_ ?_ (mem_range_zero hr) s h1
    · intro _ _ _ h2 e2
      exact (pixel_shape (periodic := true) e2).trans h2
    · intro o h2
      show stampPeriodic exactRoot o c.1 c.2.1 c.2.2 0 0 = ub
      unfold stampPeriodic
      have hd : distance exactRoot 0 0 < c.2.2 := by
        have := (distance_axis 0).1
        rw [abs_zero] at this
        show distance (fun m => ((ceilSqrt m : Nat) : Int)) 0 0 < c.2.2
        omega
      rw [if_pos hd]
      unfold periodicIndex
      rw [h2, if_pos h0]
      rfl

/-- A circle without pixels. -/
theorem drawn_empty {periodic : Bool} {out : Nd Int} {c : Int × Int × Int} (hr : c.2.2 ≤ 0) :
    drawn exactRoot periodic out c = ok out := by
  have key : ∀ {α : Type} (l : List α) (f : Nd Int → α → Outcome (Nd Int)), (∀ o x, f o x = ok o) →
      forM l out f = ok out := by
    intro α l f hf
    induction l with
    | nil => rfl
    | cons x l ih => rw [forM, hf]; exact ih
  have key' : ∀ {α : Type} (o : Nd Int) (l : List α) (f : Nd Int → α → Outcome (Nd Int)), (∀ o x, f o x = ok o) →
      forM l o f = ok o := by
    intro α o l f hf
    induction l with
    | nil => rfl
    | cons x l ih => rw [forM, hf]; exact ih
  refine key _ _ fun o di => key' _ _ _ fun o' dj => ?_
  have hd : ¬ distance exactRoot di dj < c.2.2 := by
    unfold distance exactRoot
    omega
  unfold stampPeriodic stamp
  rw [if_neg hd, if_neg hd]
  simp

end Verif.Dummy

namespace Verif.Props

open Verif Outcome Spec Dummy

/-- The numbers of `k` circles: a list of one number stands for that number for all of them. -/
def given (k : Nat) (l : List Int) : List Int := if l.length = 1 then List.replicate k (l.getD 0 0) else l

/-- A call of `dummy_circles(shape, row, col, r, periodic)` with a two-dimensional shape is possible: for every row there
is a column and a radius, and a periodic image without pixels has no circle with a positive radius. -/
def Drawable (periodic : Bool) (m n : Nat) (row col r : List Int) : Prop :=
  row.length ≤ (given row.length col).length ∧ row.length ≤ (given row.length r).length ∧
    (periodic = true → (0 < m ∧ 0 < n) ∨ ∀ i < row.length, (given row.length r).getD i 0 ≤ 0)

/-- **C53**: with assertions exactly the calls with lists of different lengths, or with a shape that is not
two-dimensional, throw; without assertions no call does. -/
theorem C53_throws_iff (dbg : Bool) (shape : List Nat) (row col r : List Int) (periodic : Bool) :
    dummyCircles dbg shape row col r periodic = throws ↔
      dbg = true ∧ (row.length ≠ col.length ∨ row.length ≠ r.length ∨ shape.length ≠ 2) := by
  unfold dummyCircles
  rw [circlesWith_eq]
  constructor
  · intro h
    by_contra hc
    rw [if_neg hc] at h
    split at h
    · cases h
    · rcases plain_all (fun m => ((ceilSqrt m : Nat) : Int)) periodic row col r (List.range row.length) (Nd.fill shape 0) with e | ⟨a, e⟩
      · rw [e] at h; cases h
      · rw [e] at h; cases h
  · intro h
    rw [if_pos h]

theorem at1_given {k i : Nat} (h : i < k) (l : List Int) : at1 l i = (given k l)[i]? := by
  unfold given at1
  split
  · rename_i h1
    rw [List.getElem?_replicate, if_pos h, List.getD_eq_getElem?_getD, List.getElem?_eq_getElem (by omega)]
    rfl
  · rw [if_neg (by omega), Int.toNat_natCast]

theorem circle_given {row col r : List Int} {i : Nat} (hi : i < row.length) :
    circle row col r i = match row[i]?, (given row.length col)[i]?, (given row.length r)[i]? with
      | some a, some b, some c => ok (a, b, c)
      | _, _, _ => ub := by
  unfold circle
  rw [at1_given hi, at1_given hi]
  rfl

theorem circle_take {row col r : List Int} {i : Nat} (hi : i < row.length)
    (h1 : row.length ≤ (given row.length col).length) (h2 : row.length ≤ (given row.length r).length) :
    circle row col r i =
      circle row ((given row.length col).take row.length) ((given row.length r).take row.length) i := by
  rw [circle_given hi]
  unfold circle
  rw [at1_full (by rw [List.length_take]; omega), at1_full (by rw [List.length_take]; omega),
    List.getElem?_take_of_lt hi, List.getElem?_take_of_lt hi]
  rfl

theorem circlesOf_take : ∀ (row col r : List Int),
    circlesOf row (col.take row.length) (r.take row.length) = circlesOf row col r
  | [], _, _ => rfl
  | _ :: _, [], _ => by simp [circlesOf]
  | _ :: _, _ :: _, [] => by simp [circlesOf]
  | a :: row, b :: col, c :: r => by
    have := circlesOf_take row col r
    unfold circlesOf at this ⊢
    simp only [List.length_cons, List.take_succ_cons, List.zip_cons_cons, List.zipWith_cons_cons]
    rw [this]

/-- **C53**: a call with a two-dimensional shape that does not throw returns exactly if it is possible, and is undefined
otherwise; if it returns, the image has the given shape, is one on the pixels that are covered by one of the circles, of
which there is one for every row, and zero elsewhere. -/
theorem C53_returns_iff (dbg : Bool) (m n : Nat) (row col r : List Int) (periodic : Bool)
    (h : dummyCircles dbg [m, n] row col r periodic ≠ throws) :
    (¬ Drawable periodic m n row col r → dummyCircles dbg [m, n] row col r periodic = ub) ∧
    (Drawable periodic m n row col r → ∃ out, dummyCircles dbg [m, n] row col r periodic = ok out ∧ out.shape = [m, n] ∧
      ∀ x, InBox [m, n] x →
        (Covered periodic [m, n] (circlesOf row (given row.length col) (given row.length r)) x → val out x = 1) ∧
        (¬ Covered periodic [m, n] (circlesOf row (given row.length col) (given row.length r)) x → val out x = 0)) := by
  have hne := mt (C53_throws_iff dbg [m, n] row col r periodic).2 h
  have e0 : dummyCircles dbg [m, n] row col r periodic =
      forM (List.range row.length) (Nd.fill [m, n] 0) fun out i =>
        (circle row col r i).bind fun c => drawn exactRoot periodic out c := by
    unfold dummyCircles
    rw [circlesWith_eq, if_neg hne, if_neg (by simp)]
  have hpl : ∀ (s : Nd Int) (i : Nat), Plain ((circle row col r i).bind fun c => drawn exactRoot periodic s c) :=
    fun _ _ => plain_bind (plain_circle _ _ _ _) fun _ => plain_drawn _ _ _ _
  have hsome : ∀ i < row.length, row.length ≤ (given row.length col).length → row.length ≤ (given row.length r).length →
      circle row col r i = ok (row.getD i 0, (given row.length col).getD i 0, (given row.length r).getD i 0) := by
    intro i hi h1 h2
    rw [circle_given hi, List.getElem?_eq_getElem hi, List.getElem?_eq_getElem (by omega : i < (given row.length col).length),
      List.getElem?_eq_getElem (by omega : i < (given row.length r).length)]
    simp [List.getD, hi, (by omega : i < (given row.length col).length), (by omega : i < (given row.length r).length)]
  constructor
  · intro hd
    rw [e0]
    by_cases h1 : row.length ≤ (given row.length col).length
    · by_cases h2 : row.length ≤ (given row.length r).length
      · have h3 : periodic = true ∧ ¬ (0 < m ∧ 0 < n) ∧ ∃ i < row.length, 1 ≤ (given row.length r).getD i 0 := by
          by_contra hc
          refine hd ⟨h1, h2, fun hp => ?_⟩
          by_contra hc'
          push Not at hc'
          obtain ⟨hz, i, hi, hr⟩ := hc'
          exact hc ⟨hp, fun hz' => by have := hz hz'.1; omega, i, hi, by omega⟩
        obtain ⟨rfl, hz, i, hi, hr⟩ := h3
        have hz' : 0 ∈ [m, n] := by simp; omega
        refine forM_ub_of (P := fun o => o.shape = [m, n]) (fun s i _ => hpl s i) ?_ ?_ (List.mem_range.2 hi) _ rfl
        · intro s j s' hs e
          cases ec : circle row col r j with
          | ok c => rw [ec] at e; exact drawn_shape hs e
          | throws => rw [ec] at e; cases e
          | ub => rw [ec] at e; cases e
          | diverge => rw [ec] at e; cases e
        · intro s hs
          rw [hsome i hi h1 h2]
          exact drawn_ub hz' hs hr
      · refine forM_ub (fun s i => hpl s i) (y := (given row.length r).length) (fun s => ?_) (List.mem_range.2 (by omega)) _
        have : circle row col r (given row.length r).length = ub := by
          rw [circle_given (by omega), List.getElem?_eq_none (le_refl (given row.length r).length)]
          split
          · rename_i hx; cases hx
          · rfl
        rw [this]
        rfl
    · refine forM_ub (fun s i => hpl s i) (y := (given row.length col).length) (fun s => ?_) (List.mem_range.2 (by omega)) _
      have : circle row col r (given row.length col).length = ub := by
        rw [circle_given (by omega), List.getElem?_eq_none (le_refl (given row.length col).length)]
        split
        · rename_i hx _; cases hx
        · rfl
      rw [this]
      rfl
  · rintro ⟨h1, h2, h3⟩
    by_cases hz : periodic = true → 0 < m ∧ 0 < n
    · obtain ⟨out, e, hs, hv⟩ := C53_pixels false m n row ((given row.length col).take row.length) ((given row.length r).take row.length) periodic
        (by simp [h1]) (by simp [h2]) hz
      rw [circlesOf_take] at hv
      refine ⟨out, ?_, hs, hv⟩
      rw [e0, ← e]
      unfold dummyCircles
      rw [circlesWith_eq, if_neg (by simp), if_neg (by simp)]
      have hcongr : ∀ (l : List Nat) (o : Nd Int), (∀ i ∈ l, i < row.length) →
          (forM l o fun out i => (circle row col r i).bind fun c => drawn exactRoot periodic out c) =
          forM l o fun out i => (circle row ((given row.length col).take row.length) ((given row.length r).take row.length) i).bind fun c =>
            drawn exactRoot periodic out c := by
        intro l
        induction l with
        | nil => intro o _; rfl
        | cons i l ih =>
          intro o hl
          rw [forM, forM, circle_take (hl i (by simp)) h1 h2]
          congr 1
          funext s
          exact ih s fun j hj => hl j (by simp [hj])
      exact hcongr _ _ fun i hi => List.mem_range.1 hi
    · push Not at hz
      obtain ⟨hp, hz⟩ := hz
      have hr : ∀ i < row.length, (given row.length r).getD i 0 ≤ 0 := by
        rcases h3 hp with h | h
        · have := hz h.1; omega
        · exact h
      have hrun : ∀ (l : List Nat) (o : Nd Int), (∀ i ∈ l, i < row.length) →
          (forM l o fun out i => (circle row col r i).bind fun c => drawn exactRoot periodic out c) = ok o := by
        intro l
        induction l with
        | nil => intro o _; rfl
        | cons i l ih =>
          intro o hl
          have hi := hl i (by simp)
          rw [forM, hsome i hi h1 h2]
          show (drawn exactRoot periodic o _).bind _ = _
          rw [drawn_empty (hr i hi)]
          exact ih o fun j hj => hl j (by simp [hj])
      refine ⟨Nd.fill [m, n] 0, ?_, rfl, fun x hx => ?_⟩
      · rw [e0]
        exact hrun _ _ fun i hi => List.mem_range.1 hi
      · exfalso
        unfold InBox at hx
        match x, hx with
        | [a, b], hx =>
          simp at hx
          by_cases hm : 0 < m
          · have := hz hm; omega
          · omega

/-- Without assertions: two columns for one row, the second of which is not used. -/
example : Drawable true 3 3 [1] [1, 2] [2] ∧ dummyCircles false [3, 3] [1] [1, 2] [2] true ≠ throws := by
  refine ⟨⟨by decide, by decide, fun _ => Or.inl ⟨by decide, by decide⟩⟩, fun h => ?_⟩
  have := (C53_throws_iff _ _ _ _ _ _).1 h
  simp at this

/-- Without assertions: one radius for three circles. -/
example : Drawable true 3 3 [1, 2, 0] [1, 2, 1] [2] ∧ given 3 [2] = [2, 2, 2] ∧
    ¬ Drawable true 3 3 [1, 2, 0] [1, 2, 1] [2, 1] := by
  refine ⟨⟨by decide, by decide, fun _ => Or.inl ⟨by decide, by decide⟩⟩, by decide, fun h => ?_⟩
  exact absurd h.2.1 (by decide)

/-- A circle on a periodic image without columns: undefined, and not on one that is not periodic. -/
example : ¬ Drawable true 3 0 [1] [1] [2] ∧ Drawable false 3 0 [1] [1] [2] := by
  unfold Drawable
  constructor
  · rintro ⟨-, -, h⟩
    rcases h rfl with h | h
    · exact absurd h.2 (by decide)
    · exact absurd (h 0 (by decide)) (by decide)
  · exact ⟨by decide, by decide, fun h => by cases h⟩

/-- **C63**: random circles: with assertions exactly the shapes that are not two-dimensional are rejected; without
assertions no call throws. -/
theorem C63_throws_iff (dbg : Bool) (randint : Int → Nat → Int) (random : Nat → ℝ) (shape : List Nat) (periodic : Bool) :
    randomDummyCircles dbg randint random shape periodic = throws ↔ dbg = true ∧ shape.length ≠ 2 := by
  by_cases hs : shape.length = 2
  · obtain ⟨m, n, rfl⟩ := List.length_eq_two.1 hs
    simp only [List.length_cons, List.length_nil, Nat.zero_add, Nat.reduceAdd, ne_eq, not_true_eq_false, and_false, iff_false]
    by_cases h : m < 20 ∨ n < 20
    · rw [C63_violated dbg randint random m n periodic h]
      exact fun h => by cases h
    · push Not at h
      obtain ⟨out, e, -⟩ := C63_partial dbg randint random m n periodic h.1 h.2
      rw [e]
      exact fun h => by cases h
  · unfold randomDummyCircles
    cases dbg
    · simp only [gassert, Bool.false_and, ok_bind, Bool.false_eq_true, if_false, false_and, iff_false]
      split
      · exact absurd rfl hs
      · exact fun h => by cases h
    · simp [gassert, hs]

example : ([4, 5, 6] : List Nat).length ≠ 2 := by decide

end Verif.Props
