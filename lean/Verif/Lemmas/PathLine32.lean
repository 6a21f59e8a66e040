import Verif.Model.Path32
import Mathlib.Tactic.Linarith

/-!
# Lemmas about `actual` and `full` with `int`s
-/

namespace Verif.Path

open Verif Outcome

variable {K : Type} [Zero K] [One K] [Add K] [Sub K] [Neg K] [Mul K] [Div K] [NatCast K] [IntCast K]
  [DecidableEq K] [LT K] [DecidableLT K]

/-- A value of `int`. -/
def In32 (a : Int) : Prop := -2147483648 ≤ a ∧ a ≤ 2147483647

instance (a : Int) : Decidable (In32 a) := by unfold In32; infer_instance

theorem i32_in {a : Int} (h : In32 a) : i32 a = ok a := if_pos h

theorem i32_out {a : Int} (h : ¬ In32 a) : i32 a = ub := if_neg h

/-- The update `rows` and its version with `int`s: the latter does the same if the pixels and the number of rows fit, and
is undefined otherwise. -/
def Version (rows : K → List (Axis K) → List (Axis K) × List (List Int))
    (rows32 : K → Int → List (Axis K) → Outcome (List (Axis K) × List (List Int) × Int)) : Prop :=
  ∀ (tm : K) (nnz : Int) (axes : List (Axis K)), 1 ≤ nnz → In32 nnz → (∀ a ∈ axes, In32 a.c) →
    rows32 tm nnz axes =
      (if (∀ x ∈ (rows tm axes).2, ∀ c ∈ x, In32 c) ∧ In32 (nnz + (rows tm axes).2.length)
        then ok ((rows tm axes).1, (rows tm axes).2, nnz + (rows tm axes).2.length) else ub) ∧
    ((∀ x ∈ (rows tm axes).2, ∀ c ∈ x, In32 c) → ∀ a ∈ (rows tm axes).1, In32 a.c)

theorem actualAxes32_eq (tm : K) : ∀ axes : List (Axis K), (∀ a ∈ axes, In32 a.c) →
    actualAxes32 tm axes =
      (if ∀ a ∈ axes.map (fun a => if a.selected tm then a.advance else a), In32 a.c then
        ok (axes.map fun a => if a.selected tm then a.advance else a) else ub)
  | [], _ => by simp [actualAxes32]
  | a :: axes, h => by
    have ih := actualAxes32_eq tm axes fun b hb => h b (by simp [hb])
    have key : (if a.selected tm then a.advance32 else ok a) =
        if In32 (if a.selected tm then a.advance else a).c then ok (if a.selected tm then a.advance else a) else ub := by
      by_cases hs : a.selected tm = true
      · rw [if_pos hs, if_pos hs, Axis.advance32]
        by_cases hc : In32 (a.c + (a.xb - a.xa).sign)
        · rw [i32_in hc, if_pos (show In32 a.advance.c from hc)]
          rfl
        · rw [i32_out hc, if_neg (show ¬ In32 a.advance.c from hc)]
          rfl
      · rw [if_neg hs, if_neg hs, if_pos (h a (by simp))]
    rw [actualAxes32, key]
    by_cases h1 : In32 (if a.selected tm then a.advance else a).c
    · rw [if_pos h1]
      show (actualAxes32 tm axes).bind _ = _
      rw [ih]
      by_cases h2 : ∀ a ∈ axes.map (fun a => if a.selected tm then a.advance else a), In32 a.c
      · rw [if_pos h2]
        refine (if_pos ?_).symm
        · intro b hb
          rw [List.map_cons, List.mem_cons] at hb
          rcases hb with rfl | hb
          · exact h1
          · exact h2 b hb
      · rw [if_neg h2]
        refine (if_neg ?_).symm
        · intro hc
          exact h2 fun b hb => hc b (by rw [List.map_cons]; exact List.mem_cons_of_mem _ hb)
    · rw [if_neg h1, if_neg]
      · rfl
      · intro hc
        exact h1 (hc _ (by rw [List.map_cons]; exact List.mem_cons_self))

theorem actual_version : Version (K := K) actualRows actualRows32 := by
  intro tm nnz axes h1 hn hax
  have hrow : (∀ x ∈ (actualRows tm axes).2, ∀ c ∈ x, In32 c) ↔
      ∀ a ∈ axes.map (fun a => if a.selected tm then a.advance else a), In32 a.c := by
    show (∀ x ∈ [row _], ∀ c ∈ x, In32 c) ↔ _
    simp only [List.mem_singleton, forall_eq, row]
    constructor
    · intro h a ha
      exact h _ (List.mem_map.2 ⟨a, ha, rfl⟩)
    · intro h c hc
      obtain ⟨a, ha, rfl⟩ := List.mem_map.1 hc
      exact h a ha
  refine ⟨?_, fun h => hrow.1 h⟩
  rw [actualRows32, actualAxes32_eq tm axes hax]
  have hl : (actualRows tm axes).2.length = 1 := rfl
  rw [hl]
  by_cases h2 : ∀ a ∈ axes.map (fun a => if a.selected tm then a.advance else a), In32 a.c
  · rw [if_pos h2]
    show (i32 (nnz + 1)).bind _ = _
    by_cases h3 : In32 (nnz + 1)
    · rw [i32_in h3, if_pos ⟨hrow.2 h2, by exact_mod_cast h3⟩]
      rfl
    · rw [i32_out h3, if_neg fun h => h3 (by exact_mod_cast h.2)]
      rfl
  · rw [if_neg h2, if_neg fun h => h2 (hrow.1 h.1)]
    rfl

theorem fullRows32_eq (tm : K) : ∀ (todo : List (Axis K)) (done : List (Axis K)) (nnz : Int), 1 ≤ nnz → In32 nnz →
    (∀ a ∈ todo, In32 a.c) → (∀ a ∈ done, In32 a.c) →
    fullRows32 tm nnz done todo =
      (if (∀ x ∈ (fullRows tm done todo).2, ∀ c ∈ x, In32 c) ∧ In32 (nnz + (fullRows tm done todo).2.length)
        then ok ((fullRows tm done todo).1, (fullRows tm done todo).2, nnz + (fullRows tm done todo).2.length)
        else ub) ∧
    ((∀ x ∈ (fullRows tm done todo).2, ∀ c ∈ x, In32 c) → ∀ a ∈ (fullRows tm done todo).1, In32 a.c)
  | [], done, nnz, h1, hn, ht, hd => by
    refine ⟨?_, fun _ => hd⟩
    rw [fullRows32, if_pos]
    · simp [fullRows]
    · simp only [fullRows, List.not_mem_nil, false_implies, implies_true, true_and, List.length_nil]
      simpa using hn
  | a :: todo, done, nnz, h1, hn, ht, hd => by
    have hat := ht a (by simp)
    have ht' : ∀ b ∈ todo, In32 b.c := fun b hb => ht b (by simp [hb])
    by_cases hs : a.selected tm = true
    · rw [fullRows32, if_pos hs, Axis.advance32]
      have e1 : (fullRows tm done (a :: todo)).1 = (fullRows tm (done ++ [a.advance]) todo).1 := by
        simp [fullRows, hs]
      have e2 : (fullRows tm done (a :: todo)).2 =
          row (done ++ a.advance :: todo) :: (fullRows tm (done ++ [a.advance]) todo).2 := by
        simp [fullRows, hs]
      rw [e1, e2]
      have hrow : (∀ c ∈ row (done ++ a.advance :: todo), In32 c) ↔ In32 a.advance.c := by
        constructor
        · intro h
          exact h _ (List.mem_map.2 ⟨a.advance, by simp, rfl⟩)
        · intro h c hc
          obtain ⟨b, hb, rfl⟩ := List.mem_map.1 hc
          rcases List.mem_append.1 hb with hb | hb
          · exact hd b hb
          · rcases List.mem_cons.1 hb with rfl | hb
            · exact h
            · exact ht' b hb
      by_cases hc : In32 (a.c + (a.xb - a.xa).sign)
      · rw [i32_in hc]
        have hd' : ∀ b ∈ done ++ [a.advance], In32 b.c := by
          intro b hb
          rcases List.mem_append.1 hb with hb | hb
          · exact hd b hb
          · rw [List.mem_singleton] at hb
            subst hb
            exact hc
        show ((i32 (nnz + 1)).bind fun nnz => (fullRows32 tm nnz (done ++ [a.advance]) todo).bind fun r =>
            ok (r.1, row (done ++ a.advance :: todo) :: r.2.1, r.2.2)) = _ ∧ _
        by_cases hn' : In32 (nnz + 1)
        · obtain ⟨i1, i2⟩ := fullRows32_eq tm todo (done ++ [a.advance]) (nnz + 1) (by omega) hn' ht' hd'
          refine ⟨?_, fun h => i2 fun x hx => h x (List.mem_cons_of_mem _ hx)⟩
          rw [i32_in hn']
          show (fullRows32 tm (nnz + 1) (done ++ [a.advance]) todo).bind _ = _
          rw [i1]
          have el : nnz + 1 + ((fullRows tm (done ++ [a.advance]) todo).2.length : Int) =
              nnz + ((row (done ++ a.advance :: todo) :: (fullRows tm (done ++ [a.advance]) todo).2).length : Int) := by
            rw [List.length_cons]
            push_cast
            omega
          rw [el]
          by_cases hg : (∀ x ∈ (fullRows tm (done ++ [a.advance]) todo).2, ∀ c ∈ x, In32 c) ∧
              In32 (nnz + ((row (done ++ a.advance :: todo) :: (fullRows tm (done ++ [a.advance]) todo).2).length : Int))
          · rw [if_pos hg, if_pos]
            · rfl
            · refine ⟨fun x hx => ?_, hg.2⟩
              rcases List.mem_cons.1 hx with rfl | hx
              · exact hrow.2 hc
              · exact hg.1 x hx
          · rw [if_neg hg, if_neg]
            · rfl
            · intro h
              exact hg ⟨fun x hx => h.1 x (List.mem_cons_of_mem _ hx), h.2⟩
        · refine ⟨?_, fun h => ?_⟩
          · rw [i32_out hn', if_neg]
            · rfl
            · rintro ⟨-, h⟩
              apply hn'
              rw [List.length_cons] at h
              unfold In32 at h hn ⊢
              push_cast at h
              omega
          · have : ∀ (todo done : List (Axis K)), (∀ b ∈ done, In32 b.c) → (∀ b ∈ todo, In32 b.c) →
                (∀ x ∈ (fullRows tm done todo).2, ∀ c ∈ x, In32 c) → ∀ b ∈ (fullRows tm done todo).1, In32 b.c := by
              intro todo
              induction todo with
              | nil => intro done hd _ _; exact hd
              | cons b todo ih =>
                intro done hd ht hx
                by_cases hs : b.selected tm = true
                · have e1 : (fullRows tm done (b :: todo)).1 = (fullRows tm (done ++ [b.advance]) todo).1 := by
                    simp [fullRows, hs]
                  have e2 : (fullRows tm done (b :: todo)).2 =
                      row (done ++ b.advance :: todo) :: (fullRows tm (done ++ [b.advance]) todo).2 := by
                    simp [fullRows, hs]
                  rw [e1]
                  rw [e2] at hx
                  refine ih _ ?_ (fun c hc => ht c (by simp [hc])) fun x h => hx x (List.mem_cons_of_mem _ h)
                  intro c hc
                  rcases List.mem_append.1 hc with hc | hc
                  · exact hd c hc
                  · rw [List.mem_singleton] at hc
                    subst hc
                    exact hx _ List.mem_cons_self _ (List.mem_map.2 ⟨b.advance, by simp, rfl⟩)
                · have e : fullRows tm done (b :: todo) = fullRows tm (done ++ [b]) todo := by
                    simp [fullRows, hs]
                  rw [e] at hx ⊢
                  refine ih _ ?_ (fun c hc => ht c (by simp [hc])) hx
                  intro c hc
                  rcases List.mem_append.1 hc with hc | hc
                  · exact hd c hc
                  · rw [List.mem_singleton] at hc
                    subst hc
                    exact ht c (by simp)
            exact this _ _ hd' ht' fun x hx => h x (List.mem_cons_of_mem _ hx)
      · have hno : ¬ ∀ x ∈ row (done ++ a.advance :: todo) :: (fullRows tm (done ++ [a.advance]) todo).2,
            ∀ c ∈ x, In32 c := fun h => hc (hrow.1 (h _ List.mem_cons_self))
        refine ⟨?_, fun h => absurd h hno⟩
        rw [i32_out hc, if_neg fun h => hno h.1]
        rfl
    · have e : fullRows tm done (a :: todo) = fullRows tm (done ++ [a]) todo := by
        simp [fullRows, hs]
      rw [fullRows32, if_neg hs, e]
      refine fullRows32_eq tm todo (done ++ [a]) nnz h1 hn ht' ?_
      intro b hb
      rcases List.mem_append.1 hb with hb | hb
      · exact hd b hb
      · rw [List.mem_singleton] at hb
        subst hb
        exact hat

theorem full_version : Version (K := K) (fun tm => fullRows tm []) (fun tm nnz => fullRows32 tm nnz []) :=
  fun tm nnz axes h1 hn hax => fullRows32_eq tm axes [] nnz h1 hn hax (by simp)

/-- What was stored stays stored. -/
theorem lineLoop_prefix (rows : K → List (Axis K) → List (Axis K) × List (List Int)) (junk : K) :
    ∀ (fuel : Nat) (axes : List (Axis K)) (ret p : List (List Int)), lineLoop rows junk fuel axes ret = ok p →
      ∃ q, p = ret ++ q
  | 0, _, _, _, h => by simp [lineLoop] at h
  | fuel + 1, axes, ret, p, h => by
    rw [lineLoop] at h
    split at h
    · exact ⟨_, (Outcome.ok.inj h).symm⟩
    · obtain ⟨q, hq⟩ := lineLoop_prefix rows junk fuel _ _ _ h
      exact ⟨_, by rw [hq, List.append_assoc]⟩

/-- The loop with `int`s ends with a path iff the loop ends with that path and all of it fits. -/
theorem lineLoop32_ok {rows : K → List (Axis K) → List (Axis K) × List (List Int)}
    {rows32 : K → Int → List (Axis K) → Outcome (List (Axis K) × List (List Int) × Int)} (hv : Version rows rows32)
    (junk : K) : ∀ (fuel : Nat) (axes : List (Axis K)) (ret p : List (List Int)), 1 ≤ ret.length →
      In32 (ret.length : Int) → (∀ a ∈ axes, In32 a.c) → (∀ x ∈ ret, ∀ c ∈ x, In32 c) →
      (lineLoop32 rows32 junk fuel ret.length axes ret = ok p ↔
        lineLoop rows junk fuel axes ret = ok p ∧ (∀ x ∈ p, ∀ c ∈ x, In32 c) ∧ In32 (p.length : Int))
  | 0, _, _, _, _, _, _, _ => by simp [lineLoop, lineLoop32]
  | fuel + 1, axes, ret, p, h1, hn, hax, hret => by
    obtain ⟨e, hax'⟩ := hv (tmin junk axes) ret.length axes (by exact_mod_cast h1) hn hax
    rw [lineLoop, lineLoop32]
    dsimp only
    rw [e]
    by_cases hg : (∀ x ∈ (rows (tmin junk axes) axes).2, ∀ c ∈ x, In32 c) ∧
        In32 ((ret.length : Int) + (rows (tmin junk axes) axes).2.length)
    · rw [if_pos hg]
      have hret' : ∀ x ∈ ret ++ (rows (tmin junk axes) axes).2, ∀ c ∈ x, In32 c := by
        intro x hx
        rcases List.mem_append.1 hx with hx | hx
        · exact hret x hx
        · exact hg.1 x hx
      have el : (ret.length : Int) + (rows (tmin junk axes) axes).2.length =
          ((ret ++ (rows (tmin junk axes) axes).2).length : Int) := by
        rw [List.length_append]
        push_cast
        rfl
      show (if _ then ok (ret ++ (rows (tmin junk axes) axes).2) else lineLoop32 rows32 junk fuel
          ((ret.length : Int) + (rows (tmin junk axes) axes).2.length) _ _) = ok p ↔ _
      split
      · constructor
        · intro h
          have h := Outcome.ok.inj h
          subst h
          exact ⟨rfl, hret', by rw [← el]; exact hg.2⟩
        · intro h
          exact h.1
      · rw [el]
        refine lineLoop32_ok hv junk fuel _ _ p ?_ ?_ ?_ hret'
        · rw [List.length_append]
          omega
        · rw [← el]
          exact hg.2
        · intro a ha
          obtain ⟨b, hb, rfl⟩ := List.mem_map.1 ha
          exact hax' hg.1 b hb
    · rw [if_neg hg]
      constructor
      · intro h
        cases h
      · rintro ⟨h, hx, hlen⟩
        exfalso
        apply hg
        have : ∃ q, p = ret ++ (rows (tmin junk axes) axes).2 ++ q := by
          split at h
          · exact ⟨[], by rw [List.append_nil]; exact (Outcome.ok.inj h).symm⟩
          · exact lineLoop_prefix rows junk fuel _ _ _ h
        obtain ⟨q, rfl⟩ := this
        refine ⟨fun x h => hx x (by simp [h]), ?_⟩
        unfold In32 at hlen ⊢
        rw [List.length_append, List.length_append] at hlen
        push_cast at hlen
        omega

/-- The loop with `int`s ends or is undefined: with enough fuel it does not go on. `hrow`: a row is stored in every
iteration that is not the last. -/
theorem lineLoop32_ends {rows : K → List (Axis K) → List (Axis K) × List (List Int)}
    {rows32 : K → Int → List (Axis K) → Outcome (List (Axis K) × List (List Int) × Int)} (hv : Version rows rows32)
    (junk : K) (P : List (Axis K) → Prop)
    (hP : ∀ axes, P axes → 1 ≤ (rows (tmin junk axes) axes).2.length ∧
      P ((rows (tmin junk axes) axes).1.map fun a => a.place (tmin junk axes))) :
    ∀ (fuel : Nat) (axes : List (Axis K)) (ret : List (List Int)), P axes → 1 ≤ ret.length → In32 (ret.length : Int) →
      (∀ a ∈ axes, In32 a.c) → 2147483648 ≤ fuel + ret.length →
      (∃ p, lineLoop32 rows32 junk fuel ret.length axes ret = ok p) ∨ lineLoop32 rows32 junk fuel ret.length axes ret = ub
  | 0, axes, ret, _, _, hn, _, hf => by
    unfold In32 at hn
    omega
  | fuel + 1, axes, ret, hp, h1, hn, hax, hf => by
    obtain ⟨e, hax'⟩ := hv (tmin junk axes) ret.length axes (by exact_mod_cast h1) hn hax
    obtain ⟨hrow, hp'⟩ := hP axes hp
    rw [lineLoop32]
    dsimp only
    rw [e]
    by_cases hg : (∀ x ∈ (rows (tmin junk axes) axes).2, ∀ c ∈ x, In32 c) ∧
        In32 ((ret.length : Int) + (rows (tmin junk axes) axes).2.length)
    · rw [if_pos hg]
      have el : (ret.length : Int) + (rows (tmin junk axes) axes).2.length =
          ((ret ++ (rows (tmin junk axes) axes).2).length : Int) := by
        rw [List.length_append]
        push_cast
        rfl
      dsimp only [Outcome.bind]
      split
      · exact Or.inl ⟨_, rfl⟩
      · rw [el]
        refine lineLoop32_ends hv junk P hP fuel _ _ hp' ?_ ?_ ?_ ?_
        · rw [List.length_append]
          omega
        · rw [← el]
          exact hg.2
        · intro a ha
          obtain ⟨b, hb, rfl⟩ := List.mem_map.1 ha
          exact hax' hg.1 b hb
        · rw [List.length_append]
          omega
    · rw [if_neg hg]
      exact Or.inr rfl

theorem minimum_mem : ∀ (ts : List K) (t : K), ts.foldl (fun m t => if t < m then t else m) t ∈ t :: ts
  | [], t => by simp
  | s :: ts, t => by
    rw [List.foldl_cons]
    have := minimum_mem ts (if s < t then s else t)
    by_cases h : s < t
    · simp only [h, if_true] at this ⊢
      simp only [List.mem_cons] at this ⊢
      tauto
    · simp only [h, if_false] at this ⊢
      simp only [List.mem_cons] at this ⊢
      tauto

/-- The axis that is crossed first is selected. -/
theorem exists_selected (hK : ∀ x : K, fabs (x - x) < 1 / (1000000 : Nat)) (junk : K)
    {axes : List (Axis K)} (h : ∃ a ∈ axes, a.v ≠ 0) : ∃ a ∈ axes, a.selected (tmin junk axes) = true := by
  obtain ⟨a, ha, hv⟩ := h
  have hm : a.t ∈ (axes.filter fun a => a.v ≠ 0).map Axis.t :=
    List.mem_map.2 ⟨a, List.mem_filter.2 ⟨ha, by simpa using hv⟩, rfl⟩
  have key : ∃ b ∈ axes, b.v ≠ 0 ∧ b.t = tmin junk axes := by
    have : tmin junk axes ∈ (axes.filter fun a => a.v ≠ 0).map Axis.t := by
      unfold tmin
      generalize (axes.filter fun a => a.v ≠ 0).map Axis.t = l at hm ⊢
      match l with
      | [] => simp at hm
      | t :: ts => exact minimum_mem ts t
    obtain ⟨b, hb, eb⟩ := List.mem_map.1 this
    obtain ⟨hb1, hb2⟩ := List.mem_filter.1 hb
    exact ⟨b, hb1, by simpa using hb2, eb⟩
  obtain ⟨b, hb, hbv, eb⟩ := key
  refine ⟨b, hb, ?_⟩
  unfold Axis.selected
  rw [← eb]
  simp only [hK, decide_true, Bool.and_true, decide_eq_true_eq]
  exact hbv

theorem fullRows_stored (tm : K) : ∀ (todo done : List (Axis K)),
    ((∃ a ∈ todo, a.selected tm = true) → 1 ≤ (fullRows tm done todo).2.length) ∧
    (fullRows tm done todo).1.map Axis.v = (done ++ todo).map Axis.v
  | [], done => by simp [fullRows]
  | a :: todo, done => by
    by_cases hs : a.selected tm = true
    · obtain ⟨-, h2⟩ := fullRows_stored tm todo (done ++ [a.advance])
      constructor
      · intro _
        simp [fullRows, hs]
      · simp only [fullRows, hs, if_true]
        rw [h2]
        simp only [List.map_append, List.map_cons, List.map_nil, List.append_assoc, List.cons_append, List.nil_append]
        rfl
    · obtain ⟨h1, h2⟩ := fullRows_stored tm todo (done ++ [a])
      have e : fullRows tm done (a :: todo) = fullRows tm (done ++ [a]) todo := by
        simp [fullRows, hs]
      rw [e, h2]
      refine ⟨?_, by simp⟩
      rintro ⟨b, hb, hbs⟩
      rcases List.mem_cons.1 hb with rfl | hb
      · exact absurd hbs hs
      · exact h1 ⟨b, hb, hbs⟩

/-- In every iteration a row is stored, if there is an axis along which the line moves. -/
theorem stores (hK : ∀ x : K, fabs (x - x) < 1 / (1000000 : Nat)) (junk : K)
    {rows : K → List (Axis K) → List (Axis K) × List (List Int)}
    (hr : rows = actualRows ∨ rows = fun tm => fullRows tm []) {axes : List (Axis K)} (h : ∃ a ∈ axes, a.v ≠ 0) :
    1 ≤ (rows (tmin junk axes) axes).2.length ∧
      ∃ a ∈ (rows (tmin junk axes) axes).1.map fun a => a.place (tmin junk axes), a.v ≠ 0 := by
  have key : ∀ l : List (Axis K), l.map Axis.v = axes.map Axis.v →
      ∃ a ∈ l.map fun a => a.place (tmin junk axes), a.v ≠ 0 := by
    intro l hl
    obtain ⟨a, ha, hv⟩ := h
    have : a.v ∈ l.map Axis.v := by
      rw [hl]
      exact List.mem_map.2 ⟨a, ha, rfl⟩
    obtain ⟨b, hb, e⟩ := List.mem_map.1 this
    exact ⟨b.place (tmin junk axes), List.mem_map.2 ⟨b, hb, rfl⟩, by rw [← e] at hv; exact hv⟩
  rcases hr with rfl | rfl
  · refine ⟨le_refl 1, key _ ?_⟩
    show ((axes.map fun a => if a.selected (tmin junk axes) then a.advance else a).map Axis.v) = _
    rw [List.map_map]
    apply List.map_congr_left
    intro a _
    show (if a.selected (tmin junk axes) then a.advance else a).v = a.v
    split <;> rfl
  · obtain ⟨h1, h2⟩ := fullRows_stored (tmin junk axes) axes []
    exact ⟨h1 (exists_selected hK junk h), key _ (by simpa using h2)⟩

theorem slopes32_eq : ∀ (xa xb : List Int), slopes32 xa xb =
    if ∀ q ∈ xa.zip xb, In32 (q.2 - q.1) then ok () else ub
  | [], _ => by simp [slopes32]
  | _ :: _, [] => by simp [slopes32]
  | a :: xa, b :: xb => by
    rw [slopes32, List.zip_cons_cons]
    by_cases h : In32 (b - a)
    · rw [i32_in h]
      show slopes32 xa xb = _
      rw [slopes32_eq xa xb]
      refine if_congr ?_ rfl rfl
      rw [List.forall_mem_cons]
      exact ⟨fun g => ⟨h, g⟩, fun g => g.2⟩
    · rw [i32_out h, if_neg fun hc => h (hc (a, b) List.mem_cons_self)]
      rfl

end Verif.Path
