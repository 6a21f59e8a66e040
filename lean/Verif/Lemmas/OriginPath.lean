import Verif.Props.Path

/-! # Paths from the origin, in three dimensions, for all modes -/

namespace Verif.Path

open Verif Outcome Spec

theorem length3 {x : List Int} (h : x.length = 3) : ∃ a b c, x = [a, b, c] := List.length_eq_three.1 h

theorem manhattan3 (a b c a' b' c' : Int) :
    manhattan [a, b, c] [a', b', c'] = (a' - a).natAbs + (b' - b).natAbs + (c' - c).natAbs := by
  simp [manhattan]; omega

theorem manhattan_self3 {s : List Int} (hs : s.length = 3) : manhattan [0, 0, 0] s = 0 ↔ s = [0, 0, 0] := by
  obtain ⟨a, b, c, rfl⟩ := length3 hs
  rw [manhattan3]
  simp only [List.cons.injEq, and_true]
  omega

theorem step_decreases {b x y : List Int} (hb : b.length = 3) (hx : x.length = 3)
    (h : StepTowards b x y) : manhattan y b < manhattan x b := by
  obtain ⟨h1, h2, h3⟩ := h
  obtain ⟨b0, b1, b2, rfl⟩ := length3 hb
  obtain ⟨x0, x1, x2, rfl⟩ := length3 hx
  obtain ⟨y0, y1, y2, rfl⟩ := length3 (h2.trans hx)
  rw [manhattan3, manhattan3]
  have e0 := h3 0 (by simp)
  have e1 := h3 1 (by simp)
  have e2 := h3 2 (by simp)
  simp only [TowardsOrStay, List.getD_cons_zero, List.getD_cons_succ] at e0 e1 e2
  simp only [ne_eq, List.cons.injEq, and_true] at h1
  omega

theorem unit_step {b x y : List Int} (hb : b.length = x.length) (h : UnitStep b x y) : StepTowards b x y := by
  obtain ⟨i, hi, h⟩ := h
  rw [hb] at hi
  have key : ∀ v : Int, (x.set i v).length = x.length ∧ ∀ k < x.length, (x.set i v).getD k 0 =
      if i = k then v else x.getD k 0 := by
    intro v
    refine ⟨by simp, fun k hk => ?_⟩
    simp only [List.getD_eq_getElem?_getD, List.getElem?_set]
    split <;> simp_all
  rcases h with ⟨h1, rfl⟩ | ⟨h1, rfl⟩
  · refine ⟨fun e => ?_, (key _).1, fun k hk => ?_⟩
    · have := (key (x.getD i 0 + 1)).2 i hi
      rw [e, if_pos rfl] at this
      omega
    · rw [(key _).2 k (by omega)]
      split
      · rename_i hik; subst hik; exact Or.inr (Or.inl ⟨h1, rfl⟩)
      · exact Or.inl rfl
  · refine ⟨fun e => ?_, (key _).1, fun k hk => ?_⟩
    · have := (key (x.getD i 0 - 1)).2 i hi
      rw [e, if_pos rfl] at this
      omega
    · rw [(key _).2 k (by omega)]
      split
      · rename_i hik; subst hik; exact Or.inr (Or.inr ⟨h1, rfl⟩)
      · exact Or.inl rfl

theorem nodup_of_steps {b : List Int} (hb : b.length = 3) {l : List (List Int)}
    (hl : ∀ x ∈ l, x.length = 3) (h : l.IsChain (StepTowards b)) : l.Nodup := by
  have h1 : l.IsChain fun x y => manhattan y b < manhattan x b := by
    induction l with
    | nil => exact .nil
    | cons x l ih =>
      cases h with
      | singleton => exact .singleton _
      | cons_cons h1 h2 =>
        exact .cons_cons (step_decreases hb (hl x (by simp)) h1)
          (ih (fun y hy => hl y (List.mem_cons_of_mem _ hy)) h2)
  have : IsTrans (List Int) fun x y => manhattan y b < manhattan x b := ⟨fun _ _ _ h h' => lt_trans h' h⟩
  have h2 := List.isChain_iff_pairwise.1 h1
  refine h2.imp ?_
  rintro x y h rfl
  exact lt_irrefl _ h

theorem length_of_steps {b : List Int} (hb : b.length = 3) : ∀ {x : List Int} {l : List (List Int)},
    (∀ y ∈ x :: l, y.length = 3) → (x :: l).IsChain (StepTowards b) → l.length ≤ manhattan x b
  | x, [], _, _ => by simp
  | x, y :: l, hl, h => by
    cases h with
    | cons_cons h1 h2 =>
      have a := step_decreases hb (hl x (by simp)) h1
      have b := length_of_steps hb (fun z hz => hl z (List.mem_cons_of_mem _ hz)) h2
      rw [List.length_cons]
      omega

/-- The path from the origin to any point, in three dimensions: it starts at the origin, stays in the
spanned box, and visits no pixel twice (unless it is the path of a single pixel). -/
theorem origin_path (junk : ℚ) {fuel : Nat} {s : List Int} (hs : s.length = 3) {mode : Mode}
    (hb : mode ≠ .bresenham → (∀ a ∈ s, a.natAbs ≤ 1000000) ∧ manhattan [0, 0, 0] s < fuel) :
    ∃ rest, path junk fuel [0, 0, 0] s mode = ok ([0, 0, 0] :: rest) ∧
      (∀ x ∈ [0, 0, 0] :: rest, InSpan [0, 0, 0] s x) ∧
      (s ≠ [0, 0, 0] → ([0, 0, 0] :: rest).Nodup) ∧ (s = [0, 0, 0] → ∀ x ∈ rest, x = [0, 0, 0]) ∧
      rest.length ≤ max 1 (manhattan [0, 0, 0] s) := by
  have span0 : InSpan [0, 0, 0] s [0, 0, 0] :=
    ⟨rfl, fun i _ => ⟨min_le_left _ _, le_max_left _ _⟩⟩
  have h0 : ∀ l : List (List Int), (∀ x ∈ l, InSpan [0, 0, 0] s x) → ∀ x ∈ l, x.length = 3 :=
    fun l h x hx => (h x hx).1
  by_cases e : s = [0, 0, 0]
  · subst e
    cases mode with
    | bresenham =>
      refine ⟨[], (Props.C29_single_partial junk fuel (by simp)).1 rfl, ?_, by simp, by simp, by simp⟩
      simpa using span0
    | actual =>
      obtain ⟨n, rfl⟩ : ∃ n, fuel = n + 1 := ⟨fuel - 1, by have := (hb (by simp)).2; omega⟩
      refine ⟨[[0, 0, 0]], (Props.C29_violated junk n (by simp)).2 (by simp), ?_, by simp, by simp, by simp⟩
      simpa using span0
    | full =>
      obtain ⟨n, rfl⟩ : ∃ n, fuel = n + 1 := ⟨fuel - 1, by have := (hb (by simp)).2; omega⟩
      refine ⟨[], (Props.C29_single_partial junk n (by simp)).2, ?_, by simp, by simp, by simp⟩
      simpa using span0
  · have hne : manhattan [0, 0, 0] s ≠ 0 := fun h => e ((manhattan_self3 hs).1 h)
    have hsp : ∀ {out : List (List Int)} , (∀ x ∈ out, InSpan [0, 0, 0] s x) →
        ∀ x ∈ [0, 0, 0] :: out, InSpan [0, 0, 0] s x := by
      intro out h x hx
      rcases List.mem_cons.1 hx with rfl | hx
      · exact span0
      · exact h x hx
    have ho : List.replicate s.length (0 : Int) = [0, 0, 0] := by rw [hs]; rfl
    cases mode with
    | bresenham =>
      obtain ⟨ret, h1, -, h2, -, h4, h5⟩ := Props.C26_bresenham junk fuel (x0 := [0, 0, 0]) (x1 := s)
        (by simp) (by simp [hs]) (Ne.symm e)
      obtain ⟨rest, rfl⟩ : ∃ rest, ret = [0, 0, 0] :: rest := by
        cases ret with
        | nil => simp at h2
        | cons a r => simp at h2; exact ⟨r, by rw [h2]⟩
      exact ⟨rest, h1, h4, fun _ => nodup_of_steps hs (h0 _ h4) (h5.imp fun _ _ h => h.1), fun h => absurd h e,
        (length_of_steps hs (h0 _ h4) (h5.imp fun _ _ h => h.1)).trans (le_max_right _ _)⟩
    | actual =>
      obtain ⟨hb1, hb2⟩ := hb (by simp)
      obtain ⟨out, h1, -, h2, h4, -⟩ := line_ok (L := fun a b => a ≤ b) (fuel := fuel)
        (le_refl 1000000) (by omega) hb1 (fun a b c d h h' => by omega) (actual_rows (le_refl _)) junk
        (by rw [ho]; exact hne) (by rw [ho]; exact hb2.le)
      rw [ho] at h1 h2 h4
      have h5 := hsp fun x hx => (h4 x hx).1
      exact ⟨out, h1, h5, fun _ => nodup_of_steps hs (h0 _ h5) h2, fun h => absurd h e,
        (length_of_steps hs (h0 _ h5) h2).trans (le_max_right _ _)⟩
    | full =>
      obtain ⟨hb1, hb2⟩ := hb (by simp)
      obtain ⟨out, h1, -, h2, h4, -⟩ := line_ok (rows := fun tm => fullRows tm []) (L := fun a b => a = b) (fuel := fuel)
        (le_refl 1000000) (by omega) hb1 (fun a b c d h h' => by omega) (full_rows (le_refl _)) junk
        (by rw [ho]; exact hne) (by rw [ho]; exact hb2.le)
      rw [ho] at h1 h2 h4
      have h5 := hsp fun x hx => (h4 x hx).1
      have h6 : ([0, 0, 0] :: out).IsChain (StepTowards s) := by
        revert h2
        generalize [0, 0, 0] :: out = l at h5
        intro h2
        induction l with
        | nil => exact .nil
        | cons x l ih =>
          cases h2 with
          | singleton => exact .singleton _
          | cons_cons a b =>
            exact .cons_cons (unit_step (by rw [hs]; exact (h0 _ h5 x (by simp)).symm) a)
              (ih (fun y hy => h5 y (List.mem_cons_of_mem _ hy)) b)
      exact ⟨out, h1, h5, fun _ => nodup_of_steps hs (h0 _ h5) h6, fun h => absurd h e,
        (length_of_steps hs (h0 _ h5) h6).trans (le_max_right _ _)⟩

end Verif.Path
