import Verif.Lemmas.NdArray

/-! # `atleast_3d`: from rank 0-2 to rank 3 -/

namespace Verif

open Outcome Spec Cluster Nd

/-- Coordinates after `atleast_3d`. -/
def raise : List Int → List Int
  | [] => [0, 0, 0]
  | [i] => [0, i, 0]
  | [i, j] => [i, j, 0]
  | x => x

theorem length_cases {α : Type} {s : List α} (h : s.length ≤ 3) :
    s = [] ∨ (∃ a, s = [a]) ∨ (∃ a b, s = [a, b]) ∨ ∃ a b c, s = [a, b, c] := by
  match s, h with
  | [], _ => exact Or.inl rfl
  | [a], _ => exact Or.inr (Or.inl ⟨a, rfl⟩)
  | [a, b], _ => exact Or.inr (Or.inr (Or.inl ⟨a, b, rfl⟩))
  | [a, b, c], _ => exact Or.inr (Or.inr (Or.inr ⟨a, b, c, rfl⟩))
  | _ :: _ :: _ :: _ :: _, h => simp only [List.length_cons] at h; omega

/-- Lists of equal length, at most three. -/
inductive Same3 {α β : Type} : List α → List β → Prop
  | zero : Same3 [] []
  | one (a b) : Same3 [a] [b]
  | two (a a' b b') : Same3 [a, a'] [b, b']
  | three (a a' a'' b b' b'') : Same3 [a, a', a''] [b, b', b'']

theorem same3 {α β : Type} {s : List α} {t : List β} (h : s.length ≤ 3) (e : t.length = s.length) :
    Same3 s t := by
  rcases length_cases h with rfl | ⟨a, rfl⟩ | ⟨a, b, rfl⟩ | ⟨a, b, c, rfl⟩
  · obtain rfl := List.length_eq_zero_iff.1 e
    exact .zero
  · obtain ⟨x, rfl⟩ := List.length_eq_one_iff.1 e
    exact .one _ _
  · obtain ⟨x, y, rfl⟩ := List.length_eq_two.1 e
    exact .two _ _ _ _
  · obtain ⟨x, y, z, rfl⟩ := List.length_eq_three.1 e
    exact .three _ _ _ _ _ _

theorem shape3_cases {s : List Nat} (h : s.length ≤ 3) : ∃ a b c, shape3 s = [a, b, c] := by
  rcases length_cases h with rfl | ⟨a, rfl⟩ | ⟨a, b, rfl⟩ | ⟨a, b, c, rfl⟩ <;> exact ⟨_, _, _, rfl⟩

theorem shape3_pos {s : List Nat} (h : s.length ≤ 3) (h0 : 0 ∉ s) : ∀ n ∈ shape3 s, 0 < n := by
  rcases length_cases h with rfl | ⟨a, rfl⟩ | ⟨a, b, rfl⟩ | ⟨a, b, c, rfl⟩ <;>
    simp [shape3] at h0 ⊢ <;> omega

theorem shape3_prod {s : List Nat} (h : s.length ≤ 3) : (shape3 s).prod = s.prod := by
  rcases length_cases h with rfl | ⟨a, rfl⟩ | ⟨a, b, rfl⟩ | ⟨a, b, c, rfl⟩ <;> simp [shape3]

theorem flat_raise {s : List Nat} {x : List Int} (h : s.length ≤ 3) (e : x.length = s.length) :
    flat (shape3 s) (raise x) = flat s x := by
  cases same3 h e <;> simp [shape3, raise, flat]

theorem inbox_raise {s : List Nat} {x : List Int} (h : s.length ≤ 3) (e : x.length = s.length) :
    InBox (shape3 s) (raise x) ↔ InBox s x := by
  cases same3 h e <;> simp [shape3, raise, InBox]

theorem pixels_raise {s : List Nat} (h : s.length ≤ 3) : pixels (shape3 s) = (pixels s).map raise := by
  have h1 : ∀ (l : List Nat) (f : Nat → List Int), (l.flatMap fun i => [f i]) = l.map f := by
    intro l f
    induction l with
    | nil => rfl
    | cons a l ih => rw [List.flatMap_cons, ih]; rfl
  rcases length_cases h with rfl | ⟨a, rfl⟩ | ⟨a, b, rfl⟩ | ⟨a, b, c, rfl⟩
  · rfl
  · simp [shape3, pixels, h1, raise]
  · simp [shape3, pixels, h1, List.map_flatMap]
    rfl
  · have : ∀ x ∈ pixels [a, b, c], raise x = x := by
      intro x hx
      have := (mem_pixels.1 hx).length_eq
      obtain ⟨i, j, k, rfl⟩ := List.length_eq_three.1 this.symm
      rfl
    rw [List.map_congr_left this, List.map_id']
    rfl

theorem move_raise {x d : List Int} (h : x.length ≤ 3) (e : d.length = x.length) :
    move (raise x) (raise d) = raise (move x d) := by
  cases same3 h e <;> simp [move, raise]

theorem wrap_raise {s : List Nat} {x : List Int} (h : s.length ≤ 3) (e : x.length = s.length) :
    wrap (shape3 s) (raise x) = raise (wrap s x) := by
  cases same3 h e <;> simp [wrap, raise, shape3]

theorem displacement_raise {s : List Nat} {x : List Int} (h : s.length ≤ 3) (e : x.length = s.length) :
    displacement (shape3 s) (raise x) = raise (displacement s x) := by
  cases same3 h e <;> simp [displacement, raise, shape3]

variable {α : Type}

theorem val_atleast3d {a : Nd α} {x : List Int} (h : a.shape.length ≤ 3) (e : x.length = a.shape.length) :
    val a.atleast3d (raise x) = val a x := by
  simp only [val, Nd.atleast3d, flat_raise h e]

theorem wrap_length {s : List Nat} {x : List Int} (e : x.length = s.length) : (wrap s x).length = s.length := by
  simp [wrap, e]

theorem move_length {x d : List Int} (e : d.length = x.length) : (move x d).length = x.length := by
  simp [move, e]

theorem displacement_length {s : List Nat} {x : List Int} (e : x.length = s.length) :
    (displacement s x).length = s.length := by
  simp [displacement, e]

theorem wrap_inbox : ∀ {s : List Nat} {x : List Int}, x.length = s.length → 0 ∉ s →
    InBox s (wrap s x)
  | [], [], _, _ => .nil
  | n :: s, i :: x, e, h => by
    have hn : n ≠ 0 := fun h' => h (by simp [h'])
    refine .cons ⟨Int.emod_nonneg _ (by omega), Int.emod_lt_of_pos _ (by omega)⟩ ?_
    exact wrap_inbox (by simpa using e) fun h' => h (List.mem_cons_of_mem _ h')

theorem inbox_pos : ∀ {s : List Nat} {x : List Int}, InBox s x → 0 ∉ s
  | [], _, _ => by simp
  | n :: s, _, h => by
    cases h with
    | cons h1 h2 =>
      rw [List.mem_cons, not_or]
      exact ⟨by omega, inbox_pos h2⟩

/-- The value of the extended image: at the pixel modulo the shape if periodic, otherwise at the pixel
itself if it is in the image. -/
theorem extend_atleast3d {a : Nd α} {mode : PadMode} {v : α} {x : List Int} (h : a.shape.length ≤ 3)
    (e : x.length = a.shape.length) (h0 : 0 ∉ a.shape) :
    a.atleast3d.extend mode v (raise x) =
      match mode with
      | .constant => if x ∈ pixels a.shape then val a x else v
      | .periodic => val a (wrap a.shape x) := by
  cases mode with
  | constant =>
    simp only [Nd.extend]
    by_cases hx : InBox a.shape x
    · have hx' : InBox a.atleast3d.shape (raise x) := (inbox_raise h e).2 hx
      rw [if_pos (inside_iff.2 hx'), if_pos (mem_pixels.2 hx), at_eq_val hx', val_atleast3d h e]
    · have hx' : ¬ InBox a.atleast3d.shape (raise x) := fun h' => hx ((inbox_raise h e).1 h')
      rw [if_neg (fun h' => hx' (inside_iff.1 h')), if_neg (fun h' => hx (mem_pixels.1 h'))]
  | periodic =>
    simp only [Nd.extend]
    have e1 : List.zipWith (fun (n : Nat) (i : Int) => i % n) a.atleast3d.shape (raise x) =
        raise (wrap a.shape x) := wrap_raise h e
    have hw := wrap_inbox e h0
    rw [e1, at_eq_val ((inbox_raise h (wrap_length e)).2 hw), val_atleast3d h (wrap_length e)]

end Verif
