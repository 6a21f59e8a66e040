import Verif.Model.Python
import Mathlib.Tactic.Linarith

/-! # Lemmas about the overloads of the Python module -/

namespace Verif.Python

open Verif Outcome

/-- All values are whole numbers in the range of a 32-bit `int`. -/
def Arr.Whole (a : Arr) : Prop := ∀ x ∈ a.values, ∃ n : Int, x = n ∧ -2147483648 ≤ n ∧ n < 2147483648

theorem trunc_int (n : Int) : trunc (n : ℚ) = n := by
  unfold trunc
  split
  · rw [← Int.cast_neg, Int.floor_intCast, neg_neg]
  · exact Int.floor_intCast n

theorem load_double (a : Arr) : Elem.double.load a = a.nd := by
  have h : a.values.map Elem.double.cast = a.values := List.map_id _
  unfold Elem.load
  rw [h]

theorem load_int {a : Arr} (ha : a.Whole) : Elem.int.load a = a.nd := by
  have h : a.values.map Elem.int.cast = a.values := by
    conv_rhs => rw [← List.map_id a.values]
    refine List.map_congr_left fun x hx => ?_
    obtain ⟨n, rfl, h1, h2⟩ := ha x hx
    show (((trunc (n : ℚ) + 2147483648) % 4294967296 - 2147483648 : Int) : ℚ) = _
    rw [trunc_int, show (n + 2147483648) % 4294967296 - 2147483648 = n by omega]
    rfl
  unfold Elem.load
  rw [h]

theorem load_whole {a : Arr} (ha : a.Whole) (e : Elem) : e.load a = a.nd := by
  cases e
  · exact load_int ha
  · exact load_double a

/-- If one function is registered for all signatures that the call can select, it is called. -/
theorem dispatch_call {β : Type} {os : List (Overload β)} {args : List Arr} {r : Outcome β}
    (hex : ∃ o ∈ os, o.elems.length = args.length)
    (h : ∀ o ∈ os, o.elems.length = args.length → o.call (List.zipWith Elem.load o.elems args) = r) :
    dispatch os args = r := by
  unfold dispatch
  have key : ∀ (b : Bool) (o : Overload β), (os.find? fun o => o.accepts b args) = some o →
      o.call (List.zipWith Elem.load o.elems args) = r := by
    intro b o ho
    have h1 := List.mem_of_find?_eq_some ho
    have h2 := List.find?_some ho
    unfold Overload.accepts at h2
    simp only [Bool.and_eq_true, decide_eq_true_eq] at h2
    exact h o h1 h2.1
  split
  · next o ho => exact key false o ho
  · split
    · next o ho => exact key true o ho
    · next hn =>
      exfalso
      obtain ⟨o, ho, hl⟩ := hex
      have := List.find?_eq_none.1 hn o ho
      apply this
      unfold Overload.accepts
      simp only [Bool.true_or, Bool.and_eq_true, decide_eq_true_eq]
      refine ⟨hl, ?_⟩
      rw [List.all_eq_true]
      intro x hx
      rw [← List.map_uncurry_zip_eq_zipWith, List.mem_map] at hx
      obtain ⟨_, _, rfl⟩ := hx
      rfl

end Verif.Python
