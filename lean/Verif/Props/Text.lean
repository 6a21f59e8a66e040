import Verif.Model.Text
import Verif.Props.ClusterAnyCalls

/-!
# Properties of the strings: C120 (`version`) and C121 (`repr`)
-/

namespace Verif.Props

open Verif Outcome Cluster Text Spec

/-! ### C120: `version()` -/

theorem removeLoop_eq (c : Char) : ∀ done s, removeLoop c done s = done ++ s.filter fun d => d ≠ c
  | done, [] => by simp [removeLoop]
  | done, d :: s => by
    unfold removeLoop
    split
    · rename_i h; rw [removeLoop_eq]; simp [h]
    · rename_i h; rw [removeLoop_eq]; simp [h]

theorem escape_plain : ∀ {s : List Char}, '"' ∉ s → '\\' ∉ s → escape s = s
  | [], _, _ => rfl
  | c :: s, h1, h2 => by
    simp only [List.mem_cons, not_or] at h1 h2
    rw [escape, if_neg (by rintro (h | h) <;> simp_all), escape_plain h1.2 h2.2]

/-- `version()` is the text of the definition, quoted or not; what is returned has no quotes, whatever the definition. -/
theorem C120_version (m : Macro) :
    ('"' ∉ m.text → '\\' ∉ m.text → version m = m.text) ∧ '"' ∉ version m := by
  refine ⟨fun h1 h2 => ?_, ?_⟩
  · have hf : (m.text.filter fun d => d ≠ '"') = m.text := by
      rw [List.filter_eq_self]
      intro a ha
      simp only [decide_eq_true_eq]
      rintro rfl
      exact h1 ha
    rw [version, unquote, quote, removeLoop_eq]
    cases m.quoted with
    | true =>
      rw [if_pos rfl, escape_plain h1 h2, List.cons_append, List.filter_cons_of_neg (by simp), List.filter_append, hf]
      simp
    | false => rw [if_neg (by simp), hf]; rfl
  · rw [version, unquote, removeLoop_eq]
    simp

/-- Both ways to define the version. -/
example : '"' ∉ "0.8.0.dev3+g12ab".toList ∧ '\\' ∉ "0.8.0.dev3+g12ab".toList ∧
    quote ⟨true, "0.8.0".toList⟩ = "\"0.8.0\"".toList ∧ version ⟨true, "0.8.0".toList⟩ = "0.8.0".toList ∧
    version ⟨false, "0.8.0".toList⟩ = "0.8.0".toList := by decide

/-! ### C121: `repr()` -/

theorem toString_inj {n m : Nat} (h : Text.toString n = Text.toString m) : n = m := by
  have e : ∀ n, Nat.ofDigitChars 10 (Text.toString n) 0 = n := fun n => Nat.ofDigitChars_toDigits (by decide) (by decide)
  rw [← e n, h, e]

theorem toString_digit {n : Nat} {c : Char} (h : c ∈ Text.toString n) : c.isDigit = true :=
  Nat.isDigit_of_mem_toDigits (by decide) (by decide) h

/-- Two texts of digits that are followed by something that is not a digit. -/
theorem digits_split : ∀ {a b u v : List Char}, (∀ c ∈ a, c.isDigit = true) → (∀ c ∈ b, c.isDigit = true) →
    (∀ c ∈ u.head?, c.isDigit = false) → (∀ c ∈ v.head?, c.isDigit = false) → a ++ u = b ++ v → a = b ∧ u = v
  | [], [], _, _, _, _, _, _, h => ⟨rfl, h⟩
  | [], b :: bs, u, v, _, hb, hu, _, h => by
    simp only [List.nil_append, List.cons_append] at h
    subst h
    have h1 := hu b (by simp)
    rw [hb b (by simp)] at h1
    cases h1
  | a :: as, [], u, v, ha, _, _, hv, h => by
    simp only [List.nil_append, List.cons_append] at h
    subst h
    have h1 := hv a (by simp)
    rw [ha a (by simp)] at h1
    cases h1
  | a :: as, b :: bs, u, v, ha, hb, hu, hv, h => by
    simp only [List.cons_append, List.cons.injEq] at h
    obtain ⟨h1, h2⟩ := digits_split (fun c hc => ha c (by simp [hc])) (fun c hc => hb c (by simp [hc])) hu hv h.2
    exact ⟨by rw [h.1, h1], h2⟩

/-- What `shape_to_string` prints between the brackets. -/
def commas : List Nat → List Char
  | [] => []
  | [n] => Text.toString n
  | n :: m :: s => Text.toString n ++ ", ".toList ++ commas (m :: s)

theorem shapeLoop_eq : ∀ ret shape, shapeLoop ret shape = ret ++ commas shape
  | ret, [] => by simp [shapeLoop, commas]
  | ret, [n] => rfl
  | ret, n :: m :: s => by
    rw [shapeLoop, shapeLoop_eq, commas]
    simp

theorem commas_eq : ∀ shape, commas shape = ", ".toList.intercalate (shape.map fun n => Nat.toDigits 10 n)
  | [] => rfl
  | [n] => by simp [commas, Text.toString, List.intercalate]
  | n :: m :: s => by
    rw [commas, commas_eq]
    simp [Text.toString, List.intercalate]

theorem commas_inj : ∀ {a b : List Nat}, a.length = b.length → commas a ++ "]".toList = commas b ++ "]".toList → a = b
  | [], [], _, _ => rfl
  | [n], [m], _, h => by
    have e := (digits_split (fun _ => toString_digit) (fun _ => toString_digit) (by simp) (by simp) h).1
    rw [toString_inj e]
  | n :: n' :: s, m :: m' :: t, hl, h => by
    simp only [commas, List.append_assoc] at h
    obtain ⟨h1, h2⟩ := digits_split (fun _ => toString_digit) (fun _ => toString_digit) (by simp) (by simp) h
    rw [toString_inj h1, commas_inj (a := n' :: s) (b := m' :: t) (by simpa using hl) (by simpa using h2)]

/-- The text is the name of the class with its rank, and the shape between brackets. After any calls it is the same as
at the start, and labellers with the same text have the same rank and the same shape. Missing: that they are equal in
being periodic (`C121_violated`). -/
theorem C121_partial (dbg python periodic periodic' : Bool) {shape shape' : List Nat} {offsets offsets' : List (List Int)}
    (hv : AnyConfig shape offsets) (hv' : AnyConfig shape' offsets') {calls calls' : List Call}
    (hc : ∀ c ∈ calls, c.Valid shape.prod) (hc' : ∀ c ∈ calls', c.Valid shape'.prod) {s s' : State}
    {rets rets' : List (List Nat)} (h : run dbg (init periodic shape offsets) calls = ok (s, rets))
    (h' : run dbg (init periodic' shape' offsets') calls' = ok (s', rets')) :
    Text.repr python s = (if python then "GooseEYE.ClusterLabeller" else "GooseEYE::ClusterLabeller").toList ++
      Nat.toDigits 10 shape.length ++ " [".toList ++ ", ".toList.intercalate (shape.map fun n => Nat.toDigits 10 n) ++
      "]".toList ∧
    (Text.repr python s = Text.repr python s' ↔ shape = shape') := by
  obtain ⟨n, g⟩ := runAny_good hv hc h
  obtain ⟨n', g'⟩ := runAny_good hv' hc' h'
  refine ⟨?_, ?_⟩
  · rw [Text.repr, g.sh, ← commas_eq, shapeToString, shapeLoop_eq]
    cases python <;> simp [getNamespace, Text.toString]
  · rw [Text.repr, Text.repr, g.sh, g'.sh]
    refine ⟨fun e => ?_, fun e => by rw [e]⟩
    simp only [List.append_assoc, List.append_cancel_left_eq] at e
    obtain ⟨e1, e2⟩ := digits_split (fun _ => toString_digit) (fun _ => toString_digit) (by simp) (by simp) e
    refine commas_inj (toString_inj e1) ?_
    rw [shapeToString, shapeToString, shapeLoop_eq, shapeLoop_eq] at e2
    simpa using e2

/-- A line of twelve pixels, and an image. -/
example : AnyConfig [12] [[-1], [1]] ∧ AnyConfig [1, 2] [[0, 1]] ∧
    (∀ c ∈ [Call.addPoints [0, 2], .prune], c.Valid [12].prod) ∧
    ", ".toList.intercalate ([1, 2].map fun n => Nat.toDigits 10 n) = "1, 2".toList ∧
    ((run true (init true [12] [[-1], [1]]) [.addPoints [0, 2], .prune]).map fun r => Text.repr true r.1) =
      ok "GooseEYE.ClusterLabeller1 [12]".toList := by
  refine ⟨⟨by decide, by decide, by decide, by decide⟩, ⟨by decide, by decide, by decide, by decide⟩, ?_, by decide,
    by decide +kernel⟩
  intro c hc
  simp only [List.mem_cons, List.not_mem_nil, or_false] at hc
  rcases hc with rfl | rfl
  · simp [Call.Valid]
  · trivial

/-- Labellers of images of which one is periodic and the other is not have the same text. -/
theorem C121_violated : ∃ s s' : State, construct true [2, 3] = ok s ∧ construct false [2, 3] = ok s' ∧
    s.periodic ≠ s'.periodic ∧ Text.repr true s = "GooseEYE.ClusterLabeller2 [2, 3]".toList ∧
    Text.repr true s' = "GooseEYE.ClusterLabeller2 [2, 3]".toList :=
  ⟨_, _, rfl, rfl, by decide, by decide, by decide⟩

end Verif.Props
