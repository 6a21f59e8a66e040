import Verif.Model.PythonEnsemble
import Verif.Lemmas.Python
import Verif.Props.RawData

/-!
# C86: the class `Ensemble` in Python

An ensemble in Python, after any history of calls, is that of the values that were passed, whatever the types of the
arrays (true for whole numbers and for images of type `float64`, false in general). With default arguments the variance
of heights is wrong.
-/

set_option linter.unusedTactic false

namespace Verif.Props

open Verif Outcome Spec Ens Cluster Python

/-- The measures of the class. -/
inductive Method where
  | mean
  | S2
  | C2
  | W2
  | W2c (mode : Path.Mode)
  | heightheight
  | L (mode : Path.Mode)

/-- A call of a method with arrays. -/
structure PyCall where
  method : Method
  args : List Arr

/-- The call in Python. -/
def PyCall.run (junk : ℚ) (fuel : Nat) (dbg : Bool) (E : Ensemble ℚ) (c : PyCall) : Outcome (Ensemble ℚ) :=
  match c.method with
  | .mean => Python.Ensemble.mean dbg E c.args
  | .S2 => Python.Ensemble.S2 dbg E c.args
  | .C2 => Python.Ensemble.C2 dbg E c.args
  | .W2 => Python.Ensemble.W2 dbg E c.args
  | .W2c mode => Python.Ensemble.W2c dbg junk fuel mode E c.args
  | .heightheight => Python.Ensemble.heightheight dbg E c.args
  | .L mode => Python.Ensemble.L dbg junk fuel mode E c.args

/-- What is meant: the measure of the values. None: wrong number of arguments. -/
def PyCall.meaning (c : PyCall) : Option (Realisation ℚ) :=
  match c.method, c.args with
  | .mean, [f] => some (.mean f.nd none)
  | .mean, [f, m] => some (.mean f.nd (some (ints m.nd)))
  | .S2, [f, g] => some (.S2 f.nd g.nd none)
  | .S2, [f, g, m, m'] => some (.S2 f.nd g.nd (some (ints m.nd, ints m'.nd)))
  | .C2, [f, g] => some (.C2 f.nd g.nd none)
  | .C2, [f, g, m, m'] => some (.C2 f.nd g.nd (some (ints m.nd, ints m'.nd)))
  | .W2, [w, f] => some (.W2 w.nd f.nd none)
  | .W2, [w, f, m] => some (.W2 w.nd f.nd (some (ints m.nd)))
  | .W2c mode, [cl, ce, f] => some (.W2c (ints cl.nd) (ints ce.nd) f.nd none mode)
  | .W2c mode, [cl, ce, f, m] => some (.W2c (ints cl.nd) (ints ce.nd) f.nd (some (ints m.nd)) mode)
  | .heightheight, [f] => some (.heightheight f.nd none)
  | .heightheight, [f, m] => some (.heightheight f.nd (some (ints m.nd)))
  | .L mode, [f] => some (.L f.nd mode)
  | _, _ => none

/-- A call with a number of arguments that no signature has raises, and changes nothing. -/
theorem C86_arity {c : PyCall} (h : c.meaning = none) (junk : ℚ) (fuel : Nat) (dbg : Bool) (E : Ensemble ℚ) :
    c.run junk fuel dbg E = throws := by
  have key : ∀ {β : Type} {os : List (Overload β)} {args : List Arr},
      (∀ o ∈ os, o.elems.length ≠ args.length) → dispatch os args = throws := by
    intro β os args h
    have h' : ∀ b, (os.find? fun o => o.accepts b args) = none := by
      intro b
      refine List.find?_eq_none.2 fun o ho => ?_
      simp [Overload.accepts, h o ho]
    simp [dispatch, h']
  obtain ⟨m, args⟩ := c
  rcases args with _ | ⟨a, _ | ⟨b, _ | ⟨c, _ | ⟨d, _ | ⟨e, l⟩⟩⟩⟩⟩ <;> cases m <;>
    first
    | (simp [PyCall.meaning] at h; done)
    | (unfold PyCall.run; simp only [Python.Ensemble.mean, Python.Ensemble.S2, Python.Ensemble.C2, Python.Ensemble.W2,
        Python.Ensemble.W2c, Python.Ensemble.heightheight, Python.Ensemble.L]; refine key ?_; simp; done)

/-- C86: arrays of whole numbers, of any type: the call is that of the values. -/
theorem C86_call_partial {c : PyCall} {r : Realisation ℚ} (hc : c.meaning = some r) (hw : ∀ a ∈ c.args, a.Whole)
    (junk : ℚ) (fuel : Nat) (dbg : Bool) (E : Ensemble ℚ) : c.run junk fuel dbg E = r.call junk fuel dbg E := by
  obtain ⟨m, args⟩ := c
  rcases args with _ | ⟨a, _ | ⟨b, _ | ⟨c, _ | ⟨d, _ | ⟨e, l⟩⟩⟩⟩⟩ <;> cases m <;>
    simp only [PyCall.meaning, reduceCtorEq, Option.some.injEq] at hc <;>
    · subst hc
      simp only [List.mem_cons, List.not_mem_nil, or_false, forall_eq_or_imp, forall_eq] at hw
      unfold PyCall.run
      simp only [Python.Ensemble.mean, Python.Ensemble.S2, Python.Ensemble.C2, Python.Ensemble.W2,
        Python.Ensemble.W2c, Python.Ensemble.heightheight, Python.Ensemble.L]
      refine dispatch_call (by simp) ?_
      first
      | (simp [load_whole hw]; try rfl); done
      | (simp [load_whole hw.1, load_whole hw.2]; try rfl); done
      | (simp [load_whole hw.1, load_whole hw.2.1, load_whole hw.2.2]; try rfl); done
      | (simp [load_whole hw.1, load_whole hw.2.1, load_whole hw.2.2.1, load_whole hw.2.2.2]; try rfl); done

theorem forM_meaning {junk : ℚ} {fuel : Nat} {dbg : Bool} : ∀ {calls : List PyCall} {l : List (Realisation ℚ)},
    List.Forall₂ (fun c r => PyCall.meaning c = some r ∧
      ∀ E, c.run junk fuel dbg E = Realisation.call junk fuel dbg E r) calls l → ∀ E : Ensemble ℚ,
    (forM calls E fun E c => c.run junk fuel dbg E) = forM l E fun E r => r.call junk fuel dbg E
  | [], [], _, E => rfl
  | c :: calls, r :: l, h, E => by
    cases h with
    | cons h1 h2 =>
      simp only [forM, h1.2]
      congr 1
      funext E'
      exact forM_meaning h2 E'
  | [], _ :: _, h, _ => by cases h
  | _ :: _, [], h, _ => by cases h

/-- C86: after any history of calls with arrays of whole numbers, of any type, the ensemble is that of the values
(`history`, to which C84 applies). -/
theorem C86_history_partial {calls : List PyCall} {l : List (Realisation ℚ)}
    (hc : calls.map PyCall.meaning = l.map some) (hw : ∀ c ∈ calls, ∀ a ∈ c.args, a.Whole)
    (junk : ℚ) (fuel : Nat) (dbg : Bool) (roi : List Nat) (periodic variance : Bool) :
    (do
      let E ← Python.Ensemble.init dbg roi periodic variance
      forM calls E fun E c => c.run junk fuel dbg E) = history dbg junk fuel roi periodic variance l := by
  have key : List.Forall₂ (fun c r => PyCall.meaning c = some r ∧
      ∀ E, c.run junk fuel dbg E = Realisation.call junk fuel dbg E r) calls l := by
    induction calls generalizing l with
    | nil => cases l <;> simp_all
    | cons c calls ih =>
      cases l with
      | nil => simp at hc
      | cons r l =>
        simp only [List.map_cons, List.cons.injEq] at hc
        exact .cons ⟨hc.1, fun E => C86_call_partial hc.1 (hw c (by simp)) junk fuel dbg E⟩
          (ih hc.2 fun c' h => hw c' (List.mem_cons_of_mem _ h))
  unfold history Python.Ensemble.init
  congr 1
  funext E
  exact forM_meaning key E

/-- C86: images of type `float64` of arbitrary values. -/
theorem C86_float64_partial {f g : Arr} (hf : f.dtype = .float64) (hg : g.dtype = .float64) (dbg : Bool)
    (E : Ensemble ℚ) :
    Python.Ensemble.S2 dbg E [f, g] = Ens.S2' dbg E f.nd g.nd ∧
    Python.Ensemble.W2 dbg E [f, g] = Ens.W2' dbg E f.nd g.nd := by
  rw [← load_double f, ← load_double g]
  obtain ⟨d, s, v⟩ := f
  obtain ⟨d', s', v'⟩ := g
  subst hf hg
  exact ⟨rfl, rfl⟩

/-- C86: images of any type and of arbitrary values, in the methods that have no overload for integers. -/
theorem C86_masked {f g fmask gmask : Arr} (hfm : fmask.Whole) (hgm : gmask.Whole) (dbg : Bool) (E : Ensemble ℚ) :
    Python.Ensemble.mean dbg E [f] = Ens.mean dbg E f.nd ∧
    Python.Ensemble.mean dbg E [f, fmask] = Ens.meanMask dbg E f.nd (ints fmask.nd) ∧
    Python.Ensemble.S2 dbg E [f, g, fmask, gmask] = Ens.S2 dbg E f.nd g.nd (ints fmask.nd) (ints gmask.nd) ∧
    Python.Ensemble.W2 dbg E [f, g, fmask] = Ens.W2 dbg E f.nd g.nd (ints fmask.nd) ∧
    Python.Ensemble.heightheight dbg E [f] = Ens.heightheight' dbg E f.nd ∧
    Python.Ensemble.heightheight dbg E [f, fmask] = Ens.heightheight dbg E f.nd (ints fmask.nd) := by
  refine ⟨?_, ?_, ?_, ?_, ?_, ?_⟩ <;>
  · refine dispatch_call (by simp) ?_
    simp [load_double, load_whole hfm, load_whole hgm]

/-- C86: all pairs of types other than `float64`, `float64`: the unmasked methods use the integer parts of the values. -/
theorem C86_truncated {f g : Arr} (h : ¬ (f.dtype = .float64 ∧ g.dtype = .float64)) (dbg : Bool) (E : Ensemble ℚ) :
    Python.Ensemble.S2 dbg E [f, g] = Ens.S2' dbg E (Elem.int.load f) (Elem.int.load g) ∧
    Python.Ensemble.W2 dbg E [f, g] = Ens.W2' dbg E (Elem.int.load f) (Elem.int.load g) := by
  obtain ⟨d, s, v⟩ := f
  obtain ⟨d', s', v'⟩ := g
  refine ⟨?_, ?_⟩ <;> cases d <;> cases d' <;>
    first
    | exact absurd ⟨rfl, rfl⟩ h
    | rfl

/-- Two images of two halves. -/
def halves' (d : Dtype) : Arr := ⟨d, [2], [1 / 2, 1 / 2]⟩

/-- Heights 0, 1, 3. -/
def heights : Arr := ⟨.float64, [3], [0, 1, 3]⟩

/-- C86 is false in general. The sum of products of a `float32` image of two halves is 0, that of the same values in a
`float64` image is 1/2. With default arguments the `variance` of a height-height correlation takes the root of a
negative number, -25/2 at displacement 1 (here `pow05` is the identity), whereas with the defaults of C++ it is 9/2. -/
theorem C86_violated :
    ((do
      let E ← Python.Ensemble.init true [1]
      let E ← Python.Ensemble.S2 true E [halves' .float32, halves' .float32]
      pure (dataFirst E)).map fun (r : Nd ℚ) => r.get 0) = ok 0 ∧
    ((do
      let E ← Python.Ensemble.init true [1]
      let E ← Python.Ensemble.S2 true E [halves' .float64, halves' .float64]
      pure (dataFirst E)).map fun (r : Nd ℚ) => r.get 0) = ok (1 / 2) ∧
    ((do
      let E ← Python.Ensemble.init true [3] false
      let E ← Python.Ensemble.heightheight true E [heights]
      varianceResult id E).map fun (r : Nd ℚ) => r.get 2) = ok (-25 / 2) ∧
    ((do
      let E ← Python.Ensemble.init true [3] false true
      let E ← Python.Ensemble.heightheight true E [heights]
      varianceResult id E).map fun (r : Nd ℚ) => r.get 2) = ok (9 / 2) := by
  refine ⟨?_, ?_, ?_, ?_⟩ <;> decide +kernel

/-- A history of two calls, with arrays of three types, meets the hypotheses of `C86_history_partial`. -/
example : ∃ (calls : List PyCall) (l : List (Realisation ℚ)), 1 < l.length ∧
    calls.map PyCall.meaning = l.map some ∧ ∀ c ∈ calls, ∀ a ∈ c.args, a.Whole := by
  refine ⟨[⟨.S2, [⟨.bool, [2], [0, 1]⟩, ⟨.int64, [2], [3, 1]⟩]⟩,
    ⟨.S2, [⟨.float32, [2], [2, 1]⟩, ⟨.float64, [2], [3, 1]⟩, ⟨.bool, [2], [0, 1]⟩, ⟨.bool, [2], [0, 1]⟩]⟩], [_, _], ?_, rfl, ?_⟩
  · decide
  · intro c hc a ha x hx
    refine ⟨x.num, ?_⟩
    simp only [List.mem_cons, List.not_mem_nil, or_false] at hc
    rcases hc with rfl | rfl <;> simp only [List.mem_cons, List.not_mem_nil, or_false] at ha
    · rcases ha with rfl | rfl <;> simp only [List.mem_cons, List.not_mem_nil, or_false] at hx <;>
        rcases hx with rfl | rfl <;> decide +kernel
    · rcases ha with rfl | rfl | rfl | rfl <;> simp only [List.mem_cons, List.not_mem_nil, or_false] at hx <;>
        rcases hx with rfl | rfl <;> decide +kernel

end Verif.Props
