import Verif.Model.PythonDilate
import Verif.Props.PythonRest
import Verif.Props.Dilate
import Verif.Props.Correlation

/-! # Dilation in Python (C124) -/

namespace Verif.Props

open Verif Outcome Spec Python Nd Ens

namespace Spec

/-- What is passed for `iterations`: a number, or an array with a number per label. -/
inductive Iterations where
  | one (n : Nat)
  | table (a : Arr)

/-- The values of an array, without their fractional part. -/
def wholes (a : Arr) : Nd Int := Nd.ofList a.shape (a.values.map trunc)

/-- `dilate` of C++ with these arguments: of its four versions the one for which they are meant. If there is no kernel
it is the default one, if there are no iterations there is one, and periodic is the default. -/
def dilateCpp (dbg : Bool) (f : Arr) (kernel : Option Arr) (iterations : Option Iterations) (periodic : Option Bool) :
    Outcome (Nd Int) :=
  match kernel, iterations.getD (.one 1) with
  | none, .one n => Dilate.dilateNearestSame dbg (wholes f) n (periodic.getD true)
  | none, .table t => Dilate.dilateNearest dbg (wholes f) (t.values.map fun x => (trunc x).toNat) (periodic.getD true)
  | some k, .one n => Dilate.dilateSame dbg (wholes f) (wholes k) n (periodic.getD true)
  | some k, .table t =>
    Dilate.dilate dbg (wholes f) (wholes k) (t.values.map fun x => (trunc x).toNat) (periodic.getD true)

/-- The argument `iterations`. -/
def Iterations.arg : Iterations → Arg
  | .one n => .number n
  | .table a => .array a

/-- The named arguments of a call. -/
def named (kernel : Option Arr) (iterations : Option Iterations) (periodic : Option Bool) : List (Name × Arg) :=
  (kernel.map fun k => (Name.kernel, Arg.array k)).toList ++ (iterations.map fun i => (Name.iterations, i.arg)).toList ++
    (periodic.map fun b => (Name.periodic, Arg.bool b)).toList

/-- The values fit in 32 bits. -/
def Small (a : Arr) : Prop := ∀ x ∈ a.values, -2147483648 ≤ trunc x ∧ trunc x < 2147483648

/-- The array is one-dimensional, and its values are not negative and fit in 64 bits. -/
def Table (a : Arr) : Prop :=
  a.shape.length = 1 ∧ ∀ x ∈ a.values, 0 ≤ trunc x ∧ trunc x < 18446744073709551616

/-- The arguments of a call of `dilate`. -/
structure Fine (f : Arr) (kernel : Option Arr) (iterations : Option Iterations) : Prop where
  image : Small f
  kernel : ∀ k ∈ kernel, Small k
  table : ∀ t, iterations = some (.table t) → Table t

end Spec

open Spec

private theorem ints_eq {a : Arr} (h : Small a) : (Arg.array a).ints = wholes a := by
  unfold Arg.ints wholes
  dsimp only
  rw [map_toInt32 h]

private theorem sizes_eq {a : Arr} (h : Table a) :
    (Arg.array a).sizes = a.values.map fun x => (trunc x).toNat := by
  refine List.map_congr_left fun x hx => ?_
  have := h.2 x hx
  unfold toUsize
  rw [Int.emod_eq_of_lt this.1 this.2]

private theorem bind_perm {kw kw' : List (Name × Arg)} (hn : (kw.map Prod.fst).Nodup) (h : kw.Perm kw') :
    ∀ (ps : List Par) (pos : List Arg), bindPars ps pos kw = bindPars ps pos kw' := by
  intro ps
  induction ps generalizing kw kw' with
  | nil =>
    intro pos
    cases pos with
    | nil =>
      unfold bindPars
      have : kw.isEmpty = kw'.isEmpty := by
        rw [Bool.eq_iff_iff, List.isEmpty_iff, List.isEmpty_iff]
        exact ⟨fun e => (e ▸ h).nil_eq.symm, fun e => (e ▸ h).eq_nil⟩
      rw [this]
    | cons a as => rfl
  | cons p ps ih =>
    intro pos
    cases pos with
    | cons a as =>
      unfold bindPars
      rw [ih hn h]
    | nil =>
      have key : ∀ {l : List (Name × Arg)}, (l.map Prod.fst).Nodup → ∀ q,
          l.find? (fun q => q.1 = p.name) = some q ↔ q ∈ l ∧ q.1 = p.name := by
        intro l hl q
        refine ⟨fun e => ⟨List.mem_of_find?_eq_some e, by simpa using List.find?_some e⟩, fun ⟨h1, h2⟩ => ?_⟩
        cases e : l.find? (fun q => q.1 = p.name) with
        | none =>
          have := List.find?_eq_none.1 e q h1
          simp only [decide_eq_true_eq] at this
          exact absurd h2 this
        | some r =>
          have hr : r ∈ l := List.mem_of_find?_eq_some e
          have hr' : r.1 = p.name := by simpa using List.find?_some e
          rw [List.inj_on_of_nodup_map hl hr h1 (by rw [hr', h2])]
      have e : kw.find? (fun q => q.1 = p.name) = kw'.find? (fun q => q.1 = p.name) := by
        have hn' : (kw'.map Prod.fst).Nodup := (h.map _).nodup_iff.1 hn
        refine Option.ext fun q => ?_
        rw [key hn, key hn', h.mem_iff]
      unfold bindPars
      rw [e]
      cases kw'.find? (fun q => q.1 = p.name) with
      | some q =>
        dsimp only
        rw [ih (hn.sublist (List.filter_sublist.map _)) (h.filter _)]
      | none =>
        cases p.default with
        | none => rfl
        | some a =>
          dsimp only
          rw [ih hn h]

private theorem dilate_perm (dbg : Bool) {kw kw' : List (Name × Arg)} (hn : (kw.map Prod.fst).Nodup) (h : kw.Perm kw')
    (pos : List Arg) : Python.dilate dbg pos kw = Python.dilate dbg pos kw' := by
  have e : ∀ c, Signature.attempt (β := Nd Int) c pos kw = Signature.attempt c pos kw' := by
    intro c
    funext s
    unfold Signature.attempt
    rw [bind_perm hn h]
  unfold Python.dilate invoke
  rw [e, e]

private theorem named_nodup (kernel : Option Arr) (iterations : Option Iterations) (periodic : Option Bool) :
    ((named kernel iterations periodic).map Prod.fst).Nodup := by
  rcases kernel with _ | k <;> rcases iterations with _ | i <;> rcases periodic with _ | b <;> simp [named]

set_option maxHeartbeats 1000000 in
/-- **C124**: `dilate` in Python, with the kernel and the iterations passed by name in any order, does what `dilate` in
C++ does with these arguments, of whatever types the arrays are. -/
theorem C124_named (dbg : Bool) {f : Arr} {kernel : Option Arr} {iterations : Option Iterations} {periodic : Option Bool}
    (h : Fine f kernel iterations) {kw : List (Name × Arg)} (hkw : kw.Perm (named kernel iterations periodic)) :
    Python.dilate dbg [.array f] kw = dilateCpp dbg f kernel iterations periodic := by
  rw [← dilate_perm dbg (named_nodup kernel iterations periodic) hkw.symm]
  have hf := ints_eq h.image
  rcases kernel with _ | k
  · rcases iterations with _ | n | t
    · rcases periodic with _ | b <;>
      · by_cases h1 : f.dtype = .int32 <;>
        simp [Python.dilate, invoke, List.findSome?, Signature.attempt, dilate1, dilate2, dilate3, dilate4, bindPars, named,
          Param.accepts, dilateCpp, Iterations.arg, Arg.size, Arg.truth, hf, h1]
    · rcases periodic with _ | b <;>
      · by_cases h1 : f.dtype = .int32 <;>
        simp [Python.dilate, invoke, List.findSome?, Signature.attempt, dilate1, dilate2, dilate3, dilate4, bindPars, named,
          Param.accepts, dilateCpp, Iterations.arg, Arg.size, Arg.truth, hf, h1]
    · have ht := h.table t rfl
      rcases periodic with _ | b <;>
      · by_cases h1 : f.dtype = .int32 <;> by_cases h2 : t.dtype = .uint64 <;>
        simp [Python.dilate, invoke, List.findSome?, Signature.attempt, dilate1, dilate2, dilate3, dilate4, bindPars, named,
          Param.accepts, dilateCpp, Iterations.arg, Arg.truth, hf, sizes_eq ht, ht.1, h1, h2]
  · have hk := ints_eq (h.kernel k rfl)
    rcases iterations with _ | n | t
    · rcases periodic with _ | b <;>
      · by_cases h1 : f.dtype = .int32 <;> by_cases h2 : k.dtype = .int32 <;>
        simp [Python.dilate, invoke, List.findSome?, Signature.attempt, dilate1, dilate2, dilate3, dilate4, bindPars, named,
          Param.accepts, dilateCpp, Iterations.arg, Arg.size, Arg.truth, hf, hk, h1, h2]
    · rcases periodic with _ | b <;>
      · by_cases h1 : f.dtype = .int32 <;> by_cases h2 : k.dtype = .int32 <;>
        simp [Python.dilate, invoke, List.findSome?, Signature.attempt, dilate1, dilate2, dilate3, dilate4, bindPars, named,
          Param.accepts, dilateCpp, Iterations.arg, Arg.size, Arg.truth, hf, hk, h1, h2]
    · have ht := h.table t rfl
      rcases periodic with _ | b <;>
      · by_cases h1 : f.dtype = .int32 <;> by_cases h2 : k.dtype = .int32 <;> by_cases h3 : t.dtype = .uint64 <;>
        simp [Python.dilate, invoke, List.findSome?, Signature.attempt, dilate1, dilate2, dilate3, dilate4, bindPars, named,
          Param.accepts, dilateCpp, Iterations.arg, Arg.truth, hf, hk, sizes_eq ht, ht.1, h1, h2, h3]

/-- A 64-bit image, a `float64` kernel and 32-bit iterations. -/
example : Fine ⟨.int64, [5], [0, 1, 0, 0, 2]⟩ (some ⟨.float64, [3], [1, 1, 1]⟩) (some (.table ⟨.int32, [3], [0, 1, 1]⟩)) := by
  refine ⟨?_, ?_, ?_⟩
  · intro x hx
    fin_cases hx <;> decide +kernel
  · rintro k ⟨⟩ x hx
    fin_cases hx <;> decide +kernel
  · rintro t ⟨⟩
    refine ⟨rfl, fun x hx => ?_⟩
    fin_cases hx <;> decide +kernel

set_option maxHeartbeats 1000000 in
/-- **C124** (partial): with positional arguments the same is true if the image has the type `int32` and a number
follows it; if an array with iterations per label follows it, unless both have the type `int32`; if a kernel follows it,
unless that has one dimension, or both have the type `int32`; and if all arguments are given. Missing: the other cases,
see `C124_misread` and `C124_violated`. -/
theorem C124_positional_partial (dbg : Bool) {f k t : Arr} (hf : Small f) (hk : Small k) (ht : Table t) (n : Nat)
    (periodic : Bool) :
    (f.dtype = .int32 → Python.dilate dbg [.array f, .number n] [(.periodic, .bool periodic)] =
      dilateCpp dbg f none (some (.one n)) (some periodic)) ∧
    (¬ (f.dtype = .int32 ∧ t.dtype = .int32) → Python.dilate dbg [.array f, .array t] [(.periodic, .bool periodic)] =
      dilateCpp dbg f none (some (.table t)) (some periodic)) ∧
    (k.shape.length ≠ 1 ∨ f.dtype = .int32 ∧ k.dtype = .int32 →
      Python.dilate dbg [.array f, .array k] [(.periodic, .bool periodic)] =
        dilateCpp dbg f (some k) none (some periodic) ∧
      Python.dilate dbg [.array f, .array k, .number n] [] = dilateCpp dbg f (some k) (some (.one n)) none) ∧
    Python.dilate dbg [.array f, .array k, .number n, .bool periodic] [] =
      dilateCpp dbg f (some k) (some (.one n)) (some periodic) ∧
    Python.dilate dbg [.array f, .array k, .array t, .bool periodic] [] =
      dilateCpp dbg f (some k) (some (.table t)) (some periodic) := by
  have hf' := ints_eq hf
  have hk' := ints_eq hk
  have ht' := sizes_eq ht
  refine ⟨fun h1 => ?_, fun h1 => ?_, fun h1 => ⟨?_, ?_⟩, ?_, ?_⟩
  · simp [Python.dilate, invoke, List.findSome?, Signature.attempt, dilate1, dilate2, dilate3, dilate4, bindPars, Param.accepts,
      dilateCpp, Arg.size, Arg.truth, hf', h1]
  · by_cases h2 : f.dtype = .int32
    · have h3 : t.dtype ≠ .int32 := fun e => h1 ⟨h2, e⟩
      by_cases h4 : t.dtype = .uint64 <;>
      simp [Python.dilate, invoke, List.findSome?, Signature.attempt, dilate1, dilate2, dilate3, dilate4, bindPars, Param.accepts,
        dilateCpp, Arg.truth, hf', ht', ht.1, h2, h3, h4]
    · simp [Python.dilate, invoke, List.findSome?, Signature.attempt, dilate1, dilate2, dilate3, dilate4, bindPars, Param.accepts,
        dilateCpp, Arg.truth, hf', ht', ht.1, h2]
  · rcases h1 with h1 | ⟨h1, h2⟩
    · by_cases h2 : f.dtype = .int32 <;> by_cases h3 : k.dtype = .int32 <;>
      simp [Python.dilate, invoke, List.findSome?, Signature.attempt, dilate1, dilate2, dilate3, dilate4, bindPars, Param.accepts,
        dilateCpp, Arg.size, Arg.truth, hf', hk', h1, h2, h3]
    · simp [Python.dilate, invoke, List.findSome?, Signature.attempt, dilate1, dilate2, dilate3, dilate4, bindPars, Param.accepts,
        dilateCpp, Arg.size, Arg.truth, hf', hk', h1, h2]
  · rcases h1 with h1 | ⟨h1, h2⟩
    · by_cases h2 : f.dtype = .int32 <;> by_cases h3 : k.dtype = .int32 <;>
      simp [Python.dilate, invoke, List.findSome?, Signature.attempt, dilate1, dilate2, dilate3, dilate4, bindPars, Param.accepts,
        dilateCpp, Arg.size, Arg.truth, hf', hk', h1, h2, h3]
    · simp [Python.dilate, invoke, List.findSome?, Signature.attempt, dilate1, dilate2, dilate3, dilate4, bindPars, Param.accepts,
        dilateCpp, Arg.size, Arg.truth, hf', hk', h1, h2]
  · by_cases h2 : f.dtype = .int32 <;> by_cases h3 : k.dtype = .int32 <;>
    simp [Python.dilate, invoke, List.findSome?, Signature.attempt, dilate1, dilate2, dilate3, dilate4, bindPars, Param.accepts,
      dilateCpp, Arg.size, Arg.truth, hf', hk', h2, h3]
  · by_cases h2 : f.dtype = .int32 <;> by_cases h3 : k.dtype = .int32 <;> by_cases h4 : t.dtype = .uint64 <;>
    simp [Python.dilate, invoke, List.findSome?, Signature.attempt, dilate1, dilate2, dilate3, dilate4, bindPars, Param.accepts,
      dilateCpp, Arg.truth, hf', hk', ht', ht.1, h2, h3, h4]

set_option maxHeartbeats 1000000 in
/-- **C124**: what happens in the cases that are missing. A number after an image of another type than `int32` is taken
for a kernel (of no dimension); iterations per label of type `int32` after an image of type `int32` are taken for a
kernel; a one-dimensional kernel is taken for iterations per label, unless it and the image have the type `int32`, and
then a number that follows it is taken for `periodic`. -/
theorem C124_misread (dbg : Bool) {f k t : Arr} (hf : Small f) (hk : Table k) (ht : Small t) (n : Nat)
    (periodic : Bool) :
    (f.dtype ≠ .int32 → Python.dilate dbg [.array f, .number n] [(.periodic, .bool periodic)] =
      Dilate.dilateSame dbg (wholes f) (Nd.ofList [] [toInt32 n]) 1 periodic) ∧
    (f.dtype = .int32 → t.dtype = .int32 →
      Python.dilate dbg [.array f, .array t] [(.periodic, .bool periodic)] =
        dilateCpp dbg f (some t) none (some periodic)) ∧
    (¬ (f.dtype = .int32 ∧ k.dtype = .int32) →
      Python.dilate dbg [.array f, .array k] [(.periodic, .bool periodic)] =
        dilateCpp dbg f none (some (.table k)) (some periodic) ∧
      Python.dilate dbg [.array f, .array k, .number n] [] =
        dilateCpp dbg f none (some (.table k)) (some (decide (n ≠ 0)))) := by
  have hf' := ints_eq hf
  have hk' := sizes_eq hk
  have ht' := ints_eq ht
  refine ⟨fun h1 => ?_, fun h1 h2 => ?_, fun h1 => ?_⟩
  · simp [Python.dilate, invoke, List.findSome?, Signature.attempt, dilate1, dilate2, dilate3, dilate4, bindPars, Param.accepts,
      Arg.size, Arg.truth, Arg.ints, hf', h1]
    exact congrArg (fun F => Dilate.dilateSame dbg F _ 1 periodic) hf'
  · simp [Python.dilate, invoke, List.findSome?, Signature.attempt, dilate1, dilate2, dilate3, dilate4, bindPars, Param.accepts,
      dilateCpp, Arg.size, Arg.truth, hf', ht', h1, h2]
  · by_cases h2 : f.dtype = .int32
    · have h3 : k.dtype ≠ .int32 := fun e => h1 ⟨h2, e⟩
      by_cases h4 : k.dtype = .uint64 <;>
      simp [Python.dilate, invoke, List.findSome?, Signature.attempt, dilate1, dilate2, dilate3, dilate4, bindPars, Param.accepts,
        dilateCpp, Arg.truth, hf', hk', hk.1, h2, h3, h4]
    · simp [Python.dilate, invoke, List.findSome?, Signature.attempt, dilate1, dilate2, dilate3, dilate4, bindPars, Param.accepts,
        dilateCpp, Arg.truth, hf', hk', hk.1, h2]

/-- A kernel of one element reaches nothing but the pixel itself. -/
theorem reach_single {periodic : Bool} {shape : List Nat} {kernel : Nd Int} (hk : kernel.shape = List.replicate shape.length 1)
    {y x : List Int} {m : Nat} (hy : y ∈ pixels shape) (h : Reach periodic shape kernel y m x) : x = y := by
  induction h with
  | here => rfl
  | step m z d _ ho _ ih =>
    subst ih
    obtain ⟨i, hi, -, rfl⟩ := ho
    rw [hk] at hi ⊢
    have hin := mem_pixels.1 hi
    have key : ∀ (n : Nat) (i : List Int), InBox (List.replicate n 1) i →
        (displacement (List.replicate n 1) i).length = n ∧ IsZero (displacement (List.replicate n 1) i) := by
      intro n
      induction n with
      | zero => intro i hi; cases hi; exact ⟨rfl, fun a ha => by simp [displacement] at ha⟩
      | succ n ihn =>
        intro i hi
        rw [List.replicate_succ] at hi ⊢
        cases hi with
        | cons h1 h2 =>
          obtain ⟨e1, e2⟩ := ihn _ h2
          refine ⟨by simpa [displacement] using e1, fun a ha => ?_⟩
          simp only [displacement, List.zipWith_cons_cons, List.mem_cons] at ha
          rcases ha with rfl | ha
          · have := h1.1; have := h1.2; simp; omega
          · exact e2 a ha
    obtain ⟨e1, e2⟩ := key _ _ hin
    exact target_zero hy e1 e2

/-- **C124**: for every image whose type is not `int32` the iterations passed by position are lost: with assertions an
exception is thrown, without them the image comes back as it was, whatever the number. -/
theorem C124_ignored {f : Arr} (hf : Small f) (hd : f.dtype ≠ .int32) (h1 : 1 ≤ f.shape.length) (h3 : f.shape.length ≤ 3)
    (h0 : 0 ∉ f.shape) (hv : ∀ x ∈ pixels f.shape, 0 ≤ val (wholes f) x) (n : Nat) (periodic : Bool) :
    Python.dilate true [.array f, .number n] [(.periodic, .bool periodic)] = throws ∧
    ∃ r, Python.dilate false [.array f, .number n] [(.periodic, .bool periodic)] = ok r ∧ r.shape = f.shape ∧
      ∀ x ∈ pixels f.shape, val r x = val (wholes f) x := by
  have hs : (wholes f).shape = f.shape := rfl
  have mis := fun dbg => (C124_misread dbg (k := ⟨.int64, [1], [0]⟩) (t := ⟨.int64, [1], [0]⟩) hf
    ⟨rfl, by intro x hx; fin_cases hx; decide +kernel⟩ (by intro x hx; fin_cases hx; decide +kernel) n periodic).1 hd
  have hl : ∀ k : Nd Int, k.shape = List.replicate f.shape.length 1 → Legal periodic (wholes f).shape k.shape := by
    intro k hk
    rw [hk, hs]
    refine ⟨by simpa using h3, by simp, by simp, fun _ => ?_⟩
    induction f.shape with
    | nil => exact .nil
    | cons a l ih => exact .cons (by omega) ih
  obtain ⟨m, e1, -, ha, -⟩ := same_args (k := 1) (f := wholes f)
    (kernel := Nd.ofList (List.replicate f.shape.length 1) [1]) (hl _ rfl) h0 (by
      intro k hk
      have one : ∀ l : Nat, prodShape (List.replicate l 1) = 1 := by
        intro l
        induction l with
        | zero => rfl
        | succ l ih => simpa [prodShape, List.replicate_succ] using ih
      have : k = 0 := by
        have hk : k < prodShape (List.replicate f.shape.length 1) := hk
        rw [one] at hk
        omega
      subst this
      exact Or.inr rfl) hv
  refine ⟨?_, ?_⟩
  · rw [mis]
    unfold Dilate.dilateSame
    rw [e1, ok_bind]
    unfold Dilate.dilate
    have e : decide ((wholes f).shape.length = (Nd.ofList [] [toInt32 n] : Nd Int).shape.length) = false := by
      rw [hs]
      exact decide_eq_false (by simp [Nd.ofList]; intro e; simp [e] at h1)
    have e' : decide ((wholes f).shape.length ≤ 3) = true := decide_eq_true h3
    rw [e, e']
    rfl
  · have e2 : Dilate.dilate false (wholes f) (Nd.ofList [] [toInt32 n]) (List.replicate m 1) periodic =
        Dilate.dilate false (wholes f) (Nd.ofList (List.replicate f.shape.length 1) [toInt32 n]) (List.replicate m 1)
          periodic := by
      have e : shape3 (List.replicate f.shape.length 1) = shape3 [] := by
        rcases (by omega : f.shape.length = 1 ∨ f.shape.length = 2 ∨ f.shape.length = 3) with h | h | h <;> rw [h] <;> rfl
      have e' : (Nd.ofList (List.replicate f.shape.length 1) [toInt32 n] : Nd Int).atleast3d =
          (Nd.ofList [] [toInt32 n] : Nd Int).atleast3d := by
        unfold Nd.atleast3d Nd.ofList
        simp only [e]
      have c : (3 < (wholes f).shape.length ∨ 3 < (Nd.ofList (List.replicate f.shape.length 1) [toInt32 n] : Nd Int).shape.length ∨
          0 ∈ (Nd.ofList (List.replicate f.shape.length 1) [toInt32 n] : Nd Int).shape) ↔
          (3 < (wholes f).shape.length ∨ 3 < (Nd.ofList [] [toInt32 n] : Nd Int).shape.length ∨
          0 ∈ (Nd.ofList [] [toInt32 n] : Nd Int).shape) := by
        simp [Nd.ofList, hs]
      unfold Dilate.dilate
      rw [e']
      simp only [c]
      rfl
    obtain ⟨r, hr, hrs, hkeep, hown, -⟩ := dilate_facts_release (f := wholes f)
      (kernel := Nd.ofList (List.replicate f.shape.length 1) [toInt32 n]) (hl _ rfl) h0 (Dilate.DilateArgs.facts ha).1
    refine ⟨r, ?_, hrs, fun x hx => ?_⟩
    · rw [mis]
      unfold Dilate.dilateSame
      rw [e1, ok_bind, e2, hr]
    · by_cases h : val r x = 0
      · by_contra hne
        have := hkeep x hx (fun e => hne (h.trans e.symm))
        exact hne this
      · obtain ⟨y, hy, ey, hreach⟩ := hown x hx h
        have := reach_single rfl hy hreach
        rw [ey.symm, this]

/-- Five iterations for two labels in an image of type `int64`. -/
example : ∃ r, Python.dilate false [.array ⟨.int64, [2, 3], [0, 1, 0, 0, 0, 2]⟩, .number 5] [(.periodic, .bool true)] = ok r ∧
    r.shape = [2, 3] ∧ ∀ x ∈ pixels [2, 3], val r x = val (wholes ⟨.int64, [2, 3], [0, 1, 0, 0, 0, 2]⟩) x :=
  (C124_ignored (f := ⟨.int64, [2, 3], [0, 1, 0, 0, 0, 2]⟩) (by intro x hx; fin_cases hx <;> decide +kernel) (by decide)
    (by decide) (by decide) (by decide) (by decide +kernel) 5 true).2

/-- An image of one pixel with a label. -/
def dot (d : Dtype) : Arr := ⟨d, [5], [0, 1, 0, 0, 0]⟩

/-- Iterations per label, or a kernel. -/
def pair (d : Dtype) (v : List ℚ) : Arr := ⟨d, [v.length], v⟩

/-- With positional arguments the result depends on the types of the arrays. Two iterations: an image of type `int64` is
not dilated at all, or (with assertions) an exception is thrown. Iterations per label, both arrays of type `int32`: the same.
A kernel that looks one way: both arrays of type `int64`, it is not used. -/
theorem C124_violated (dbg : Bool) :
    (Python.dilate dbg [.array (dot .int32), .number 2] [(.periodic, .bool false)]).map Nd.toList = ok [1, 1, 1, 1, 0] ∧
    (Python.dilate dbg [.array (dot .int64), .number 2] [(.periodic, .bool false)]).map Nd.toList =
      (if dbg then throws else ok [0, 1, 0, 0, 0]) ∧
    (Python.dilate dbg [.array (dot .int64), .array (pair .int64 [0, 2])] [(.periodic, .bool false)]).map Nd.toList =
      ok [1, 1, 1, 1, 0] ∧
    (Python.dilate false [.array (dot .int32), .array (pair .int32 [0, 2])] [(.periodic, .bool false)]).map Nd.toList =
      ok [0, 1, 0, 0, 0] ∧
    (Python.dilate dbg [.array (dot .int32), .array (pair .int32 [0, 1, 1])] [(.periodic, .bool false)]).map Nd.toList =
      ok [0, 1, 1, 0, 0] ∧
    (Python.dilate dbg [.array (dot .int64), .array (pair .int64 [0, 1, 1])] [(.periodic, .bool false)]).map Nd.toList =
      ok [1, 1, 1, 0, 0] := by
  cases dbg <;> refine ⟨?_, ?_, ?_, ?_, ?_, ?_⟩ <;> decide +kernel

/-- An image, a kernel and iterations per label of these forms. -/
example : Small (dot .int64) ∧ Small (pair .float64 [0, 1, 1]) ∧ Table (pair .int32 [0, 2]) ∧
    Table (pair .int64 [0, 1, 1]) := by
  refine ⟨?_, ?_, ⟨rfl, ?_⟩, ⟨rfl, ?_⟩⟩ <;> intro x hx <;> fin_cases hx <;> decide +kernel

end Verif.Props
