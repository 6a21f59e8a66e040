import Verif.Basic
import Mathlib.Analysis.SpecialFunctions.Trigonometric.Basic
import Mathlib.Analysis.SpecialFunctions.Exp

/-!
# Model of the Python class `Structure`

`/repo/python/GooseEYE/__init__.py:34-277`. Numbers are real (complex); rounding is not modelled. The class
inherits the accumulation of samples from `enstat.static` (external): the sum of the samples, the sum of
their squares, and their number. `none` is `nan`. `np.fft.fft` and `np.fft.fft2` (external) are the discrete
Fourier transforms.
-/

namespace Verif.Structure

open Outcome Finset

/-! ### numpy -/

/-- A two-dimensional array. External (numpy); as used in `python/GooseEYE/__init__.py:244-272`. -/
structure Mat (α : Type) where
  rows : Nat
  cols : Nat
  get : Nat → Nat → α

/-- `a[lo:hi]`. External (numpy); as used in `python/GooseEYE/__init__.py:244-272`. -/
def slice {α : Type} (a : Vec α) (lo hi : Nat) : Vec α := ⟨min hi a.size - lo, fun i => a.get (lo + i)⟩

/-- `np.flip(a)`. External (numpy); as used in `python/GooseEYE/__init__.py:244-272`. -/
def flip {α : Type} (a : Vec α) : Vec α := ⟨a.size, fun i => a.get (a.size - 1 - i)⟩

/-- `a[lo:hi] = b`. A `ValueError` if the sizes differ (broadcasting is not modelled: it never occurs).
External (numpy); as used in `python/GooseEYE/__init__.py:244-272`. -/
def assign {α : Type} (a : Vec α) (lo hi : Nat) (b : Vec α) : Outcome (Vec α) :=
  if b.size = min hi a.size - lo then
    ok ⟨a.size, fun i => if lo ≤ i ∧ i < min hi a.size then b.get (i - lo) else a.get i⟩
  else throws

/-- `a * b`, for arrays of the same size (broadcasting is not modelled).
External (numpy); as used in `python/GooseEYE/__init__.py:244-272`. -/
def times (a b : Vec ℂ) : Outcome (Vec ℂ) :=
  if a.size = b.size then ok ⟨a.size, fun i => a.get i * b.get i⟩ else throws

/-- `np.real(a)`, stored in an array of the type of the sample: `cast` is the conversion to that type.
External (numpy); as used in `python/GooseEYE/__init__.py:244-272`. -/
noncomputable def real (cast : ℝ → ℝ) (a : Vec ℂ) : Vec ℝ := ⟨a.size, fun i => cast (a.get i).re⟩

/-- `a[r0:r1, c0:c1]`. External (numpy); as used in `python/GooseEYE/__init__.py:244-272`. -/
def slice2 {α : Type} (a : Mat α) (r0 r1 c0 c1 : Nat) : Mat α :=
  ⟨min r1 a.rows - r0, min c1 a.cols - c0, fun i j => a.get (r0 + i) (c0 + j)⟩

/-- `np.flip(a, axis=0)`. External (numpy); as used in `python/GooseEYE/__init__.py:244-272`. -/
def flip0 {α : Type} (a : Mat α) : Mat α := ⟨a.rows, a.cols, fun i j => a.get (a.rows - 1 - i) j⟩

/-- `np.flip(a, axis=1)`. External (numpy); as used in `python/GooseEYE/__init__.py:244-272`. -/
def flip1 {α : Type} (a : Mat α) : Mat α := ⟨a.rows, a.cols, fun i j => a.get i (a.cols - 1 - j)⟩

/-- `np.flip(a)`: along both axes. For a row or a column of an array this is the flip of that row or column.
External (numpy); as used in `python/GooseEYE/__init__.py:244-272`. -/
def flip01 {α : Type} (a : Mat α) : Mat α := flip0 (flip1 a)

/-- `a[r0:r1, c0:c1] = b`. External (numpy); as used in `python/GooseEYE/__init__.py:244-272`. -/
def assign2 {α : Type} (a : Mat α) (r0 r1 c0 c1 : Nat) (b : Mat α) : Outcome (Mat α) :=
  if b.rows = min r1 a.rows - r0 ∧ b.cols = min c1 a.cols - c0 then
    ok ⟨a.rows, a.cols, fun i j =>
      if (r0 ≤ i ∧ i < min r1 a.rows) ∧ (c0 ≤ j ∧ j < min c1 a.cols) then b.get (i - r0) (j - c0) else a.get i j⟩
  else throws

/-- `a * b`. External (numpy); as used in `python/GooseEYE/__init__.py:244-272`. -/
def times2 (a b : Mat ℂ) : Outcome (Mat ℂ) :=
  if a.rows = b.rows ∧ a.cols = b.cols then ok ⟨a.rows, a.cols, fun i j => a.get i j * b.get i j⟩ else throws

/-- `np.real(a)`, stored in an array of the type of the sample.
External (numpy); as used in `python/GooseEYE/__init__.py:244-272`. -/
noncomputable def real2 (cast : ℝ → ℝ) (a : Mat ℂ) : Mat ℝ := ⟨a.rows, a.cols, fun i j => cast (a.get i j).re⟩

/-- `np.fft.fft(data)` (external) -/
noncomputable def fft (data : Vec ℝ) : Vec ℂ :=
  ⟨data.size, fun k => ∑ j ∈ range data.size,
    (data.get j : ℂ) * Complex.exp (-(2 * Real.pi * Complex.I * (j * k : Nat) / data.size))⟩

/-- `np.fft.fft2(data)` (external) -/
noncomputable def fft2 (data : Mat ℝ) : Mat ℂ :=
  ⟨data.rows, data.cols, fun k l => ∑ i ∈ range data.rows, ∑ j ∈ range data.cols,
    (data.get i j : ℂ) * Complex.exp (-(2 * Real.pi * Complex.I * (i * k : Nat) / data.rows)) *
      Complex.exp (-(2 * Real.pi * Complex.I * (j * l : Nat) / data.cols))⟩

/-- `np.fft.fftfreq(n)[k]` (external) -/
noncomputable def fftfreq (n k : Nat) : ℝ := (if k < (n + 1) / 2 then (k : ℝ) else (k : ℝ) - n) / n

/-! ### The class -/

/-- `e = n // 2 if n % 2 == 0 else n // 2 + 1`, `__init__.py:228,234,235,253,262,263` -/
def stop (n : Nat) : Nat := if n % 2 = 0 then n / 2 else n / 2 + 1

/-- `s = e + 1 if n % 2 == 0 else e`, `__init__.py:254,264,265` -/
def start (n : Nat) : Nat := if n % 2 = 0 then stop n + 1 else stop n

/-- The sample of a one-dimensional array, `__init__.py:248-257,277`: the argument of the last line. `junk` is
the content of `np.empty_like(data)`. An empty array is rejected (`np.fft.fft`). -/
noncomputable def sample (cast : ℝ → ℝ) (junk : Nat → ℝ) (data : Vec ℝ) : Outcome (Vec ℝ) := do
  let ret : Vec ℝ := ⟨data.size, junk⟩
  if data.size = 0 then throws
  else
    let hat := fft data
    let n := data.size
    let e := stop n
    let s := start n
    let ret ← assign ret 0 1 ⟨1, fun _ => cast (hat.get 0 * hat.get 0).re⟩
    let p ← times (slice hat 1 e) (flip (slice hat s n))
    let ret ← assign ret 1 e (real cast p)
    let ret ← assign ret s n (flip (slice ret 1 e))
    ok ⟨ret.size, fun k => ret.get k / hat.size⟩

/-- The sample of a two-dimensional array, `__init__.py:248,259-272,277`. -/
noncomputable def sample2 (cast : ℝ → ℝ) (junk : Nat → Nat → ℝ) (data : Mat ℝ) : Outcome (Mat ℝ) := do
  let ret : Mat ℝ := ⟨data.rows, data.cols, junk⟩
  if data.rows = 0 ∨ data.cols = 0 then throws
  else
    let hat := fft2 data
    let nrow := data.rows
    let ncol := data.cols
    let erow := stop nrow
    let ecol := stop ncol
    let srow := start nrow
    let scol := start ncol
    let ret ← assign2 ret 0 1 0 1 ⟨1, 1, fun _ _ => cast (hat.get 0 0 * hat.get 0 0).re⟩
    let p ← times2 (slice2 hat 0 1 1 ecol) (flip1 (slice2 hat 0 1 scol ncol))
    let ret ← assign2 ret 0 1 1 ecol (real2 cast p)
    let p ← times2 (slice2 hat 1 erow 0 1) (flip0 (slice2 hat srow nrow 0 1))
    let ret ← assign2 ret 1 erow 0 1 (real2 cast p)
    let p ← times2 (slice2 hat 1 erow 1 ecol) (flip01 (slice2 hat srow nrow scol ncol))
    let ret ← assign2 ret 1 erow 1 ecol (real2 cast p)
    let ret ← assign2 ret srow nrow scol ncol (flip01 (slice2 ret 1 erow 1 ecol))
    let p ← times2 (slice2 hat 1 erow 1 ecol) (flip1 (slice2 hat 1 erow scol ncol))
    let ret ← assign2 ret 1 erow scol ncol (real2 cast p)
    let p ← times2 (slice2 hat 1 erow 1 ecol) (flip0 (slice2 hat srow nrow 1 ecol))
    let ret ← assign2 ret srow nrow 1 ecol (real2 cast p)
    ok ⟨ret.rows, ret.cols, fun k l => ret.get k l / ((hat.rows * hat.cols : Nat) : ℝ)⟩

/-- `a + b` of numbers that can be `nan`. External (numpy); `python/GooseEYE/__init__.py:159-181`, `243-276`. -/
noncomputable def plus (a b : Option ℝ) : Option ℝ :=
  match a, b with
  | some a, some b => some (a + b)
  | _, _ => none

/-- The state of the class for one-dimensional samples: `first`, `second` and `norm` of `enstat.static`.
`python/GooseEYE/__init__.py:156-181`. -/
structure State where
  first : Vec (Option ℝ)
  second : Vec (Option ℝ)
  norm : Nat

/-- `_allocate(shape, dtype)` for one dimension, `__init__.py:157-174`. -/
noncomputable def allocate (n : Nat) : State :=
  let zero : Vec (Option ℝ) := ⟨n, fun k => if n % 2 = 0 ∧ k = n / 2 then none else some 0⟩
  ⟨zero, zero, 0⟩

/-- `add_sample(data)`, `__init__.py:243-277`. -/
noncomputable def addSample (cast : ℝ → ℝ) (st : Option State) (junk : Nat → ℝ) (data : Vec ℝ) :
    Outcome State := do
  let x ← sample cast junk data
  let st := st.getD (allocate x.size)
  if st.first.size ≠ x.size then throws
  else ok ⟨⟨st.first.size, fun k => plus (st.first.get k) (some (x.get k))⟩,
      ⟨st.second.size, fun k => plus (st.second.get k) (some (x.get k ^ 2))⟩, st.norm + 1⟩

/-- Several calls of `add_sample`, on a new object. `python/GooseEYE/__init__.py:243-276`. -/
noncomputable def addSamples (cast : ℝ → ℝ) (samples : List ((Nat → ℝ) × Vec ℝ)) : Outcome (Option State) :=
  forM samples none fun st x => (addSample cast st x.1 x.2).map some

/-- `mean()` (inherited): `first / norm`.
External (the base class `enstat.static`, `python/GooseEYE/__init__.py:34`). -/
noncomputable def mean (st : State) : Vec (Option ℝ) :=
  ⟨st.first.size, fun k => (st.first.get k).map fun x => x / st.norm⟩

/-- `q(axis)` for one dimension, `__init__.py:193-194`: `axis` is not used. -/
noncomputable def q (st : State) (_axis : Option Int) : Vec ℝ := ⟨st.first.size, fftfreq st.first.size⟩

/-- `qnorm` for one dimension, `__init__.py:226-229`. -/
noncomputable def qnorm (st : State) : Vec ℝ :=
  slice ⟨st.first.size, fun k => |fftfreq st.first.size k|⟩ 0 (stop st.first.size)

/-- The state of the class for two-dimensional samples. `python/GooseEYE/__init__.py:156-181`. -/
structure State2 where
  first : Mat (Option ℝ)
  second : Mat (Option ℝ)
  norm : Nat

/-- `_allocate(shape, dtype)` for two dimensions, `__init__.py:157-182`: the assertion is that both sizes are
even or both are odd. -/
noncomputable def allocate2 (m n : Nat) : Outcome State2 :=
  if m % 2 ≠ n % 2 then throws
  else
    let zero : Mat (Option ℝ) :=
      ⟨m, n, fun k l => if m % 2 = 0 ∧ (k = m / 2 ∨ l = n / 2) then none else some 0⟩
    ok ⟨zero, zero, 0⟩

/-- `add_sample(data)`, `__init__.py:243-277`. -/
noncomputable def addSample2 (cast : ℝ → ℝ) (st : Option State2) (junk : Nat → Nat → ℝ) (data : Mat ℝ) :
    Outcome State2 := do
  let x ← sample2 cast junk data
  let st ← match st with
    | some st => ok st
    | none => allocate2 x.rows x.cols
  if st.first.rows ≠ x.rows ∨ st.first.cols ≠ x.cols then throws
  else ok ⟨⟨st.first.rows, st.first.cols, fun k l => plus (st.first.get k l) (some (x.get k l))⟩,
      ⟨st.second.rows, st.second.cols, fun k l => plus (st.second.get k l) (some (x.get k l ^ 2))⟩, st.norm + 1⟩

/-- Several calls of `add_sample`, on a new object. `python/GooseEYE/__init__.py:243-276`. -/
noncomputable def addSamples2 (cast : ℝ → ℝ) (samples : List ((Nat → Nat → ℝ) × Mat ℝ)) : Outcome (Option State2) :=
  forM samples none fun st x => (addSample2 cast st x.1 x.2).map some

/-- `mean()` (inherited). External (the base class `enstat.static`, `python/GooseEYE/__init__.py:34`). -/
noncomputable def mean2 (st : State2) : Mat (Option ℝ) :=
  ⟨st.first.rows, st.first.cols, fun k l => (st.first.get k l).map fun x => x / st.norm⟩

/-- `q(axis)` for two dimensions, `__init__.py:196-204`; `none` is the default `None`. A `ValueError` for all
axes but 0 and 1. -/
noncomputable def q2 (st : State2) (axis : Option Int) : Outcome (Mat ℝ) :=
  let qrow : Mat ℝ := ⟨st.first.rows, st.first.cols, fun k _ => fftfreq st.first.rows k⟩
  let qcol : Mat ℝ := ⟨st.first.rows, st.first.cols, fun _ l => fftfreq st.first.cols l⟩
  if axis = some 0 then ok qrow
  else if axis = some 1 then ok qcol
  else throws

/-- `qnorm` for two dimensions, `__init__.py:231-237`. -/
noncomputable def qnorm2 (st : State2) : Mat ℝ :=
  slice2 ⟨st.first.rows, st.first.cols, fun k l =>
      Real.sqrt (fftfreq st.first.rows k ^ 2 + fftfreq st.first.cols l ^ 2)⟩
    0 (stop st.first.rows) 0 (stop st.first.cols)

end Verif.Structure
