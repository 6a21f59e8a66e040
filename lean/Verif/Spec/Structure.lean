import Verif.Model.Structure

/-!
# Specification of the structure factor
-/

namespace Verif.Spec

open Finset Verif.Structure

/-- The Fourier component at frequency `q / n` of a sample of size `n`. -/
noncomputable def fourier (u : Vec ℝ) (q : Int) : ℂ :=
  ∑ j ∈ range u.size, (u.get j : ℂ) * Complex.exp (-(2 * Real.pi * Complex.I * ((q * j : Int) : ℂ) / u.size))

/-- The integer frequency of entry `k`: `0, 1, ..., -2, -1`. -/
def freq (n k : Nat) : Int := if k < (n + 1) / 2 then k else (k : Int) - n

/-- Entry `k` has an entry of opposite frequency. -/
def Paired (n k : Nat) : Prop := k < n ∧ 2 * k ≠ n

/-- `û(q) û(-q) / n` -/
noncomputable def factor (u : Vec ℝ) (q : Int) : ℝ := (fourier u q * fourier u (-q)).re / u.size

/-- The Fourier component at frequency `(p / m, q / n)` of a sample of size `m` by `n`. -/
noncomputable def fourier2 (u : Mat ℝ) (p q : Int) : ℂ :=
  ∑ i ∈ range u.rows, ∑ j ∈ range u.cols, (u.get i j : ℂ) *
    Complex.exp (-(2 * Real.pi * Complex.I * ((p * i : Int) : ℂ) / u.rows)) *
    Complex.exp (-(2 * Real.pi * Complex.I * ((q * j : Int) : ℂ) / u.cols))

/-- `û(p, q) û(-p, -q) / (m n)` -/
noncomputable def factor2 (u : Mat ℝ) (p q : Int) : ℝ :=
  (fourier2 u p q * fourier2 u (-p) (-q)).re / ((u.rows * u.cols : Nat) : ℝ)

/-- What is stored for one sample at the frequency `(p / m, q / n)`, in an array that contained `junk` there. Right (as
`factor2`) only if both components are non-negative or both are negative. With one component zero and the other one
negative nothing is stored. With a positive and a negative component: the product of two components of the transform
that are opposite along the negative axis only, and the values are in the opposite order along that axis. -/
noncomputable def stored2 (junk : ℝ) (u : Mat ℝ) (p q : Int) : ℝ :=
  if (0 ≤ p ∧ 0 ≤ q) ∨ (p < 0 ∧ q < 0) then factor2 u p q
  else if p = 0 ∨ q = 0 then junk / ((u.rows * u.cols : Nat) : ℝ)
  else if q < 0 then
    (fourier2 u p (((u.cols - 1) / 2 : Nat) + 1 + q) * fourier2 u p (-(((u.cols - 1) / 2 : Nat) + 1 + q))).re /
      ((u.rows * u.cols : Nat) : ℝ)
  else
    (fourier2 u (((u.rows - 1) / 2 : Nat) + 1 + p) q * fourier2 u (-(((u.rows - 1) / 2 : Nat) + 1 + p)) q).re /
      ((u.rows * u.cols : Nat) : ℝ)

/-- The power of a sample at the frequency `q` (in cycles per pixel): `|û(q)|² / n`. -/
noncomputable def power (u : Vec ℝ) (q : ℝ) : ℝ :=
  ‖∑ j ∈ range u.size, (u.get j : ℂ) * Complex.exp (-(2 * Real.pi * Complex.I * q * j))‖ ^ 2 / u.size

/-- The power of a sample at the frequency `(p, q)`. -/
noncomputable def power2 (u : Mat ℝ) (p q : ℝ) : ℝ :=
  ‖∑ i ∈ range u.rows, ∑ j ∈ range u.cols, (u.get i j : ℂ) *
    Complex.exp (-(2 * Real.pi * Complex.I * (p * i + q * j)))‖ ^ 2 / ((u.rows * u.cols : Nat) : ℝ)

end Verif.Spec
