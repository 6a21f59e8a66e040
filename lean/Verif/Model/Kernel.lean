import Verif.Model.XTensor

/-!
# Model of `kernel::nearest` and `detail::kernel_to_dx`, and the default offsets

A kernel is a `Kern`: its shape and its elements in row-major order.
-/

namespace Verif.Kernel

open Verif Outcome

/-- An integer array of any rank: shape and row-major elements. `GooseEYE.h:62-86`, `630-662`. -/
structure Kern where
  shape : List Nat
  flat : List Int
deriving DecidableEq, Repr

/-- All multi-indices of an array of the given shape in row-major order (the iteration order of
xtensor; used by `xt::argwhere`). `GooseEYE.h:630-662` (`xt::argwhere`, external). -/
def indices : List Nat → List (List Nat)
  | [] => [[]]
  | n :: s => (List.range n).flatMap fun i => (indices s).map fun r => i :: r

/-- `kernel::nearest(ndim)`, `/repo/include/GooseEYE/GooseEYE.h:63-86`: in 1D all ones; in 2D the
middle row and the middle column; in 3D the three *middle planes*. For `ndim = 0` or `ndim > 3` the
assertion throws if compiled in; without it the views below do not match the rank (`ub`). -/
def nearest (dbg : Bool) (ndim : Nat) : Outcome Kern :=
  if ndim = 0 ∨ ndim > 3 then
    if dbg then throws else ub
  else
    let shape := List.replicate ndim 3
    if ndim = 1 then ok ⟨shape, (indices shape).map fun _ => 1⟩
    else ok ⟨shape, (indices shape).map fun ix => if ix.any (· == 1) then 1 else 0⟩

/-- `mid[i] = (kernel.shape(i) - 1) / 2` in `size_t`, `GooseEYE.h:640-642`. -/
def mids (shape : List Nat) : List Int := shape.map fun (n : Nat) => toSize ((n : Int) - 1) / 2

/-- `idx += mid[i] * kernel.strides()[i]`, `GooseEYE.h:643-646`. -/
def midIndex (shape : List Nat) : Int :=
  ((mids shape).zip (xstrides shape)).foldl (fun a p => a + p.1 * (p.2 : Int)) 0

/-- `detail::kernel_to_dx<Dim>(kernel)`, `GooseEYE.h:630-662`: checks (if compiled in) that all
sizes are odd and the centre is 1; sets the centre to 0; returns `argwhere(kernel) - mid`, in
row-major order. The subtraction is done in `size_t` and converted back to `ptrdiff_t`, which is the
integer difference. The template parameter `Dim` is the rank of the kernel. -/
def kernelToDx (dbg : Bool) (kernel : Kern) : Outcome (List (List Int)) :=
  if dbg && kernel.shape.any (fun n => n % 2 != 1) then throws
  else
    let idx := midIndex kernel.shape
    let flat : Vec Int := Vec.ofList kernel.flat
    (flat.read idx).bind fun c =>
      if dbg && c != 1 then throws
      else
        (flat.write idx 0).bind fun flat =>
          let nonzero := ((indices kernel.shape).zip flat.toList).filter fun p => p.2 != 0
          ok (nonzero.map fun p => List.zipWith (fun (i : Nat) (m : Int) => (i : Int) - m) p.1
            (mids kernel.shape))

/-- The default offsets of `ClusterLabeller(shape)`, `GooseEYE.h:715-728`. -/
def defaultDx (dim : Nat) : Outcome (List (List Int)) :=
  if dim = 1 then ok [[-1], [1]]
  else if dim = 2 then ok [[-1, 0], [0, -1], [0, 1], [1, 0]]
  else if dim = 3 then
    ok [[-1, 0, 0], [0, -1, 0], [0, 0, -1], [0, 0, 1], [0, 1, 0], [1, 0, 0]]
  else throws

end Verif.Kernel
