import Verif.Model.Fp
/-
Model of /repo/modules/cuda/src/cuda_distance.cu, which computes distances on a graphics card. `uint` is `unsigned int`; wrap-around is explicit. `float` arithmetic is that of
IEEE 754, also `sqrtf` (the default of the CUDA compiler); the multiplication and addition of a square are rounded separately (the compiler may fuse them).

Simplifications: threads run one after the other in any order (every thread writes to a cell of its own); reads and writes outside the arrays are undefined behaviour. Nothing in the
repository calls the kernel.
-/
namespace Verif.Cuda
open Verif.Binary64 Verif.Spec

/-- `TRIANGULAR_D`, cuda_distance.cu 28-31. -/
def triangularD (n : Nat) : Nat := (n * n + n) % 2 ^ 32 / 2

/-- `deviceFistTriangleNum`, cuda_distance.cu 33-36: the argument of `sqrtf` is converted to `float`, the operations after it are operations on `float`, the result is converted to `uint`. -/
def firstTriangleNum (p : Nat) : Nat :=
  let x : ℚ := round binary32 (((8 * p + 1) % 2 ^ 32 : ℕ) : ℚ)
  let s : ℚ := root binary32 x
  let t : ℚ := round binary32 (round binary32 (s - 1) / 2)
  ⌈t⌉.toNat

/-- The rows `r` and `c` that thread `i` compares, cuda_distance.cu 43-45. -/
def pairOf (i : Nat) : Nat × Nat :=
  let r := firstTriangleNum ((i + 1) % 2 ^ 32)
  (r, (i + r + 2 ^ 32 - triangularD r) % 2 ^ 32)

/-- The loop over the columns from `k` on, cuda_distance.cu 48-53; `n` columns remain. -/
def sumFrom (data : List Dbl) (w r c : Nat) : (n : Nat) → (k : Nat) → Dbl → Outcome Dbl
  | 0, _, sum => .ok sum
  | n + 1, k, sum => do
    let a ← rd data ((r * w + k) % 2 ^ 32)
    let b ← rd data ((c * w + k) % 2 ^ 32)
    let diff := a.sub b
    sumFrom data w r c n (k + 1) (sum.add (diff.mul diff))

/-- The conversion of `double` to `float`. -/
def narrow : Dbl → Flt
  | .nan => .nan
  | .num .ninf => .num .ninf
  | .num (.fin x) => Fp.of x.1
  | .num .pinf => .num .pinf

/-- `sqrtf`. -/
def sqrtf : Flt → Flt
  | .num (.fin x) => if x.1 < 0 then .nan else Fp.of (root binary32 x.1)
  | .num .pinf => .num .pinf
  | _ => .nan

/-- Thread `i` of `distance_compute_kernel` with `d` cells, cuda_distance.cu 38-59. -/
def thread (data : List Dbl) (w d i : Nat) (out : List (Option Dbl)) : Outcome (List (Option Dbl)) :=
  if i < d then do
    let sum ← sumFrom data w (pairOf i).1 (pairOf i).2 w 0 (Fp.of 0)
    wr out i (some (sqrtf (narrow sum)).widen)
  else return out

/-- The threads in the given order. -/
def kernel (data : List Dbl) (w d : Nat) : List Nat → List (Option Dbl) → Outcome (List (Option Dbl))
  | [], out => return out
  | i :: r, out => do
    let out' ← thread data w d i out
    kernel data w d r out'

end Verif.Cuda
