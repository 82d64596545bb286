import Verif.Lemmas.Binary64

/-! The operations of the library on doubles. The C files contain the expressions below; each operation in them is rounded (no wider intermediate results, no fused operations:
    `FLT_EVAL_METHOD` is 0 and contraction is off). -/

namespace Verif
open Verif.Spec Verif.Binary64

/-- The finite doubles. -/
abbrev F64 := {x : ℚ // IsDouble x}

namespace F64

/-- The double nearest to a number. -/
def of (x : ℚ) : F64 := ⟨fl x, isDouble_fl x⟩

/-- `sqrt`. -/
def sqrt (x : F64) : F64 := ⟨flSqrt x.1, isDouble_flSqrt x.1⟩

/-- `D_MAX`, /repo/config.h.in 18, which is configured as `DBL_MAX`. -/
def max : F64 := ⟨(2 ^ 53 - 1) * 2 ^ 971, 2 ^ 53 - 1, 971, by norm_num, by norm_num, by norm_num⟩

end F64

/-- The operations of `distance_compute` on `double` data, /repo/src/distance.c 160-209: `num - num2`, `sum += diff * diff`, `sqrt(sum)`. -/
def doubleDist : DistOps F64 F64 where
  diff a b := .ok (F64.of (a.1 - b.1))
  add a b := F64.of (a.1 + b.1)
  mul a b := F64.of (a.1 * b.1)
  sqrt := F64.sqrt
  zero := F64.of 0

/-- The operations on stabilities: `stability += numPoints * (1 / level - 1 / birthLevel)`, /repo/src/cluster.c 125; the stability of the root, which is NaN in C, is never looked at and
    is 0 here. -/
def doubleArith : Arith F64 F64 where
  zeroW := F64.of 0
  dmax := F64.max
  zeroS := F64.of 0
  add a b := F64.of (a.1 + b.1)
  term k w b := match b with
    | some b => F64.of (k * (F64.of ((F64.of (1 / w.1)).1 - (F64.of (1 / b.1)).1)).1)
    | none => F64.of 0

/-- The operation on scores: `1 - (epsilon_max / epsilon)`, /repo/src/hdbscan.c 1180. -/
def doubleScore : Outlier.Ops F64 F64 where
  zero := F64.of 0
  ratio a b := F64.of (1 - (F64.of (a.1 / b.1)).1)

/-- The library on `double` data. -/
def doubleEnv (qsort : (OScore F64 F64 → OScore F64 F64 → Int) → List (OScore F64 F64) → List (OScore F64 F64)) : Api.Env F64 F64 F64 F64 where
  dops := doubleDist
  ar := doubleArith
  smax := F64.max
  oops := doubleScore
  qsort := qsort

/-- The operations of `hdbscan_calculate_stats`, /repo/src/hdbscan.c 1412-1545. The rounding of `pow` is left open. -/
def doubleStat (pow3 pow4 : F64 → F64) : Stat.Ops F64 where
  zero := F64.of 0
  add a b := F64.of (a.1 + b.1)
  sub a b := F64.of (a.1 - b.1)
  mul a b := F64.of (a.1 * b.1)
  div a b := F64.of (a.1 / b.1)
  ofNat n := F64.of n
  sqrt := F64.sqrt
  pow3 := pow3
  pow4 := pow4

end Verif
