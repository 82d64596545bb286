import Verif.Model.Fp
import Verif.Model.Report

/-! The operations and constants of the report on a clustering, for distances of type `double`. -/

namespace Verif
open Verif.Spec

/-- The operations of `hdbscan_calculate_stats`, /repo/src/hdbscan.c 1340-1355 and 1412-1545. The functions `pow(x, 3)` and `pow(x, 4)` of the C library are left open. -/
def fpStat (pow3 pow4 : Dbl → Dbl) : Stat.Ops Dbl where
  zero := Fp.of 0
  add := Fp.add
  sub := Fp.sub
  mul := Fp.mul
  div := Fp.div
  ofNat n := Fp.of n
  sqrt := Fp.sqrt
  pow3 := pow3
  pow4 := pow4

/-- `D_MIN`, /repo/config.h.in 19, which is configured as `DBL_MIN`. -/
def Fp.min : Dbl := Fp.of (2 ^ (-1022 : ℤ))

/-- The constants of `hdbscan_get_min_max_distances`, /repo/src/hdbscan.c 1249-1317. -/
def fpConsts : DMap.Consts Dbl := ⟨Fp.of 0, Fp.min, Fp.max⟩

end Verif
