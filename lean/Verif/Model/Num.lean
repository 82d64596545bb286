import Verif.Model.Fp

/-! `double` data without NaN: the distances are numbers or infinite, so that they are totally ordered. -/

namespace Verif
open Verif.Spec Verif.Binary64

/-- A value as a number. NaN does not occur where this is used. -/
def Fp.toNum : Dbl → Num754 binary64
  | .num v => v
  | .nan => .pinf

/-- Finite `double` data, /repo/src/distance.c 150-163 and 186-197. The differences of finite numbers are finite or infinite, sums of their squares and the roots thereof as well, so that no NaN occurs. -/
def numOps : DistOps (Fin754 binary64) (Num754 binary64) where
  diff a b := .ok ((Fp.fin a).sub (Fp.fin b)).toNum
  add x y := (Fp.add (.num x) (.num y)).toNum
  mul x y := (Fp.mul (.num x) (.num y)).toNum
  sqrt x := (Fp.sqrt (.num x)).toNum
  zero := (Fp.of 0).toNum

/-- The operations on stabilities, as in `fpArith`: `numPoints * (1 / level - 1 / birthLevel)`, /repo/src/cluster.c 125. -/
def numArith : Arith (Num754 binary64) Dbl where
  zeroW := (Fp.of 0).toNum
  dmax := Fp.max.toNum
  zeroS := Fp.of 0
  add := Fp.add
  term k w b := fpArith.term k (.num w) (b.map .num)

/-- The operation on scores, `1 - (epsilon_max / epsilon)`, /repo/src/hdbscan.c 1180, as in `fpScore`. -/
def numScore : Outlier.Ops (Num754 binary64) (Num754 binary64) where
  zero := fpScore.zero
  ratio a b := fpScore.ratio (.num a) (.num b)

/-- The library, for finite `double` data. -/
def numEnv (qsort : (OScore (Num754 binary64) (Num754 binary64) → OScore (Num754 binary64) (Num754 binary64) → Int) →
    List (OScore (Num754 binary64) (Num754 binary64)) → List (OScore (Num754 binary64) (Num754 binary64))) : Api.Env (Fin754 binary64) (Num754 binary64) Dbl (Num754 binary64) where
  dops := numOps
  ar := numArith
  smax := Fp.max
  oops := numScore
  qsort := qsort

end Verif
