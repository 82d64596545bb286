import Verif.Lemmas.Binary64
import Verif.Spec.Ieee
import Mathlib.Order.WithBot

/-! `float` and `double` with infinities and NaN, and the operations of `distance_compute` for all data types. As in Binary64.lean, results are rounded to the nearest number, ties to even;
    results that are too large are infinite. Simplification: zeros carry no sign, which matters only to divisions by zero. -/

namespace Verif
open Verif.Spec Verif.Binary64

/-- The finite numbers of a format. -/
abbrev Fin754 (f : Format) := {x : ℚ // IsBinary f x ∧ |x| < 2 ^ f.top}

/-- The numbers of a format. -/
inductive Num754 (f : Format) where
  | ninf
  | fin (x : Fin754 f)
  | pinf
  deriving DecidableEq

namespace Num754
variable {f : Format}

/-- The place of a number in the order. -/
def place : Num754 f → WithBot (WithTop (Fin754 f))
  | ninf => ⊥
  | fin x => ((x : WithTop (Fin754 f)) : WithBot (WithTop (Fin754 f)))
  | pinf => ((⊤ : WithTop (Fin754 f)) : WithBot (WithTop (Fin754 f)))

theorem place_injective : Function.Injective (place (f := f)) := by
  intro a b h
  cases a <;> cases b <;> simp_all [place]

instance : LinearOrder (Num754 f) := LinearOrder.lift' place place_injective

end Num754

/-- The values of a format. -/
abbrev Fp (f : Format) := Ieee (Num754 f)

abbrev Flt := Fp binary32
abbrev Dbl := Fp binary64

namespace Fp
variable {f : Format}

/-- A finite number. -/
abbrev fin (x : Fin754 f) : Fp f := .num (.fin x)

/-- An infinity. -/
def inf (neg : Bool) : Fp f := .num (if neg then .ninf else .pinf)

/-- The result of an operation whose exact result is `x`. -/
def of (x : ℚ) : Fp f := if h : |round f x| < 2 ^ f.top then fin ⟨round f x, isBinary_round f x, h⟩ else inf (decide (x < 0))

def neg : Fp f → Fp f
  | .nan => .nan
  | .num .ninf => .num .pinf
  | .num (.fin x) => of (-x.1)
  | .num .pinf => .num .ninf

def add : Fp f → Fp f → Fp f
  | .num (.fin x), .num (.fin y) => of (x.1 + y.1)
  | .num .ninf, .num .pinf => .nan
  | .num .pinf, .num .ninf => .nan
  | .num (.fin _), .num y => .num y
  | .num x, .num _ => .num x
  | _, _ => .nan

def sub (x y : Fp f) : Fp f := add x (neg y)

/-- Whether a number is negative. -/
def isNeg : Num754 f → Bool
  | .ninf => true
  | .fin x => decide (x.1 < 0)
  | .pinf => false

/-- Whether a number is zero. -/
def isZero : Num754 f → Bool
  | .fin x => decide (x.1 = 0)
  | _ => false

def mul : Fp f → Fp f → Fp f
  | .num (.fin x), .num (.fin y) => of (x.1 * y.1)
  | .num x, .num y => if isZero x || isZero y then .nan else inf (isNeg x != isNeg y)
  | _, _ => .nan

def div : Fp f → Fp f → Fp f
  | .num (.fin x), .num (.fin y) => if y.1 = 0 then if x.1 = 0 then .nan else inf (decide (x.1 < 0)) else of (x.1 / y.1)
  | .num (.fin _), .num _ => of 0
  | .num x, .num (.fin y) => inf (isNeg x != isNeg (.fin y))
  | _, _ => .nan

/-- `sqrt` of math.h. -/
def sqrt : Dbl → Dbl
  | .num (.fin x) => if x.1 < 0 then .nan else of (flSqrt x.1)
  | .num .pinf => .num .pinf
  | _ => .nan

/-- The conversion of `float` to `double`. -/
def widen : Flt → Dbl
  | .nan => .nan
  | .num .ninf => .num .ninf
  | .num (.fin x) => of x.1
  | .num .pinf => .num .pinf

/-- `D_MAX`, /repo/config.h.in 18, which is configured as `DBL_MAX`. -/
def max : Dbl := of ((2 ^ 53 - 1) * 2 ^ 971)

end Fp

/-- The operations of `distance_compute` after the subtraction, /repo/src/distance.c 150-197. -/
def fpDist {D : Type} (diff : D → D → Outcome Dbl) : DistOps D Dbl := ⟨diff, Fp.add, Fp.mul, Fp.sqrt, Fp.of 0⟩

/-- `double` data, distance.c 160-163. -/
def doubleOps : DistOps Dbl Dbl := fpDist fun a b => .ok (a.sub b)

/-- `float` data, distance.c 165-168: the difference is a `float` and is then converted. -/
def floatOps : DistOps Flt Dbl := fpDist fun a b => .ok (Fp.widen (a.sub b))

/-- `int`, `long`, `short` and `char` data, distance.c 170-188: the difference is an integer of `bits` bits and is then converted; 64 for `long`, otherwise 32, since
    `short` and `char` are converted to `int` before they are subtracted. -/
def integerOps (bits : Nat) : DistOps ℤ Dbl := fpDist fun a b => if -2 ^ (bits - 1) ≤ a - b ∧ a - b < 2 ^ (bits - 1) then .ok (Fp.of ((a - b : ℤ) : ℚ)) else .ub "signed overflow"

/-- The operations on stabilities: `numPoints * (1 / level - 1 / birthLevel)`, /repo/src/cluster.c 125; the birth level of the root is NaN. -/
def fpArith : Arith Dbl Dbl where
  zeroW := Fp.of 0
  dmax := Fp.max
  zeroS := Fp.of 0
  add := Fp.add
  term k w b := Fp.mul (Fp.of k) (((Fp.of 1).div w).sub ((Fp.of 1).div (b.getD .nan)))

/-- The operation on scores: `1 - (epsilon_max / epsilon)`, /repo/src/hdbscan.c 1180. Scores are numbers here; the score of two numbers that give NaN is 0, but both are finite and the second is
    not 0. -/
def fpScore : Outlier.Ops Dbl (Num754 binary64) where
  zero := match (Fp.of 0 : Dbl) with | .num v => v | .nan => .pinf
  ratio a b := match (Fp.of 1).sub (a.div b) with | .num v => v | .nan => match (Fp.of 0 : Dbl) with | .num v => v | .nan => .pinf

/-- The library, for data with the operations `ops`. -/
def fpEnv {D : Type} (ops : DistOps D Dbl) (qsort : (OScore Dbl (Num754 binary64) → OScore Dbl (Num754 binary64) → Int) → List (OScore Dbl (Num754 binary64)) → List (OScore Dbl (Num754 binary64))) :
    Api.Env D Dbl Dbl (Num754 binary64) where
  dops := ops
  ar := fpArith
  smax := Fp.max
  oops := fpScore
  qsort := qsort

end Verif
