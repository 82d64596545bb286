import Mathlib.Order.Defs.LinearOrder
import Verif.Model.Outcome
/-
Model of /repo/modules/utils/src/utils.c and the macros of /repo/modules/utils/include/hdbscan/utils.h.
-/
namespace Verif

/-- `highestPowerof2`, utils.c 45-49: `2^((size_t)log2(n) + 1)`.
    Simplification: `log2`/`pow` in doubles are taken to be exact (true for `n < 2^53`). `log2(0)` is `-inf`,
    whose conversion to `size_t` is undefined. -/
def highestPowerof2 (n : Nat) : Outcome Nat :=
  if n = 0 then .ub "conversion of -inf to size_t" else .ok (2 ^ (Nat.log2 n + 1))

/-- Three-way comparison of integers as done by `int_compare` (utils.c 51-65), `short_compare` (131-145),
    `long_compare` (171-184), `char_compare` (245-258): 1, 0 or -1. -/
def intCompare (a b : Int) : Int :=
  if a > b then 1 else if a = b then 0 else -1

/-- The signed 32-bit value of an unsigned 32-bit pattern: what `int_compare` sees when it is handed an
    `unsigned int` (`index_t`, `label_t`), utils.c 53-55. -/
def asInt32 (n : Nat) : Int :=
  let m : Nat := n % 2 ^ 32
  if m < 2 ^ 31 then (m : Int) else (m : Int) - 2 ^ 32

/-- `int_compare` applied to two `unsigned int`s (utils.c 51-65 as used at hdbscan.c 389-405). -/
def indexCompare (a b : Nat) : Int := intCompare (asInt32 a) (asInt32 b)

/-- `ptr_compare`, utils.c 282-294: compares addresses. -/
def ptrCompare (a b : Nat) : Int :=
  if a > b then 1 else if a = b then 0 else -1

/-- `cluster_compare`, /repo/src/cluster.c 237-260, on the labels of the two clusters; `none` is a NULL pointer. -/
def clusterCompare (a b : Option Nat) : Int :=
  match a, b with
  | none, _ => -1
  | _, none => 1
  | some l1, some l2 => if l1 > l2 then 1 else if l1 = l2 then 0 else -1

/-- The comparison of floating point values, with NaN comparing as C prescribes. -/
class CCmp (D : Type) where
  lt : D → D → Bool
  le : D → D → Bool
  eq : D → D → Bool

/-- Values without NaN: the C operators are those of a linear order. -/
instance {D : Type} [LinearOrder D] : CCmp D where
  lt a b := decide (a < b)
  le a b := decide (a ≤ b)
  eq a b := decide (a = b)

@[simp] theorem ccmp_lt {D : Type} [LinearOrder D] (a b : D) : CCmp.lt a b = decide (a < b) := rfl
@[simp] theorem ccmp_le {D : Type} [LinearOrder D] (a b : D) : CCmp.le a b = decide (a ≤ b) := rfl
@[simp] theorem ccmp_eq {D : Type} [LinearOrder D] (a b : D) : CCmp.eq a b = decide (a = b) := rfl

/-- Floating point values as far as comparisons see them: NaN, the infinities, and finite values (here integers, which
    is enough for the counterexamples this type is used in). -/
inductive Fl | nan | ninf | fin (x : Int) | pinf
  deriving Repr, DecidableEq

/-- IEEE comparison: everything involving NaN is false. -/
instance : CCmp Fl where
  lt
    | .nan, _ => false
    | _, .nan => false
    | .ninf, .ninf => false
    | .ninf, _ => true
    | _, .ninf => false
    | .pinf, _ => false
    | _, .pinf => true
    | .fin a, .fin b => decide (a < b)
  le
    | .nan, _ => false
    | _, .nan => false
    | .ninf, _ => true
    | _, .ninf => false
    | _, .pinf => true
    | .pinf, _ => false
    | .fin a, .fin b => decide (a ≤ b)
  eq
    | .nan, _ => false
    | a, b => decide (a = b)

/-- `double_compare`, utils.c 90-105 (`float_compare` 208-221 is the same): 1 if `a > b`, 0 if `a == b`, else -1. -/
def doubleCompare {D : Type} [CCmp D] (a b : D) : Int :=
  if CCmp.lt b a then 1 else if CCmp.eq a b then 0 else -1

/-- The value types of `enum HTYPES`, /repo/modules/utils/include/hdbscan/utils.h. -/
inductive HType | double | float | int | long | short | char | string | ptr
  deriving Repr, DecidableEq

/-- `get_htype_size`, utils.c 297-314, on an LP64 machine. -/
def getHtypeSize : HType → Nat
  | .double => 8
  | .float => 4
  | .long => 8
  | .short => 2
  | .int => 4
  | .char => 1
  | .string => 8
  | .ptr => 8

/-- Conversion of a signed integer to `size_t` (modulo `2^64`). -/
def toSizeT (k : Int) : Nat := (k % (2 ^ 64 : Int)).toNat

/-- `int_hash`, `long_hash`, `short_hash`, `char_hash`, utils.c 316-342: the key converted to `size_t`
    modulo the number of buckets; modulo zero is undefined. -/
def intHash (k : Int) (buckets : Nat) : Outcome Nat :=
  if buckets = 0 then .ub "modulo zero" else .ok (toSizeT k % buckets)

/-- One step of the loop of `str_hash`, utils.c 363-375, in 32-bit unsigned arithmetic. `(uint)(*cptr)` converts a
    (signed) `char` to 32 bits; the argument is that converted value. -/
def strHashStep (val c : BitVec 32) : BitVec 32 :=
  let v := (val <<< 4) + c
  let tmp := v &&& 0xf0000000#32
  if tmp ≠ 0#32 then (v ^^^ (tmp >>> 24)) ^^^ tmp else v

/-- `str_hash`, utils.c 358-380. The key is the list of characters before the terminating NUL. -/
def strHash (key : List (BitVec 32)) (buckets : Nat) : Outcome Nat :=
  if buckets = 0 then .ub "modulo zero"
  else .ok ((key.foldl strHashStep 0#32).toNat % buckets)

end Verif
