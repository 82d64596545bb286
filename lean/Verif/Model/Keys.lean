import Verif.Model.Histories
import Verif.Model.HTable
import Mathlib.Data.Rat.Floor
/-
Model of hash tables with keys that are floating point numbers or strings: `double_hash`, `float_hash` and `str_hash`, /repo/modules/utils/src/utils.c 344-380, in the hash tables of
/repo/modules/collections/src/hashtable.c.

A table does two things with a key: it hashes it and it compares it. Both see of the key's bytes only a part, the observation, and the entries of the modelled table hold the observations. What
observing a key does is done by `key_hash` before anything else (hashtable.c 185, 230).
-/
namespace Verif.Keys
open Spec
variable {K O : Type}

/-- The key of a call. -/
def key : MapOp K → K
  | .insert k _ => k
  | .lookup k _ => k
  | .remove k _ => k

/-- The same call with another key. -/
def withKey (o : O) : MapOp K → MapOp O
  | .insert _ v => .insert o v
  | .lookup _ b => .lookup o b
  | .remove _ b => .remove o b

/-- One call on a hash table: hash the key, then go on. -/
def step (observe : K → Outcome O) (cmp : O → O → Int) (hash : O → Nat) (t : HTable.Table O) (op : MapOp K) : Outcome (MapRet × HTable.Table O) := do
  let o ← observe (key op)
  HTable.step cmp hash t (withKey o op)

/-- A history of calls. -/
def run (observe : K → Outcome O) (cmp : O → O → Int) (hash : O → Nat) : HTable.Table O → List (MapOp K) → Outcome (List MapRet × HTable.Table O)
  | t, [] => .ok ([], t)
  | t, op :: ops => do
    let (r, t') ← step observe cmp hash t op
    let (rs, t'') ← run observe cmp hash t' ops
    return (r :: rs, t'')

/-! ### Floating point numbers -/

/-- A floating point number. The two zeros are one: nothing here tells them apart. -/
inductive Dbl
  | nan
  | ninf
  | fin (x : Rat)
  | pinf
  deriving DecidableEq

/-- The conversion to `size_t` in `double_hash` and `float_hash`, utils.c 347, 354, is undefined unless the integral part fits. -/
def observeDbl : Dbl → Outcome Rat
  | .fin x => if -1 < x ∧ x < 18446744073709551616 then .ok x else .ub "conversion of a floating point number to size_t"
  | _ => .ub "conversion of a floating point number to size_t"

/-- `double_hash`, `float_hash`, utils.c 344-356: the integral part modulo the number of buckets. (Between -1 and 0 it is 0.) -/
def dblHash (buckets : Nat) (x : Rat) : Nat := ⌊x⌋.toNat % buckets

/-! ### Strings -/

/-- The bytes of a pointer in memory, least significant first. -/
def bytesOf (a : Nat) : List Nat := (List.range 8).map (fun i => a / 256 ^ i % 256)

/-- What `str_hash` (utils.c 358-380) and `strcmp` see of a key of type `char *`: they are given the address of the pointer and read its bytes up to the first zero byte. Without one they read on
    behind the pointer. -/
def observeStr (a : Nat) : Outcome (List Nat) := if 0 ∈ bytesOf a then .ok ((bytesOf a).takeWhile (· ≠ 0)) else .ub "read behind the end of a pointer"

/-- `strcmp` of the C library, up to the size of its result. -/
def strcmp : List Nat → List Nat → Int
  | [], [] => 0
  | [], _ :: _ => -1
  | _ :: _, [] => 1
  | a :: r, b :: s => if a < b then -1 else if b < a then 1 else strcmp r s

/-- `(uint)(*cptr)`, utils.c 366: `char` is signed. -/
def signExtend (c : Nat) : BitVec 32 := if c < 128 then BitVec.ofNat 32 c else BitVec.ofNat 32 (c + 4294967040)

/-- `str_hash`, utils.c 358-380, on the bytes before the zero byte. -/
def textHash (buckets : Nat) (s : List Nat) : Nat := ((s.map signExtend).foldl strHashStep 0#32).toNat % buckets

end Verif.Keys
