import Verif.Model.HTable
import Verif.Spec.Collections
/-
Specification for the hash table properties C06-C10: what an ideal finite map does.
-/
namespace Verif.Spec
variable {K : Type}

inductive MapOp (K : Type)
  | insert (k : K) (value : Bytes)
  | lookup (k : K) (buf : Bytes)
  | remove (k : K) (buf : Bytes)

/-- What a map call gives back: the return value and the bytes in the caller's buffer after the call. -/
abbrev MapRet := Int × Bytes

/-- The ideal finite map. Looking up or removing an absent key leaves the buffer alone. -/
def mapStep [DecidableEq K] (m : K → Option Bytes) : MapOp K → MapRet × (K → Option Bytes)
  | .insert k v =>
    (match m k with | none => (1, v) | some old => (-1, old), fun x => if x = k then some v else m x)
  | .lookup k buf => (match m k with | none => (0, buf) | some v => (1, v), m)
  | .remove k buf => (match m k with | none => (0, buf) | some v => (1, v), fun x => if x = k then none else m x)

def mapRun [DecidableEq K] : (K → Option Bytes) → List (MapOp K) → List MapRet × (K → Option Bytes)
  | m, [] => ([], m)
  | m, op :: ops =>
    let (r, m') := mapStep m op
    let (rs, m'') := mapRun m' ops
    (r :: rs, m'')

/-- Buffers and values have the size `n` of the value type. -/
def opSized (n : Nat) : MapOp K → Prop
  | .insert _ v => v.length = n
  | .lookup _ b => b.length = n
  | .remove _ b => b.length = n

def isRemove : MapOp K → Bool
  | .remove _ _ => true
  | _ => false

/-- The key a call is about. -/
def opKey : MapOp K → K
  | .insert k _ => k
  | .lookup k _ => k
  | .remove k _ => k

/-- The values among the destructor calls. -/
def destroyedValues (evs : List (HTable.Event K)) : List Bytes :=
  evs.filterMap (fun e => match e with | .destroyValue v => some v | .destroyKey _ => none)

/-- The keys among the destructor calls. -/
def destroyedKeys (evs : List (HTable.Event K)) : List K :=
  evs.filterMap (fun e => match e with | .destroyKey k => some k | .destroyValue _ => none)

/-- The first of the keys `ks` that falls into the same bucket as `k`. -/
def firstOfBucket (hash : K → Nat) (ks : List K) (k : K) : K := (ks.find? (fun x => hash x = hash k)).getD k

end Verif.Spec
