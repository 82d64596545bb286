import Verif.Spec.HTable
/-
Specification for the second part of C07: which removals lose other keys. An account of each bucket is kept: its keys, the newest first, and for each key
whether the link to the next newer key is lost. The link of a key is lost when the next newer key is removed.
-/
namespace Verif.Spec
variable {K : Type}

/-- The keys of one bucket, the newest first; `true` marks a key whose link to the next newer key is lost. -/
abbrev Bucket (K : Type) := List (K × Bool)

/-- Mark the first key of a list of keys. -/
def markFirst (lost : Bool) : Bucket K → Bucket K
  | [] => []
  | (k, _) :: r => (k, lost) :: r

/-- A key that is not there becomes the newest, and the newest so far is linked to it. -/
def bucketInsert [DecidableEq K] (k : K) (l : Bucket K) : Bucket K :=
  if k ∈ l.map (·.1) then l else (k, false) :: markFirst false l

/-- A key is taken out, and the key behind it loses its link. -/
def bucketRemove [DecidableEq K] (k : K) : Bucket K → Bucket K
  | [] => []
  | (x, c) :: r => if x = k then markFirst true r else (x, c) :: bucketRemove k r

/-- The account of all buckets after a call. -/
def bucketsStep [DecidableEq K] (hash : K → Nat) (st : Nat → Bucket K) : MapOp K → Nat → Bucket K
  | .insert k _ => fun b => if b = hash k then bucketInsert k (st b) else st b
  | .lookup _ _ => st
  | .remove k _ => fun b => if b = hash k then bucketRemove k (st b) else st b

/-- Removing `k` loses keys: its link is lost and it is not the newest key of its bucket. -/
def Loses (hash : K → Nat) (st : Nat → Bucket K) (k : K) : Prop := (k, true) ∈ (st (hash k)).tail

/-- No call of the history removes a key whose link is lost, unless it is the newest of its bucket. -/
def SafeHistory [DecidableEq K] (hash : K → Nat) : (Nat → Bucket K) → List (MapOp K) → Prop
  | _, [] => True
  | st, .remove k b :: ops => ¬ Loses hash st k ∧ SafeHistory hash (bucketsStep hash st (.remove k b)) ops
  | st, op :: ops => SafeHistory hash (bucketsStep hash st op) ops

/-- The account after a history. -/
def bucketsAfter [DecidableEq K] (hash : K → Nat) (st : Nat → Bucket K) (ops : List (MapOp K)) : Nat → Bucket K :=
  ops.foldl (bucketsStep hash) st

/-- `x` is in the bucket of `k` and newer. -/
def NewerInBucket (hash : K → Nat) (st : Nat → Bucket K) (x k : K) : Prop :=
  ∃ l r c, st (hash k) = l ++ (k, c) :: r ∧ x ∈ l.map (·.1)

end Verif.Spec
