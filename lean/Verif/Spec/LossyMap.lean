import Verif.Spec.Buckets
/-
Specification for the third part of C07 and for C118: what the hash table of the library does under every history of calls. It is an ideal map, but for one thing: when a key is
removed whose link to the next newer key of its bucket was lost and that is not the newest of its bucket, all newer keys of the bucket go with it.
-/
namespace Verif.Spec
variable {K : Type}

/-- A map that may lose keys: the map, the account of the buckets, and how many keys were lost so far. -/
structure LossyMap (K : Type) where
  map : K → Option Bytes
  account : Nat → Bucket K
  lost : Nat

/-- Nothing stored, nothing lost. -/
def LossyMap.empty : LossyMap K := ⟨fun _ => none, fun _ => [], 0⟩

/-- The keys of a bucket that are newer than `k`. -/
def newerThan [DecidableEq K] (k : K) (l : Bucket K) : List K := (l.takeWhile (fun x => x.1 ≠ k)).map (·.1)

/-- What a bucket holds behind `k`. -/
def olderThan [DecidableEq K] (k : K) (l : Bucket K) : Bucket K := (l.dropWhile (fun x => x.1 ≠ k)).tail

instance [DecidableEq K] (hash : K → Nat) (st : Nat → Bucket K) (k : K) : Decidable (Loses hash st k) := by unfold Loses; infer_instance

/-- One call. It gives back what the ideal map gives back. -/
def LossyMap.step [DecidableEq K] (hash : K → Nat) (s : LossyMap K) : MapOp K → MapRet × LossyMap K
  | .remove k buf =>
    ((mapStep s.map (.remove k buf)).1,
      if Loses hash s.account k then
        { map := fun x => if x = k ∨ x ∈ newerThan k (s.account (hash k)) then none else s.map x
          account := fun b => if b = hash k then markFirst true (olderThan k (s.account b)) else s.account b
          lost := s.lost + (newerThan k (s.account (hash k))).length }
      else { s with map := (mapStep s.map (.remove k buf)).2, account := bucketsStep hash s.account (.remove k buf) })
  | op => ((mapStep s.map op).1, { s with map := (mapStep s.map op).2, account := bucketsStep hash s.account op })

def LossyMap.run [DecidableEq K] (hash : K → Nat) : LossyMap K → List (MapOp K) → List MapRet × LossyMap K
  | s, [] => ([], s)
  | s, op :: ops =>
    let (r, s') := s.step hash op
    let (rs, s'') := run hash s' ops
    (r :: rs, s'')

end Verif.Spec
