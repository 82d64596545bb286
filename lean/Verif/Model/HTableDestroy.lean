import Verif.Model.HTable
/-
Destroying a hash table.
-/
namespace Verif.HTable
variable {K : Type}

/-- `hashtable_destroy`, hashtable.c 390-403: the destructor calls in order, and what is left on the heap of the entries. Simplification: the blocks of the keys set, of the
    bucket array and of the structure itself, which are given back unconditionally after the clearing, are not modelled. -/
def destroy (hash : K → Nat) (kd vd : Bool) (t : Table K) : Outcome (List (Event K) × (Nat → Option (Entry K))) := do
  let (evs, t1) ← clear hash kd vd t
  return (evs, t1.heap)

end Verif.HTable
