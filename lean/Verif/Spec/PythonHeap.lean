import Verif.Model.PythonHeap
/-
Vocabulary of the property about the memory of the Python binding.
-/
namespace Verif.Spec
open Mem

/-- Blocks that a call allocates and that no call ever releases: the struct of an object; the table of a cluster map with its bucket array and key set (4 blocks) and, for each of `k`
    labels, an entry with two blocks and a list (2 blocks). -/
def leaked : PyCall → Nat
  | .construct => 1
  | .clusterMap k => 4 + 5 * k
  | _ => 0

def leakedAll (cs : List PyCall) : Nat := (cs.map leaked).sum

/-- What is done with an object between its first run and its deletion, if it is the only one and is run once. -/
inductive Between : PyCall → Prop
  | rerun (s : Shape) : Between (.rerun s)
  | clusterMap (k : Nat) : Between (.clusterMap k)

/-- Objects that are constructed, run once on at least five points, used and deleted, one after the other. -/
inductive OneByOne : List PyCall → Prop
  | nil : OneByOne []
  | cons (s : Shape) (n : Nat) (us rest : List PyCall) : 5 ≤ n → (∀ c ∈ us, Between c) → OneByOne rest → OneByOne (.construct :: .run s n :: (us ++ .drop :: rest))

end Verif.Spec
