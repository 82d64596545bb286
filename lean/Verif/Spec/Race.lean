import Verif.Model.Race
/-
Vocabulary of property C37.
-/
namespace Verif.Spec
open Race

/-- `acts` interleaves the iterations 0, ..., m - 1: each makes its two accesses exactly once, the assignment before the write. -/
structure Interleaving (m : Nat) (acts : List Access) : Prop where
  once : acts.Perm ((List.range m).flatMap (fun i => [.assign i, .write i]))
  before : ∀ i, i < m → ∃ a b c, acts = a ++ .assign i :: (b ++ .write i :: c)

/-- The iterations are executed one after the other in the order `order`, as by a single thread. -/
def oneByOne (order : List Nat) : List Access := order.flatMap (fun i => [.assign i, .write i])

/-- The outcome the loop is meant to have: the offsets of the clusters in `fresh` are `lineCount`, nothing else changes. -/
def OffsetsSet {W S : Type} (lineCount : Nat) (fresh : List Nat) (cs cs' : List (Option (Cl W S))) : Prop :=
  ∀ l, cs'[l]? = (cs[l]?).map (fun (x : Option (Cl W S)) => x.map (fun c => if l ∈ fresh then { c with offset := lineCount } else c))

end Verif.Spec
