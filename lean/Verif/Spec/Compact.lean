import Verif.Model.Compact
/-
Vocabulary of property C70.
-/
namespace Verif.Spec
variable {W S T : Type}

/-- Line `k` of the full hierarchy is part of the compact one: it is the last one (number 0), or some cluster is born right after it or right before it (`offset` is the number of the
    line before the first one that carries the label, 0 for the root). -/
def kept (cs : List (Option (Cl W S))) (k : Nat) : Bool := k == 0 || cs.any fun c => c.any fun c => c.offset == k || c.offset + 1 == k

/-- The number of line `k` in the compact hierarchy: how many of the lines 1, ..., `k` are kept. -/
def number (cs : List (Option (Cl W S))) (k : Nat) : Nat := ((List.range k).filter fun i => kept cs (i + 1)).length

/-- `b` is the result `a` with the lines that are not kept left out and the others renumbered; everything else is the same. -/
structure Compacted (a b : Run.Full W S T) : Prop where
  hierarchy : b.hierarchy = (a.hierarchy.filter fun x => kept a.clusters x.1).map fun x => (number a.clusters x.1, x.2)
  clusters : b.clusters = a.clusters.map fun c => c.map fun c => { c with offset := number a.clusters c.offset }
  noise : b.noise = a.noise
  last : b.last = a.last
  infinite : b.infinite = a.infinite
  labels : b.labels = a.labels
  outliers : b.outliers = a.outliers

end Verif.Spec
