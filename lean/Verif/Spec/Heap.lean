import Verif.Model.Heap
/-
The protocol of an `hdbscan` object.
-/
namespace Verif.Spec
open Mem

/-- Where an object is in its life. -/
inductive Phase where
  /-- after `hdbscan_init` -/
  | new
  /-- after `hdbscan_run` or `hdbscan_rerun` -/
  | ready
  /-- after `hdbscan_clean` -/
  | cleaned
  /-- after `hdbscan_destroy` -/
  | gone
  deriving DecidableEq

/-- The calls that are allowed, and where they lead. -/
def next : Phase → Call → Option Phase
  | .new, .run _ n => if 5 ≤ n then some .ready else none
  | .ready, .rerun _ => some .ready
  | .ready, .clean => some .cleaned
  | .ready, .destroy => some .gone
  | .cleaned, .run _ n => if 5 ≤ n then some .ready else none
  | .cleaned, .clean => some .cleaned
  | .cleaned, .destroy => some .gone
  | _, _ => none

/-- Follow the protocol. -/
def follow : Phase → List Call → Option Phase
  | p, [] => some p
  | p, c :: r => (next p c).bind (fun q => follow q r)

/-- A life that follows the protocol to its end. -/
def Proper (cs : List Call) : Prop := follow .new cs = some .gone

/-- A heap as `malloc` keeps it: no block is live twice, new names are unused. -/
structure HeapOk (h : Heap) : Prop where
  nodup : h.live.Nodup
  fresh : ∀ b ∈ h.live, b < h.fresh

end Verif.Spec
