import Verif.Model.Python
import Verif.Spec.Api
import Verif.Spec.ClusterMap
/-
Vocabulary of the properties of the Python binding.
-/
namespace Verif.Spec
open Py
variable {D W S T : Type}

/-- An array of `rows` rows and `cols` columns; one dimension stands for one column. -/
def HasDims (a : Arr D) (rows cols : Nat) : Prop := a.shape = [rows] ∧ cols = 1 ∨ a.shape = [rows, cols] ∧ cols < 4294967296

/-- An array the library can cluster with `minPoints = m`: element type and numbers are supported, 5 to 65536 rows, at least `m` of them. -/
structure Fit [LinearOrder W] (env : Api.Env D W S T) (a : Arr D) (m : Nat) : Prop where
  type : a.typeOk = true
  min : 2 ≤ m
  dims : ∃ rows cols f, HasDims a rows cols ∧ Supported env a.data rows cols f ∧ 5 ≤ rows ∧ m ≤ rows

/-- `o` is what `hdbscan_init(m)` and `hdbscan_run` of the C library compute for the array. -/
def Answer [CCmp W] [CCmp S] [CCmp T] (env : Api.Env D W S T) (m : Nat) (a : Arr D) (o : Api.Obj W S T) : Prop :=
  ∃ rows cols, HasDims a rows cols ∧ ∀ par, Complete rows rows par → Api.fresh env par m a.data rows cols true = .ok o

/-- The schedule of a call on an array executes every iteration once. -/
def CompleteFor (a : Arr D) (par : Api.Par) : Prop := ∀ rows cols, HasDims a rows cols → Complete rows rows par

/-- What a program does with an object it has run. -/
inductive Use (D : Type) where
  /-- cluster another array -/
  | run (par : Api.Par) (a : Arr D)
  /-- cluster the same array with another minPoints -/
  | rerun (par : Api.Par) (m : Nat)
  /-- read `labels` -/
  | labels
  /-- call `getClusterMap` and read `clusterMap` -/
  | clusterMap (b e : Nat)
  /-- call `getHierarchies` and read the arrays of `hierarchy` -/
  | hierarchy

/-- The expressions of a use. -/
def Use.calls (id : Nat) : Use D → List (Call D)
  | .run par a => [.run id par a]
  | .rerun par m => [.rerun id par (some m)]
  | .labels => [.labels id]
  | .clusterMap b e => [.getClusterMap id (some (b, e)), .clusterMap id]
  | .hierarchy => [.getHierarchies id, .hierarchy id]

/-- What an object was asked to cluster last: minPoints and array. -/
structure Job (D : Type) where
  m : Nat
  a : Arr D

def Job.after (j : Job D) : Use D → Job D
  | .run _ a => { j with a := a }
  | .rerun _ m => { j with m := m }
  | _ => j

/-- Arguments within the limits of the library. -/
def Allowed [LinearOrder W] (env : Api.Env D W S T) (j : Job D) : Use D → Prop
  | .run par a => Fit env a j.m ∧ CompleteFor a par
  | .rerun par m => Fit env j.a m ∧ CompleteFor j.a par
  | .clusterMap b e => b + 3 ≤ e ∧ ∀ rows cols, HasDims j.a rows cols → e ≤ rows
  | _ => True

/-- A sequence of uses within the limits. -/
def AllAllowed [LinearOrder W] (env : Api.Env D W S T) : Job D → List (Use D) → Prop
  | _, [] => True
  | j, u :: us => Allowed env j u ∧ AllAllowed env (j.after u) us

/-- The right replies to a use, when `o` is what the C library computes for the object's job. -/
def RightReply (o : Api.Obj W S T) : Use D → List Reply → Prop
  | .run _ _, r => r = [.code 0]
  | .rerun _ _, r => r = [.code 0]
  | .labels, r => r = [.labels o.results.labels]
  | .clusterMap b e, r => ∃ m, IsClusterMap o.results.labels b e m ∧ r = [.clusterMap m, .clusterMap m]
  | .hierarchy, r => r = [.code 1, .hierarchy (o.results.hierarchy.map (fun e => (e.1, e.2.2)))]

/-- The right replies to a sequence of uses. -/
def RightReplies [CCmp W] [CCmp S] [CCmp T] (env : Api.Env D W S T) : Job D → List (Use D) → List Reply → Prop
  | _, [], r => r = []
  | j, u :: us, r => ∃ o r1 r2, Answer env (j.after u).m (j.after u).a o ∧ RightReply o u r1 ∧ RightReplies env (j.after u) us r2 ∧ r = r1 ++ r2

/-- An argument that the constructor refuses: not an integer, or (after wrapping around at 2^32) 0 or 1. -/
def Refused : Option Int → Prop
  | none => True
  | some v => toIndex v < 2

/-- An argument that `rerun` refuses: not an integer, outside the range of `int`, or 0 or 1. -/
def RefusedRerun : Option Int → Prop
  | none => True
  | some v => v < -2147483648 ∨ 2147483648 ≤ v ∨ v = 0 ∨ v = 1

/-- Calls that neither release a hierarchy nor replace the dictionary `hierarchy` of the object `id`: no `rerun`, no deletion, no refused construction. -/
def Keeps (id : Nat) : Call D → Prop
  | .rerun _ _ _ => False
  | .delete _ => False
  | .construct _ arg => ¬ Refused arg
  | .getHierarchies i => i ≠ id
  | _ => True

end Verif.Spec
