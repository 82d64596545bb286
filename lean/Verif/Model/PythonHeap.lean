import Verif.Model.Heap
import Verif.Model.Python
/-
Model of the memory of the library that the Python binding (/repo/modules/python/src/PyHdbscan.c) allocates and releases through the global variable `scan`.
-/
namespace Verif.Mem

/-- What the binding does with the library: `hdbscan_init` (line 139), `hdbscan_clean` (line 77: deletion of an object or refused construction), `hdbscan_run` (line 230), `hdbscan_rerun`
    (line 258), `hdbscan_create_cluster_map` (line 290; `k` labels occur). -/
inductive PyCall where
  | construct
  | drop
  | run (s : Shape) (n : Nat)
  | rerun (s : Shape)
  | clusterMap (k : Nat)

/-- The table of `hdbscan_create_cluster_map`, hdbscan.c 1205-1240, which the binding does not release; its arrays look into the lists. -/
def leakMap (k : Nat) : M Unit := do
  let t ← tableInit
  let _ ← addGroups k t
  return ()

/-- One call; the argument and the result are what `scan` points to. `construct` overwrites `scan`, line 139. A null pointer is followed at the latest after the call, lines 233 and 290. -/
def pyStep (scan : Option Obj) : PyCall → M (Option Obj)
  | .construct => do
    let o ← init
    return some o
  | .drop =>
    match scan with
    | none => fail (.ub "null pointer")
    | some o => do
      let o' ← clean o
      return some o'
  | .run s n =>
    match scan with
    | none => fail (.ub "null pointer")
    | some o => do
      let o' ← run s n o
      return some o'
  | .rerun s =>
    match scan with
    | none => fail (.ub "null pointer")
    | some o => do
      let o' ← rerun s o
      return some o'
  | .clusterMap k =>
    match scan with
    | none => fail (.ub "null pointer")
    | some o => do
      use o.self
      leakMap k
      return some o

def pySteps : List PyCall → Option Obj → M (Option Obj)
  | [], o => return o
  | c :: r, o => do
    let o' ← pyStep o c
    pySteps r o'

end Verif.Mem

namespace Verif.Py
variable {D W S T : Type}
open Mem

/-- What an expression of a Python program does with the library; the shape and the number of labels are free. -/
def effect (st : State W S T) (s : Shape) (k : Nat) : Call D → List PyCall
  | .construct id arg =>
    match st.objs id, arg with
    | some _, _ => []
    | none, none => [.drop]
    | none, some v => if toIndex v < 2 then [.drop] else [.construct]
  | .run id _ a =>
    match st.objs id, a.typeOk, dims a.shape with
    | some _, true, .ok (rows, _) => [.run s rows]
    | _, _, _ => []
  | .rerun id _ arg =>
    match st.objs id, asInt arg with
    | some _, some v => if toIndex v < 2 then [] else [.rerun s]
    | _, _ => []
  | .getClusterMap id arg =>
    match st.objs id, asInts arg with
    | some _, some _ => [.clusterMap k]
    | _, _ => []
  | .delete id =>
    match st.objs id with
    | some _ => [.drop]
    | none => []
  | _ => []

/-- What a program does with the library. -/
def effects [CCmp W] [CCmp S] [CCmp T] (env : Api.Env D W S T) : List (Call D × Shape × Nat) → State W S T → List PyCall
  | [], _ => []
  | (c, s, k) :: r, st =>
    match step env st c with
    | .ok (_, st1) => effect st s k c ++ effects env r st1
    | _ => effect st s k c

end Verif.Py
