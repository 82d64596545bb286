import Verif.Model.Outlier
import Verif.Model.Primes
/-
Model of the functions a user calls, /repo/src/hdbscan.c 55-66, 109-133 and 236-330, as far as their results are concerned. What they
allocate and release is modelled in Verif/Model/Heap.lean.
-/
namespace Verif.Api
variable {D W S T : Type}

/-- `hdbscan_get_dataset_size`, hdbscan.c 60-66; `rowwise` says whether the argument equals 1. The product is `unsigned int`. -/
def datasetSize (rows cols : Nat) (rowwise : Bool) : Nat := if rowwise then rows else rows * cols % 2 ^ 32

/-- The initial size of the containers, hdbscan.c 237-241 and 321-325. -/
def csize (numPoints : Nat) : Nat := if numPoints / 5 < 4 then numPoints / 5 * 4 else numPoints / 5

/-- The arithmetic of the data type, of `distance_t` and of `double`, and the `qsort` of the C library. -/
structure Env (D W S T : Type) where
  dops : DistOps D W
  ar : Arith W S
  smax : S
  oops : Outlier.Ops W T
  qsort : (OScore W T → OScore W T → Int) → List (OScore W T) → List (OScore W T)

/-- The order in which the iterations of the parallel loops are executed during one call. -/
structure Par where
  pairs : List (Nat × Nat)
  cores : List Nat
  sch : Run.Schedule
  scores : List Nat

/-- The observable content of an `hdbscan` object after a run. -/
structure Obj (W S T : Type) where
  minPoints : Nat
  numPoints : Nat
  dis : Distance W
  results : Run.Full W S T

/-- `hdbscan_init`, hdbscan.c 109-133: the minPoints it stores. -/
def initObj (minPoints : Nat) : Outcome Nat := if 1 < minPoints then .ok minPoints else .abort "minPoints > 1"

/-- `hdbscan_do_run`, hdbscan.c 236-268. The hierarchy table is created here; its contents are part of the result of `Run.full`. -/
def doRun [CCmp W] [CCmp S] [CCmp T] (env : Env D W S T) (par : Par) (minPoints : Nat) (dis : Distance W) (n : Nat) : Outcome (Obj W S T) := do
  let _ ← (HTable.init (csize n) .long .ptr : Outcome (HTable.Table Int))
  let r ← Run.full env.qsort env.ar env.smax env.oops par.sch par.scores minPoints dis n
  return { minPoints := minPoints, numPoints := n, dis := dis, results := r }

/-- `hdbscan_run`, hdbscan.c 304-330, on an initialised object: distances, then the cluster list and the stability table, then the stages. -/
def run [CCmp W] [CCmp S] [CCmp T] (env : Env D W S T) (par : Par) (minPoints : Nat) (data : List D) (rows cols : Nat) (rowwise : Bool) : Outcome (Obj W S T) := do
  let dis ← Distance.compute env.dops env.ar.dmax par.pairs par.cores data rows cols (subIndex minPoints 1)
  let _ ← (AList.init (csize (datasetSize rows cols rowwise)) : Outcome (AList Nat))
  let _ ← (HTable.init (csize (datasetSize rows cols rowwise)) .int .ptr : Outcome (HTable.Table Int))
  doRun env par minPoints dis (datasetSize rows cols rowwise)

/-- `hdbscan_init` followed by `hdbscan_run`. -/
def fresh [CCmp W] [CCmp S] [CCmp T] (env : Env D W S T) (par : Par) (minPoints : Nat) (data : List D) (rows cols : Nat) (rowwise : Bool) : Outcome (Obj W S T) := do
  let m ← initObj minPoints
  run env par m data rows cols rowwise

/-- `hdbscan_rerun`, hdbscan.c 277-291. For `minPts = 0` the number of neighbours wraps to 2^32 - 1 and the array `sortedDistance` of
    `distance_get_core_distances` (distance.c 219) gets no elements. -/
def rerun [CCmp W] [CCmp S] [CCmp T] (env : Env D W S T) (par : Par) (minPts : Nat) (o : Obj W S T) : Outcome (Obj W S T) :=
  if minPts = 0 then .ub "array of length 0"
  else do
    let dis ← Distance.getCoreDistances env.dops.zero env.ar.dmax par.cores { o.dis with numNeighbors := subIndex minPts 1 }
    doRun env par minPts dis o.numPoints

/-- A sequence of reruns. -/
def reruns [CCmp W] [CCmp S] [CCmp T] (env : Env D W S T) : List (Nat × Par) → Obj W S T → Outcome (Obj W S T)
  | [], o => .ok o
  | (m, par) :: r, o => do
    let o' ← rerun env par m o
    reruns env r o'

end Verif.Api
