import Verif.Model.Api
import Verif.Model.Python
/-
Model of the Java binding, /repo/modules/java/src/Hdbscan.cpp and /repo/modules/java/src/bw/co/roguesystems/Hdbscan.java.

All Java objects share the global variable `scan` (Hdbscan.cpp 45), a C++ object with static storage: its bytes are zero before its constructor calls `hdbscan_init(&scan, 3)`
(/repo/src/hdbscan.cpp 45-47), which sets all pointers but `mst` and those of `distanceFunction` to NULL and is called again for every Java object (Hdbscan.cpp 47-49).

Simplifications: allocation succeeds; the table of local references (every row of a data set takes one and none is returned) and the stack do not run full; Java arrays
have fewer than 2^31 elements; one thread calls. What the C library leaks when `hdbscan_init` and `hdbscan_run` overwrite its pointers is the matter of property C50.
-/
namespace Verif.Java
variable {D W S T : Type}

/-- What `scan` holds: the pointers of `hdbscan_init` with the distances and the number of points that a run before it left in the struct (`none`: the zeros of the static
    storage), or the results of a run. -/
inductive Scan (W S T : Type) where
  | fresh (minPoints : Nat) (left : Option (Distance W × Nat))
  | ready (o : Api.Obj W S T)

/-- A Java object: its field `labels`, Hdbscan.java 37; `none` is null. -/
abbrev JObj := Option (List Int)

/-- The global state: `scan` and the objects by identity. -/
structure State (W S T : Type) where
  scan : Scan W S T
  objs : Nat → Option JObj

/-- The state after loading the library. -/
def start : State W S T := ⟨.fresh 3 none, fun _ => none⟩

def State.set (st : State W S T) (id : Nat) (p : JObj) : State W S T := { st with objs := fun i => if i = id then some p else st.objs i }

/-- A value of type `double[][]`: it may be null, and so may its rows, which may have different lengths. -/
abbrev Arr (D : Type) := Option (List (Option (List D)))

/-- The conversion of a `label_t` to `int32_t`, Hdbscan.cpp 59. -/
def toInt (v : Nat) : Int := if v < 2147483648 then v else (v : Int) - 4294967296

/-- A `HashMap<Integer, ArrayList<Integer>>`; the order of the entries has no meaning. -/
abbrev Table := List (Int × List Nat)

/-- `HashMap.get`; `none` is null. -/
def Table.get (t : Table) (k : Int) : Option (List Nat) := (t.find? (fun e => e.1 = k)).map (·.2)

/-- `list.add(i)` on the list that `get(k)` gave. -/
def Table.add (t : Table) (k : Int) (i : Nat) : Table := t.map (fun e => if e.1 = k then (e.1, e.2 ++ [i]) else e)

/-- One iteration of `getClusterMap`, Hdbscan.java 110-120. -/
def Table.put (t : Table) (k : Int) (i : Nat) : Table :=
  match t.get k with
  | none => (k, [i]) :: t
  | some _ => t.add k i

/-- The loop of `getClusterMap`, Hdbscan.java 109-121, from index `i` on. -/
def mapLoop : List Int → Nat → Table → Table
  | [], _, t => t
  | k :: r, i, t => mapLoop r (i + 1) (t.put k i)

/-- `getClusterMap`, Hdbscan.java 102-124; `none` is null. -/
def clusterMap : JObj → Option Table
  | none => none
  | some [] => none
  | some (k :: r) => some (mapLoop (k :: r) 0 [])

/-- What a caller sees: an exception or error, nothing, or a value. -/
inductive Reply where
  | exn
  | done
  | labels (l : Option (List Int))
  | clusterMap (m : Option Table)
  deriving DecidableEq

/-- What the platform does at `delete dset` for memory that `new double[...]` allocated (Hdbscan.cpp 85, 71): the C++ standard leaves it undefined; common allocators release
    the memory. -/
structure Platform where
  deleteReleases : Bool

/-- What `hdbscan_init` leaves of the last run. -/
def leftover : Scan W S T → Option (Distance W × Nat)
  | .fresh _ l => l
  | .ready o => some (o.dis, o.numPoints)

/-- The constructor, Hdbscan.java 70-72, and `initHdbscan`, Hdbscan.cpp 47-49: the argument is converted to `index_t`, and the assertion of `hdbscan_init` ends the process. -/
def construct (id : Nat) (arg : Int) (st : State W S T) : Outcome (Reply × State W S T) := do
  let m ← Api.initObj (Py.toIndex arg)
  return (.done, { st with scan := .fresh m (leftover st.scan) }.set id none)

/-- The rows of the data set, Hdbscan.cpp 74-82: `cols` elements of each. -/
def readRows (cols : Nat) : List (Option (List D)) → Outcome (List D)
  | [] => .ok []
  | none :: _ => .ub "GetDoubleArrayElements of null"
  | some r :: rs =>
    if cols ≤ r.length then do
      let d ← readRows cols rs
      return r.take cols ++ d
    else .ub "read behind the end of a row"

/-- `minPoints` of the struct. -/
def scanMinPoints : Scan W S T → Nat
  | .fresh m _ => m
  | .ready o => o.minPoints

/-- `getLabelsArray`, Hdbscan.cpp 51-64. -/
def getLabels (labels : List Nat) (rows : Nat) : Outcome (List Int) :=
  if rows ≤ labels.length then .ok ((labels.take rows).map toInt) else .ub "read behind the end of clusterLabels"

/-- `delete dset`, Hdbscan.cpp 85. -/
def deleteArray (pl : Platform) : Outcome Unit := if pl.deleteReleases then .ok () else .ub "delete of an array"

/-- `runImpl`, Hdbscan.cpp 66-88, and `run`, Hdbscan.java 78-80. The number of columns is the length of row 0, which an empty data set does not have. -/
def run [CCmp W] [CCmp S] [CCmp T] (pl : Platform) (env : Api.Env D W S T) (id : Nat) (par : Api.Par) (a : Arr D) (st : State W S T) : Outcome (Reply × State W S T) :=
  match a with
  | none => .ub "GetArrayLength of null"
  | some [] => .ub "GetArrayLength of null"
  | some (none :: _) => .ub "GetArrayLength of null"
  | some (some r :: rs) =>
    if 2147483648 ≤ (rs.length + 1) * r.length then .ub "signed overflow"
    else do
      let d ← readRows r.length (some r :: rs)
      let o ← Api.run env par (scanMinPoints st.scan) d (rs.length + 1) r.length true
      deleteArray pl
      let l ← getLabels o.results.labels (rs.length + 1)
      return (.done, { st with scan := .ready o }.set id (some l))

/-- `hdbscan_rerun` (/repo/src/hdbscan.c 277-291) when `clusters` is NULL: the distances that are left over are used, and the first `array_list_append` (line 381) follows the
    null pointer. -/
def rerunFresh [CCmp W] (env : Api.Env D W S T) (par : Api.Par) (m : Nat) (dis : Distance W) (n : Nat) : Outcome (Api.Obj W S T) :=
  if m = 0 then .ub "array of length 0"
  else do
    let dis' ← Distance.getCoreDistances env.dops.zero env.ar.dmax par.cores { dis with numNeighbors := subIndex m 1 }
    let _ ← (HTable.init (Api.csize n) .long .ptr : Outcome (HTable.Table Int))
    let g ← Mst.construct env.ar.zeroW env.ar.dmax true dis' n
    let _ ← Graph.sortByWeight g
    .ub "null pointer"

/-- `hdbscan_rerun` when the struct still holds the zeros of the static storage: there are no points, and the array `attachedPoints` (hdbscan.c 820) gets no elements. -/
def rerunZero (m : Nat) : Outcome (Api.Obj W S T) :=
  if m = 0 then .ub "array of length 0"
  else do
    let _ ← (HTable.init (Api.csize 0) .long .ptr : Outcome (HTable.Table Int))
    .ub "array of length 0"

/-- `scan.reRun(m)`. -/
def rerunScan [CCmp W] [CCmp S] [CCmp T] (env : Api.Env D W S T) (par : Api.Par) (m : Nat) : Scan W S T → Outcome (Api.Obj W S T)
  | .ready o => Api.rerun env par m o
  | .fresh _ none => rerunZero m
  | .fresh _ (some (dis, n)) => rerunFresh env par m dis n

/-- `reRunImpl`, Hdbscan.cpp 91-94, and `reRun`, Hdbscan.java 86-88. -/
def reRun [CCmp W] [CCmp S] [CCmp T] (env : Api.Env D W S T) (id : Nat) (par : Api.Par) (arg : Int) (st : State W S T) : Outcome (Reply × State W S T) := do
  let o ← rerunScan env par (Py.toIndex arg) st.scan
  let l ← getLabels o.results.labels o.numPoints
  return (.done, { st with scan := .ready o }.set id (some l))

/-- The expressions of a Java program. -/
inductive Call (D : Type) where
  | construct (id : Nat) (arg : Int)
  | run (id : Nat) (par : Api.Par) (a : Arr D)
  | reRun (id : Nat) (par : Api.Par) (arg : Int)
  | getLabels (id : Nat)
  | getClusterMap (id : Nat)
  | cleanHdbscan (id : Nat)

/-- Do something with an object; an identity that does not exist is an exception. -/
def withObj (id : Nat) (st : State W S T) (k : JObj → Outcome (Reply × State W S T)) : Outcome (Reply × State W S T) :=
  match st.objs id with
  | none => .ok (.exn, st)
  | some p => k p

/-- A new identity for `construct`; an identity that is taken is an exception. -/
def withNew (id : Nat) (st : State W S T) (k : Outcome (Reply × State W S T)) : Outcome (Reply × State W S T) :=
  match st.objs id with
  | none => k
  | some _ => .ok (.exn, st)

/-- One expression. The native function behind `cleanHdbscan` has the name of another class (Hdbscan.cpp 96, Hdbscan.java 64), so that the call is an `UnsatisfiedLinkError`. -/
def step [CCmp W] [CCmp S] [CCmp T] (pl : Platform) (env : Api.Env D W S T) (st : State W S T) : Call D → Outcome (Reply × State W S T)
  | .construct id arg => withNew id st (construct id arg st)
  | .run id par a => withObj id st fun _ => run pl env id par a st
  | .reRun id par arg => withObj id st fun _ => reRun env id par arg st
  | .getLabels id => withObj id st fun p => .ok (.labels p, st)
  | .getClusterMap id => withObj id st fun p => .ok (.clusterMap (clusterMap p), st)
  | .cleanHdbscan _ => .ok (.exn, st)

/-- A program: the replies to its expressions. -/
def session [CCmp W] [CCmp S] [CCmp T] (pl : Platform) (env : Api.Env D W S T) : List (Call D) → State W S T → Outcome (List Reply × State W S T)
  | [], st => .ok ([], st)
  | c :: r, st => do
    let (x, st1) ← step pl env st c
    let (xs, st2) ← session pl env r st1
    return (x :: xs, st2)

end Verif.Java
