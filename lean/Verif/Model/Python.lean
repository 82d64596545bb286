import Verif.Model.Api
import Verif.Model.ClusterMap
/-
Model of the Python binding, /repo/modules/python/src/PyHdbscan.c: what its objects answer, which reference counts they keep, and which memory of the
library their arrays look into.

All objects share the global variable `scan` (line 57). A Python object that the binding creates (a list, a dictionary) is its content and the number of references
that the binding holds on it; with none left it is released. Numpy arrays that look into memory of the library name the hierarchy table they look into.

Simplifications: all data sets of a session have the same element type (`D`); allocation succeeds; the caller keeps no reference of its own on what an attribute
gave it and does not assign to attributes; arguments of the wrong Python type are refused (`PyArg_ParseTuple`), but the argument of `run` is a numpy array; methods are called
on objects that were constructed; a returned NULL or -1 without an exception is an exception (`SystemError`), as the interpreter makes it one. Reference counts of the
data set and of the integers inside lists are left out (they are never too low).
-/
namespace Verif.Py
variable {D W S T : Type}

/-- What `scan` points to: nothing, a struct on which `hdbscan_init` was called, one that `hdbscan_run` has filled (with the number of its hierarchy table), or one that
    `hdbscan_clean` has emptied. -/
inductive Scan (W S T : Type) where
  | null
  | new (minPoints : Nat)
  | ready (o : Api.Obj W S T) (table : Nat)
  | cleaned (minPoints : Nat)

/-- A Python object and the number of references the binding holds on it; `none` is NULL. -/
abbrev Ref (α : Type) := Option (α × Nat)

/-- `Py_XDECREF`. -/
def decref {α : Type} : Ref α → Outcome (Ref α)
  | none => .ok none
  | some (_, 0) => .ub "Py_XDECREF of a released object"
  | some (a, k + 1) => .ok (some (a, k))

/-- `PyHdbscan`, lines 63-69. The dictionary of `getHierarchies` holds arrays that look into the lines of a hierarchy table. -/
structure PyObj where
  labels : Ref (List Nat)
  clusterMap : Ref (KMap (List Nat))
  hierarchy : Ref (Nat × List (Nat × List Nat))
  minPoints : Nat
  cols : Nat
  rows : Nat

/-- The global state: `scan`, the number of hierarchy tables made so far and those that were released, the objects by identity. -/
structure State (W S T : Type) where
  scan : Scan W S T
  tables : Nat
  released : List Nat
  objs : Nat → Option PyObj

/-- The state after importing the module. -/
def start : State W S T := ⟨.null, 0, [], fun _ => none⟩

def State.set (st : State W S T) (id : Nat) (p : Option PyObj) : State W S T := { st with objs := fun i => if i = id then p else st.objs i }

/-- A numpy array: whether its element type is one of the five of lines 186-209, its shape, its elements in row-major order (`PyArray_ContiguousFromAny`, line 214). -/
structure Arr (D : Type) where
  typeOk : Bool
  shape : List Nat
  data : List D

/-- What a caller sees: an exception, the integer a method returns, nothing, or a value. -/
inductive Reply where
  | exn
  | code (c : Nat)
  | done
  | labels (l : List Nat)
  | clusterMap (m : KMap (List Nat))
  | hierarchy (h : List (Nat × List Nat))
  deriving DecidableEq

/-- Conversion of an integer to `index_t`: "I" does not check for overflow, and "i" is stored into an unsigned variable. -/
def toIndex (v : Int) : Nat := (v % 4294967296).toNat

/-- The values of `int`; `PyArg_ParseTuple` refuses others for "i" (lines 250 and 278). -/
def fitsInt (v : Int) : Bool := decide (-2147483648 ≤ v) && decide (v < 2147483648)

/-- An argument for "i": `none` if it is refused. -/
def asInt (arg : Option Int) : Option Int := arg.filter fitsInt

/-- Arguments for "ii". -/
def asInts (arg : Option (Int × Int)) : Option (Int × Int) := arg.filter fun v => fitsInt v.1 && fitsInt v.2

/-- The effect of `hdbscan_clean(scan)` (/repo/src/hdbscan.c 198-214) on the state. A null pointer is followed; after `hdbscan_init` alone the pointers of the distance matrix and
    the tree are indeterminate (C50). -/
def cleanScan (st : State W S T) : Outcome (State W S T) :=
  match st.scan with
  | .null => .ub "null pointer"
  | .new _ => .ub "read of an indeterminate pointer"
  | .ready o t => .ok { st with scan := .cleaned o.minPoints, released := t :: st.released }
  | .cleaned _ => .ok st

/-- `PyHdbscan_dealloc`, lines 76-82. The struct itself is not released. -/
def dealloc (id : Nat) (p : PyObj) (st : State W S T) : Outcome (State W S T) := do
  let st1 ← cleanScan st
  let _ ← decref p.labels
  let _ ← decref p.clusterMap
  let _ ← decref p.hierarchy
  return st1.set id none

/-- `PyHdbscan_new`, lines 92-108. -/
def blank : PyObj := ⟨none, none, none, 0, 0, 0⟩

/-- The call of the class: `PyHdbscan_new` and `PyHdbscan_init`, lines 92-142; when the latter fails the interpreter deallocates the new object. -/
def construct (id : Nat) (arg : Option Int) (st : State W S T) : Outcome (Reply × State W S T) :=
  match arg with
  | none => do
    let st1 ← dealloc id blank st
    return (.exn, st1)
  | some v =>
    if toIndex v < 2 then do
      let st1 ← dealloc id { blank with minPoints := toIndex v } st
      return (.exn, st1)
    else .ok (.done, { st with scan := .new (toIndex v) }.set id (some { blank with minPoints := toIndex v }))

/-- `get_labels`, lines 150-165: the first `rows` elements of the label array. -/
def getLabels (rows : Nat) (labels : List Nat) : Outcome (List Nat) :=
  if rows ≤ labels.length then .ok (labels.take rows) else .ub "read behind the end of clusterLabels"

/-- The number of rows and columns, lines 216-227. -/
def dims : List Nat → Outcome (Nat × Nat)
  | [] => .ub "dimensions of an array without dimensions"
  | [n] => .ok (n % 4294967296, 1)
  | n :: c :: _ => .ok (n % 4294967296, c % 4294967296)

/-- `minPoints` of the struct, or the crash at `scan->clusterLabels` (line 233) after `hdbscan_run(NULL, ...)` has returned an error. -/
def scanMinPoints : Scan W S T → Outcome Nat
  | .null => .ub "null pointer"
  | .new m => .ok m
  | .ready o _ => .ok o.minPoints
  | .cleaned m => .ok m

/-- `PyHdbscan_run`, lines 174-239. A second run overwrites the pointers of the struct without releasing anything (C50), and so it does with `labels`. The new list gets two references,
    lines 160 and 235. -/
def run [CCmp W] [CCmp S] [CCmp T] (env : Api.Env D W S T) (id : Nat) (p : PyObj) (par : Api.Par) (a : Arr D) (st : State W S T) : Outcome (Reply × State W S T) :=
  if a.typeOk then do
    let (rows, cols) ← dims a.shape
    let m ← scanMinPoints st.scan
    let o ← Api.run env par m a.data rows cols true
    let l ← getLabels rows o.results.labels
    return (.code 0, { st with scan := .ready o st.tables, tables := st.tables + 1 }.set id (some { p with rows := rows, cols := cols, labels := some (l, 2) }))
  else .ok (.exn, st)

/-- `hdbscan_rerun` (/repo/src/hdbscan.c 277-291) on `scan`: it reads the indeterminate pointer to the tree of a struct that was never run, and the distance matrix of a struct that was
    cleaned is a null pointer. -/
def rerunScan [CCmp W] [CCmp S] [CCmp T] (env : Api.Env D W S T) (par : Api.Par) (m : Nat) (st : State W S T) : Outcome (Api.Obj W S T × State W S T) :=
  match st.scan with
  | .null => .ub "null pointer"
  | .new _ => .ub "read of an indeterminate pointer"
  | .cleaned _ => .ub "null pointer"
  | .ready o t => do
    let o' ← Api.rerun env par m o
    return (o', { st with scan := .ready o' st.tables, tables := st.tables + 1, released := t :: st.released })

/-- The part of `PyHdbscan_rerun` after the check of its argument, lines 258-272. -/
def rerunGo [CCmp W] [CCmp S] [CCmp T] (env : Api.Env D W S T) (id : Nat) (p : PyObj) (par : Api.Par) (m : Nat) (st : State W S T) : Outcome (Reply × State W S T) := do
  let (o, st1) ← rerunScan env par m st
  let l ← getLabels p.rows o.results.labels
  return (.code 0, st1.set id (some { p with minPoints := m, labels := some (l, 2) }))

/-- `PyHdbscan_rerun`, lines 248-273: the reference on the labels is given up before the argument is looked at. -/
def rerun [CCmp W] [CCmp S] [CCmp T] (env : Api.Env D W S T) (id : Nat) (p : PyObj) (par : Api.Par) (arg : Option Int) (st : State W S T) : Outcome (Reply × State W S T) := do
  let l ← decref p.labels
  match arg with
  | none => .ok (.exn, st.set id (some { p with labels := l }))
  | some v =>
    if toIndex v < 2 then .ok (.exn, st.set id (some { p with labels := l, minPoints := toIndex v }))
    else rerunGo env id p par (toIndex v) st

/-- `hdbscan_create_cluster_map(scan->clusterLabels, begin, end)`, line 290; `clusterLabels` is null before a run and after `hdbscan_clean`. -/
def scanMap (b e : Nat) : Scan W S T → Outcome (KMap (List Nat))
  | .null => .ub "null pointer"
  | .new _ => if b < e then .ub "null pointer" else .ok []
  | .cleaned _ => if b < e then .ub "null pointer" else .ok []
  | .ready o _ => CMap.create o.results.labels b e

/-- `PyHdbscan_getClusterMap`, lines 275-307. The dictionary has two references, one of which goes to the caller; its arrays look into a table that is never released. -/
def getClusterMap (id : Nat) (p : PyObj) (arg : Option (Int × Int)) (st : State W S T) : Outcome (Reply × State W S T) := do
  let c ← decref p.clusterMap
  match arg with
  | none => .ok (.exn, st.set id (some { p with clusterMap := c }))
  | some (b, e) => do
    let m ← scanMap (toIndex b) (toIndex e) st.scan
    return (.clusterMap m, st.set id (some { p with clusterMap := some (m, 1) }))

/-- The lines of the hierarchy by level: what the arrays of `getHierarchies` look into. -/
def levels (o : Api.Obj W S T) : List (Nat × List Nat) := o.results.hierarchy.map (fun e => (e.1, e.2.2))

/-- `scan->hierarchy` with its number; `hashtable_size` of a null pointer follows it. -/
def scanTable : Scan W S T → Outcome (Nat × List (Nat × List Nat))
  | .null => .ub "null pointer"
  | .new _ => .ub "null pointer"
  | .cleaned _ => .ub "null pointer"
  | .ready o t => .ok (t, levels o)

/-- `PyHdbscan_getHierarchies`, lines 309-336. The dictionary has two references, lines 320 and 334. -/
def getHierarchies (id : Nat) (p : PyObj) (st : State W S T) : Outcome (Reply × State W S T) := do
  let _ ← decref p.hierarchy
  let h ← scanTable st.scan
  return (.code 1, st.set id (some { p with hierarchy := some (h, 2) }))

/-- Read an attribute (`T_OBJECT_EX`, lines 354-362): NULL is an `AttributeError`. -/
def readRef {α : Type} (f : α → Outcome Reply) : Ref α → Outcome Reply
  | none => .ok .exn
  | some (_, 0) => .ub "use of a released object"
  | some (a, _ + 1) => f a

/-- Read the arrays in the attribute `hierarchy`. -/
def readLevels (released : List Nat) (h : Nat × List (Nat × List Nat)) : Outcome Reply :=
  if h.1 ∈ released then .ub "use of released memory" else .ok (.hierarchy h.2)

/-- The expressions of a Python program. -/
inductive Call (D : Type) where
  | construct (id : Nat) (arg : Option Int)
  | run (id : Nat) (par : Api.Par) (a : Arr D)
  | rerun (id : Nat) (par : Api.Par) (arg : Option Int)
  | getClusterMap (id : Nat) (arg : Option (Int × Int))
  | getHierarchies (id : Nat)
  | labels (id : Nat)
  | clusterMap (id : Nat)
  | hierarchy (id : Nat)
  | delete (id : Nat)

/-- Do something with an object; an identity that does not exist is an exception. -/
def withObj (id : Nat) (st : State W S T) (k : PyObj → Outcome (Reply × State W S T)) : Outcome (Reply × State W S T) :=
  match st.objs id with
  | none => .ok (.exn, st)
  | some p => k p

/-- A new identity for `construct`; an identity that is taken is an exception. -/
def withNew (id : Nat) (st : State W S T) (k : Outcome (Reply × State W S T)) : Outcome (Reply × State W S T) :=
  match st.objs id with
  | none => k
  | some _ => .ok (.exn, st)

def step [CCmp W] [CCmp S] [CCmp T] (env : Api.Env D W S T) (st : State W S T) : Call D → Outcome (Reply × State W S T)
  | .construct id arg => withNew id st (construct id arg st)
  | .run id par a => withObj id st fun p => run env id p par a st
  | .rerun id par arg => withObj id st fun p => rerun env id p par (asInt arg) st
  | .getClusterMap id arg => withObj id st fun p => getClusterMap id p (asInts arg) st
  | .getHierarchies id => withObj id st fun p => getHierarchies id p st
  | .labels id => withObj id st fun p => do
    let r ← readRef (fun l => .ok (.labels l)) p.labels
    return (r, st)
  | .clusterMap id => withObj id st fun p => do
    let r ← readRef (fun m => .ok (.clusterMap m)) p.clusterMap
    return (r, st)
  | .hierarchy id => withObj id st fun p => do
    let r ← readRef (readLevels st.released) p.hierarchy
    return (r, st)
  | .delete id => withObj id st fun p => do
    let st1 ← dealloc id p st
    return (.done, st1)

/-- A program: the replies to its expressions. -/
def session [CCmp W] [CCmp S] [CCmp T] (env : Api.Env D W S T) : List (Call D) → State W S T → Outcome (List Reply × State W S T)
  | [], st => .ok ([], st)
  | c :: r, st => do
    let (x, st1) ← step env st c
    let (xs, st2) ← session env r st1
    return (x :: xs, st2)

end Verif.Py
