import Verif.Model.Java
import Verif.Spec.Api
/-
Vocabulary of the properties of the Java binding.
-/
namespace Verif.Spec
open Java
variable {D W S T : Type}

/-- The Java array with the rows `ds`. -/
def javaArr (ds : List (List D)) : Java.Arr D := some (ds.map some)

/-- Rows the library can cluster with `minPoints = m`: all of the same length, with fewer than 2^31 numbers, which are supported; 5 to 65536 rows, at least `m` of them. -/
structure JFit [LinearOrder W] (env : Api.Env D W S T) (ds : List (List D)) (m : Nat) : Prop where
  min : 2 ≤ m
  enough : m ≤ ds.length
  five : 5 ≤ ds.length
  rows : ∃ cols f, (∀ r ∈ ds, r.length = cols) ∧ ds.length * cols < 2147483648 ∧ Supported env ds.flatten ds.length cols f

/-- `o` is what `hdbscan_init(m)` and `hdbscan_run` of the C library compute for the rows. -/
def JAnswer [CCmp W] [CCmp S] [CCmp T] (env : Api.Env D W S T) (m : Nat) (ds : List (List D)) (o : Api.Obj W S T) : Prop :=
  ∃ cols, (∀ r ∈ ds, r.length = cols) ∧ ∀ par, Complete ds.length ds.length par → Api.fresh env par m ds.flatten ds.length cols true = .ok o

/-- What a program does with objects. -/
inductive JUse (D : Type) where
  /-- `new Hdbscan(m)` -/
  | construct (id m : Nat)
  | run (id : Nat) (par : Api.Par) (ds : List (List D))
  | reRun (id : Nat) (par : Api.Par) (m : Nat)
  | getLabels (id : Nat)
  | getClusterMap (id : Nat)

/-- The expression of a use. -/
def JUse.call : JUse D → Call D
  | .construct id m => .construct id m
  | .run id par ds => .run id par (javaArr ds)
  | .reRun id par m => .reRun id par m
  | .getLabels id => .getLabels id
  | .getClusterMap id => .getClusterMap id

/-- What every object was asked for: the minPoints of its construction or last `reRun`, the rows of its last `run`; and the object that was constructed last. -/
structure Book (D : Type) where
  own : Nat → Option (Nat × Option (List (List D)))
  latest : Option Nat

def Book.empty : Book D := ⟨fun _ => none, none⟩

def Book.put (b : Book D) (id : Nat) (j : Nat × Option (List (List D))) : Book D := { b with own := fun i => if i = id then some j else b.own i }

def Book.after (b : Book D) : JUse D → Book D
  | .construct id m => { b.put id (m, none) with latest := some id }
  | .run id _ ds =>
    match b.own id with
    | some (m, _) => b.put id (m, some ds)
    | none => b
  | .reRun id _ m =>
    match b.own id with
    | some (_, d) => b.put id (m, d)
    | none => b
  | _ => b

/-- Arguments within the limits of the library, `reRun` after `run`. -/
def JWithin [LinearOrder W] (env : Api.Env D W S T) (b : Book D) : JUse D → Prop
  | .construct id m => b.own id = none ∧ 2 ≤ m ∧ m < 2147483648
  | .run id par ds => ∃ m d, b.own id = some (m, d) ∧ JFit env ds m ∧ Complete ds.length ds.length par
  | .reRun id par m => ∃ m' ds, b.own id = some (m', some ds) ∧ JFit env ds m ∧ Complete ds.length ds.length par
  | .getLabels id => b.own id ≠ none
  | .getClusterMap id => b.own id ≠ none

/-- `run` and `reRun` only of the object that was constructed last. -/
def LatestOnly (b : Book D) : JUse D → Prop
  | .run id _ _ => b.latest = some id
  | .reRun id _ _ => b.latest = some id
  | _ => True

/-- The indices of the elements equal to `k`, ascending. -/
def indicesOf (labels : List Int) (k : Int) : List Nat := (List.range labels.length).filter (fun i => labels[i]? = some k)

/-- The table maps exactly the labels that occur, each to the list of the indices that carry it. -/
structure IsTable (labels : List Int) (t : Table) : Prop where
  once : (t.map (·.1)).Nodup
  lists : ∀ k l, t.get k = some l ↔ l = indicesOf labels k ∧ l ≠ []

/-- The labels of a clustering as Java integers. -/
def javaLabels (o : Api.Obj W S T) : List Int := o.results.labels.map (fun (l : Nat) => (l : Int))

/-- The right reply to a use, from what the object itself was asked for. -/
def JRight [CCmp W] [CCmp S] [CCmp T] (env : Api.Env D W S T) (b : Book D) : JUse D → Reply → Prop
  | .getLabels id, r => (∃ m, b.own id = some (m, none) ∧ r = .labels none) ∨ ∃ m ds o, b.own id = some (m, some ds) ∧ JAnswer env m ds o ∧ r = .labels (some (javaLabels o))
  | .getClusterMap id, r => (∃ m, b.own id = some (m, none) ∧ r = .clusterMap none) ∨
      ∃ m ds o t, b.own id = some (m, some ds) ∧ JAnswer env m ds o ∧ IsTable (javaLabels o) t ∧ r = .clusterMap (some t)
  | _, r => r = .done

/-- All uses within the limits. -/
def JAllWithin [LinearOrder W] (env : Api.Env D W S T) : Book D → List (JUse D) → Prop
  | _, [] => True
  | b, u :: us => JWithin env b u ∧ JAllWithin env (b.after u) us

def AllLatestOnly : Book D → List (JUse D) → Prop
  | _, [] => True
  | b, u :: us => LatestOnly b u ∧ AllLatestOnly (b.after u) us

/-- The right replies to a sequence of uses. -/
def JRights [CCmp W] [CCmp S] [CCmp T] (env : Api.Env D W S T) : Book D → List (JUse D) → List Reply → Prop
  | _, [], r => r = []
  | b, u :: us, r => ∃ x r', JRight env b u x ∧ JRights env (b.after u) us r' ∧ r = x :: r'

end Verif.Spec
