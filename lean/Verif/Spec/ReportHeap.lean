import Verif.Model.ReportHeap
/-
How programs may use the tables and lists that report on a clustering.
-/
namespace Verif.Spec
open Mem

/-- What a pointer variable of the program stands for. -/
inductive Held where
  /-- a cluster map with these labels -/
  | map (keys : List Nat)
  /-- a distance map with these labels -/
  | dists (keys : List Nat)
  /-- a list with these labels -/
  | list (labels : List Nat)
  /-- something that has been destroyed -/
  | gone
  deriving DecidableEq

/-- The rules: only things that exist are used, each as what it is; cluster maps are made of no point or of at least three; there is at least one label to calculate
    with or to sort; labels that are sorted by length are in the map, and at most as many labels as the map has are sorted by similarity. -/
def reportRule (ps : List Held) : ReportAct → Option (List Held)
  | .createMap labels => if labels = [] ∨ 3 ≤ labels.length then some (ps ++ [.map labels.dedup]) else none
  | .minMax x => match ps[x]? with
    | some (.map keys) => some (ps ++ [.dists keys])
    | _ => none
  | .stats x => match ps[x]? with
    | some (.dists keys) => if keys ≠ [] then some ps else none
    | _ => none
  | .makeList labels => some (ps ++ [.list labels])
  | .byLength x y => match ps[x]?, ps[y]? with
    | some (.map keys), some (.list labels) => if labels ≠ [] ∧ ∀ l ∈ labels, l ∈ keys then some ps else none
    | _, _ => none
  | .bySimilarity x y => match ps[x]?, ps[y]? with
    | some (.dists keys), some (.list labels) => if labels ≠ [] ∧ labels.length ≤ keys.length then some ps else none
    | _, _ => none
  | .allBySimilarity x => match ps[x]? with
    | some (.dists keys) => if keys ≠ [] then some (ps ++ [.list keys]) else none
    | _ => none
  | .printMap x => match ps[x]? with
    | some (.map _) => some ps
    | _ => none
  | .printDists x => match ps[x]? with
    | some (.dists _) => some ps
    | _ => none
  | .destroyMap x => match ps[x]? with
    | some (.map _) => some (ps.set x .gone)
    | _ => none
  | .destroyDists x => match ps[x]? with
    | some (.dists _) => some (ps.set x .gone)
    | _ => none
  | .deleteList x => match ps[x]? with
    | some (.list _) => some (ps.set x .gone)
    | _ => none

def reportRules : List Held → List ReportAct → Option (List Held)
  | ps, [] => some ps
  | ps, a :: r => (reportRule ps a).bind (fun qs => reportRules qs r)

/-- A program that keeps to the rules. -/
def KeepsRules (as : List ReportAct) : Prop := ∃ ps, reportRules [] as = some ps

/-- A program that keeps to the rules and destroys everything it makes. -/
def CleansUp (as : List ReportAct) : Prop := ∃ ps, reportRules [] as = some ps ∧ ∀ p ∈ ps, p = .gone

end Verif.Spec
