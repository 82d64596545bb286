import Verif.Model.ConcreteRun
import Mathlib.Data.List.Forall2
/-
When an object made of the library's containers holds the same results as the abstract one (C69). Everything is said by reading the containers.
-/
namespace Verif.Spec
variable {W S T : Type}

/-- An `ArrayList` holds the given elements in the given order. -/
def Holds {α : Type} (l : AList α) (xs : List α) : Prop := l.size = xs.length ∧ ∀ (i : Nat) (h : i < xs.length), l.readSlot i = .ok xs[i]

/-- Entry `l` of the list of clusters is the address `a`. -/
def At (clusters : AList (Option Nat)) (l a : Nat) : Prop := l < clusters.size ∧ clusters.readSlot l = .ok (some a)

/-- A cluster in memory holds what the abstract cluster holds; its parent and its selected descendants are pointers to the clusters meant. -/
structure SameCluster (clusters : AList (Option Nat)) (c : Conc.CCl W S) (p : Cl W S) : Prop where
  label : c.label = p.label
  birth : c.birth = p.birth
  death : c.death = p.death
  numPoints : c.numPoints = p.numPoints
  offset : c.offset = p.offset
  stability : c.stability = p.stability
  propStability : c.propStability = p.propStability
  propLowest : c.propLowest = p.propLowest
  constraints : c.ncs = p.ncs ∧ c.pncs = p.pncs
  virtualChild : Holds c.vchild p.vchild
  hasChildren : c.hasChildren = p.hasChildren
  root : p.parent = none → c.parent = none
  parent : ∀ q, p.parent = some q → ∃ a, At clusters q a ∧ c.parent = some a
  desc : ∃ ds, Holds c.desc ds ∧ List.Forall₂ (At clusters) p.desc ds

/-- The list of clusters: as long as the abstract one, null where that is null, and otherwise pointers to clusters, no two of them the same. -/
structure SameClusters (heap : List (Conc.CCl W S)) (clusters : AList (Option Nat)) (cs : List (Option (Cl W S))) : Prop where
  size : clusters.size = cs.length
  null : ∀ l : Nat, cs[l]? = some none → clusters.readSlot l = .ok none
  cluster : ∀ (l : Nat) (p : Cl W S), cs[l]? = some (some p) → ∃ a c, At clusters l a ∧ heap[a]? = some c ∧ SameCluster clusters c p
  apart : ∀ l l' a, At clusters l a → At clusters l' a → l = l'

/-- The hierarchy: looking up a key gives the line with that key, or nothing when there is none, and the list of keys contains each key once. -/
structure SameLines (table : HTable.Table Int) (entries : List (W × List Nat)) (lines : List (Nat × W × List Nat)) : Prop where
  found : ∀ k w A, (k, w, A) ∈ lines → ∃ e, Conc.tableLookup table (k : Int) = .ok (some e) ∧ entries[e]? = some (w, A)
  absent : ∀ k : Int, (∀ l ∈ lines, (l.1 : Int) ≠ k) → Conc.tableLookup table k = .ok none
  keys : ∃ ks, Holds table.keys ks ∧ ks.Nodup ∧ ∀ k : Int, k ∈ ks ↔ ∃ l ∈ lines, (l.1 : Int) = k

/-- The object made of containers holds the same as the abstract one. -/
structure SameObject (co : Conc.Obj W S T) (o : Api.Obj W S T) : Prop where
  minPoints : co.minPoints = o.minPoints
  numPoints : co.numPoints = o.numPoints
  distances : co.dis = o.dis
  labels : co.labels = o.results.labels
  outliers : co.outliers = o.results.outliers
  hierarchy : SameLines co.hierarchy co.entries o.results.hierarchy
  clusters : SameClusters co.heap co.clusters o.results.clusters

end Verif.Spec
