import Verif.Spec.Heap
import Mathlib.Tactic.Abel
import Mathlib.Algebra.Order.Group.Multiset
/-
Helper lemmas for the heap model: triples about who owns which blocks, with a built-in frame.
-/
namespace Verif.Mem
open Spec
variable {α β V : Type}

/-- From a heap that contains `pre`, `m` returns `a` with `Q a`, having exchanged `pre` for `post a`; nothing else changes. -/
def Tri (pre : Multiset Nat) (m : M α) (post : α → Multiset Nat) (Q : α → Prop) : Prop :=
  ∀ h, HeapOk h → ∀ rest, h.live = pre + rest → ∃ a h', m h = .ok (a, h') ∧ HeapOk h' ∧ h.fresh ≤ h'.fresh ∧ h'.live = post a + rest ∧ Q a

theorem bind_apply (m : M α) (k : α → M β) (h : Heap) : (m >>= k) h = (m h >>= fun p => k p.1 p.2) := rfl
theorem pure_apply (a : α) (h : Heap) : (pure a : M α) h = .ok (a, h) := rfl

theorem Tri.pure {pre : Multiset Nat} {post : α → Multiset Nat} {Q : α → Prop} {a : α} (h1 : pre = post a) (h2 : Q a) : Tri pre (pure a : M α) post Q :=
  fun h hh rest hl => ⟨a, h, rfl, hh, le_refl _, by rw [hl, h1], h2⟩

theorem Tri.bind {pre p f : Multiset Nat} {m : M α} {mid : α → Multiset Nat} {Q : α → Prop} {k : α → M β} {post : β → Multiset Nat} {R : β → Prop}
    (hm : Tri p m mid Q) (hp : pre = p + f) (hk : ∀ a, Q a → Tri (mid a + f) (k a) post R) : Tri pre (m >>= k) post R := by
  intro h hh rest hl
  obtain ⟨a, h1, e1, o1, l1, v1, q1⟩ := hm h hh (f + rest) (by rw [hl, hp, add_assoc])
  obtain ⟨b, h2, e2, o2, l2, v2, q2⟩ := hk a q1 h1 o1 rest (by rw [v1, add_assoc])
  exact ⟨b, h2, by rw [bind_apply, e1]; exact e2, o2, l1.trans l2, v2, q2⟩

/-- For a step that is a function call with frame. -/
theorem Tri.frame {pre p f : Multiset Nat} {m : M α} {mid post : α → Multiset Nat} {Q R : α → Prop} (hm : Tri p m mid Q) (hp : pre = p + f)
    (hk : ∀ a, Q a → mid a + f = post a ∧ R a) : Tri pre m post R := by
  intro h hh rest hl
  obtain ⟨a, h1, e1, o1, l1, v1, q1⟩ := hm h hh (f + rest) (by rw [hl, hp, add_assoc])
  exact ⟨a, h1, e1, o1, l1, by rw [v1, ← add_assoc, (hk a q1).1], (hk a q1).2⟩

theorem Tri.alloc : Tri 0 alloc (fun b => {b}) (fun _ => True) := by
  intro h hh rest hl
  rw [zero_add] at hl
  refine ⟨h.fresh, _, rfl, ⟨?_, ?_⟩, Nat.le_succ _, by rw [← hl]; rfl, trivial⟩
  · rw [Multiset.nodup_cons]
    exact ⟨fun hm => absurd (hh.fresh _ hm) (lt_irrefl _), hh.nodup⟩
  · intro b hb
    rcases Multiset.mem_cons.1 hb with rfl | hb
    · exact Nat.lt_succ_self _
    · exact (hh.fresh b hb).trans (Nat.lt_succ_self _)

theorem Tri.free (b : Nat) : Tri {b} (free b) (fun _ => 0) (fun _ => True) := by
  intro h hh rest hl
  have hb : b ∈ h.live := by rw [hl]; simp
  refine ⟨(), ⟨h.live.erase b, h.fresh⟩, by simp only [Mem.free]; rw [if_pos hb], ⟨hh.nodup.erase b, fun x hx => hh.fresh x (Multiset.mem_of_mem_erase hx)⟩, le_refl _, ?_, trivial⟩
  show h.live.erase b = 0 + rest
  rw [hl, zero_add, Multiset.singleton_add, Multiset.erase_cons_head]

theorem Tri.use (b : Nat) : Tri {b} (use b) (fun _ => {b}) (fun _ => True) := by
  intro h hh rest hl
  have hb : b ∈ h.live := by rw [hl]; simp
  exact ⟨(), h, by simp only [Mem.use]; rw [if_pos hb], hh, le_refl _, hl, trivial⟩

/-- The blocks owned by a list of things. -/
def owns (f : α → Multiset Nat) (l : List α) : Multiset Nat := (l.map f).sum

theorem owns_append (f : α → Multiset Nat) (l r : List α) : owns f (l ++ r) = owns f l + owns f r := by simp [owns]
@[simp] theorem owns_nil (f : α → Multiset Nat) : owns f [] = 0 := rfl
theorem owns_cons (f : α → Multiset Nat) (a : α) (l : List α) : owns f (a :: l) = f a + owns f l := by simp [owns]

theorem Tri.times {m : M α} {f : α → Multiset Nat} (h : Tri 0 m f (fun _ => True)) : ∀ k, Tri 0 (times m k) (owns f) (fun _ => True)
  | 0 => Tri.pure rfl trivial
  | k + 1 => by
    refine Tri.bind (f := 0) h (by abel) fun a _ => ?_
    refine Tri.bind (f := f a) (Tri.times h k) (by abel) fun r _ => ?_
    exact Tri.pure (by rw [owns_cons]; abel) trivial

theorem Tri.each {m : α → M Unit} {f : α → Multiset Nat} (h : ∀ a, Tri (f a) (m a) (fun _ => 0) (fun _ => True)) :
    ∀ l, Tri (owns f l) (each m l) (fun _ => 0) (fun _ => True)
  | [] => Tri.pure rfl trivial
  | a :: l => by
    refine Tri.bind (f := owns f l) (h a) (owns_cons f a l) fun _ _ => ?_
    exact Tri.frame (f := 0) (Tri.each h l) (by abel) fun _ _ => ⟨by abel, trivial⟩

/-! ### Collections -/

def ListB.own (l : ListB) : Multiset Nat := {l.self} + {l.data}

theorem tri_listInit : Tri 0 listInit ListB.own (fun _ => True) := by
  refine Tri.bind (f := 0) Tri.alloc (by abel) fun a _ => ?_
  refine Tri.bind (f := {a}) Tri.alloc (by abel) fun b _ => ?_
  exact Tri.pure (by simp only [ListB.own]; abel) trivial

theorem tri_listDelete (l : ListB) : Tri l.own (listDelete l) (fun _ => 0) (fun _ => True) := by
  refine Tri.bind (f := {l.self}) (Tri.free l.data) (by simp only [ListB.own]; abel) fun _ _ => ?_
  exact Tri.frame (f := 0) (Tri.free l.self) (by abel) fun _ _ => ⟨by abel, trivial⟩

def NodeB.own (f : V → Multiset Nat) (n : NodeB V) : Multiset Nat := {n.self} + {n.data} + {n.key} + f n.value

def TableB.own (f : V → Multiset Nat) (t : TableB V) : Multiset Nat := {t.self} + {t.table} + t.keys.own + owns (NodeB.own f) t.nodes

theorem tri_tableInit (f : V → Multiset Nat) : Tri 0 (tableInit : M (TableB V)) (TableB.own f) (fun _ => True) := by
  refine Tri.bind (f := 0) Tri.alloc (by abel) fun a _ => ?_
  refine Tri.bind (f := {a}) Tri.alloc (by abel) fun b _ => ?_
  refine Tri.bind (f := {a} + {b}) tri_listInit (by abel) fun l _ => ?_
  exact Tri.pure (by simp only [TableB.own, owns_nil]; abel) trivial

theorem tri_tableInsert (f : V → Multiset Nat) (t : TableB V) (v : V) : Tri (t.own f + f v) (tableInsert t v) (TableB.own f) (fun _ => True) := by
  refine Tri.bind (f := t.own f + f v) Tri.alloc (by abel) fun a _ => ?_
  refine Tri.bind (f := {a} + (t.own f + f v)) Tri.alloc (by abel) fun b _ => ?_
  refine Tri.bind (f := {b} + ({a} + (t.own f + f v))) Tri.alloc (by abel) fun c _ => ?_
  exact Tri.pure (by simp only [TableB.own, owns_cons, NodeB.own]; abel) trivial

theorem tri_nodeDestroy {f : V → Multiset Nat} {del : V → M Unit} (hd : ∀ v, Tri (f v) (del v) (fun _ => 0) (fun _ => True)) (n : NodeB V) :
    Tri (n.own f) (nodeDestroy del n) (fun _ => 0) (fun _ => True) := by
  refine Tri.bind (f := {n.self} + {n.data} + f n.value) (Tri.free n.key) (by simp only [NodeB.own]; abel) fun _ _ => ?_
  refine Tri.bind (f := {n.self} + f n.value) (Tri.free n.data) (by abel) fun _ _ => ?_
  refine Tri.bind (f := f n.value) (Tri.free n.self) (by abel) fun _ _ => ?_
  exact Tri.frame (f := 0) (hd n.value) (by abel) fun _ _ => ⟨by abel, trivial⟩

theorem tri_tableClear {f : V → Multiset Nat} {del : V → M Unit} (hd : ∀ v, Tri (f v) (del v) (fun _ => 0) (fun _ => True)) (t : TableB V) :
    Tri (t.own f) (tableClear del t) (TableB.own f) (fun t' => t' = { t with nodes := [] }) := by
  refine Tri.bind (f := t.own f) Tri.alloc (by abel) fun a _ => ?_
  refine Tri.bind (f := {a} + t.own f) Tri.alloc (by abel) fun b _ => ?_
  refine Tri.bind (f := {a} + {b} + ({t.self} + {t.table} + t.keys.own)) (Tri.each (tri_nodeDestroy hd) t.nodes) (by simp only [TableB.own]; abel) fun _ _ => ?_
  refine Tri.bind (f := {b} + ({t.self} + {t.table} + t.keys.own)) (Tri.free a) (by abel) fun _ _ => ?_
  refine Tri.bind (f := {t.self} + {t.table} + t.keys.own) (Tri.free b) (by abel) fun _ _ => ?_
  exact Tri.pure (by simp only [TableB.own, owns_nil]; abel) rfl

theorem tri_tableDestroy {f : V → Multiset Nat} {del : V → M Unit} (hd : ∀ v, Tri (f v) (del v) (fun _ => 0) (fun _ => True)) (t : TableB V) :
    Tri (t.own f) (tableDestroy del t) (fun _ => 0) (fun _ => True) := by
  refine Tri.bind (f := 0) (tri_tableClear hd t) (by abel) fun t' ht => ?_
  subst ht
  refine Tri.bind (f := {t.self} + {t.table}) (tri_listDelete t.keys) (by simp only [TableB.own, owns_nil]; abel) fun _ _ => ?_
  refine Tri.bind (f := {t.self}) (Tri.free t.table) (by abel) fun _ _ => ?_
  exact Tri.frame (f := 0) (Tri.free t.self) (by abel) fun _ _ => ⟨by abel, trivial⟩

/-! ### Parts of an object -/

def ClusterB.own (c : ClusterB) : Multiset Nat := {c.self} + c.vchild.own + c.desc.own

theorem tri_clusterInit : Tri 0 clusterInit ClusterB.own (fun _ => True) := by
  refine Tri.bind (f := 0) Tri.alloc (by abel) fun a _ => ?_
  refine Tri.bind (f := {a}) tri_listInit (by abel) fun b _ => ?_
  refine Tri.bind (f := {a} + b.own) tri_listInit (by abel) fun l _ => ?_
  exact Tri.pure (by simp only [ClusterB.own]; abel) trivial

theorem tri_clusterDestroy (c : ClusterB) : Tri c.own (clusterDestroy c) (fun _ => 0) (fun _ => True) := by
  refine Tri.bind (f := {c.self} + c.desc.own) (tri_listDelete c.vchild) (by simp only [ClusterB.own]; abel) fun _ _ => ?_
  refine Tri.bind (f := {c.self}) (tri_listDelete c.desc) (by abel) fun _ _ => ?_
  exact Tri.frame (f := 0) (Tri.free c.self) (by abel) fun _ _ => ⟨by abel, trivial⟩

def EntryB.own (e : EntryB) : Multiset Nat := {e.self} + {e.labels}

theorem tri_entryInit : Tri 0 entryInit EntryB.own (fun _ => True) := by
  refine Tri.bind (f := 0) Tri.alloc (by abel) fun a _ => ?_
  refine Tri.bind (f := {a}) Tri.alloc (by abel) fun b _ => ?_
  exact Tri.pure (by simp only [EntryB.own]; abel) trivial

theorem tri_entryDestroy (e : EntryB) : Tri e.own (entryDestroy e) (fun _ => 0) (fun _ => True) := by
  refine Tri.bind (f := {e.self}) (Tri.free e.labels) (by simp only [EntryB.own]; abel) fun _ _ => ?_
  exact Tri.frame (f := 0) (Tri.free e.self) (by abel) fun _ _ => ⟨by abel, trivial⟩

def GraphB.own (g : GraphB) : Multiset Nat := {g.self} + g.va.own + g.vb.own + g.wt.own + {g.edges} + owns ListB.own g.adj

theorem tri_graphInit (n : Nat) : Tri 0 (graphInit n) GraphB.own (fun _ => True) := by
  refine Tri.bind (f := 0) tri_listInit (by abel) fun a _ => ?_
  refine Tri.bind (f := a.own) tri_listInit (by abel) fun b _ => ?_
  refine Tri.bind (f := a.own + b.own) tri_listInit (by abel) fun c _ => ?_
  refine Tri.bind (f := a.own + b.own + c.own) Tri.alloc (by abel) fun d _ => ?_
  refine Tri.bind (f := a.own + b.own + c.own + {d}) Tri.alloc (by abel) fun e _ => ?_
  refine Tri.bind (f := a.own + b.own + c.own + {d} + {e}) (Tri.times tri_listInit n) (by abel) fun l _ => ?_
  exact Tri.pure (by simp only [GraphB.own]; abel) trivial

theorem tri_graphDestroy (g : GraphB) : Tri g.own (graphDestroy g) (fun _ => 0) (fun _ => True) := by
  refine Tri.bind (f := {g.self} + g.vb.own + g.wt.own + {g.edges} + owns ListB.own g.adj) (tri_listDelete g.va) (by simp only [GraphB.own]; abel) fun _ _ => ?_
  refine Tri.bind (f := {g.self} + g.wt.own + {g.edges} + owns ListB.own g.adj) (tri_listDelete g.vb) (by abel) fun _ _ => ?_
  refine Tri.bind (f := {g.self} + {g.edges} + owns ListB.own g.adj) (tri_listDelete g.wt) (by abel) fun _ _ => ?_
  refine Tri.bind (f := {g.self} + {g.edges}) (Tri.each tri_listDelete g.adj) (by abel) fun _ _ => ?_
  refine Tri.bind (f := {g.self}) (Tri.free g.edges) (by abel) fun _ _ => ?_
  exact Tri.frame (f := 0) (Tri.free g.self) (by abel) fun _ _ => ⟨by abel, trivial⟩

def ClustersB.own (c : ClustersB) : Multiset Nat := c.list.own + owns ClusterB.own c.items

/-- What a pointer owns. -/
def Ptr.own (f : α → Multiset Nat) : Ptr α → Multiset Nat
  | .at a => f a
  | _ => 0

/-- What is released by `hdbscan_minimal_clean` and assigned by `hdbscan_do_run`, without the clusters. -/
def Obj.results (o : Obj) : Multiset Nat :=
  o.labels.own (fun b => {b}) + o.outliers.own (fun b => {b}) + o.mst.own GraphB.own + o.constraints.own ListB.own + o.hierarchy.own (TableB.own EntryB.own)

/-- What the fields of the object own. -/
def Obj.parts (o : Obj) : Multiset Nat :=
  o.distances.own (fun b => {b}) + o.core.own (fun b => {b}) + o.results + o.clusters.own ClustersB.own + o.stabilities.own (TableB.own (fun _ => 0))

def Obj.own (o : Obj) : Multiset Nat := {o.self} + o.parts

/-- The pointer has been assigned. -/
def Ptr.Set : Ptr α → Prop
  | .indet => False
  | _ => True

theorem tri_whenSet {f : α → Multiset Nat} {m : α → M Unit} (hm : ∀ a, Tri (f a) (m a) (fun _ => 0) (fun _ => True)) {p : Ptr α} (hp : p.Set) :
    Tri (p.own f) (whenSet p m) (fun _ => 0) (fun _ => True) := by
  cases p with
  | indet => exact hp.elim
  | null => exact Tri.pure rfl trivial
  | «at» a => exact hm a

theorem tri_clearClusters {p : Ptr ClustersB} (hp : p.Set) :
    Tri (p.own ClustersB.own) (clearClusters p) (Ptr.own ClustersB.own) (fun q => (p = .null ∧ q = .null) ∨ ∃ l cs, p = .at ⟨l, cs⟩ ∧ q = .at ⟨l, []⟩) := by
  cases p with
  | indet => exact hp.elim
  | null => exact Tri.pure rfl (.inl ⟨rfl, rfl⟩)
  | «at» c =>
    refine Tri.bind (f := c.list.own) (Tri.each tri_clusterDestroy c.items) (by simp only [Ptr.own, ClustersB.own]; abel) fun _ _ => ?_
    exact Tri.pure (by simp only [Ptr.own, ClustersB.own, owns_nil]; abel) (.inr ⟨c.list, c.items, rfl, rfl⟩)

theorem tri_unit (_v : Unit) : Tri 0 (pure () : M Unit) (fun _ => 0) (fun _ => True) := Tri.pure rfl trivial

theorem tri_clearStabilities {p : Ptr (TableB Unit)} (hp : p.Set) :
    Tri (p.own (TableB.own fun _ => 0)) (clearStabilities p) (Ptr.own (TableB.own fun _ => 0)) (fun q => (p = .null ∧ q = .null) ∨ ∃ t t', p = .at t ∧ q = .at t') := by
  cases p with
  | indet => exact hp.elim
  | null => exact Tri.pure rfl (.inl ⟨rfl, rfl⟩)
  | «at» t =>
    refine Tri.bind (f := 0) (tri_tableClear (f := fun _ => 0) (fun v => tri_unit v) t) (by simp only [Ptr.own]; abel) fun t' _ => ?_
    exact Tri.pure (by simp only [Ptr.own]; abel) (.inr ⟨t, t', rfl, rfl⟩)

/-- All pointers have been assigned. -/
structure Obj.AllSet (o : Obj) : Prop where
  distances : o.distances.Set
  core : o.core.Set
  mst : o.mst.Set
  constraints : o.constraints.Set
  clusters : o.clusters.Set
  outliers : o.outliers.Set
  labels : o.labels.Set
  hierarchy : o.hierarchy.Set
  stabilities : o.stabilities.Set

/-- What `hdbscan_minimal_clean` does to an object. -/
structure Cleared (o o' : Obj) : Prop where
  self : o'.self = o.self
  distances : o'.distances = o.distances
  core : o'.core = o.core
  points : o'.points = o.points
  mst : o'.mst = .null
  constraints : o'.constraints = .null
  outliers : o'.outliers = .null
  labels : o'.labels = .null
  hierarchy : o'.hierarchy = .null
  clusters : (o.clusters = .null ∧ o'.clusters = .null) ∨ ∃ l cs, o.clusters = .at ⟨l, cs⟩ ∧ o'.clusters = .at ⟨l, []⟩
  stabilities : (o.stabilities = .null ∧ o'.stabilities = .null) ∨ ∃ t t', o.stabilities = .at t ∧ o'.stabilities = .at t'

theorem tri_minimalClean {o : Obj} (h : o.AllSet) : Tri o.own (minimalClean o) Obj.own (Cleared o) := by
  let D := o.distances.own (fun b => {b}) + o.core.own (fun b => {b})
  let C := o.clusters.own ClustersB.own
  let T := o.stabilities.own (TableB.own (fun _ => 0))
  refine Tri.bind (f := o.parts) (Tri.use o.self) (by simp only [Obj.own]) fun _ _ => ?_
  refine Tri.bind (f := {o.self} + D + C + T + o.outliers.own (fun b => {b}) + o.mst.own GraphB.own + o.constraints.own ListB.own + o.hierarchy.own (TableB.own EntryB.own))
    (tri_whenSet (fun b => Tri.free b) h.labels) (by simp only [Obj.parts, Obj.results, D, C, T]; abel) fun _ _ => ?_
  refine Tri.bind (f := {o.self} + D + C + T + o.mst.own GraphB.own + o.constraints.own ListB.own + o.hierarchy.own (TableB.own EntryB.own))
    (tri_whenSet (fun b => Tri.free b) h.outliers) (by abel) fun _ _ => ?_
  refine Tri.bind (f := {o.self} + D + C + T + o.constraints.own ListB.own + o.hierarchy.own (TableB.own EntryB.own))
    (tri_whenSet tri_graphDestroy h.mst) (by abel) fun _ _ => ?_
  refine Tri.bind (f := {o.self} + D + C + T + o.hierarchy.own (TableB.own EntryB.own))
    (tri_whenSet tri_listDelete h.constraints) (by abel) fun _ _ => ?_
  refine Tri.bind (f := {o.self} + D + C + T) (tri_whenSet (tri_tableDestroy tri_entryDestroy) h.hierarchy) (by abel) fun _ _ => ?_
  refine Tri.bind (f := {o.self} + D + T) (tri_clearClusters h.clusters) (by simp only [C]; abel) fun c hc => ?_
  refine Tri.bind (f := {o.self} + D + c.own ClustersB.own) (tri_clearStabilities h.stabilities) (by simp only [T]; abel) fun t ht => ?_
  refine Tri.pure (by simp only [Obj.own, Obj.parts, Obj.results, Ptr.own, D]; abel) ⟨rfl, rfl, rfl, rfl, rfl, rfl, rfl, rfl, rfl, hc, ht⟩

/-- All pointers are null. -/
structure Obj.AllNull (o : Obj) : Prop where
  distances : o.distances = .null
  core : o.core = .null
  mst : o.mst = .null
  constraints : o.constraints = .null
  clusters : o.clusters = .null
  outliers : o.outliers = .null
  labels : o.labels = .null
  hierarchy : o.hierarchy = .null
  stabilities : o.stabilities = .null

theorem AllNull.set {o : Obj} (h : o.AllNull) : o.AllSet := by
  obtain ⟨h1, h2, h3, h4, h5, h6, h7, h8, h9⟩ := h
  exact ⟨by simp [h1, Ptr.Set], by simp [h2, Ptr.Set], by simp [h3, Ptr.Set], by simp [h4, Ptr.Set], by simp [h5, Ptr.Set], by simp [h6, Ptr.Set], by simp [h7, Ptr.Set],
    by simp [h8, Ptr.Set], by simp [h9, Ptr.Set]⟩

theorem AllNull.own {o : Obj} (h : o.AllNull) : o.own = {o.self} := by
  obtain ⟨h1, h2, h3, h4, h5, h6, h7, h8, h9⟩ := h
  simp [Obj.own, Obj.parts, Obj.results, h1, h2, h3, h4, h5, h6, h7, h8, h9, Ptr.own]

theorem tri_clean {o : Obj} (h : o.AllSet) : Tri o.own (clean o) Obj.own (fun o' => o'.AllNull ∧ o'.self = o.self) := by
  let R := o.results + o.clusters.own ClustersB.own + o.stabilities.own (TableB.own (fun _ => 0))
  refine Tri.bind (f := o.parts) (Tri.use o.self) (by simp only [Obj.own]) fun _ _ => ?_
  refine Tri.bind (f := {o.self} + o.core.own (fun b => {b}) + R) (tri_whenSet (fun b => Tri.free b) h.distances) (by simp only [Obj.parts, R]; abel) fun _ _ => ?_
  refine Tri.bind (f := {o.self} + R) (tri_whenSet (fun b => Tri.free b) h.core) (by abel) fun _ _ => ?_
  have h' : ({ o with distances := .null, core := .null } : Obj).AllSet := ⟨trivial, trivial, h.mst, h.constraints, h.clusters, h.outliers, h.labels, h.hierarchy, h.stabilities⟩
  refine Tri.bind (f := 0) (tri_minimalClean h') (by simp only [Obj.own, Obj.parts, Obj.results, Ptr.own, R]; abel) fun o1 h1 => ?_
  have hc : o1.clusters.Set := by rcases h1.clusters with ⟨_, e⟩ | ⟨_, _, _, e⟩ <;> rw [e] <;> trivial
  have ht : o1.stabilities.Set := by rcases h1.stabilities with ⟨_, e⟩ | ⟨_, _, _, e⟩ <;> rw [e] <;> trivial
  have hcl : Tri (o1.clusters.own ClustersB.own) (whenSet o1.clusters fun c => listDelete c.list) (fun _ => 0) (fun _ => True) := by
    rcases h1.clusters with ⟨_, e⟩ | ⟨l, _, _, e⟩
    · rw [e]; exact Tri.pure rfl trivial
    · rw [e]
      exact Tri.frame (f := 0) (tri_listDelete l) (by simp only [Ptr.own, ClustersB.own, owns_nil]) fun _ _ => ⟨by abel, trivial⟩
  refine Tri.bind (f := {o1.self} + o1.stabilities.own (TableB.own (fun _ => 0))) hcl
    (by simp only [Obj.own, Obj.parts, Obj.results, h1.mst, h1.constraints, h1.outliers, h1.labels, h1.hierarchy, h1.distances, h1.core, Ptr.own]; abel) fun _ _ => ?_
  refine Tri.bind (f := {o1.self}) (tri_whenSet (tri_tableDestroy (fun v => tri_unit v)) ht) (by abel) fun _ _ => ?_
  refine Tri.pure (by simp [Obj.own, Obj.parts, Obj.results, h1.mst, h1.constraints, h1.outliers, h1.labels, h1.hierarchy, h1.distances, h1.core, Ptr.own]) ⟨⟨?_, ?_, ?_, ?_, ?_, ?_, ?_, ?_, ?_⟩, ?_⟩
  all_goals simp [h1.mst, h1.constraints, h1.outliers, h1.labels, h1.hierarchy, h1.distances, h1.core, h1.self]

/-! ### Runs -/

theorem tri_level : Tri 0 level (fun _ => 0) (fun _ => True) := by
  refine Tri.bind (f := 0) tri_listInit (by abel) fun a _ => ?_
  refine Tri.bind (f := a.own) tri_listInit (by abel) fun b _ => ?_
  refine Tri.bind (f := a.own + b.own) tri_listInit (by abel) fun c _ => ?_
  refine Tri.bind (f := a.own + b.own + c.own) tri_listInit (by abel) fun d _ => ?_
  refine Tri.bind (f := a.own + b.own + c.own + d.own) tri_listInit (by abel) fun e _ => ?_
  refine Tri.bind (f := a.own + b.own + c.own + e.own) (tri_listDelete d) (by abel) fun _ _ => ?_
  refine Tri.bind (f := a.own + b.own + c.own) (tri_listDelete e) (by abel) fun _ _ => ?_
  refine Tri.bind (f := b.own + c.own) (tri_listDelete a) (by abel) fun _ _ => ?_
  refine Tri.bind (f := c.own) (tri_listDelete b) (by abel) fun _ _ => ?_
  exact Tri.frame (f := 0) (tri_listDelete c) (by abel) fun _ _ => ⟨by abel, trivial⟩

theorem tri_addLines : ∀ (k : Nat) (t : TableB EntryB), Tri (t.own EntryB.own) (addLines k t) (TableB.own EntryB.own) (fun _ => True)
  | 0, t => Tri.pure rfl trivial
  | k + 1, t => by
    refine Tri.bind (f := t.own EntryB.own) tri_entryInit (by abel) fun e _ => ?_
    refine Tri.bind (f := 0) (tri_tableInsert EntryB.own t e) (by abel) fun t' _ => ?_
    exact Tri.frame (f := 0) (tri_addLines k t') (by abel) fun _ _ => ⟨by abel, trivial⟩

theorem tri_addGroups : ∀ (k : Nat) (t : TableB ListB), Tri (t.own ListB.own) (addGroups k t) (TableB.own ListB.own) (fun _ => True)
  | 0, t => Tri.pure rfl trivial
  | k + 1, t => by
    refine Tri.bind (f := t.own ListB.own) tri_listInit (by abel) fun e _ => ?_
    refine Tri.bind (f := 0) (tri_tableInsert ListB.own t e) (by abel) fun t' _ => ?_
    exact Tri.frame (f := 0) (tri_addGroups k t') (by abel) fun _ _ => ⟨by abel, trivial⟩

theorem owns_zero {l : List α} {f : α → Multiset Nat} (h : ∀ a, f a = 0) : owns f l = 0 := by
  induction l with
  | nil => rfl
  | cons a l ih => rw [owns_cons, h, ih]; rfl

theorem tri_hierarchyStage (s : Shape) (c : ClustersB) (t : TableB EntryB) :
    Tri (c.own + t.own EntryB.own) (hierarchyStage s c t) (fun r => r.1.own + r.2.own EntryB.own) (fun r => r.1.list = c.list) := by
  have hu : Tri c.own (use c.list.self) (fun _ => c.own) (fun _ => True) :=
    Tri.frame (f := {c.list.data} + owns ClusterB.own c.items) (Tri.use c.list.self) (by simp only [ClustersB.own, ListB.own]; abel)
      fun _ _ => ⟨by simp only [ClustersB.own, ListB.own]; abel, trivial⟩
  let X := c.own + t.own EntryB.own
  refine Tri.bind (f := t.own EntryB.own) hu rfl fun _ _ => ?_
  refine Tri.bind (f := X) tri_listInit (by simp only [X]; abel) fun a _ => ?_
  refine Tri.bind (f := X + a.own) tri_listInit (by abel) fun b _ => ?_
  refine Tri.bind (f := X + a.own + b.own) tri_listInit (by abel) fun d _ => ?_
  refine Tri.bind (f := X + a.own + b.own + d.own) (Tri.times tri_clusterInit s.clusters) (by abel) fun items _ => ?_
  refine Tri.bind (f := X + a.own + b.own + d.own + owns ClusterB.own items) (Tri.times tri_level s.levels) (by abel) fun u _ => ?_
  refine Tri.bind (f := c.own + a.own + b.own + d.own + owns ClusterB.own items) (tri_addLines s.lines t) (by rw [owns_zero (fun _ => rfl)]; simp only [X]; abel) fun t' _ => ?_
  refine Tri.bind (f := t'.own EntryB.own + c.own + a.own + b.own + owns ClusterB.own items) (tri_listDelete d) (by abel) fun _ _ => ?_
  refine Tri.bind (f := t'.own EntryB.own + c.own + b.own + owns ClusterB.own items) (tri_listDelete a) (by abel) fun _ _ => ?_
  refine Tri.bind (f := t'.own EntryB.own + c.own + owns ClusterB.own items) (tri_listDelete b) (by abel) fun _ _ => ?_
  exact Tri.pure (by simp only [ClustersB.own, owns_append]; abel) rfl

theorem tri_propagateStage : Tri 0 propagateStage (fun _ => 0) (fun _ => True) := by
  refine Tri.bind (f := 0) tri_listInit (by abel) fun a _ => ?_
  exact Tri.frame (f := 0) (tri_listDelete a) (by abel) fun _ _ => ⟨by abel, trivial⟩

theorem tri_prominentStage (s : Shape) : Tri 0 (prominentStage s) (fun b => {b}) (fun _ => True) := by
  refine Tri.bind (f := 0) (tri_tableInit ListB.own) (by abel) fun t _ => ?_
  refine Tri.bind (f := 0) (tri_addGroups s.groups t) (by abel) fun t' _ => ?_
  refine Tri.bind (f := t'.own ListB.own) Tri.alloc (by abel) fun b _ => ?_
  refine Tri.bind (f := {b}) (tri_tableDestroy tri_listDelete t') (by abel) fun _ _ => ?_
  exact Tri.pure (by abel) trivial

/-- After a run. -/
structure Obj.Ready (o : Obj) : Prop where
  distances : ∃ b, o.distances = .at b
  core : ∃ b, o.core = .at b
  mst : ∃ g, o.mst = .at g
  constraints : o.constraints = .null
  clusters : ∃ c, o.clusters = .at c
  outliers : ∃ b, o.outliers = .at b
  labels : ∃ b, o.labels = .at b
  hierarchy : ∃ t, o.hierarchy = .at t
  stabilities : ∃ t, o.stabilities = .at t
  points : ∃ n, o.points = some n

theorem Ready.set {o : Obj} (h : o.Ready) : o.AllSet := by
  obtain ⟨⟨_, h1⟩, ⟨_, h2⟩, ⟨_, h3⟩, h4, ⟨_, h5⟩, ⟨_, h6⟩, ⟨_, h7⟩, ⟨_, h8⟩, ⟨_, h9⟩, _⟩ := h
  exact ⟨by simp [h1, Ptr.Set], by simp [h2, Ptr.Set], by simp [h3, Ptr.Set], by simp [h4, Ptr.Set], by simp [h5, Ptr.Set], by simp [h6, Ptr.Set], by simp [h7, Ptr.Set],
    by simp [h8, Ptr.Set], by simp [h9, Ptr.Set]⟩

/-- `hdbscan_do_run` on an object with distances and an empty cluster list; what the other fields held before (`o.results`) is lost. -/
theorem tri_doRun (s : Shape) (n : Nat) {o : Obj} {d k : Nat} {c : ClustersB} {t : TableB Unit} (h1 : o.distances = .at d) (h2 : o.core = .at k) (h3 : o.clusters = .at c)
    (h4 : o.stabilities = .at t) (h5 : o.constraints = .null) (h6 : o.points = some n) :
    Tri o.own (doRun s n o) (fun o' => o'.own + o.results) (fun o' => o'.Ready ∧ o'.self = o.self) := by
  let X : Multiset Nat := {o.self} + {d} + {k} + o.results + t.own (fun _ => 0)
  refine Tri.bind (f := o.parts) (Tri.use o.self) (by simp only [Obj.own]) fun _ _ => ?_
  refine Tri.bind (f := X + c.own) (tri_tableInit EntryB.own) (by simp only [Obj.parts, h1, h2, h3, h4, Ptr.own, X]; abel) fun ht _ => ?_
  refine Tri.bind (f := X + c.own + ht.own EntryB.own) (tri_graphInit n) (by abel) fun g _ => ?_
  have hd : Tri 0 (deref o.clusters) (fun _ => 0) (fun x => x = c) := by rw [h3]; exact Tri.pure rfl rfl
  refine Tri.bind (f := X + c.own + ht.own EntryB.own + g.own) hd (by abel) fun x hx => ?_
  subst hx
  refine Tri.bind (f := X + g.own) (tri_hierarchyStage s x ht) (by abel) fun r hr => ?_
  obtain ⟨c', t'⟩ := r
  refine Tri.bind (f := X + g.own + c'.own + t'.own EntryB.own) tri_propagateStage (by abel) fun _ _ => ?_
  refine Tri.bind (f := X + g.own + c'.own + t'.own EntryB.own) (tri_prominentStage s) (by abel) fun l _ => ?_
  refine Tri.bind (f := X + g.own + c'.own + t'.own EntryB.own + {l}) Tri.alloc (by abel) fun u _ => ?_
  refine Tri.pure ?_ ⟨⟨⟨d, h1⟩, ⟨k, h2⟩, ⟨g, rfl⟩, h5, ⟨c', rfl⟩, ⟨u, rfl⟩, ⟨l, rfl⟩, ⟨t', rfl⟩, ⟨t, h4⟩, ⟨n, h6⟩⟩, rfl⟩
  simp only [X, Obj.own, Obj.parts, h1, h2, h4, Ptr.own]
  generalize hR : o.results = R
  simp only [Obj.results, h5, Ptr.own]
  abel

/-- `hdbscan_run` needs the object itself only. What its fields held before is lost. -/
theorem tri_run (s : Shape) (n : Nat) (hn : 5 ≤ n) (o : Obj) (hc : o.constraints = .null) :
    Tri {o.self} (run s n o) Obj.own (fun o' => o'.Ready ∧ o'.self = o.self) := by
  refine Tri.bind (f := 0) (Tri.use o.self) (by abel) fun _ _ => ?_
  refine Tri.bind (f := {o.self}) Tri.alloc (by abel) fun d _ => ?_
  refine Tri.bind (f := {o.self} + {d}) Tri.alloc (by abel) fun k _ => ?_
  have ha : Tri 0 (assertSize n) (fun _ => 0) (fun _ => True) := by
    rw [assertSize, if_neg (by omega)]; exact Tri.pure rfl trivial
  refine Tri.bind (f := {o.self} + {d} + {k}) ha (by abel) fun _ _ => ?_
  refine Tri.bind (f := {o.self} + {d} + {k}) tri_listInit (by abel) fun l _ => ?_
  refine Tri.bind (f := {o.self} + {d} + {k} + l.own) (tri_tableInit (fun _ => 0)) (by abel) fun t _ => ?_
  -- `doRun` with the old results as blocks that do not exist any more: replace them by null
  let o1 : Obj := { o with distances := .at d, core := .at k, clusters := .at ⟨l, []⟩, stabilities := .at t, points := some n }
  let o2 : Obj := { o1 with labels := .null, outliers := .null, mst := .null, hierarchy := .null }
  have hsame : doRun s n o1 = doRun s n o2 := rfl
  show Tri _ (doRun s n o1) _ _
  rw [hsame]
  have hres : o2.results = 0 := by simp [o2, o1, Obj.results, hc, Ptr.own]
  have := tri_doRun s n (o := o2) (d := d) (k := k) (c := ⟨l, []⟩) (t := t) rfl rfl rfl rfl hc rfl
  refine Tri.frame (f := 0) this ?_ fun a ha => ⟨by rw [hres]; abel, ha⟩
  simp only [Obj.own, Obj.parts, hres, o2, o1, Ptr.own, ClustersB.own, owns_nil]
  abel

theorem tri_rerun (s : Shape) {o : Obj} (h : o.Ready) : Tri o.own (rerun s o) Obj.own (fun o' => o'.Ready ∧ o'.self = o.self) := by
  refine Tri.bind (f := 0) (tri_minimalClean (Ready.set h)) (by abel) fun o1 h1 => ?_
  obtain ⟨d, hd⟩ := h.distances
  obtain ⟨k, hk⟩ := h.core
  obtain ⟨n, hn⟩ := h.points
  have hd1 := h1.distances.trans hd
  have hk1 := h1.core.trans hk
  have hcs : Tri o1.own (coreStage o1) (fun _ => o1.own) (fun _ => True) := by
    have e1 : Tri 0 (deref o1.distances) (fun _ => 0) (fun x => x = d) := by rw [hd1]; exact Tri.pure rfl rfl
    have e2 : Tri 0 (deref o1.core) (fun _ => 0) (fun x => x = k) := by rw [hk1]; exact Tri.pure rfl rfl
    let R := {o1.self} + o1.results + o1.clusters.own ClustersB.own + o1.stabilities.own (TableB.own (fun _ => 0))
    have eo : o1.own = {d} + {k} + R := by simp only [Obj.own, Obj.parts, hd1, hk1, Ptr.own, R]; abel
    rw [eo]
    refine Tri.bind (f := {d} + {k} + R) e1 (by abel) fun x hx => ?_
    subst hx
    refine Tri.bind (f := {k} + R) (Tri.use x) (by abel) fun _ _ => ?_
    refine Tri.bind (f := {x} + {k} + R) e2 (by abel) fun y hy => ?_
    subst hy
    exact Tri.frame (f := {x} + R) (Tri.use y) (by abel) fun _ _ => ⟨by abel, trivial⟩
  refine Tri.bind (f := 0) hcs (by abel) fun _ _ => ?_
  have hnp : Tri 0 (numPoints o1) (fun _ => 0) (fun x => x = n) := by rw [numPoints, h1.points, hn]; exact Tri.pure rfl rfl
  refine Tri.bind (f := o1.own) hnp (by abel) fun x hx => ?_
  subst hx
  obtain ⟨c, hc⟩ := h.clusters
  obtain ⟨t, ht⟩ := h.stabilities
  obtain ⟨c', hc'⟩ : ∃ c', o1.clusters = .at c' := by
    rcases h1.clusters with ⟨e, _⟩ | ⟨_, _, _, e⟩
    · rw [hc] at e; cases e
    · exact ⟨_, e⟩
  obtain ⟨t', ht'⟩ : ∃ t', o1.stabilities = .at t' := by
    rcases h1.stabilities with ⟨e, _⟩ | ⟨_, t', _, e⟩
    · rw [ht] at e; cases e
    · exact ⟨_, e⟩
  have hres : o1.results = 0 := by simp [Obj.results, h1.labels, h1.outliers, h1.mst, h1.constraints, h1.hierarchy, Ptr.own]
  refine Tri.frame (f := 0) (tri_doRun s x hd1 hk1 hc' ht' h1.constraints (h1.points.trans hn)) (by abel) fun a ha => ⟨by rw [hres]; abel, ha.1, ha.2.trans h1.self⟩

end Verif.Mem
