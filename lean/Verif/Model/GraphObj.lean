import Verif.Model.Graph
/-
Model of the life of an `UndirectedGraph`, /repo/src/undirected_graph.c and /repo/src/undirected_graph.cpp: the calls a program can make on it one after the other, with the
blocks of memory the object points to. What is computed is `Verif.Graph` (Model/Graph.lean).

Simplifications: memory is always granted (property C93 is about the other case) and `malloc(0)` returns a block of its own, as with the GNU C library; an `ArrayList` and its data
are one block (C01 and C50 are about the two); the loops of `graph_init` that create and fill the neighbour lists are run before the lists are stored.
-/
namespace Verif

/-- What a block of memory holds: a list of vertices, a list of weights, or the table `edges` of pointers to lists. -/
inductive GBlock (W : Type) where
  | verts (l : List Nat)
  | weights (l : List W)
  | table (l : List Nat)
  deriving DecidableEq

/-- The blocks that are allocated, with their addresses; `next` is the next address. -/
structure GMem (W : Type) where
  live : List (Nat × GBlock W)
  next : Nat

namespace GMem
variable {W : Type}

/-- `malloc`, with what the caller stores in the block. -/
def alloc (m : GMem W) (b : GBlock W) : GMem W × Nat := ({ live := (m.next, b) :: m.live, next := m.next + 1 }, m.next)

/-- One list of vertices for every element of the argument; the result has their addresses. -/
def allocAll (m : GMem W) : List (List Nat) → GMem W × List Nat
  | [] => (m, [])
  | l :: r => let (m1, a) := m.alloc (.verts l); let (m2, as) := allocAll m1 r; (m2, a :: as)

/-- Follow a pointer (`none` is `NULL`). -/
def deref (m : GMem W) : Option Nat → Outcome (GBlock W)
  | none => .ub "null pointer"
  | some a => match m.live.lookup a with
    | some b => .ok b
    | none => .ub "dangling pointer"

/-- Follow a pointer to a list of vertices. -/
def verts (m : GMem W) (p : Option Nat) : Outcome (List Nat) := do
  match ← m.deref p with
  | .verts l => return l
  | _ => .ub "block of another type"

/-- Follow a pointer to a list of weights. -/
def weights (m : GMem W) (p : Option Nat) : Outcome (List W) := do
  match ← m.deref p with
  | .weights l => return l
  | _ => .ub "block of another type"

/-- Follow a pointer to a table of pointers. -/
def table (m : GMem W) (p : Option Nat) : Outcome (List Nat) := do
  match ← m.deref p with
  | .table l => return l
  | _ => .ub "block of another type"

/-- Store something else in the block at `a`. -/
def store (m : GMem W) (a : Nat) (c : GBlock W) : GMem W := { m with live := m.live.map (fun b => if b.1 = a then (a, c) else b) }

/-- Store through a pointer that has been followed before. -/
def storeAt (m : GMem W) (p : Option Nat) (c : GBlock W) : Outcome (GMem W) :=
  match p with
  | none => .ub "null pointer"
  | some a => .ok (m.store a c)

/-- `free(p)` and `array_list_delete(p)` for a pointer that is not `NULL`. -/
def free (m : GMem W) (a : Nat) : Outcome (GMem W) :=
  if m.live.lookup a = none then .ub "free of a block that is not allocated" else .ok { m with live := m.live.filter (fun b => b.1 != a) }

/-- `if (p != NULL) array_list_delete(p)`. -/
def freeOpt (m : GMem W) : Option Nat → Outcome (GMem W)
  | none => .ok m
  | some a => m.free a

/-- `array_list_delete` for the elements `i`, `i + 1`, … of a table of pointers; `k` of them remain. -/
def freeTable (t : List Nat) : (k i : Nat) → GMem W → Outcome (GMem W)
  | 0, _, m => .ok m
  | k + 1, i, m => do
    let a ← rd t i
    let m' ← m.free a
    freeTable t k (i + 1) m'

end GMem

/-- `UndirectedGraph`, /repo/include/hdbscan/undirected_graph.h: the pointers are `none` when they are `NULL`. -/
structure GStruct where
  numVertices : Nat
  va : Option Nat
  vb : Option Nat
  wt : Option Nat
  edges : Option Nat
  deriving DecidableEq

/-- What a program can do with a graph. `init` is `graph_init` with three new lists; `neighbours v` looks at `g->edges[v]`, `edge i` at the `i`th elements of the three lists. -/
inductive GCall (W : Type) where
  | init (n : Nat) (va vb : List Nat) (wt : List W)
  | sort
  | remove (a b : Nat)
  | neighbours (v : Nat)
  | edge (i : Nat)
  | clean

/-- What a call tells. -/
inductive GAnswer (W : Type) where
  | nothing
  | neighbours (l : List Nat)
  | edge (e : Nat × Nat × W)

namespace GStruct
variable {W : Type}

/-- `graph_init`, undirected_graph.c 46-101, on an existing object: the pointers are overwritten; `edgeWeights` is stored and not looked at. -/
def init (m : GMem W) (n : Nat) (pa pb pw : Option Nat) : Outcome (GMem W × GStruct) := do
  let va ← m.verts pa
  let vb ← m.verts pb
  let adj ← Graph.addEdges va vb va.length 0 (List.replicate n [])
  let (m1, as) := m.allocAll adj
  let (m2, t) := m1.alloc (.table as)
  return (m2, { numVertices := n, va := pa, vb := pb, wt := pw, edges := some t })

/-- The constructor `UndirectedGraph()`, undirected_graph.cpp 42-44. -/
def construct (m : GMem W) : Outcome (GMem W × GStruct) := init m 0 none none none

/-- Store the lists of edges after sorting. -/
def storeEdges (m : GMem W) (g : GStruct) (s : Graph W) : Outcome (GMem W) := do
  let m1 ← m.storeAt g.va (.verts s.va)
  let m2 ← m1.storeAt g.vb (.verts s.vb)
  m2.storeAt g.wt (.weights s.wt)

/-- `graph_quicksort_by_edge_weight`, undirected_graph.c 140-172: with at most one weight nothing else is looked at. -/
def sort [CCmp W] (m : GMem W) (g : GStruct) : Outcome (GMem W) := do
  let wt ← m.weights g.wt
  if wt.length ≤ 1 then .ok m
  else do
    let va ← m.verts g.va
    let vb ← m.verts g.vb
    let s ← Graph.sortByWeight { numVertices := g.numVertices, va := va, vb := vb, wt := wt, edges := [] }
    storeEdges m g s

/-- `graph_remove_edge`, undirected_graph.c 253-264. -/
def remove (m : GMem W) (g : GStruct) (a b : Nat) : Outcome (GMem W) := do
  let t ← m.table g.edges
  let pa ← rd t a
  let la ← m.verts (some pa)
  let m1 := m.store pa (.verts (la.erase b))
  let pb ← rd t b
  let lb ← m1.verts (some pb)
  return m1.store pb (.verts (lb.erase a))

/-- The list `g->edges[v]`. -/
def neighbours (m : GMem W) (g : GStruct) (v : Nat) : Outcome (List Nat) := do
  let t ← m.table g.edges
  let p ← rd t v
  m.verts (some p)

/-- The elements `i` of `verticesA`, `verticesB` and `edgeWeights`. -/
def edge (m : GMem W) (g : GStruct) (i : Nat) : Outcome (Nat × Nat × W) := do
  let va ← m.verts g.va
  let vb ← m.verts g.vb
  let wt ← m.weights g.wt
  let a ← rd va i
  let b ← rd vb i
  let w ← rd wt i
  return (a, b, w)

/-- The part of `graph_clean` about `edges`, undirected_graph.c 128-136. -/
def cleanEdges (m : GMem W) (n : Nat) : Option Nat → Outcome (GMem W)
  | none => .ok m
  | some p => do
    let t ← m.table (some p)
    let m1 ← GMem.freeTable t n 0 m
    m1.free p

/-- `graph_clean`, undirected_graph.c 110-138, also the destructor `~UndirectedGraph()`, undirected_graph.cpp 46-48. -/
def clean (m : GMem W) (g : GStruct) : Outcome (GMem W × GStruct) := do
  let m1 ← m.freeOpt g.va
  let m2 ← m1.freeOpt g.vb
  let m3 ← m2.freeOpt g.wt
  let m4 ← cleanEdges m3 g.numVertices g.edges
  return (m4, { g with va := none, vb := none, wt := none, edges := none })

/-- `graph_destroy`, undirected_graph.c 103-109, what it does to the blocks of the object (the struct itself is freed last). -/
def destroy (m : GMem W) : Option GStruct → Outcome (GMem W)
  | none => .ok m
  | some g => do
    let r ← g.clean m
    return r.1

/-- One call. -/
def step [CCmp W] (m : GMem W) (g : GStruct) : GCall W → Outcome (GMem W × GStruct × GAnswer W)
  | .init n va vb wt => do
    let (m1, pa) := m.alloc (.verts va)
    let (m2, pb) := m1.alloc (.verts vb)
    let (m3, pw) := m2.alloc (.weights wt)
    let r ← init m3 n (some pa) (some pb) (some pw)
    return (r.1, r.2, .nothing)
  | .sort => do
    let m' ← g.sort m
    return (m', g, .nothing)
  | .remove a b => do
    let m' ← g.remove m a b
    return (m', g, .nothing)
  | .neighbours v => do
    let l ← g.neighbours m v
    return (m, g, .neighbours l)
  | .edge i => do
    let e ← g.edge m i
    return (m, g, .edge e)
  | .clean => do
    let r ← g.clean m
    return (r.1, r.2, .nothing)

/-- The calls of a program on one object, in order, with what they tell. -/
def run [CCmp W] : GMem W → GStruct → List (GCall W) → Outcome (GMem W × GStruct × List (GAnswer W))
  | m, g, [] => .ok (m, g, [])
  | m, g, c :: r => do
    let s ← step m g c
    let t ← run s.1 s.2.1 r
    return (t.1, t.2.1, s.2.2 :: t.2.2)

end GStruct
end Verif
