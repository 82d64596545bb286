import Verif.Model.Outcome
import Verif.Model.Utils
/-
Model of /repo/src/undirected_graph.c.

Simplifications: the `ArrayList`s are plain lists (append, value_at and remove on an `ArrayList` are those of a list by
properties C01 and C03); indices are natural numbers (`int`, `int64_t` and `index_t` do not overflow below 2^31 edges).
-/
namespace Verif

/-- `UndirectedGraph`, /repo/include/hdbscan/undirected_graph.h: parallel arrays of edges, and adjacency lists. -/
structure Graph (W : Type) where
  numVertices : Nat
  va : List Nat
  vb : List Nat
  wt : List W
  edges : List (List Nat)
  deriving DecidableEq

namespace Graph
variable {W : Type}

/-- One iteration of the loop of `graph_init`, undirected_graph.c 88-98: record the edge `a`-`b` in the adjacency lists. -/
def addEdge (edges : List (List Nat)) (a b : Nat) : Outcome (List (List Nat)) := do
  let la ← rd edges a
  let edges1 ← wr edges a (la ++ [b])
  if a ≠ b then do
    let lb ← rd edges1 b
    wr edges1 b (lb ++ [a])
  else return edges1

/-- The loop of `graph_init`, undirected_graph.c 88-98, from edge `i` on; `n` edges remain. -/
def addEdges (va vb : List Nat) : (n i : Nat) → List (List Nat) → Outcome (List (List Nat))
  | 0, _, edges => .ok edges
  | n + 1, i, edges => do
    let a ← rd va i
    let b ← rd vb i
    let edges' ← addEdge edges a b
    addEdges va vb n (i + 1) edges'

/-- `graph_init`, undirected_graph.c 46-101. -/
def init (numVertices : Nat) (va vb : List Nat) (wt : List W) : Outcome (Graph W) := do
  let edges ← addEdges va vb va.length 0 (List.replicate numVertices [])
  return { numVertices := numVertices, va := va, vb := vb, wt := wt, edges := edges }

/-- `graph_remove_edge`, undirected_graph.c 253-264. -/
def removeEdge (g : Graph W) (a b : Nat) : Outcome (Graph W) := do
  let la ← rd g.edges a
  let edges1 ← wr g.edges a (la.erase b)
  let lb ← rd edges1 b
  let edges2 ← wr edges1 b (lb.erase a)
  return { g with edges := edges2 }

/-- `graph_swap_edges`, undirected_graph.c 200-222. -/
def swapEdges (g : Graph W) (i j : Nat) : Outcome (Graph W) :=
  if i ≠ j then do
    let ta ← rd g.va i
    let tb ← rd g.vb i
    let tw ← rd g.wt i
    let aj ← rd g.va j
    let va1 ← wr g.va i aj
    let bj ← rd g.vb j
    let vb1 ← wr g.vb i bj
    let wj ← rd g.wt j
    let wt1 ← wr g.wt i wj
    let va2 ← wr va1 j ta
    let vb2 ← wr vb1 j tb
    let wt2 ← wr wt1 j tw
    return { g with va := va2, vb := vb2, wt := wt2 }
  else .ok g

/-- `graph_select_pivot_index`, undirected_graph.c 174-198. The first test is always true for `start ≤ end`, so the
    median of three is never looked at. -/
def selectPivot [CCmp W] (g : Graph W) (s e : Nat) : Outcome Nat :=
  if (s : Int) - e ≤ 1 then .ok s
  else do
    let first ← rd g.wt s
    let middle ← rd g.wt (s + (e - s) / 2)
    let last ← rd g.wt e
    if CCmp.le first middle then
      if CCmp.le middle last then return s + (e - s) / 2
      else if CCmp.le first last then return e
      else return s
    else
      if CCmp.le first last then return s
      else if CCmp.le middle last then return e
      else return s + (e - s) / 2

/-- The loop of `graph_partition`, undirected_graph.c 232-238; `k` iterations remain, `i` is the loop variable. -/
def partLoop [CCmp W] (pv : W) : (k i low : Nat) → Graph W → Outcome (Graph W × Nat)
  | 0, _, low, g => .ok (g, low)
  | k + 1, i, low, g => do
    let c ← rd g.wt i
    if CCmp.lt c pv then do
      let g' ← swapEdges g i low
      partLoop pv k (i + 1) (low + 1) g'
    else partLoop pv k (i + 1) low g

/-- `graph_partition`, undirected_graph.c 224-242. -/
def partition [CCmp W] (g : Graph W) (s e p : Nat) : Outcome (Graph W × Nat) := do
  let pv ← rd g.wt p
  let g1 ← swapEdges g p e
  let (g2, low) ← partLoop pv (e - s) s s g1
  let g3 ← swapEdges g2 low e
  return (g3, low)

/-- Push a range on the two index stacks (here one list of pairs, whose length is `stackTop + 1`); writing beyond the
    `cap` cells of the stacks is undefined. -/
def push (cap : Nat) (c : Bool) (r : Nat × Nat) (st : List (Nat × Nat)) : Outcome (List (Nat × Nat)) :=
  if c then (if st.length < cap then .ok (r :: st) else .ub "stack of ranges overflows") else .ok st

/-- The loop of `graph_quicksort_by_edge_weight`, undirected_graph.c 152-171; `fuel` bounds the loop. -/
def sortLoop [CCmp W] (cap : Nat) : (fuel : Nat) → List (Nat × Nat) → Graph W → Outcome (Graph W)
  | _, [], g => .ok g
  | 0, _ :: _, _ => .diverge
  | fuel + 1, (s, e) :: st, g => do
    let p0 ← selectPivot g s e
    let (g', p) ← partition g s e p0
    let st1 ← push cap (decide (p > s + 1)) (s, p - 1) st
    let st2 ← push cap (decide (p + 1 < e)) (p + 1, e) st1
    sortLoop cap fuel st2 g'

/-- `graph_quicksort_by_edge_weight`, undirected_graph.c 140-172. -/
def sortByWeight [CCmp W] (g : Graph W) : Outcome (Graph W) :=
  let esize := g.wt.length
  if esize ≤ 1 then .ok g
  else do
    let st ← push (esize / 2) true (0, esize - 1) []
    sortLoop (esize / 2) (esize + 1) st g

/-- `graph_quicksort`, undirected_graph.c 244-251 (recursive variant, `e` exclusive upper neighbour `e1 = endIndex + 1`
    so that an empty range needs no negative index); `fuel` bounds the recursion depth. -/
def quicksort [CCmp W] : (fuel : Nat) → (s e1 : Nat) → Graph W → Outcome (Graph W)
  | 0, _, _, _ => .diverge
  | fuel + 1, s, e1, g =>
    if s + 1 < e1 then do
      let p0 ← selectPivot g s (e1 - 1)
      let (g', p) ← partition g s (e1 - 1) p0
      let g2 ← quicksort fuel s p g'
      quicksort fuel (p + 1) e1 g2
    else .ok g

/-- A history of removals. -/
def removeAll (g : Graph W) : List (Nat × Nat) → Outcome (Graph W)
  | [] => .ok g
  | (a, b) :: r => do
    let g' ← removeEdge g a b
    removeAll g' r

end Graph
end Verif
