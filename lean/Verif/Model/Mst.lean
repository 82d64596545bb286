import Verif.Model.Distance
import Verif.Model.Graph
/-
Model of `hdbscan_construct_mst`, /repo/src/hdbscan.c 810-980.

Simplifications: allocation succeeds; the two initialisation loops and the loop over self edges (`omp parallel for`, each
iteration writing its own cells) are executed in index order.
-/
namespace Verif.Mst
variable {W : Type}

/-- Mutual reachability distance as computed in the loop, hdbscan.c 923-930. -/
def mrd [CCmp W] (zero : W) (dis : Distance W) (neighbor cur : Nat) : Outcome W := do
  let d ← dis.get zero neighbor cur
  let cc ← rdInit dis.coreDistances cur
  let d1 := if CCmp.lt d cc then cc else d
  let cn ← rdInit dis.coreDistances neighbor
  return if CCmp.lt d1 cn then cn else d1

/-- What the inner loop changes. -/
structure Scan (W : Type) where
  dist : List W
  nb : List Nat
  /-- `nearestMRDDistance` -/
  nd : W
  /-- `nearestMRDPoint`, `none` for -1 -/
  np : Option Nat

/-- `if (mrd < d) { distances[neighbor] = ...; neighbours[neighbor] = ...; }`, hdbscan.c 932-936. -/
def relax [CCmp W] (m : W) (neighbor cur : Nat) (s : Scan W) : Outcome (Scan W) := do
  let d ← rd s.dist neighbor
  if CCmp.lt m d then do
    let dist' ← wr s.dist neighbor m
    let nb' ← wr s.nb neighbor cur
    return { s with dist := dist', nb := nb' }
  else return s

/-- Body of the inner loop for an unattached point, hdbscan.c 923-943. -/
def visit [CCmp W] (zero : W) (dis : Distance W) (cur neighbor : Nat) (s : Scan W) : Outcome (Scan W) := do
  let m ← mrd zero dis neighbor cur
  let s1 ← relax m neighbor cur s
  let d ← rd s1.dist neighbor
  if CCmp.le d s1.nd then return { s1 with nd := d, np := some neighbor } else return s1

/-- The inner loop, hdbscan.c 913-944; the list is what remains of `0, ..., size - 1`. -/
def scan [CCmp W] (zero : W) (dis : Distance W) (att : List Bool) (cur : Nat) : List Nat → Scan W → Outcome (Scan W)
  | [], s => .ok s
  | neighbor :: r, s =>
    if cur = neighbor then scan zero dis att cur r s
    else do
      let a ← rd att neighbor
      if a then scan zero dis att cur r s
      else do
        let s' ← visit zero dis cur neighbor s
        scan zero dis att cur r s'

/-- `attachedPoints[nearestMRDPoint] = TRUE`, hdbscan.c 947; index -1 is out of bounds. -/
def attach (att : List Bool) : Option Nat → Outcome (List Bool × Nat)
  | none => .ub "attachedPoints[-1]"
  | some p => do
    let att' ← wr att p true
    return (att', p)

/-- The outer loop, hdbscan.c 908-950; `k` iterations remain. -/
def grow [CCmp W] (zero dmax : W) (dis : Distance W) (size : Nat) :
    (k numAttached cur : Nat) → List Bool → List W → List Nat → List Nat → Outcome (List W × List Nat × List Nat)
  | 0, _, _, _, dist, nb, ot => .ok (dist, nb, ot)
  | k + 1, numAttached, cur, att, dist, nb, ot => do
    let s ← scan zero dis att cur (List.range size) { dist := dist, nb := nb, nd := dmax, np := none }
    let (att', p) ← attach att s.np
    let ot' ← wr ot numAttached numAttached
    grow zero dmax dis size k (numAttached + 1) p att' s.dist s.nb ot'

/-- The self edges, hdbscan.c 953-965: vertex `v` is written to position `begin + v`; `k` vertices remain. -/
def selfLoop (dis : Distance W) (start : Nat) : (k v : Nat) → List W → List Nat → List Nat → Outcome (List W × List Nat × List Nat)
  | 0, _, dist, nb, ot => .ok (dist, nb, ot)
  | k + 1, v, dist, nb, ot => do
    let nb' ← wr nb (start + v) v
    let ot' ← wr ot (start + v) v
    let c ← rdInit dis.coreDistances v
    let dist' ← wr dist (start + v) c
    selfLoop dis start k (v + 1) dist' nb' ot'

/-- The `if (sc->selfEdges == TRUE)` block, hdbscan.c 953-965. -/
def addSelf (selfEdges : Bool) (dis : Distance W) (size : Nat) (r : List W × List Nat × List Nat) :
    Outcome (List W × List Nat × List Nat) :=
  if selfEdges then selfLoop dis (size - 1) size 0 r.1 r.2.1 r.2.2 else .ok r

/-- `hdbscan_construct_mst`, hdbscan.c 810-980, for `size ≥ 1` points. -/
def construct [CCmp W] (zero dmax : W) (selfEdges : Bool) (dis : Distance W) (size : Nat) : Outcome (Graph W) := do
  let ssize := size - 1 + (if selfEdges then size else 0)
  let r ← grow zero dmax dis size (size - 1) 1 (size - 1) (List.replicate (size - 1) false ++ [true])
    (List.replicate ssize dmax) (List.replicate ssize 0) (List.replicate ssize 0)
  let r' ← addSelf selfEdges dis size r
  Graph.init size r'.2.1 r'.2.2 r'.1

end Verif.Mst
