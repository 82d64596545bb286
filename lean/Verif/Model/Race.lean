import Verif.Model.Hierarchy
/-
Model of the parallel loop that assigns offsets, /repo/src/hdbscan.c 669-679, under interleaving.

The variable `newCluster` is declared outside of the parallel loop, so all threads share it. An iteration makes two accesses
to it: it stores a pointer (line 677), then loads it again and writes through it (line 678). Simplification: the accesses of
different threads are interleaved in some order and each is atomic (sequential consistency); the C standard makes the race
undefined behaviour altogether, so this is the most benign reading. The loop variable `i` is private, as OpenMP prescribes.
-/
namespace Verif.Race
open Hier
variable {W S : Type}

/-- One access of iteration `i`. -/
inductive Access
  /-- `newCluster = ((cluster**)newClusters->data)[i]`, hdbscan.c 677 -/
  | assign (i : Nat)
  /-- `newCluster->offset = lineCount`, hdbscan.c 678 -/
  | write (i : Nat)
  deriving DecidableEq

/-- Execute one access; the state is (`newCluster`, `sc->clusters`), `fresh` is `newClusters`. -/
def step (lineCount : Nat) (fresh : List Nat) : Access → Option Nat × List (Option (Cl W S)) → Outcome (Option Nat × List (Option (Cl W S)))
  | .assign i, (_, cs) => do
    let l ← rd fresh i
    return (some l, cs)
  | .write _, (ptr, cs) =>
    match ptr with
    | none => .ub "null pointer"
    | some l => do
      let c ← getCl cs l
      let cs' ← wr cs l (some { c with offset := lineCount })
      return (ptr, cs')

/-- Execute the accesses of all threads in the given order. -/
def run (lineCount : Nat) (fresh : List Nat) : List Access → Option Nat × List (Option (Cl W S)) → Outcome (Option Nat × List (Option (Cl W S)))
  | [], s => .ok s
  | a :: r, s => do
    let s' ← step lineCount fresh a s
    run lineCount fresh r s'

/-- The loop, hdbscan.c 669-679, its accesses interleaved as `acts` says. -/
def offsets (lineCount : Nat) (fresh : List Nat) (acts : List Access) (cs : List (Option (Cl W S))) : Outcome (List (Option (Cl W S))) := do
  let s ← run lineCount fresh acts (none, cs)
  return s.2

end Verif.Race
