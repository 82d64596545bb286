import Verif.Model.Stats
/-
Model of the report on a clustering that the sample programs make, /repo/sample/tester.c 138-184 and /repo/sample/tester.cpp 44-72: the calls on the results of a
run one after the other. Printing is left out (see `Verif.Model.Print`).
-/
namespace Verif.Report
variable {W : Type}

/-- What a report consists of. -/
structure Report (W : Type) where
  map : KMap (List Nat)
  distances : KMap (DistVals W)
  stats : Stat.Stats W
  byLength : List Nat
  bySimilarity : List Nat
  deriving DecidableEq

/-- The C program, tester.c 138-175: the cluster map of all points, distances, statistics, the clusters sorted by length (the list passed in holds the
    keys of the map), and these sorted by similarity. `labels` and `dis` are those of the `hdbscan` object, `old` is the variable `stats` before. -/
def make [CCmp W] (k : DMap.Consts W) (o : Stat.Ops W) (labels : List Nat) (n : Nat) (dis : Distance W) (old : Stat.Stats W) (coreType : Bool) : Outcome (Report W) := do
  let map ← CMap.create labels 0 n
  let d ← DMap.minMax k dis map
  let (d', s) ← Stat.calculate o d old
  let byLen ← CSort.byLength map (some map.keys)
  let bySim ← CSort.bySimilarity d' (some byLen) coreType
  return { map := map, distances := d', stats := s, byLength := byLen, bySimilarity := bySim }

/-- The C++ program, tester.cpp 44-66. The list for the clusters is empty before. -/
def cppMake [CCmp W] (k : DMap.Consts W) (o : Stat.Ops W) (labels : List Nat) (n : Nat) (dis : Distance W) (old : Stat.Stats W) (coreType : Bool) : Outcome (Report W) := do
  let map ← CMap.cppCreate labels 0 n
  let d ← DMap.minMax k dis map
  let (d', s) ← Stat.calculate o d old
  let byLen ← CSort.cppByLength map []
  let bySim ← CSort.cppBySimilarity d' byLen coreType
  return { map := map, distances := d', stats := s, byLength := byLen, bySimilarity := bySim }

end Verif.Report
