import Verif.Model.Print
/-
Model of the print functions of /repo/src/hdbscan.cpp 191-230. They call `printf` directly, without character arrays. A `std::map` is visited in ascending order of its keys.
-/
namespace Verif.Print
variable {W : Type}

/-- The loop over the points of a cluster, hdbscan.cpp 199-201. -/
def cppPoints : List Nat → World → World
  | [], w => w
  | i :: r, w => cppPoints r (put w (fmtU i ++ " ".toList))

/-- `clustering::printClusterMap`, hdbscan.cpp 191-204. -/
def cppClusterMap : KMap (List Nat) → World → World
  | [], w => w
  | (label, l) :: r, w =>
    let w1 := put w (fmtU label ++ " -> [".toList)
    let w2 := cppPoints l w1
    cppClusterMap r (put w2 "]\n".toList)

/-- `clustering::printClusterSizes`, hdbscan.cpp 206-213. -/
def cppClusterSizes : KMap (List Nat) → World → World
  | [], w => w
  | (label, l) :: r, w => cppClusterSizes r (put w (fmtU label ++ " : ".toList ++ fmtL l.length ++ "\n".toList))

/-- The loop of `clustering::printDistanceMap`, hdbscan.cpp 219-228. -/
def cppDistanceLoop (view : W → Dbl) : KMap (DistVals W) → World → World
  | [], w => w
  | (label, v) :: r, w =>
    let w1 := put w (fmtU label ++ " -> {\n".toList)
    let w2 := put w1 ("min_cr : ".toList ++ fmtF 6 (view v.minCr) ++ ", max_cr : ".toList ++ fmtF 6 (view v.maxCr) ++ ", cr_confidence : ".toList ++ fmtF 6 (view v.crConf) ++ "\n".toList)
    let w3 := put w2 ("min_dr : ".toList ++ fmtF 6 (view v.minDr) ++ ", max_dr : ".toList ++ fmtF 6 (view v.maxDr) ++ ", dr_confidence : ".toList ++ fmtF 6 (view v.drConf) ++ "\n".toList)
    cppDistanceLoop view r (put w3 "}\n\n".toList)

/-- `clustering::printDistanceMap`, hdbscan.cpp 215-230. -/
def cppDistanceMap (view : W → Dbl) (m : KMap (DistVals W)) (w : World) : World :=
  let w1 := put w "\n//////////////////////////////////////// Distances ///////////////////////////////////////////////\n".toList
  let w2 := cppDistanceLoop view m w1
  put w2 "///////////////////////////////////////////////////////////////////////////////////////\n\n".toList

end Verif.Print
