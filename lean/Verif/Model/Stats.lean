import Verif.Model.ClusterMap
/-
Model of the statistics of a clustering, /repo/src/hdbscan.c 1340-1355 and 1412-1545.

Simplifications: the floating point operations are parameters; the statistics of the two kinds of distances, which the C code computes side by
side in the same loops on separate variables, are computed one after the other; `hdbscan_skew_kurt_1`, whose body all threads of a parallel
region execute with the same values, is executed once (`SkewKurt` and C100 justify this). The variable length arrays `cr` and `dr` are lists.
-/
namespace Verif.Stat
variable {W : Type}

/-- The floating point operations. -/
structure Ops (W : Type) where
  zero : W
  add : W → W → W
  sub : W → W → W
  mul : W → W → W
  div : W → W → W
  ofNat : Nat → W
  sqrt : W → W
  /-- `pow(x, 3)` -/
  pow3 : W → W
  /-- `pow(x, 4)` -/
  pow4 : W → W

/-- `stats_values`, /repo/include/hdbscan/hdbscan.h 93-100. -/
structure Vals (W : Type) where
  mean : W
  standardDev : W
  variance : W
  max : W
  kurtosis : W
  skewness : W
  deriving DecidableEq

/-- `clustering_stats`, /repo/include/hdbscan/hdbscan.h 107-111. -/
structure Stats (W : Type) where
  count : Nat
  core : Vals W
  intra : Vals W
  deriving DecidableEq

/-- The first loop of `hdbscan_calculate_stats_helper` for one kind, hdbscan.c 1414-1437: (maximum, sum). -/
def maxSum [CCmp W] (o : Ops W) : List W → W × W → W × W
  | [], s => s
  | x :: r, (m, s) => maxSum o r (if CCmp.lt m x then x else m, o.add s x)

/-- The second loop for one kind, hdbscan.c 1449-1460: (variance, sum of cubes, sum of fourth powers). -/
def moments (o : Ops W) (mean : W) : List W → W × W × W → W × W × W
  | [], s => s
  | x :: r, (v, s3, s4) =>
    let t := o.sub x mean
    moments o mean r (o.add v (o.mul t t), o.add s3 (o.pow3 t), o.add s4 (o.pow4 t))

/-- `hdbscan_calculate_stats_helper` with `hdbscan_skew_kurt_1` for one kind, hdbscan.c 1412-1469 and 1340-1355: `xs` are the ratios, `old` is the
    record before the call (its variance is the start of the sum). -/
def kind [CCmp W] (o : Ops W) (count : Nat) (xs : List W) (old : Vals W) : Outcome (Vals W) := do
  let x ← rd xs 0
  let (mx, sum) := maxSum o xs.tail (x, x)
  let mean := o.div sum (o.ofNat count)
  let (v, s3, s4) := moments o mean xs (old.variance, o.zero, o.zero)
  let variance := o.div v (o.ofNat (count - 1))
  let sd := o.sqrt variance
  return { mean := mean, standardDev := sd, variance := variance, max := mx
           skewness := o.div s3 (o.mul (o.ofNat count) (o.pow3 sd))
           kurtosis := o.sub (o.div s4 (o.mul (o.ofNat count) (o.pow4 sd))) (o.ofNat 3) }

/-- `dl->max_cr/dl->min_cr`, hdbscan.c 1491. -/
def crRatio (o : Ops W) (v : DistVals W) : W := o.div v.maxCr v.minCr

/-- `dl->max_dr/dl->min_dr`, hdbscan.c 1492. -/
def drRatio (o : Ops W) (v : DistVals W) : W := o.div v.maxDr v.minDr

/-- `((max - r) / max) * 100`, hdbscan.c 1505-1506. -/
def confidence (o : Ops W) (mx r : W) : W := o.mul (o.div (o.sub mx r) mx) (o.ofNat 100)

/-- `hdbscan_calculate_stats`, hdbscan.c 1477-1508; `clustering::calculateStats`, /repo/src/hdbscan.cpp 157-182, makes the same steps. -/
def calculate [CCmp W] (o : Ops W) (m : KMap (DistVals W)) (old : Stats W) : Outcome (KMap (DistVals W) × Stats W) := do
  let core ← kind o m.length (m.map (fun e => crRatio o e.2)) old.core
  let intra ← kind o m.length (m.map (fun e => drRatio o e.2)) old.intra
  return (m.map (fun e => (e.1, { e.2 with crConf := confidence o core.max (crRatio o e.2), drConf := confidence o intra.max (drRatio o e.2) })),
    { count := m.length, core := core, intra := intra })

/-- The score of one kind of distances, hdbscan.c 1524-1532 and 1534-1542; `zero` is `0.0`. -/
def score [CCmp W] (zero skew kurt : W) : Int :=
  if CCmp.lt zero skew && CCmp.lt zero kurt then 2
  else if CCmp.lt skew zero && CCmp.lt zero kurt then 1
  else if CCmp.lt zero skew && CCmp.lt kurt zero then 0
  else -1

/-- `hdbscan_analyse_stats`, hdbscan.c 1516-1545. -/
def analyse [CCmp W] (zero : W) (s : Stats W) : Int := 0 + score zero s.intra.skewness s.intra.kurtosis + score zero s.core.skewness s.core.kurtosis

end Verif.Stat
