import Verif.Model.Run
/-
Model of /repo/src/outlier_score.c and of `hdbscsan_calculate_outlier_scores`, /repo/src/hdbscan.c 1155-1195.

`qsort` is a function of the C library, not of this code base: it is a parameter of the model.
-/
namespace Verif

/-- `outlier_score`, /repo/include/hdbscan/outlier_score.h. Scores have type `T`. -/
structure OScore (W T : Type) where
  score : T
  core : W
  id : Nat
  deriving DecidableEq

/-- `outlier_score_compare`, outlier_score.c 64-82: the last line is `(int)(s1.id - s2.id)` with unsigned ids. -/
def outlierCompare {W T : Type} [CCmp W] [CCmp T] (a b : OScore W T) : Int :=
  if CCmp.lt b.score a.score then 1
  else if CCmp.lt a.score b.score then -1
  else if CCmp.lt b.core a.core then 1
  else if CCmp.lt a.core b.core then -1
  else asInt32 (subIndex a.id b.id)

namespace Outlier
variable {W S T : Type}

/-- The floating point operations of the loop: the literal 0 as a score, and `1 - (epsilon_max / epsilon)`. -/
structure Ops (W T : Type) where
  zero : T
  ratio : W → W → T

/-- The score of point `i`, hdbscan.c 1176-1184. -/
def scoreOf [CCmp W] (zeroW : W) (ops : Ops W T) (cs : List (Option (Cl W S))) (noise : List (Option W)) (last : List (Option Nat)) (i : Nat) : Outcome T := do
  let l ← rdInit last i
  let c ← getCl cs l
  let eps ← rdInit noise i
  return if CCmp.eq eps zeroW then ops.zero else ops.ratio c.propLowest eps

/-- The loop filling `outlierScores`, hdbscan.c 1172-1189, its iterations executed in the given order (`omp parallel for`). -/
def fill [CCmp W] (zeroW : W) (ops : Ops W T) (cs : List (Option (Cl W S))) (noise : List (Option W)) (last : List (Option Nat)) (core : List (Option W)) :
    (order : List Nat) → List (Option (OScore W T)) → Outcome (List (Option (OScore W T)))
  | [], a => .ok a
  | i :: r, a => do
    let s ← scoreOf zeroW ops cs noise last i
    let c ← rdInit core i
    let a' ← wr a i (some { score := s, core := c, id := i })
    fill zeroW ops cs noise last core r a'

/-- The array handed to `qsort` must be initialised. -/
def initialised {α : Type} : List (Option α) → Outcome (List α)
  | [] => .ok []
  | none :: _ => .ub "read of an indeterminate value"
  | some x :: r => do
    let xs ← initialised r
    return x :: xs

/-- `hdbscsan_calculate_outlier_scores`, hdbscan.c 1155-1195, for `n` points. -/
def scores [CCmp W] [CCmp T] (qsort : (OScore W T → OScore W T → Int) → List (OScore W T) → List (OScore W T)) (zeroW : W) (ops : Ops W T) (order : List Nat)
    (cs : List (Option (Cl W S))) (noise : List (Option W)) (last : List (Option Nat)) (core : List (Option W)) (n : Nat) : Outcome (List (OScore W T)) := do
  let a ← fill zeroW ops cs noise last core order (List.replicate n none)
  let xs ← initialised a
  return qsort outlierCompare xs

end Outlier

namespace Run
variable {W S T : Type}

/-- What `hdbscan_do_run` leaves behind. -/
structure Full (W S T : Type) extends Out W S where
  outliers : List (OScore W T)

/-- `hdbscan_do_run`, hdbscan.c 236-268, with the outlier scores (line 264); `order` is the schedule of the loop over the points. -/
def full [CCmp W] [CCmp S] [CCmp T] (qsort : (OScore W T → OScore W T → Int) → List (OScore W T) → List (OScore W T)) (ar : Arith W S) (smax : S)
    (ops : Outlier.Ops W T) (sch : Schedule) (order : List Nat) (minPoints : Nat) (dis : Distance W) (n : Nat) : Outcome (Full W S T) := do
  let out ← doRun ar smax sch minPoints dis n
  let o ← Outlier.scores qsort ar.zeroW ops order out.clusters out.noise out.last dis.coreDistances n
  return { out with outliers := o }

end Run
end Verif
