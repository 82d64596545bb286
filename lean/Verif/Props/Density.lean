import Verif.Lemmas.Pipeline
/-
C26 for data sets: the hierarchy computed from the distances and core distances.
-/
namespace Verif.Props
open Spec
variable {W S : Type}

/-- C26 for a data set of `n ≥ minPoints ≥ 2` points with distances `d` and core distances `core`: spanning tree, sorting and hierarchy
    construction succeed, and in the line of weight `w` two points that are not noise carry the same label exactly when they are
    connected by steps of mutual reachability distance at most `w`, and a point is noise exactly when fewer than `minPoints` points
    are connected to it in that way. -/
theorem C26_data [LinearOrder W] (ar : Arith W S) (minPoints : Nat) (hm : 2 ≤ minPoints) (dis : Distance W) (n : Nat)
    (hsize : minPoints ≤ n) (hn : n < 2 ^ 32) (d : Nat → Nat → W) (core : Nat → W)
    (hget : ∀ i j, i < n → j < n → i ≠ j → dis.get ar.zeroW i j = .ok (d i j)) (hsym : ∀ i j, d i j = d j i)
    (hcore : ∀ i, i < n → dis.coreDistances[i]? = some (some (core i)))
    (hmax : ∀ i j, i < n → j < n → i ≠ j → mutualReach d core i j < ar.dmax) :
    ∃ res : Hier.Result W S, Run.hierarchy ar minPoints dis n = .ok res ∧
      ∀ i w A, (i, w, A) ∈ res.hierarchy → i ≠ 0 → A.length = n ∧
        (∀ u v lu lv, A[u]? = some lu → A[v]? = some lv → lu ≠ 0 → lv ≠ 0 → (lu = lv ↔ Reachable n (mutualReach d core) w u v)) ∧
        (∀ u lu, A[u]? = some lu → (lu = 0 ↔ ¬ AtLeast minPoints (fun v => Reachable n (mutualReach d core) w u v))) := by
  obtain ⟨g, g', e1, e2, e3, hin, hconn, _⟩ := Run.sorted_mst ar.zeroW ar.dmax dis n (by omega) d core hget hsym hcore hmax
  subst e3
  obtain ⟨res, e, h⟩ := C26_density ar g' minPoints hm hn hsize hin
  refine ⟨res, by rw [Run.hierarchy, e1]; simp only [Outcome.ok_bind, e2]; exact e, fun i w A hA hi => ?_⟩
  obtain ⟨h1, h2, h3⟩ := h i w A hA hi
  refine ⟨h1, fun u v lu lv hu hv hlu hlv => (h2 u v lu lv hu hv hlu hlv).trans (hconn w u v), fun u lu hu => (h3 u lu hu).trans ?_⟩
  simp only [hconn]

/-- Arithmetic for the concrete data set. -/
def lineArith : Arith Int Int :=
  { zeroW := 0, dmax := 1000, zeroS := 0, add := (· + ·), term := fun k w b => match b with | some b => k * (b - w) | none => 0 }

/-- Five points on a line, minPoints = 2. -/
def lineDist (i j : Nat) : Int := Int.natAbs ([0, 7, 1, 9, 3].getD i 0 - [0, 7, 1, 9, 3].getD j 0)

/-- The state `distance_compute` leaves for them. -/
def lineData : Distance Int :=
  { rows := 5, cols := 1, numNeighbors := 1
    distances := [some 7, some 1, some 9, some 3, some 6, some 2, some 4, some 8, some 2, some 6]
    coreDistances := [some 1, some 2, some 1, some 2, some 2] }

/-- The hypotheses of C26 hold for five points on a line. -/
example : ∃ (dis : Distance Int) (res : Hier.Result Int Int),
    Distance.compute exactIntOps 1000 (Distance.pairs 5) (List.range 5) [0, 7, 1, 9, 3] 5 1 1 = .ok dis ∧
    Run.hierarchy lineArith 2 dis 5 = .ok res ∧
    ∀ i w A, (i, w, A) ∈ res.hierarchy → i ≠ 0 → A.length = 5 := by
  refine ⟨lineData, ?_⟩
  have h := C26_data lineArith 2 (by omega)
    lineData 5 (by omega) (by omega) lineDist (fun i => [1, 2, 1, 2, 2].getD i 0)
    (fun i j hi hj => (by decide : ∀ i, i < 5 → ∀ j, j < 5 → i ≠ j → Distance.get (0 : Int) lineData i j = .ok (lineDist i j)) i hi j hj)
    (fun i j => by rw [lineDist, lineDist, ← Int.natAbs_neg, Int.neg_sub])
    (by decide)
    (fun i j hi hj => (by decide : ∀ i, i < 5 → ∀ j, j < 5 → i ≠ j → mutualReach lineDist (fun i => [1, 2, 1, 2, 2].getD i 0) i j < 1000) i hi j hj)
  obtain ⟨res, e, h⟩ := h
  exact ⟨res, rfl, e, fun i w A h1 h2 => (h i w A h1 h2).1⟩

/-- The lines for that data set: at weight 2 the points {0, 2, 4} and {1, 3} are the clusters, at weight 1 only {0, 2} is left. -/
example : (Run.hierarchy lineArith 2 lineData 5 >>= fun r => .ok r.hierarchy) =
    .ok [(1, 4, [1, 1, 1, 1, 1]), (2, 2, [3, 2, 3, 2, 3]), (3, 1, [3, 0, 3, 0, 0]), (0, 0, [0, 0, 0, 0, 0])] := by decide +kernel

end Verif.Props
