import Verif.Lemmas.Labels
import Verif.Lemmas.Pipeline
import Verif.Props.Density
/-
C35, C36: the labels of a run.
-/
namespace Verif.Props
open Spec Relation
variable {W S : Type}

/-- C35 for spanning tree inputs. The stages after the spanning tree succeed with the same result for every schedule of the parallel loops.
    With `root.desc` the selected clusters, a point has label `l ≠ 0` exactly when `l` is selected and the point was a member of `l` at its birth;
    every selected cluster is the label of at least `minPoints` points. -/
theorem C35_labels [LinearOrder W] [CCmp S] (ar : Arith W S) (smax : S) (g : Graph W) (minPoints : Nat) (hm : 1 ≤ minPoints) (hn : g.numVertices < 2 ^ 32)
    (hg : TreeInput g.numVertices g.va g.vb g.wt g.edges) :
    ∃ out : Run.Out W S, (∀ sch : Run.Schedule, sch.Complete → Run.fromTree ar smax sch minPoints g = .ok out) ∧
      ∃ root : Cl W S, out.clusters[1]? = some (some root) ∧ ClusterTree out.clusters ∧ Selection out.clusters root.desc ∧
        out.labels.length = g.numVertices ∧
        (∀ p l, l ≠ 0 → (out.labels[p]? = some l ↔ l ∈ root.desc ∧ MemberAtBirth out.hierarchy l p)) ∧
        (∀ l ∈ root.desc, AtLeast minPoints (fun p => out.labels[p]? = some l)) := by
  obtain ⟨f, hr, ec, hd, hs, htr⟩ := Hier.input_rep hg
  obtain ⟨res, hist, cur, noise, last, e, h⟩ := Hier.obs ar hr hg.nonempty ec rfl hn hm hd hs
  obtain ⟨s, V, hall, hx, hsel, labels, hlen, hprom, hiff⟩ := Sel.labels_rep h.toBase smax
  refine ⟨{ clusters := s.clusters, hierarchy := res.hierarchy, noise := res.noise, last := res.last, infinite := s.infinite, labels := labels }, ?_,
    V 1, Sel.labels_spec h.toBase hx hsel hlen hiff⟩
  · intro sch hsch
    simp only [Run.fromTree, e, Outcome.ok_bind, hall _ (hsch.leaf _), hprom sch.group sch.steps hsch.group hsch.steps, Outcome.pure_eq]

/-- C35 for data sets: `hdbscan_do_run` on `n ≥ 1` points with distances `d` and core distances `core`. -/
theorem C35_data [LinearOrder W] [CCmp S] (ar : Arith W S) (smax : S) (minPoints : Nat) (hm : 1 ≤ minPoints) (dis : Distance W) (n : Nat) (hn1 : 1 ≤ n)
    (hn : n < 2 ^ 32) (d : Nat → Nat → W) (core : Nat → W)
    (hget : ∀ i j, i < n → j < n → i ≠ j → dis.get ar.zeroW i j = .ok (d i j)) (hsym : ∀ i j, d i j = d j i)
    (hcore : ∀ i, i < n → dis.coreDistances[i]? = some (some (core i)))
    (hmax : ∀ i j, i < n → j < n → i ≠ j → mutualReach d core i j < ar.dmax) :
    ∃ out : Run.Out W S, (∀ sch : Run.Schedule, sch.Complete → Run.doRun ar smax sch minPoints dis n = .ok out) ∧
      ∃ root : Cl W S, out.clusters[1]? = some (some root) ∧ ClusterTree out.clusters ∧ Selection out.clusters root.desc ∧
        out.labels.length = n ∧
        (∀ p l, l ≠ 0 → (out.labels[p]? = some l ↔ l ∈ root.desc ∧ MemberAtBirth out.hierarchy l p)) ∧
        (∀ l ∈ root.desc, AtLeast minPoints (fun p => out.labels[p]? = some l)) := by
  obtain ⟨g, g', e1, e2, e3, hin, _⟩ := Run.sorted_mst ar.zeroW ar.dmax dis n hn1 d core hget hsym hcore hmax
  subst e3
  obtain ⟨out, h1, h2⟩ := C35_labels ar smax g' minPoints hm hn hin
  refine ⟨out, fun sch hsch => ?_, h2⟩
  simp only [Run.doRun, e1, e2, Outcome.ok_bind]
  exact h1 sch hsch

/-- In a cluster tree with more than one cluster a selection is not empty. -/
theorem selection_nonempty {cs : List (Option (Cl W S))} (h : ClusterTree cs) (hl : 2 < cs.length) {T : List Nat} (hT : Selection cs T) : T ≠ [] := by
  -- the cluster with the largest label is a leaf
  have hlast : Leaf cs (cs.length - 1) := by
    constructor
    · obtain ⟨c, hc, _⟩ := h.cl (cs.length - 1) (by omega) (by omega)
      cases hp : c.parent with
      | none => have := (h.root _ c hc).1 hp; omega
      | some q => exact ⟨q, c, hc, hp⟩
    · rintro l' hl'
      have h1 := (h.up _ _ hl').2
      obtain ⟨c, hc, _⟩ := hl'
      have := (List.getElem?_eq_some_iff.1 hc).1
      omega
  obtain ⟨t, h1, _⟩ := hT.covers _ hlast
  exact List.ne_nil_of_mem h1

/-- C36. If the cluster tree consists of the root only, every point gets label 0; otherwise at least `minPoints` points get a label. -/
theorem C36_no_split [LinearOrder W] [CCmp S] (ar : Arith W S) (smax : S) (minPoints : Nat) (hm : 1 ≤ minPoints) (dis : Distance W) (n : Nat) (hn1 : 1 ≤ n)
    (hn : n < 2 ^ 32) (d : Nat → Nat → W) (core : Nat → W)
    (hget : ∀ i j, i < n → j < n → i ≠ j → dis.get ar.zeroW i j = .ok (d i j)) (hsym : ∀ i j, d i j = d j i)
    (hcore : ∀ i, i < n → dis.coreDistances[i]? = some (some (core i)))
    (hmax : ∀ i j, i < n → j < n → i ≠ j → mutualReach d core i j < ar.dmax) (sch : Run.Schedule) (hsch : sch.Complete) :
    ∃ out : Run.Out W S, Run.doRun ar smax sch minPoints dis n = .ok out ∧
      (out.clusters.length = 2 → out.labels = List.replicate n 0) ∧
      (out.clusters.length ≠ 2 → ∃ l, l ≠ 0 ∧ AtLeast minPoints (fun p => out.labels[p]? = some l)) := by
  obtain ⟨out, h1, root, h2, h3, h4, h5, h6, h7⟩ := C35_data ar smax minPoints hm dis n hn1 hn d core hget hsym hcore hmax
  refine ⟨out, h1 sch hsch, fun hlen => ?_, fun hlen => ?_⟩
  · apply List.ext_getElem?
    intro p
    by_cases hp : p < n
    · obtain ⟨x, hx⟩ : ∃ x, out.labels[p]? = some x := ⟨_, List.getElem?_eq_getElem (by omega)⟩
      by_cases hx0 : x = 0
      · rw [hx, hx0]; simp [hp]
      · obtain ⟨q, hq⟩ := h4.notRoot x ((h6 p x hx0).1 hx).1
        have hup := h3.up x q hq
        obtain ⟨c, hc, _⟩ := hq
        have := (List.getElem?_eq_some_iff.1 hc).1
        omega
    · rw [List.getElem?_eq_none (by omega), List.getElem?_eq_none (by simp; omega)]
  · have hne := selection_nonempty h3 (by have := h3.two; omega) h4
    obtain ⟨l, hl⟩ := List.exists_mem_of_ne_nil _ hne
    obtain ⟨q, hq⟩ := h4.notRoot l hl
    have hup := h3.up l q hq
    exact ⟨l, by omega, h7 l hl⟩

/-! ### Concrete cases -/

/-- The schedule of a single thread. -/
def seqSchedule : Run.Schedule := { leaf := List.range, group := List.range, steps := id }

theorem seqSchedule_complete : seqSchedule.Complete := ⟨fun _ => .refl _, fun _ => .refl _, fun _ => .refl _⟩

example := C35_labels demoArith 1000 (demo 1 5) 2 (by decide) (by decide) (demo_input (by decide))

/-- Two clusters are found in the demo graph. -/
example : (Run.fromTree demoArith 1000 seqSchedule 2 (demo 1 5) >>= fun o => .ok o.labels) = .ok [2, 2, 2, 3, 3, 3] := by decide +kernel

/-- With all tree edges of the same weight nothing ever splits, and all points are noise. -/
example : (Run.fromTree demoArith 1000 seqSchedule 2 (demo 5 5) >>= fun o => .ok (o.labels, o.clusters.length)) = .ok ([0, 0, 0, 0, 0, 0], 2) := by decide +kernel

/-- The hypotheses of the data set theorems hold for the five points on a line of Props/Density. -/
example := C36_no_split lineArith 100000 2 (by omega) lineData 5 (by omega) (by omega) lineDist (fun i => [1, 2, 1, 2, 2].getD i 0)
    (fun i j hi hj => (by decide : ∀ i, i < 5 → ∀ j, j < 5 → i ≠ j → Distance.get (0 : Int) lineData i j = .ok (lineDist i j)) i hi j hj)
    (fun i j => by rw [lineDist, lineDist, ← Int.natAbs_neg, Int.neg_sub])
    (by decide)
    (fun i j hi hj => (by decide : ∀ i, i < 5 → ∀ j, j < 5 → i ≠ j → mutualReach lineDist (fun i => [1, 2, 1, 2, 2].getD i 0) i j < 1000) i hi j hj)
    seqSchedule seqSchedule_complete

/-- Its labels. -/
example : (Run.doRun lineArith 100000 seqSchedule 2 lineData 5 >>= fun o => .ok o.labels) = .ok [3, 2, 3, 2, 3] := by decide +kernel

end Verif.Props
