import Verif.Model.Stack
import Verif.Lemmas.BoundRun
import Verif.Lemmas.ConcreteRun
/-
Runs with a limited stack against runs with an unlimited one.
-/
namespace Verif.Stack
variable {D W S T : Type}

theorem reserve_pos {cap used bytes : Nat} (h : used + bytes ≤ cap) : reserve cap used bytes = .ok (used + bytes) := if_pos h

theorem reserve_neg {cap used bytes : Nat} (h : ¬ used + bytes ≤ cap) : reserve cap used bytes = .ub "stack overflow" := if_neg h

theorem ub_bind {α β : Type} (s : String) (f : α → Outcome β) : ((Outcome.ub s : Outcome α) >>= f) = .ub s := rfl

/-- The arrays of the neighbour search. -/
theorem core_stack [CCmp W] (lim : Limits) (zero dmax : W) (order : List Nat) (dis : Distance W) (m : Nat) (hm : addIndex dis.numNeighbors 1 = m) :
    coreDistances lim zero dmax order dis =
      if 16 * m ≤ lim.main ∧ 8 * m ≤ lim.worker then Distance.getCoreDistances zero dmax order dis else .ub "stack overflow" := by
  unfold coreDistances
  rw [hm]
  by_cases h1 : 0 + 8 * m ≤ lim.main
  · rw [reserve_pos h1, Outcome.ok_bind]
    by_cases h2 : 0 + 8 * m + 8 * m ≤ lim.main
    · rw [reserve_pos h2, Outcome.ok_bind]
      by_cases h3 : 0 + 8 * m ≤ lim.worker
      · rw [reserve_pos h3, Outcome.ok_bind, if_pos (by omega)]
      · rw [reserve_neg h3, ub_bind, if_neg (by omega)]
    · rw [reserve_neg h2, ub_bind, if_neg (by omega)]
  · rw [reserve_neg h1, ub_bind, if_neg (by omega)]

/-- The arrays of the stages: enough stack. -/
theorem doRun_stack [CCmp W] [CCmp S] [CCmp T] (lim : Limits) {env : Api.Env D W S T} {par : Api.Par} {m : Nat} {dis : Distance W} {n : Nat} (hn : 1 ≤ n) {obj : Api.Obj W S T}
    (h : Api.doRun env par m dis n = .ok obj) :
    doRun lim env par m dis n = if 20 * n ≤ lim.main ∧ 12 * n + 4 * obj.results.clusters.length ≤ lim.main then .ok obj else .ub "stack overflow" := by
  unfold Api.doRun at h
  obtain ⟨t, h0, h⟩ := Outcome.bind_eq_ok.1 h
  obtain ⟨full, h1, h⟩ := Outcome.bind_eq_ok.1 h
  cases h
  unfold Run.full Run.doRun at h1
  obtain ⟨o1, h2, h1⟩ := Outcome.bind_eq_ok.1 h1
  obtain ⟨sc, hsc, h1⟩ := Outcome.bind_eq_ok.1 h1
  cases h1
  obtain ⟨g, hg, h2⟩ := Outcome.bind_eq_ok.1 h2
  obtain ⟨g', hg', h2⟩ := Outcome.bind_eq_ok.1 h2
  unfold Run.fromTree at h2
  obtain ⟨res, h4, h2⟩ := Outcome.bind_eq_ok.1 h2
  obtain ⟨ps, h5, h2⟩ := Outcome.bind_eq_ok.1 h2
  obtain ⟨labels, h6, h2⟩ := Outcome.bind_eq_ok.1 h2
  cases h2
  obtain ⟨a1, a2, a3⟩ := Mst.construct_length hg
  have hnv : g'.numVertices = n := by
    rw [(Conc.sortByWeight_edges hg').2]
    unfold Mst.construct at hg
    obtain ⟨_, _, hg⟩ := Outcome.bind_eq_ok.1 hg
    obtain ⟨_, _, hg⟩ := Outcome.bind_eq_ok.1 hg
    unfold Graph.init at hg
    obtain ⟨_, _, hg⟩ := Outcome.bind_eq_ok.1 hg
    cases hg; rfl
  have d : ps.clusters.length = res.clusters.length := by
    have h5' := h5
    unfold Sel.propagateTree at h5'
    obtain ⟨⟨ex, added⟩, _, h5'⟩ := Outcome.bind_eq_ok.1 h5'
    exact Sel.examine_length _ _ _ h5'
  simp only [d]
  unfold doRun
  rw [h0, Outcome.ok_bind]
  unfold mst
  by_cases c1 : 0 + 4 * n ≤ lim.main
  swap
  · rw [reserve_neg c1, if_neg (by omega)]; rfl
  rw [reserve_pos c1, Outcome.ok_bind, hg, Outcome.ok_bind]
  by_cases c2 : 20 * n ≤ lim.main
  swap
  · rw [if_neg (by omega)]
    have hs : sort lim g = .ok g' ∨ sort lim g = .ub "stack overflow" := by
      unfold sort
      by_cases hl : g.wt.length ≤ 1
      · rw [if_pos hl]
        simp only [Graph.sortByWeight, hl, if_true] at hg'
        exact .inl hg'
      · rw [if_neg hl]
        by_cases s1 : 0 + 4 * (g.wt.length / 2) ≤ lim.main
        · rw [reserve_pos s1, Outcome.ok_bind]
          by_cases s2 : 0 + 4 * (g.wt.length / 2) + 4 * (g.wt.length / 2) ≤ lim.main
          · rw [reserve_pos s2, Outcome.ok_bind]; exact .inl hg'
          · rw [reserve_neg s2]; exact .inr rfl
        · rw [reserve_neg s1]; exact .inr rfl
    rcases hs with hs | hs
    · rw [hs, Outcome.ok_bind]
      by_cases s1 : 0 + 8 * n ≤ lim.main
      · rw [reserve_pos s1, Outcome.ok_bind]
        by_cases s2 : 0 + 8 * n + 4 * n ≤ lim.main
        · rw [reserve_pos s2, Outcome.ok_bind]
          unfold hierarchy
          rw [hnv]
          by_cases s3 : 0 + 8 * n + 4 * n + 4 * n ≤ lim.main
          · rw [reserve_pos s3, Outcome.ok_bind, reserve_neg (by omega)]; rfl
          · rw [reserve_neg s3]; rfl
        · rw [reserve_neg s2]; rfl
      · rw [reserve_neg s1]; rfl
    · rw [hs]; rfl
  have hs : sort lim g = .ok g' := by
    unfold sort
    by_cases hl : g.wt.length ≤ 1
    · rw [if_pos hl]
      simp only [Graph.sortByWeight, hl, if_true] at hg'
      exact hg'
    · rw [if_neg hl, reserve_pos (by omega), Outcome.ok_bind, reserve_pos (by omega), Outcome.ok_bind]; exact hg'
  rw [hs, Outcome.ok_bind, reserve_pos (by omega), Outcome.ok_bind, reserve_pos (by omega), Outcome.ok_bind]
  rw [hnv] at h6
  unfold hierarchy
  rw [hnv, reserve_pos (by omega), Outcome.ok_bind, reserve_pos (by omega), Outcome.ok_bind, h4, Outcome.ok_bind]
  unfold propagateTree
  by_cases c3 : 12 * n + 4 * res.clusters.length ≤ lim.main
  · rw [reserve_pos (by omega), Outcome.ok_bind, h5, Outcome.ok_bind, h6, Outcome.ok_bind, hsc, if_pos ⟨c2, c3⟩]
    rfl
  · rw [reserve_neg (by omega), if_neg (by omega)]; rfl

theorem add_sub {m : Nat} (h1 : 1 ≤ m) (h2 : m < 2 ^ 32) : addIndex (subIndex m 1) 1 = m := by
  unfold subIndex addIndex
  rw [if_pos h1]
  split <;> omega

/-- Exactly which fresh runs the stack allows. -/
theorem fresh_stack [CCmp W] [CCmp S] [CCmp T] (lim : Limits) {env : Api.Env D W S T} {par : Api.Par} {m : Nat} {data : List D} {rows cols : Nat} (hr : 1 ≤ rows)
    (hm : m < 2 ^ 32) {obj : Api.Obj W S T} (h : Api.fresh env par m data rows cols true = .ok obj) :
    fresh lim env par m data rows cols true =
      if 16 * m ≤ lim.main ∧ 8 * m ≤ lim.worker ∧ 20 * rows ≤ lim.main ∧ 12 * rows + 4 * obj.results.clusters.length ≤ lim.main then .ok obj else .ub "stack overflow" := by
  unfold Api.fresh Api.run at h
  obtain ⟨m', hm', k⟩ := Outcome.bind_eq_ok.1 h
  clear h
  have hmm : m' = m ∧ 1 < m := by
    have hm'' := hm'
    unfold Api.initObj at hm''
    split at hm'' <;> cases hm''
    exact ⟨rfl, by assumption⟩
  obtain ⟨e, m1⟩ := hmm
  subst e
  obtain ⟨dis, hd, h⟩ := Outcome.bind_eq_ok.1 k
  obtain ⟨l, hl, h⟩ := Outcome.bind_eq_ok.1 h
  obtain ⟨t, ht, h⟩ := Outcome.bind_eq_ok.1 h
  unfold Distance.compute at hd
  obtain ⟨mat, hmat, hd⟩ := Outcome.bind_eq_ok.1 hd
  unfold fresh compute
  rw [hm', Outcome.ok_bind, hmat, Outcome.ok_bind, core_stack lim _ _ _ _ m' (add_sub (by omega) hm)]
  by_cases c : 16 * m' ≤ lim.main ∧ 8 * m' ≤ lim.worker
  · rw [if_pos c, hd, Outcome.ok_bind, hl, Outcome.ok_bind, ht, Outcome.ok_bind]
    have := doRun_stack lim (n := Api.datasetSize rows cols true) (by simpa [Api.datasetSize] using hr) h
    rw [this]
    simp only [Api.datasetSize, if_true]
    by_cases c2 : 20 * rows ≤ lim.main ∧ 12 * rows + 4 * obj.results.clusters.length ≤ lim.main
    · rw [if_pos c2, if_pos ⟨c.1, c.2, c2⟩]
    · rw [if_neg c2, if_neg (fun q => c2 q.2.2)]
  · rw [if_neg c, ub_bind, if_neg (fun q => c ⟨q.1, q.2.1⟩)]

/-- Exactly which reruns the stack allows. -/
theorem rerun_stack [CCmp W] [CCmp S] [CCmp T] (lim : Limits) {env : Api.Env D W S T} {par : Api.Par} {m : Nat} {o obj : Api.Obj W S T} (hr : 1 ≤ o.numPoints)
    (hm : m < 2 ^ 32) (h : Api.rerun env par m o = .ok obj) :
    rerun lim env par m o =
      if 16 * m ≤ lim.main ∧ 8 * m ≤ lim.worker ∧ 20 * o.numPoints ≤ lim.main ∧ 12 * o.numPoints + 4 * obj.results.clusters.length ≤ lim.main then .ok obj
      else .ub "stack overflow" := by
  by_cases h0 : m = 0
  · rw [Api.rerun, if_pos h0] at h; cases h
  rw [Api.rerun, if_neg h0] at h
  obtain ⟨dis, hd, h⟩ := Outcome.bind_eq_ok.1 h
  rw [rerun, if_neg h0, core_stack lim _ _ _ _ m (add_sub (by omega) hm)]
  by_cases c : 16 * m ≤ lim.main ∧ 8 * m ≤ lim.worker
  · rw [if_pos c, hd, Outcome.ok_bind, doRun_stack lim hr h]
    by_cases c2 : 20 * o.numPoints ≤ lim.main ∧ 12 * o.numPoints + 4 * obj.results.clusters.length ≤ lim.main
    · rw [if_pos c2, if_pos ⟨c.1, c.2, c2⟩]
    · rw [if_neg c2, if_neg (fun q => c2 q.2.2)]
  · rw [if_neg c, ub_bind, if_neg (fun q => c ⟨q.1, q.2.1⟩)]

end Verif.Stack
