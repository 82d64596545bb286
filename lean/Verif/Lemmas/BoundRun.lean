import Verif.Lemmas.Bound
import Verif.Lemmas.ConcreteRun
import Verif.Props.Graph
/-
Helper lemmas: how many edges, lines and clusters a run on any data can produce.
-/
namespace Verif
variable {D W S T : Type}

theorem wr_length {α : Type} {l l' : List α} {i : Nat} {x : α} (h : wr l i x = .ok l') : l'.length = l.length := by
  unfold wr at h
  split at h <;> cases h
  simp

namespace Mst

theorem relax_length [CCmp W] {m : W} {j c : Nat} {s s' : Scan W} (h : relax m j c s = .ok s') : s'.dist.length = s.dist.length ∧ s'.nb.length = s.nb.length := by
  unfold relax at h
  obtain ⟨d, _, h⟩ := Outcome.bind_eq_ok.1 h
  split at h
  · obtain ⟨d', h1, h⟩ := Outcome.bind_eq_ok.1 h
    obtain ⟨n', h2, h⟩ := Outcome.bind_eq_ok.1 h
    cases h
    exact ⟨wr_length h1, wr_length h2⟩
  · cases h; exact ⟨rfl, rfl⟩

theorem visit_length [CCmp W] {zero : W} {dis : Distance W} {c j : Nat} {s s' : Scan W} (h : visit zero dis c j s = .ok s') :
    s'.dist.length = s.dist.length ∧ s'.nb.length = s.nb.length := by
  unfold visit at h
  obtain ⟨m, _, h⟩ := Outcome.bind_eq_ok.1 h
  obtain ⟨s1, h1, h⟩ := Outcome.bind_eq_ok.1 h
  obtain ⟨d, _, h⟩ := Outcome.bind_eq_ok.1 h
  have := relax_length h1
  split at h <;> cases h <;> exact this

theorem scan_length [CCmp W] {zero : W} {dis : Distance W} {att : List Bool} {c : Nat} : ∀ (l : List Nat) (s s' : Scan W), scan zero dis att c l s = .ok s' →
    s'.dist.length = s.dist.length ∧ s'.nb.length = s.nb.length := by
  intro l
  induction l with
  | nil => intro s s' h; cases h; exact ⟨rfl, rfl⟩
  | cons j r ih =>
    intro s s' h
    rw [scan] at h
    split at h
    · exact ih _ _ h
    · obtain ⟨a, _, h⟩ := Outcome.bind_eq_ok.1 h
      split at h
      · exact ih _ _ h
      · obtain ⟨s1, h1, h⟩ := Outcome.bind_eq_ok.1 h
        have a := visit_length h1
        have b := ih _ _ h
        exact ⟨b.1.trans a.1, b.2.trans a.2⟩

theorem grow_length [CCmp W] {zero dmax : W} {dis : Distance W} {size : Nat} : ∀ (k na cur : Nat) (att : List Bool) (dist : List W) (nb ot : List Nat) (r : List W × List Nat × List Nat),
    grow zero dmax dis size k na cur att dist nb ot = .ok r → r.1.length = dist.length ∧ r.2.1.length = nb.length ∧ r.2.2.length = ot.length := by
  intro k
  induction k with
  | zero => intro na cur att dist nb ot r h; cases h; exact ⟨rfl, rfl, rfl⟩
  | succ k ih =>
    intro na cur att dist nb ot r h
    rw [grow] at h
    obtain ⟨s, h1, h⟩ := Outcome.bind_eq_ok.1 h
    obtain ⟨⟨att', p⟩, _, h⟩ := Outcome.bind_eq_ok.1 h
    obtain ⟨ot', h2, h⟩ := Outcome.bind_eq_ok.1 h
    have a := scan_length _ _ _ h1
    have b := ih _ _ _ _ _ _ _ h
    exact ⟨b.1.trans a.1, b.2.1.trans a.2, b.2.2.trans (wr_length h2)⟩

theorem selfLoop_length {dis : Distance W} {start : Nat} : ∀ (k v : Nat) (dist : List W) (nb ot : List Nat) (r : List W × List Nat × List Nat),
    selfLoop dis start k v dist nb ot = .ok r → r.1.length = dist.length ∧ r.2.1.length = nb.length ∧ r.2.2.length = ot.length := by
  intro k
  induction k with
  | zero => intro v dist nb ot r h; cases h; exact ⟨rfl, rfl, rfl⟩
  | succ k ih =>
    intro v dist nb ot r h
    rw [selfLoop] at h
    obtain ⟨nb', h1, h⟩ := Outcome.bind_eq_ok.1 h
    obtain ⟨ot', h2, h⟩ := Outcome.bind_eq_ok.1 h
    obtain ⟨c, _, h⟩ := Outcome.bind_eq_ok.1 h
    obtain ⟨dist', h3, h⟩ := Outcome.bind_eq_ok.1 h
    have b := ih _ _ _ _ _ h
    exact ⟨b.1.trans (wr_length h3), b.2.1.trans (wr_length h1), b.2.2.trans (wr_length h2)⟩

/-- The spanning tree has `2 n - 1` edges, whatever the distances. -/
theorem construct_length [CCmp W] {zero dmax : W} {dis : Distance W} {n : Nat} {g : Graph W} (h : construct zero dmax true dis n = .ok g) :
    g.wt.length = n - 1 + n ∧ g.va.length = n - 1 + n ∧ g.vb.length = n - 1 + n := by
  unfold construct at h
  obtain ⟨r, h1, h⟩ := Outcome.bind_eq_ok.1 h
  obtain ⟨r', h2, h⟩ := Outcome.bind_eq_ok.1 h
  unfold Graph.init at h
  obtain ⟨edges, _, h⟩ := Outcome.bind_eq_ok.1 h
  cases h
  have a := grow_length _ _ _ _ _ _ _ _ h1
  simp only [addSelf, if_true] at h2
  have b := selfLoop_length _ _ _ _ _ _ h2
  simp only [if_true, List.length_replicate] at a
  exact ⟨b.1.trans a.1, b.2.1.trans a.2.1, b.2.2.trans a.2.2⟩

end Mst

theorem Graph.sort_length [CCmp W] {g g' : Graph W} (ha : g.va.length = g.wt.length) (hb : g.vb.length = g.wt.length) (h : Graph.sortByWeight g = .ok g') :
    g'.wt.length = g.wt.length := by
  by_cases h1 : g.wt.length ≤ 1
  · simp only [Graph.sortByWeight, h1, if_true] at h
    cases h; rfl
  · have hne : Nonempty W := by
      match hw : g.wt with
      | [] => simp [hw] at h1
      | x :: t => exact ⟨x⟩
    obtain ⟨f, hf⟩ := Graph.exists_erep g ha hb
    obtain ⟨hr, hw⟩ := Graph.start_ranges (n := g.wt.length) (by omega)
    obtain ⟨g1, σ, e1, r1, w1, n1, ed1⟩ := Graph.sortLoop_rep rfl (g.wt.length + 1) _ g f hf hr (by omega)
    simp only [Graph.sortByWeight] at h
    rw [if_neg h1] at h
    have : Graph.push (g.wt.length / 2) true (0, g.wt.length - 1) [] = .ok [(0, g.wt.length - 1)] := by
      rw [Graph.push, if_pos rfl, if_pos (by simp; omega)]
    rw [this, Outcome.ok_bind, e1] at h
    cases h
    exact Graph.length_erep r1

namespace Sel

theorem propagate_length [CCmp W] [CCmp S] {ar : Arith W S} {cs cs' : List (Option (Cl W S))} {x : Nat} (h : propagate ar cs x = .ok cs') : cs'.length = cs.length := by
  unfold propagate at h
  obtain ⟨c, _, h⟩ := Outcome.bind_eq_ok.1 h
  split at h
  · cases h; rfl
  · obtain ⟨cs1, h1, h⟩ := Outcome.bind_eq_ok.1 h
    obtain ⟨p, _, h⟩ := Outcome.bind_eq_ok.1 h
    rw [wr_length h, wr_length h1]

theorem examine_length [CCmp W] [CCmp S] {ar : Arith W S} {smax : S} : ∀ (fuel : Nat) (s s' : St W S), examine ar smax fuel s = .ok s' →
    s'.clusters.length = s.clusters.length := by
  intro fuel
  induction fuel with
  | zero => intro s s' h; rw [examine] at h; split at h <;> cases h; rfl
  | succ fuel ih =>
    intro s s' h
    rw [examine] at h
    split at h
    · cases h; rfl
    · obtain ⟨cs, h1, h⟩ := Outcome.bind_eq_ok.1 h
      obtain ⟨c, _, h⟩ := Outcome.bind_eq_ok.1 h
      obtain ⟨⟨ex, added⟩, _, h⟩ := Outcome.bind_eq_ok.1 h
      rw [ih _ _ h]
      exact propagate_length h1

end Sel

/-- At most `8 n - 2` clusters and `2 n` lines, whatever the data. -/
theorem Run.full_count [CCmp W] [CCmp S] [CCmp T] {qsort : (OScore W T → OScore W T → Int) → List (OScore W T) → List (OScore W T)} {ar : Arith W S} {smax : S}
    {ops : Outlier.Ops W T} {sch : Run.Schedule} {order : List Nat} {m : Nat} {dis : Distance W} {n : Nat} (hn : 1 ≤ n) {out : Run.Full W S T}
    (h : Run.full qsort ar smax ops sch order m dis n = .ok out) : out.clusters.length ≤ 8 * n - 2 ∧ out.hierarchy.length ≤ 2 * n := by
  unfold Run.full Run.doRun at h
  obtain ⟨o1, h1, h⟩ := Outcome.bind_eq_ok.1 h
  obtain ⟨sc, _, h⟩ := Outcome.bind_eq_ok.1 h
  obtain ⟨g, h2, h1⟩ := Outcome.bind_eq_ok.1 h1
  obtain ⟨g', h3, h1⟩ := Outcome.bind_eq_ok.1 h1
  unfold Run.fromTree at h1
  obtain ⟨res, h4, h1⟩ := Outcome.bind_eq_ok.1 h1
  obtain ⟨ps, h5, h1⟩ := Outcome.bind_eq_ok.1 h1
  obtain ⟨labels, _, h1⟩ := Outcome.bind_eq_ok.1 h1
  cases h1
  cases h
  obtain ⟨a1, a2, a3⟩ := Mst.construct_length h2
  have b := Graph.sort_length (by omega) (by omega) h3
  have c := Hier.compute_count h4
  unfold Sel.propagateTree at h5
  obtain ⟨⟨ex, added⟩, _, h5⟩ := Outcome.bind_eq_ok.1 h5
  have d : ps.clusters.length = res.clusters.length := Sel.examine_length _ _ _ h5
  exact ⟨by simp only; omega, by simp only; omega⟩

end Verif
