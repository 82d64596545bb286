import Verif.Lemmas.Compact
import Verif.Lemmas.TwoRuns
/-
Helper lemmas: labels and whole runs with the compact hierarchy.
-/
namespace Verif.Compact
open Hier Spec
open Race (offs)
variable {D W S T : Type}

theorem kept_congr {cs cs' : List (Option (Cl W S))} (h : offs cs' = offs cs) : kept cs' = kept cs := by
  funext k
  rw [Bool.eq_iff_iff, kept_iff, kept_iff, h]

theorem number_offs {cs cs' : List (Option (Cl W S))} (h : offs cs' = offs cs) : number cs' = number cs := by
  funext k
  unfold number
  rw [kept_congr h]

theorem number_mono (cs : List (Option (Cl W S))) {j k : Nat} (h : j ≤ k) : number cs j ≤ number cs k := by
  induction h with
  | refl => exact Nat.le_refl _
  | step _ ih =>
    rw [number_succ]
    split <;> omega

theorem number_lt (cs : List (Option (Cl W S))) {j k : Nat} (h : j < k) (hk : kept cs k = true) : number cs j < number cs k := by
  obtain ⟨i, rfl⟩ : ∃ i, k = i + 1 := ⟨k - 1, by omega⟩
  have := number_mono cs (show j ≤ i by omega)
  rw [number_succ, if_pos hk]
  omega

theorem number_inj (cs : List (Option (Cl W S))) {j k : Nat} (hj : kept cs j = true) (hk : kept cs k = true) (h : number cs j = number cs k) : j = k := by
  rcases Nat.lt_trichotomy j k with h1 | h1 | h1
  · have := number_lt cs h1 hk; omega
  · exact h1
  · have := number_lt cs h1 hj; omega

/-- The lines of the compact hierarchy are numbered consecutively. -/
theorem seq_compact (cs : List (Option (Cl W S))) : ∀ (L : Nat) {lines : List (Nat × W × List Nat)}, lines.map (·.1) = List.range' 1 L →
    ((lines.filter fun x => kept cs x.1).map fun x => (number cs x.1, x.2)).map (·.1) = List.range' 1 (number cs L) := by
  intro L
  induction L with
  | zero =>
    intro lines h
    have : lines = [] := by simpa using h
    subst this
    rfl
  | succ L ih =>
    intro lines h
    rw [List.range'_concat] at h
    obtain ⟨l1, l2, h1, h2, h3⟩ := List.map_eq_append_iff.1 h
    obtain ⟨x, rfl⟩ : ∃ x, l2 = [x] := List.length_eq_one_iff.1 (by simpa using congrArg List.length h3)
    have hx : x.1 = L + 1 := by simp at h3; omega
    subst h1
    rw [List.filter_append, List.map_append, List.map_append, ih h2, number_succ]
    cases hk : kept cs (L + 1) with
    | false => simp [hx, hk]
    | true =>
      rw [if_pos rfl, List.range'_concat]
      simp [hx, hk, number_succ, Nat.add_comm]

/-- At most two lines per cluster are kept. -/
theorem number_le {cs : List (Option (Cl W S))} (h0 : some 0 ∈ offs cs) (L : Nat) : number cs L + 1 ≤ 2 * cs.countP (·.isSome) := by
  have hsub : ∀ k ∈ 0 :: ((List.range L).filter fun i => kept cs (i + 1)).map (· + 1), k ∈ (cs.filterMap fun c => c.map (·.offset)).flatMap fun o => [o, o + 1] := by
    intro k hk
    rw [List.mem_flatMap]
    have hoff : ∀ o, some o ∈ offs cs → o ∈ cs.filterMap fun c => c.map (·.offset) := by
      intro o ho
      obtain ⟨c, h1, h2⟩ := List.mem_map.1 ho
      exact List.mem_filterMap.2 ⟨c, h1, h2⟩
    rcases List.mem_cons.1 hk with rfl | hk
    · exact ⟨0, hoff 0 h0, by simp⟩
    · obtain ⟨i, hi, rfl⟩ := List.mem_map.1 hk
      obtain ⟨_, hi⟩ := List.mem_filter.1 hi
      rcases kept_iff.1 hi with h | ⟨o, h1, h2⟩
      · omega
      · exact ⟨o, hoff o h1, by simp; omega⟩
  have hnd : (0 :: ((List.range L).filter fun i => kept cs (i + 1)).map (· + 1)).Nodup := by
    rw [List.nodup_cons]
    refine ⟨by simp, ?_⟩
    exact (List.nodup_range.filter _).map (fun a b h => by simpa using h)
  have hle := (hnd.subperm hsub).length_le
  have h1 : ∀ l : List Nat, (l.flatMap fun o => [o, o + 1]).length = 2 * l.length := by
    intro l
    induction l with
    | nil => rfl
    | cons a l ih => simp only [List.flatMap_cons, List.length_append, ih, List.length_cons, List.length_nil]; omega
  have h2 : ∀ cs : List (Option (Cl W S)), (cs.filterMap fun c => c.map (·.offset)).length = cs.countP (·.isSome) := by
    intro cs
    induction cs with
    | nil => rfl
    | cons a l ih => cases a <;> simp [ih]
  rw [h1, h2] at hle
  simpa [number] using hle

/-- The lists stored under the offsets, with renumbered keys. -/
def rekey (f : Nat → Nat) (m : List (Nat × List Nat)) : List (Nat × List Nat) := m.map fun e => (f e.1, e.2)

theorem addTo_rekey {f : Nat → Nat} {P : Nat → Prop} (hinj : ∀ a b, P a → P b → f a = f b → a = b) {k l : Nat} (hk : P k) : ∀ (m : List (Nat × List Nat)), (∀ e ∈ m, P e.1) →
    Sel.addTo (f k) l (rekey f m) = rekey f (Sel.addTo k l m) ∧ ∀ e ∈ Sel.addTo k l m, P e.1
  | [], _ => ⟨rfl, by simpa [Sel.addTo] using hk⟩
  | (a, ls) :: r, h => by
    have ha := h (a, ls) (by simp)
    obtain ⟨i1, i2⟩ := addTo_rekey hinj (l := l) hk r (fun e he => h e (by simp [he]))
    by_cases hak : a = k
    · subst hak
      simp only [rekey, List.map_cons, Sel.addTo, if_true]
      exact ⟨trivial, fun e he => by
        rcases List.mem_cons.1 he with rfl | he
        · exact hk
        · exact h e (by simp [he])⟩
    · have : f a ≠ f k := fun h => hak (hinj _ _ ha hk h)
      simp only [rekey, List.map_cons, Sel.addTo, hak, this, if_false]
      refine ⟨by rw [show r.map (fun e => (f e.1, e.2)) = rekey f r from rfl, i1]; rfl, fun e he => ?_⟩
      rcases List.mem_cons.1 he with rfl | he
      · exact ha
      · exact i2 e he

theorem group_rekey {f : Nat → Nat} {P : Nat → Prop} (hinj : ∀ a b, P a → P b → f a = f b → a = b) {cs : List (Option (Cl W S))} (hP : ∀ (l : Nat) (c : Cl W S), cs[l]? = some (some c) → P c.offset)
    {sol : List Nat} : ∀ {order : List Nat} {m m' : List (Nat × List Nat)}, Sel.group cs sol order m = .ok m' → (∀ e ∈ m, P e.1) →
      Sel.group (reoff f cs) sol order (rekey f m) = .ok (rekey f m') ∧ ∀ e ∈ m', P e.1
  | [], m, m', h, hm => by cases h; exact ⟨rfl, hm⟩
  | i :: r, m, m', h, hm => by
    unfold Sel.group at h ⊢
    obtain ⟨l, e1, h⟩ := Outcome.bind_eq_ok.mp h
    obtain ⟨c, e2, h⟩ := Outcome.bind_eq_ok.mp h
    obtain ⟨a1, a2⟩ := addTo_rekey hinj (l := c.label) (hP l c (Race.getCl_get e2)) m hm
    rw [e1, Outcome.ok_bind, getCl_reoff e2, Outcome.ok_bind]
    show Sel.group (reoff f cs) sol r (Sel.addTo (f c.offset) c.label (rekey f m)) = _ ∧ _
    rw [a1]
    exact group_rekey hinj hP h a2

theorem find_rekey {f : Nat → Nat} {P : Nat → Prop} (hinj : ∀ a b, P a → P b → f a = f b → a = b) {k : Nat} (hk : P k) : ∀ (m : List (Nat × List Nat)), (∀ e ∈ m, P e.1) →
    (rekey f m).find? (fun e => e.1 = f k) = (m.find? (fun e => e.1 = k)).map fun e => (f e.1, e.2)
  | [], _ => rfl
  | e :: r, h => by
    have he := h e (by simp)
    have ih := find_rekey hinj hk r (fun e he => h e (by simp [he]))
    by_cases hek : e.1 = k
    · simp [rekey, hek]
    · have : f e.1 ≠ f k := fun h => hek (hinj _ _ he hk h)
      simp only [rekey, List.map_cons, List.find?_cons, hek, this, decide_false]
      exact ih

theorem find_kept {cs : List (Option (Cl W S))} {k : Nat} (hk : kept cs (k + 1) = true) : ∀ (lines : List (Nat × W × List Nat)),
    ((lines.filter fun x => kept cs x.1).map fun x => (number cs x.1, x.2)).find? (fun h => h.1 = number cs k + 1) =
      (lines.find? (fun h => h.1 = k + 1)).map fun x => (number cs x.1, x.2)
  | [] => rfl
  | x :: r => by
    have ih := find_kept hk r
    have hn : number cs k + 1 = number cs (k + 1) := by rw [number_succ, if_pos hk]
    by_cases hx : x.1 = k + 1
    · have : kept cs x.1 = true := by rw [hx]; exact hk
      rw [List.filter_cons, if_pos this, List.map_cons, List.find?_cons, List.find?_cons]
      simp [hx, hn]
    · by_cases hx2 : kept cs x.1 = true
      · have : ¬ number cs x.1 = number cs k + 1 := by
          rw [hn]
          exact fun h => hx (number_inj cs hx2 hk h)
        rw [List.filter_cons, if_pos hx2, List.map_cons, List.find?_cons, List.find?_cons]
        simp only [this, hx, decide_false]
        exact ih
      · rw [List.filter_cons, if_neg hx2, List.find?_cons]
        simp only [hx, decide_false]
        exact ih

theorem labelStep_compact {cs : List (Option (Cl W S))} {lines : List (Nat × W × List Nat)} {m : List (Nat × List Nat)} {k j : Nat} {labels : List Nat} (hm : ∀ e ∈ m, some e.1 ∈ offs cs)
    (hk : some k ∈ offs cs) :
    Sel.labelStep ((lines.filter fun x => kept cs x.1).map fun x => (number cs x.1, x.2)) (rekey (number cs) m) (number cs k) j labels = Sel.labelStep lines m k j labels := by
  have hkept : ∀ o, some o ∈ offs cs → kept cs o = true := fun o ho => kept_iff.2 (.inr ⟨o, ho, .inl rfl⟩)
  have hkept' : kept cs (k + 1) = true := kept_iff.2 (.inr ⟨k, hk, .inr rfl⟩)
  unfold Sel.labelStep
  rw [find_rekey (P := fun o => some o ∈ offs cs) (fun a b ha hb => number_inj cs (hkept a ha) (hkept b hb)) hk m hm, find_kept hkept' lines]
  cases m.find? (fun e => e.1 = k) with
  | none => rfl
  | some e =>
    simp only [Option.map_some]
    cases lines.find? (fun h => h.1 = k + 1) with
    | none => rfl
    | some h => rfl

theorem labelAll_compact {cs : List (Option (Cl W S))} {lines : List (Nat × W × List Nat)} {m : List (Nat × List Nat)} (hm : ∀ e ∈ m, some e.1 ∈ offs cs) :
    ∀ (steps : List (Nat × Nat)) (labels : List Nat), (∀ x ∈ steps, some x.1 ∈ offs cs) →
      Sel.labelAll ((lines.filter fun x => kept cs x.1).map fun x => (number cs x.1, x.2)) (rekey (number cs) m) (steps.map fun x => (number cs x.1, x.2)) labels = Sel.labelAll lines m steps labels
  | [], _, _ => rfl
  | x :: r, labels, h => by
    obtain ⟨k, j⟩ := x
    simp only [List.map_cons]
    unfold Sel.labelAll
    rw [labelStep_compact hm (h (k, j) (by simp))]
    cases Sel.labelStep lines m k j labels with
    | ok l =>
      simp only [Outcome.ok_bind]
      exact labelAll_compact hm r l (fun x hx => h x (by simp [hx]))
    | _ => rfl

/-- A rearrangement of an image is the image of a rearrangement. -/
theorem perm_of_map {α β : Type} (φ : α → β) : ∀ {l : List α} {l' : List β}, l'.Perm (l.map φ) → ∃ l0 : List α, l0.Perm l ∧ l' = l0.map φ := by
  intro l
  induction l with
  | nil => intro l' h; exact ⟨[], .refl _, by simpa using h⟩
  | cons a l ih =>
    intro l' h
    have ha : φ a ∈ l' := h.mem_iff.2 (by simp)
    obtain ⟨x, y, rfl⟩ := List.append_of_mem ha
    have h2 : (x ++ y).Perm (l.map φ) := by
      have := (List.perm_middle (a := φ a) (l₁ := x) (l₂ := y)).symm.trans h
      exact List.Perm.cons_inv this
    obtain ⟨l0, h3, h4⟩ := ih h2
    refine ⟨l0.take x.length ++ a :: l0.drop x.length, ?_, ?_⟩
    · refine List.perm_middle.trans ?_
      rw [List.take_append_drop]
      exact h3.cons a
    · rw [List.map_append, List.map_cons, List.map_take, List.map_drop, ← h4]
      simp

theorem prominent_compact {cs : List (Option (Cl W S))} {lines : List (Nat × W × List Nat)} {n : Nat} {labels : List Nat}
    (h : ∀ (order : Nat → List Nat) (sched : List (Nat × Nat) → List (Nat × Nat)), (∀ N, (order N).Perm (List.range N)) → (∀ l, (sched l).Perm l) → Sel.prominent cs lines n order sched = .ok labels)
    {order : Nat → List Nat} {sched : List (Nat × Nat) → List (Nat × Nat)} (ho : ∀ N, (order N).Perm (List.range N)) (hs : ∀ l, (sched l).Perm l) :
    Sel.prominent (reoff (number cs) cs) ((lines.filter fun x => kept cs x.1).map fun x => (number cs x.1, x.2)) n order sched = .ok labels := by
  have hkept : ∀ o, some o ∈ offs cs → kept cs o = true := fun o ho => kept_iff.2 (.inr ⟨o, ho, .inl rfl⟩)
  have h0 := h order id ho (fun _ => .refl _)
  unfold Sel.prominent at h0 ⊢
  obtain ⟨root, e1, h0⟩ := Outcome.bind_eq_ok.mp h0
  obtain ⟨m, e2, h0⟩ := Outcome.bind_eq_ok.mp h0
  obtain ⟨g1, g2⟩ := group_rekey (f := number cs) (P := fun o => some o ∈ offs cs) (fun a b ha hb => number_inj cs (hkept a ha) (hkept b hb))
    (fun l c hc => List.mem_map.2 ⟨some c, List.mem_of_getElem? hc, rfl⟩) e2 (by simp)
  rw [getCl_reoff e1, Outcome.ok_bind]
  show (Sel.group (reoff (number cs) cs) root.desc (order root.desc.length) [] >>= _) = _
  have g1' : Sel.group (reoff (number cs) cs) root.desc (order root.desc.length) [] = .ok (rekey (number cs) m) := g1
  rw [g1', Outcome.ok_bind]
  have hst : Sel.labelSteps (rekey (number cs) m) n = (Sel.labelSteps m n).map fun x => (number cs x.1, x.2) := by
    simp only [Sel.labelSteps, rekey, List.map_map, List.map_flatMap, List.flatMap_map]
    rfl
  obtain ⟨st, hp, he⟩ := perm_of_map (fun x : Nat × Nat => (number cs x.1, x.2)) (l := Sel.labelSteps m n) (l' := sched (Sel.labelSteps (rekey (number cs) m) n)) (by rw [← hst]; exact hs _)
  have hmem : ∀ x ∈ st, some x.1 ∈ offs cs := by
    rintro ⟨k, j⟩ hx
    have := hp.mem_iff.1 hx
    simp only [Sel.labelSteps, List.mem_flatMap, List.mem_map, Prod.mk.injEq] at this
    obtain ⟨k', ⟨e, he, rfl⟩, j', _, rfl, _⟩ := this
    exact g2 e he
  rw [he, labelAll_compact g2 st _ hmem]
  have h1 := h order (fun l => if l = Sel.labelSteps m n then st else l) ho (fun l => by
    by_cases hl : l = Sel.labelSteps m n
    · simp only [hl, if_true]; exact hp
    · simp only [hl, if_false]; exact .refl _)
  unfold Sel.prominent at h1
  rw [e1, Outcome.ok_bind, e2, Outcome.ok_bind] at h1
  simp only [if_true] at h1
  exact h1

/-- All stages with the compact hierarchy. -/
theorem stages_compact [LinearOrder W] [CCmp S] [LinearOrder T] (qsort : (OScore W T → OScore W T → Int) → List (OScore W T) → List (OScore W T))
    (ar : Arith W S) (smax : S) (ops : Outlier.Ops W T) {n m : Nat} {dis : Distance W} {out : Run.Full W S T}
    (hf : ∀ (sch : Run.Schedule) (order : List Nat), sch.Complete → order.Perm (List.range n) → Run.full qsort ar smax ops sch order m dis n = .ok out) :
    ∃ out', Compacted out out' ∧ ∀ (sch : Run.Schedule) (order : List Nat), sch.Complete → order.Perm (List.range n) → stages true qsort ar smax ops sch order m dis n = .ok out' := by
  have hparts : ∃ g0 g res, Mst.construct ar.zeroW ar.dmax true dis n = .ok g0 ∧ Graph.sortByWeight g0 = .ok g ∧ compute ar m false g = .ok res ∧
      ∀ (sch : Run.Schedule) (order : List Nat), sch.Complete → order.Perm (List.range n) → ∃ s labels, Sel.propagateTree ar smax (sch.leaf res.clusters.length) res.clusters = .ok s ∧
      Sel.prominent s.clusters res.hierarchy g.numVertices sch.group sch.steps = .ok labels ∧
      Outlier.scores qsort ar.zeroW ops order s.clusters res.noise res.last dis.coreDistances n = .ok out.outliers ∧
      out = { clusters := s.clusters, hierarchy := res.hierarchy, noise := res.noise, last := res.last, infinite := s.infinite, labels := labels, outliers := out.outliers } := by
    have h := hf Props.seqSchedule (List.range n) Props.seqSchedule_complete (.refl _)
    unfold Run.full Run.doRun at h
    obtain ⟨o, a1, h⟩ := Outcome.bind_eq_ok.mp h
    obtain ⟨g0, e0, a1⟩ := Outcome.bind_eq_ok.mp a1
    obtain ⟨g, e1, a1⟩ := Outcome.bind_eq_ok.mp a1
    unfold Run.fromTree at a1
    obtain ⟨res, e2, a1⟩ := Outcome.bind_eq_ok.mp a1
    refine ⟨g0, g, res, e0, e1, e2, fun sch order hsch ho => ?_⟩
    have h := hf sch order hsch ho
    unfold Run.full at h
    obtain ⟨o, a1, h⟩ := Outcome.bind_eq_ok.mp h
    obtain ⟨sc, a2, h⟩ := Outcome.bind_eq_ok.mp h
    cases h
    simp only [Run.doRun, e0, e1, Outcome.ok_bind, Run.fromTree, e2] at a1
    obtain ⟨s, b1, a1⟩ := Outcome.bind_eq_ok.mp a1
    obtain ⟨labels, b2, a1⟩ := Outcome.bind_eq_ok.mp a1
    cases a1
    exact ⟨s, labels, b1, b2, a2, rfl⟩
  obtain ⟨g0, g, res, e0, e1, e2, hall⟩ := hparts
  have ec := (compute_compact e2).1
  refine ⟨{ out with
    clusters := reoff (number out.clusters) out.clusters
    hierarchy := (out.hierarchy.filter fun x => kept out.clusters x.1).map fun x => (number out.clusters x.1, x.2) }, ⟨rfl, rfl, rfl, rfl, rfl, rfl, rfl⟩, fun sch order hsch ho => ?_⟩
  obtain ⟨s, labels, b1, b2, b3, b4⟩ := hall sch order hsch ho
  obtain ⟨p1, p2⟩ := propagateTree_reoff (f := number res.clusters) b1
  have hn : number res.clusters = number s.clusters := (number_offs p2).symm
  have hk : kept res.clusters = kept s.clusters := (kept_congr p2).symm
  have hlab : ∀ (order : Nat → List Nat) (sched : List (Nat × Nat) → List (Nat × Nat)), (∀ N, (order N).Perm (List.range N)) → (∀ l, (sched l).Perm l) →
      Sel.prominent s.clusters res.hierarchy g.numVertices order sched = .ok labels := by
    intro go so hgo hso
    obtain ⟨s', labels', c1, c2, _, c4⟩ := hall ⟨sch.leaf, go, so⟩ order ⟨hsch.leaf, hgo, hso⟩ ho
    have hs : s' = s := by
      simp only at c1
      rw [b1] at c1
      exact (Outcome.ok.inj c1).symm
    subst hs
    have hl : labels' = labels := by
      rw [b4] at c4
      exact (congrArg Run.Out.labels (congrArg Run.Full.toOut c4)).symm
    rw [← hl]
    exact c2
  unfold stages
  rw [e0, Outcome.ok_bind, e1, Outcome.ok_bind, ec, Outcome.ok_bind]
  simp only [reoff_length]
  rw [p1, Outcome.ok_bind]
  have c2 : Sel.prominent (reoffT (number res.clusters) s).clusters ((res.hierarchy.filter fun x => kept res.clusters x.1).map fun x => (number res.clusters x.1, x.2)) g.numVertices sch.group sch.steps = .ok labels := by
    rw [hn, hk]
    exact prominent_compact hlab hsch.group hsch.steps
  have c3 : Outlier.scores qsort ar.zeroW ops order (reoffT (number res.clusters) s).clusters res.noise res.last dis.coreDistances n = .ok out.outliers := scores_reoff b3
  rw [c2, Outcome.ok_bind, c3, Outcome.ok_bind]
  have hoc : out.clusters = s.clusters := by rw [b4]
  have hoh : out.hierarchy = res.hierarchy := by rw [b4]
  rw [b4]
  simp only [reoffT, hn, hk, Outcome.pure_eq]

end Verif.Compact
