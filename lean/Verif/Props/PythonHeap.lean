import Verif.Lemmas.PythonHeap
import Verif.Props.Python
/-
C68: the memory of the Python binding; C67 at the level of memory.
-/
namespace Verif.Props
open Spec Mem
variable {D W S T : Type}

theorem start_pinv {h : Heap} (hh : HeapOk h) : PInv none none h h.live 0 := ⟨hh, by rw [add_zero]⟩

/-- **C68, the part that holds.** A program that makes PyHdbscan objects one after the other, runs each once on at least five points, uses it (reruns and cluster maps) and deletes it, never
    releases memory twice, never uses released memory and never follows an unassigned pointer; and every block but those counted by `leaked` - one struct per object, the tables of the cluster
    maps - is released. Missing: the blocks counted by `leaked` (`C68_violated`), and other orders of calls. -/
theorem C68_one_by_one_partial (cs : List PyCall) (hc : OneByOne cs) (h : Heap) (hh : HeapOk h) :
    ∃ scan h', pySteps cs none h = .ok (scan, h') ∧ h.live ≤ h'.live ∧ h'.live.card = h.live.card + leakedAll cs := by
  obtain ⟨scan, h', q, lost, e, i, hq, b⟩ := oneByOne_steps hc (start_pinv hh) (.inl rfl)
  have hl := forget_scan i
  refine ⟨scan, h', e, by rw [hl]; exact Multiset.le_add_right _ _, ?_⟩
  have : (scan.elim 0 Obj.own).card = present scan := by
    rcases hq with rfl | rfl
    · cases scan with
      | none => rfl
      | some o => exact i.elim
    · cases scan with
      | none => exact i.elim
      | some o => show o.own.card = 1; rw [Obj.own, parts_zero i.2 (.inr rfl)]; rfl
  rw [hl, Multiset.card_add, Multiset.card_add, this, b]
  simp [present]

/-- **C68 is violated**: whatever the program does, in any order and with any number of objects - if it returns, the blocks counted by `leaked` are still there, even when all objects have been
    deleted. A program that constructs objects in a loop and deletes them needs unbounded memory. -/
theorem C68_violated (cs : List PyCall) (h : Heap) (hh : HeapOk h) (scan : Option Obj) (h' : Heap) (e : pySteps cs none h = .ok (scan, h')) :
    h.live ≤ h'.live ∧ h.live.card + leakedAll cs ≤ h'.live.card := by
  obtain ⟨q, lost, i, b⟩ := pySteps_budget (start_pinv hh) e
  have hl := forget_scan i
  refine ⟨by rw [hl]; exact Multiset.le_add_right _ _, ?_⟩
  have : present scan ≤ (scan.elim 0 Obj.own).card := by
    cases scan with
    | none => exact Nat.zero_le _
    | some o => exact own_pos o
  rw [hl, Multiset.card_add, Multiset.card_add]
  simp only [present, Option.isSome_none, Multiset.card_zero, Bool.false_eq_true, if_false] at b this
  omega

/-- Constructing an object while another one holds data loses all memory of the other one: the struct, the distance matrix, the tree and the results, whatever is called afterwards. -/
theorem C68_second_object_violated (s : Shape) (n : Nat) (hn : 5 ≤ n) (h : Heap) (hh : HeapOk h) :
    ∃ o h1, pySteps [.construct, .run s n] none h = .ok (some o, h1) ∧ o.own ≤ h1.live ∧ 10 ≤ o.own.card ∧
      ∀ cs scan h2, pySteps (.construct :: cs) (some o) h1 = .ok (scan, h2) → o.own ≤ h2.live := by
  obtain ⟨s1, h1, L1, e1, i1, _⟩ := pyStep_defined (c := .construct) (q := some .new) (start_pinv hh) rfl
  obtain ⟨s2, h2, L2, e2, i2, _⟩ := pyStep_defined (c := .run s n) (q := some .ready) i1 (by simp only [pyNext, if_pos hn])
  cases s2 with
  | none => exact i2.elim
  | some o =>
    refine ⟨o, h2, (pySteps_cons e1).trans ((pySteps_cons e2).trans rfl), ?_, ?_, ?_⟩
    · rw [i2.2.live, if_neg nofun, add_assoc]; exact Multiset.le_add_right _ _
    · have r := i2.2.ready rfl
      obtain ⟨b1, h1⟩ := r.distances
      obtain ⟨b2, h2⟩ := r.core
      obtain ⟨b3, h3⟩ := r.outliers
      obtain ⟨b4, h4⟩ := r.labels
      obtain ⟨t, h5⟩ := r.hierarchy
      obtain ⟨c, h6⟩ := r.clusters
      simp only [Obj.own, Obj.parts, Obj.results, h1, h2, h3, h4, h5, h6, Ptr.own, TableB.own, ListB.own, ClustersB.own, Multiset.card_add, Multiset.card_singleton]
      omega
    · intro cs scan h3 e
      obtain ⟨s3, h4, L, e3, i3, _⟩ := pyStep_defined (c := .construct) (q := some .new) (start_pinv i2.heap) rfl
      have e3' : pyStep (some o) .construct h2 = .ok (s3, h4) := e3
      rw [pySteps_cons e3'] at e
      obtain ⟨q, lost, i, _⟩ := pySteps_budget i3 e
      have l1 : o.own ≤ h2.live := by rw [i2.2.live, if_neg nofun, add_assoc]; exact Multiset.le_add_right _ _
      have l2 : h2.live ≤ h3.live := (Multiset.le_add_right _ _).trans (forget_scan i).ge
      exact l1.trans l2

/-- The two models of the binding agree: if a program returns in the model of its results (C65-C67), what it does with the library meets no undefined behaviour and no failed
    assertion in the model of memory, whatever the runs create. -/
theorem C68_agree [CCmp W] [CCmp S] [CCmp T] (env : Api.Env D W S T) (cs : List (Py.Call D × Shape × Nat)) (r : List Py.Reply) (st : Py.State W S T)
    (e : Py.session env (cs.map Prod.fst) Py.start = .ok (r, st)) (h : Heap) (hh : HeapOk h) : ∃ scan h', pySteps (Py.effects env cs Py.start) none h = .ok (scan, h') := by
  obtain ⟨scan, h', _, e1, _⟩ := Py.pySteps_defined (start_pinv hh) (Py.effects_follow e)
  exact ⟨scan, h', e1⟩

/-- **C67** at the level of memory: after any program, if `scan` has a hierarchy, the blocks that the arrays of `getHierarchies` look into are allocated; a rerun or the deletion of any
    object releases all of them, and reading one of them then is undefined. -/
theorem C67_memory_violated (cs : List PyCall) (h : Heap) (hh : HeapOk h) (o : Obj) (h1 : Heap) (e : pySteps cs none h = .ok (some o, h1)) (t : TableB EntryB) (ht : o.hierarchy = .at t)
    (c : PyCall) (hc : c = .drop ∨ ∃ s, c = .rerun s) (scan : Option Obj) (h2 : Heap) (e2 : pyStep (some o) c h1 = .ok (scan, h2)) (x : NodeB EntryB) (hx : x ∈ t.nodes) :
    use x.value.labels h1 = .ok ((), h1) ∧ ∃ w, use x.value.labels h2 = .ub w := by
  obtain ⟨q, lost, i, _⟩ := pySteps_budget (start_pinv hh) e
  cases q with
  | none => exact i.elim
  | some p =>
    obtain ⟨hp, i⟩ := i
    have hown : x.value.labels ∈ o.hierarchy.own (TableB.own EntryB.own) := by
      rw [ht]
      simp only [Ptr.own, TableB.own]
      refine Multiset.mem_add.2 (.inr ?_)
      have : NodeB.own EntryB.own x ≤ owns (NodeB.own EntryB.own) t.nodes := by
        obtain ⟨l, r, hlr⟩ := List.append_of_mem hx
        rw [hlr, owns_append, owns_cons]
        exact le_trans (Multiset.le_add_right _ _) (Multiset.le_add_left _ _)
      exact Multiset.mem_of_le this (by simp [NodeB.own, EntryB.own])
    have hlive : h1.live = o.own + (h.live + lost) := by rw [i.live, if_neg hp, add_assoc]
    have hset : o.AllSet := by
      obtain ⟨q2, hq2⟩ := pyStep_returns (ph := some p) (scan := some o) ⟨hp, i⟩ e2
      cases p with
      | new => rcases hc with rfl | ⟨s, rfl⟩ <;> cases hq2
      | ready => exact Ready.set (i.ready rfl)
      | cleaned => exact AllNull.set (i.cleaned rfl)
      | gone => exact absurd rfl hp
    have hin : x.value.labels ∈ h1.live := by
      rw [hlive]
      refine Multiset.mem_add.2 (.inl ?_)
      simp only [Obj.own, Obj.parts, Obj.results]
      simp only [Multiset.mem_add]
      tauto
    refine ⟨use_live hin, _, use_dead ?_⟩
    rcases hc with rfl | ⟨s, rfl⟩
    · have e3 : (clean o h1 >>= fun y => (pure (some y.1) : M (Option Obj)) y.2) = .ok (scan, h2) := e2
      obtain ⟨⟨o1, h3⟩, e4, e5⟩ := Outcome.bind_eq_ok.1 e3
      cases e5
      exact kills_clean hset h1 i.heap _ hlive o1 h3 e4 _ hown
    · have e3 : (rerun s o h1 >>= fun y => (pure (some y.1) : M (Option Obj)) y.2) = .ok (scan, h2) := e2
      obtain ⟨⟨o1, h3⟩, e4, e5⟩ := Outcome.bind_eq_ok.1 e3
      cases e5
      exact kills_rerun s hset h1 i.heap _ hlive o1 h3 e4 _ hown

/-- An empty heap. -/
private def noHeap : Heap := ⟨0, 0⟩

private theorem noHeap_ok : HeapOk noHeap := ⟨Multiset.nodup_zero, by intro b hb; exact absurd hb (Multiset.notMem_zero b)⟩

/-- Two objects: 2 structs, two maps of 3 and 2 labels. -/
example : OneByOne [.construct, .run ⟨6, 4, 5, 2⟩ 20, .rerun ⟨3, 2, 3, 1⟩, .clusterMap 3, .drop, .construct, .run ⟨6, 4, 5, 2⟩ 20, .clusterMap 2, .drop] :=
  .cons ⟨6, 4, 5, 2⟩ 20 [.rerun ⟨3, 2, 3, 1⟩, .clusterMap 3] _ (by omega) (by
      intro c hc
      rcases List.mem_cons.1 hc with rfl | hc
      · exact .rerun _
      · rcases List.mem_cons.1 hc with rfl | hc
        · exact .clusterMap _
        · cases hc)
    (.cons ⟨6, 4, 5, 2⟩ 20 [.clusterMap 2] [] (by omega) (by
      intro c hc
      rcases List.mem_cons.1 hc with rfl | hc
      · exact .clusterMap _
      · cases hc) .nil)

example : leakedAll [.construct, .run ⟨6, 4, 5, 2⟩ 20, .rerun ⟨3, 2, 3, 1⟩, .clusterMap 3, .drop, .construct, .run ⟨6, 4, 5, 2⟩ 20, .clusterMap 2, .drop] = 35 := by decide

/-- A program that meets the hypotheses of `C68_violated` and, with a hierarchy of four lines, of `C67_memory_violated`. -/
example : ∃ o h1 t, pySteps [.construct, .run ⟨6, 4, 5, 2⟩ 20] none noHeap = .ok (some o, h1) ∧ o.hierarchy = .at t ∧ ∃ s h2, pyStep (some o) (.rerun ⟨3, 2, 3, 1⟩) h1 = .ok (s, h2) := by
  obtain ⟨o, h1, e1, _⟩ := C68_second_object_violated ⟨6, 4, 5, 2⟩ 20 (by omega) noHeap noHeap_ok
  obtain ⟨s2, h2, l2, e2, i2⟩ := Py.pySteps_defined (cs := [.construct, .run ⟨6, 4, 5, 2⟩ 20]) (start_pinv noHeap_ok) (q := some .ready) rfl
  rw [e1] at e2
  cases e2
  obtain ⟨t, ht⟩ := (i2.2.ready rfl).hierarchy
  obtain ⟨s3, h3, L, e3, _⟩ := pyStep_defined (c := .rerun ⟨3, 2, 3, 1⟩) (q := some .ready) i2 rfl
  exact ⟨o, h1, t, e1, ht, s3, h3, e3⟩

/-- The program of `C65_violated`: construct, run, read the labels. -/
example : ∃ scan h', pySteps (Py.effects lineEnv [(.construct 0 (some 2), ⟨6, 4, 5, 2⟩, 0), (.run 0 (backPar 5 5) lineArr, ⟨6, 4, 5, 2⟩, 0), (.labels 0, ⟨6, 4, 5, 2⟩, 0)] Py.start) none noHeap =
    .ok (scan, h') := by
  obtain ⟨st, _, e, _⟩ := C65_violated
  exact C68_agree lineEnv [(.construct 0 (some 2), ⟨6, 4, 5, 2⟩, 0), (.run 0 (backPar 5 5) lineArr, ⟨6, 4, 5, 2⟩, 0), (.labels 0, ⟨6, 4, 5, 2⟩, 0)] _ st e noHeap noHeap_ok

end Verif.Props
