import Verif.Lemmas.Cpp
import Verif.Lemmas.PythonHeap
import Verif.Spec.ReportHeap
/-
Helper lemmas for the memory of the functions that report on a clustering.
-/
namespace Verif.Mem
open Spec
variable {α β V : Type}

/-! ### Released blocks stay released -/

theorem Stays.abort (w : String) : Stays (fail (.abort w) : M α) := fun h a h' e => by cases e

theorem stays_stopUb (c : Prop) [Decidable c] (w : String) : Stays (stopIf c (.ub w)) := by
  unfold stopIf; split
  · exact Stays.ub w
  · exact Stays.pure _

theorem stays_stopAbort (c : Prop) [Decidable c] (w : String) : Stays (stopIf c (.abort w)) := by
  unfold stopIf; split
  · exact Stays.abort w
  · exact Stays.pure _

theorem stays_useList (l : ListB) : Stays (useList l) := Stays.bind (Stays.use _) fun _ => Stays.use _
theorem stays_useTable {u : V → M Unit} (hu : ∀ v, Stays (u v)) (t : TableB V) : Stays (useTable u t) :=
  Stays.bind (Stays.use _) fun _ => Stays.bind (Stays.use _) fun _ => Stays.bind (stays_useList _) fun _ =>
    Stays.each (fun _ => Stays.bind (Stays.use _) fun _ => Stays.bind (Stays.use _) fun _ => Stays.bind (Stays.use _) fun _ => hu _) _
theorem stays_addRecords : ∀ (k : Nat) (t : TableB Nat), Stays (addRecords k t)
  | 0, _ => Stays.pure _
  | k + 1, t => Stays.bind Stays.alloc fun _ => Stays.bind (stays_tableInsert _ _) fun _ => stays_addRecords k _

theorem stays_withMap {vs : List Thing} {x : Nat} {k : TableB ListB → List Nat → M α} (hk : ∀ t keys, Stays (k t keys)) : Stays (withMap vs x k) := by
  unfold withMap; split
  · exact hk _ _
  · exact Stays.ub _
theorem stays_withDists {vs : List Thing} {x : Nat} {k : TableB Nat → List Nat → M α} (hk : ∀ t keys, Stays (k t keys)) : Stays (withDists vs x k) := by
  unfold withDists; split
  · exact hk _ _
  · exact Stays.ub _
theorem stays_withList {vs : List Thing} {x : Nat} {k : ListB → List Nat → M α} (hk : ∀ t keys, Stays (k t keys)) : Stays (withList vs x k) := by
  unfold withList; split
  · exact hk _ _
  · exact Stays.ub _
theorem stays_keep {vs : List Thing} {m : M Thing} (hm : Stays m) : Stays (keep vs m) := Stays.bind hm fun _ => Stays.pure _
theorem stays_same {vs : List Thing} {m : M Unit} (hm : Stays m) : Stays (same vs m) := Stays.bind hm fun _ => Stays.pure _

theorem stays_reportAct (vs : List Thing) (a : ReportAct) : Stays (reportAct vs a) := by
  cases a with
  | createMap labels => exact stays_keep (Stays.bind (stays_stopAbort _ _) fun _ => Stays.bind stays_tableInit fun _ => Stays.bind (stays_addGroups _ _) fun _ => Stays.pure _)
  | minMax x =>
    exact stays_keep (stays_withMap fun _ _ => Stays.bind (stays_useTable stays_useList _) fun _ => Stays.bind stays_tableInit fun _ =>
      Stays.bind (stays_addRecords _ _) fun _ => Stays.pure _)
  | stats x => exact stays_same (stays_withDists fun _ _ => Stays.bind (stays_useTable Stays.use _) fun _ => stays_stopUb _ _)
  | makeList labels => exact stays_keep (Stays.bind stays_listInit fun _ => Stays.pure _)
  | byLength x y =>
    exact stays_same (stays_withMap fun _ _ => stays_withList fun _ _ => Stays.bind (Stays.use _) fun _ => Stays.bind (stays_stopAbort _ _) fun _ => Stays.bind stays_listInit fun _ =>
      Stays.bind (stays_useList _) fun _ => Stays.bind (stays_useTable stays_useList _) fun _ => Stays.bind (stays_stopUb _ _) fun _ => stays_listDelete _)
  | bySimilarity x y =>
    exact stays_same (stays_withDists fun _ _ => stays_withList fun _ _ => Stays.bind (Stays.use _) fun _ => Stays.bind (stays_stopAbort _ _) fun _ => Stays.bind stays_listInit fun _ =>
      Stays.bind (stays_useTable Stays.use _) fun _ => Stays.bind (stays_stopUb _ _) fun _ => Stays.bind (stays_useList _) fun _ => stays_listDelete _)
  | allBySimilarity x =>
    exact stays_keep (stays_withDists fun _ _ => Stays.bind (Stays.use _) fun _ => Stays.bind (stays_stopAbort _ _) fun _ => Stays.bind stays_listInit fun _ => Stays.bind stays_listInit fun _ =>
      Stays.bind (stays_useTable Stays.use _) fun _ => Stays.bind (stays_listDelete _) fun _ => Stays.pure _)
  | printMap x => exact stays_same (stays_withMap fun _ _ => stays_useTable stays_useList _)
  | printDists x => exact stays_same (stays_withDists fun _ _ => stays_useTable Stays.use _)
  | destroyMap x => exact stays_same (stays_withMap fun _ _ => Stays.bind (Stays.use _) fun _ => stays_tableDestroy stays_listDelete _)
  | destroyDists x => exact stays_same (stays_withDists fun _ _ => Stays.bind (Stays.use _) fun _ => stays_tableDestroy Stays.free _)
  | deleteList x => exact stays_same (stays_withList fun _ _ => Stays.bind (Stays.use _) fun _ => stays_listDelete _)

/-! ### Triples -/

theorem tri_stop {c : Prop} [Decidable c] {o : Outcome (Unit × Heap)} (hc : ¬ c) (p : Multiset Nat) : Tri p (stopIf c o) (fun _ => p) (fun _ => True) := by
  rw [stopIf, if_neg hc]; exact Tri.pure rfl trivial

theorem tri_useList (l : ListB) : Tri l.own (useList l) (fun _ => l.own) (fun _ => True) := by
  refine Tri.bind (f := {l.data}) (Tri.use l.self) rfl fun _ _ => ?_
  exact Tri.frame (f := {l.self}) (Tri.use l.data) (by abel) fun _ _ => ⟨by rw [ListB.own]; abel, trivial⟩

theorem tri_useEach {m : α → M Unit} {f : α → Multiset Nat} (h : ∀ a, Tri (f a) (m a) (fun _ => f a) (fun _ => True)) :
    ∀ l : List α, Tri (owns f l) (each m l) (fun _ => owns f l) (fun _ => True)
  | [] => Tri.pure rfl trivial
  | a :: l => by
    refine Tri.bind (f := owns f l) (h a) (owns_cons f a l) fun _ _ => ?_
    exact Tri.frame (f := f a) (tri_useEach h l) (by abel) fun _ _ => ⟨by rw [owns_cons]; abel, trivial⟩

theorem tri_useNode {u : V → M Unit} {f : V → Multiset Nat} (hu : ∀ v, Tri (f v) (u v) (fun _ => f v) (fun _ => True)) (n : NodeB V) :
    Tri (n.own f) (useNode u n) (fun _ => n.own f) (fun _ => True) := by
  refine Tri.bind (f := {n.data} + {n.key} + f n.value) (Tri.use n.self) (by rw [NodeB.own]; abel) fun _ _ => ?_
  refine Tri.bind (f := {n.self} + {n.key} + f n.value) (Tri.use n.data) (by abel) fun _ _ => ?_
  refine Tri.bind (f := {n.self} + {n.data} + f n.value) (Tri.use n.key) (by abel) fun _ _ => ?_
  exact Tri.frame (f := {n.self} + {n.data} + {n.key}) (hu n.value) (by abel) fun _ _ => ⟨by rw [NodeB.own]; abel, trivial⟩

theorem tri_useTable {u : V → M Unit} {f : V → Multiset Nat} (hu : ∀ v, Tri (f v) (u v) (fun _ => f v) (fun _ => True)) (t : TableB V) :
    Tri (t.own f) (useTable u t) (fun _ => t.own f) (fun _ => True) := by
  refine Tri.bind (f := {t.table} + t.keys.own + owns (NodeB.own f) t.nodes) (Tri.use t.self) (by rw [TableB.own]; abel) fun _ _ => ?_
  refine Tri.bind (f := {t.self} + t.keys.own + owns (NodeB.own f) t.nodes) (Tri.use t.table) (by abel) fun _ _ => ?_
  refine Tri.bind (f := {t.self} + {t.table} + owns (NodeB.own f) t.nodes) (tri_useList t.keys) (by abel) fun _ _ => ?_
  exact Tri.frame (f := {t.self} + {t.table} + t.keys.own) (tri_useEach (tri_useNode hu) t.nodes) (by abel) fun _ _ => ⟨by rw [TableB.own]; abel, trivial⟩

theorem tri_addRecords : ∀ (k : Nat) (t : TableB Nat), Tri (t.own singleton) (addRecords k t) (TableB.own singleton) (fun _ => True)
  | 0, _ => Tri.pure rfl trivial
  | k + 1, t => by
    refine Tri.bind (f := t.own singleton) Tri.alloc (by abel) fun d _ => ?_
    refine Tri.bind (f := 0) (tri_tableInsert singleton t d) (by abel) fun t' _ => ?_
    exact Tri.frame (f := 0) (tri_addRecords k t') (by abel) fun _ _ => ⟨by abel, trivial⟩

/-- The blocks of a thing. -/
def Thing.own : Thing → Multiset Nat
  | .map t _ => t.own ListB.own
  | .dists t _ => t.own singleton
  | .list l _ => l.own

/-- The block by which a thing is known. -/
def Thing.self : Thing → Nat
  | .map t _ => t.self
  | .dists t _ => t.self
  | .list l _ => l.self

theorem Thing.self_mem (v : Thing) : v.self ∈ v.own := by
  cases v with
  | map t _ => simp [Thing.self, Thing.own, TableB.own]
  | dists t _ => simp [Thing.self, Thing.own, TableB.own]
  | list l _ => simp [Thing.self, Thing.own, ListB.own]

/-- What a thing is as long as it exists. -/
def Thing.held : Thing → Held
  | .map _ keys => .map keys
  | .dists _ keys => .dists keys
  | .list _ labels => .list labels

theorem tri_createMap {labels : List Nat} (h : labels = [] ∨ 3 ≤ labels.length) :
    Tri 0 (createMap labels) Thing.own (fun v => v.held = .map labels.dedup) := by
  refine Tri.bind (f := 0) (tri_stop (by rcases h with rfl | h <;> simp_all) 0) (by abel) fun _ _ => ?_
  refine Tri.bind (f := 0) (tri_tableInit ListB.own) (by abel) fun t _ => ?_
  refine Tri.bind (f := 0) (tri_addGroups labels.dedup.length t) (by abel) fun t' _ => ?_
  exact Tri.pure (by show _ = t'.own ListB.own; abel) rfl

theorem tri_minMaxDistances (t : TableB ListB) (keys : List Nat) :
    Tri (t.own ListB.own) (minMaxDistances t keys) (fun v => v.own + t.own ListB.own) (fun v => v.held = .dists keys) := by
  refine Tri.bind (f := 0) (tri_useTable tri_useList t) (by abel) fun _ _ => ?_
  refine Tri.bind (f := t.own ListB.own) (tri_tableInit singleton) (by abel) fun d _ => ?_
  refine Tri.bind (f := t.own ListB.own) (tri_addRecords keys.length d) (by abel) fun d' _ => ?_
  exact Tri.pure rfl rfl

theorem tri_calculateStats (t : TableB Nat) {keys : List Nat} (h : keys ≠ []) :
    Tri (t.own singleton) (calculateStats t keys) (fun _ => t.own singleton) (fun _ => True) := by
  refine Tri.bind (f := 0) (tri_useTable Tri.use t) (by abel) fun _ _ => ?_
  exact Tri.frame (f := 0) (tri_stop h (t.own singleton)) (by abel) fun _ _ => ⟨by abel, trivial⟩

theorem tri_makeList (labels : List Nat) : Tri 0 (makeList labels) Thing.own (fun v => v.held = .list labels) := by
  refine Tri.bind (f := 0) tri_listInit (by abel) fun l _ => ?_
  exact Tri.pure (by show _ = l.own; abel) rfl

theorem tri_sortByLength (t : TableB ListB) {keys : List Nat} (l : ListB) {labels : List Nat} (h1 : labels ≠ []) (h2 : ∀ x ∈ labels, x ∈ keys) :
    Tri (t.own ListB.own + l.own) (sortByLength t keys l labels) (fun _ => t.own ListB.own + l.own) (fun _ => True) := by
  refine Tri.bind (f := t.own ListB.own + {l.data}) (Tri.use l.self) (by rw [ListB.own]; abel) fun _ _ => ?_
  refine Tri.bind (f := 0) (tri_stop h1 (t.own ListB.own + l.own)) (by rw [ListB.own]; abel) fun _ _ => ?_
  refine Tri.bind (f := t.own ListB.own + l.own) tri_listInit (by abel) fun q _ => ?_
  refine Tri.bind (f := t.own ListB.own + q.own) (tri_useList l) (by abel) fun _ _ => ?_
  refine Tri.bind (f := l.own + q.own) (tri_useTable tri_useList t) (by abel) fun _ _ => ?_
  refine Tri.bind (f := 0) (tri_stop (by push_neg; exact h2) (t.own ListB.own + l.own + q.own)) (by abel) fun _ _ => ?_
  exact Tri.frame (f := t.own ListB.own + l.own) (tri_listDelete q) (by abel) fun _ _ => ⟨by abel, trivial⟩

theorem tri_sortBySimilarity (t : TableB Nat) {keys : List Nat} (l : ListB) {labels : List Nat} (h1 : labels ≠ []) (h2 : labels.length ≤ keys.length) :
    Tri (t.own singleton + l.own) (sortBySimilarity t keys l labels) (fun _ => t.own singleton + l.own) (fun _ => True) := by
  refine Tri.bind (f := t.own singleton + {l.data}) (Tri.use l.self) (by rw [ListB.own]; abel) fun _ _ => ?_
  refine Tri.bind (f := 0) (tri_stop h1 (t.own singleton + l.own)) (by rw [ListB.own]; abel) fun _ _ => ?_
  refine Tri.bind (f := t.own singleton + l.own) tri_listInit (by abel) fun q _ => ?_
  refine Tri.bind (f := l.own + q.own) (tri_useTable Tri.use t) (by abel) fun _ _ => ?_
  refine Tri.bind (f := 0) (tri_stop (by omega) (t.own singleton + l.own + q.own)) (by abel) fun _ _ => ?_
  refine Tri.bind (f := t.own singleton + q.own) (tri_useList l) (by abel) fun _ _ => ?_
  exact Tri.frame (f := t.own singleton + l.own) (tri_listDelete q) (by abel) fun _ _ => ⟨by abel, trivial⟩

theorem tri_sortAllBySimilarity (t : TableB Nat) {keys : List Nat} (h : keys ≠ []) :
    Tri (t.own singleton) (sortAllBySimilarity t keys) (fun v => v.own + t.own singleton) (fun v => v.held = .list keys) := by
  refine Tri.bind (f := {t.table} + t.keys.own + owns (NodeB.own singleton) t.nodes) (Tri.use t.self) (by rw [TableB.own]; abel) fun _ _ => ?_
  refine Tri.bind (f := 0) (tri_stop h (t.own singleton)) (by rw [TableB.own]; abel) fun _ _ => ?_
  refine Tri.bind (f := t.own singleton) tri_listInit (by abel) fun l _ => ?_
  refine Tri.bind (f := t.own singleton + l.own) tri_listInit (by abel) fun q _ => ?_
  refine Tri.bind (f := l.own + q.own) (tri_useTable Tri.use t) (by abel) fun _ _ => ?_
  refine Tri.bind (f := t.own singleton + l.own) (tri_listDelete q) (by abel) fun _ _ => ?_
  exact Tri.pure (by show _ = l.own + _; abel) rfl

theorem tri_destroyMap (t : TableB ListB) : Tri (t.own ListB.own) (destroyMap t) (fun _ => 0) (fun _ => True) := by
  refine Tri.bind (f := {t.table} + t.keys.own + owns (NodeB.own ListB.own) t.nodes) (Tri.use t.self) (by rw [TableB.own]; abel) fun _ _ => ?_
  exact Tri.frame (f := 0) (tri_tableDestroy tri_listDelete t) (by rw [TableB.own]; abel) fun _ _ => ⟨by abel, trivial⟩

theorem tri_destroyDists (t : TableB Nat) : Tri (t.own singleton) (destroyDists t) (fun _ => 0) (fun _ => True) := by
  refine Tri.bind (f := {t.table} + t.keys.own + owns (NodeB.own singleton) t.nodes) (Tri.use t.self) (by rw [TableB.own]; abel) fun _ _ => ?_
  exact Tri.frame (f := 0) (tri_tableDestroy (f := singleton) Tri.free t) (by rw [TableB.own]; abel) fun _ _ => ⟨by abel, trivial⟩

theorem tri_deleteList (l : ListB) : Tri l.own (deleteList l) (fun _ => 0) (fun _ => True) := by
  refine Tri.bind (f := {l.data}) (Tri.use l.self) (by rw [ListB.own]) fun _ _ => ?_
  exact Tri.frame (f := 0) (tri_listDelete l) (by rw [ListB.own]; abel) fun _ _ => ⟨by abel, trivial⟩

/-! ### Programs -/

/-- The blocks of a thing that may have been destroyed. -/
def thingBlocks (z : Thing × Bool) : Multiset Nat := if z.2 then z.1.own else 0

/-- What a pointer variable stands for. -/
def thingHeld (z : Thing × Bool) : Held := if z.2 then z.1.held else .gone

/-- The state of a program that keeps to the rules. -/
structure ReportInv (ps : List Held) (vs : List Thing) (h : Heap) (base : Multiset Nat) (zs : List (Thing × Bool)) : Prop where
  held : ps = zs.map thingHeld
  vars : vs = zs.map Prod.fst
  dead : ∀ z ∈ zs, z.2 = false → z.1.self < h.fresh ∧ z.1.self ∉ h.live
  heap : HeapOk h
  live : h.live = owns thingBlocks zs + base

/-- A pointer variable: there is none, it points to something, it points to something destroyed. -/
theorem ReportInv.look {ps vs h base zs} (i : ReportInv ps vs h base zs) (x : Nat) :
    (vs[x]? = none ∧ ps[x]? = none) ∨ (∃ v, vs[x]? = some v ∧ ps[x]? = some v.held ∧ zs[x]? = some (v, true)) ∨
      ∃ v, vs[x]? = some v ∧ ps[x]? = some .gone ∧ v.self < h.fresh ∧ v.self ∉ h.live := by
  cases hz : zs[x]? with
  | none => left; rw [i.held, i.vars, List.getElem?_map, List.getElem?_map, hz]; exact ⟨rfl, rfl⟩
  | some z =>
    right
    obtain ⟨v, b⟩ := z
    have h1 : vs[x]? = some v := by rw [i.vars, List.getElem?_map, hz]; rfl
    have h2 : ps[x]? = some (thingHeld (v, b)) := by rw [i.held, List.getElem?_map, hz]; rfl
    cases b with
    | true => exact .inl ⟨v, h1, h2, rfl⟩
    | false => exact .inr ⟨v, h1, h2, i.dead _ (List.mem_of_getElem? hz) rfl⟩

/-- The blocks of one thing. -/
theorem ReportInv.one {ps vs h base zs} (i : ReportInv ps vs h base zs) {x : Nat} {v : Thing} (hz : zs[x]? = some (v, true)) :
    ∃ r, h.live = v.own + (r + base) ∧ owns thingBlocks (zs.set x (v, false)) = r := by
  obtain ⟨r, h1, h2⟩ := owns_set thingBlocks zs x _ hz
  refine ⟨r, ?_, ?_⟩
  · rw [i.live, h1]; simp only [thingBlocks, if_true]; abel
  · rw [h2]; simp [thingBlocks]

/-- The blocks of two things. -/
theorem ReportInv.two {ps vs h base zs} (i : ReportInv ps vs h base zs) {x y : Nat} {v w : Thing} (hz : zs[x]? = some (v, true)) (hw : zs[y]? = some (w, true)) (hn : x ≠ y) :
    ∃ r, h.live = (v.own + w.own) + r := by
  obtain ⟨r, h1, h2⟩ := i.one hz
  have hy : (zs.set x (v, false))[y]? = some (w, true) := by rw [List.getElem?_set_ne hn, hw]
  obtain ⟨r', h3, _⟩ := owns_set thingBlocks _ y _ hy
  refine ⟨r' + base, ?_⟩
  rw [h1, ← h2, h3]; simp only [thingBlocks, if_true]; abel

/-- A call that leaves all blocks in place keeps the invariant. -/
theorem ReportInv.keep {ps vs h base zs} (i : ReportInv ps vs h base zs) {h' : Heap} (hf : h.fresh ≤ h'.fresh) (ho : HeapOk h') (hl : h'.live = h.live) :
    ReportInv ps vs h' base zs :=
  ⟨i.held, i.vars, fun z hz hb => by rw [hl]; exact ⟨lt_of_lt_of_le (i.dead z hz hb).1 hf, (i.dead z hz hb).2⟩, ho, by rw [hl]; exact i.live⟩

/-- A call that makes a thing keeps the invariant. -/
theorem ReportInv.add {ps vs h base zs} (i : ReportInv ps vs h base zs) {v : Thing} {h' : Heap} (hs : ∀ b, b < h.fresh → b ∉ h.live → b ∉ h'.live) (hf : h.fresh ≤ h'.fresh)
    (ho : HeapOk h') (hl : h'.live = v.own + h.live) : ReportInv (ps ++ [v.held]) (vs ++ [v]) h' base (zs ++ [(v, true)]) := by
  refine ⟨by rw [i.held]; simp [thingHeld], by rw [i.vars]; simp, ?_, ho, ?_⟩
  · intro z hz hb
    rcases List.mem_append.1 hz with hz | hz
    · obtain ⟨d1, d2⟩ := i.dead z hz hb
      exact ⟨lt_of_lt_of_le d1 hf, hs _ d1 d2⟩
    · rw [List.mem_singleton] at hz; rw [hz] at hb; cases hb
  · rw [hl, i.live, owns_append]
    simp only [owns, List.map_cons, List.map_nil, List.sum_cons, List.sum_nil, thingBlocks, if_true]
    abel

/-- A call that destroys a thing keeps the invariant. -/
theorem ReportInv.drop {ps vs h base zs} (i : ReportInv ps vs h base zs) {x : Nat} {v : Thing} (hz : zs[x]? = some (v, true)) {h' : Heap} {r : Multiset Nat}
    (h1 : h.live = v.own + (r + base)) (h2 : owns thingBlocks (zs.set x (v, false)) = r)
    (hs : ∀ b, b < h.fresh → b ∉ h.live → b ∉ h'.live) (hf : h.fresh ≤ h'.fresh) (ho : HeapOk h') (hl : h'.live = 0 + (r + base)) :
    ReportInv (ps.set x .gone) vs h' base (zs.set x (v, false)) := by
  refine ⟨by rw [i.held, List.map_set]; rfl, ?_, ?_, ho, by rw [hl, h2, zero_add]⟩
  · rw [i.vars, List.map_set]
    apply List.ext_getElem?
    intro j
    rw [List.getElem?_set]
    split
    · rename_i hj; subst hj
      rw [List.getElem?_map, hz, List.length_map]
      split
      · rfl
      · rename_i hlt; rw [List.getElem?_eq_none (by omega)] at hz; cases hz
    · rfl
  · intro z hz' hb
    rcases List.mem_or_eq_of_mem_set hz' with hz' | hz'
    · obtain ⟨d1, d2⟩ := i.dead z hz' hb
      exact ⟨lt_of_lt_of_le d1 hf, hs _ d1 d2⟩
    · subst hz'
      have hin : v.self ∈ h.live := by rw [h1]; exact Multiset.mem_add.2 (.inl v.self_mem)
      refine ⟨lt_of_lt_of_le (i.heap.fresh _ hin) hf, ?_⟩
      have hn := i.heap.nodup
      rw [h1, Multiset.nodup_add] at hn
      rw [hl, zero_add]
      exact fun hc => Multiset.disjoint_left.1 hn.2.2 v.self_mem hc

/-- The call does not return. -/
def Stops (m : M α) (h : Heap) : Prop := ∃ w, m h = .ub w ∨ m h = .abort w

theorem Stops.bind {m : M α} {k : α → M β} {h : Heap} (hm : Stops m h) : Stops (m >>= k) h := by
  obtain ⟨w, e | e⟩ := hm
  · exact ⟨w, .inl (bind_ub e)⟩
  · exact ⟨w, .inr (bind_abort e)⟩

theorem Stops.after {m : M α} {k : α → M β} {h h1 : Heap} {a : α} (e : m h = .ok (a, h1)) (hk : Stops (k a) h1) : Stops (m >>= k) h := by
  obtain ⟨w, hk⟩ := hk
  exact ⟨w, by rw [bind_ok e]; exact hk⟩

theorem stops_dead {b : Nat} {h : Heap} (hb : b ∉ h.live) : Stops (use b) h := ⟨_, .inl (use_dead hb)⟩
theorem stops_ub (w : String) (h : Heap) : Stops (fail (.ub w) : M α) h := ⟨w, .inl rfl⟩
theorem stops_ifUb {c : Prop} [Decidable c] (hc : c) (w : String) (h : Heap) : Stops (stopIf c (.ub w)) h := ⟨w, .inl (by rw [stopIf, if_pos hc]; rfl)⟩
theorem stops_ifAbort {c : Prop} [Decidable c] (hc : c) (w : String) (h : Heap) : Stops (stopIf c (.abort w)) h := ⟨w, .inr (by rw [stopIf, if_pos hc]; rfl)⟩
theorem stop_no {c : Prop} [Decidable c] (hc : ¬ c) (o : Outcome (Unit × Heap)) (h : Heap) : stopIf c o h = .ok ((), h) := by rw [stopIf, if_neg hc]; rfl

/-- The call does not run for ever. -/
def Halts (m : M α) : Prop := ∀ h, m h ≠ .diverge

theorem Halts.bind {m : M α} {k : α → M β} (hm : Halts m) (hk : ∀ a, Halts (k a)) : Halts (m >>= k) := by
  intro h e
  cases hx : m h with
  | ok p => rw [bind_ok (a := p.1) (h1 := p.2) hx] at e; exact hk _ _ e
  | ub w => rw [bind_ub hx] at e; cases e
  | abort w => rw [bind_abort hx] at e; cases e
  | diverge => exact hm h hx

theorem Halts.use (b : Nat) : Halts (use b) := fun h e => by
  by_cases hb : b ∈ h.live
  · rw [use_live hb] at e; cases e
  · rw [use_dead hb] at e; cases e

theorem Halts.stop (c : Prop) [Decidable c] (w : String) : Halts (stopIf c (.abort w)) := fun h e => by
  by_cases hc : c
  · rw [stopIf, if_pos hc] at e; cases e
  · rw [stop_no hc] at e; cases e

theorem Halts.listInit : Halts listInit := fun h e => by cases e

/-- A released block stops a later call. -/
theorem Stops.later {m : M α} {k : α → M β} {h : Heap} {b : Nat} (hh : Halts m) (hm : Stays m) (hb : b < h.fresh) (hd : b ∉ h.live)
    (hk : ∀ a h', b < h'.fresh → b ∉ h'.live → Stops (k a) h') : Stops (m >>= k) h := by
  cases hx : m h with
  | ok p =>
    obtain ⟨f, d⟩ := hm h p.1 p.2 hx
    exact Stops.after hx (hk _ _ (lt_of_lt_of_le hb f) (d b hb hd))
  | ub w => exact Stops.bind ⟨w, .inl hx⟩
  | abort w => exact Stops.bind ⟨w, .inr hx⟩
  | diverge => exact absurd hx (hh h)

theorem withMap_eq {vs : List Thing} {x : Nat} {t keys} (e : vs[x]? = some (.map t keys)) (k : TableB ListB → List Nat → M α) : withMap vs x k = k t keys := by
  rw [withMap, e]
theorem withDists_eq {vs : List Thing} {x : Nat} {t keys} (e : vs[x]? = some (.dists t keys)) (k : TableB Nat → List Nat → M α) : withDists vs x k = k t keys := by
  rw [withDists, e]
theorem withList_eq {vs : List Thing} {x : Nat} {t keys} (e : vs[x]? = some (.list t keys)) (k : ListB → List Nat → M α) : withList vs x k = k t keys := by
  rw [withList, e]

/-- Not a live cluster map: every access stops. -/
theorem ReportInv.noMap {ps vs h base zs} (i : ReportInv ps vs h base zs) {x : Nat} (hx : ∀ keys, ps[x]? ≠ some (.map keys)) {k : TableB ListB → List Nat → M α}
    (hk : ∀ t keys, t.self < h.fresh → t.self ∉ h.live → Stops (k t keys) h) : Stops (withMap vs x k) h := by
  rcases i.look x with ⟨e, _⟩ | ⟨v, e, hp, _⟩ | ⟨v, e, _, hb, hd⟩
  · rw [withMap, e]; exact stops_ub _ _
  · cases v with
    | map t keys => exact absurd hp (hx keys)
    | dists t keys => rw [withMap, e]; exact stops_ub _ _
    | list t keys => rw [withMap, e]; exact stops_ub _ _
  · cases v with
    | map t keys => rw [withMap_eq e]; exact hk t keys hb hd
    | dists t keys => rw [withMap, e]; exact stops_ub _ _
    | list t keys => rw [withMap, e]; exact stops_ub _ _

theorem ReportInv.noDists {ps vs h base zs} (i : ReportInv ps vs h base zs) {x : Nat} (hx : ∀ keys, ps[x]? ≠ some (.dists keys)) {k : TableB Nat → List Nat → M α}
    (hk : ∀ t keys, t.self < h.fresh → t.self ∉ h.live → Stops (k t keys) h) : Stops (withDists vs x k) h := by
  rcases i.look x with ⟨e, _⟩ | ⟨v, e, hp, _⟩ | ⟨v, e, _, hb, hd⟩
  · rw [withDists, e]; exact stops_ub _ _
  · cases v with
    | dists t keys => exact absurd hp (hx keys)
    | map t keys => rw [withDists, e]; exact stops_ub _ _
    | list t keys => rw [withDists, e]; exact stops_ub _ _
  · cases v with
    | dists t keys => rw [withDists_eq e]; exact hk t keys hb hd
    | map t keys => rw [withDists, e]; exact stops_ub _ _
    | list t keys => rw [withDists, e]; exact stops_ub _ _

theorem ReportInv.noList {ps vs h base zs} (i : ReportInv ps vs h base zs) {x : Nat} (hx : ∀ keys, ps[x]? ≠ some (.list keys)) {k : ListB → List Nat → M α}
    (hk : ∀ t keys, t.self < h.fresh → t.self ∉ h.live → Stops (k t keys) h) : Stops (withList vs x k) h := by
  rcases i.look x with ⟨e, _⟩ | ⟨v, e, hp, _⟩ | ⟨v, e, _, hb, hd⟩
  · rw [withList, e]; exact stops_ub _ _
  · cases v with
    | list t keys => exact absurd hp (hx keys)
    | map t keys => rw [withList, e]; exact stops_ub _ _
    | dists t keys => rw [withList, e]; exact stops_ub _ _
  · cases v with
    | list t keys => rw [withList_eq e]; exact hk t keys hb hd
    | map t keys => rw [withList, e]; exact stops_ub _ _
    | dists t keys => rw [withList, e]; exact stops_ub _ _

theorem ReportInv.isMap {ps vs h base zs} (i : ReportInv ps vs h base zs) {x : Nat} {keys : List Nat} (hx : ps[x]? = some (.map keys)) :
    ∃ t, vs[x]? = some (.map t keys) ∧ zs[x]? = some (.map t keys, true) := by
  rcases i.look x with ⟨_, e⟩ | ⟨v, e, hp, hz⟩ | ⟨v, _, e, _⟩
  · rw [e] at hx; cases hx
  · rw [hp] at hx
    cases v with
    | map t keys' => cases hx; exact ⟨t, e, hz⟩
    | dists t keys' => cases hx
    | list t keys' => cases hx
  · rw [e] at hx; cases hx

theorem ReportInv.isDists {ps vs h base zs} (i : ReportInv ps vs h base zs) {x : Nat} {keys : List Nat} (hx : ps[x]? = some (.dists keys)) :
    ∃ t, vs[x]? = some (.dists t keys) ∧ zs[x]? = some (.dists t keys, true) := by
  rcases i.look x with ⟨_, e⟩ | ⟨v, e, hp, hz⟩ | ⟨v, _, e, _⟩
  · rw [e] at hx; cases hx
  · rw [hp] at hx
    cases v with
    | dists t keys' => cases hx; exact ⟨t, e, hz⟩
    | map t keys' => cases hx
    | list t keys' => cases hx
  · rw [e] at hx; cases hx

theorem ReportInv.isList {ps vs h base zs} (i : ReportInv ps vs h base zs) {x : Nat} {keys : List Nat} (hx : ps[x]? = some (.list keys)) :
    ∃ t, vs[x]? = some (.list t keys) ∧ zs[x]? = some (.list t keys, true) := by
  rcases i.look x with ⟨_, e⟩ | ⟨v, e, hp, hz⟩ | ⟨v, _, e, _⟩
  · rw [e] at hx; cases hx
  · rw [hp] at hx
    cases v with
    | list t keys' => cases hx; exact ⟨t, e, hz⟩
    | dists t keys' => cases hx
    | map t keys' => cases hx
  · rw [e] at hx; cases hx

theorem ReportInv.made {ps vs h base zs} (i : ReportInv ps vs h base zs) {m : M Thing} {p rest : Multiset Nat} {q : Held}
    (ht : Tri p m (fun v => v.own + p) (fun v => v.held = q)) (hs : Stays m) (hl : h.live = p + rest) :
    ∃ vs' h' zs', Mem.keep vs m h = .ok (vs', h') ∧ ReportInv (ps ++ [q]) vs' h' base zs' := by
  obtain ⟨v, h', e, ho, hf, hl', hq⟩ := ht h i.heap rest hl
  refine ⟨vs ++ [v], h', zs ++ [(v, true)], (bind_ok e).trans rfl, ?_⟩
  rw [← hq]
  exact i.add (hs h v h' e).2 hf ho (by rw [hl', hl]; show v.own + p + rest = _; abel)

theorem ReportInv.used {ps vs h base zs} (i : ReportInv ps vs h base zs) {m : M Unit} {p rest : Multiset Nat}
    (ht : Tri p m (fun _ => p) (fun _ => True)) (hl : h.live = p + rest) :
    ∃ vs' h' zs', same vs m h = .ok (vs', h') ∧ ReportInv ps vs' h' base zs' := by
  obtain ⟨v, h', e, ho, hf, hl', _⟩ := ht h i.heap rest hl
  exact ⟨vs, h', zs, (bind_ok e).trans rfl, i.keep hf ho (by rw [hl', hl])⟩

theorem ReportInv.dropped {ps vs h base zs} (i : ReportInv ps vs h base zs) {m : M Unit} {x : Nat} {v : Thing} (hz : zs[x]? = some (v, true))
    (ht : Tri v.own m (fun _ => 0) (fun _ => True)) (hs : Stays m) :
    ∃ vs' h' zs', same vs m h = .ok (vs', h') ∧ ReportInv (ps.set x .gone) vs' h' base zs' := by
  obtain ⟨r, h1, h2⟩ := i.one hz
  obtain ⟨u, h', e, ho, hf, hl', _⟩ := ht h i.heap (r + base) h1
  exact ⟨vs, h', zs.set x (v, false), (bind_ok e).trans rfl, i.drop hz h1 h2 (hs h u h' e).2 hf ho hl'⟩

theorem ReportInv.useDists {ps vs h base zs} (i : ReportInv ps vs h base zs) {x : Nat} {t : TableB Nat} {keys : List Nat} (hz : zs[x]? = some (.dists t keys, true)) :
    ∃ h', useTable use t h = .ok ((), h') := by
  obtain ⟨r, h1, _⟩ := i.one hz
  obtain ⟨u, h', e, _⟩ := tri_useTable (f := singleton) Tri.use t h i.heap (r + base) h1
  exact ⟨h', e⟩

/-- A call that keeps to the rules returns and keeps the invariant; a call that does not keep to the rules does not return. -/
theorem reportAct_step {ps vs h base zs} (i : ReportInv ps vs h base zs) (a : ReportAct) :
    (∀ qs, reportRule ps a = some qs → ∃ vs' h' zs', reportAct vs a h = .ok (vs', h') ∧ ReportInv qs vs' h' base zs') ∧
      (reportRule ps a = none → Stops (reportAct vs a) h) := by
  have dt : ∀ {V : Type} (u : V → M Unit) (t : TableB V), t.self ∉ h.live → Stops (useTable u t) h := fun u t hd => (stops_dead hd).bind
  cases a with
  | createMap labels =>
    simp only [reportRule]
    by_cases hc : labels = [] ∨ 3 ≤ labels.length
    · rw [if_pos hc]
      refine ⟨fun qs e => ?_, nofun⟩
      cases e
      refine i.made (p := 0) (rest := h.live) (Tri.frame (f := 0) (tri_createMap hc) (by abel) fun v hv => ⟨by abel, hv⟩) ?_ (by abel)
      exact Stays.bind (stays_stopAbort _ _) fun _ => Stays.bind stays_tableInit fun _ => Stays.bind (stays_addGroups _ _) fun _ => Stays.pure _
    · rw [if_neg hc]
      refine ⟨nofun, fun _ => ?_⟩
      push_neg at hc
      exact ((stops_ifAbort ⟨List.length_pos_iff.2 hc.1, hc.2⟩ _ _).bind).bind
  | minMax x =>
    simp only [reportRule]
    split
    · rename_i keys hx
      refine ⟨fun qs e => ?_, nofun⟩
      cases e
      obtain ⟨t, hv, hz⟩ := i.isMap hx
      obtain ⟨r, h1, _⟩ := i.one hz
      simp only [reportAct, withMap_eq hv]
      exact i.made (tri_minMaxDistances t keys) (Stays.bind (stays_useTable stays_useList _) fun _ => Stays.bind stays_tableInit fun _ =>
        Stays.bind (stays_addRecords _ _) fun _ => Stays.pure _) h1
    · rename_i hx
      refine ⟨nofun, fun _ => ?_⟩
      exact (i.noMap (fun keys e => hx keys e) fun t keys hb hd => (dt _ t hd).bind).bind
  | stats x =>
    simp only [reportRule]
    split
    · rename_i keys hx
      obtain ⟨t, hv, hz⟩ := i.isDists hx
      obtain ⟨r, h1, _⟩ := i.one hz
      simp only [reportAct, withDists_eq hv]
      by_cases hc : keys ≠ []
      · rw [if_pos hc]
        refine ⟨fun qs e => ?_, nofun⟩
        cases e
        exact i.used (tri_calculateStats t hc) h1
      · rw [if_neg hc]
        refine ⟨nofun, fun _ => ?_⟩
        obtain ⟨h', e⟩ := i.useDists hz
        exact (Stops.after e (stops_ifUb (not_not.1 hc) _ _)).bind
    · rename_i hx
      refine ⟨nofun, fun _ => ?_⟩
      exact (i.noDists (fun keys e => hx keys e) fun t keys hb hd => (dt _ t hd).bind).bind
  | makeList labels =>
    refine ⟨fun qs e => ?_, nofun⟩
    cases e
    exact i.made (p := 0) (rest := h.live) (Tri.frame (f := 0) (tri_makeList labels) (by abel) fun v hv => ⟨by abel, hv⟩) (Stays.bind stays_listInit fun _ => Stays.pure _) (by abel)
  | byLength x y =>
    simp only [reportRule]
    split
    · rename_i keys labels hx hy
      obtain ⟨t, hv, hz⟩ := i.isMap hx
      obtain ⟨l, hv', hz'⟩ := i.isList hy
      have hn : x ≠ y := by rintro rfl; rw [hx] at hy; cases hy
      obtain ⟨r, h1⟩ := i.two hz hz' hn
      simp only [reportAct, withMap_eq hv, withList_eq hv']
      by_cases hc : labels ≠ [] ∧ ∀ l ∈ labels, l ∈ keys
      · rw [if_pos hc]
        refine ⟨fun qs e => ?_, nofun⟩
        cases e
        exact i.used (tri_sortByLength t l hc.1 hc.2) h1
      · rw [if_neg hc]
        refine ⟨nofun, fun _ => Stops.bind ?_⟩
        have hin : l.self ∈ h.live := by rw [h1]; simp [Thing.own, ListB.own]
        refine Stops.after (use_live hin) ?_
        by_cases he : labels = []
        · exact (stops_ifAbort he _ _).bind
        · refine Stops.after (stop_no he _ _) ?_
          obtain ⟨q, h2, e2, ho2, _, hl2, _⟩ := tri_listInit h i.heap h.live (by abel)
          refine Stops.after e2 ?_
          obtain ⟨_, h3, e3, ho3, _, hl3, _⟩ := tri_useList l h2 ho2 (t.own ListB.own + q.own + r) (by rw [hl2, h1]; simp only [Thing.own]; abel)
          refine Stops.after e3 ?_
          obtain ⟨_, h4, e4, _⟩ := tri_useTable tri_useList t h3 ho3 (l.own + q.own + r) (by rw [hl3]; abel)
          refine Stops.after e4 ?_
          refine (stops_ifUb ?_ _ _).bind
          by_contra hcon
          push_neg at hcon
          exact hc ⟨he, hcon⟩
    · rename_i hxy
      refine ⟨nofun, fun _ => Stops.bind ?_⟩
      by_cases hx : ∃ keys, ps[x]? = some (.map keys)
      · obtain ⟨keys, hx⟩ := hx
        obtain ⟨t, hv, hz⟩ := i.isMap hx
        rw [withMap_eq hv]
        exact i.noList (fun labels e => hxy keys labels hx e) fun l labels hb hd => (stops_dead hd).bind
      · refine i.noMap (fun keys e => hx ⟨keys, e⟩) fun t keys hb hd => ?_
        unfold withList
        split
        · exact Stops.later (Halts.use _) (Stays.use _) hb hd fun _ h1 hb1 hd1 => Stops.later (Halts.stop _ _) (stays_stopAbort _ _) hb1 hd1 fun _ h2 hb2 hd2 =>
            Stops.later Halts.listInit stays_listInit hb2 hd2 fun _ h3 hb3 hd3 =>
              Stops.later (Halts.bind (Halts.use _) fun _ => Halts.use _) (stays_useList _) hb3 hd3 fun _ h4 hb4 hd4 => ((stops_dead hd4).bind).bind
        · exact stops_ub _ _
  | bySimilarity x y =>
    simp only [reportRule]
    split
    · rename_i keys labels hx hy
      obtain ⟨t, hv, hz⟩ := i.isDists hx
      obtain ⟨l, hv', hz'⟩ := i.isList hy
      have hn : x ≠ y := by rintro rfl; rw [hx] at hy; cases hy
      obtain ⟨r, h1⟩ := i.two hz hz' hn
      simp only [reportAct, withDists_eq hv, withList_eq hv']
      by_cases hc : labels ≠ [] ∧ labels.length ≤ keys.length
      · rw [if_pos hc]
        refine ⟨fun qs e => ?_, nofun⟩
        cases e
        exact i.used (tri_sortBySimilarity t l hc.1 hc.2) h1
      · rw [if_neg hc]
        refine ⟨nofun, fun _ => Stops.bind ?_⟩
        have hin : l.self ∈ h.live := by rw [h1]; simp [Thing.own, ListB.own]
        refine Stops.after (use_live hin) ?_
        by_cases he : labels = []
        · exact (stops_ifAbort he _ _).bind
        · refine Stops.after (stop_no he _ _) ?_
          obtain ⟨q, h2, e2, ho2, _, hl2, _⟩ := tri_listInit h i.heap h.live (by abel)
          refine Stops.after e2 ?_
          obtain ⟨_, h3, e3, _⟩ := tri_useTable (f := singleton) Tri.use t h2 ho2 (l.own + q.own + r) (by rw [hl2, h1]; simp only [Thing.own]; abel)
          refine Stops.after e3 ?_
          refine (stops_ifUb ?_ _ _).bind
          by_contra hcon
          exact hc ⟨he, by omega⟩
    · rename_i hxy
      refine ⟨nofun, fun _ => Stops.bind ?_⟩
      by_cases hx : ∃ keys, ps[x]? = some (.dists keys)
      · obtain ⟨keys, hx⟩ := hx
        obtain ⟨t, hv, hz⟩ := i.isDists hx
        rw [withDists_eq hv]
        exact i.noList (fun labels e => hxy keys labels hx e) fun l labels hb hd => (stops_dead hd).bind
      · refine i.noDists (fun keys e => hx ⟨keys, e⟩) fun t keys hb hd => ?_
        unfold withList
        split
        · exact Stops.later (Halts.use _) (Stays.use _) hb hd fun _ h1 hb1 hd1 => Stops.later (Halts.stop _ _) (stays_stopAbort _ _) hb1 hd1 fun _ h2 hb2 hd2 =>
            Stops.later Halts.listInit stays_listInit hb2 hd2 fun _ h3 hb3 hd3 => ((stops_dead hd3).bind).bind
        · exact stops_ub _ _
  | allBySimilarity x =>
    simp only [reportRule]
    split
    · rename_i keys hx
      obtain ⟨t, hv, hz⟩ := i.isDists hx
      obtain ⟨r, h1, _⟩ := i.one hz
      simp only [reportAct, withDists_eq hv]
      by_cases hc : keys ≠ []
      · rw [if_pos hc]
        refine ⟨fun qs e => ?_, nofun⟩
        cases e
        exact i.made (tri_sortAllBySimilarity t hc) (Stays.bind (Stays.use _) fun _ => Stays.bind (stays_stopAbort _ _) fun _ => Stays.bind stays_listInit fun _ =>
          Stays.bind stays_listInit fun _ => Stays.bind (stays_useTable Stays.use _) fun _ => Stays.bind (stays_listDelete _) fun _ => Stays.pure _) h1
      · rw [if_neg hc]
        refine ⟨nofun, fun _ => Stops.bind ?_⟩
        have hin : t.self ∈ h.live := by rw [h1]; simp [Thing.own, TableB.own]
        exact Stops.after (use_live hin) (stops_ifAbort (not_not.1 hc) _ _).bind
    · rename_i hx
      refine ⟨nofun, fun _ => ?_⟩
      exact (i.noDists (fun keys e => hx keys e) fun t keys hb hd => (stops_dead hd).bind).bind
  | printMap x =>
    simp only [reportRule]
    split
    · rename_i keys hx
      obtain ⟨t, hv, hz⟩ := i.isMap hx
      obtain ⟨r, h1, _⟩ := i.one hz
      simp only [reportAct, withMap_eq hv]
      refine ⟨fun qs e => ?_, nofun⟩
      cases e
      exact i.used (tri_useTable tri_useList t) h1
    · rename_i hx
      exact ⟨nofun, fun _ => (i.noMap (fun keys e => hx keys e) fun t keys hb hd => dt _ t hd).bind⟩
  | printDists x =>
    simp only [reportRule]
    split
    · rename_i keys hx
      obtain ⟨t, hv, hz⟩ := i.isDists hx
      obtain ⟨r, h1, _⟩ := i.one hz
      simp only [reportAct, withDists_eq hv]
      refine ⟨fun qs e => ?_, nofun⟩
      cases e
      exact i.used (tri_useTable (f := singleton) Tri.use t) h1
    · rename_i hx
      exact ⟨nofun, fun _ => (i.noDists (fun keys e => hx keys e) fun t keys hb hd => dt _ t hd).bind⟩
  | destroyMap x =>
    simp only [reportRule]
    split
    · rename_i keys hx
      obtain ⟨t, hv, hz⟩ := i.isMap hx
      simp only [reportAct, withMap_eq hv]
      refine ⟨fun qs e => ?_, nofun⟩
      cases e
      exact i.dropped hz (tri_destroyMap t) (Stays.bind (Stays.use _) fun _ => stays_tableDestroy stays_listDelete _)
    · rename_i hx
      exact ⟨nofun, fun _ => (i.noMap (fun keys e => hx keys e) fun t keys hb hd => (stops_dead hd).bind).bind⟩
  | destroyDists x =>
    simp only [reportRule]
    split
    · rename_i keys hx
      obtain ⟨t, hv, hz⟩ := i.isDists hx
      simp only [reportAct, withDists_eq hv]
      refine ⟨fun qs e => ?_, nofun⟩
      cases e
      exact i.dropped hz (tri_destroyDists t) (Stays.bind (Stays.use _) fun _ => stays_tableDestroy Stays.free _)
    · rename_i hx
      exact ⟨nofun, fun _ => (i.noDists (fun keys e => hx keys e) fun t keys hb hd => (stops_dead hd).bind).bind⟩
  | deleteList x =>
    simp only [reportRule]
    split
    · rename_i keys hx
      obtain ⟨t, hv, hz⟩ := i.isList hx
      simp only [reportAct, withList_eq hv]
      refine ⟨fun qs e => ?_, nofun⟩
      cases e
      exact i.dropped hz (tri_deleteList t) (Stays.bind (Stays.use _) fun _ => stays_listDelete _)
    · rename_i hx
      exact ⟨nofun, fun _ => (i.noList (fun keys e => hx keys e) fun t keys hb hd => (stops_dead hd).bind).bind⟩

theorem reportActs_run : ∀ {as : List ReportAct} {ps vs h base zs}, ReportInv ps vs h base zs →
    (∀ qs, reportRules ps as = some qs → ∃ vs' h' zs', reportActs as vs h = .ok (vs', h') ∧ ReportInv qs vs' h' base zs') ∧
      (reportRules ps as = none → Stops (reportActs as vs) h)
  | [], ps, vs, h, base, zs, i => ⟨fun qs e => by cases e; exact ⟨vs, h, zs, rfl, i⟩, nofun⟩
  | a :: r, ps, vs, h, base, zs, i => by
    obtain ⟨s1, s2⟩ := reportAct_step i a
    simp only [reportRules]
    cases hr : reportRule ps a with
    | none => exact ⟨nofun, fun _ => (s2 hr).bind⟩
    | some ms =>
      obtain ⟨v1, k1, z1, e1, i1⟩ := s1 ms hr
      obtain ⟨t1, t2⟩ := reportActs_run (as := r) i1
      refine ⟨fun qs e => ?_, fun e => Stops.after e1 (t2 e)⟩
      obtain ⟨v2, k2, z2, e2, i2⟩ := t1 qs e
      exact ⟨v2, k2, z2, (bind_ok e1).trans e2, i2⟩

theorem reportInv_start {h : Heap} (hh : HeapOk h) : ReportInv [] [] h h.live [] := ⟨rfl, rfl, by simp, hh, by simp⟩

end Verif.Mem
