import Verif.Spec.PythonHeap
import Verif.Lemmas.HeapLife
import Verif.Lemmas.Python
/-
Lemmas about the memory of the Python binding.
-/
namespace Verif.Mem
open Spec
variable {α β : Type}

/-! ### Released blocks stay released -/

/-- Blocks that are not allocated do not come back. -/
def Stays (m : M α) : Prop := ∀ h a h', m h = .ok (a, h') → h.fresh ≤ h'.fresh ∧ ∀ b, b < h.fresh → b ∉ h.live → b ∉ h'.live

theorem Stays.pure (a : α) : Stays (pure a : M α) := fun h x h' e => by cases e; exact ⟨le_refl _, fun _ _ hb => hb⟩

theorem Stays.bind {m : M α} {k : α → M β} (hm : Stays m) (hk : ∀ a, Stays (k a)) : Stays (m >>= k) := by
  intro h b h' e
  have e' : (m h >>= fun p => k p.1 p.2) = .ok (b, h') := e
  obtain ⟨⟨a, h1⟩, e1, e2⟩ := Outcome.bind_eq_ok.1 e'
  obtain ⟨f1, d1⟩ := hm h a h1 e1
  obtain ⟨f2, d2⟩ := hk a h1 b h' e2
  exact ⟨f1.trans f2, fun x hx hl => d2 x (lt_of_lt_of_le hx f1) (d1 x hx hl)⟩

theorem Stays.alloc : Stays alloc := fun h a h' e => by
  cases e
  refine ⟨Nat.le_succ _, fun b hb hl hm => ?_⟩
  rcases Multiset.mem_cons.1 hm with rfl | hm
  · exact absurd hb (lt_irrefl _)
  · exact hl hm

theorem Stays.free (b : Nat) : Stays (free b) := fun h a h' e => by
  simp only [Mem.free] at e
  split at e
  · cases e; exact ⟨le_refl _, fun x _ hl hm => hl (Multiset.mem_of_mem_erase hm)⟩
  · cases e

theorem Stays.use (b : Nat) : Stays (use b) := fun h a h' e => by
  simp only [Mem.use] at e
  split at e
  · cases e; exact ⟨le_refl _, fun _ _ hl => hl⟩
  · cases e

theorem Stays.ub (w : String) : Stays (fail (.ub w) : M α) := fun h a h' e => by cases e

theorem Stays.times {m : M α} (h : Stays m) : ∀ k, Stays (times m k)
  | 0 => Stays.pure _
  | k + 1 => Stays.bind h fun _ => Stays.bind (Stays.times h k) fun _ => Stays.pure _

theorem Stays.each {m : α → M Unit} (h : ∀ a, Stays (m a)) : ∀ l, Stays (each m l)
  | [] => Stays.pure _
  | a :: l => Stays.bind (h a) fun _ => Stays.each h l

theorem stays_listInit : Stays listInit := Stays.bind Stays.alloc fun _ => Stays.bind Stays.alloc fun _ => Stays.pure _
theorem stays_listDelete (l : ListB) : Stays (listDelete l) := Stays.bind (Stays.free _) fun _ => Stays.free _
theorem stays_tableInit {V : Type} : Stays (tableInit : M (TableB V)) :=
  Stays.bind Stays.alloc fun _ => Stays.bind Stays.alloc fun _ => Stays.bind stays_listInit fun _ => Stays.pure _
theorem stays_tableInsert {V : Type} (t : TableB V) (v : V) : Stays (tableInsert t v) :=
  Stays.bind Stays.alloc fun _ => Stays.bind Stays.alloc fun _ => Stays.bind Stays.alloc fun _ => Stays.pure _
theorem stays_tableClear {V : Type} {del : V → M Unit} (hd : ∀ v, Stays (del v)) (t : TableB V) : Stays (tableClear del t) :=
  Stays.bind Stays.alloc fun _ => Stays.bind Stays.alloc fun _ =>
    Stays.bind (Stays.each (fun _ => Stays.bind (Stays.free _) fun _ => Stays.bind (Stays.free _) fun _ => Stays.bind (Stays.free _) fun _ => hd _) _) fun _ =>
      Stays.bind (Stays.free _) fun _ => Stays.bind (Stays.free _) fun _ => Stays.pure _
theorem stays_tableDestroy {V : Type} {del : V → M Unit} (hd : ∀ v, Stays (del v)) (t : TableB V) : Stays (tableDestroy del t) :=
  Stays.bind (stays_tableClear hd t) fun _ => Stays.bind (stays_listDelete _) fun _ => Stays.bind (Stays.free _) fun _ => Stays.free _
theorem stays_clusterInit : Stays clusterInit := Stays.bind Stays.alloc fun _ => Stays.bind stays_listInit fun _ => Stays.bind stays_listInit fun _ => Stays.pure _
theorem stays_clusterDestroy (c : ClusterB) : Stays (clusterDestroy c) := Stays.bind (stays_listDelete _) fun _ => Stays.bind (stays_listDelete _) fun _ => Stays.free _
theorem stays_entryInit : Stays entryInit := Stays.bind Stays.alloc fun _ => Stays.bind Stays.alloc fun _ => Stays.pure _
theorem stays_graphInit (n : Nat) : Stays (graphInit n) :=
  Stays.bind stays_listInit fun _ => Stays.bind stays_listInit fun _ => Stays.bind stays_listInit fun _ => Stays.bind Stays.alloc fun _ => Stays.bind Stays.alloc fun _ =>
    Stays.bind (Stays.times stays_listInit n) fun _ => Stays.pure _

theorem stays_whenSet {m : α → M Unit} (h : ∀ a, Stays (m a)) (p : Ptr α) : Stays (whenSet p m) := by
  cases p with
  | indet => exact Stays.ub _
  | null => exact Stays.pure _
  | «at» a => exact h a

theorem stays_deref (p : Ptr α) : Stays (deref p) := by
  cases p with
  | indet => exact Stays.ub _
  | null => exact Stays.ub _
  | «at» a => exact Stays.pure _

theorem stays_clearClusters (p : Ptr ClustersB) : Stays (clearClusters p) := by
  cases p with
  | indet => exact Stays.ub _
  | null => exact Stays.pure _
  | «at» a => exact Stays.bind (Stays.each stays_clusterDestroy _) fun _ => Stays.pure _

theorem stays_clearStabilities (p : Ptr (TableB Unit)) : Stays (clearStabilities p) := by
  cases p with
  | indet => exact Stays.ub _
  | null => exact Stays.pure _
  | «at» a => exact Stays.bind (stays_tableClear (fun _ => Stays.pure _) _) fun _ => Stays.pure _

theorem stays_level : Stays level :=
  Stays.bind stays_listInit fun _ => Stays.bind stays_listInit fun _ => Stays.bind stays_listInit fun _ => Stays.bind stays_listInit fun _ => Stays.bind stays_listInit fun _ =>
    Stays.bind (stays_listDelete _) fun _ => Stays.bind (stays_listDelete _) fun _ => Stays.bind (stays_listDelete _) fun _ => Stays.bind (stays_listDelete _) fun _ => stays_listDelete _

theorem stays_addLines : ∀ (k : Nat) (t : TableB EntryB), Stays (addLines k t)
  | 0, _ => Stays.pure _
  | k + 1, t => Stays.bind stays_entryInit fun _ => Stays.bind (stays_tableInsert _ _) fun _ => stays_addLines k _

theorem stays_addGroups : ∀ (k : Nat) (t : TableB ListB), Stays (addGroups k t)
  | 0, _ => Stays.pure _
  | k + 1, t => Stays.bind stays_listInit fun _ => Stays.bind (stays_tableInsert _ _) fun _ => stays_addGroups k _

theorem stays_hierarchyStage (s : Shape) (c : ClustersB) (t : TableB EntryB) : Stays (hierarchyStage s c t) :=
  Stays.bind (Stays.use _) fun _ => Stays.bind stays_listInit fun _ => Stays.bind stays_listInit fun _ => Stays.bind stays_listInit fun _ =>
    Stays.bind (Stays.times stays_clusterInit _) fun _ => Stays.bind (Stays.times stays_level _) fun _ => Stays.bind (stays_addLines _ _) fun _ =>
      Stays.bind (stays_listDelete _) fun _ => Stays.bind (stays_listDelete _) fun _ => Stays.bind (stays_listDelete _) fun _ => Stays.pure _

theorem stays_prominentStage (s : Shape) : Stays (prominentStage s) :=
  Stays.bind stays_tableInit fun _ => Stays.bind (stays_addGroups _ _) fun _ => Stays.bind Stays.alloc fun _ => Stays.bind (stays_tableDestroy stays_listDelete _) fun _ => Stays.pure _

theorem stays_doRun (s : Shape) (n : Nat) (o : Obj) : Stays (doRun s n o) :=
  Stays.bind (Stays.use _) fun _ => Stays.bind stays_tableInit fun _ => Stays.bind (stays_graphInit n) fun _ => Stays.bind (stays_deref _) fun _ =>
    Stays.bind (stays_hierarchyStage _ _ _) fun _ => Stays.bind (Stays.bind stays_listInit fun _ => stays_listDelete _) fun _ => Stays.bind (stays_prominentStage s) fun _ =>
      Stays.bind Stays.alloc fun _ => Stays.pure _

theorem stays_rerunTail (s : Shape) (o : Obj) : Stays (coreStage o >>= fun _ => numPoints o >>= fun n => doRun s n o) := by
  refine Stays.bind (Stays.bind (stays_deref _) fun _ => Stays.bind (Stays.use _) fun _ => Stays.bind (stays_deref _) fun _ => Stays.use _) fun _ => Stays.bind ?_ fun _ => stays_doRun _ _ _
  unfold numPoints
  cases o.points with
  | none => exact Stays.ub _
  | some n => exact Stays.pure _

/-- After `m`, the blocks `dead` are not allocated. -/
def Kills (dead pre : Multiset Nat) (m : M α) : Prop :=
  ∀ h, HeapOk h → ∀ rest, h.live = pre + rest → ∀ a h', m h = .ok (a, h') → ∀ b ∈ dead, b ∉ h'.live

theorem Kills.skip {dead pre p f : Multiset Nat} {m : M α} {mid : α → Multiset Nat} {Q : α → Prop} {k : α → M β} (hm : Tri p m mid Q) (hp : pre = p + f)
    (hk : ∀ a, Q a → Kills dead (mid a + f) (k a)) : Kills dead pre (m >>= k) := by
  intro h hh rest hl b h' e
  obtain ⟨a, h1, e1, o1, _, v1, q1⟩ := hm h hh (f + rest) (by rw [hl, hp, add_assoc])
  have e' : (m h >>= fun p => k p.1 p.2) = .ok (b, h') := e
  rw [e1] at e'
  exact hk a q1 h1 o1 rest (by rw [v1, add_assoc]) b h' e'

/-- The step that releases the blocks. -/
theorem Kills.here {dead pre p f : Multiset Nat} {m : M α} {k : α → M β} (hm : Tri p m (fun _ => 0) (fun _ => True)) (hp : pre = p + f) (hd : ∀ b ∈ dead, b ∈ p) (hk : ∀ a, Stays (k a)) :
    Kills dead pre (m >>= k) := by
  intro h hh rest hl x h' e b hb
  have hlive : h.live = p + (f + rest) := by rw [hl, hp, add_assoc]
  obtain ⟨a, h1, e1, o1, f1, v1, _⟩ := hm h hh (f + rest) hlive
  have e' : (m h >>= fun p => k p.1 p.2) = .ok (x, h') := e
  rw [e1] at e'
  have hbp := hd b hb
  have hnot : b ∉ h1.live := by
    rw [v1, zero_add]
    intro hm'
    have := hh.nodup
    rw [hlive, Multiset.nodup_add] at this
    exact Multiset.disjoint_left.1 this.2.2 hbp hm'
  exact (hk a h1 x h' e').2 b (lt_of_lt_of_le (hh.fresh b (by rw [hlive]; exact Multiset.mem_add.2 (.inl hbp))) f1) hnot

/-- `hdbscan_minimal_clean` and whatever follows it release the hierarchy. -/
theorem kills_minimalClean {o : Obj} (h : o.AllSet) {k : Obj → M β} (hk : ∀ o', Stays (k o')) :
    Kills (o.hierarchy.own (TableB.own EntryB.own)) o.own (minimalClean o >>= k) := by
  intro hp hh rest hl b h' e
  let D := o.distances.own (fun b => {b}) + o.core.own (fun b => {b})
  let C := o.clusters.own ClustersB.own
  let T := o.stabilities.own (TableB.own (fun _ => 0))
  have key : Kills (o.hierarchy.own (TableB.own EntryB.own)) o.own (use o.self >>= fun _ => whenSet o.labels free >>= fun _ => whenSet o.outliers free >>= fun _ =>
      whenSet o.mst graphDestroy >>= fun _ => whenSet o.constraints listDelete >>= fun _ => whenSet o.hierarchy (tableDestroy entryDestroy) >>= fun _ =>
        clearClusters o.clusters >>= fun c => clearStabilities o.stabilities >>= fun s =>
          k { o with labels := .null, outliers := .null, mst := .null, constraints := .null, hierarchy := .null, clusters := c, stabilities := s }) := by
    refine Kills.skip (f := o.parts) (Tri.use o.self) (by simp only [Obj.own]) fun _ _ => ?_
    refine Kills.skip (f := {o.self} + D + C + T + o.outliers.own (fun b => {b}) + o.mst.own GraphB.own + o.constraints.own ListB.own + o.hierarchy.own (TableB.own EntryB.own))
      (tri_whenSet (fun b => Tri.free b) h.labels) (by simp only [Obj.parts, Obj.results, D, C, T]; abel) fun _ _ => ?_
    refine Kills.skip (f := {o.self} + D + C + T + o.mst.own GraphB.own + o.constraints.own ListB.own + o.hierarchy.own (TableB.own EntryB.own))
      (tri_whenSet (fun b => Tri.free b) h.outliers) (by abel) fun _ _ => ?_
    refine Kills.skip (f := {o.self} + D + C + T + o.constraints.own ListB.own + o.hierarchy.own (TableB.own EntryB.own))
      (tri_whenSet tri_graphDestroy h.mst) (by abel) fun _ _ => ?_
    refine Kills.skip (f := {o.self} + D + C + T + o.hierarchy.own (TableB.own EntryB.own))
      (tri_whenSet tri_listDelete h.constraints) (by abel) fun _ _ => ?_
    exact Kills.here (f := {o.self} + D + C + T) (tri_whenSet (tri_tableDestroy tri_entryDestroy) h.hierarchy) (by abel) (fun _ hb => hb) fun _ =>
      Stays.bind (stays_clearClusters _) fun _ => Stays.bind (stays_clearStabilities _) fun _ => hk _
  refine key hp hh rest hl b h' ?_
  rw [← e]
  simp only [minimalClean, bind_assoc, pure_bind]

theorem kills_rerun (s : Shape) {o : Obj} (h : o.AllSet) : Kills (o.hierarchy.own (TableB.own EntryB.own)) o.own (rerun s o) := kills_minimalClean h (stays_rerunTail s)

theorem kills_clean {o : Obj} (h : o.AllSet) : Kills (o.hierarchy.own (TableB.own EntryB.own)) o.own (clean o) := by
  refine Kills.skip (f := o.parts) (Tri.use o.self) (by simp only [Obj.own]) fun _ _ => ?_
  let R := o.results + o.clusters.own ClustersB.own + o.stabilities.own (TableB.own (fun _ => 0))
  refine Kills.skip (f := {o.self} + o.core.own (fun b => {b}) + R) (tri_whenSet (fun b => Tri.free b) h.distances) (by simp only [Obj.parts, R]; abel) fun _ _ => ?_
  refine Kills.skip (f := {o.self} + R) (tri_whenSet (fun b => Tri.free b) h.core) (by abel) fun _ _ => ?_
  have h' : ({ o with distances := .null, core := .null } : Obj).AllSet := ⟨trivial, trivial, h.mst, h.constraints, h.clusters, h.outliers, h.labels, h.hierarchy, h.stabilities⟩
  have := kills_minimalClean h' (k := fun o1 => whenSet o1.clusters (fun c => listDelete c.list) >>= fun _ => whenSet o1.stabilities (tableDestroy (fun _ => pure ())) >>= fun _ =>
    pure { o1 with clusters := .null, stabilities := .null }) fun o1 => Stays.bind (stays_whenSet (fun _ => stays_listDelete _) _) fun _ =>
      Stays.bind (stays_whenSet (fun _ => stays_tableDestroy (fun _ => Stays.pure _) _) _) fun _ => Stays.pure _
  have e : ({ o with distances := .null, core := .null } : Obj).own = 0 + ({o.self} + R) := by simp only [Obj.own, Obj.parts, Obj.results, Ptr.own, R]; abel
  rw [e] at this
  exact this

/-! ### Sessions -/

theorem tri_addGroups_len : ∀ (k : Nat) (t : TableB ListB), Tri (t.own ListB.own) (addGroups k t) (TableB.own ListB.own) (fun t' => t'.nodes.length = t.nodes.length + k)
  | 0, t => Tri.pure rfl rfl
  | k + 1, t => by
    refine Tri.bind (f := t.own ListB.own) tri_listInit (by abel) fun e _ => ?_
    have hi : Tri (t.own ListB.own + e.own) (tableInsert t e) (TableB.own ListB.own) (fun t' => t'.nodes.length = t.nodes.length + 1) := by
      refine Tri.bind (f := t.own ListB.own + e.own) Tri.alloc (by abel) fun a _ => ?_
      refine Tri.bind (f := {a} + (t.own ListB.own + e.own)) Tri.alloc (by abel) fun b _ => ?_
      refine Tri.bind (f := {b} + ({a} + (t.own ListB.own + e.own))) Tri.alloc (by abel) fun c _ => ?_
      exact Tri.pure (by simp only [TableB.own, owns_cons, NodeB.own]; abel) rfl
    refine Tri.bind (f := 0) hi (by abel) fun t' ht' => ?_
    exact Tri.frame (f := 0) (tri_addGroups_len k t') (by abel) fun t2 h2 => ⟨by abel, by rw [h2, ht']; omega⟩

theorem card_lists (l : List (NodeB ListB)) : (owns (NodeB.own ListB.own) l).card = 5 * l.length := by
  induction l with
  | nil => rfl
  | cons a l ih => rw [owns_cons, Multiset.card_add, ih, List.length_cons]; simp [NodeB.own, ListB.own]; omega

theorem card_map (t : TableB ListB) : (t.own ListB.own).card = 4 + 5 * t.nodes.length := by
  rw [TableB.own, Multiset.card_add, card_lists]
  simp [ListB.own]

theorem leakMap_grows (k : Nat) {h : Heap} (hh : HeapOk h) : ∃ h' L, leakMap k h = .ok ((), h') ∧ HeapOk h' ∧ h'.live = h.live + L ∧ L.card = 4 + 5 * k := by
  obtain ⟨t, h1, e1, o1, _, l1, z1⟩ : ∃ t h1, (tableInit : M (TableB ListB)) h = .ok (t, h1) ∧ HeapOk h1 ∧ h.fresh ≤ h1.fresh ∧ h1.live = t.own ListB.own + h.live ∧ t.nodes = [] := by
    have ht : Tri 0 (tableInit : M (TableB ListB)) (TableB.own ListB.own) (fun t => t.nodes = []) := ?_
    · exact ht h hh h.live (by abel)
    refine Tri.bind (f := 0) Tri.alloc (by abel) fun a _ => ?_
    refine Tri.bind (f := {a}) Tri.alloc (by abel) fun b _ => ?_
    refine Tri.bind (f := {a} + {b}) tri_listInit (by abel) fun l _ => ?_
    exact Tri.pure (by simp only [TableB.own, owns_nil]; abel) rfl
  obtain ⟨t2, h2, e2, o2, _, l2, z2⟩ := tri_addGroups_len k t h1 o1 h.live l1
  refine ⟨h2, t2.own ListB.own, (bind_ok e1).trans ((bind_ok e2).trans rfl), o2, by rw [l2]; abel, ?_⟩
  rw [card_map, z2, z1]; simp

/-- The state of `scan` between calls; `lost` is what nobody points to. -/
def PInv (ph : Option Phase) (scan : Option Obj) (h : Heap) (base lost : Multiset Nat) : Prop :=
  match ph, scan with
  | none, none => HeapOk h ∧ h.live = base + lost
  | some p, some o => p ≠ .gone ∧ Inv p o h base lost
  | _, _ => False

theorem PInv.heap {ph : Option Phase} {scan : Option Obj} {h : Heap} {base lost : Multiset Nat} (hi : PInv ph scan h base lost) : HeapOk h := by
  cases ph <;> cases scan
  · exact hi.1
  · exact hi.elim
  · exact hi.elim
  · exact hi.2.heap

/-- Where a call leads, if it returns. -/
def pyNext : Option Phase → PyCall → Option (Option Phase)
  | _, .construct => some (some .new)
  | some .ready, .drop => some (some .cleaned)
  | some .cleaned, .drop => some (some .cleaned)
  | some _, .run _ n => if 5 ≤ n then some (some .ready) else none
  | some .ready, .rerun _ => some (some .ready)
  | some p, .clusterMap _ => some (some p)
  | _, _ => none

/-- How many blocks are forgotten at a call. -/
def loss (scan : Option Obj) : PyCall → Nat
  | .construct => (scan.elim 0 Obj.own).card
  | .run _ _ => (scan.elim 0 Obj.parts).card
  | .clusterMap k => 4 + 5 * k
  | _ => 0

theorem forget_scan {ph : Option Phase} {scan : Option Obj} {h : Heap} {base lost : Multiset Nat} (hi : PInv ph scan h base lost) : h.live = base + (lost + scan.elim 0 Obj.own) := by
  cases ph <;> cases scan
  · rw [hi.2]; simp
  · exact hi.elim
  · exact hi.elim
  · rename_i p o
    rw [hi.2.live, if_neg hi.1]
    show o.own + base + lost = base + (lost + o.own)
    abel

theorem Inv.rebase {p : Phase} {o : Obj} {h : Heap} {b b' l l' : Multiset Nat} (hi : Inv p o h b l) (e : b + l = b' + l') : Inv p o h b' l' :=
  ⟨hi.heap, by rw [hi.live, add_assoc, e, add_assoc], hi.new, hi.ready, hi.cleaned, hi.gone⟩

/-- A call that is defined, and what it loses. -/
theorem pyStep_defined {ph q : Option Phase} {scan : Option Obj} {h : Heap} {base lost : Multiset Nat} (hi : PInv ph scan h base lost) {c : PyCall} (hn : pyNext ph c = some q) :
    ∃ scan' h' L, pyStep scan c h = .ok (scan', h') ∧ PInv q scan' h' base (lost + L) ∧ L.card = loss scan c := by
  cases c with
  | construct =>
    have hq : q = some .new := by simp only [pyNext, Option.some.injEq] at hn; exact hn.symm
    subst hq
    obtain ⟨o, h', e, i⟩ := init_inv hi.heap
    exact ⟨some o, h', scan.elim 0 Obj.own, (bind_ok e).trans rfl, ⟨nofun, i.rebase (by rw [add_zero, forget_scan hi])⟩, rfl⟩
  | _ =>
    cases ph with
    | none => cases hn
    | some p =>
      cases scan with
      | none => exact hi.elim
      | some o =>
        obtain ⟨hp, hi⟩ := hi
        first
        | -- drop
          have hs : q = some .cleaned ∧ o.AllSet := by
            cases p with
            | new => cases hn
            | ready => cases hn; exact ⟨rfl, Ready.set (hi.ready rfl)⟩
            | cleaned => cases hn; exact ⟨rfl, AllNull.set (hi.cleaned rfl)⟩
            | gone => exact absurd rfl hp
          obtain ⟨rfl, hs⟩ := hs
          obtain ⟨o', h', e, i⟩ := clean_inv hi hp hs
          exact ⟨some o', h', 0, (bind_ok e).trans rfl, ⟨nofun, by rw [add_zero]; exact i⟩, rfl⟩
        | -- run
          rename_i s n
          have hs : q = some .ready ∧ 5 ≤ n := by
            by_cases h5 : 5 ≤ n
            · cases p <;> simp only [pyNext, if_pos h5, Option.some.injEq] at hn <;> exact ⟨hn.symm, h5⟩
            · cases p <;> simp only [pyNext, if_neg h5] at hn <;> cases hn
          obtain ⟨rfl, h5⟩ := hs
          obtain ⟨o', h', e, i⟩ := run_inv hi hp (ready_constraints hi hp) s h5
          exact ⟨some o', h', o.parts, (bind_ok e).trans rfl, ⟨nofun, i⟩, rfl⟩
        | -- rerun
          rename_i s
          have hs : q = some .ready ∧ p = .ready := by
            cases p with
            | ready => cases hn; exact ⟨rfl, rfl⟩
            | new => cases hn
            | cleaned => cases hn
            | gone => exact absurd rfl hp
          obtain ⟨rfl, rfl⟩ := hs
          obtain ⟨o', h', e, i⟩ := step_defined hi (c := .rerun s) rfl
          exact ⟨some o', h', 0, (bind_ok e).trans rfl, ⟨nofun, by rw [add_zero]; exact i⟩, rfl⟩
        | -- clusterMap
          rename_i k
          have hs : q = some p := by cases p <;> cases hn <;> rfl
          subst hs
          obtain ⟨h', L, e, ho, hl, hc⟩ := leakMap_grows k hi.heap
          refine ⟨some o, h', L, (bind_ok (use_live (hi.self_live hp))).trans ((bind_ok e).trans rfl), ⟨hp, ho, ?_, hi.new, hi.ready, hi.cleaned, fun hg => absurd hg hp⟩, hc⟩
          rw [hl, hi.live]; abel

/-- A call that returns is defined. -/
theorem pyStep_returns {ph : Option Phase} {scan scan' : Option Obj} {h h' : Heap} {base lost : Multiset Nat} (hi : PInv ph scan h base lost) {c : PyCall}
    (e : pyStep scan c h = .ok (scan', h')) : ∃ q, pyNext ph c = some q := by
  cases ph with
  | none =>
    cases scan with
    | some o => exact hi.elim
    | none => cases c <;> first | exact ⟨_, rfl⟩ | cases e
  | some p =>
    cases scan with
    | none => exact hi.elim
    | some o =>
      obtain ⟨hp, hi⟩ := hi
      have key : ∀ c0 : Call, (∃ o1, step o c0 h = .ok (o1, h')) → (∃ r, next p c0 = some r) ∨ Lax p c0 := by
        intro c0 ⟨o1, e0⟩
        cases hn : next p c0 with
        | some r => exact .inl ⟨r, rfl⟩
        | none =>
          by_cases hl : Lax p c0
          · exact .inr hl
          · rcases step_bad hi hn hl with ⟨w, e1⟩ | ⟨w, _, _, _, _, e1⟩ <;> (rw [e1] at e0; cases e0)
      have un : ∀ {m : M Obj}, (m >>= fun o' => pure (some o')) h = .ok (scan', h') → ∃ o1, m h = .ok (o1, h') := by
        intro m e
        have e' : (m h >>= fun x => (pure (some x.1) : M (Option Obj)) x.2) = .ok (scan', h') := e
        obtain ⟨⟨o1, h1⟩, e1, e2⟩ := Outcome.bind_eq_ok.1 e'
        cases e2
        exact ⟨o1, e1⟩
      cases c with
      | construct => exact ⟨_, rfl⟩
      | drop =>
        have := key .clean (un e)
        cases p with
        | new => rcases this with ⟨r, hr⟩ | hr; cases hr; exact hr.elim
        | ready => exact ⟨_, rfl⟩
        | cleaned => exact ⟨_, rfl⟩
        | gone => exact absurd rfl hp
      | run s n =>
        have h5 : 5 ≤ n := by
          have := key (.run s n) (un e)
          cases p with
          | new => rcases this with ⟨r, hr⟩ | hr; simp only [next] at hr; split at hr; assumption; cases hr; exact hr.elim
          | cleaned => rcases this with ⟨r, hr⟩ | hr; simp only [next] at hr; split at hr; assumption; cases hr; exact hr.elim
          | ready => rcases this with ⟨r, hr⟩ | hr; cases hr; exact hr
          | gone => exact absurd rfl hp
        exact ⟨some .ready, by cases p <;> simp only [pyNext, if_pos h5]⟩
      | rerun s =>
        have := key (.rerun s) (un e)
        cases p with
        | new => rcases this with ⟨r, hr⟩ | hr; cases hr; exact hr.elim
        | ready => exact ⟨_, rfl⟩
        | cleaned => rcases this with ⟨r, hr⟩ | hr; cases hr; exact hr.elim
        | gone => exact absurd rfl hp
      | clusterMap k => exact ⟨some p, by cases p <;> rfl⟩

def present (scan : Option Obj) : Nat := if scan.isSome then 1 else 0

theorem own_pos (o : Obj) : 1 ≤ o.own.card := Multiset.card_pos_iff_exists_mem.2 ⟨_, own_self o⟩

theorem pyStep_budget {ph : Option Phase} {scan scan' : Option Obj} {h h' : Heap} {base lost : Multiset Nat} (hi : PInv ph scan h base lost) {c : PyCall}
    (e : pyStep scan c h = .ok (scan', h')) : ∃ q lost', PInv q scan' h' base lost' ∧ lost.card + present scan + leaked c ≤ lost'.card + present scan' := by
  obtain ⟨q, hq⟩ := pyStep_returns hi e
  obtain ⟨s1, h1, L, e1, i1, hL⟩ := pyStep_defined hi hq
  rw [e1] at e
  cases e
  refine ⟨q, lost + L, i1, ?_⟩
  rw [Multiset.card_add, hL]
  have hsome : scan' ≠ none → present scan' = 1 := fun h => by cases scan' with
    | none => exact absurd rfl h
    | some o => rfl
  have hle : present scan ≤ present scan' := by
    cases scan with
    | none => exact Nat.zero_le _
    | some o =>
      rw [hsome ?_]
      · exact Nat.le_refl 1
      · intro hz
        subst hz
        cases q with
        | some _ => exact i1.elim
        | none => cases ph with
          | none => exact hi.elim
          | some p => cases p <;> cases c <;> simp only [pyNext] at hq <;> first | (split at hq <;> cases hq) | cases hq
  cases c with
  | construct =>
    have h1' : present scan' = 1 := hsome (by rintro rfl; cases hq; exact i1.elim)
    have : present scan ≤ (scan.elim 0 Obj.own).card := by
      cases scan with
      | none => exact Nat.zero_le _
      | some o => exact own_pos o
    show _ ≤ lost.card + (scan.elim 0 Obj.own).card + _
    simp only [leaked]
    omega
  | drop => simp only [leaked, loss]; omega
  | run s n => simp only [leaked]; omega
  | rerun s => simp only [leaked, loss]; omega
  | clusterMap k => simp only [leaked, loss]; omega

theorem pySteps_budget : ∀ {cs : List PyCall} {ph : Option Phase} {scan scan' : Option Obj} {h h' : Heap} {base lost : Multiset Nat}, PInv ph scan h base lost →
    pySteps cs scan h = .ok (scan', h') → ∃ q lost', PInv q scan' h' base lost' ∧ lost.card + present scan + leakedAll cs ≤ lost'.card + present scan'
  | [], ph, scan, scan', h, h', base, lost, hi, e => by cases e; exact ⟨ph, lost, hi, by simp [leakedAll]⟩
  | c :: r, ph, scan, scan', h, h', base, lost, hi, e => by
    have e' : (pyStep scan c h >>= fun x => pySteps r x.1 x.2) = .ok (scan', h') := e
    obtain ⟨⟨s1, h1⟩, e1, e2⟩ := Outcome.bind_eq_ok.1 e'
    obtain ⟨q1, l1, i1, b1⟩ := pyStep_budget hi e1
    obtain ⟨q2, l2, i2, b2⟩ := pySteps_budget i1 e2
    refine ⟨q2, l2, i2, ?_⟩
    simp only [leakedAll, List.map_cons, List.sum_cons] at b2 ⊢
    omega

theorem pySteps_cons {c : PyCall} {r : List PyCall} {scan s1 : Option Obj} {h h1 : Heap} (e : pyStep scan c h = .ok (s1, h1)) : pySteps (c :: r) scan h = pySteps r s1 h1 := bind_ok e

/-- Uses of an object between run and deletion. -/
theorem between_steps : ∀ {us : List PyCall} {rest : List PyCall}, (∀ c ∈ us, Between c) → ∀ {scan : Option Obj} {h : Heap} {base lost : Multiset Nat}, PInv (some .ready) scan h base lost →
    ∃ scan' h' lost', pySteps (us ++ rest) scan h = pySteps rest scan' h' ∧ PInv (some .ready) scan' h' base lost' ∧ lost'.card = lost.card + leakedAll us
  | [], rest, _, scan, h, base, lost, hi => ⟨scan, h, lost, rfl, hi, rfl⟩
  | c :: us, rest, hb, scan, h, base, lost, hi => by
    obtain ⟨hn, hl⟩ : pyNext (some .ready) c = some (some .ready) ∧ loss scan c = leaked c := by
      cases hb c List.mem_cons_self with
      | rerun s => exact ⟨rfl, rfl⟩
      | clusterMap k => exact ⟨rfl, rfl⟩
    obtain ⟨s1, h1, L, e1, i1, c1⟩ := pyStep_defined hi hn
    obtain ⟨s2, h2, l2, e2, i2, c2⟩ := between_steps (us := us) (rest := rest) (fun c hc => hb c (List.mem_cons_of_mem _ hc)) i1
    refine ⟨s2, h2, l2, (pySteps_cons e1).trans e2, i2, ?_⟩
    rw [c2, Multiset.card_add, c1, hl]
    simp only [leakedAll, List.map_cons, List.sum_cons]
    omega

theorem parts_zero {p : Phase} {o : Obj} {h : Heap} {base lost : Multiset Nat} (hi : Inv p o h base lost) (hp : p = .new ∨ p = .cleaned) : o.parts = 0 := by
  have : o.own = {o.self} := by
    rcases hp with rfl | rfl
    · exact (hi.new rfl).2.2.2.2.2
    · exact AllNull.own (hi.cleaned rfl)
  rw [Obj.own] at this
  exact left_eq_add.1 this.symm

/-- Objects one by one. -/
theorem oneByOne_steps {cs : List PyCall} (hc : OneByOne cs) : ∀ {ph : Option Phase} {scan : Option Obj} {h : Heap} {base lost : Multiset Nat}, PInv ph scan h base lost →
    (ph = none ∨ ph = some .cleaned) → ∃ scan' h' q lost', pySteps cs scan h = .ok (scan', h') ∧ PInv q scan' h' base lost' ∧ (q = none ∨ q = some .cleaned) ∧
      lost'.card + present scan' = lost.card + present scan + leakedAll cs := by
  induction hc with
  | nil => exact fun {ph scan h base lost} hi hp => ⟨scan, h, ph, lost, rfl, hi, hp, rfl⟩
  | cons s n us rest h5 hb _ ih =>
    intro ph scan h base lost hi hp
    obtain ⟨s1, h1, L1, e1, i1, c1⟩ := pyStep_defined (c := .construct) (q := some .new) hi (by cases ph <;> rfl)
    obtain ⟨s2, h2, L2, e2, i2, c2⟩ := pyStep_defined (c := .run s n) (q := some .ready) i1 (by simp only [pyNext, if_pos h5])
    obtain ⟨s3, h3, l3, e3, i3, c3⟩ := between_steps (rest := .drop :: rest) hb i2
    obtain ⟨s4, h4, L4, e4, i4, c4⟩ := pyStep_defined (c := .drop) (q := some .cleaned) i3 rfl
    obtain ⟨s5, h5', q, l5, e5, i5, hq, c5⟩ := ih i4 (.inr rfl)
    refine ⟨s5, h5', q, l5, (pySteps_cons e1).trans ((pySteps_cons e2).trans (e3.trans ((pySteps_cons e4).trans e5))), i5, hq, ?_⟩
    have hz2 : L2.card = 0 := by
      rw [c2]
      cases s1 with
      | none => rfl
      | some o => show o.parts.card = 0; rw [parts_zero i1.2 (.inl rfl)]; rfl
    have hz1 : L1.card = present scan := by
      rw [c1]
      rcases hp with rfl | rfl
      · cases scan with
        | none => rfl
        | some o => exact hi.elim
      · cases scan with
        | none => exact hi.elim
        | some o => show o.own.card = 1; rw [Obj.own, parts_zero hi.2 (.inr rfl)]; rfl
    have hz4 : L4.card = 0 := c4
    have hs4 : present s4 = 1 := by
      cases s4 with
      | none => exact i4.elim
      | some o => rfl
    rw [c5, hs4, Multiset.card_add, c3, Multiset.card_add, Multiset.card_add, hz1, hz2, hz4]
    simp only [leakedAll, List.map_cons, List.sum_cons, List.map_append, List.sum_append, leaked]
    omega

end Verif.Mem

namespace Verif.Py
open Mem Spec
variable {D W S T : Type}

/-- Where the struct is in its life. -/
def Scan.phase : Scan W S T → Option Phase
  | .null => none
  | .new _ => some .new
  | .ready _ _ => some .ready
  | .cleaned _ => some .cleaned

/-- The protocol at the level of the library. -/
def pyFollow : Option Phase → List PyCall → Option (Option Phase)
  | p, [] => some p
  | p, c :: r => (pyNext p c).bind fun q => pyFollow q r

theorem pySteps_defined : ∀ {cs : List PyCall} {ph q : Option Phase} {scan : Option Mem.Obj} {h : Heap} {base lost : Multiset Nat}, PInv ph scan h base lost → pyFollow ph cs = some q →
    ∃ scan' h' lost', pySteps cs scan h = .ok (scan', h') ∧ PInv q scan' h' base lost'
  | [], _, _, scan, h, _, lost, hi, hf => by cases hf; exact ⟨scan, h, lost, rfl, hi⟩
  | c :: r, ph, q, scan, h, base, lost, hi, hf => by
    simp only [pyFollow, Option.bind_eq_some_iff] at hf
    obtain ⟨q1, h1, h2⟩ := hf
    obtain ⟨s1, k1, L, e1, i1, _⟩ := pyStep_defined hi h1
    obtain ⟨s2, k2, l2, e2, i2⟩ := pySteps_defined i1 h2
    exact ⟨s2, k2, l2, (pySteps_cons e1).trans e2, i2⟩

theorem pyFollow_append : ∀ {cs ds : List PyCall} {p q : Option Phase}, pyFollow p cs = some q → pyFollow p (cs ++ ds) = pyFollow q ds
  | [], _, _, _, h => by cases h; rfl
  | c :: cs, ds, p, q, h => by
    simp only [pyFollow, Option.bind_eq_some_iff, List.cons_append] at h ⊢
    obtain ⟨q1, h1, h2⟩ := h
    rw [h1, Option.bind_some, pyFollow_append h2]

theorem cleanScan_phase {st st1 : State W S T} (e : cleanScan st = .ok st1) : pyNext st.scan.phase .drop = some st1.scan.phase := by
  cases hs : st.scan <;> simp only [cleanScan, hs] at e <;> cases e
  · rfl
  · rw [hs]; rfl

theorem dealloc_phase {id : Nat} {p : PyObj} {st st1 : State W S T} (e : dealloc id p st = .ok st1) : pyNext st.scan.phase .drop = some st1.scan.phase := by
  obtain ⟨s1, e1, e2⟩ := Outcome.bind_eq_ok.1 e
  obtain ⟨_, _, e3⟩ := Outcome.bind_eq_ok.1 e2
  obtain ⟨_, _, e4⟩ := Outcome.bind_eq_ok.1 e3
  obtain ⟨_, _, e5⟩ := Outcome.bind_eq_ok.1 e4
  cases e5
  exact (cleanScan_phase e1).trans rfl

theorem run_rows [CCmp W] [CCmp S] [CCmp T] {env : Api.Env D W S T} {par : Api.Par} {m : Nat} {data : List D} {rows cols : Nat} {o : Api.Obj W S T}
    (e : Api.run env par m data rows cols true = .ok o) : 5 ≤ rows := by
  obtain ⟨_, _, e2⟩ := Outcome.bind_eq_ok.1 e
  obtain ⟨_, e3, _⟩ := Outcome.bind_eq_ok.1 e2
  by_contra hc
  have : Api.csize (Api.datasetSize rows cols true) = 0 := by
    simp only [Api.datasetSize, if_true, Api.csize]; split <;> omega
  rw [this] at e3
  cases e3

/-- A call that returns keeps to the protocol of the library. -/
theorem effect_follows [CCmp W] [CCmp S] [CCmp T] {env : Api.Env D W S T} {st st1 : State W S T} {c : Call D} {r : Reply} (e : step env st c = .ok (r, st1)) (s : Shape) (k : Nat) :
    pyFollow st.scan.phase (effect st s k c) = some st1.scan.phase := by
  cases c with
  | construct id arg =>
    cases ho : st.objs id with
    | some p => simp only [step, withNew, ho] at e; cases e; simp only [effect, ho]; rfl
    | none =>
      simp only [step, withNew, ho] at e
      have one : ∀ {c0 : PyCall} {q : Option Phase}, pyNext st.scan.phase c0 = some q → pyFollow st.scan.phase [c0] = some q := fun h => by simp only [pyFollow, h, Option.bind_some]
      cases arg with
      | none =>
        obtain ⟨s1, e1, e2⟩ := Outcome.bind_eq_ok.1 e
        cases e2
        simp only [effect, ho]
        exact one (dealloc_phase e1)
      | some v =>
        simp only [effect, ho]
        simp only [construct] at e
        split at e
        · rename_i hv
          rw [if_pos hv]
          obtain ⟨s1, e1, e2⟩ := Outcome.bind_eq_ok.1 e
          cases e2
          exact one (dealloc_phase e1)
        · rename_i hv
          rw [if_neg hv]
          cases e
          exact one (by cases st.scan <;> rfl)
  | run id par a =>
    cases ho : st.objs id with
    | none => simp only [step, withObj, ho] at e; cases e; simp only [effect, ho]; rfl
    | some p =>
      simp only [step, withObj, ho, run] at e
      split at e
      · rename_i ht
        obtain ⟨⟨rows, cols⟩, e1, e2⟩ := Outcome.bind_eq_ok.1 e
        obtain ⟨m, e3, e4⟩ := Outcome.bind_eq_ok.1 e2
        obtain ⟨o, e5, e6⟩ := Outcome.bind_eq_ok.1 e4
        obtain ⟨l, e7, e8⟩ := Outcome.bind_eq_ok.1 e6
        cases e8
        simp only [effect, ho, ht, e1]
        have h5 := run_rows e5
        cases hs : st.scan with
        | null => rw [hs] at e3; cases e3
        | new _ => simp only [Scan.phase, pyFollow, pyNext, if_pos h5, Option.bind_some]; rfl
        | ready _ _ => simp only [Scan.phase, pyFollow, pyNext, if_pos h5, Option.bind_some]; rfl
        | cleaned _ => simp only [Scan.phase, pyFollow, pyNext, if_pos h5, Option.bind_some]; rfl
      · rename_i ht
        cases e
        have ht' : a.typeOk = false := by simpa using ht
        simp only [effect, ho, ht']
        rfl
  | rerun id par arg =>
    cases ho : st.objs id with
    | none => simp only [step, withObj, ho] at e; cases e; simp only [effect, ho]; rfl
    | some p =>
      simp only [step, withObj, ho, rerun] at e
      obtain ⟨l, _, e1⟩ := Outcome.bind_eq_ok.1 e
      cases ha : asInt arg with
      | none => rw [ha] at e1; simp only at e1; cases e1; simp only [effect, ho, ha]; rfl
      | some v =>
        rw [ha] at e1
        simp only [effect, ho, ha]
        simp only at e1
        split at e1
        · rename_i hv
          cases e1
          rw [if_pos hv]; rfl
        · rename_i hv
          rw [if_neg hv]
          obtain ⟨⟨o, s1⟩, e2, e3⟩ := Outcome.bind_eq_ok.1 e1
          obtain ⟨l2, _, e4⟩ := Outcome.bind_eq_ok.1 e3
          cases e4
          cases hs : st.scan with
          | null => simp only [rerunScan, hs] at e2; cases e2
          | new _ => simp only [rerunScan, hs] at e2; cases e2
          | cleaned _ => simp only [rerunScan, hs] at e2; cases e2
          | ready o0 t =>
            simp only [rerunScan, hs] at e2
            obtain ⟨o', _, e5⟩ := Outcome.bind_eq_ok.1 e2
            cases e5
            rfl
  | getClusterMap id arg =>
    cases ho : st.objs id with
    | none => simp only [step, withObj, ho] at e; cases e; simp only [effect, ho]; rfl
    | some p =>
      simp only [step, withObj, ho, getClusterMap] at e
      obtain ⟨l, _, e1⟩ := Outcome.bind_eq_ok.1 e
      cases ha : asInts arg with
      | none => rw [ha] at e1; simp only at e1; cases e1; simp only [effect, ho, ha]; rfl
      | some v =>
        rw [ha] at e1
        simp only [effect, ho, ha]
        obtain ⟨m, e2, e3⟩ := Outcome.bind_eq_ok.1 e1
        cases e3
        cases hs : st.scan with
        | null => rw [hs] at e2; cases e2
        | new _ => show _ = some st.scan.phase; rw [hs]; rfl
        | ready _ _ => show _ = some st.scan.phase; rw [hs]; rfl
        | cleaned _ => show _ = some st.scan.phase; rw [hs]; rfl
  | getHierarchies id =>
    have : st1.scan = st.scan := by
      cases ho : st.objs id with
      | none => simp only [step, withObj, ho] at e; cases e; rfl
      | some p =>
        simp only [step, withObj, ho, getHierarchies] at e
        obtain ⟨_, _, e1⟩ := Outcome.bind_eq_ok.1 e
        obtain ⟨_, _, e2⟩ := Outcome.bind_eq_ok.1 e1
        cases e2; rfl
    rw [this]; rfl
  | labels id =>
    have : st1.scan = st.scan := by
      cases ho : st.objs id with
      | none => simp only [step, withObj, ho] at e; cases e; rfl
      | some p =>
        simp only [step, withObj, ho] at e
        obtain ⟨_, _, e1⟩ := Outcome.bind_eq_ok.1 e
        cases e1; rfl
    rw [this]; rfl
  | clusterMap id =>
    have : st1.scan = st.scan := by
      cases ho : st.objs id with
      | none => simp only [step, withObj, ho] at e; cases e; rfl
      | some p =>
        simp only [step, withObj, ho] at e
        obtain ⟨_, _, e1⟩ := Outcome.bind_eq_ok.1 e
        cases e1; rfl
    rw [this]; rfl
  | hierarchy id =>
    have : st1.scan = st.scan := by
      cases ho : st.objs id with
      | none => simp only [step, withObj, ho] at e; cases e; rfl
      | some p =>
        simp only [step, withObj, ho] at e
        obtain ⟨_, _, e1⟩ := Outcome.bind_eq_ok.1 e
        cases e1; rfl
    rw [this]; rfl
  | delete id =>
    cases ho : st.objs id with
    | none => simp only [step, withObj, ho] at e; cases e; simp only [effect, ho]; rfl
    | some p =>
      simp only [step, withObj, ho] at e
      obtain ⟨s1, e1, e2⟩ := Outcome.bind_eq_ok.1 e
      cases e2
      simp only [effect, ho, pyFollow, dealloc_phase e1, Option.bind_some]

theorem effects_follow [CCmp W] [CCmp S] [CCmp T] {env : Api.Env D W S T} : ∀ {cs : List (Call D × Shape × Nat)} {st st1 : State W S T} {r : List Reply},
    session env (cs.map Prod.fst) st = .ok (r, st1) → pyFollow st.scan.phase (effects env cs st) = some st1.scan.phase
  | [], st, st1, r, e => by cases e; rfl
  | (c, s, k) :: cs, st, st1, r, e => by
    obtain ⟨⟨x, s1⟩, e1, e2⟩ := Outcome.bind_eq_ok.1 e
    obtain ⟨⟨xs, s2⟩, e3, e4⟩ := Outcome.bind_eq_ok.1 e2
    cases e4
    simp only [effects, e1]
    rw [pyFollow_append (effect_follows e1 s k)]
    exact effects_follow e3

end Verif.Py
