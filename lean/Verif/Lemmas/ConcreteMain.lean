import Verif.Lemmas.ConcreteHier
import Verif.Lemmas.ConcreteTable
/-
Helper lemmas: the levels of the hierarchy on containers, the adjacency lists, and the whole construction.
-/
namespace Verif.Conc
open Spec AList
variable {W S : Type}

theorem rd_inv {α : Type} {a : List α} {i : Nat} {x : α} (e : rd a i = .ok x) : i < a.length ∧ a[i]? = some x := by
  unfold rd at e
  cases h : a[i]? with
  | none => rw [h] at e; simp at e
  | some y =>
    rw [h] at e
    simp only [Outcome.ok.injEq] at e
    subst e
    refine ⟨?_, rfl⟩
    by_contra hn
    rw [List.getElem?_eq_none (by omega)] at h
    simp at h

/-! ### Removing edges -/

theorem removeEdge_rel {adj : List (AList Nat)} {g : Graph W} (ha : AdjRel adj g.edges) (hn : g.edges.length ≤ 2147483648) (a b : Nat) :
    Refines (fun x (y : Graph W) => AdjRel x y.edges ∧ y.edges.length = g.edges.length) (removeEdge adj a b) (g.removeEdge a b) := by
  intro y e
  unfold Graph.removeEdge at e
  obtain ⟨la, e1, e⟩ := Outcome.bind_eq_ok.1 e
  obtain ⟨ed1, e2, e⟩ := Outcome.bind_eq_ok.1 e
  obtain ⟨lb, e3, e⟩ := Outcome.bind_eq_ok.1 e
  obtain ⟨ed2, e4, e⟩ := Outcome.bind_eq_ok.1 e
  simp only [Outcome.pure_eq, Outcome.ok.injEq] at e
  have h1 := (rd_inv e1).1
  have h2 := (rd_inv e3).1
  have l1 : ed1.length = g.edges.length := by rw [(wr_inv e2).2]; simp
  have l2 : ed2.length = ed1.length := by rw [(wr_inv e4).2]; simp
  obtain ⟨ca, c1, r1⟩ := Refines.rd ha a la e1
  obtain ⟨t1, ca', c2, r2⟩ := r1.remove (x := b) (by omega)
  obtain ⟨adj1, c3, r3⟩ := Refines.wr ha a r2 ed1 e2
  obtain ⟨cb, c4, r4⟩ := Refines.rd r3 b lb e3
  obtain ⟨t2, cb', c5, r5⟩ := r4.remove (x := a) (by omega)
  obtain ⟨adj2, c6, r6⟩ := Refines.wr r3 b r5 ed2 e4
  refine ⟨adj2, ?_, ?_⟩
  · unfold removeEdge
    rw [c1, Outcome.ok_bind, c2, Outcome.ok_bind]
    simp only
    rw [c3, Outcome.ok_bind, c4, Outcome.ok_bind, c5, Outcome.ok_bind]
    exact c6
  · subst e
    exact ⟨r6, by rw [l2, l1]⟩

/-- State of the removal of edges. -/
structure RemRel (N : Nat) (r : Removal) (p : Hier.Removal) : Prop where
  k : r.k = p.k
  adj : AdjRel r.adj p.adj
  len : p.adj.length = N
  affV : URep r.affV p.affV
  affL : URep r.affL p.affL

theorem removeOne_rel {N : Nat} (hN : N ≤ 2147483648) (va vb : List Nat) {cur : List Nat} (hcur : ∀ x ∈ cur, x < 2147483648) (k : Nat) {r : Removal}
    {p : Hier.Removal} (h : RemRel N r p) : Refines (RemRel N) (removeOne va vb cur k r) (Hier.removeOne va vb cur k p) := by
  unfold removeOne Hier.removeOne
  intro y e
  obtain ⟨a, e1, e⟩ := Outcome.bind_eq_ok.1 e
  obtain ⟨b, e2, e⟩ := Outcome.bind_eq_ok.1 e
  obtain ⟨g, e3, e⟩ := Outcome.bind_eq_ok.1 e
  obtain ⟨la, e4, e⟩ := Outcome.bind_eq_ok.1 e
  have hla : la < 2147483648 := hcur la (List.mem_of_getElem? (rd_inv e4).2)
  have hlen : p.adj.length ≤ 2147483648 := by rw [h.len]; exact hN
  have hab : a < 2147483648 ∧ b < 2147483648 := by
    unfold Graph.removeEdge at e3
    obtain ⟨_, f1, e3⟩ := Outcome.bind_eq_ok.1 e3
    obtain ⟨ed, f2, e3⟩ := Outcome.bind_eq_ok.1 e3
    obtain ⟨_, f3, _⟩ := Outcome.bind_eq_ok.1 e3
    have g1 := (rd_inv f1).1
    have g2 := (rd_inv f3).1
    have g3 : ed.length = p.adj.length := by rw [(wr_inv f2).2]; simp
    simp only at g1
    omega
  obtain ⟨adj', c1, r1, r2⟩ := removeEdge_rel (W := Unit)
    (g := { numVertices := 0, va := va, vb := vb, wt := ([] : List Unit), edges := p.adj }) h.adj hlen a b g e3
  rw [e1, Outcome.ok_bind, e2, Outcome.ok_bind, c1, Outcome.ok_bind, e4, Outcome.ok_bind]
  simp only at r2
  by_cases c : la = 0
  · rw [if_pos c] at e ⊢
    cases e
    exact ⟨_, rfl, rfl, r1, by rw [← h.len]; exact r2, h.affV, h.affL⟩
  · rw [if_neg c] at e ⊢
    cases e
    obtain ⟨v1, d1, k1⟩ := h.affV.put hab.1
    obtain ⟨v2, d2, k2⟩ := k1.put hab.2
    obtain ⟨l, d3, k3⟩ := h.affL.put hla
    rw [d1, Outcome.ok_bind, d2, Outcome.ok_bind, d3]
    exact ⟨_, rfl, rfl, r1, by rw [← h.len]; exact r2, k2, k3⟩

theorem removeTied_rel [CCmp W] {N : Nat} (hN : N ≤ 2147483648) (va vb : List Nat) (wt : List W) {cur : List Nat} (hcur : ∀ x ∈ cur, x < 2147483648) (w : W) :
    ∀ (k : Nat) {r : Removal} {p : Hier.Removal}, RemRel N r p → Refines (RemRel N) (removeTied va vb wt cur w k r) (Hier.removeTied va vb wt cur w k p) := by
  intro k
  induction k with
  | zero => intro r p h; exact .ok h
  | succ k ih =>
    intro r p h
    simp only [removeTied, Hier.removeTied]
    refine Refines.bind (R := fun a b => a = b) (fun b e => ⟨b, e, rfl⟩) ?_
    rintro t _ _ rfl
    by_cases c : CCmp.eq t w = true
    · rw [if_pos c, if_pos c]
      refine Refines.bind (removeOne_rel hN va vb hcur k h) ?_
      intro a b _ hab
      exact ih hab
    · rw [if_neg c, if_neg c]
      exact .ok h

/-! ### Lines of the hierarchy -/

/-- The position of the line with a given number. -/
def lineMap {β : Type} (lines : List (Nat × β)) (k : Int) : Option Nat := lines.findIdx? (fun l => decide ((l.1 : Int) = k))

theorem lineMap_append {β : Type} {lines : List (Nat × β)} {key : Nat} (x : β) (h : ∀ l ∈ lines, l.1 ≠ key) :
    lineMap (lines ++ [(key, x)]) = fun k => if k = (key : Int) then some lines.length else lineMap lines k := by
  funext k
  unfold lineMap
  rw [List.findIdx?_append]
  by_cases hk : k = (key : Int)
  · subst hk
    rw [if_pos rfl]
    have hn : lines.findIdx? (fun l => decide ((l.1 : Int) = (key : Int))) = none := by
      rw [List.findIdx?_eq_none_iff]
      intro l hl
      have := h l hl
      simp only [decide_eq_false_iff_not]
      omega
    rw [hn]
    simp
  · rw [if_neg hk]
    have hn : [(key, x)].findIdx? (fun l => decide ((l.1 : Int) = k)) = none := by
      rw [List.findIdx?_eq_none_iff]
      intro l hl
      simp only [List.mem_singleton] at hl
      subst hl
      simp only [decide_eq_false_iff_not]
      omega
    rw [hn]
    cases List.findIdx? (fun l => decide ((l.1 : Int) = k)) lines <;> rfl

/-- The hash table of lines. -/
structure LinesRel (table : HTable.Table Int) (entries : List (W × List Nat)) (lines : List (Nat × W × List Nat)) : Prop where
  table : ∃ ks, TRel table (lineMap lines) ks
  entries : entries = lines.map (·.2)
  nodup : (lines.map (·.1)).Nodup

theorem writeLine_rel {table : HTable.Table Int} {entries : List (W × List Nat)} {lines : List (Nat × W × List Nat)} (h : LinesRel table entries lines)
    (key : Nat) (w : W) (labels : List Nat) (hk : ∀ l ∈ lines, l.1 ≠ key) :
    ∃ t es, writeLine table entries (key : Int) w labels = .ok (t, es) ∧ LinesRel t es (lines ++ [(key, w, labels)]) := by
  obtain ⟨ks, ht⟩ := h.table
  obtain ⟨t', e, ht'⟩ := ht.insert (key : Int) entries.length
  refine ⟨t', entries ++ [(w, labels)], by unfold writeLine; rw [e]; rfl, ⟨setInsert intCompare ks (key : Int), ?_⟩, ?_, ?_⟩
  · rw [lineMap_append (w, labels) hk]
    have : entries.length = lines.length := by rw [h.entries]; simp
    rw [← this]
    exact ht'
  · rw [h.entries]; simp
  · rw [List.map_append, List.nodup_append]
    refine ⟨h.nodup, by simp, ?_⟩
    intro x hx y hy
    simp only [List.map_cons, List.map_nil, List.mem_singleton] at hy
    obtain ⟨l, hl, rfl⟩ := List.mem_map.1 hx
    rw [hy]
    exact hk l hl

/-! ### Offsets -/

theorem offsets_rel (lc : Nat) : ∀ (fs : List Nat) (fl : List Nat) {heap : List (CCl W S)} {ptrs : List (Option Nat)} {cs : List (Option (Cl W S))},
    CRel heap ptrs cs → (∀ (l a : Nat), ptrs[l]? = some (some a) → a < heap.length) → List.Forall₂ (fun a l => ptrAt ptrs l = some a) fs fl →
    Refines (fun (heap' : List (CCl W S)) cs' => CRel heap' ptrs cs' ∧ heap'.length = heap.length ∧ cs'.length = cs.length)
      (fs.foldlM (fun s a => setOffset lc a s) heap) (Hier.setOffsets lc fl cs) := by
  intro fs
  induction fs with
  | nil =>
    intro fl heap ptrs cs hcr _ hf
    cases hf
    exact .ok ⟨hcr, rfl, rfl⟩
  | cons a fs ih =>
    intro fl heap ptrs cs hcr hin hf
    cases hf with
    | @cons _ l _ fl' hal hrest =>
    intro y e
    simp only [Hier.setOffsets] at e
    obtain ⟨pc, e1, e⟩ := Outcome.bind_eq_ok.1 e
    obtain ⟨cs', e2, e⟩ := Outcome.bind_eq_ok.1 e
    obtain ⟨hl, rfl⟩ := wr_inv e2
    have e1' : cs[l]? = some (some pc) := by
      unfold getCl at e1
      obtain ⟨o, e3, e4⟩ := Outcome.bind_eq_ok.1 e1
      cases o with
      | none => simp at e4
      | some z =>
        simp only [Outcome.pure_eq, Outcome.ok.injEq] at e4
        subst e4
        exact (rd_inv e3).2
    obtain ⟨a', c, h1, h2, h3⟩ := hcr.cell l pc e1'
    have haa : a' = a := by
      rw [ptrAt_some] at hal
      rw [hal] at h1
      simpa using h1.symm
    subst haa
    have ha : a' < heap.length := hin l a' h1
    have hcr' := hcr.set h1 (c := { c with offset := lc }) (p := { pc with offset := lc }) { h3 with offset := rfl } ha
    obtain ⟨heap2, e5, h5, h6, h7⟩ := ih fl' hcr' (by intro k b hb; rw [List.length_set]; exact hin k b hb) hrest y e
    refine ⟨heap2, ?_, h5, by rw [h6, List.length_set], by rw [h7, List.length_set]⟩
    rw [List.foldlM_cons]
    have e6 : setOffset lc a' heap = .ok (heap.set a' { c with offset := lc }) := by
      unfold setOffset deref
      have : rd heap a' = .ok c := by unfold rd; rw [h2]
      rw [this, Outcome.ok_bind, wr_ok ha]
    rw [e6]
    exact e5

/-! ### The list of clusters only grows -/

theorem newCluster_grow {ar : Arith W S} {ps : List Nat} {label : Nat} {level : W} {p p' : Hier.Work W S}
    (e : Hier.newCluster ar ps label level p = .ok p') : p'.clusters.length = p.clusters.length + 1 := by
  unfold Hier.newCluster at e
  obtain ⟨cur', e1, e⟩ := Outcome.bind_eq_ok.1 e
  obtain ⟨pc, e2, e⟩ := Outcome.bind_eq_ok.1 e
  obtain ⟨cs, e3, e⟩ := Outcome.bind_eq_ok.1 e
  simp only [Outcome.pure_eq, Outcome.ok.injEq] at e
  subst e
  rw [(wr_inv e3).2]
  simp

theorem newNoise_grow {ar : Arith W S} {ps : List Nat} {label : Nat} {level : W} {p p' : Hier.Work W S}
    (e : Hier.newNoise ar ps label level p = .ok p') : p'.clusters.length = p.clusters.length := by
  unfold Hier.newNoise at e
  obtain ⟨cur', e1, e⟩ := Outcome.bind_eq_ok.1 e
  obtain ⟨pc, e2, e⟩ := Outcome.bind_eq_ok.1 e
  obtain ⟨cs, e3, e⟩ := Outcome.bind_eq_ok.1 e
  obtain ⟨noise', e4, e⟩ := Outcome.bind_eq_ok.1 e
  obtain ⟨last', e5, e⟩ := Outcome.bind_eq_ok.1 e
  simp only [Outcome.pure_eq, Outcome.ok.injEq] at e
  subst e
  rw [(wr_inv e3).2]
  simp

theorem setOffsets_grow (lc : Nat) : ∀ (fl : List Nat) {cs cs' : List (Option (Cl W S))}, Hier.setOffsets lc fl cs = .ok cs' → cs'.length = cs.length := by
  intro fl
  induction fl with
  | nil => intro cs cs' e; cases e; rfl
  | cons l fl ih =>
    intro cs cs' e
    simp only [Hier.setOffsets] at e
    obtain ⟨pc, e1, e⟩ := Outcome.bind_eq_ok.1 e
    obtain ⟨cs1, e2, e⟩ := Outcome.bind_eq_ok.1 e
    rw [ih e, (wr_inv e2).2]
    simp

theorem settle_grow {ar : Arith W S} {minPoints label : Nat} {level : W} {p p' : Hier.Ex} {q q' : Hier.Work W S}
    (e : Hier.settle ar minPoints label level p q = .ok (p', q')) : q.clusters.length ≤ q'.clusters.length := by
  unfold Hier.settle at e
  split at e
  · split at e
    · simp at e
    · split at e
      · simp only [Outcome.ok.injEq, Prod.mk.injEq] at e
        rw [← e.2]
      · obtain ⟨w, e1, e⟩ := Outcome.bind_eq_ok.1 e
        simp only [Outcome.pure_eq, Outcome.ok.injEq, Prod.mk.injEq] at e
        rw [← e.2, newCluster_grow e1]
        omega
  · split at e
    · obtain ⟨w, e1, e⟩ := Outcome.bind_eq_ok.1 e
      simp only [Outcome.pure_eq, Outcome.ok.injEq, Prod.mk.injEq] at e
      rw [← e.2, newNoise_grow e1]
    · simp only [Outcome.ok.injEq, Prod.mk.injEq] at e
      rw [← e.2]

theorem roots_grow {ar : Arith W S} {padj : List (List Nat)} {minPoints label : Nat} {level : W} : ∀ (fuel : Nat) {p p' : Hier.Ex} {q q' : Hier.Work W S},
    Hier.roots ar padj minPoints label level fuel p q = .ok (p', q') → q.clusters.length ≤ q'.clusters.length := by
  intro fuel
  induction fuel with
  | zero =>
    intro p p' q q' e
    simp only [Hier.roots] at e
    split at e
    · simp only [Outcome.ok.injEq, Prod.mk.injEq] at e; rw [← e.2]
    · simp at e
  | succ fuel ih =>
    intro p p' q q' e
    simp only [Hier.roots] at e
    split at e
    · simp only [Outcome.ok.injEq, Prod.mk.injEq] at e; rw [← e.2]
    · obtain ⟨e1, _, e⟩ := Outcome.bind_eq_ok.1 e
      obtain ⟨⟨e2, w2⟩, h1, e⟩ := Outcome.bind_eq_ok.1 e
      exact (settle_grow h1).trans (ih e)

theorem finish_grow {ar : Arith W S} {padj : List (List Nat)} {label : Nat} {level : W} {p : Hier.Ex} {q q' : Hier.Work W S}
    (e : Hier.finish ar padj label level p q = .ok q') : q.clusters.length ≤ q'.clusters.length := by
  unfold Hier.finish at e
  split at e
  · obtain ⟨dd, _, e⟩ := Outcome.bind_eq_ok.1 e
    obtain ⟨l, _, e⟩ := Outcome.bind_eq_ok.1 e
    split at e
    · obtain ⟨f, _, e⟩ := Outcome.bind_eq_ok.1 e
      rw [newCluster_grow e]; omega
    · simp only [Outcome.pure_eq, Outcome.ok.injEq] at e; rw [e]
  · simp only [Outcome.ok.injEq] at e; rw [e]

theorem clustersLoop_grow {ar : Arith W S} {padj : List (List Nat)} {minPoints : Nat} {level : W} : ∀ (fuel : Nat) {pL pV pV' : List Nat} {q q' : Hier.Work W S},
    Hier.clustersLoop ar padj minPoints level fuel pL pV q = .ok (pV', q') → q.clusters.length ≤ q'.clusters.length := by
  intro fuel
  induction fuel with
  | zero =>
    intro pL pV pV' q q' e
    simp only [Hier.clustersLoop] at e
    split at e
    · simp only [Outcome.ok.injEq, Prod.mk.injEq] at e; rw [← e.2]
    · simp at e
  | succ fuel ih =>
    intro pL pV pV' q q' e
    simp only [Hier.clustersLoop] at e
    split at e
    · simp only [Outcome.ok.injEq, Prod.mk.injEq] at e; rw [← e.2]
    · obtain ⟨⟨ex, a⟩, _, e⟩ := Outcome.bind_eq_ok.1 e
      obtain ⟨⟨e1, w1⟩, h1, e⟩ := Outcome.bind_eq_ok.1 e
      obtain ⟨w2, h2, e⟩ := Outcome.bind_eq_ok.1 e
      exact (roots_grow _ h1).trans ((finish_grow h2).trans (ih e))

/-! ### Levels -/

/-- State of the main loop. -/
structure StRel (N : Nat) (st : St W S) (p : Hier.St W S) : Prop where
  adj : AdjRel st.adj p.adj
  len : p.adj.length = N
  wk : WorkRel st.wk p.wk
  next : 0 < p.wk.next
  prev : st.prev = p.prev
  lines : LinesRel st.table st.entries p.lines
  keys : ∀ l ∈ p.lines, 1 ≤ l.1 ∧ l.1 ≤ p.lineCount
  prevLt : ∀ x ∈ p.prev, x < p.wk.next
  linesLt : ∀ l ∈ p.lines, ∀ x ∈ l.2.2, x < p.wk.next
  lineCount : st.lineCount = p.lineCount
  significant : st.significant = p.significant
  affV : URep st.affV p.affV
  affL : URep st.affL []

theorem endLevel_rel {N : Nat} (compact : Bool) (w : W) {st : St W S} {p : Hier.St W S} (h : StRel N st p) :
    Refines (StRel N) (endLevel compact w st) (Hier.endLevel compact w p) := by
  intro y e
  unfold Hier.endLevel at e
  obtain ⟨cs, e1, e⟩ := Outcome.bind_eq_ok.1 e
  simp only [Outcome.pure_eq, Outcome.ok.injEq] at e
  obtain ⟨ptrs, hrep, hcr, hin, fs, hfs, hff⟩ := h.wk.clusters
  have hfl : st.wk.fresh.size = p.wk.fresh.length := by rw [hfs.size, hff.length_eq]
  have hne : decide (st.wk.fresh.size > 0) = !p.wk.fresh.isEmpty := by
    rw [hfl]
    cases p.wk.fresh <;> simp
  have hne' : decide (st.wk.fresh.size ≠ 0) = !p.wk.fresh.isEmpty := by
    rw [hfl]
    cases p.wk.fresh <;> simp
  unfold endLevel
  simp only [hne, hne', h.significant, h.lineCount, h.prev]
  set write := (!compact || p.significant || !p.wk.fresh.isEmpty) with hwrite
  have hlines : ∃ t es, maybeLine write st.table st.entries (((if write then p.lineCount + 1 else p.lineCount : Nat) : Int)) w p.prev = .ok (t, es) ∧
      LinesRel t es (if write then p.lines ++ [(if write then p.lineCount + 1 else p.lineCount, w, p.prev)] else p.lines) := by
    unfold maybeLine
    cases hw : write with
    | true =>
      simp only [if_true]
      exact writeLine_rel h.lines (p.lineCount + 1) w p.prev (fun l hl => by have := h.keys l hl; omega)
    | false =>
      simp only [Bool.false_eq_true, if_false]
      exact ⟨_, _, rfl, h.lines⟩
  obtain ⟨t, es, e2, hl2⟩ := hlines
  rw [e2]
  simp only [Outcome.ok_bind]
  obtain ⟨heap', e3, h3, h4, h5⟩ := offsets_rel _ fs p.wk.fresh hcr hin hff cs e1
  rw [forEach_rep hfs, e3]
  simp only [Outcome.ok_bind, Outcome.pure_eq]
  refine ⟨_, rfl, ?_⟩
  subst e
  refine ⟨h.adj, h.len, ⟨h.wk.cur, h.wk.next, h.wk.noise, h.wk.last, by rw [← h.wk.count]; exact h5, h.wk.labels, ⟨ptrs, hrep, h3, ?_, [], (clear_rep hfs).1, .nil⟩⟩, h.next,
    h.wk.cur, hl2, ?_, h.wk.labels, ?_, rfl, rfl, h.affV, h.affL⟩
  · intro l a hla
    show a < heap'.length
    rw [h4]
    exact hin l a hla
  · show ∀ l ∈ (if write then p.lines ++ [(if write then p.lineCount + 1 else p.lineCount, w, p.prev)] else p.lines), _
    cases hw : write with
    | true =>
      simp only [if_true]
      intro l hl
      rcases List.mem_append.1 hl with hl | hl
      · have := h.keys l hl
        omega
      · simp only [List.mem_singleton] at hl
        subst hl
        simp
    | false =>
      simp only [Bool.false_eq_true, if_false]
      exact h.keys
  · show ∀ l ∈ (if write then p.lines ++ [(if write then p.lineCount + 1 else p.lineCount, w, p.prev)] else p.lines), ∀ x ∈ l.2.2, x < p.wk.next
    cases hw : write with
    | true =>
      simp only [if_true]
      intro l hl
      rcases List.mem_append.1 hl with hl | hl
      · exact h.linesLt l hl
      · simp only [List.mem_singleton] at hl
        subst hl
        exact h.prevLt
    | false =>
      simp only [Bool.false_eq_true, if_false]
      exact h.linesLt

theorem newSets_rel : ∃ e, newSets = .ok e ∧ URep e.constr [] ∧ LRep e.unexpl [] ∧ URep e.examined [] ∧ URep e.first [] ∧ URep e.unexplFirst [] := by
  obtain ⟨s, e, h, hm⟩ := urep_init
  obtain ⟨u, eu, hu, _⟩ := rep_init (α := Nat) (n := 2) (by omega)
  unfold newSets
  rw [e]
  simp only [Outcome.ok_bind, hm, eu, Outcome.pure_eq]
  exact ⟨_, rfl, h, ⟨hu, by simp⟩, h, h, h⟩

theorem WorkRel.emptied {w : Work W S} {q : Hier.Work W S} (h : WorkRel w q) : WorkRel { w with fresh := emptied w.fresh } { q with fresh := [] } := by
  obtain ⟨ptrs, hrep, hcr, hin, fs, hfs, hff⟩ := h.clusters
  refine ⟨h.cur, h.next, h.noise, h.last, h.count, h.labels, ⟨ptrs, hrep, hcr, hin, [], ?_, .nil⟩⟩
  show Rep (Conc.emptied w.fresh) []
  unfold Conc.emptied AList.isEmpty
  by_cases h0 : w.fresh.size = 0
  · rw [if_pos (by simpa using h0)]
    have : fs = [] := by
      rw [hfs.size] at h0
      exact List.length_eq_zero_iff.1 h0
    rw [this] at hfs
    exact hfs
  · rw [if_neg (by simpa using h0)]
    exact (clear_rep hfs).1

theorem level_rel [CCmp W] {ar : Arith W S} {N : Nat} (hN : N ≤ 2147483648) (minPoints : Nat) (compact : Bool) (va vb : List Nat) (wt : List W) (k : Nat)
    {st : St W S} {p : Hier.St W S} (h : StRel N st p) (hb : p.wk.next ≤ 2147483648) :
    Refines (fun (x : Nat × St W S) (y : Nat × Hier.St W S) => x.1 = y.1 ∧ StRel N x.2 y.2)
      (level ar minPoints compact va vb wt k st) (Hier.level ar minPoints compact va vb wt k p) := by
  unfold level Hier.level
  refine Refines.bind (R := fun a b => a = b) (fun b e => ⟨b, e, rfl⟩) ?_
  rintro w _ _ rfl
  have hcur : ∀ x ∈ p.wk.cur, x < 2147483648 := fun x hx => by have := h.wk.labels x hx; omega
  simp only [h.wk.cur]
  refine Refines.bind (removeTied_rel hN va vb wt hcur w (k + 1) (r := { k := k + 1, adj := st.adj, affV := st.affV, affL := st.affL })
    ⟨rfl, h.adj, h.len, h.affV, h.affL⟩) ?_
  intro r q _ hr
  have hsz : r.affL.size < 1 ↔ q.affL = [] := by
    rw [← hr.affL.empty_iff]; omega
  have hE2 : WorkRel { st.wk with fresh := emptied st.wk.fresh, cur := p.wk.cur } { p.wk with fresh := [] } := by
    have := h.wk.emptied
    rw [← h.wk.cur]
    exact this
  by_cases c : q.affL = []
  · rw [if_pos c, if_pos (hsz.2 c)]
    have hL := hr.affL
    rw [c] at hL
    exact .ok ⟨hr.k, ⟨hr.adj, hr.len, hE2, h.next, h.prev, h.lines, h.keys, h.prevLt, h.linesLt, h.lineCount, h.significant, hr.affV, hL⟩⟩
  · rw [if_neg c, if_neg (fun e => c (hsz.1 e))]
    obtain ⟨e, e1, k1, k2, k3, k4, k5⟩ := newSets_rel
    rw [e1]
    simp only [Outcome.ok_bind]
    rw [hr.affL.size]
    refine Refines.bind (clustersLoop_rel hr.adj minPoints w q.affL.length k1 k2 k3 k4 k5 hr.affL hr.affV hE2 h.next) ?_
    rintro ⟨aL, aV, w'⟩ ⟨pV, q'⟩ eq ⟨m1, m2, m3, m4⟩
    simp only at m1 m2 m3 m4 ⊢
    have hgrow : p.wk.next ≤ q'.next := by
      have h1 := clustersLoop_grow _ eq
      have h2 := h.wk.count
      have h3 := m3.count
      simp only at h1
      omega
    refine Refines.bind (endLevel_rel compact w (N := N) (st := { st with adj := r.adj, wk := w', affV := aV, affL := aL })
      (p := { p with adj := q.adj, wk := q', affV := pV }) ⟨hr.adj, hr.len, m3, m4, h.prev, h.lines, h.keys,
        fun x hx => (h.prevLt x hx).trans_le hgrow, fun l hl x hx => (h.linesLt l hl x hx).trans_le hgrow, h.lineCount, h.significant, m2, m1⟩) ?_
    intro a b _ hab
    exact .ok ⟨hr.k, hab⟩

theorem level_grow [CCmp W] {ar : Arith W S} {minPoints : Nat} {compact : Bool} {va vb : List Nat} {wt : List W} {k k' : Nat} {p p' : Hier.St W S}
    (e : Hier.level ar minPoints compact va vb wt k p = .ok (k', p')) : p.wk.clusters.length ≤ p'.wk.clusters.length := by
  unfold Hier.level at e
  obtain ⟨w, _, e⟩ := Outcome.bind_eq_ok.1 e
  obtain ⟨r, _, e⟩ := Outcome.bind_eq_ok.1 e
  split at e
  · simp only [Outcome.pure_eq, Outcome.ok.injEq, Prod.mk.injEq] at e
    rw [← e.2]
  · obtain ⟨⟨a, q⟩, h1, e⟩ := Outcome.bind_eq_ok.1 e
    obtain ⟨st', h2, e⟩ := Outcome.bind_eq_ok.1 e
    simp only [Outcome.pure_eq, Outcome.ok.injEq, Prod.mk.injEq] at e
    have h3 := clustersLoop_grow _ h1
    unfold Hier.endLevel at h2
    obtain ⟨cs, h4, h2⟩ := Outcome.bind_eq_ok.1 h2
    simp only [Outcome.pure_eq, Outcome.ok.injEq] at h2
    rw [← e.2, ← h2]
    show _ ≤ cs.length
    rw [setOffsets_grow _ _ h4]
    exact h3

theorem mainLoop_grow [CCmp W] {ar : Arith W S} {minPoints : Nat} {compact : Bool} {va vb : List Nat} {wt : List W} : ∀ (fuel k : Nat) {p p' : Hier.St W S},
    Hier.mainLoop ar minPoints compact va vb wt fuel k p = .ok p' → p.wk.clusters.length ≤ p'.wk.clusters.length := by
  intro fuel
  induction fuel with
  | zero =>
    intro k p p' e
    cases k with
    | zero => cases e; exact Nat.le_refl _
    | succ k => simp [Hier.mainLoop] at e
  | succ fuel ih =>
    intro k p p' e
    cases k with
    | zero => cases e; exact Nat.le_refl _
    | succ k =>
      simp only [Hier.mainLoop] at e
      obtain ⟨⟨k', q⟩, h1, e⟩ := Outcome.bind_eq_ok.1 e
      exact (level_grow h1).trans (ih k' e)

theorem mainLoop_rel [CCmp W] {ar : Arith W S} {N : Nat} (hN : N ≤ 2147483648) (minPoints : Nat) (compact : Bool) (va vb : List Nat) (wt : List W) :
    ∀ (fuel k : Nat) {st : St W S} {p p' : Hier.St W S}, StRel N st p → Hier.mainLoop ar minPoints compact va vb wt fuel k p = .ok p' →
      p'.wk.clusters.length ≤ 2147483648 → ∃ st', mainLoop ar minPoints compact va vb wt fuel k st = .ok st' ∧ StRel N st' p' := by
  intro fuel
  induction fuel with
  | zero =>
    intro k st p p' h e hb
    cases k with
    | zero => cases e; exact ⟨st, rfl, h⟩
    | succ k => simp [Hier.mainLoop] at e
  | succ fuel ih =>
    intro k st p p' h e hb
    cases k with
    | zero => cases e; exact ⟨st, rfl, h⟩
    | succ k =>
      simp only [Hier.mainLoop] at e
      obtain ⟨⟨k', q⟩, h1, e⟩ := Outcome.bind_eq_ok.1 e
      have hq := mainLoop_grow fuel k' e
      have hp := level_grow h1
      have hc := h.wk.count
      simp only at hq hp
      obtain ⟨⟨k2, st2⟩, e2, h2, h3⟩ := level_rel hN minPoints compact va vb wt k h (by omega) (k', q) h1
      simp only at h2 h3
      subst h2
      obtain ⟨st', e3, h4⟩ := ih k2 h3 e hb
      refine ⟨st', ?_, h4⟩
      simp only [mainLoop, e2, Outcome.ok_bind]
      exact e3

/-! ### The adjacency lists -/

theorem addEdge_rel {adj : List (AList Nat)} {padj : List (List Nat)} (ha : AdjRel adj padj) {a b : Nat} (hn : padj.length ≤ 2147483648) :
    Refines (fun x (y : List (List Nat)) => AdjRel x y ∧ y.length = padj.length) (addEdge adj a b) (Graph.addEdge padj a b) := by
  intro y e
  unfold Graph.addEdge at e
  obtain ⟨la, e1, e⟩ := Outcome.bind_eq_ok.1 e
  obtain ⟨ed1, e2, e⟩ := Outcome.bind_eq_ok.1 e
  have h1 := (rd_inv e1).1
  have l1 : ed1.length = padj.length := by rw [(wr_inv e2).2]; simp
  have hb : b < 2147483648 := by
    by_cases c : a ≠ b
    · rw [if_pos c] at e
      obtain ⟨lb, e3, _⟩ := Outcome.bind_eq_ok.1 e
      have := (rd_inv e3).1
      omega
    · simp only [ne_eq, Decidable.not_not] at c
      omega
  obtain ⟨ca, c1, r1⟩ := Refines.rd ha a la e1
  obtain ⟨ca', c2, r2⟩ := r1.append hb
  obtain ⟨adj1, c3, r3⟩ := Refines.wr ha a r2 ed1 e2
  unfold addEdge
  rw [c1, Outcome.ok_bind, c2, Outcome.ok_bind, c3, Outcome.ok_bind]
  by_cases c : a ≠ b
  · rw [if_pos c] at e ⊢
    obtain ⟨lb, e3, e⟩ := Outcome.bind_eq_ok.1 e
    have l2 : y.length = ed1.length := by rw [(wr_inv e).2]; simp
    obtain ⟨cb, c4, r4⟩ := Refines.rd r3 b lb e3
    obtain ⟨cb', c5, r5⟩ := r4.append (x := a) (by omega)
    obtain ⟨adj2, c6, r6⟩ := Refines.wr r3 b r5 y e
    rw [c4, Outcome.ok_bind, c5, Outcome.ok_bind, c6]
    exact ⟨adj2, rfl, r6, by omega⟩
  · rw [if_neg c] at e ⊢
    cases e
    exact ⟨adj1, rfl, r3, l1⟩

theorem addEdges_rel (va vb : List Nat) : ∀ (n i : Nat) {adj : List (AList Nat)} {padj : List (List Nat)}, AdjRel adj padj →
    padj.length ≤ 2147483648 → Refines (fun x (y : List (List Nat)) => AdjRel x y ∧ y.length = padj.length) (addEdges va vb n i adj) (Graph.addEdges va vb n i padj) := by
  intro n
  induction n with
  | zero => intro i adj padj ha _; exact .ok ⟨ha, rfl⟩
  | succ n ih =>
    intro i adj padj ha hn y e
    simp only [Graph.addEdges] at e
    obtain ⟨a, e1, e⟩ := Outcome.bind_eq_ok.1 e
    obtain ⟨b, e2, e⟩ := Outcome.bind_eq_ok.1 e
    obtain ⟨ed, e3, e⟩ := Outcome.bind_eq_ok.1 e
    obtain ⟨adj', c1, r1, r2⟩ := addEdge_rel ha hn ed e3
    obtain ⟨x, c2, r3, r4⟩ := ih (i + 1) r1 (by omega) y e
    refine ⟨x, ?_, r3, by omega⟩
    simp only [addEdges]
    rw [e1, Outcome.ok_bind, e2, Outcome.ok_bind, c1, Outcome.ok_bind, c2]

theorem adjacency_rel {n : Nat} (hn : n ≤ 2147483648) (va vb : List Nat) (wt : List W) :
    Refines (fun x (g : Graph W) => AdjRel x g.edges ∧ g.edges.length = n) (adjacency n va vb) (Graph.init n va vb wt) := by
  intro g e
  unfold Graph.init at e
  obtain ⟨ed, e1, e⟩ := Outcome.bind_eq_ok.1 e
  simp only [Outcome.pure_eq, Outcome.ok.injEq] at e
  subst e
  obtain ⟨l, el, hl, _⟩ := rep_init (α := Nat) (n := 16) (by omega)
  have h0 : AdjRel (List.replicate n l) (List.replicate n []) := by
    unfold AdjRel
    rw [List.forall₂_iff_get]
    refine ⟨by simp, ?_⟩
    intro i h1 h2
    simp only [List.get_eq_getElem, List.getElem_replicate]
    exact ⟨hl, by simp⟩
  obtain ⟨x, c, r1, r2⟩ := addEdges_rel va vb va.length 0 h0 (by simpa using hn) ed e1
  refine ⟨x, ?_, r1, by simpa using r2⟩
  unfold adjacency
  rw [el, Outcome.ok_bind, c]

/-! ### The whole construction -/

/-- The results of the construction. -/
structure ResRel (r : Result W S) (p : Hier.Result W S) : Prop where
  adj : AdjRel r.adj p.adj
  clusters : ∃ ptrs : List (Option Nat), Rep r.clusters ptrs ∧ CRel r.heap ptrs p.clusters ∧ ∀ (l a : Nat), ptrs[l]? = some (some a) → a < r.heap.length
  lines : LinesRel r.table r.entries p.hierarchy
  noise : r.noise = p.noise
  last : r.last = p.last
  cur : r.cur = p.cur
  labels : ∀ l ∈ p.hierarchy, ∀ x ∈ l.2.2, x < p.clusters.length

theorem initial_rel {ar : Arith W S} {g : Graph W} {adj : List (AList Nat)} (ha : AdjRel adj g.edges) (hlen : g.edges.length = g.numVertices)
    {clusters : AList (Option Nat)} (hc : Rep clusters []) {table : HTable.Table Int} {ks : List Int} (ht : TRel table (fun _ => none) ks) :
    ∃ st, initial ar g.numVertices adj clusters table = .ok st ∧ StRel g.numVertices st (Hier.initial ar g) := by
  obtain ⟨cs1, e1, h1, _⟩ := append_rep hc (none : Option Nat)
  obtain ⟨cs2, e2, h2, _⟩ := append_rep h1 (some 0 : Option Nat)
  obtain ⟨root, e3, h3⟩ := clInit_rel (ar := ar) (ptrs := [none, some 0]) 1 none none g.numVertices (by simp)
  obtain ⟨s, e4, h4, _⟩ := urep_init
  obtain ⟨f, e5, h5, _⟩ := rep_init (α := Nat) (n := 2) (by omega)
  simp only [Option.bind_none] at e3
  unfold initial
  rw [e1, Outcome.ok_bind, e3, Outcome.ok_bind, e2, Outcome.ok_bind, e4, Outcome.ok_bind, e5]
  simp only [Outcome.ok_bind, Outcome.pure_eq]
  refine ⟨_, rfl, ha, hlen, ⟨rfl, rfl, rfl, rfl, rfl, ?_, ⟨[none, some 0], h2, ⟨rfl, ?_, ?_, ?_⟩, ?_, [], h5, .nil⟩⟩, by simp [Hier.initial], rfl, ⟨⟨ks, ht⟩, rfl, by simp [Hier.initial]⟩, ?_, ?_, ?_, rfl, rfl, h4, h4⟩
  · intro x hx
    simp only [Hier.initial] at hx ⊢
    have := (List.mem_replicate.1 hx).2
    omega
  · intro l hl
    simp only [Hier.initial] at hl
    match l with
    | 0 => rfl
    | 1 => simp at hl
    | k + 2 => simp at hl
  · intro l p hl
    simp only [Hier.initial] at hl
    match l with
    | 0 => simp at hl
    | 1 =>
      simp only [List.getElem?_cons_succ, List.getElem?_cons_zero, Option.some.injEq] at hl
      subst hl
      exact ⟨0, root, rfl, rfl, h3⟩
    | k + 2 => simp at hl
  · intro l l' a hl hl'
    match l, l' with
    | 0, _ => simp at hl
    | _, 0 => simp at hl'
    | 1, 1 => rfl
    | 1, k + 2 => simp at hl'
    | k + 2, _ => simp at hl
  · intro l a hl
    match l with
    | 0 => simp at hl
    | 1 =>
      simp only [List.getElem?_cons_succ, List.getElem?_cons_zero, Option.some.injEq] at hl
      show a < 1
      omega
    | k + 2 => simp at hl
  · simp [Hier.initial]
  · intro x hx
    simp only [Hier.initial] at hx ⊢
    have := (List.mem_replicate.1 hx).2
    omega
  · simp [Hier.initial]

theorem compute_rel [CCmp W] {ar : Arith W S} (minPoints : Nat) (compact : Bool) {g : Graph W} (hn : g.numVertices ≤ 2147483648) {adj : List (AList Nat)}
    (ha : AdjRel adj g.edges) (hlen : g.edges.length = g.numVertices) {clusters : AList (Option Nat)} (hc : Rep clusters []) {table : HTable.Table Int}
    {ks : List Int} (ht : TRel table (fun _ => none) ks) {p : Hier.Result W S} (e : Hier.compute ar minPoints compact g = .ok p)
    (hb : p.clusters.length ≤ 2147483648) : ∃ r, compute ar minPoints compact g adj clusters table = .ok r ∧ ResRel r p := by
  unfold Hier.compute at e
  obtain ⟨pst, e1, e⟩ := Outcome.bind_eq_ok.1 e
  simp only [Outcome.pure_eq, Outcome.ok.injEq] at e
  obtain ⟨st0, e2, h0⟩ := initial_rel (ar := ar) ha hlen hc ht
  have hg : pst.wk.clusters.length ≤ 2147483648 := by rw [← e] at hb; exact hb
  obtain ⟨st, e3, h1⟩ := mainLoop_rel hn minPoints compact g.va g.vb g.wt g.wt.length g.wt.length h0 e1 hg
  obtain ⟨t, es, e4, h2⟩ := writeLine_rel h1.lines 0 ar.zeroW (List.replicate g.numVertices 0) (fun l hl => by have := (h1.keys l hl).1; omega)
  obtain ⟨ptrs, hrep, hcr, hin, _⟩ := h1.wk.clusters
  unfold compute
  rw [e2, Outcome.ok_bind, e3, Outcome.ok_bind]
  simp only [Nat.cast_zero] at e4
  rw [e4, Outcome.ok_bind]
  refine ⟨_, rfl, ?_⟩
  subst e
  refine ⟨h1.adj, ⟨ptrs, hrep, hcr, hin⟩, h2, h1.wk.noise, h1.wk.last, h1.wk.cur, ?_⟩
  intro l hl x hx
  show x < pst.wk.clusters.length
  rw [h1.wk.count]
  rcases List.mem_append.1 hl with hl | hl
  · exact h1.linesLt l hl x hx
  · simp only [List.mem_singleton] at hl
    subst hl
    have := (List.mem_replicate.1 hx).2
    have := h1.next
    omega

end Verif.Conc
