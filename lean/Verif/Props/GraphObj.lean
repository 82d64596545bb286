import Verif.Spec.GraphObj
import Verif.Props.Graph
import Verif.Props.DistObj
/-
C98: a graph object can be used again and again.
-/
namespace Verif.Props
open Spec
variable {W : Type}

/-- Addresses are given out once. -/
def GFit (m : GMem W) : Prop := (m.live.map Prod.fst).Nodup ∧ ∀ b ∈ m.live, b.1 < m.next

theorem gfit_alloc {m : GMem W} (h : GFit m) (b : GBlock W) : GFit (m.alloc b).1 := by
  obtain ⟨h1, h2⟩ := h
  refine ⟨?_, ?_⟩
  · simp only [GMem.alloc, List.map_cons, List.nodup_cons]
    refine ⟨?_, h1⟩
    intro hc
    obtain ⟨x, hx, e⟩ := List.mem_map.mp hc
    have := h2 x hx
    omega
  · intro x hx
    simp only [GMem.alloc, List.mem_cons] at hx
    show x.1 < m.next + 1
    rcases hx with rfl | hx
    · simp
    · have := h2 x hx; omega

theorem galloc_ne {m : GMem W} {a : Nat} (b : GBlock W) (h : a ≠ m.next) : (m.alloc b).1.live.lookup a = m.live.lookup a := by
  simp only [GMem.alloc, List.lookup_cons]
  have : (a == m.next) = false := by simp [h]
  rw [this]

theorem gfit_free {m : GMem W} (h : GFit m) (a : Nat) : GFit { m with live := m.live.filter (fun b => b.1 != a) } :=
  ⟨(List.Sublist.map _ List.filter_sublist).nodup h.1, fun b hb => h.2 b (List.mem_of_mem_filter hb)⟩

/-- Freeing a block. -/
theorem gfree_live {m : GMem W} {a : Nat} (hf : GFit m) (h : m.live.lookup a ≠ none) :
    ∃ m', m.free a = .ok m' ∧ GFit m' ∧ m'.live.length + 1 = m.live.length ∧ ∀ x, x ≠ a → m'.live.lookup x = m.live.lookup x :=
  ⟨_, by simp only [GMem.free]; rw [if_neg h], gfit_free hf a, filter_length m.live a hf.1 h, fun x hx => lookup_filter _ _ _ hx⟩

/-- A block that was freed is gone. -/
theorem gfree_gone {m m' : GMem W} {a : Nat} (h : m.free a = .ok m') : m'.live.lookup a = none := by
  simp only [GMem.free] at h
  split at h
  · cases h
  · cases h
    exact lookup_none_of (fun b hb => by simpa using (List.mem_filter.mp hb).2)

theorem gstore_at {m : GMem W} {a : Nat} {b c : GBlock W} (h : m.live.lookup a = some b) : (m.store a c).live.lookup a = some c := by
  simp only [GMem.store]
  generalize m.live = l at h
  induction l with
  | nil => simp at h
  | cons x r ih =>
    obtain ⟨x1, x2⟩ := x
    by_cases e : x1 = a
    · subst e; simp
    · have h1 : (a == x1) = false := by simp [Ne.symm e]
      rw [List.lookup_cons, h1] at h
      simp only [List.map_cons, if_neg e, List.lookup_cons, h1]
      exact ih h

theorem gstore_ne {m : GMem W} {a a' : Nat} {c : GBlock W} (h : a' ≠ a) : (m.store a c).live.lookup a' = m.live.lookup a' := by
  simp only [GMem.store]
  induction m.live with
  | nil => rfl
  | cons x r ih =>
    obtain ⟨x1, x2⟩ := x
    by_cases e : x1 = a
    · subst e
      have h1 : (a' == x1) = false := by simp [h]
      simp only [List.map_cons, if_true, List.lookup_cons, h1, ih]
    · simp only [List.map_cons, if_neg e, List.lookup_cons, ih]

theorem gfit_store {m : GMem W} (h : GFit m) (a : Nat) (c : GBlock W) : GFit (m.store a c) := by
  have hm : (m.store a c).live.map Prod.fst = m.live.map Prod.fst := by
    simp only [GMem.store, List.map_map]
    apply List.map_congr_left
    intro x _
    by_cases e : x.1 = a <;> simp [e]
  refine ⟨by rw [hm]; exact h.1, ?_⟩
  intro b hb
  have : b.1 ∈ (m.store a c).live.map Prod.fst := List.mem_map_of_mem hb
  rw [hm] at this
  obtain ⟨x, hx, e⟩ := List.mem_map.mp this
  have := h.2 x hx
  show b.1 < m.next
  omega

theorem gstore_length {m : GMem W} (a : Nat) (c : GBlock W) : (m.store a c).live.length = m.live.length := by simp [GMem.store]

/-- The lists at the addresses `as` are `adj`. -/
def HoldsAdj (m : GMem W) (as : List Nat) (adj : List (List Nat)) : Prop :=
  as.length = adj.length ∧ as.Nodup ∧ ∀ i (h : i < as.length) (h' : i < adj.length), m.live.lookup as[i] = some (.verts adj[i])

/-- Creating the neighbour lists. -/
theorem gallocAll (adj : List (List Nat)) : ∀ {m : GMem W}, GFit m → ∃ m' as, m.allocAll adj = (m', as) ∧ GFit m' ∧ HoldsAdj m' as adj ∧
    (∀ x ∈ as, m.next ≤ x ∧ x < m'.next) ∧ m.next ≤ m'.next ∧ (∀ x, x < m.next → m'.live.lookup x = m.live.lookup x) ∧
    m'.live.length = m.live.length + adj.length := by
  induction adj with
  | nil => intro m hf; exact ⟨m, [], rfl, hf, ⟨rfl, List.nodup_nil, fun i h => by simp at h⟩, by simp, Nat.le_refl _, fun _ _ => rfl, rfl⟩
  | cons l r ih =>
    intro m hf
    obtain ⟨m', as, e, hf', ⟨hl, hn, hv⟩, hr, hle, hk, hlen⟩ := ih (gfit_alloc hf (.verts l))
    have hnext : (m.alloc (.verts l)).1.next = m.next + 1 := rfl
    rw [hnext] at hr hle hk
    refine ⟨m', m.next :: as, ?_, hf', ⟨by simp [hl], ?_, ?_⟩, ?_, by omega, ?_, ?_⟩
    · show (let (m2, as) := (m.alloc (.verts l)).1.allocAll r; (m2, (m.alloc (.verts l)).2 :: as)) = _
      rw [e]; rfl
    · rw [List.nodup_cons]
      exact ⟨fun hc => by have := hr _ hc; omega, hn⟩
    · intro i h h'
      cases i with
      | zero =>
        simp only [List.getElem_cons_zero]
        rw [hk _ (by omega)]
        simp [GMem.alloc]
      | succ i =>
        simp only [List.getElem_cons_succ]
        exact hv i _ _
    · intro x hx
      rcases List.mem_cons.mp hx with rfl | hx
      · omega
      · have := hr _ hx; omega
    · intro x hx
      rw [hk x (by omega), galloc_ne _ (by omega)]
    · rw [hlen]; simp [GMem.alloc]; omega

/-- Deleting the neighbour lists. -/
theorem gfreeTable (t : List Nat) (hn : t.Nodup) : ∀ (k i : Nat) {m : GMem W}, i + k = t.length → GFit m →
    (∀ x ∈ t.drop i, m.live.lookup x ≠ none) → ∃ m', GMem.freeTable t k i m = .ok m' ∧ GFit m' ∧ m'.live.length + k = m.live.length ∧
      ∀ x, x ∉ t → m'.live.lookup x = m.live.lookup x := by
  intro k
  induction k with
  | zero => intro i m _ hf _; exact ⟨m, rfl, hf, rfl, fun _ _ => rfl⟩
  | succ k ih =>
    intro i m hi hf hl
    have hlt : i < t.length := by omega
    have hd : t.drop i = t[i] :: t.drop (i + 1) := List.drop_eq_getElem_cons hlt
    rw [hd] at hl
    obtain ⟨m1, e1, hf1, hl1, hk1⟩ := gfree_live hf (hl t[i] List.mem_cons_self)
    obtain ⟨m2, e2, hf2, hl2, hk2⟩ := ih (i + 1) (by omega) hf1 (by
      intro x hx
      have hne : x ≠ t[i] := by
        rintro rfl
        have : (t.drop i).Nodup := (List.drop_sublist i t).nodup hn
        rw [hd, List.nodup_cons] at this
        exact this.1 hx
      rw [hk1 x hne]
      exact hl x (List.mem_cons_of_mem _ hx))
    refine ⟨m2, ?_, hf2, by omega, ?_⟩
    · unfold GMem.freeTable
      rw [rd_ok hlt, Outcome.ok_bind, e1, Outcome.ok_bind, e2]
    · intro x hx
      rw [hk2 x hx, hk1 x (by rintro rfl; exact hx (List.getElem_mem _))]

/-- What ties the object and its memory to what it holds; `k` blocks were lost. -/
def GHolding (m : GMem W) (g : GStruct) (k : Nat) : Option (GHeld W) → Prop
  | none => g.va = none ∧ g.vb = none ∧ g.wt = none ∧ g.edges = none ∧ m.live.length = k
  | some h => ∃ pa pb pw pt as va vb wt adj, g = ⟨h.n, some pa, some pb, some pw, some pt⟩ ∧ (pa :: pb :: pw :: pt :: as).Nodup ∧
      m.live.lookup pa = some (.verts va) ∧ m.live.lookup pb = some (.verts vb) ∧ m.live.lookup pw = some (.weights wt) ∧
      m.live.lookup pt = some (.table as) ∧ HoldsAdj m as adj ∧ adj.length = h.n ∧
      h.edges = triples va vb wt ∧ va.length = wt.length ∧ vb.length = wt.length ∧
      (∀ v w, v < h.n → (adj[v]?.getD []).count w = h.made.countP (joins v w) - (if v = w then 2 else 1) * h.removed.countP (joins v w)) ∧
      m.live.length = k + h.n + 4

/-- The numbers of vertices and edges. -/
def shapeOf : Option (GHeld W) → Option (Nat × Nat)
  | none => none
  | some h => some (h.n, h.edges.length)

theorem gverts {m : GMem W} {a : Nat} {l : List Nat} (h : m.live.lookup a = some (.verts l)) : m.verts (some a) = .ok l := by
  simp only [GMem.verts, GMem.deref, h, Outcome.ok_bind]; rfl

theorem gweights {m : GMem W} {a : Nat} {l : List W} (h : m.live.lookup a = some (.weights l)) : m.weights (some a) = .ok l := by
  simp only [GMem.weights, GMem.deref, h, Outcome.ok_bind]; rfl

theorem gtable {m : GMem W} {a : Nat} {l : List Nat} (h : m.live.lookup a = some (.table l)) : m.table (some a) = .ok l := by
  simp only [GMem.table, GMem.deref, h, Outcome.ok_bind]; rfl

/-- What `graph_clean` leaves. -/
theorem gclean_holding {m : GMem W} {g : GStruct} {k : Nat} {h : Option (GHeld W)} (hf : GFit m) (hh : GHolding m g k h) :
    ∃ m', g.clean m = .ok (m', { g with va := none, vb := none, wt := none, edges := none }) ∧ GFit m' ∧ m'.live.length = k := by
  cases h with
  | none =>
    obtain ⟨h1, h2, h3, h4, h5⟩ := hh
    refine ⟨m, ?_, hf, h5⟩
    simp only [GStruct.clean, h1, h2, h3, h4, GMem.freeOpt, GStruct.cleanEdges, Outcome.ok_bind, Outcome.pure_eq]
  | some h =>
    obtain ⟨pa, pb, pw, pt, as, va, vb, wt, adj, rfl, hn, ha, hb, hw, ht, ⟨hal, han, hav⟩, hadj, _, _, _, _, hlen⟩ := hh
    simp only [List.nodup_cons, List.mem_cons, not_or] at hn
    obtain ⟨⟨n1, n2, n3, n4⟩, ⟨n5, n6, n7⟩, ⟨n8, n9⟩, n10, n11⟩ := hn
    obtain ⟨m1, e1, f1, l1, k1⟩ := gfree_live hf (a := pa) (by rw [ha]; simp)
    obtain ⟨m2, e2, f2, l2, k2⟩ := gfree_live f1 (a := pb) (by rw [k1 _ (Ne.symm n1), hb]; simp)
    obtain ⟨m3, e3, f3, l3, k3⟩ := gfree_live f2 (a := pw) (by rw [k2 _ (Ne.symm n5), k1 _ (Ne.symm n2), hw]; simp)
    have keep : ∀ x, x ≠ pa → x ≠ pb → x ≠ pw → m3.live.lookup x = m.live.lookup x := fun x a b c => by rw [k3 _ c, k2 _ b, k1 _ a]
    have ht3 : m3.live.lookup pt = some (.table as) := by rw [keep _ (Ne.symm n3) (Ne.symm n6) (Ne.symm n8), ht]
    obtain ⟨m4, e4, f4, l4, k4⟩ := gfreeTable as n11 h.n 0 (m := m3) (by omega) f3 (by
      intro x hx
      simp only [List.drop_zero] at hx
      rw [keep x (by rintro rfl; exact n4 hx) (by rintro rfl; exact n7 hx) (by rintro rfl; exact n9 hx)]
      obtain ⟨i, hi, rfl⟩ := List.getElem_of_mem hx
      rw [hav i hi (by omega)]; simp)
    obtain ⟨m5, e5, f5, l5, _⟩ := gfree_live f4 (a := pt) (by rw [k4 _ n10, ht3]; simp)
    refine ⟨m5, ?_, f5, by omega⟩
    simp only [GStruct.clean, GMem.freeOpt, e1, e2, e3, GStruct.cleanEdges, gtable ht3, e4, e5, Outcome.ok_bind, Outcome.pure_eq]

/-- The list stored last. -/
theorem holdsAdj_store {m : GMem W} {as : List Nat} {adj : List (List Nat)} (h : HoldsAdj m as adj) {i : Nat} (hi : i < as.length) (L : List Nat) :
    HoldsAdj (m.store as[i] (.verts L)) as (adj.set i L) := by
  obtain ⟨hl, hn, hv⟩ := h
  refine ⟨by simp [hl], hn, ?_⟩
  intro j hj hj'
  simp only [List.getElem_set]
  by_cases e : i = j
  · subst e
    rw [if_pos rfl]
    exact gstore_at (hv i hi (by omega))
  · rw [if_neg e, gstore_ne, hv j hj (by simpa using hj')]
    intro hc
    exact e ((List.Nodup.getElem_inj_iff hn).mp hc).symm

theorem holdsAdj_other {m : GMem W} {as : List Nat} {adj : List (List Nat)} (h : HoldsAdj m as adj) {p : Nat} (hp : p ∉ as) (c : GBlock W) :
    HoldsAdj (m.store p c) as adj := by
  obtain ⟨hl, hn, hv⟩ := h
  refine ⟨hl, hn, fun j hj hj' => ?_⟩
  rw [gstore_ne, hv j hj hj']
  rintro rfl
  exact hp (List.getElem_mem _)

theorem triples_get {va vb : List Nat} {wt : List W} {i : Nat} (ha : i < va.length) (hb : i < vb.length) (hw : i < wt.length) :
    (triples va vb wt)[i]? = some (va[i], vb[i], wt[i]) := by
  simp [triples, ha, hb, hw]

theorem triples_length {va vb : List Nat} {wt : List W} (ha : va.length = wt.length) (hb : vb.length = wt.length) : (triples va vb wt).length = wt.length := by
  simp [triples, ha, hb]

theorem triples_weights {va vb : List Nat} {wt : List W} (ha : va.length = wt.length) (hb : vb.length = wt.length) : (triples va vb wt).map (fun x => x.2.2) = wt := by
  apply List.ext_getElem?
  intro i
  by_cases hi : i < wt.length
  · rw [List.getElem?_map, triples_get (by omega) (by omega) hi, List.getElem?_eq_getElem hi]; rfl
  · rw [List.getElem?_eq_none (by rw [List.length_map, triples_length ha hb]; omega), List.getElem?_eq_none (by omega)]

/-- One sensible call; helper for C98. -/
theorem graph_step [LinearOrder W] {m : GMem W} {g : GStruct} {k : Nat} {h : Option (GHeld W)} (hf : GFit m) (hh : GHolding m g k h) (c : GCall W)
    (hs : GSensible (shapeOf h) c) :
    ∃ m' g' x h', GStruct.step m g c = .ok (m', g', x) ∧ GDoes h c x h' ∧ GFit m' ∧ GHolding m' g' (k + lostBlocks (shapeOf h) [c]) h' ∧
      shapeOf h' = shapeAfter (shapeOf h) c := by
  cases c with
  | init n va vb wt =>
    obtain ⟨hla, hlb, hva, hvb⟩ := hs
    obtain ⟨g0, e0, d0, _⟩ := C24_graph_init n va vb wt hva hvb (by omega)
    obtain ⟨adj, eadj, hg0⟩ := Outcome.bind_eq_ok.mp e0
    cases hg0
    simp only at d0
    let m1 := (m.alloc (.verts va)).1
    let m2 := (m1.alloc (.verts vb)).1
    let m3 := (m2.alloc (.weights wt)).1
    have f3 : GFit m3 := gfit_alloc (gfit_alloc (gfit_alloc hf _) _) _
    have la : m3.live.lookup m.next = some (.verts va) := by
      show (((m1.alloc (.verts vb)).1.alloc (.weights wt)).1).live.lookup m.next = _
      rw [galloc_ne _ (show m.next ≠ m.next + 1 + 1 by omega), galloc_ne _ (show m.next ≠ m.next + 1 by omega)]
      simp [m1, GMem.alloc]
    have lb : m3.live.lookup (m.next + 1) = some (.verts vb) := by
      show (((m1.alloc (.verts vb)).1.alloc (.weights wt)).1).live.lookup (m.next + 1) = _
      rw [galloc_ne _ (by simp [m1, GMem.alloc])]
      simp [m1, GMem.alloc]
    have lw : m3.live.lookup (m.next + 2) = some (.weights wt) := by
      simp [m3, m2, m1, GMem.alloc]
    have hn3 : m3.next = m.next + 3 := rfl
    obtain ⟨m4, as, e4, f4, h4, r4, hle, keep, len4⟩ := gallocAll adj f3
    rw [hn3] at r4 hle keep
    have keep5 : ∀ x, x ≠ m4.next → (m4.alloc (.table as)).1.live.lookup x = m4.live.lookup x := fun x hx => galloc_ne _ hx
    refine ⟨(m4.alloc (.table as)).1, ⟨n, some m.next, some (m.next + 1), some (m.next + 2), some m4.next⟩, .nothing, some ⟨n, triples va vb wt, va.zip vb, []⟩, ?_,
      GDoes.init h n va vb wt, gfit_alloc f4 _, ?_, ?_⟩
    · have hi : GStruct.init m3 n (some m.next) (some (m.next + 1)) (some (m.next + 2)) =
          .ok ((m4.alloc (.table as)).1, ⟨n, some m.next, some (m.next + 1), some (m.next + 2), some m4.next⟩) := by
        simp only [GStruct.init, gverts la, gverts lb, Outcome.ok_bind, eadj, e4]
        rfl
      show (GStruct.init m3 n (some m.next) (some (m.next + 1)) (some (m.next + 2))).bind _ = _
      rw [hi]; rfl
    · refine ⟨m.next, m.next + 1, m.next + 2, m4.next, as, va, vb, wt, adj, rfl, ?_, ?_, ?_, ?_, ?_, ?_, d0.1, rfl, hla, hlb, ?_, ?_⟩
      · have ha : ∀ x, x < m.next + 3 ∨ m4.next ≤ x → x ∉ as := fun x hx hc => by have := r4 x hc; omega
        simp only [List.nodup_cons, List.mem_cons, not_or]
        exact ⟨⟨by omega, by omega, by omega, ha _ (by omega)⟩, ⟨by omega, by omega, ha _ (by omega)⟩, ⟨by omega, ha _ (by omega)⟩, ha _ (by omega), h4.2.1⟩
      · rw [keep5 _ (by omega), keep _ (by omega), la]
      · rw [keep5 _ (by omega), keep _ (by omega), lb]
      · rw [keep5 _ (by omega), keep _ (by omega), lw]
      · simp [GMem.alloc]
      · refine ⟨h4.1, h4.2.1, fun i hi hi' => ?_⟩
        rw [keep5 _ (by have := r4 _ (List.getElem_mem hi); omega), h4.2.2 i hi hi']
      · intro v w hv
        rw [d0.2 v w hv]; simp
      · have hadj : adj.length = n := d0.1
        have h3 : m3.live.length = m.live.length + 3 := rfl
        have : m.live.length = k + lostBlocks (shapeOf h) [GCall.init n va vb wt] := by
          cases h with
          | none => simpa [lostBlocks, shapeOf] using hh.2.2.2.2
          | some p =>
            obtain ⟨_, _, _, _, _, _, _, _, _, _, _, _, _, _, _, _, _, _, _, _, _, hl⟩ := hh
            simp only [lostBlocks, shapeOf]; omega
        show m4.live.length + 1 = _
        simp only
        omega
    · simp only [shapeOf, shapeAfter, triples_length hla hlb]
  | sort =>
    have hw : lostBlocks (shapeOf h) [GCall.sort (W := W)] = 0 := by cases h <;> rfl
    rw [hw]
    cases h with
    | none => exact absurd rfl hs
    | some h =>
      have hh' := hh
      obtain ⟨pa, pb, pw, pt, as, va, vb, wt, adj, rfl, hn, ha, hb, hw, ht, hadj, hal, hed, hla, hlb, hc, hlen⟩ := hh
      by_cases h1 : wt.length ≤ 1
      · refine ⟨m, ⟨h.n, some pa, some pb, some pw, some pt⟩, .nothing, some { h with edges := h.edges }, ?_, GDoes.sort h h.edges (.refl _) ?_, hf, hh', rfl⟩
        · simp only [GStruct.step, GStruct.sort, gweights hw, Outcome.ok_bind, if_pos h1]
          rfl
        · have : h.edges.length ≤ 1 := by rw [hed, triples_length hla hlb]; exact h1
          match h.edges, this with
          | [], _ => exact List.Pairwise.nil
          | [x], _ => exact List.pairwise_singleton _ _
      · obtain ⟨s, es, sp, pm, _, _, sa, sb⟩ := C23_edge_sort ({ numVertices := h.n, va := va, vb := vb, wt := wt, edges := [] } : Graph W) hla hlb
        simp only at pm
        simp only [List.nodup_cons, List.mem_cons, not_or] at hn
        obtain ⟨⟨n1, n2, n3, n4⟩, ⟨n5, n6, n7⟩, ⟨n8, n9⟩, n10, n11⟩ := hn
        refine ⟨((m.store pa (.verts s.va)).store pb (.verts s.vb)).store pw (.weights s.wt), ⟨h.n, some pa, some pb, some pw, some pt⟩, .nothing, some { h with edges := triples s.va s.vb s.wt }, ?_,
          GDoes.sort h _ (by rw [hed]; exact pm) ?_, gfit_store (gfit_store (gfit_store hf _ _) _ _) _ _, ?_, ?_⟩
        · simp only [GStruct.step, GStruct.sort, gweights hw, gverts ha, gverts hb, Outcome.ok_bind, if_neg h1, es, GStruct.storeEdges, GMem.storeAt]
          rfl
        · have := triples_weights sa sb
          rw [← this, List.pairwise_map] at sp
          exact sp
        · refine ⟨pa, pb, pw, pt, as, s.va, s.vb, s.wt, adj, rfl, ?_, ?_, ?_, ?_, ?_, ?_, hal, rfl, sa, sb, hc, ?_⟩
          · simp only [List.nodup_cons, List.mem_cons, not_or]
            exact ⟨⟨n1, n2, n3, n4⟩, ⟨n5, n6, n7⟩, ⟨n8, n9⟩, n10, n11⟩
          · rw [gstore_ne n2, gstore_ne n1]
            exact gstore_at ha
          · rw [gstore_ne n5]
            exact gstore_at (b := .verts vb) (by rw [gstore_ne (Ne.symm n1), hb])
          · exact gstore_at (b := .weights wt) (by rw [gstore_ne (Ne.symm n5), gstore_ne (Ne.symm n2), hw])
          · rw [gstore_ne (Ne.symm n8), gstore_ne (Ne.symm n6), gstore_ne (Ne.symm n3), ht]
          · exact holdsAdj_other (holdsAdj_other (holdsAdj_other hadj n4 _) n7 _) n9 _
          · rw [gstore_length, gstore_length, gstore_length]; exact hlen
        · simp only [shapeOf, shapeAfter]
          rw [hed, pm.length_eq]
  | remove a b =>
    have hw : lostBlocks (shapeOf h) [GCall.remove (W := W) a b] = 0 := by cases h <;> rfl
    rw [hw]
    obtain ⟨n, e, hse, hra, hrb⟩ := hs
    cases h with
    | none => cases hse
    | some h =>
      cases hse
      obtain ⟨pa, pb, pw, pt, as, va, vb, wt, adj, rfl, hn, ha, hb, hw, ht, hadj, hal, hed, hla, hlb, hc, hlen⟩ := hh
      have hn' := hn
      simp only [List.nodup_cons, List.mem_cons, not_or] at hn
      obtain ⟨⟨n1, n2, n3, n4⟩, ⟨n5, n6, n7⟩, ⟨n8, n9⟩, n10, n11⟩ := hn
      have hasl : as.length = h.n := by rw [hadj.1, hal]
      have ia : a < as.length := by omega
      have ib : b < as.length := by omega
      have ja : a < adj.length := by omega
      have jb : b < (adj.set a (adj[a].erase b)).length := by simp; omega
      have A1 := holdsAdj_store hadj ia (adj[a].erase b)
      have A2 := holdsAdj_store A1 ib ((adj.set a (adj[a].erase b))[b].erase a)
      obtain ⟨g', eg, lg, cg, _⟩ := removeEdge_count (W := W) (g := { numVertices := h.n, va := va, vb := vb, wt := wt, edges := adj }) hal hc hra hrb
      have hge : g'.edges = (adj.set a (adj[a].erase b)).set b ((adj.set a (adj[a].erase b))[b].erase a) := by
        unfold Graph.removeEdge at eg
        rw [rd_ok ja, Outcome.ok_bind, wr_ok ja, Outcome.ok_bind, rd_ok jb, Outcome.ok_bind, wr_ok jb, Outcome.ok_bind] at eg
        cases eg; rfl
      have off : ∀ x, x ∉ as → ((m.store as[a] (.verts (adj[a].erase b))).store as[b] (.verts ((adj.set a (adj[a].erase b))[b].erase a))).live.lookup x = m.live.lookup x := by
        intro x hx
        rw [gstore_ne (by rintro rfl; exact hx (List.getElem_mem _)), gstore_ne (by rintro rfl; exact hx (List.getElem_mem _))]
      refine ⟨(m.store as[a] (.verts (adj[a].erase b))).store as[b] (.verts ((adj.set a (adj[a].erase b))[b].erase a)), ⟨h.n, some pa, some pb, some pw, some pt⟩, .nothing,
        some { h with removed := (a, b) :: h.removed }, ?_, GDoes.remove h a b, gfit_store (gfit_store hf _ _) _ _, ?_, rfl⟩
      · simp only [GStruct.step, GStruct.remove, gtable ht, rd_ok ia, rd_ok ib, gverts (hadj.2.2 a ia ja), gverts (A1.2.2 b ib jb), Outcome.ok_bind, Outcome.pure_eq]
      · refine ⟨pa, pb, pw, pt, as, va, vb, wt, _, rfl, hn', by rw [off _ n4, ha], by rw [off _ n7, hb], by rw [off _ n9, hw], by rw [off _ n10, ht], A2, by simp [hal], hed, hla, hlb, ?_, ?_⟩
        · intro v w hv
          rw [← hge, cg v w hv, Nat.sub_sub, ← Nat.mul_add]
          congr 2
          rw [show (a, b) :: h.removed = [(a, b)] ++ h.removed from rfl, List.countP_append, Nat.add_comm]
        · rw [gstore_length, gstore_length]; exact hlen
  | neighbours v =>
    have hw : lostBlocks (shapeOf h) [GCall.neighbours (W := W) v] = 0 := by cases h <;> rfl
    rw [hw]
    obtain ⟨n, e, hse, hv⟩ := hs
    cases h with
    | none => cases hse
    | some h =>
      cases hse
      have hh' := hh
      obtain ⟨pa, pb, pw, pt, as, va, vb, wt, adj, rfl, hn, ha, hb, hw, ht, hadj, hal, hed, hla, hlb, hc, hlen⟩ := hh
      have i1 : v < as.length := by rw [hadj.1, hal]; exact hv
      have i2 : v < adj.length := by rw [hal]; exact hv
      refine ⟨m, ⟨h.n, some pa, some pb, some pw, some pt⟩, .neighbours adj[v], some h, ?_, GDoes.neighbours h v _ ?_, hf, hh', rfl⟩
      · simp only [GStruct.step, GStruct.neighbours, gtable ht, rd_ok i1, gverts (hadj.2.2 v i1 i2), Outcome.ok_bind, Outcome.pure_eq]
      · intro w
        have := hc v w hv
        rwa [List.getElem?_eq_getElem i2, Option.getD_some] at this
  | edge i =>
    have hw : lostBlocks (shapeOf h) [GCall.edge (W := W) i] = 0 := by cases h <;> rfl
    rw [hw]
    obtain ⟨n, e, hse, hi⟩ := hs
    cases h with
    | none => cases hse
    | some h =>
      cases hse
      have hh' := hh
      obtain ⟨pa, pb, pw, pt, as, va, vb, wt, adj, rfl, hn, ha, hb, hw, ht, hadj, hal, hed, hla, hlb, hc, hlen⟩ := hh
      rw [hed, triples_length hla hlb] at hi
      refine ⟨m, ⟨h.n, some pa, some pb, some pw, some pt⟩, .edge (va[i], vb[i], wt[i]), some h, ?_, GDoes.edge h i _ ?_, hf, hh', rfl⟩
      · simp only [GStruct.step, GStruct.edge, gverts ha, gverts hb, gweights hw, rd_ok (show i < va.length by omega), rd_ok (show i < vb.length by omega), rd_ok hi,
          Outcome.ok_bind, Outcome.pure_eq]
      · rw [hed]; exact triples_get _ _ hi
  | clean =>
    have hw : lostBlocks (shapeOf h) [GCall.clean (W := W)] = 0 := by cases h <;> rfl
    rw [hw]
    obtain ⟨m', e, hf', hl⟩ := gclean_holding hf hh
    refine ⟨m', { g with va := none, vb := none, wt := none, edges := none }, .nothing, none, ?_, GDoes.clean h, hf', ⟨rfl, rfl, rfl, rfl, hl⟩, by cases h <;> rfl⟩
    simp only [GStruct.step, e, Outcome.ok_bind]
    rfl

/-- A sequence of sensible calls; helper for C98. -/
theorem graph_run [LinearOrder W] : ∀ (calls : List (GCall W)) {m : GMem W} {g : GStruct} {k : Nat} {h : Option (GHeld W)}, GFit m → GHolding m g k h →
    AllGSensible (shapeOf h) calls → ∃ m' g' xs h', GStruct.run m g calls = .ok (m', g', xs) ∧ GRuns h calls xs h' ∧ GFit m' ∧
      GHolding m' g' (k + lostBlocks (shapeOf h) calls) h' := by
  intro calls
  induction calls with
  | nil => intro m g k h hf hh _; exact ⟨m, g, [], h, rfl, .nil h, hf, by simpa [lostBlocks] using hh⟩
  | cons c r ih =>
    intro m g k h hf hh hs
    obtain ⟨m1, g1, x, h1, e1, hx, hf1, hh1, hsh⟩ := graph_step hf hh c hs.1
    obtain ⟨m2, g2, xs, h2, e2, hxs, hf2, hh2⟩ := ih hf1 hh1 (by rw [hsh]; exact hs.2)
    refine ⟨m2, g2, x :: xs, h2, ?_, .cons hx hxs, hf2, ?_⟩
    · simp only [GStruct.run, e1, Outcome.ok_bind, e2]
      rfl
    · have : k + lostBlocks (shapeOf h) [c] + lostBlocks (shapeAfter (shapeOf h) c) r = k + lostBlocks (shapeOf h) (c :: r) := by
        simp only [lostBlocks]; omega
      rw [← this, ← hsh]
      exact hh2

/-- The memory at the start, and an object that holds nothing. -/
def noBlocks : GMem W := { live := [], next := 0 }
def noGraph : GStruct := { numVertices := 0, va := none, vb := none, wt := none, edges := none }

/-- C98. Any sequence of sensible calls on one graph, beginning with `graph_init`, returns and tells what it should, and the graph can be destroyed afterwards. What is still allocated then are the blocks of the
    graphs that were overwritten by another `graph_init`; for the claim to hold in full there would have to be none (see `C98_leak_violated`). -/
theorem C98_history_partial [LinearOrder W] (calls : List (GCall W)) (hs : AllGSensible none calls) :
    ∃ m g xs h m', GStruct.run noBlocks noGraph calls = .ok (m, g, xs) ∧ GRuns none calls xs h ∧ GStruct.destroy m (some g) = .ok m' ∧
      m'.live.length = lostBlocks none calls := by
  obtain ⟨m, g, xs, h, e, hx, hf, hh⟩ := graph_run (W := W) calls (m := noBlocks) (g := noGraph) (k := 0) (h := none)
    ⟨by simp [noBlocks], by simp [noBlocks]⟩ ⟨rfl, rfl, rfl, rfl, rfl⟩ hs
  obtain ⟨m', e', _, hl⟩ := gclean_holding hf hh
  refine ⟨m, g, xs, h, m', e, hx, ?_, by simpa [shapeOf] using hl⟩
  simp only [GStruct.destroy, e', Outcome.ok_bind]
  rfl

/-- C98, memory: everything is released if every graph is cleaned before another is built in the same object. -/
theorem C98_memory_partial [LinearOrder W] (calls : List (GCall W)) (hs : AllGSensible none calls)
    (hc : ∀ i n va vb wt, calls[i + 1]? = some (.init n va vb wt) → calls[i]? = some .clean) :
    ∃ m g xs m', GStruct.run noBlocks noGraph calls = .ok (m, g, xs) ∧ GStruct.destroy m (some g) = .ok m' ∧ m'.live = [] := by
  have key : ∀ (calls : List (GCall W)) (h : Option (Nat × Nat)), (∀ i n va vb wt, calls[i + 1]? = some (.init n va vb wt) → calls[i]? = some .clean) →
      (h = none ∨ ∀ n va vb wt, calls[0]? ≠ some (.init n va vb wt)) → lostBlocks h calls = 0 := by
    intro calls
    induction calls with
    | nil => intro h _ _; rfl
    | cons c r ih =>
      intro h hc h0
      have h1 : lostBlocks (shapeAfter h c) r = 0 := by
        refine ih _ (fun i n va vb wt hi => ?_) ?_
        · have := hc (i + 1) n va vb wt (by simpa using hi)
          simpa using this
        · by_cases hex : ∃ n va vb wt, r[0]? = some (GCall.init n va vb wt)
          · obtain ⟨n, va, vb, wt, hr⟩ := hex
            have := hc 0 n va vb wt (by simpa using hr)
            simp only [List.getElem?_cons_zero, Option.some.injEq] at this
            subst this
            exact .inl rfl
          · exact .inr (fun n va vb wt hr => hex ⟨n, va, vb, wt, hr⟩)
      simp only [lostBlocks, h1, Nat.add_zero]
      rcases h0 with rfl | h0
      · rfl
      · cases c with
        | init n va vb wt => exact absurd rfl (h0 n va vb wt)
        | _ => cases h <;> rfl
  obtain ⟨m, g, xs, h, m', e, _, e', hl⟩ := C98_history_partial calls hs
  refine ⟨m, g, xs, m', e, e', List.length_eq_zero_iff.mp ?_⟩
  rw [hl]
  exact key calls none hc (.inl rfl)

/-- C98 fails for memory: the second `graph_init` on the same object loses all blocks of the first graph. -/
theorem C98_leak_violated : ∃ m g xs m', GStruct.run (noBlocks : GMem Nat) noGraph [.init 2 [0] [1] [5], .init 2 [0] [1] [5]] = .ok (m, g, xs) ∧
    GStruct.destroy m (some g) = .ok m' ∧ m'.live.length = 6 := ⟨_, _, _, _, rfl, rfl, rfl⟩

/-- C98 fails for C++: declaring an `UndirectedGraph` is undefined behaviour, always. -/
theorem C98_constructor_violated (m : GMem W) : (GStruct.construct m).IsUB := ⟨"null pointer", rfl⟩

/-- C98 fails after `graph_clean`: nothing but another `graph_init` or `graph_clean` is possible. -/
theorem C98_cleaned_violated [CCmp W] {m m' : GMem W} {g g' : GStruct} (h : g.clean m = .ok (m', g')) (c : GCall W) (hi : ∀ n va vb wt, c ≠ .init n va vb wt) (hc : c ≠ .clean) :
    (GStruct.step m' g' c).IsUB := by
  have hg : g' = { g with va := none, vb := none, wt := none, edges := none } := by
    obtain ⟨_, _, h⟩ := Outcome.bind_eq_ok.mp h
    obtain ⟨_, _, h⟩ := Outcome.bind_eq_ok.mp h
    obtain ⟨_, _, h⟩ := Outcome.bind_eq_ok.mp h
    obtain ⟨_, _, h⟩ := Outcome.bind_eq_ok.mp h
    cases h; rfl
  subst hg
  cases c with
  | init n va vb wt => exact absurd rfl (hi n va vb wt)
  | clean => exact absurd rfl hc
  | _ => exact ⟨"null pointer", rfl⟩

theorem gone_mono {m m' : GMem W} (hs : m'.live ⊆ m.live) {a : Nat} (h : m.live.lookup a = none) : m'.live.lookup a = none := by
  apply lookup_none_of
  intro b hb e
  rw [List.lookup_eq_none_iff] at h
  have := h b (hs hb)
  simp [e] at this

theorem gfree_sub {m m' : GMem W} {a : Nat} (h : m.free a = .ok m') : m'.live ⊆ m.live := by
  simp only [GMem.free] at h
  split at h
  · cases h
  · cases h
    exact List.filter_sublist.subset

theorem gfreeTable_sub (t : List Nat) : ∀ (k i : Nat) {m m' : GMem W}, GMem.freeTable t k i m = .ok m' → m'.live ⊆ m.live := by
  intro k
  induction k with
  | zero => intro i m m' h; cases h; exact fun _ h => h
  | succ k ih =>
    intro i m m' h
    obtain ⟨_, _, h⟩ := Outcome.bind_eq_ok.mp h
    obtain ⟨m1, h1, h⟩ := Outcome.bind_eq_ok.mp h
    exact fun x hx => gfree_sub h1 (ih _ h hx)

/-- After cleaning the block of the first list is gone. -/
theorem gclean_gone {m m1 : GMem W} {g g1 : GStruct} {a : Nat} (hg : g.va = some a) (e : g.clean m = .ok (m1, g1)) : m1.live.lookup a = none := by
  obtain ⟨ma, ea, e⟩ := Outcome.bind_eq_ok.mp e
  obtain ⟨mb, eb, e⟩ := Outcome.bind_eq_ok.mp e
  obtain ⟨mc, ec, e⟩ := Outcome.bind_eq_ok.mp e
  obtain ⟨md, ed, e⟩ := Outcome.bind_eq_ok.mp e
  cases e
  rw [hg] at ea
  have opt : ∀ {m m' : GMem W} {p : Option Nat}, m.freeOpt p = .ok m' → m'.live ⊆ m.live := by
    intro m m' p h
    cases p with
    | none => cases h; exact fun _ h => h
    | some p => exact gfree_sub h
  have hed : m1.live ⊆ mc.live := by
    cases he : g.edges with
    | none => rw [he] at ed; cases ed; exact fun _ h => h
    | some p =>
      rw [he] at ed
      obtain ⟨_, _, ed⟩ := Outcome.bind_eq_ok.mp ed
      obtain ⟨_, h1, ed⟩ := Outcome.bind_eq_ok.mp ed
      exact fun x hx => gfreeTable_sub _ _ _ h1 (gfree_sub ed hx)
  exact gone_mono hed (gone_mono (opt ec) (gone_mono (opt eb) (gfree_gone ea)))

/-- C98 fails for copies: cleaning a copy of a struct that holds a graph and has been cleaned is undefined behaviour (a copy made by `*copy = *g`, or in C++ by assignment, whose destructor does it). -/
theorem C98_copy_violated {m m1 : GMem W} {g g1 : GStruct} (hg : g.va ≠ none) (e : g.clean m = .ok (m1, g1)) : (g.clean m1).IsUB := by
  obtain ⟨a, ha⟩ := Option.ne_none_iff_exists'.mp hg
  have hgone := gclean_gone ha e
  refine ⟨"free of a block that is not allocated", ?_⟩
  have : m1.freeOpt g.va = .ub "free of a block that is not allocated" := by
    rw [ha]
    simp only [GMem.freeOpt, GMem.free]
    rw [if_pos hgone]
  unfold GStruct.clean
  rw [this]
  rfl

/-- A case for the three theorems above: a graph that is cleaned, copied before. -/
example : ∃ m g m1 g1, GStruct.run (noBlocks : GMem Nat) noGraph [.init 2 [0] [1] [5]] = .ok (m, g, [.nothing]) ∧ g.va ≠ none ∧ g.clean m = .ok (m1, g1) ∧ m1.live = [] :=
  ⟨_, _, _, _, rfl, by decide, rfl, rfl⟩

/-- A case for C98: two graphs one after the other in the same object, with self edges, a removal and sorting. -/
example : let calls : List (GCall Nat) := [.init 3 [0, 1, 2, 1] [1, 2, 0, 1] [6, 5, 9, 7], .neighbours 1, .remove 1 2, .neighbours 1, .sort, .edge 0, .clean, .init 2 [0] [1] [3], .neighbours 0]
    AllGSensible none calls ∧ ∃ m g m', GStruct.run noBlocks noGraph calls = .ok (m, g, [.nothing, .neighbours [0, 2, 1], .nothing, .neighbours [0, 1], .nothing, .edge (1, 2, 5), .nothing, .nothing, .neighbours [1]]) ∧
      GStruct.destroy m (some g) = .ok m' ∧ m'.live = [] := by
  refine ⟨?_, _, _, _, rfl, rfl, rfl⟩
  simp [AllGSensible, GSensible, shapeAfter]

end Verif.Props
