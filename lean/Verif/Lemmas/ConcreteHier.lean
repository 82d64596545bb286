import Verif.Lemmas.ConcreteSets
/-
Helper lemmas: the container-level construction of the hierarchy does what the construction on sequences and sets does.
-/
namespace Verif.Conc
open Spec AList
variable {W S : Type}

/-- The adjacency lists in memory hold the given sequences of vertices below 2^31. -/
abbrev AdjRel (adj : List (AList Nat)) (padj : List (List Nat)) : Prop := List.Forall₂ LRep adj padj

/-- The variables of the exploration. -/
structure ExRel (e : Ex) (p : Hier.Ex) : Prop where
  constr : URep e.constr p.constr
  unexpl : LRep e.unexpl p.unexpl
  examined : URep e.examined p.examined
  anyEdges : e.anyEdges = p.anyEdges
  inc : e.inc = p.inc
  numChild : e.numChild = p.numChild
  first : URep e.first p.first
  unexplFirst : URep e.unexplFirst p.unexplFirst

theorem visitAll : ∀ (nbs : List Nat), (∀ x ∈ nbs, x < 2147483648) → ∀ {e : Ex} {p : Hier.Ex}, ExRel e p →
    ∃ e', nbs.foldlM (fun s x => visitOne x s) e = .ok e' ∧ ExRel e' (Hier.visitNbrs nbs p) := by
  intro nbs
  induction nbs with
  | nil => intro _ e p h; exact ⟨e, rfl, h⟩
  | cons v r ih =>
    intro hb e p h
    have hv := hb v (by simp)
    obtain ⟨c, ec, hc⟩ := h.constr.insert hv
    have hb' : ∀ x ∈ r, x < 2147483648 := fun x hx => hb x (by simp [hx])
    by_cases hm : v ∈ p.constr
    · have hs : sInsert p.constr v = p.constr := if_pos hm
      rw [hs] at hc
      have e1 : visitOne v e = .ok { e with anyEdges := true, constr := c } := by
        unfold visitOne
        rw [ec, if_pos hm]
        rfl
      obtain ⟨e', e2, h2⟩ := ih hb' (e := { e with anyEdges := true, constr := c }) (p := { p with anyEdges := true })
        { h with constr := hc, anyEdges := rfl }
      refine ⟨e', by rw [List.foldlM_cons, e1]; exact e2, ?_⟩
      simp only [Hier.visitNbrs, if_pos hm]
      exact h2
    · obtain ⟨u, eu, hu⟩ := h.unexpl.append hv
      obtain ⟨t, x, ex, hx⟩ := h.examined.remove hv
      have e1 : visitOne v e = .ok { e with anyEdges := true, constr := c, unexpl := u, examined := x } := by
        unfold visitOne
        rw [ec, if_neg hm]
        simp only [Outcome.ok_bind, eu, ex]
        rfl
      obtain ⟨e', e2, h2⟩ := ih hb' (e := { e with anyEdges := true, constr := c, unexpl := u, examined := x })
        (p := { p with constr := sInsert p.constr v, unexpl := p.unexpl ++ [v], examined := sRemove p.examined v, anyEdges := true })
        { h with constr := hc, unexpl := hu, examined := hx, anyEdges := rfl }
      refine ⟨e', by rw [List.foldlM_cons, e1]; exact e2, ?_⟩
      simp only [Hier.visitNbrs, if_neg hm]
      exact h2

theorem putAside_rel {e : Ex} {p : Hier.Ex} (h : ExRel e p) : ∃ e', putAside e = .ok e' ∧ ExRel e' { p with
    inc := true
    numChild := p.numChild + 1
    first := p.constr.foldl sInsert p.first
    unexplFirst := p.unexpl.foldl sInsert p.unexplFirst } := by
  obtain ⟨f, ef, hf⟩ := putAll h.constr.rep h.constr.small h.first
  obtain ⟨u, eu, hu⟩ := putAll h.unexpl.rep h.unexpl.small h.unexplFirst
  refine ⟨{ e with inc := true, numChild := e.numChild + 1, first := f, unexplFirst := u }, ?_, ?_⟩
  · unfold putAside
    rw [ef, Outcome.ok_bind, eu]
    rfl
  · exact { h with first := hf, unexplFirst := hu, inc := rfl, numChild := by rw [h.numChild] }

theorem explore_rel {adj : List (AList Nat)} {padj : List (List Nat)} (ha : AdjRel adj padj) (minPoints : Nat) :
    ∀ (fuel : Nat) {e : Ex} {p : Hier.Ex}, ExRel e p → Refines ExRel (explore adj minPoints fuel e) (Hier.explore padj minPoints fuel p) := by
  intro fuel
  induction fuel with
  | zero =>
    intro e p h
    simp only [explore, Hier.explore]
    by_cases hu : p.unexpl = []
    · rw [if_pos hu, if_pos (h.unexpl.empty_iff.2 hu)]; exact .ok h
    · rw [if_neg hu]; exact .fail (by nofun)
  | succ fuel ih =>
    intro e p h
    simp only [explore, Hier.explore]
    cases hg : p.unexpl.getLast? with
    | none =>
      have hu : p.unexpl = [] := List.getLast?_eq_none_iff.1 hg
      rw [if_pos (h.unexpl.empty_iff.2 hu)]
      exact .ok h
    | some v =>
      have hu : p.unexpl ≠ [] := by rintro e; rw [e] at hg; simp at hg
      rw [if_neg (fun e => hu (h.unexpl.empty_iff.1 e))]
      obtain ⟨u, eu, hu'⟩ := h.unexpl.pop hg
      rw [← Outcome.bind_assoc, eu]
      simp only [Outcome.ok_bind]
      refine Refines.bind (Refines.rd ha v) ?_
      intro nbrs nb _ hnb
      obtain ⟨e1, ev, h1⟩ := visitAll nb hnb.small (e := { e with unexpl := u }) (p := { p with unexpl := p.unexpl.dropLast })
        { h with unexpl := hu' }
      rw [forEach_rep hnb.rep, ev]
      simp only [Outcome.ok_bind]
      generalize Hier.visitNbrs nb { p with unexpl := p.unexpl.dropLast } = p1 at h1
      rw [h1.inc, h1.anyEdges, h1.constr.size]
      by_cases c1 : p1.inc = false ∧ minPoints ≤ p1.constr.length ∧ p1.anyEdges = true
      · rw [if_pos c1, if_pos c1]
        by_cases c2 : p1.first = []
        · rw [if_pos c2, if_pos (h1.first.empty_iff.2 c2)]
          obtain ⟨e', e2, h2⟩ := putAside_rel h1
          rw [e2]
          exact .ok h2
        · rw [if_neg c2, if_neg (fun e => c2 (h1.first.empty_iff.1 e))]
          exact ih { h1 with inc := rfl, numChild := by rw [h1.numChild], anyEdges := rfl }
      · rw [if_neg c1, if_neg c1]
        exact ih h1

theorem growAll : ∀ (nbs : List Nat), (∀ x ∈ nbs, x < 2147483648) → ∀ {r : AList Nat × AList Nat} {p : List Nat × List Nat},
    URep r.1 p.1 → URep r.2 p.2 → ∃ r', nbs.foldlM (fun s x => growOne x s) r = .ok r' ∧ URep r'.1 (Hier.growNbrs nbs p).1 ∧
      URep r'.2 (Hier.growNbrs nbs p).2 := by
  intro nbs
  induction nbs with
  | nil => intro _ r p h1 h2; exact ⟨r, rfl, h1, h2⟩
  | cons v l ih =>
    intro hb r p h1 h2
    obtain ⟨f0, u0⟩ := r
    obtain ⟨pf, pu⟩ := p
    have hv := hb v (by simp)
    have hb' : ∀ x ∈ l, x < 2147483648 := fun x hx => hb x (by simp [hx])
    obtain ⟨f, ef, hf⟩ := h1.insert hv
    simp only at ef hf
    by_cases hm : v ∈ pf
    · have hs : sInsert pf v = pf := if_pos hm
      rw [hs] at hf
      have e1 : growOne v (f0, u0) = .ok (f, u0) := by
        unfold growOne
        rw [ef, if_pos hm]
        rfl
      obtain ⟨r', e2, h3⟩ := ih hb' (r := (f, u0)) (p := (pf, pu)) hf h2
      refine ⟨r', by rw [List.foldlM_cons, e1]; exact e2, ?_⟩
      simp only [Hier.growNbrs, if_pos hm]
      exact h3
    · obtain ⟨u, eu, hu⟩ := h2.put hv
      simp only at eu hu
      have e1 : growOne v (f0, u0) = .ok (f, u) := by
        unfold growOne
        rw [ef, if_neg hm]
        simp only [Outcome.ok_bind, eu]
        rfl
      obtain ⟨r', e2, h3⟩ := ih hb' (r := (f, u)) (p := (sInsert pf v, sInsert pu v)) hf hu
      refine ⟨r', by rw [List.foldlM_cons, e1]; exact e2, ?_⟩
      simp only [Hier.growNbrs, if_neg hm]
      exact h3

theorem growFirst_rel {adj : List (AList Nat)} {padj : List (List Nat)} (ha : AdjRel adj padj) :
    ∀ (fuel : Nat) {r : AList Nat × AList Nat} {p : List Nat × List Nat}, URep r.1 p.1 → URep r.2 p.2 →
      Refines (fun (r' : AList Nat × AList Nat) f => URep r'.1 f ∧ ∃ q, URep r'.2 q) (growFirst adj fuel r) (Hier.growFirst padj fuel p) := by
  intro fuel
  induction fuel with
  | zero =>
    intro r p h1 h2
    obtain ⟨f0, u0⟩ := r
    obtain ⟨pf, pu⟩ := p
    simp only [growFirst, Hier.growFirst]
    by_cases hu : pu = []
    · rw [if_pos hu, if_pos (h2.empty_iff.2 hu)]; exact .ok ⟨h1, _, h2⟩
    · rw [if_neg hu]; exact .fail (by nofun)
  | succ fuel ih =>
    intro r p h1 h2
    obtain ⟨f0, u0⟩ := r
    obtain ⟨pf, pu⟩ := p
    simp only [growFirst, Hier.growFirst]
    cases hg : pu.getLast? with
    | none =>
      have hu : pu = [] := List.getLast?_eq_none_iff.1 hg
      rw [if_pos (h2.empty_iff.2 hu)]
      exact .ok ⟨h1, _, h2⟩
    | some v =>
      have hu : pu ≠ [] := by rintro e; rw [e] at hg; simp at hg
      rw [if_neg (fun e => hu (h2.empty_iff.1 e))]
      obtain ⟨u, eu, hu'⟩ := h2.removeLast hg
      simp only at eu hu'
      rw [← Outcome.bind_assoc, eu]
      simp only [Outcome.ok_bind]
      refine Refines.bind (Refines.rd ha v) ?_
      intro nbrs nb _ hnb
      obtain ⟨r1, ev, h3, h4⟩ := growAll nb hnb.small (r := (f0, u)) (p := (pf, pu.dropLast)) h1 hu'
      rw [forEach_rep hnb.rep, ev]
      exact ih h3 h4

/-! ### Clusters and pointers -/

/-- The cluster at the end of the pointer at index `l`. -/
def ptrAt (ptrs : List (Option Nat)) (l : Nat) : Option Nat := (ptrs[l]?).join

/-- A cluster in memory and the cluster of the model; `ptrs` gives the address of the cluster with a given label. -/
structure ClRel (ptrs : List (Option Nat)) (c : CCl W S) (p : Cl W S) : Prop where
  label : c.label = p.label
  birth : c.birth = p.birth
  death : c.death = p.death
  numPoints : c.numPoints = p.numPoints
  offset : c.offset = p.offset
  stability : c.stability = p.stability
  propStability : c.propStability = p.propStability
  propLowest : c.propLowest = p.propLowest
  ncs : c.ncs = p.ncs
  pncs : c.pncs = p.pncs
  vchild : URep c.vchild p.vchild
  parent : c.parent = p.parent.bind (ptrAt ptrs)
  known : ∀ q, p.parent = some q → ∃ a, ptrAt ptrs q = some a
  desc : ∃ ds : List Nat, Rep c.desc ds ∧ List.Forall₂ (fun a l => ptrAt ptrs l = some a) ds p.desc
  hasChildren : c.hasChildren = p.hasChildren

/-- All clusters: `ptrs` are the addresses stored in `sc->clusters`, `heap` the clusters in memory. -/
structure CRel (heap : List (CCl W S)) (ptrs : List (Option Nat)) (cs : List (Option (Cl W S))) : Prop where
  len : ptrs.length = cs.length
  null : ∀ l : Nat, cs[l]? = some none → ptrs[l]? = some none
  cell : ∀ (l : Nat) (p : Cl W S), cs[l]? = some (some p) → ∃ a c, ptrs[l]? = some (some a) ∧ heap[a]? = some c ∧ ClRel ptrs c p
  inj : ∀ (l l' a : Nat), ptrs[l]? = some (some a) → ptrs[l']? = some (some a) → l = l'

theorem ptrAt_some {ptrs : List (Option Nat)} {l a : Nat} : ptrAt ptrs l = some a ↔ ptrs[l]? = some (some a) := by
  unfold ptrAt
  cases ptrs[l]? with
  | none => simp
  | some x => simp

theorem ptrAt_append {ptrs : List (Option Nat)} {l a : Nat} (x : List (Option Nat)) (h : ptrAt ptrs l = some a) : ptrAt (ptrs ++ x) l = some a := by
  rw [ptrAt_some] at *
  have hl : l < ptrs.length := by
    by_contra hn
    rw [List.getElem?_eq_none (by omega)] at h
    simp at h
  rw [List.getElem?_append_left hl]
  exact h

theorem ClRel.extend {ptrs : List (Option Nat)} {c : CCl W S} {p : Cl W S} (h : ClRel ptrs c p) (x : List (Option Nat)) : ClRel (ptrs ++ x) c p := by
  refine { h with parent := ?_, known := ?_, desc := ?_ }
  · rw [h.parent]
    cases hp : p.parent with
    | none => rfl
    | some q =>
      obtain ⟨a, ha⟩ := h.known q hp
      simp only [Option.bind_some, ha, ptrAt_append x ha]
  · intro q hq
    obtain ⟨a, ha⟩ := h.known q hq
    exact ⟨a, ptrAt_append x ha⟩
  · obtain ⟨ds, h1, h2⟩ := h.desc
    exact ⟨ds, h1, h2.imp (fun _ _ hal => ptrAt_append x hal)⟩

/-- Reading a cluster: the pointer and what it points to. -/
theorem CRel.get {heap : List (CCl W S)} {ptrs : List (Option Nat)} {cs : List (Option (Cl W S))} (h : CRel heap ptrs cs)
    {clusters : AList (Option Nat)} (hc : Rep clusters ptrs) (l : Nat) {p : Cl W S} (e : getCl cs l = .ok p) :
    ∃ a c, pick clusters l = .ok a ∧ deref heap a = .ok c ∧ ptrs[l]? = some (some a) ∧ heap[a]? = some c ∧ ClRel ptrs c p ∧ cs[l]? = some (some p) := by
  have e1 : cs[l]? = some (some p) := by
    unfold getCl rd at e
    cases hl : cs[l]? with
    | none => rw [hl] at e; simp at e
    | some x =>
      rw [hl] at e
      simp only [Outcome.ok_bind] at e
      cases x with
      | none => simp at e
      | some y => simp only [Outcome.pure_eq, Outcome.ok.injEq] at e; rw [e]
  obtain ⟨a, c, h1, h2, h3⟩ := h.cell l p e1
  have hl : l < ptrs.length := by
    by_contra hn
    rw [List.getElem?_eq_none (by omega)] at h1
    simp at h1
  have hl' : ptrs[l] = some a := by
    rw [List.getElem?_eq_getElem hl] at h1
    simpa using h1
  refine ⟨a, c, ?_, ?_, h1, h2, h3, e1⟩
  · unfold pick
    rw [readSlot_rep hc hl, hl']
    rfl
  · unfold deref rd
    rw [h2]

/-- Writing a cluster. -/
theorem CRel.set {heap : List (CCl W S)} {ptrs : List (Option Nat)} {cs : List (Option (Cl W S))} (h : CRel heap ptrs cs) {l a : Nat}
    (hp : ptrs[l]? = some (some a)) {c : CCl W S} {p : Cl W S} (hr : ClRel ptrs c p) (ha : a < heap.length) :
    CRel (heap.set a c) ptrs (cs.set l (some p)) := by
  have hl : l < ptrs.length := by
    by_contra hn
    rw [List.getElem?_eq_none (by omega)] at hp
    simp at hp
  have hl' : l < cs.length := by rw [← h.len]; exact hl
  refine ⟨by simp [h.len], ?_, ?_, h.inj⟩
  · intro k hk
    by_cases hkl : l = k
    · subst hkl
      rw [List.getElem?_set_self hl'] at hk
      simp at hk
    · rw [List.getElem?_set_ne hkl] at hk
      exact h.null k hk
  · intro k q hk
    by_cases hkl : l = k
    · subst hkl
      rw [List.getElem?_set_self hl'] at hk
      simp only [Option.some.injEq] at hk
      subst hk
      exact ⟨a, c, hp, List.getElem?_set_self ha, hr⟩
    · rw [List.getElem?_set_ne hkl] at hk
      obtain ⟨a', c', h1, h2, h3⟩ := h.cell k q hk
      refine ⟨a', c', h1, ?_, h3⟩
      have hne : a ≠ a' := by
        rintro rfl
        exact hkl (h.inj l k a hp h1)
      rw [List.getElem?_set_ne hne]
      exact h2

/-- A new cluster. -/
theorem CRel.push {heap : List (CCl W S)} {ptrs : List (Option Nat)} {cs : List (Option (Cl W S))} (h : CRel heap ptrs cs) {c : CCl W S} {p : Cl W S}
    (hr : ClRel ptrs c p) (hin : ∀ (l a : Nat), ptrs[l]? = some (some a) → a < heap.length) :
    CRel (heap ++ [c]) (ptrs ++ [some heap.length]) (cs ++ [some p]) := by
  have hlen := h.len
  refine ⟨by simp [h.len], ?_, ?_, ?_⟩
  · intro k hk
    by_cases hkl : k < cs.length
    · rw [List.getElem?_append_left hkl] at hk
      rw [List.getElem?_append_left (by omega)]
      exact h.null k hk
    · rw [List.getElem?_append_right (by omega)] at hk
      cases hkk : k - cs.length with
      | zero => rw [hkk] at hk; simp at hk
      | succ j => rw [hkk] at hk; simp at hk
  · intro k q hk
    by_cases hkl : k < cs.length
    · rw [List.getElem?_append_left hkl] at hk
      obtain ⟨a', c', h1, h2, h3⟩ := h.cell k q hk
      refine ⟨a', c', ?_, ?_, h3.extend _⟩
      · rw [List.getElem?_append_left (by omega)]; exact h1
      · rw [List.getElem?_append_left (hin k a' h1)]; exact h2
    · rw [List.getElem?_append_right (by omega)] at hk
      have hk0 : k = cs.length := by
        cases hkk : k - cs.length with
        | zero => omega
        | succ j => rw [hkk] at hk; simp at hk
      subst hk0
      simp only [Nat.sub_self, List.getElem?_cons_zero, Option.some.injEq] at hk
      subst hk
      refine ⟨heap.length, c, ?_, ?_, hr.extend _⟩
      · rw [← hlen]; simp
      · simp
  · intro l l' a h1 h2
    have key : ∀ k b, (ptrs ++ [some heap.length])[k]? = some (some b) → (ptrs[k]? = some (some b) ∧ b < heap.length) ∨ (k = ptrs.length ∧ b = heap.length) := by
      intro k b hk
      by_cases hkl : k < ptrs.length
      · rw [List.getElem?_append_left hkl] at hk
        exact .inl ⟨hk, hin k b hk⟩
      · rw [List.getElem?_append_right (by omega)] at hk
        cases hkk : k - ptrs.length with
        | zero =>
          rw [hkk] at hk
          simp only [List.getElem?_cons_zero, Option.some.injEq] at hk
          exact .inr ⟨by omega, hk.symm⟩
        | succ j => rw [hkk] at hk; simp at hk
    rcases key l a h1 with ⟨k1, k2⟩ | ⟨k1, k2⟩ <;> rcases key l' a h2 with ⟨m1, m2⟩ | ⟨m1, m2⟩
    · exact h.inj l l' a k1 m1
    · omega
    · omega
    · omega

/-- What `hdbscan_create_new_cluster` and its callers change. -/
structure WorkRel (w : Work W S) (p : Hier.Work W S) : Prop where
  cur : w.cur = p.cur
  next : w.next = p.next
  noise : w.noise = p.noise
  last : w.last = p.last
  /-- the next label is the next index of `sc->clusters` -/
  count : p.clusters.length = p.next
  labels : ∀ x ∈ p.cur, x < p.next
  clusters : ∃ ptrs : List (Option Nat), Rep w.clusters ptrs ∧ CRel w.heap ptrs p.clusters ∧
    (∀ (l a : Nat), ptrs[l]? = some (some a) → a < w.heap.length) ∧
    ∃ fs : List Nat, Rep w.fresh fs ∧ List.Forall₂ (fun a l => ptrAt ptrs l = some a) fs p.fresh

theorem setAll_fold {α : Type} (x : α) : ∀ (ps : List Nat) (a : List α), ps.foldlM (fun s d => wr s d x) a = Hier.setAll x ps a := by
  intro ps
  induction ps with
  | nil => intro a; rfl
  | cons p r ih =>
    intro a
    rw [List.foldlM_cons]
    simp only [Hier.setAll]
    cases wr a p x with
    | ok a' => simp only [Outcome.ok_bind]; exact ih a'
    | ub w => rfl
    | abort w => rfl
    | diverge => rfl

theorem setAll_mem {α : Type} {x : α} : ∀ {ps : List Nat} {a a' : List α}, Hier.setAll x ps a = .ok a' → ∀ y ∈ a', y ∈ a ∨ y = x := by
  intro ps
  induction ps with
  | nil => intro a a' e y hy; cases e; exact .inl hy
  | cons p r ih =>
    intro a a' e y hy
    simp only [Hier.setAll] at e
    obtain ⟨b, e1, e2⟩ := Outcome.bind_eq_ok.1 e
    have hb : b = a.set p x := by
      unfold wr at e1
      split at e1
      · cases e1; rfl
      · simp at e1
    rcases ih e2 y hy with h | h
    · subst hb
      rcases List.mem_or_eq_of_mem_set h with h | h
      · exact .inl h
      · exact .inr h
    · exact .inr h

theorem detach_rel {ar : Arith W S} {ptrs : List (Option Nat)} {c : CCl W S} {p : Cl W S} (h : ClRel ptrs c p) (k : Nat) (w : W) :
    ClRel ptrs (c.detach ar k w) (p.detach ar k w).1 := by
  unfold CCl.detach Cl.detach Cl.detachTo
  rw [h.numPoints, h.stability, h.birth, h.death]
  simp only
  by_cases h0 : subIndex p.numPoints k = 0
  · simp only [if_pos h0]
    exact { h with numPoints := rfl, stability := rfl, death := rfl, birth := rfl }
  · simp only [if_neg h0]
    rw [if_neg (by omega)]
    exact { h with numPoints := rfl, stability := rfl, death := rfl, birth := rfl }

theorem wr_inv {α : Type} {a a' : List α} {i : Nat} {x : α} (e : wr a i x = .ok a') : i < a.length ∧ a' = a.set i x := by
  unfold wr at e
  split at e
  · cases e; exact ⟨by assumption, rfl⟩
  · simp at e

theorem set_set_same {α : Type} (a : List α) (i : Nat) (x y : α) : (a.set i x).set i y = a.set i y := List.set_set x

theorem clInit_rel {ar : Arith W S} {ptrs : List (Option Nat)} (label : Nat) (parent : Option Nat) (birth : Option W) (k : Nat)
    (hp : ∀ q, parent = some q → ∃ a, ptrAt ptrs q = some a) :
    ∃ c, CCl.init ar label (parent.bind (ptrAt ptrs)) birth k = .ok c ∧ ClRel ptrs c (Cl.init ar label parent birth k) := by
  obtain ⟨v, ev, hv, _⟩ := urep_init
  obtain ⟨d, ed, hd, _⟩ := rep_init (α := Nat) (n := 1) (by omega)
  unfold CCl.init
  rw [ev, Outcome.ok_bind, ed, Outcome.ok_bind]
  exact ⟨_, rfl, rfl, rfl, rfl, rfl, rfl, rfl, rfl, rfl, rfl, rfl, hv, rfl, hp, ⟨[], hd, .nil⟩, rfl⟩

theorem newCluster_rel {ar : Arith W S} {points : AList Nat} {ps : List Nat} (hps : URep points ps) (label : Nat) (level : W) {w : Work W S}
    {p : Hier.Work W S} (h : WorkRel w p) :
    Refines WorkRel (newCluster ar points label level w) (Hier.newCluster ar ps label level p) := by
  intro p' e
  unfold Hier.newCluster at e
  obtain ⟨cur', e1, e⟩ := Outcome.bind_eq_ok.1 e
  obtain ⟨pc, e2, e⟩ := Outcome.bind_eq_ok.1 e
  obtain ⟨cs, e3, e⟩ := Outcome.bind_eq_ok.1 e
  simp only [Outcome.pure_eq, Outcome.ok.injEq] at e
  obtain ⟨ptrs, hrep, hcr, hin, fs, hfs, hff⟩ := h.clusters
  obtain ⟨a, c, g1, g2, g3, g4, g5, g6⟩ := hcr.get hrep label e2
  have ha : a < w.heap.length := hin label a g3
  obtain ⟨_, rfl⟩ := wr_inv e3
  have hd := detach_rel (ar := ar) g5 ps.length level
  -- the parent
  obtain ⟨new, en, hn⟩ := clInit_rel (ar := ar) (ptrs := ptrs) p.next (some label) (some level) ps.length
    (fun q hq => by cases hq; exact ⟨a, ptrAt_some.2 g3⟩)
  rw [Option.bind_some, ptrAt_some.2 g3] at en
  set heap2 := w.heap.set a { c.detach ar ps.length level with hasChildren := true } with hheap2
  have hlen2 : heap2.length = w.heap.length := by simp [hheap2]
  obtain ⟨fresh', ef, hfr, _⟩ := append_rep hfs heap2.length
  obtain ⟨cl', ecl, hcl, _⟩ := append_rep hrep (some heap2.length)
  have hcr2 : CRel heap2 ptrs (p.clusters.set label (some { (pc.detach ar ps.length level).1 with hasChildren := true })) :=
    hcr.set g3 { hd with hasChildren := rfl } ha
  have hcr3 := hcr2.push hn (by intro l b hb; rw [hlen2]; exact hin l b hb)
  refine ⟨{ w with cur := cur', heap := heap2 ++ [new], clusters := cl', next := w.next + 1, fresh := fresh' }, ?_, ?_⟩
  · unfold newCluster
    rw [g1, Outcome.ok_bind, forEach_rep hps.rep, setAll_fold, h.next, h.cur, e1]
    simp only [Outcome.ok_bind]
    rw [g2, Outcome.ok_bind, hps.size, wr_ok ha, Outcome.ok_bind, en, Outcome.ok_bind]
    unfold deref
    rw [rd_ok (by simpa using ha), Outcome.ok_bind, wr_ok (by simpa using ha), Outcome.ok_bind]
    simp only [List.getElem_set_self, set_set_same]
    rw [← hheap2, ef, Outcome.ok_bind, ecl]
    rfl
  · subst e
    refine ⟨rfl, by rw [h.next], h.noise, h.last, by simp [h.count], ?_, ⟨ptrs ++ [some heap2.length], hcl, hcr3, ?_, fs ++ [heap2.length], hfr, ?_⟩⟩
    · intro x hx
      rcases setAll_mem e1 x hx with hx | rfl
      · have := h.labels x hx; show x < p.next + 1; omega
      · show p.next < p.next + 1; omega
    · intro l b hb
      rw [List.length_append]
      by_cases hl : l < ptrs.length
      · rw [List.getElem?_append_left hl] at hb
        have := hin l b hb
        simp only [List.length_singleton]; omega
      · rw [List.getElem?_append_right (by omega)] at hb
        cases hkk : l - ptrs.length with
        | zero =>
          rw [hkk] at hb
          simp only [List.getElem?_cons_zero, Option.some.injEq] at hb
          simp only [List.length_singleton]; omega
        | succ j => rw [hkk] at hb; simp at hb
    · refine List.rel_append ?_ ?_
      · exact hff.imp (fun _ _ hal => ptrAt_append _ hal)
      · refine .cons ?_ .nil
        rw [ptrAt_some]
        have : p.next = ptrs.length := by rw [hcr.len, h.count]
        rw [this]
        simp

theorem newNoise_rel {ar : Arith W S} {points : AList Nat} {ps : List Nat} (hps : URep points ps) (label : Nat) (level : W) {w : Work W S}
    {p : Hier.Work W S} (h : WorkRel w p) (hnext : 0 < p.next) :
    Refines WorkRel (newNoise ar points label level w) (Hier.newNoise ar ps label level p) := by
  intro p' e
  unfold Hier.newNoise at e
  obtain ⟨cur', e1, e⟩ := Outcome.bind_eq_ok.1 e
  obtain ⟨pc, e2, e⟩ := Outcome.bind_eq_ok.1 e
  obtain ⟨cs, e3, e⟩ := Outcome.bind_eq_ok.1 e
  obtain ⟨noise', e4, e⟩ := Outcome.bind_eq_ok.1 e
  obtain ⟨last', e5, e⟩ := Outcome.bind_eq_ok.1 e
  simp only [Outcome.pure_eq, Outcome.ok.injEq] at e
  obtain ⟨ptrs, hrep, hcr, hin, hfs⟩ := h.clusters
  obtain ⟨a, c, g1, g2, g3, g4, g5, g6⟩ := hcr.get hrep label e2
  have ha : a < w.heap.length := hin label a g3
  obtain ⟨_, rfl⟩ := wr_inv e3
  have hd := detach_rel (ar := ar) g5 ps.length level
  obtain ⟨v, ev, hv⟩ := putAll hps.rep hps.small hd.vchild
  have hcr2 : CRel (w.heap.set a { c.detach ar ps.length level with vchild := v }) ptrs
      (p.clusters.set label (some ((pc.detach ar ps.length level).1.addVirtual ps))) :=
    hcr.set g3 { hd with vchild := hv } ha
  refine ⟨{ w with cur := cur', heap := w.heap.set a { c.detach ar ps.length level with vchild := v }, noise := noise', last := last' }, ?_, ?_⟩
  · unfold newNoise
    rw [g1, Outcome.ok_bind, forEach_rep hps.rep, setAll_fold, h.cur, e1]
    simp only [Outcome.ok_bind]
    rw [g2, Outcome.ok_bind, hps.size, wr_ok ha, Outcome.ok_bind]
    unfold deref
    rw [rd_ok (by simpa using ha), Outcome.ok_bind]
    simp only [List.getElem_set_self]
    unfold CCl.addVirtual
    rw [ev]
    simp only [Outcome.ok_bind, Outcome.pure_eq]
    rw [wr_ok (by simpa using ha), Outcome.ok_bind, set_set_same, forEach_rep hps.rep, setAll_fold, h.noise, e4, Outcome.ok_bind,
      forEach_rep hps.rep, setAll_fold, h.last, e5]
    rfl
  · subst e
    refine ⟨rfl, h.next, rfl, rfl, by simp [h.count], ?_, ⟨ptrs, hrep, hcr2, ?_, hfs⟩⟩
    · intro x hx
      rcases setAll_mem e1 x hx with hx | rfl
      · exact h.labels x hx
      · exact hnext
    · intro l b hb
      rw [List.length_set]
      exact hin l b hb

theorem newCluster_next {ar : Arith W S} {ps : List Nat} {label : Nat} {level : W} {p p' : Hier.Work W S}
    (e : Hier.newCluster ar ps label level p = .ok p') : p'.next = p.next + 1 := by
  unfold Hier.newCluster at e
  obtain ⟨cur', e1, e⟩ := Outcome.bind_eq_ok.1 e
  obtain ⟨pc, e2, e⟩ := Outcome.bind_eq_ok.1 e
  obtain ⟨cs, e3, e⟩ := Outcome.bind_eq_ok.1 e
  simp only [Outcome.pure_eq, Outcome.ok.injEq] at e
  subst e
  rfl

theorem newNoise_next {ar : Arith W S} {ps : List Nat} {label : Nat} {level : W} {p p' : Hier.Work W S}
    (e : Hier.newNoise ar ps label level p = .ok p') : p'.next = p.next := by
  unfold Hier.newNoise at e
  obtain ⟨cur', e1, e⟩ := Outcome.bind_eq_ok.1 e
  obtain ⟨pc, e2, e⟩ := Outcome.bind_eq_ok.1 e
  obtain ⟨cs, e3, e⟩ := Outcome.bind_eq_ok.1 e
  obtain ⟨noise', e4, e⟩ := Outcome.bind_eq_ok.1 e
  obtain ⟨last', e5, e⟩ := Outcome.bind_eq_ok.1 e
  simp only [Outcome.pure_eq, Outcome.ok.injEq] at e
  subst e
  rfl

/-- The exploration and the work state together. -/
def PairRel (x : Ex × Work W S) (y : Hier.Ex × Hier.Work W S) : Prop := ExRel x.1 y.1 ∧ WorkRel x.2 y.2 ∧ 0 < y.2.next

theorem settle_rel {ar : Arith W S} (minPoints label : Nat) (level : W) {e : Ex} {p : Hier.Ex} (he : ExRel e p) {w : Work W S} {q : Hier.Work W S}
    (hw : WorkRel w q) (hnext : 0 < q.next) :
    Refines PairRel (settle ar minPoints label level e w) (Hier.settle ar minPoints label level p q) := by
  unfold settle Hier.settle
  rw [he.numChild, he.constr.size, he.anyEdges]
  by_cases c1 : 2 ≤ p.numChild ∧ minPoints ≤ p.constr.length ∧ p.anyEdges = true
  · rw [if_pos c1, if_pos c1]
    cases hg : p.first.getLast? with
    | none => exact .fail (by nofun)
    | some m =>
      have hne : p.first ≠ [] := by rintro e; rw [e] at hg; simp at hg
      have hmem : m ∈ p.first := List.mem_of_getLast? hg
      have el : lastOf e.first = .ok m := by
        unfold lastOf
        have hlen : e.first.size - 1 < p.first.length := by
          have := List.length_pos_iff.2 hne
          rw [he.first.size]; omega
        rw [if_neg (fun h => hne (he.first.empty_iff.1 h)), readSlot_rep he.first.rep hlen]
        congr 1
        rw [List.getLast?_eq_getElem?, ← he.first.size, List.getElem?_eq_getElem hlen] at hg
        simpa using hg
      rw [el, Outcome.ok_bind]
      obtain ⟨r, er, hr⟩ := he.constr.find (he.first.small m hmem)
      rw [er, Outcome.ok_bind]
      by_cases c2 : m ∈ p.constr
      · rw [if_pos (hr.2 c2)]
        simp only [if_pos c2]
        exact .ok ⟨{ he with numChild := rfl, anyEdges := rfl }, hw, hnext⟩
      · rw [if_neg (fun h => c2 (hr.1 h))]
        simp only [if_neg c2]
        refine Refines.bind (newCluster_rel he.constr label level hw) ?_
        intro a b eb hab
        exact .ok ⟨he, hab, by rw [newCluster_next eb]; omega⟩
  · rw [if_neg c1, if_neg c1]
    by_cases c2 : p.constr.length < minPoints ∨ p.anyEdges = false
    · rw [if_pos c2, if_pos c2]
      refine Refines.bind (newNoise_rel he.constr label level hw hnext) ?_
      intro a b eb hab
      exact .ok ⟨he, hab, by rw [newNoise_next eb]; omega⟩
    · rw [if_neg c2, if_neg c2]
      exact .ok ⟨he, hw, hnext⟩

theorem roots_rel {ar : Arith W S} {adj : List (AList Nat)} {padj : List (List Nat)} (ha : AdjRel adj padj) (minPoints label : Nat) (level : W) :
    ∀ (fuel : Nat) {e : Ex} {p : Hier.Ex} {w : Work W S} {q : Hier.Work W S}, ExRel e p → WorkRel w q → 0 < q.next →
      Refines PairRel (roots ar adj minPoints label level fuel e w) (Hier.roots ar padj minPoints label level fuel p q) := by
  intro fuel
  induction fuel with
  | zero =>
    intro e p w q he hw hn
    simp only [roots, Hier.roots]
    by_cases hu : p.examined = []
    · rw [if_pos hu, if_pos (he.examined.empty_iff.2 hu)]; exact .ok ⟨he, hw, hn⟩
    · rw [if_neg hu]; exact .fail (by nofun)
  | succ fuel ih =>
    intro e p w q he hw hn
    simp only [roots, Hier.roots]
    cases hg : p.examined.getLast? with
    | none =>
      have hu : p.examined = [] := List.getLast?_eq_none_iff.1 hg
      rw [if_pos (he.examined.empty_iff.2 hu)]
      exact .ok ⟨he, hw, hn⟩
    | some root =>
      have hu : p.examined ≠ [] := by rintro e; rw [e] at hg; simp at hg
      rw [if_neg (fun e => hu (he.examined.empty_iff.1 e))]
      obtain ⟨x, ex, hx⟩ := he.examined.removeLast hg
      rw [← Outcome.bind_assoc, ex]
      have hroot : root < 2147483648 := he.examined.small root (List.mem_of_getLast? hg)
      obtain ⟨c, ec, hc⟩ := he.constr.put hroot
      obtain ⟨u, eu, hu'⟩ := he.unexpl.append hroot
      simp only [Outcome.ok_bind, ec, eu]
      have hlen : adj.length = padj.length := ha.length_eq
      rw [hlen]
      refine Refines.bind (explore_rel ha minPoints (padj.length + 1)
        (e := { e with examined := x, constr := c, unexpl := u, anyEdges := false, inc := false })
        { he with examined := hx, constr := hc, unexpl := hu', anyEdges := rfl, inc := rfl }) ?_
      intro e1 p1 _ h1
      refine Refines.bind (settle_rel minPoints label level h1 hw hn) ?_
      rintro ⟨e2, w2⟩ ⟨p2, q2⟩ _ ⟨h2, h3, h4⟩
      exact ih { h2 with constr := h2.constr.clear, unexpl := h2.unexpl.clear } h3 h4

theorem finish_rel {ar : Arith W S} {adj : List (AList Nat)} {padj : List (List Nat)} (ha : AdjRel adj padj) (label : Nat) (level : W)
    {e : Ex} {p : Hier.Ex} {w : Work W S} {q : Hier.Work W S} (he : ExRel e p) (hw : WorkRel w q) (hn : 0 < q.next) :
    Refines (fun (x : Ex × Work W S) (y : Hier.Work W S) => (URep x.1.constr p.constr ∧ LRep x.1.unexpl p.unexpl ∧ URep x.1.examined p.examined ∧
        (∃ f, URep x.1.first f) ∧ ∃ u, URep x.1.unexplFirst u) ∧ WorkRel x.2 y ∧ 0 < y.next)
      (finish ar adj label level e w) (Hier.finish ar padj label level p q) := by
  unfold finish Hier.finish splitPending
  have hpk : ∃ o, peekFirst e.first = .ok o ∧ ∀ d, p.first[0]? = some d → o = some d := by
    obtain ⟨h1, h2, h3, rest, h4⟩ := he.first.rep
    unfold peekFirst
    have h5 : 0 < e.first.buf.length := by rw [← h2]; exact h3
    rw [List.getElem?_eq_getElem h5]
    refine ⟨_, rfl, ?_⟩
    intro d hd
    have h6 : e.first.buf[0]? = some (some d) := by
      rw [h4]
      have : 0 < p.first.length := by
        by_contra hn
        rw [List.getElem?_eq_none (by omega)] at hd
        simp at hd
      rw [List.getElem?_append_left (by simpa using this)]
      simp [hd]
    rw [List.getElem?_eq_getElem h5] at h6
    simpa using h6
  obtain ⟨o, eo, ho⟩ := hpk
  rw [eo, Outcome.ok_bind, he.numChild]
  by_cases c1 : 2 ≤ p.numChild
  · rw [if_pos c1, if_pos c1]
    intro y ey
    obtain ⟨dd, e1, ey⟩ := Outcome.bind_eq_ok.1 ey
    obtain ⟨l, e2, ey⟩ := Outcome.bind_eq_ok.1 ey
    have hd : p.first[0]? = some dd := by
      unfold rd at e1
      cases h0 : p.first[0]? with
      | none => rw [h0] at e1; simp at e1
      | some z => rw [h0] at e1; simpa using e1
    rw [ho dd hd]
    simp only
    rw [hw.cur, e2]
    simp only [Outcome.ok_bind, Outcome.pure_eq]
    by_cases c2 : l = label
    · rw [if_pos (decide_eq_true c2)]
      rw [if_pos c2] at ey
      obtain ⟨f, e3, e4⟩ := Outcome.bind_eq_ok.1 ey
      have hlen : adj.length = padj.length := ha.length_eq
      rw [hlen]
      obtain ⟨r, e5, h5, u, h6⟩ := growFirst_rel ha (padj.length + 1) (r := (e.first, e.unexplFirst)) (p := (p.first, p.unexplFirst))
        he.first he.unexplFirst f e3
      obtain ⟨w', e6, h7⟩ := newCluster_rel h5 label level hw y e4
      refine ⟨({ e with first := r.1, unexplFirst := r.2, numChild := p.numChild }, w'), ?_, ⟨he.constr, he.unexpl, he.examined, ⟨f, h5⟩, ⟨u, h6⟩⟩, h7,
        by rw [newCluster_next e4]; omega⟩
      rw [e5, Outcome.ok_bind, e6]
      rfl
    · rw [if_neg (by simpa using c2)]
      rw [if_neg c2] at ey
      cases ey
      exact ⟨(e, w), rfl, ⟨he.constr, he.unexpl, he.examined, ⟨_, he.first⟩, ⟨_, he.unexplFirst⟩⟩, hw, hn⟩
  · rw [if_neg c1, if_neg c1]
    simp only [Outcome.ok_bind]
    exact .ok ⟨⟨he.constr, he.unexpl, he.examined, ⟨_, he.first⟩, ⟨_, he.unexplFirst⟩⟩, hw, hn⟩

theorem sRemove_middle {a b : List Nat} {v : Nat} (h : (a ++ v :: b).Pairwise (· < ·)) : sRemove (a ++ v :: b) v = a ++ b := by
  unfold sRemove
  rw [List.filter_append, List.filter_cons]
  rw [List.pairwise_append] at h
  obtain ⟨_, h2, h3⟩ := h
  rw [List.pairwise_cons] at h2
  have ha : a.filter (fun y => decide (y ≠ v)) = a := by
    rw [List.filter_eq_self]
    intro y hy
    have := h3 y hy v (by simp)
    simp; omega
  have hb : b.filter (fun y => decide (y ≠ v)) = b := by
    rw [List.filter_eq_self]
    intro y hy
    have := h2.1 y hy
    simp; omega
  rw [ha, hb]
  simp

theorem collect_rel (cur : List Nat) (label : Nat) : ∀ (r : List Nat) (rest exs : List Nat) {ex affV : AList Nat}, URep ex exs → URep affV (rest ++ r) →
    Refines (fun (x : AList Nat × AList Nat) (y : List Nat × List Nat) => URep x.1 y.1 ∧ URep x.2 y.2)
      (collect cur label r.length rest.length ex affV) (Hier.collect cur label r exs rest) := by
  intro r
  induction r with
  | nil =>
    intro rest exs ex affV h1 h2
    simp only [List.length_nil, collect, Hier.collect]
    rw [if_neg (by rw [h2.size]; simp)]
    rw [List.append_nil] at h2
    exact .ok ⟨h1, h2⟩
  | cons v r ih =>
    intro rest exs ex affV h1 h2
    simp only [List.length_cons, collect, Hier.collect]
    have hlt : rest.length < (rest ++ v :: r).length := by simp
    rw [if_pos (by rw [h2.size]; exact hlt), readSlot_rep h2.rep hlt]
    simp only [Outcome.ok_bind, List.getElem_append_right (Nat.le_refl _), Nat.sub_self, List.getElem_cons_zero]
    have hv : v < 2147483648 := h2.small v (by simp)
    intro y ey
    obtain ⟨l, e1, ey⟩ := Outcome.bind_eq_ok.1 ey
    rw [e1, Outcome.ok_bind]
    by_cases c : l = label
    · rw [if_pos c] at ey ⊢
      obtain ⟨ex', e2, h3⟩ := h1.put hv
      obtain ⟨t, affV', e3, h4⟩ := h2.remove hv
      rw [sRemove_middle h2.sorted] at h4
      rw [e2, Outcome.ok_bind, e3, Outcome.ok_bind]
      exact ih rest _ h3 h4 y ey
    · rw [if_neg c] at ey ⊢
      have h5 : URep affV ((rest ++ [v]) ++ r) := by simpa using h2
      have := ih (rest ++ [v]) exs h1 h5 y ey
      simpa using this

theorem roots_empty {ar : Arith W S} {padj : List (List Nat)} {minPoints label : Nat} {level : W} : ∀ (fuel : Nat) {p p' : Hier.Ex} {q q' : Hier.Work W S},
    p.constr = [] → p.unexpl = [] → Hier.roots ar padj minPoints label level fuel p q = .ok (p', q') → p'.constr = [] ∧ p'.unexpl = [] ∧ p'.examined = [] := by
  intro fuel
  induction fuel with
  | zero =>
    intro p p' q q' h1 h2 e
    simp only [Hier.roots] at e
    by_cases hx : p.examined = []
    · rw [if_pos hx] at e
      cases e
      exact ⟨h1, h2, hx⟩
    · rw [if_neg hx] at e
      simp at e
  | succ fuel ih =>
    intro p p' q q' h1 h2 e
    simp only [Hier.roots] at e
    cases hg : p.examined.getLast? with
    | none =>
      rw [hg] at e
      cases e
      exact ⟨h1, h2, List.getLast?_eq_none_iff.1 hg⟩
    | some root =>
      rw [hg] at e
      obtain ⟨e1, _, e⟩ := Outcome.bind_eq_ok.1 e
      obtain ⟨⟨e2, w2⟩, _, e⟩ := Outcome.bind_eq_ok.1 e
      exact ih rfl rfl e

theorem clustersLoop_rel {ar : Arith W S} {adj : List (AList Nat)} {padj : List (List Nat)} (ha : AdjRel adj padj) (minPoints : Nat) (level : W) :
    ∀ (fuel : Nat) {e : Ex} {affL affV : AList Nat} {pL pV : List Nat} {w : Work W S} {q : Hier.Work W S},
      URep e.constr [] → LRep e.unexpl [] → URep e.examined [] → URep e.first [] → URep e.unexplFirst [] →
      URep affL pL → URep affV pV → WorkRel w q → 0 < q.next →
      Refines (fun (x : AList Nat × AList Nat × Work W S) (y : List Nat × Hier.Work W S) => URep x.1 [] ∧ URep x.2.1 y.1 ∧ WorkRel x.2.2 y.2 ∧ 0 < y.2.next)
        (clustersLoop ar adj minPoints level fuel e affL affV w) (Hier.clustersLoop ar padj minPoints level fuel pL pV q) := by
  intro fuel
  induction fuel with
  | zero =>
    intro e affL affV pL pV w q _ _ _ _ _ hL hV hw hn
    simp only [clustersLoop, Hier.clustersLoop]
    by_cases hu : pL = []
    · rw [if_pos hu, if_pos (hL.empty_iff.2 hu)]
      subst hu
      exact .ok ⟨hL, hV, hw, hn⟩
    · rw [if_neg hu]; exact .fail (by nofun)
  | succ fuel ih =>
    intro e affL affV pL pV w q h1 h2 h3 h4 h5 hL hV hw hn
    simp only [clustersLoop, Hier.clustersLoop]
    cases hg : pL.getLast? with
    | none =>
      have hu : pL = [] := List.getLast?_eq_none_iff.1 hg
      rw [if_pos (hL.empty_iff.2 hu)]
      subst hu
      exact .ok ⟨hL, hV, hw, hn⟩
    | some label =>
      have hu : pL ≠ [] := by rintro e; rw [e] at hg; simp at hg
      rw [if_neg (fun e => hu (hL.empty_iff.1 e))]
      obtain ⟨x, ex, hx⟩ := hL.removeLast hg
      rw [← Outcome.bind_assoc, ex]
      simp only [Outcome.ok_bind]
      rw [hw.cur, hV.size]
      refine Refines.bind (collect_rel q.cur label pV [] [] h3 hV) ?_
      rintro ⟨cex, caff⟩ ⟨pex, paff⟩ _ ⟨hc1, hc2⟩
      simp only at hc1 hc2 ⊢
      rw [hc1.size]
      have hE : ExRel { e with examined := cex, numChild := 0, anyEdges := false, inc := false }
          { constr := [], unexpl := [], examined := pex, anyEdges := false, inc := false, numChild := 0, first := [], unexplFirst := [] } :=
        ⟨h1, h2, hc1, rfl, rfl, rfl, h4, h5⟩
      refine Refines.bind (roots_rel ha minPoints label level pex.length hE hw hn) ?_
      rintro ⟨e1, w1⟩ ⟨p1, q1⟩ er ⟨hr1, hr2, hr3⟩
      simp only at hr1 hr2 hr3 ⊢
      obtain ⟨k1, k2, k3⟩ := roots_empty pex.length rfl rfl er
      refine Refines.bind (finish_rel ha label level hr1 hr2 hr3) ?_
      rintro ⟨e2, w2⟩ q2 _ ⟨⟨m1, m2, m3, ⟨f, m4⟩, ⟨u, m5⟩⟩, m6, m7⟩
      simp only at m1 m2 m3 m4 m5 m6 m7 ⊢
      rw [k1] at m1
      rw [k2] at m2
      exact ih m1 m2 m3.clear m4.clear m5.clear hx hc2 m6 m7

end Verif.Conc
