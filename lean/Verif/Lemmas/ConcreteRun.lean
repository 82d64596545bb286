import Verif.Lemmas.ConcreteMain
import Verif.Model.ConcreteRun
/-
Helper lemmas: propagation, selection and outlier scores on containers.
-/
namespace Verif.Conc
open Spec AList
variable {D W S T : Type}

/-! ### Clusters -/

/-- Every cluster carries its index as label. -/
def Labelled (cs : List (Option (Cl W S))) : Prop := ∀ (l : Nat) (c : Cl W S), cs[l]? = some (some c) → c.label = l

/-- The labels in the list of clusters. -/
def labelsOf (cs : List (Option (Cl W S))) : List (Option Nat) := cs.map (Option.map Cl.label)

theorem Labelled.of_labels {cs cs' : List (Option (Cl W S))} (h : Labelled cs) (e : labelsOf cs' = labelsOf cs) : Labelled cs' := by
  intro l c hc
  have h1 : (labelsOf cs')[l]? = some (some c.label) := by
    unfold labelsOf
    rw [List.getElem?_map, hc]
    rfl
  rw [e] at h1
  unfold labelsOf at h1
  rw [List.getElem?_map] at h1
  cases hx : cs[l]? with
  | none => rw [hx] at h1; simp at h1
  | some o =>
    rw [hx] at h1
    cases o with
    | none => simp at h1
    | some c' =>
      simp only [Option.map_some, Option.some.injEq] at h1
      rw [← h1]
      exact h l c' hx

theorem getCl_inv {cs : List (Option (Cl W S))} {l : Nat} {p : Cl W S} (e : getCl cs l = .ok p) : cs[l]? = some (some p) := by
  unfold getCl at e
  obtain ⟨o, e3, e4⟩ := Outcome.bind_eq_ok.1 e
  cases o with
  | none => simp at e4
  | some z =>
    simp only [Outcome.pure_eq, Outcome.ok.injEq] at e4
    subst e4
    exact (rd_inv e3).2

theorem set_get_self {α : Type} {a : List α} {i : Nat} {x : α} (h : a[i]? = some x) : a.set i x = a := by
  apply List.ext_getElem?
  intro k
  by_cases hk : i = k
  · subst hk
    rw [List.getElem?_set_self (by
      by_contra hn
      rw [List.getElem?_eq_none (by omega)] at h
      simp at h), h]
  · rw [List.getElem?_set_ne hk]

theorem labelsOf_set {cs : List (Option (Cl W S))} {l : Nat} {p q : Cl W S} (h : cs[l]? = some (some p)) (e : q.label = p.label) :
    labelsOf (cs.set l (some q)) = labelsOf cs := by
  unfold labelsOf
  rw [List.map_set]
  apply set_get_self
  rw [List.getElem?_map, h]
  simp [e]

theorem propagate_labels [CCmp W] [CCmp S] {ar : Arith W S} {cs cs' : List (Option (Cl W S))} {x : Nat} (e : Sel.propagate ar cs x = .ok cs') :
    labelsOf cs' = labelsOf cs := by
  unfold Sel.propagate at e
  obtain ⟨c, e1, e⟩ := Outcome.bind_eq_ok.1 e
  cases hp : c.parent with
  | none =>
    rw [hp] at e
    simp only [Outcome.pure_eq, Outcome.ok.injEq] at e
    rw [e]
  | some q =>
    rw [hp] at e
    simp only at e
    obtain ⟨cs1, e2, e⟩ := Outcome.bind_eq_ok.1 e
    obtain ⟨p, e3, e⟩ := Outcome.bind_eq_ok.1 e
    have h1 := (wr_inv e2).2
    have h2 := (wr_inv e).2
    rw [h2, labelsOf_set (getCl_inv e3), h1, labelsOf_set (getCl_inv e1) (by rfl)]
    unfold Cl.choose
    split
    · rfl
    · split
      · rfl
      · split <;> rfl

/-- The clusters in memory, with all pointers valid. -/
structure HRel (heap : List (CCl W S)) (ptrs : List (Option Nat)) (cs : List (Option (Cl W S))) : Prop where
  rel : CRel heap ptrs cs
  valid : ∀ (l a : Nat), ptrs[l]? = some (some a) → a < heap.length

theorem HRel.read {heap : List (CCl W S)} {ptrs : List (Option Nat)} {cs : List (Option (Cl W S))} (h : HRel heap ptrs cs) {l a : Nat} {p : Cl W S}
    (hp : ptrAt ptrs l = some a) (e : cs[l]? = some (some p)) : ∃ c, deref heap a = .ok c ∧ ClRel ptrs c p := by
  obtain ⟨a', c, h1, h2, h3⟩ := h.rel.cell l p e
  rw [ptrAt_some] at hp
  rw [hp] at h1
  simp only [Option.some.injEq] at h1
  subst h1
  exact ⟨c, by unfold deref rd; rw [h2], h3⟩

theorem HRel.write {heap : List (CCl W S)} {ptrs : List (Option Nat)} {cs : List (Option (Cl W S))} (h : HRel heap ptrs cs) {l a : Nat} {c : CCl W S} {p : Cl W S}
    (hp : ptrAt ptrs l = some a) (hr : ClRel ptrs c p) : ∃ heap', wr heap a c = .ok heap' ∧ HRel heap' ptrs (cs.set l (some p)) := by
  rw [ptrAt_some] at hp
  have ha := h.valid l a hp
  exact ⟨heap.set a c, wr_ok ha, h.rel.set hp hr ha, fun k b hb => by rw [List.length_set]; exact h.valid k b hb⟩

/-! ### Propagation -/

theorem appendAll {α : Type} : ∀ (xs : List α) {d : AList α} {ds : List α}, Rep d ds → ∃ d', xs.foldlM (fun l b => l.append b) d = .ok d' ∧ Rep d' (ds ++ xs) := by
  intro xs
  induction xs with
  | nil => intro d ds h; exact ⟨d, rfl, by simpa using h⟩
  | cons x xs ih =>
    intro d ds h
    obtain ⟨d1, e1, h1, _⟩ := append_rep h x
    obtain ⟨d2, e2, h2⟩ := ih h1
    refine ⟨d2, ?_, by simpa using h2⟩
    rw [List.foldlM_cons, e1]
    exact e2

theorem passSelf_rel {ar : Arith W S} {ptrs : List (Option Nat)} {c cp : CCl W S} {p pp : Cl W S} (h : ClRel ptrs c p) (hp : ClRel ptrs cp pp) {a : Nat}
    (ha : ptrAt ptrs p.label = some a) : ∃ c', passSelf ar a c cp = .ok c' ∧ ClRel ptrs c' (Cl.passSelf ar p pp) := by
  obtain ⟨ds, h1, h2⟩ := hp.desc
  obtain ⟨d, e, h3, _⟩ := append_rep h1 a
  refine ⟨_, by unfold passSelf; rw [e]; rfl, ?_⟩
  exact { hp with
    pncs := by simp only [Cl.passSelf, hp.pncs, h.ncs]
    propStability := by simp only [Cl.passSelf, hp.propStability, h.stability]
    desc := ⟨ds ++ [a], h3, List.rel_append h2 (.cons ha .nil)⟩ }

theorem passDesc_rel {ar : Arith W S} {ptrs : List (Option Nat)} {c cp : CCl W S} {p pp : Cl W S} (h : ClRel ptrs c p) (hp : ClRel ptrs cp pp) :
    ∃ c', passDesc ar c cp = .ok c' ∧ ClRel ptrs c' (Cl.passDesc ar p pp) := by
  obtain ⟨ds, h1, h2⟩ := hp.desc
  obtain ⟨es, k1, k2⟩ := h.desc
  obtain ⟨d, e, h3⟩ := appendAll es h1
  refine ⟨_, by unfold passDesc; rw [forEach_rep k1, e]; rfl, ?_⟩
  exact { hp with
    pncs := by simp only [Cl.passDesc, hp.pncs, h.pncs]
    propStability := by simp only [Cl.passDesc, hp.propStability, h.propStability]
    desc := ⟨ds ++ es, h3, List.rel_append h2 k2⟩ }

theorem choose_rel [CCmp S] {ar : Arith W S} {ptrs : List (Option Nat)} {c cp : CCl W S} {p pp : Cl W S} (h : ClRel ptrs c p) (hp : ClRel ptrs cp pp) {a : Nat}
    (ha : ptrAt ptrs p.label = some a) : ∃ c', choose ar a c cp = .ok c' ∧ ClRel ptrs c' (Cl.choose ar p pp) := by
  unfold choose Cl.choose
  rw [h.hasChildren, h.ncs, h.pncs, h.propStability, h.stability]
  split
  · exact passSelf_rel h hp ha
  · split
    · exact passDesc_rel h hp
    · split
      · exact passSelf_rel h hp ha
      · exact passDesc_rel h hp

theorem propagate_rel [CCmp W] [CCmp S] {ar : Arith W S} {heap : List (CCl W S)} {ptrs : List (Option Nat)} {cs : List (Option (Cl W S))} (h : HRel heap ptrs cs)
    (hl : Labelled cs) {x a : Nat} (hx : ptrAt ptrs x = some a) :
    Refines (fun heap' cs' => HRel heap' ptrs cs') (propagate ar heap a) (Sel.propagate ar cs x) := by
  intro cs' e
  unfold Sel.propagate at e
  obtain ⟨p, e1, e⟩ := Outcome.bind_eq_ok.1 e
  have g1 := getCl_inv e1
  obtain ⟨c, d1, r1⟩ := h.read hx g1
  unfold propagate
  rw [d1, Outcome.ok_bind, r1.parent]
  cases hp : p.parent with
  | none =>
    rw [hp] at e
    simp only [Outcome.pure_eq, Outcome.ok.injEq] at e
    subst e
    exact ⟨heap, rfl, h⟩
  | some q =>
    rw [hp] at e
    simp only at e
    obtain ⟨cs1, e2, e⟩ := Outcome.bind_eq_ok.1 e
    obtain ⟨pp, e3, e⟩ := Outcome.bind_eq_ok.1 e
    obtain ⟨aq, hq⟩ := r1.known q hp
    have r2 : ClRel ptrs (ownLowest ar c) (p.ownLowest ar) := by
      refine { r1 with propLowest := ?_ }
      unfold ownLowest Cl.ownLowest
      simp only [r1.propLowest, r1.death]
    obtain ⟨heap1, d2, r3⟩ := h.write hx r2
    rw [← (wr_inv e2).2] at r3
    obtain ⟨cp, d3, r4⟩ := r3.read hq (getCl_inv e3)
    have r5 : ClRel ptrs (passLowest (ownLowest ar c) cp) (Cl.passLowest (p.ownLowest ar) pp) := by
      refine { r4 with propLowest := ?_ }
      unfold passLowest Cl.passLowest
      simp only [r4.propLowest, r2.propLowest]
    obtain ⟨c', d4, r6⟩ := choose_rel (ar := ar) r2 r5 (a := a) (by
      show ptrAt ptrs p.label = some a
      rw [hl x p g1]
      exact hx)
    obtain ⟨heap2, d5, r7⟩ := r3.write hq r6
    rw [← (wr_inv e).2] at r7
    refine ⟨heap2, ?_, r7⟩
    simp only [Option.bind_some, hq]
    rw [d2, Outcome.ok_bind, d3, Outcome.ok_bind, d4, Outcome.ok_bind, d5]

theorem leafStep_ok {heap : List (CCl W S)} {ptrs : List (Option Nat)} {cs : List (Option (Cl W S))} (h : HRel heap ptrs cs) {clusters : AList (Option Nat)}
    (hc : Rep clusters ptrs) : ∀ (order : List Nat) {ex : AList Nat} {pex : List Nat} {added : List Bool}, URep ex pex → added.length ≤ 2147483648 →
    Refines (fun (x : AList Nat × List Bool) (y : List Nat × List Bool) => URep x.1 y.1 ∧ x.2 = y.2 ∧ y.2.length = added.length)
      (leaves heap clusters order (ex, added)) (Sel.leaves cs order (pex, added)) := by
  intro order
  induction order with
  | nil => intro ex pex added hu _; exact .ok ⟨hu, rfl, rfl⟩
  | cons i r ih =>
    intro ex pex added hu hb y e
    simp only [Sel.leaves] at e
    obtain ⟨o, e1, e⟩ := Outcome.bind_eq_ok.1 e
    have hi := rd_inv e1
    have hlen := h.rel.len
    have hi' : i < ptrs.length := by omega
    simp only [leaves, leafStep]
    rw [readSlot_rep hc hi']
    simp only [Outcome.ok_bind]
    cases o with
    | none =>
      have hn := h.rel.null i hi.2
      rw [List.getElem?_eq_getElem hi'] at hn
      simp only [Option.some.injEq] at hn
      rw [hn]
      simp only [Outcome.pure_eq, Outcome.ok_bind]
      exact ih hu hb y e
    | some p =>
      obtain ⟨a, c, h1, h2, h3⟩ := h.rel.cell i p hi.2
      rw [List.getElem?_eq_getElem hi'] at h1
      simp only [Option.some.injEq] at h1
      rw [h1]
      have hd : deref heap a = .ok c := by unfold deref rd; rw [h2]
      simp only [hd, Outcome.ok_bind]
      rw [h3.hasChildren]
      simp only at e
      by_cases hk : p.hasChildren = false
      · rw [if_pos hk] at e ⊢
        obtain ⟨added', e2, e⟩ := Outcome.bind_eq_ok.1 e
        obtain ⟨hlt, hset⟩ := wr_inv e2
        rw [h3.label]
        obtain ⟨ex', e3, h4⟩ := hu.put (x := p.label) (by omega)
        rw [e3]
        simp only [Outcome.ok_bind, e2, Outcome.pure_eq]
        have hl' : added'.length = added.length := by rw [hset]; simp
        obtain ⟨z, e4, h5, h6, h7⟩ := ih h4 (by omega) y e
        exact ⟨z, e4, h5, h6, by omega⟩
      · rw [if_neg hk] at e ⊢
        simp only [Outcome.pure_eq, Outcome.ok_bind]
        exact ih hu hb y e

theorem queueParent_rel {heap : List (CCl W S)} {ptrs : List (Option Nat)} {cs : List (Option (Cl W S))} (h : HRel heap ptrs cs) {parent : Option Nat}
    (hknown : ∀ q, parent = some q → ∃ a, ptrAt ptrs q = some a) {ex : AList Nat} {pex : List Nat} {added : List Bool} (hu : URep ex pex)
    (hb : added.length ≤ 2147483648) :
    Refines (fun (x : AList Nat × List Bool) (y : List Nat × List Bool) => URep x.1 y.1 ∧ x.2 = y.2 ∧ y.2.length = added.length)
      (queueParent heap (parent.bind (ptrAt ptrs)) ex added) (Sel.queueParent cs parent pex added) := by
  intro y e
  cases parent with
  | none =>
    simp only [Sel.queueParent, Outcome.ok.injEq] at e
    subst e
    exact ⟨_, rfl, hu, rfl, rfl⟩
  | some q =>
    obtain ⟨aq, hq⟩ := hknown q rfl
    simp only [Sel.queueParent] at e
    obtain ⟨p, e1, e⟩ := Outcome.bind_eq_ok.1 e
    obtain ⟨b, e2, e⟩ := Outcome.bind_eq_ok.1 e
    obtain ⟨c, d1, r1⟩ := h.read hq (getCl_inv e1)
    simp only [Option.bind_some, hq, queueParent]
    rw [d1, Outcome.ok_bind, r1.label, e2, Outcome.ok_bind]
    have hlt := (rd_inv e2).1
    by_cases hk : b = false
    · rw [if_pos hk] at e ⊢
      obtain ⟨added', e3, e⟩ := Outcome.bind_eq_ok.1 e
      simp only [Outcome.pure_eq, Outcome.ok.injEq] at e
      subst e
      obtain ⟨ex', e4, h4⟩ := hu.put (x := p.label) (by omega)
      rw [e4, Outcome.ok_bind, e3]
      exact ⟨_, rfl, h4, rfl, by rw [(wr_inv e3).2]; simp⟩
    · rw [if_neg hk] at e ⊢
      simp only [Outcome.pure_eq, Outcome.ok.injEq] at e
      subst e
      exact ⟨_, rfl, hu, rfl, rfl⟩

/-- State of the examination loop. -/
structure PRel (ptrs : List (Option Nat)) (s : PSt W S) (p : Sel.St W S) : Prop where
  heap : HRel s.heap ptrs p.clusters
  lab : Labelled p.clusters
  ex : URep s.ex p.ex
  added : s.added = p.added
  bound : p.added.length ≤ 2147483648
  infinite : s.infinite = p.infinite

theorem examine_rel [CCmp W] [CCmp S] {ar : Arith W S} {smax : S} {ptrs : List (Option Nat)} {clusters : AList (Option Nat)} (hc : Rep clusters ptrs) :
    ∀ (fuel : Nat) {s : PSt W S} {p : Sel.St W S}, PRel ptrs s p →
      Refines (PRel ptrs) (examine ar smax clusters fuel s) (Sel.examine ar smax fuel p) := by
  intro fuel
  induction fuel with
  | zero =>
    intro s p h
    simp only [examine, Sel.examine]
    by_cases c : p.ex = []
    · rw [if_pos c, if_pos (h.ex.empty_iff.2 c)]
      exact .ok h
    · rw [if_neg c]
      exact .fail (by nofun)
  | succ fuel ih =>
    intro s p h
    simp only [examine, Sel.examine]
    cases hx : p.ex.getLast? with
    | none =>
      have c : p.ex = [] := by simpa using hx
      rw [if_pos (h.ex.empty_iff.2 c)]
      exact .ok h
    | some x =>
      have c : p.ex ≠ [] := by rintro c; rw [c] at hx; simp at hx
      rw [if_neg (fun e => c (h.ex.empty_iff.1 e))]
      simp only
      obtain ⟨ex1, e1, h1⟩ := h.ex.removeLast hx
      intro y e
      obtain ⟨cs, e2, e⟩ := Outcome.bind_eq_ok.1 e
      obtain ⟨pc, e3, e⟩ := Outcome.bind_eq_ok.1 e
      obtain ⟨⟨ex2, added2⟩, e4, e⟩ := Outcome.bind_eq_ok.1 e
      simp only at e
      -- the cluster that is processed
      have hpick : ∃ a, ptrAt ptrs x = some a ∧ pick clusters x = .ok a := by
        unfold Sel.propagate at e2
        obtain ⟨p0, f1, _⟩ := Outcome.bind_eq_ok.1 e2
        obtain ⟨a, c0, k1, _, k2, _⟩ := h.heap.rel.get hc x f1
        exact ⟨a, ptrAt_some.2 k2, k1⟩
      obtain ⟨a, ha, hpk⟩ := hpick
      obtain ⟨heap', d1, r1⟩ := propagate_rel h.heap h.lab ha cs e2
      have hlab := h.lab.of_labels (propagate_labels e2)
      obtain ⟨cc, d2, r2⟩ := r1.read ha (getCl_inv e3)
      obtain ⟨⟨ex3, added3⟩, d3, r3, r4, r5⟩ := queueParent_rel r1 (parent := pc.parent) r2.known h1 (added := s.added) (by rw [h.added]; exact h.bound)
        (ex2, added2) (by rw [h.added]; exact e4)
      simp only at r3 r4 r5
      subst r4
      obtain ⟨z, d4, r6⟩ := ih (s := { heap := heap', ex := ex3, added := added3, infinite := s.infinite || CCmp.eq cc.stability smax })
        (p := { clusters := cs, ex := ex2, added := added3, infinite := p.infinite || CCmp.eq pc.stability smax, trace := p.trace ++ [x] })
        ⟨r1, hlab, r3, rfl, by show added3.length ≤ _; rw [r5, h.added]; exact h.bound, by simp only [h.infinite, r2.stability]⟩ y e
      refine ⟨z, ?_, r6⟩
      rw [← Outcome.bind_assoc, e1]
      simp only [Outcome.ok_bind]
      rw [hpk, Outcome.ok_bind, d1, Outcome.ok_bind, d2, Outcome.ok_bind, r2.parent, d3, Outcome.ok_bind]
      exact d4

theorem examine_labels [CCmp W] [CCmp S] {ar : Arith W S} {smax : S} : ∀ (fuel : Nat) {p p' : Sel.St W S}, Sel.examine ar smax fuel p = .ok p' →
    labelsOf p'.clusters = labelsOf p.clusters := by
  intro fuel
  induction fuel with
  | zero =>
    intro p p' e
    simp only [Sel.examine] at e
    split at e
    · cases e; rfl
    · simp at e
  | succ fuel ih =>
    intro p p' e
    simp only [Sel.examine] at e
    cases hx : p.ex.getLast? with
    | none =>
      rw [hx] at e
      cases e; rfl
    | some x =>
      rw [hx] at e
      simp only at e
      obtain ⟨cs, e2, e⟩ := Outcome.bind_eq_ok.1 e
      obtain ⟨pc, e3, e⟩ := Outcome.bind_eq_ok.1 e
      obtain ⟨⟨ex2, added2⟩, e4, e⟩ := Outcome.bind_eq_ok.1 e
      rw [ih e]
      exact propagate_labels e2

theorem propagateTree_labels [CCmp W] [CCmp S] {ar : Arith W S} {smax : S} {order : List Nat} {cs : List (Option (Cl W S))} {p : Sel.St W S}
    (e : Sel.propagateTree ar smax order cs = .ok p) : labelsOf p.clusters = labelsOf cs := by
  unfold Sel.propagateTree at e
  obtain ⟨⟨ex, added⟩, e1, e⟩ := Outcome.bind_eq_ok.1 e
  exact examine_labels _ e

theorem propagateTree_rel [CCmp W] [CCmp S] {ar : Arith W S} {smax : S} {heap : List (CCl W S)} {ptrs : List (Option Nat)} {cs : List (Option (Cl W S))}
    (h : HRel heap ptrs cs) (hlab : Labelled cs) {clusters : AList (Option Nat)} (hc : Rep clusters ptrs) (hb : cs.length ≤ 2147483648) (order : List Nat) :
    Refines (PRel ptrs) (propagateTree ar smax order heap clusters) (Sel.propagateTree ar smax order cs) := by
  obtain ⟨s0, e0, h0, _⟩ := urep_init
  intro y e
  unfold Sel.propagateTree at e
  obtain ⟨⟨ex, added⟩, e1, e⟩ := Outcome.bind_eq_ok.1 e
  have hsize : clusters.size = cs.length := by rw [hc.size, h.rel.len]
  obtain ⟨⟨ex', added'⟩, d1, r1, r2, r3⟩ := leafStep_ok h hc order h0 (added := List.replicate cs.length false) (by simpa using hb) (ex, added) e1
  simp only at r1 r2 r3
  subst r2
  obtain ⟨z, d2, r4⟩ := examine_rel (ar := ar) (smax := smax) hc cs.length (s := { heap := heap, ex := ex', added := added', infinite := false })
    (p := { clusters := cs, ex := ex, added := added', infinite := false, trace := [] })
    ⟨h, hlab, r1, rfl, by show added'.length ≤ _; rw [r3]; simpa using hb, rfl⟩ y e
  refine ⟨z, ?_, r4⟩
  unfold propagateTree
  rw [e0, Outcome.ok_bind, hsize, d1, Outcome.ok_bind]
  exact d2

/-! ### Grouping by offset -/

theorem lineMap_find {β : Type} (k : Nat) : ∀ (m : List (Nat × β)), m.find? (fun e => decide (e.1 = k)) = (lineMap m (k : Int)).bind (fun i => m[i]?) := by
  intro m
  unfold lineMap
  have : (fun e : Nat × β => decide ((e.1 : Int) = (k : Int))) = (fun e => decide (e.1 = k)) := by
    funext e
    simp
  rw [this]
  induction m with
  | nil => rfl
  | cons x m ih =>
    rw [List.find?_cons, List.findIdx?_cons]
    by_cases hx : x.1 = k
    · simp [hx]
    · simp only [hx, decide_false, Bool.false_eq_true, if_false]
      rw [ih]
      cases List.findIdx? (fun e => decide (e.1 = k)) m <;> simp

theorem lineMap_mem {β : Type} (m : List (Nat × β)) (k : Int) : (lineMap m k).isSome ↔ ∃ e ∈ m, (e.1 : Int) = k := by
  unfold lineMap
  rw [List.findIdx?_isSome]
  simp

theorem lineMap_lt {β : Type} {m : List (Nat × β)} {k : Int} {i : Nat} (h : lineMap m k = some i) : ∃ hi : i < m.length, ((m[i]'hi).1 : Int) = k := by
  unfold lineMap at h
  obtain ⟨hi, h1, _⟩ := List.findIdx?_eq_some_iff_getElem.1 h
  exact ⟨hi, by simpa using h1⟩

theorem addTo_none {key label : Nat} : ∀ {m : List (Nat × List Nat)}, lineMap m (key : Int) = none → Sel.addTo key label m = m ++ [(key, [label])] := by
  intro m
  induction m with
  | nil => intro _; rfl
  | cons x m ih =>
    intro h
    have h1 : x.1 ≠ key := by
      intro e
      have : (lineMap (x :: m) (key : Int)).isSome := by rw [lineMap_mem]; exact ⟨x, by simp, by rw [e]⟩
      rw [h] at this
      simp at this
    have h2 : lineMap m (key : Int) = none := by
      cases hc : lineMap m (key : Int) with
      | none => rfl
      | some i =>
        have h3 : (lineMap m (key : Int)).isSome := by rw [hc]; rfl
        rw [lineMap_mem] at h3
        obtain ⟨e, he, hk⟩ := h3
        have : (lineMap (x :: m) (key : Int)).isSome := by rw [lineMap_mem]; exact ⟨e, by simp [he], hk⟩
        rw [h] at this
        simp at this
    obtain ⟨k, ls⟩ := x
    simp only [Sel.addTo]
    rw [if_neg h1, ih h2]
    rfl

theorem addTo_some {key label : Nat} : ∀ {m : List (Nat × List Nat)} {i : Nat}, lineMap m (key : Int) = some i →
    ∃ ls, m[i]? = some (key, ls) ∧ Sel.addTo key label m = m.set i (key, ls ++ [label]) := by
  intro m
  induction m with
  | nil => intro i h; simp [lineMap] at h
  | cons x m ih =>
    intro i h
    obtain ⟨k, ls⟩ := x
    simp only [Sel.addTo]
    by_cases hk : k = key
    · subst hk
      have : i = 0 := by
        unfold lineMap at h
        rw [List.findIdx?_cons] at h
        simpa using h.symm
      subst this
      exact ⟨ls, rfl, by rw [if_pos rfl]; rfl⟩
    · rw [if_neg hk]
      have h' : ∃ j, lineMap m (key : Int) = some j ∧ i = j + 1 := by
        unfold lineMap at h ⊢
        rw [List.findIdx?_cons] at h
        have hk' : ¬ ((k : Int) = (key : Int)) := by omega
        simp only [hk', decide_false, Bool.false_eq_true, if_false] at h
        cases hj : List.findIdx? (fun l : Nat × List Nat => decide ((l.1 : Int) = (key : Int))) m with
        | none => rw [hj] at h; simp at h
        | some j => rw [hj] at h; exact ⟨j, rfl, by simpa using h.symm⟩
      obtain ⟨j, hj, rfl⟩ := h'
      obtain ⟨ls', h1, h2⟩ := ih hj
      exact ⟨ls', by simpa using h1, by rw [h2]; rfl⟩

theorem lineMap_keys {β γ : Type} {m : List (Nat × β)} {m' : List (Nat × γ)} (h : m.map (·.1) = m'.map (·.1)) : lineMap m = lineMap m' := by
  funext k
  unfold lineMap
  have key : ∀ {δ : Type} (l : List (Nat × δ)), l.findIdx? (fun e => decide ((e.1 : Int) = k)) = List.findIdx? (fun x : Nat => decide ((x : Int) = k)) (l.map (fun e => e.1)) := by
    intro δ l
    rw [List.findIdx?_map]
    rfl
  exact (key m).trans ((congrArg (List.findIdx? (fun x : Nat => decide ((x : Int) = k))) h).trans (key m').symm)

/-- The table of groups. -/
structure GRel (g : Groups) (m : List (Nat × List Nat)) : Prop where
  table : ∃ ks, TRel g.table (lineMap m) ks
  lists : List.Forall₂ (fun l (e : Nat × List Nat) => LRep l e.2) g.lists m
  nodup : (m.map (·.1)).Nodup

theorem groupStep_rel {heap : List (CCl W S)} {a : Nat} {c : CCl W S} (hd : deref heap a = .ok c) {g : Groups} {m : List (Nat × List Nat)} (h : GRel g m)
    (hm : m.length < 18446744073709551616) (hl : c.label < 2147483648) : ∃ g', groupStep heap a g = .ok g' ∧ GRel g' (Sel.addTo c.offset c.label m) := by
  obtain ⟨ks, ht⟩ := h.table
  have hb : ∀ k i, lineMap m k = some i → i < 18446744073709551616 := fun k i hi => by
    obtain ⟨h1, _⟩ := lineMap_lt hi
    omega
  have hlen := h.lists.length_eq
  unfold groupStep
  rw [hd, Outcome.ok_bind, ht.lookup hb]
  simp only [Outcome.ok_bind]
  cases hi : lineMap m (c.offset : Int) with
  | none =>
    simp only
    obtain ⟨l0, e0, h0, _⟩ := rep_init (α := Nat) (n := 16) (by omega)
    obtain ⟨t, e1, ht'⟩ := ht.insert (c.offset : Int) g.lists.length
    obtain ⟨l, e2, h2⟩ := LRep.append (s := l0) (xs := []) ⟨h0, by simp⟩ hl
    rw [e0, Outcome.ok_bind, e1, Outcome.ok_bind, e2]
    refine ⟨_, rfl, ⟨setInsert intCompare ks (c.offset : Int), ?_⟩, ?_, ?_⟩
    · rw [addTo_none hi, lineMap_append]
      · rw [← hlen]
        exact ht'
      · intro e he hk
        have : (lineMap m (c.offset : Int)).isSome := by rw [lineMap_mem]; exact ⟨e, he, by rw [hk]⟩
        rw [hi] at this
        simp at this
    · rw [addTo_none hi]
      exact List.rel_append h.lists (.cons h2 .nil)
    · rw [addTo_none hi, List.map_append, List.nodup_append]
      refine ⟨h.nodup, by simp, ?_⟩
      intro x hx y hy
      simp only [List.map_cons, List.map_nil, List.mem_singleton] at hy
      subst hy
      rintro rfl
      obtain ⟨e, he, hk⟩ := List.mem_map.1 hx
      have : (lineMap m (c.offset : Int)).isSome := by rw [lineMap_mem]; exact ⟨e, he, by rw [hk]⟩
      rw [hi] at this
      simp at this
  | some i =>
    simp only
    obtain ⟨ls, h1, h2⟩ := addTo_some (label := c.label) hi
    obtain ⟨l0, e0, h0⟩ := Refines.rd h.lists i (c.offset, ls) (by unfold rd; rw [h1])
    obtain ⟨l, e1, h3⟩ := LRep.append h0 hl
    have hil : i < m.length := (lineMap_lt hi).1
    rw [e0, Outcome.ok_bind, e1, Outcome.ok_bind, wr_ok (by omega)]
    have hkeys : (m.set i (c.offset, ls ++ [c.label])).map (·.1) = m.map (·.1) := by
      rw [List.map_set]
      apply set_get_self
      rw [List.getElem?_map, h1]
      rfl
    refine ⟨_, rfl, ⟨ks, ?_⟩, ?_, ?_⟩
    · rw [h2, lineMap_keys hkeys]
      exact ht
    · rw [h2]
      exact forall₂_set h.lists h3
    · rw [h2, hkeys]
      exact h.nodup

theorem addTo_length (key label : Nat) : ∀ (m : List (Nat × List Nat)), (Sel.addTo key label m).length ≤ m.length + 1 := by
  intro m
  induction m with
  | nil => simp [Sel.addTo]
  | cons x m ih =>
    obtain ⟨k, ls⟩ := x
    simp only [Sel.addTo]
    split
    · simp
    · simp only [List.length_cons]
      omega

theorem groupAll_rel {heap : List (CCl W S)} {ptrs : List (Option Nat)} {cs : List (Option (Cl W S))} (h : HRel heap ptrs cs) (hlab : Labelled cs)
    (hb : cs.length ≤ 2147483648) {solution : AList Nat} {ds sol : List Nat} (hs : Rep solution ds)
    (hf : List.Forall₂ (fun a l => ptrAt ptrs l = some a) ds sol) : ∀ (order : List Nat) {g : Groups} {m : List (Nat × List Nat)}, GRel g m →
      m.length + order.length < 18446744073709551616 → Refines GRel (groupAll heap solution order g) (Sel.group cs sol order m) := by
  intro order
  induction order with
  | nil => intro g m hg _; exact .ok hg
  | cons i r ih =>
    intro g m hg hl y e
    simp only [Sel.group] at e
    obtain ⟨l, e1, e⟩ := Outcome.bind_eq_ok.1 e
    obtain ⟨p, e2, e⟩ := Outcome.bind_eq_ok.1 e
    obtain ⟨a, d1, r1⟩ := Refines.rd hf i l e1
    have d1' := (rd_inv d1).2
    have g1 := getCl_inv e2
    obtain ⟨c, d2, r2⟩ := h.read r1 g1
    have hlp : p.label < 2147483648 := by
      rw [hlab l p g1]
      have : l < cs.length := by
        by_contra hn
        rw [List.getElem?_eq_none (by omega)] at g1
        simp at g1
      omega
    simp only [List.length_cons] at hl
    obtain ⟨g', d3, r3⟩ := groupStep_rel d2 hg (by omega) (by rw [r2.label]; exact hlp)
    rw [r2.label, r2.offset] at r3
    have hal := addTo_length p.offset p.label m
    obtain ⟨z, d4, r4⟩ := ih r3 (by omega) y e
    refine ⟨z, ?_, r4⟩
    simp only [groupAll]
    rw [valueAt_rep hs, d1']
    simp only [Outcome.ok_bind]
    rw [d3, Outcome.ok_bind, d4]

/-! ### Labelling -/

theorem find_unsorted {s : AList Nat} {xs : List Nat} (h : LRep s xs) {x : Nat} (hx : x < 2147483648) :
    ∃ r : Int, s.find indexCompare x false = .ok r ∧ (r ≠ -1 ↔ x ∈ xs) := by
  refine ⟨_, by
    unfold AList.find
    simp only [Bool.false_eq_true, if_false]
    exact unorderedSearch_rep indexCompare h.rep x, ?_⟩
  cases hf : xs.findIdx? (fun y => indexCompare y x == 0) with
  | none =>
    have hn := List.findIdx?_eq_none_iff.mp hf
    simp only [ne_eq, not_true_eq_false, false_iff]
    intro hm
    have := hn x hm
    rw [indexCompare_nat (h.small x hm) hx] at this
    simp [(natCompare_lawful.eq_iff x x).2 rfl] at this
  | some j =>
    obtain ⟨hlt, hp, _⟩ := List.findIdx?_eq_some_iff_getElem.mp hf
    simp only [ne_eq]
    have hm : xs[j] ∈ xs := List.getElem_mem hlt
    rw [indexCompare_nat (h.small _ hm) hx] at hp
    have : xs[j] = x := by
      have h0 : natCompare xs[j] x = 0 := by simpa using hp
      exact (natCompare_lawful.eq_iff _ _).1 h0
    constructor
    · intro _; rw [← this]; exact hm
    · intro _ hn; omega

theorem labelStep_rel {g : Groups} {m : List (Nat × List Nat)} (hg : GRel g m) (hm : m.length < 18446744073709551616) {table : HTable.Table Int}
    {entries : List (W × List Nat)} {lines : List (Nat × W × List Nat)} (hl : LinesRel table entries lines) (hll : lines.length < 18446744073709551616)
    (hsm : ∀ l ∈ lines, ∀ x ∈ l.2.2, x < 2147483648) (k j : Nat) (labels : List Nat) :
    Refines (fun x y => x = y) (labelStep g table entries k j labels) (Sel.labelStep lines m k j labels) := by
  obtain ⟨ks, ht⟩ := hg.table
  obtain ⟨ks', ht'⟩ := hl.table
  have b1 : ∀ k i, lineMap m k = some i → i < 18446744073709551616 := fun k i hi => by obtain ⟨h1, _⟩ := lineMap_lt hi; omega
  have b2 : ∀ k i, lineMap lines k = some i → i < 18446744073709551616 := fun k i hi => by obtain ⟨h1, _⟩ := lineMap_lt hi; omega
  intro y e
  unfold Sel.labelStep at e
  unfold labelStep
  rw [ht.lookup b1]
  simp only [Outcome.ok_bind]
  rw [lineMap_find k m] at e
  cases hi : lineMap m (k : Int) with
  | none => rw [hi] at e; simp at e
  | some i =>
    rw [hi] at e
    have hil := (lineMap_lt hi).1
    simp only [Option.bind_some, List.getElem?_eq_getElem hil] at e
    simp only
    rw [ht'.lookup b2]
    simp only [Outcome.ok_bind]
    rw [lineMap_find (k + 1) lines] at e
    cases hj : lineMap lines ((k + 1 : Nat) : Int) with
    | none => rw [hj] at e; simp at e
    | some i' =>
      rw [hj] at e
      have hil' := (lineMap_lt hj).1
      simp only [Option.bind_some, List.getElem?_eq_getElem hil'] at e
      obtain ⟨l, e1, e⟩ := Outcome.bind_eq_ok.1 e
      simp only
      have hen : rd entries i' = .ok lines[i'].2 := by
        unfold rd
        rw [hl.entries, List.getElem?_map, List.getElem?_eq_getElem hil']
        rfl
      obtain ⟨list, d1, r1⟩ := Refines.rd hg.lists i m[i] (by unfold rd; rw [List.getElem?_eq_getElem hil])
      have hlt : l < 2147483648 := hsm _ (List.getElem_mem hil') l (List.mem_of_getElem? (rd_inv e1).2)
      obtain ⟨r, d2, r2⟩ := find_unsorted r1 hlt
      rw [hen, Outcome.ok_bind, e1, Outcome.ok_bind, d1, Outcome.ok_bind, d2, Outcome.ok_bind]
      by_cases c : l ∈ m[i].2
      · rw [if_pos c] at e
        rw [if_pos (r2.2 c)]
        exact ⟨y, e, rfl⟩
      · rw [if_neg c] at e
        rw [if_neg (fun h => c (r2.1 h))]
        exact ⟨y, e, rfl⟩

theorem labelAll_rel {g : Groups} {m : List (Nat × List Nat)} (hg : GRel g m) (hm : m.length < 18446744073709551616) {table : HTable.Table Int}
    {entries : List (W × List Nat)} {lines : List (Nat × W × List Nat)} (hl : LinesRel table entries lines) (hll : lines.length < 18446744073709551616)
    (hsm : ∀ l ∈ lines, ∀ x ∈ l.2.2, x < 2147483648) : ∀ (steps : List (Nat × Nat)) (labels : List Nat),
    Refines (fun x y => x = y) (labelAll g table entries steps labels) (Sel.labelAll lines m steps labels) := by
  intro steps
  induction steps with
  | nil => intro labels; exact .ok rfl
  | cons kj r ih =>
    intro labels
    obtain ⟨k, j⟩ := kj
    simp only [labelAll, Sel.labelAll]
    refine Refines.bind (labelStep_rel hg hm hl hll hsm k j labels) ?_
    rintro a b _ rfl
    exact ih a

theorem keysOf_rel {t : HTable.Table Int} {m : List (Nat × List Nat)} {ks : List Int} (ht : TRel t (lineMap m) ks) (hn : (m.map (·.1)).Nodup) :
    ∃ keys, keysOf t = .ok keys ∧ keys.Perm (m.map (·.1)) := by
  have h1 : ∀ (ks : List Int) (l : List Nat), ks.foldlM (fun (l : List Nat) (k : Int) => (Outcome.ok (l ++ [k.toNat]) : Outcome (List Nat))) l = .ok (l ++ ks.map Int.toNat) := by
    intro ks
    induction ks with
    | nil => intro l; simp [Outcome.pure_eq]
    | cons k ks ih => intro l; rw [List.foldlM_cons, Outcome.ok_bind, ih]; simp
  refine ⟨ks.map Int.toNat, by unfold keysOf; rw [forEach_rep ht.keys, h1]; simp, ?_⟩
  have hmem : ∀ k, k ∈ ks ↔ ∃ e ∈ m, (e.1 : Int) = k := fun k => by rw [ht.mem, lineMap_mem]
  rw [List.perm_ext_iff_of_nodup]
  · intro x
    simp only [List.mem_map]
    constructor
    · rintro ⟨k, hk, rfl⟩
      obtain ⟨e, he, rfl⟩ := (hmem k).1 hk
      exact ⟨e, he, by simp⟩
    · rintro ⟨e, he, rfl⟩
      exact ⟨(e.1 : Int), (hmem _).2 ⟨e, he, rfl⟩, by simp⟩
  · rw [List.nodup_map_iff_inj_on ht.nodup]
    intro x hx y hy hxy
    obtain ⟨e, _, rfl⟩ := (hmem x).1 hx
    obtain ⟨e', _, rfl⟩ := (hmem y).1 hy
    simp only [Int.toNat_natCast] at hxy
    rw [hxy]
  · exact hn

/-- The grouping stage on containers: the steps of the labelling loop are those of the pure model in another order. -/
theorem prominent_rel {heap : List (CCl W S)} {ptrs : List (Option Nat)} {cs : List (Option (Cl W S))} (h : HRel heap ptrs cs) (hlab : Labelled cs)
    (hb : cs.length ≤ 2147483648) {clusters : AList (Option Nat)} (hc : Rep clusters ptrs) {table : HTable.Table Int} {entries : List (W × List Nat)}
    {lines : List (Nat × W × List Nat)} (hl : LinesRel table entries lines) (hll : lines.length < 18446744073709551616)
    (hsm : ∀ l ∈ lines, ∀ x ∈ l.2.2, x < 2147483648) (n : Nat) (order : Nat → List Nat) (sched : List (Nat × Nat) → List (Nat × Nat)) {root : Cl W S}
    (hr : getCl cs 1 = .ok root) (ho : (order root.desc.length).length < 18446744073709551616) {m : List (Nat × List Nat)}
    (hm : Sel.group cs root.desc (order root.desc.length) [] = .ok m) (hml : m.length < 18446744073709551616) :
    ∃ keys : List Nat, keys.Perm (m.map (·.1)) ∧ ∀ labels, Sel.labelAll lines m (sched (keys.flatMap (fun k => (List.range n).map (fun j => (k, j))))) (List.replicate n 0) = .ok labels →
      prominent heap clusters table entries n order sched = .ok labels := by
  obtain ⟨a, c, k1, k2, _, _, k3, _⟩ := h.rel.get hc 1 hr
  obtain ⟨ds, d1, d2⟩ := k3.desc
  obtain ⟨t, e1, ht⟩ := table_init c.desc.size
  have hsz : c.desc.size = root.desc.length := by rw [d1.size, d2.length_eq]
  obtain ⟨g, e2, hg⟩ := groupAll_rel h hlab hb d1 d2 (order root.desc.length) (g := { table := t, lists := [] }) (m := [])
    ⟨⟨[], by
      have : (lineMap ([] : List (Nat × List Nat))) = fun _ => none := by funext k; rfl
      rw [this]; exact ht⟩, .nil, by simp⟩ (by simpa using ho) m hm
  obtain ⟨ks, hk⟩ := hg.table
  obtain ⟨keys, e3, hperm⟩ := keysOf_rel hk hg.nodup
  refine ⟨keys, hperm, fun labels e4 => ?_⟩
  unfold prominent
  rw [k1, Outcome.ok_bind, k2, Outcome.ok_bind, e1, Outcome.ok_bind, hsz, e2, Outcome.ok_bind, e3, Outcome.ok_bind]
  obtain ⟨l', e5, rfl⟩ := labelAll_rel hg hml hl hll hsm _ _ labels e4
  exact e5

/-! ### Outlier scores -/

theorem scoreOf_rel [CCmp W] {zeroW : W} {ops : Outlier.Ops W T} {heap : List (CCl W S)} {ptrs : List (Option Nat)} {cs : List (Option (Cl W S))}
    (h : HRel heap ptrs cs) {clusters : AList (Option Nat)} (hc : Rep clusters ptrs) (noise : List (Option W)) (last : List (Option Nat)) (i : Nat) :
    Refines (fun x y => x = y) (scoreOf zeroW ops heap clusters noise last i) (Outlier.scoreOf zeroW ops cs noise last i) := by
  intro y e
  unfold Outlier.scoreOf at e
  obtain ⟨l, e1, e⟩ := Outcome.bind_eq_ok.1 e
  obtain ⟨p, e2, e⟩ := Outcome.bind_eq_ok.1 e
  obtain ⟨eps, e3, e⟩ := Outcome.bind_eq_ok.1 e
  obtain ⟨a, c, k1, k2, _, _, k3, _⟩ := h.rel.get hc l e2
  refine ⟨y, ?_, rfl⟩
  unfold scoreOf
  rw [e1, Outcome.ok_bind, k1, Outcome.ok_bind, k2, Outcome.ok_bind, e3, Outcome.ok_bind, k3.propLowest]
  exact e

theorem fill_rel [CCmp W] {zeroW : W} {ops : Outlier.Ops W T} {heap : List (CCl W S)} {ptrs : List (Option Nat)} {cs : List (Option (Cl W S))}
    (h : HRel heap ptrs cs) {clusters : AList (Option Nat)} (hc : Rep clusters ptrs) (noise : List (Option W)) (last : List (Option Nat)) (core : List (Option W)) :
    ∀ (order : List Nat) (a : List (Option (OScore W T))),
    Refines (fun x y => x = y) (fill zeroW ops heap clusters noise last core order a) (Outlier.fill zeroW ops cs noise last core order a) := by
  intro order
  induction order with
  | nil => intro a; exact .ok rfl
  | cons i r ih =>
    intro a
    simp only [fill, Outlier.fill]
    refine Refines.bind (scoreOf_rel h hc noise last i) ?_
    rintro s _ _ rfl
    refine Refines.bind (R := fun a b => a = b) (fun b e => ⟨b, e, rfl⟩) ?_
    rintro c _ _ rfl
    refine Refines.bind (R := fun a b => a = b) (fun b e => ⟨b, e, rfl⟩) ?_
    rintro a' _ _ rfl
    exact ih a'

theorem scores_rel [CCmp W] [CCmp T] {qsort : (OScore W T → OScore W T → Int) → List (OScore W T) → List (OScore W T)} {zeroW : W} {ops : Outlier.Ops W T}
    {heap : List (CCl W S)} {ptrs : List (Option Nat)} {cs : List (Option (Cl W S))} (h : HRel heap ptrs cs) {clusters : AList (Option Nat)} (hc : Rep clusters ptrs)
    (order : List Nat) (noise : List (Option W)) (last : List (Option Nat)) (core : List (Option W)) (n : Nat) :
    Refines (fun x y => x = y) (scores qsort zeroW ops order heap clusters noise last core n) (Outlier.scores qsort zeroW ops order cs noise last core n) := by
  unfold scores Outlier.scores
  refine Refines.bind (fill_rel h hc noise last core order _) ?_
  rintro a _ _ rfl
  exact fun b e => ⟨b, e, rfl⟩

/-! ### Sorting keeps the adjacency lists -/

theorem swapEdges_edges {g g' : Graph W} {i j : Nat} (e : Graph.swapEdges g i j = .ok g') : g'.edges = g.edges ∧ g'.numVertices = g.numVertices := by
  unfold Graph.swapEdges at e
  split at e
  · obtain ⟨_, _, e⟩ := Outcome.bind_eq_ok.1 e
    obtain ⟨_, _, e⟩ := Outcome.bind_eq_ok.1 e
    obtain ⟨_, _, e⟩ := Outcome.bind_eq_ok.1 e
    obtain ⟨_, _, e⟩ := Outcome.bind_eq_ok.1 e
    obtain ⟨_, _, e⟩ := Outcome.bind_eq_ok.1 e
    obtain ⟨_, _, e⟩ := Outcome.bind_eq_ok.1 e
    obtain ⟨_, _, e⟩ := Outcome.bind_eq_ok.1 e
    obtain ⟨_, _, e⟩ := Outcome.bind_eq_ok.1 e
    obtain ⟨_, _, e⟩ := Outcome.bind_eq_ok.1 e
    obtain ⟨_, _, e⟩ := Outcome.bind_eq_ok.1 e
    obtain ⟨_, _, e⟩ := Outcome.bind_eq_ok.1 e
    obtain ⟨_, _, e⟩ := Outcome.bind_eq_ok.1 e
    simp only [Outcome.pure_eq, Outcome.ok.injEq] at e
    subst e
    exact ⟨rfl, rfl⟩
  · cases e; exact ⟨rfl, rfl⟩

theorem partLoop_edges [CCmp W] {pv : W} : ∀ (k i low : Nat) {g : Graph W} {r : Graph W × Nat}, Graph.partLoop pv k i low g = .ok r →
    r.1.edges = g.edges ∧ r.1.numVertices = g.numVertices := by
  intro k
  induction k with
  | zero => intro i low g r e; cases e; exact ⟨rfl, rfl⟩
  | succ k ih =>
    intro i low g r e
    simp only [Graph.partLoop] at e
    obtain ⟨c, _, e⟩ := Outcome.bind_eq_ok.1 e
    split at e
    · obtain ⟨g', e1, e⟩ := Outcome.bind_eq_ok.1 e
      obtain ⟨a1, a2⟩ := swapEdges_edges e1
      obtain ⟨b1, b2⟩ := ih _ _ e
      exact ⟨b1.trans a1, b2.trans a2⟩
    · exact ih _ _ e

theorem partition_edges [CCmp W] {g : Graph W} {s e p : Nat} {r : Graph W × Nat} (h : Graph.partition g s e p = .ok r) :
    r.1.edges = g.edges ∧ r.1.numVertices = g.numVertices := by
  unfold Graph.partition at h
  obtain ⟨pv, _, h⟩ := Outcome.bind_eq_ok.1 h
  obtain ⟨g1, h1, h⟩ := Outcome.bind_eq_ok.1 h
  obtain ⟨⟨g2, low⟩, h2, h⟩ := Outcome.bind_eq_ok.1 h
  simp only at h
  obtain ⟨g3, h3, h⟩ := Outcome.bind_eq_ok.1 h
  simp only [Outcome.pure_eq, Outcome.ok.injEq] at h
  subst h
  obtain ⟨a1, a2⟩ := swapEdges_edges h1
  obtain ⟨b1, b2⟩ := partLoop_edges _ _ _ h2
  obtain ⟨c1, c2⟩ := swapEdges_edges h3
  exact ⟨c1.trans (b1.trans a1), c2.trans (b2.trans a2)⟩

theorem sortLoop_edges [CCmp W] {cap : Nat} : ∀ (fuel : Nat) (st : List (Nat × Nat)) {g g' : Graph W}, Graph.sortLoop cap fuel st g = .ok g' →
    g'.edges = g.edges ∧ g'.numVertices = g.numVertices := by
  intro fuel
  induction fuel with
  | zero =>
    intro st g g' h
    cases st with
    | nil => cases h; exact ⟨rfl, rfl⟩
    | cons x st => simp [Graph.sortLoop] at h
  | succ fuel ih =>
    intro st g g' h
    cases st with
    | nil => cases h; exact ⟨rfl, rfl⟩
    | cons x st =>
      obtain ⟨s, e⟩ := x
      simp only [Graph.sortLoop] at h
      obtain ⟨p0, _, h⟩ := Outcome.bind_eq_ok.1 h
      obtain ⟨⟨g1, p⟩, h1, h⟩ := Outcome.bind_eq_ok.1 h
      simp only at h
      obtain ⟨st1, _, h⟩ := Outcome.bind_eq_ok.1 h
      obtain ⟨st2, _, h⟩ := Outcome.bind_eq_ok.1 h
      obtain ⟨a1, a2⟩ := partition_edges h1
      obtain ⟨b1, b2⟩ := ih _ h
      exact ⟨b1.trans a1, b2.trans a2⟩

theorem sortByWeight_edges [CCmp W] {g g' : Graph W} (h : Graph.sortByWeight g = .ok g') : g'.edges = g.edges ∧ g'.numVertices = g.numVertices := by
  unfold Graph.sortByWeight at h
  simp only at h
  split at h
  · cases h; exact ⟨rfl, rfl⟩
  · obtain ⟨st, _, h⟩ := Outcome.bind_eq_ok.1 h
    exact sortLoop_edges _ _ h

/-! ### Whole runs -/

theorem group_length {cs : List (Option (Cl W S))} {sol : List Nat} : ∀ (order : List Nat) {m m' : List (Nat × List Nat)}, Sel.group cs sol order m = .ok m' →
    m'.length ≤ m.length + order.length := by
  intro order
  induction order with
  | nil => intro m m' e; cases e; simp
  | cons i r ih =>
    intro m m' e
    simp only [Sel.group] at e
    obtain ⟨l, _, e⟩ := Outcome.bind_eq_ok.1 e
    obtain ⟨p, _, e⟩ := Outcome.bind_eq_ok.1 e
    have h1 := ih e
    have h2 := addTo_length p.offset p.label m
    simp only [List.length_cons]
    omega

/-- Agreement of an object with the one of the pure model. -/
structure ObjRel (co : Obj W S T) (o : Api.Obj W S T) : Prop where
  minPoints : co.minPoints = o.minPoints
  numPoints : co.numPoints = o.numPoints
  dis : co.dis = o.dis
  clusters : ∃ ptrs : List (Option Nat), Rep co.clusters ptrs ∧ HRel co.heap ptrs o.results.clusters
  lines : LinesRel co.hierarchy co.entries o.results.hierarchy
  labels : co.labels = o.results.labels
  outliers : co.outliers = o.results.outliers

theorem doRun_rel [CCmp W] [CCmp S] [CCmp T] (env : Api.Env D W S T) (par : Api.Par) (hsch : par.sch.Complete) (m : Nat) (dis : Distance W) (n : Nat)
    (hn : n ≤ 2147483648) {clusters : AList (Option Nat)} (hc : Rep clusters []) {out : Run.Full W S T}
    (hall : ∀ sch : Run.Schedule, sch.Complete → Run.full env.qsort env.ar env.smax env.oops sch par.scores m dis n = .ok out)
    (hlab : Labelled out.clusters) (hb : out.clusters.length ≤ 2147483648) (hll : out.hierarchy.length < 18446744073709551616)
    (hdesc : ∀ root : Cl W S, getCl out.clusters 1 = .ok root → root.desc.length < 18446744073709551616) :
    ∃ co, doRun env par m dis n clusters = .ok co ∧ ObjRel co ⟨m, n, dis, out⟩ := by
  have e := hall par.sch hsch
  unfold Run.full Run.doRun at e
  obtain ⟨o1, e0, e⟩ := Outcome.bind_eq_ok.1 e
  obtain ⟨g, e1, e0⟩ := Outcome.bind_eq_ok.1 e0
  obtain ⟨g', e2, e3⟩ := Outcome.bind_eq_ok.1 e0
  obtain ⟨sc, e9, e10⟩ := Outcome.bind_eq_ok.1 e
  unfold Run.fromTree at e3
  obtain ⟨res, e4, e3⟩ := Outcome.bind_eq_ok.1 e3
  obtain ⟨ps, e5, e3⟩ := Outcome.bind_eq_ok.1 e3
  obtain ⟨labels, e6, e3⟩ := Outcome.bind_eq_ok.1 e3
  simp only [Outcome.pure_eq, Outcome.ok.injEq] at e3 e10
  subst e3
  subst e10
  simp only at hlab hb hll hdesc e9
  -- the spanning tree
  obtain ⟨wt, va, vb, hinit⟩ : ∃ wt va vb, Graph.init n va vb wt = .ok g := by
    unfold Mst.construct at e1
    obtain ⟨r, _, e1⟩ := Outcome.bind_eq_ok.1 e1
    obtain ⟨r', _, e1⟩ := Outcome.bind_eq_ok.1 e1
    exact ⟨_, _, _, e1⟩
  obtain ⟨adj, a1, a2, a3⟩ := adjacency_rel hn va vb wt g hinit
  have hg : g.va = va ∧ g.vb = vb ∧ g.numVertices = n := by
    unfold Graph.init at hinit
    obtain ⟨ed, _, hinit⟩ := Outcome.bind_eq_ok.1 hinit
    simp only [Outcome.pure_eq, Outcome.ok.injEq] at hinit
    subst hinit
    exact ⟨rfl, rfl, rfl⟩
  obtain ⟨s1, s2⟩ := sortByWeight_edges e2
  have hnv : g'.numVertices = n := s2.trans hg.2.2
  -- the hierarchy
  obtain ⟨t, t1, t2⟩ := table_init (Api.csize n)
  have hlabels := propagateTree_labels e5
  have hlab0 : Labelled res.clusters := hlab.of_labels hlabels.symm
  have hlen0 : res.clusters.length = ps.clusters.length := by
    have := congrArg List.length hlabels
    simpa [labelsOf] using this.symm
  obtain ⟨r, b1, b2⟩ := compute_rel m false (g := g') (by omega) (by rw [s1]; exact a2) (by rw [s1, a3, hnv]) hc t2 e4 (by omega)
  obtain ⟨ptrs, c1, c2, c3⟩ := b2.clusters
  -- propagation
  have hsize : r.clusters.size = res.clusters.length := by rw [c1.size, c2.len]
  obtain ⟨s, d1, d2⟩ := propagateTree_rel (ar := env.ar) (smax := env.smax) ⟨c2, c3⟩ hlab0 c1 (by omega) (par.sch.leaf res.clusters.length) ps e5
  -- selection
  have hsm : ∀ l ∈ res.hierarchy, ∀ x ∈ l.2.2, x < 2147483648 := fun l hl x hx => by
    have := b2.labels l hl x hx
    omega
  have e6' := e6
  unfold Sel.prominent at e6'
  obtain ⟨root, f1, e6'⟩ := Outcome.bind_eq_ok.1 e6'
  obtain ⟨gm, f2, f3⟩ := Outcome.bind_eq_ok.1 e6'
  have hroot := hdesc root f1
  have horder : (par.sch.group root.desc.length).length = root.desc.length := by
    rw [(hsch.group _).length_eq]; simp
  have hgl := group_length _ f2
  simp only [List.length_nil, Nat.zero_add] at hgl
  obtain ⟨keys, k1, k2⟩ := prominent_rel d2.heap d2.lab hb c1 b2.lines hll hsm n par.sch.group par.sch.steps f1 (by omega) f2 (by omega)
  have hperm : (keys.flatMap (fun k => (List.range n).map (fun j => (k, j)))).Perm (Sel.labelSteps gm n) := k1.flatMap_right _
  -- the same run with the labelling loop in the order of the table
  let sch' : Run.Schedule := { par.sch with
    steps := fun l => if l = Sel.labelSteps gm n then par.sch.steps (keys.flatMap (fun k => (List.range n).map (fun j => (k, j)))) else par.sch.steps l }
  have hsch' : sch'.Complete := by
    refine ⟨hsch.leaf, hsch.group, fun l => ?_⟩
    show (if l = Sel.labelSteps gm n then par.sch.steps (keys.flatMap (fun k => (List.range n).map (fun j => (k, j)))) else par.sch.steps l).Perm l
    by_cases hl : l = Sel.labelSteps gm n
    · rw [if_pos hl, hl]
      exact (hsch.steps _).trans hperm
    · rw [if_neg hl]
      exact hsch.steps l
  have e' := hall sch' hsch'
  have k3 : Sel.labelAll res.hierarchy gm (par.sch.steps (keys.flatMap (fun k => (List.range n).map (fun j => (k, j))))) (List.replicate n 0) = .ok labels := by
    unfold Run.full Run.doRun Run.fromTree at e'
    rw [e1, Outcome.ok_bind, e2, Outcome.ok_bind, e4, Outcome.ok_bind] at e'
    have e5' : Sel.propagateTree env.ar env.smax (sch'.leaf res.clusters.length) res.clusters = .ok ps := e5
    rw [e5', Outcome.ok_bind] at e'
    obtain ⟨o2, e7, e8⟩ := Outcome.bind_eq_ok.1 e'
    obtain ⟨lb, e11, e12⟩ := Outcome.bind_eq_ok.1 e7
    obtain ⟨sc', _, e13⟩ := Outcome.bind_eq_ok.1 e8
    simp only [Outcome.pure_eq, Outcome.ok.injEq] at e12 e13
    subst e12
    simp only [Run.Full.mk.injEq, Run.Out.mk.injEq] at e13
    unfold Sel.prominent at e11
    have f2' : Sel.group ps.clusters root.desc (sch'.group root.desc.length) [] = .ok gm := f2
    rw [f1, Outcome.ok_bind, f2', Outcome.ok_bind, hnv] at e11
    have hst : sch'.steps (Sel.labelSteps gm n) = par.sch.steps (keys.flatMap (fun k => (List.range n).map (fun j => (k, j)))) := if_pos rfl
    rw [hst] at e11
    rw [e11, e13.1.2.2.2.2.2]
  have k4 := k2 labels k3
  -- outlier scores
  obtain ⟨o', o1, rfl⟩ := scores_rel (qsort := env.qsort) (zeroW := env.ar.zeroW) (ops := env.oops) d2.heap c1 par.scores r.noise r.last dis.coreDistances n sc
    (by rw [b2.noise, b2.last]; exact e9)
  refine ⟨⟨m, n, dis, s.heap, r.clusters, r.table, r.entries, labels, o'⟩, ?_, rfl, rfl, rfl, ⟨ptrs, c1, d2.heap⟩, b2.lines, rfl, rfl⟩
  unfold doRun
  rw [t1, Outcome.ok_bind, e1, Outcome.ok_bind, hg.1, hg.2.1, a1, Outcome.ok_bind, e2, Outcome.ok_bind, b1, Outcome.ok_bind, hsize, d1, Outcome.ok_bind, k4, Outcome.ok_bind, o1]
  rfl

end Verif.Conc
