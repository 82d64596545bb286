import Verif.Spec.DistObj
import Verif.Props.Distance
/-
C95: a distance object can be used again and again.
-/
namespace Verif.Props
open Spec
variable {D W : Type}

/-- The data set of `p` is supported: helper for C95. -/
def Clean (ops : DistOps D W) (p : DataHeld D) : Prop :=
  p.rows ≤ 65536 ∧ ∃ f : Nat → Nat → W, ∀ i j, i < j → j < p.rows → SqSum ops p.data p.cols i j (f i j)

/-- What is computed does not depend on the schedule or on earlier numbers of neighbours; helper for C95. -/
theorem fresh_any [CCmp W] {ops : DistOps D W} (dmax : W) {p : DataHeld D} (hp : Clean ops p) :
    ∃ C : Nat → Distance W,
      (∀ nn order corder, order.Perm (Distance.pairs p.rows) → corder.Perm (List.range p.rows) →
        Distance.compute ops dmax order corder p.data p.rows p.cols nn = .ok (C nn)) ∧
      (∀ nn nn' corder, corder.Perm (List.range p.rows) →
        Distance.getCoreDistances ops.zero dmax corder { C nn with numNeighbors := nn' } = .ok (C nn')) ∧
      (∀ nn, (C nn).rows = p.rows ∧ (C nn).cols = p.cols ∧ (C nn).numNeighbors = nn ∧
        (C nn).coreDistances.length = p.rows ∧ (C nn).distances.length = subCells p.rows ∧ (C nn).distances = (C 0).distances ∧
        (∀ i j, i < p.rows → j < p.rows → ∃ y, (C nn).get ops.zero i j = .ok y) ∧
        (∀ i, i < p.rows → ∃ y, (C nn).coreDistances[i]? = some (some y))) := by
  obtain ⟨few, f, hf⟩ := hp
  have key := fun (nn0 nn : Nat) (order order' : List (Nat × Nat)) (corder corder' last : List Nat) ho ho' hco hco' hl =>
    C20_cores_history_independent ops dmax p.data p.rows p.cols nn0 nn few f hf order order' corder corder' ho ho' hco hco' [] (by simp) last hl
  have rep := fun nn => compute_rep (ops := ops) dmax (data := p.data) (cols := p.cols) (nn := nn) few
    (.refl (Distance.pairs p.rows)) (.refl (List.range p.rows)) (fun i j a b => sqSum_iff.2 (hf i j a b))
  have hC : ∀ nn, ∃ d, Distance.compute ops dmax (Distance.pairs p.rows) (List.range p.rows) p.data p.rows p.cols nn = .ok d := fun nn => by
    obtain ⟨d, core, e, _⟩ := rep nn
    exact ⟨d, e⟩
  choose C hC using hC
  have h1 : ∀ nn order corder, order.Perm (Distance.pairs p.rows) → corder.Perm (List.range p.rows) → Distance.compute ops dmax order corder p.data p.rows p.cols nn = .ok (C nn) := by
    intro nn order corder ho hco
    obtain ⟨d0, d1, e0, e1, e2⟩ := key nn nn _ _ _ _ (List.range p.rows) (.refl _) ho (.refl _) hco (.refl _)
    obtain ⟨d0', d1', e0', e1', e2'⟩ := key nn nn _ _ _ _ (List.range p.rows) (.refl _) (.refl _) (.refl _) (.refl _) (.refl _)
    rw [hC] at e0 e0' e2'
    cases e0; cases e0'; cases e2'
    rw [e1] at e1'; cases e1'
    exact e2
  have hdist : ∀ nn, ∃ m, Distance.computeLoop ops p.data p.cols p.rows (Distance.pairs p.rows) (List.replicate (subCells p.rows) none) = .ok m ∧
      (C nn).distances = m := by
    intro nn
    obtain ⟨d, core, e, r1, r2, r3, hget, hself, hcore, hl, m, em, hm⟩ := rep nn
    rw [hC] at e; cases e
    exact ⟨m, em, hm⟩
  refine ⟨C, h1, ?_, ?_⟩
  · intro nn nn' corder hco
    obtain ⟨d0, d1, e0, e1, e2⟩ := key nn nn' _ _ _ _ corder (.refl _) (.refl _) (.refl _) (.refl _) hco
    rw [hC] at e0 e2
    cases e0; cases e2
    simp only [List.nil_append, rerunCores] at e1
    rw [← e1]
    cases Distance.getCoreDistances ops.zero dmax corder { C nn with numNeighbors := nn' } <;> rfl
  · intro nn
    obtain ⟨d, core, e, r1, r2, r3, hget, hself, hcore, hl, m, em, hm⟩ := rep nn
    rw [hC] at e
    cases e
    obtain ⟨m0, em0, hm0⟩ := hdist 0
    rw [em] at em0; cases em0
    obtain ⟨m', e', hl', _⟩ := Distance.computeLoop_rep few (fun i j a b => sqSum_iff.2 (hf i j a b)) (Distance.pairs p.rows)
      (List.replicate (subCells p.rows) none) (fun q hq => Distance.mem_pairs.mp hq) (by simp [Distance.subCells_eq few])
    rw [em] at e'; cases e'
    refine ⟨r1, r2, r3, hl, ?_, by rw [hm, hm0], ?_, fun i hi => ⟨_, (hcore i hi).2⟩⟩
    · rw [hm, hl', Distance.subCells_eq few]
    · intro i j hi hj
      rcases Nat.lt_trichotomy i j with h | h | h
      · exact ⟨_, (hget i j h hj).1⟩
      · subst h; exact ⟨_, hself i⟩
      · exact ⟨_, (hget j i h hi).2⟩

/-- What ties the object and its memory to what it holds; `k` data sets were overwritten. Helper for C95. -/
def Holding [CCmp W] (ops : DistOps D W) (dmax : W) (m : DistMem W) (d : DistStruct) (k : Nat) : Option (DataHeld D) → Prop
  | none => d.distances = none ∧ d.coreDistances = none ∧ m.live.length = 2 * k
  | some p => Clean ops p ∧ ∃ dis, Fresh ops dmax p dis ∧ d.dims = some (p.rows, p.cols) ∧ d.numNeighbors = p.nn ∧
      ∃ a b, a ≠ b ∧ d.distances = some a ∧ d.coreDistances = some b ∧ m.live.lookup a = some dis.distances ∧
        m.live.lookup b = some dis.coreDistances ∧ m.live.length = 2 * k + 2

/-- Addresses are given out once. -/
def Fit (m : DistMem W) : Prop := (m.live.map Prod.fst).Nodup ∧ ∀ b ∈ m.live, b.1 < m.next

theorem lookup_fst {β : Type} : ∀ {l : List (Nat × β)} {a : Nat} {b : β}, l.lookup a = some b → (a, b) ∈ l := by
  intro l
  induction l with
  | nil => intro a b h; simp at h
  | cons x r ih =>
    intro a b h
    obtain ⟨x1, x2⟩ := x
    rw [List.lookup_cons] at h
    by_cases e : a = x1
    · subst e; simp at h; simp [h]
    · have : (a == x1) = false := by simp [e]
      rw [this] at h
      exact List.mem_cons_of_mem _ (ih h)

theorem lookup_none_of {β : Type} : ∀ {l : List (Nat × β)} {a : Nat}, (∀ b ∈ l, b.1 ≠ a) → l.lookup a = none := by
  intro l a h
  by_contra hc
  obtain ⟨b, hb⟩ := Option.ne_none_iff_exists'.mp hc
  exact h _ (lookup_fst hb) rfl

theorem fit_alloc {m : DistMem W} (h : Fit m) (b : List (Option W)) : Fit (m.alloc b).1 := by
  obtain ⟨h1, h2⟩ := h
  refine ⟨?_, ?_⟩
  · simp only [DistMem.alloc, List.map_cons, List.nodup_cons]
    refine ⟨?_, h1⟩
    intro hc
    obtain ⟨x, hx, e⟩ := List.mem_map.mp hc
    have := h2 x hx
    omega
  · intro x hx
    simp only [DistMem.alloc, List.mem_cons] at hx
    show x.1 < m.next + 1
    rcases hx with rfl | hx
    · simp
    · have := h2 x hx; omega

theorem lookup_alloc {m : DistMem W} (b : List (Option W)) : (m.alloc b).1.live.lookup (m.alloc b).2 = some b := by
  simp [DistMem.alloc]

theorem lookup_alloc_ne {m : DistMem W} {a : Nat} (b : List (Option W)) (h : a ≠ m.next) : (m.alloc b).1.live.lookup a = m.live.lookup a := by
  simp only [DistMem.alloc, List.lookup_cons]
  have : (a == m.next) = false := by simp [h]
  rw [this]

theorem lookup_filter {β : Type} : ∀ (l : List (Nat × β)) (a c : Nat), c ≠ a → (l.filter (fun b => b.1 != a)).lookup c = l.lookup c := by
  intro l a c h
  induction l with
  | nil => rfl
  | cons x r ih =>
    obtain ⟨x1, x2⟩ := x
    by_cases e : x1 = a
    · subst e
      have : (c == x1) = false := by simp [h]
      simp [List.lookup_cons, this, ih]
    · have : ((x1, x2) : Nat × β).1 != a := by simp [e]
      simp only [List.filter_cons, this, if_true, List.lookup_cons, ih]

theorem filter_length {β : Type} : ∀ (l : List (Nat × β)) (a : Nat), (l.map Prod.fst).Nodup → l.lookup a ≠ none →
    (l.filter (fun b => b.1 != a)).length + 1 = l.length := by
  intro l a hn hl
  induction l with
  | nil => simp at hl
  | cons x r ih =>
    obtain ⟨x1, x2⟩ := x
    simp only [List.map_cons, List.nodup_cons] at hn
    by_cases e : x1 = a
    · subst e
      have : r.filter (fun b => b.1 != x1) = r := by
        rw [List.filter_eq_self]
        intro b hb
        have : b.1 ≠ x1 := fun h => hn.1 (h ▸ List.mem_map_of_mem (f := Prod.fst) hb)
        simp [this]
      simp [this]
    · have h1 : (a == x1) = false := by simp [Ne.symm e]
      rw [List.lookup_cons, h1] at hl
      have h2 : ((x1, x2) : Nat × β).1 != a := by simp [e]
      simp only [List.filter_cons, h2, if_true, List.length_cons]
      have := ih hn.2 hl
      omega

theorem fit_filter {m : DistMem W} (h : Fit m) (a : Nat) : Fit { m with live := m.live.filter (fun b => b.1 != a) } :=
  ⟨(List.Sublist.map _ List.filter_sublist).nodup h.1, fun b hb => h.2 b (List.mem_of_mem_filter hb)⟩

theorem free_live {m : DistMem W} {a : Nat} (h : m.live.lookup a ≠ none) :
    m.free (some a) = .ok { m with live := m.live.filter (fun b => b.1 != a) } := by
  simp only [DistMem.free]
  rw [if_neg h]

theorem lookup_store {m : DistMem W} {a : Nat} {b c : List (Option W)} (h : m.live.lookup a = some b) :
    (m.store a c).live.lookup a = some c := by
  simp only [DistMem.store]
  generalize m.live = l at h
  induction l with
  | nil => simp at h
  | cons x r ih =>
    obtain ⟨x1, x2⟩ := x
    by_cases e : x1 = a
    · subst e; simp
    · have h1 : (a == x1) = false := by simp [Ne.symm e]
      rw [List.lookup_cons, h1] at h
      simp only [List.map_cons, if_neg e, List.lookup_cons, h1]
      exact ih h

theorem lookup_store_ne {m : DistMem W} {a a' : Nat} {c : List (Option W)} (h : a' ≠ a) :
    (m.store a c).live.lookup a' = m.live.lookup a' := by
  simp only [DistMem.store]
  induction m.live with
  | nil => rfl
  | cons x r ih =>
    obtain ⟨x1, x2⟩ := x
    by_cases e : x1 = a
    · subst e
      have h1 : (a' == x1) = false := by simp [h]
      simp only [List.map_cons, if_true, List.lookup_cons, h1, ih]
    · simp only [List.map_cons, if_neg e, List.lookup_cons, ih]

theorem fit_store {m : DistMem W} (h : Fit m) (a : Nat) (c : List (Option W)) : Fit (m.store a c) := by
  have hm : (m.store a c).live.map Prod.fst = m.live.map Prod.fst := by
    simp only [DistMem.store, List.map_map]
    apply List.map_congr_left
    intro x _
    by_cases e : x.1 = a <;> simp [e]
  refine ⟨by rw [hm]; exact h.1, ?_⟩
  intro b hb
  have : b.1 ∈ (m.store a c).live.map Prod.fst := List.mem_map_of_mem hb
  rw [hm] at this
  obtain ⟨x, hx, e⟩ := List.mem_map.mp this
  have := h.2 x hx
  show b.1 < m.next
  omega

/-- What the destructor leaves. -/
theorem clean_holding [CCmp W] {ops : DistOps D W} {dmax : W} {m : DistMem W} {d : DistStruct} {k : Nat} {h : Option (DataHeld D)}
    (hf : Fit m) (hh : Holding ops dmax m d k h) :
    ∃ m', d.clean m = .ok (m', { d with distances := none, coreDistances := none }) ∧ Fit m' ∧ m'.live.length = 2 * k := by
  cases h with
  | none =>
    obtain ⟨h1, h2, h3⟩ := hh
    refine ⟨m, ?_, hf, h3⟩
    simp [DistStruct.clean, h1, h2, DistMem.free]
  | some p =>
    obtain ⟨_, dis, _, _, _, a, b, hab, ha, hb, la, lb, hl⟩ := hh
    have e1 := free_live (m := m) (a := a) (by rw [la]; simp)
    have lb' : ({ m with live := m.live.filter (fun b => b.1 != a) } : DistMem W).live.lookup b ≠ none := by
      show (m.live.filter (fun b => b.1 != a)).lookup b ≠ none
      rw [lookup_filter _ _ _ (Ne.symm hab), lb]; simp
    have e2 := free_live lb'
    refine ⟨_, ?_, fit_filter (fit_filter hf a) b, ?_⟩
    · simp only [DistStruct.clean, ha, hb, e1, Outcome.ok_bind, e2]
      rfl
    · have n1 := filter_length m.live a hf.1 (by rw [la]; simp)
      have n2 := filter_length _ b (fit_filter hf a).1 lb'
      simp only at n2 ⊢
      omega

/-- One sensible call; helper for C95. -/
theorem dist_step [CCmp W] (ops : DistOps D W) (dmax : W) {m : DistMem W} {d : DistStruct} {k : Nat} {h : Option (DataHeld D)}
    (hf : Fit m) (hh : Holding ops dmax m d k h) (c : DistCall D) (hs : Sensible ops h c) :
    ∃ m' d' x, DistStruct.step ops dmax m d c = .ok (m', d', x) ∧ RightAnswer ops dmax h c x ∧ Fit m' ∧
      Holding ops dmax m' d' (k + overwritten h [c]) (heldAfter h c) := by
  cases c with
  | compute data rows cols nn order corder =>
    obtain ⟨few, ⟨f, hsum⟩, ho, hco⟩ := hs
    have hcl : Clean ops (⟨data, rows, cols, nn⟩ : DataHeld D) := ⟨few, f, hsum⟩
    obtain ⟨C, h1, _, h3⟩ := fresh_any dmax hcl
    have e := h1 nn order corder ho hco
    have hfr : Fresh ops dmax (⟨data, rows, cols, nn⟩ : DataHeld D) (C nn) := h1 nn _ _ (.refl _) (.refl _)
    simp only at e
    refine ⟨_, { dims := some (rows, cols), numNeighbors := nn, distances := some m.next, coreDistances := some (m.next + 1) }, none, ?_,
      by cases h <;> rfl, fit_alloc (fit_alloc hf (C nn).distances) (C nn).coreDistances, ?_⟩
    · simp only [DistStruct.step, DistStruct.compute, e, Outcome.ok_bind]
      rfl
    · refine ⟨hcl, C nn, hfr, rfl, rfl, m.next, m.next + 1, by omega, rfl, rfl, ?_, ?_, ?_⟩
      · rw [lookup_alloc_ne _ (by simp [DistMem.alloc])]
        exact lookup_alloc _
      · simp [DistMem.alloc]
      · have : m.live.length = 2 * (k + overwritten h [DistCall.compute data rows cols nn order corder]) := by
          cases h with
          | none => simpa [overwritten] using hh.2.2
          | some p =>
            obtain ⟨_, _, _, _, _, _, _, _, _, _, _, _, hl⟩ := hh
            simp only [overwritten]; omega
        show m.live.length + 1 + 1 = _
        omega
  | get row col =>
    have hw : overwritten h [DistCall.get (D := D) row col] = 0 := by cases h <;> rfl
    rw [hw]
    cases h with
    | none =>
      have e : row = col := by
        rcases hs with e | ⟨p, e, _⟩
        · exact e
        · cases e
      refine ⟨m, d, some ops.zero, ?_, rfl, hf, hh⟩
      simp only [DistStruct.step, DistStruct.get, if_pos e, Outcome.ok_bind]
      rfl
    | some p =>
      have hh' := hh
      obtain ⟨hcl, dis, hfr, hd, hn, a, b, hab, ha, hb, la, lb, hl⟩ := hh
      obtain ⟨C, h1, _, h3⟩ := fresh_any dmax hcl
      have : dis = C p.nn := by
        have := h1 p.nn _ _ (.refl _) (.refl _)
        unfold Fresh at hfr
        rw [hfr] at this; cases this; rfl
      subst this
      obtain ⟨r1, r2, r3, _, _, _, hget, _⟩ := h3 p.nn
      have hy : ∃ y, (C p.nn).get ops.zero row col = .ok y := by
        by_cases e : row = col
        · subst e; exact ⟨ops.zero, by simp [Distance.get]⟩
        · rcases hs with e' | ⟨q, e', hr, hc⟩
          · exact absurd e' e
          · cases e'; exact hget row col hr hc
      obtain ⟨y, hy⟩ := hy
      refine ⟨m, d, some y, ?_, ⟨_, y, hfr, hy, rfl⟩, hf, hh'⟩
      have : d.get ops.zero m row col = .ok y := by
        unfold DistStruct.get
        by_cases e : row = col
        · subst e
          rw [if_pos rfl]
          simp [Distance.get] at hy
          rw [hy]
        · rw [if_neg e]
          have hg : ∀ cd, Distance.get ops.zero { rows := p.rows, cols := p.cols, numNeighbors := d.numNeighbors, distances := (C p.nn).distances, coreDistances := cd } row col
              = (C p.nn).get ops.zero row col := by
            intro cd; simp only [Distance.get, r1]
          simp only [DistStruct.readDims, hd, Outcome.ok_bind, DistMem.deref, ha, la, hg, hy]
      simp only [DistStruct.step, this, Outcome.ok_bind]
      rfl
  | getCore i =>
    have hw : overwritten h [DistCall.getCore (D := D) i] = 0 := by cases h <;> rfl
    rw [hw]
    obtain ⟨p, rfl, hi⟩ := hs
    have hh' := hh
    obtain ⟨hcl, dis, hfr, hd, hn, a, b, hab, ha, hb, la, lb, hl⟩ := hh
    obtain ⟨C, h1, _, h3⟩ := fresh_any dmax hcl
    have : dis = C p.nn := by
      have := h1 p.nn _ _ (.refl _) (.refl _)
      unfold Fresh at hfr
      rw [hfr] at this; cases this; rfl
    subst this
    obtain ⟨y, hy⟩ := (h3 p.nn).2.2.2.2.2.2.2 i hi
    refine ⟨m, d, some y, ?_, ⟨_, y, hfr, hy, rfl⟩, hf, hh'⟩
    have : d.getCore m i = .ok y := by
      simp only [DistStruct.getCore, hb, DistMem.deref, lb, Outcome.ok_bind, rdInit, rd, hy]
      rfl
    simp only [DistStruct.step, this, Outcome.ok_bind]
    rfl
  | setCores nn order =>
    have hw : overwritten h [DistCall.setCores (D := D) nn order] = 0 := by cases h <;> rfl
    rw [hw]
    obtain ⟨p, rfl, ho⟩ := hs
    obtain ⟨hcl, dis, hfr, hd, hn, a, b, hab, ha, hb, la, lb, hl⟩ := hh
    obtain ⟨C, h1, h2, h3⟩ := fresh_any dmax hcl
    have : dis = C p.nn := by
      have := h1 p.nn _ _ (.refl _) (.refl _)
      unfold Fresh at hfr
      rw [hfr] at this; cases this; rfl
    subst this
    obtain ⟨r1, r2, r3, r4, r5, r6, _, _⟩ := h3 p.nn
    obtain ⟨s1, s2, s3, s4, s5, s6, _, _⟩ := h3 nn
    have hfr' : Fresh ops dmax ({ p with nn := nn } : DataHeld D) (C nn) := h1 nn _ _ (.refl _) (.refl _)
    have hcl' : Clean ops ({ p with nn := nn } : DataHeld D) := hcl
    have hdd : (C p.nn).distances = (C nn).distances := by rw [r6, s6]
    by_cases hz : p.rows = 0
    · refine ⟨m, { d with numNeighbors := nn }, none, ?_, rfl, hf, hcl', C nn, hfr', hd, rfl, a, b, hab, ha, hb, ?_, ?_, hl⟩
      · simp only [DistStruct.step, DistStruct.setCores, DistStruct.readDims, hd, Outcome.ok_bind, if_pos hz]
        rfl
      · rw [la, hdd]
      · rw [lb]
        have e1 : (C p.nn).coreDistances = [] := List.length_eq_zero_iff.mp (by omega)
        have e2 : (C nn).coreDistances = [] := List.length_eq_zero_iff.mp (by omega)
        rw [e1, e2]
    · have hmat : d.matrix m p.rows = .ok (C p.nn).distances := by
        unfold DistStruct.matrix
        by_cases h1' : p.rows ≤ 1
        · rw [if_pos h1']
          have : p.rows = 1 := by omega
          have e1 : (C p.nn).distances = [] := List.length_eq_zero_iff.mp (by rw [r5, this]; rfl)
          rw [e1]
        · rw [if_neg h1', ha]
          simp only [DistMem.deref, la]
      have hg := h2 p.nn nn order ho
      have hst : ({ rows := p.rows, cols := p.cols, numNeighbors := nn, distances := (C p.nn).distances, coreDistances := (C p.nn).coreDistances } : Distance W)
          = { C p.nn with numNeighbors := nn } := by rw [← r1, ← r2]
      refine ⟨m.store b (C nn).coreDistances, { d with numNeighbors := nn }, none, ?_, rfl, fit_store hf _ _,
        hcl', C nn, hfr', hd, rfl, a, b, hab, ha, hb, ?_, lookup_store lb, ?_⟩
      · simp only [DistStruct.step, DistStruct.setCores, DistStruct.readDims, hd, Outcome.ok_bind, if_neg hz, hmat, hb, DistMem.deref, lb, hst, hg]
        rfl
      · rw [lookup_store_ne hab, la, hdd]
      · simpa [DistMem.store] using hl
  | clean =>
    have hw : overwritten h [DistCall.clean (D := D)] = 0 := by cases h <;> rfl
    rw [hw]
    obtain ⟨m', e, hf', hl⟩ := clean_holding hf hh
    refine ⟨m', { d with distances := none, coreDistances := none }, none, ?_, by cases h <;> rfl, hf', rfl, rfl, hl⟩
    simp only [DistStruct.step, e, Outcome.ok_bind]
    rfl

/-- A sequence of sensible calls; helper for C95. -/
theorem dist_run [CCmp W] (ops : DistOps D W) (dmax : W) : ∀ (calls : List (DistCall D)) {m : DistMem W} {d : DistStruct} {k : Nat}
    {h : Option (DataHeld D)}, Fit m → Holding ops dmax m d k h → AllSensible ops h calls →
    ∃ m' d' xs, DistStruct.run ops dmax m d calls = .ok (m', d', xs) ∧ AllRight ops dmax h calls xs ∧ Fit m' ∧
      Holding ops dmax m' d' (k + overwritten h calls) (holds h calls) := by
  intro calls
  induction calls with
  | nil =>
    intro m d k h hf hh _
    exact ⟨m, d, [], rfl, by cases h <;> trivial, hf, by simpa [overwritten, holds] using hh⟩
  | cons c r ih =>
    intro m d k h hf hh hs
    obtain ⟨m1, d1, x, e1, hx, hf1, hh1⟩ := dist_step ops dmax hf hh c hs.1
    obtain ⟨m2, d2, xs, e2, hxs, hf2, hh2⟩ := ih hf1 hh1 hs.2
    refine ⟨m2, d2, x :: xs, ?_, ⟨hx, hxs⟩, hf2, ?_⟩
    · simp only [DistStruct.run, e1, Outcome.ok_bind, e2]
      rfl
    · have : k + overwritten h [c] + overwritten (heldAfter h c) r = k + overwritten h (c :: r) := by
        simp only [overwritten]; omega
      rw [← this]
      exact hh2

/-- The memory at the start: nothing is allocated. -/
def noMem : DistMem W := { live := [], next := 0 }

theorem fit_noMem : Fit (noMem : DistMem W) := ⟨by simp [noMem], by simp [noMem]⟩

theorem holding_init [CCmp W] (ops : DistOps D W) (dmax : W) : Holding ops dmax noMem DistStruct.init 0 (none : Option (DataHeld D)) :=
  ⟨rfl, rfl, rfl⟩

/-- C95, results: after any sensible calls on one object all answers are those a new object gives for the data set computed
    last, and destroying the object is possible. Memory: what remains are the two blocks of every data set that was
    overwritten; for the claim to hold in full that number would have to be 0 always (see `C95_leak_violated`). -/
theorem C95_history_partial [CCmp W] (ops : DistOps D W) (dmax : W) (calls : List (DistCall D)) (hs : AllSensible ops none calls) :
    ∃ m d xs m', DistStruct.run ops dmax noMem DistStruct.init calls = .ok (m, d, xs) ∧ AllRight ops dmax none calls xs ∧
      DistStruct.destroy m (some d) = .ok m' ∧ m'.live.length = 2 * overwritten none calls := by
  obtain ⟨m, d, xs, e, hx, hf, hh⟩ := dist_run ops dmax calls fit_noMem (holding_init ops dmax) hs
  obtain ⟨m', e', _, hl⟩ := clean_holding hf hh
  refine ⟨m, d, xs, m', e, hx, ?_, by simpa using hl⟩
  simp only [DistStruct.destroy, e', Outcome.ok_bind]
  rfl

/-- Nothing is left allocated if and only if no data set was computed while the object still held another one. -/
theorem C95_leak_exact [CCmp W] (ops : DistOps D W) (dmax : W) (calls : List (DistCall D)) (hs : AllSensible ops none calls)
    {m : DistMem W} {d : DistStruct} {xs : List (Option W)} {m' : DistMem W}
    (e : DistStruct.run ops dmax noMem DistStruct.init calls = .ok (m, d, xs)) (e' : DistStruct.destroy m (some d) = .ok m') :
    m'.live = [] ↔ overwritten none calls = 0 := by
  obtain ⟨_, _, _, _, e1, _, e2, hl⟩ := C95_history_partial ops dmax calls hs
  rw [e] at e1
  cases e1
  rw [e'] at e2
  cases e2
  rw [← List.length_eq_zero_iff, hl]
  omega

/-- Five points on a line, then two points in the plane on the same object. -/
def exCalls : List (DistCall Int) :=
  [.compute [0, 5, 0, 2, 9] 5 1 2 (Distance.pairs 5) (List.range 5), .get 1 3, .setCores 3 [4, 3, 2, 1, 0], .getCore 4,
    .compute [0, 0, 3, 4] 2 2 2 (Distance.pairs 2) (List.range 2), .get 1 0, .clean, .get 2 2]

/-- The calls of `exCalls` are sensible (helper for the witnesses). -/
theorem exCalls_sensible : AllSensible exactIntOps none exCalls := by
  refine ⟨⟨by decide, ⟨fun i j => ([0, 5, 0, 2, 9].getD i 0 - [0, 5, 0, 2, 9].getD j 0) ^ 2, ?_⟩, .refl _, .refl _⟩, ?_, ?_, ?_,
    ⟨by decide, ⟨fun _ _ => 25, ?_⟩, .refl _, .refl _⟩, ?_, trivial, .inl rfl, trivial⟩
  · intro i j h hj
    refine sqSum_iff.1 ?_
    revert i j
    have : ∀ j, j < 5 → ∀ i, i < j → Distance.sumFrom exactIntOps [0, 5, 0, 2, 9] 1 i j 1 0 exactIntOps.zero =
      .ok (([0, 5, 0, 2, 9].getD i 0 - [0, 5, 0, 2, 9].getD j 0) ^ 2) := by decide
    exact fun i j h hj => this j hj i h
  · exact .inr ⟨_, rfl, by decide, by decide⟩
  · exact ⟨_, rfl, by decide⟩
  · exact ⟨_, rfl, by decide⟩
  · intro i j h hj
    refine sqSum_iff.1 ?_
    have : i = 0 := by omega
    have : j = 1 := by omega
    subst i j
    decide
  · exact .inr ⟨_, rfl, by decide, by decide⟩

/-- The hypotheses of the theorems above are met, and one data set is overwritten. -/
example : AllSensible exactIntOps none exCalls ∧ overwritten none exCalls = 1 := ⟨exCalls_sensible, by decide⟩

/-- C95 is violated: a program that destroys its object leaves blocks allocated. -/
theorem C95_leak_violated : ∃ calls : List (DistCall Int), AllSensible exactIntOps none calls ∧
    ∃ m d xs m', DistStruct.run exactIntOps 1000 noMem DistStruct.init calls = .ok (m, d, xs) ∧
      DistStruct.destroy m (some d) = .ok m' ∧ m'.live ≠ [] := by
  obtain ⟨m, d, xs, m', e, _, e', _⟩ := C95_history_partial exactIntOps 1000 exCalls exCalls_sensible
  refine ⟨exCalls, exCalls_sensible, m, d, xs, m', e, e', ?_⟩
  intro h
  have := (C95_leak_exact exactIntOps 1000 exCalls exCalls_sensible e e').mp h
  revert this
  decide

/-- The number of rows of the data set computed last, whether or not the object was cleaned since. -/
def lastRows : List (DistCall D) → Option Nat
  | [] => none
  | .compute _ rows _ _ _ _ :: r => (lastRows r).or (some rows)
  | _ :: r => lastRows r

theorem run_dims [CCmp W] (ops : DistOps D W) (dmax : W) : ∀ (calls : List (DistCall D)) {m m' : DistMem W} {d d' : DistStruct} {xs : List (Option W)},
    DistStruct.run ops dmax m d calls = .ok (m', d', xs) → d'.dims.map Prod.fst = (lastRows calls).or (d.dims.map Prod.fst) := by
  intro calls
  induction calls with
  | nil => intro m m' d d' xs e; cases e; rfl
  | cons c r ih =>
    intro m m' d d' xs e
    simp only [DistStruct.run] at e
    obtain ⟨s, es, e⟩ := Outcome.bind_eq_ok.mp e
    obtain ⟨t, et, e⟩ := Outcome.bind_eq_ok.mp e
    cases e
    rw [ih et]
    cases c with
    | compute data rows cols nn order corder =>
      simp only [DistStruct.step, DistStruct.compute] at es
      obtain ⟨q, eq, es⟩ := Outcome.bind_eq_ok.mp es
      obtain ⟨q', eq', eq⟩ := Outcome.bind_eq_ok.mp eq
      cases eq
      cases es
      simp only [lastRows, Option.map_some]
      cases lastRows r <;> rfl
    | get row col =>
      simp only [DistStruct.step] at es
      obtain ⟨q, eq, es⟩ := Outcome.bind_eq_ok.mp es
      cases es; rfl
    | getCore i =>
      simp only [DistStruct.step] at es
      obtain ⟨q, eq, es⟩ := Outcome.bind_eq_ok.mp es
      cases es; rfl
    | setCores nn order =>
      simp only [DistStruct.step, DistStruct.setCores] at es
      obtain ⟨q, eq, es⟩ := Outcome.bind_eq_ok.mp es
      cases es
      obtain ⟨q', eq', eq⟩ := Outcome.bind_eq_ok.mp eq
      by_cases hz : q'.1 = 0
      · rw [if_pos hz] at eq
        cases eq; rfl
      · rw [if_neg hz] at eq
        obtain ⟨b, eb, eq⟩ := Outcome.bind_eq_ok.mp eq
        obtain ⟨c, ec, eq⟩ := Outcome.bind_eq_ok.mp eq
        obtain ⟨dis, ed, eq⟩ := Outcome.bind_eq_ok.mp eq
        cases hc : d.coreDistances with
        | none => rw [hc] at eq; cases eq
        | some a => rw [hc] at eq; cases eq; rfl
    | clean =>
      simp only [DistStruct.step, DistStruct.clean] at es
      obtain ⟨q, eq, es⟩ := Outcome.bind_eq_ok.mp es
      cases es
      obtain ⟨m1, e1, eq⟩ := Outcome.bind_eq_ok.mp eq
      obtain ⟨m2, e2, eq⟩ := Outcome.bind_eq_ok.mp eq
      cases eq; rfl

/-- C95, too early or too late: while the object holds no data set (nothing was computed yet, or it was cleaned), reading a
    distance of two rows or a core distance is undefined behaviour, and so is asking for core distances, except after a
    data set without rows. -/
theorem C95_early_violated [CCmp W] (ops : DistOps D W) (dmax : W) (calls : List (DistCall D)) (hs : AllSensible ops none calls)
    (hn : holds none calls = none) : ∃ m d xs, DistStruct.run ops dmax noMem DistStruct.init calls = .ok (m, d, xs) ∧
      (∀ i j, i ≠ j → (d.get ops.zero m i j).IsUB) ∧ (∀ i, (d.getCore m i).IsUB) ∧
      (lastRows calls ≠ some 0 → ∀ nn order, (d.setCores ops.zero dmax m nn order).IsUB) := by
  obtain ⟨m, d, xs, e, _, _, hh⟩ := dist_run ops dmax calls fit_noMem (holding_init ops dmax) hs
  rw [hn] at hh
  obtain ⟨h1, h2, _⟩ := hh
  have hd := run_dims ops dmax calls e
  refine ⟨m, d, xs, e, ?_, ?_, ?_⟩
  · intro i j hij
    unfold DistStruct.get
    rw [if_neg hij]
    cases h : d.dims with
    | none => exact ⟨"read of an indeterminate value", by simp [DistStruct.readDims, h]⟩
    | some r => exact ⟨"null pointer", by simp [DistStruct.readDims, h, h1, DistMem.deref]⟩
  · intro i
    exact ⟨"null pointer", by simp [DistStruct.getCore, h2, DistMem.deref]⟩
  · intro hl nn order
    unfold DistStruct.setCores
    cases h : d.dims with
    | none => exact ⟨"read of an indeterminate value", by simp [DistStruct.readDims, h]⟩
    | some r =>
      refine ⟨"null pointer", ?_⟩
      have hr : r.1 ≠ 0 := by
        intro hr
        rw [h] at hd
        simp only [Option.map_some, hr, DistStruct.init, Option.map_none, Option.or_none] at hd
        exact hl hd.symm
      simp only [DistStruct.readDims, h, Outcome.ok_bind, if_neg hr, DistStruct.matrix, h1, h2, DistMem.deref]
      by_cases h1' : r.1 ≤ 1
      · simp [h1']
      · simp [h1']

/-- The hypotheses of the previous theorem are met by a new object and by one that was cleaned. -/
example : (AllSensible exactIntOps none ([] : List (DistCall Int)) ∧ holds none ([] : List (DistCall Int)) = none ∧
    lastRows ([] : List (DistCall Int)) ≠ some 0) ∧
    AllSensible exactIntOps none exCalls ∧ (holds none exCalls).isNone ∧ lastRows exCalls ≠ some 0 :=
  ⟨⟨trivial, rfl, by decide⟩, exCalls_sensible, rfl, by decide⟩

/-- C95, copies: `Distance` has the default copy constructor, so a copy has the pointers of the original. After the original
    is destroyed, destroying the copy releases the same blocks again, undefined behaviour. -/
theorem C95_copy_violated [CCmp W] (ops : DistOps D W) (dmax : W) (calls : List (DistCall D)) (hs : AllSensible ops none calls)
    {p : DataHeld D} (hn : holds none calls = some p) : ∃ m d xs m', DistStruct.run ops dmax noMem DistStruct.init calls = .ok (m, d, xs) ∧
      DistStruct.destroy m (some d) = .ok m' ∧ (DistStruct.destroy m' (some d)).IsUB := by
  obtain ⟨m, d, xs, e, _, hf, hh⟩ := dist_run ops dmax calls fit_noMem (holding_init ops dmax) hs
  rw [hn] at hh
  obtain ⟨_, dis, _, _, _, a, b, hab, ha, hb, la, lb, hl⟩ := hh
  have e1 := free_live (m := m) (a := a) (by rw [la]; simp)
  have lb' : ({ m with live := m.live.filter (fun b => b.1 != a) } : DistMem W).live.lookup b ≠ none := by
    show (m.live.filter (fun b => b.1 != a)).lookup b ≠ none
    rw [lookup_filter _ _ _ (Ne.symm hab), lb]; simp
  have e2 := free_live lb'
  refine ⟨m, d, xs, { m with live := (m.live.filter (fun b => b.1 != a)).filter (fun c => c.1 != b) }, e, ?_, ?_⟩
  · simp only [DistStruct.destroy, DistStruct.clean, ha, hb, e1, Outcome.ok_bind, e2]
    rfl
  · refine ⟨"free of a block that is not allocated", ?_⟩
    have : List.lookup a ((m.live.filter (fun b => b.1 != a)).filter (fun c => c.1 != b)) = none := by
      apply lookup_none_of
      intro c hc
      have := List.mem_of_mem_filter hc
      simpa using (List.mem_filter.mp this).2
    simp only [DistStruct.destroy, DistStruct.clean, ha, DistMem.free, this, if_true]
    rfl

/-- The hypotheses of the previous theorem are met before `exCalls` cleans the object. -/
example : AllSensible exactIntOps none (exCalls.take 6) ∧ ∃ p, holds none (exCalls.take 6) = some p :=
  ⟨by
    obtain ⟨h1, h2, h3, h4, h5, h6, _⟩ := exCalls_sensible
    exact ⟨h1, h2, h3, h4, h5, h6, trivial⟩, _, rfl⟩

/-- C95: `distance_destroy(NULL)` is undefined behaviour, although the function compares its argument with `NULL`. -/
theorem C95_destroy_null_violated (m : DistMem W) : (DistStruct.destroy m none).IsUB := ⟨"null pointer", rfl⟩

/-- C95: the column after the last one is not refused: `distance_get(dis, i, rows)` is the distance between the rows
    `i + 1` and `i + 2`. -/
theorem C95_outside_violated (zero : W) (dis : Distance W) (hn : dis.rows ≤ 65535) (i : Nat) (hi : i + 2 < dis.rows) :
    dis.get zero i dis.rows = dis.get zero (i + 1) (i + 2) := by
  have ht : ∀ k, k ≤ 65535 → triangularH (k % 2 ^ 32) = (k * k + k) / 2 := by
    intro k hk
    unfold triangularH
    have : k * k ≤ 65535 * 65535 := Nat.mul_le_mul hk hk
    rw [Nat.mod_eq_of_lt (a := k) (by omega), Nat.mod_eq_of_lt (by omega)]
  have hc : cellGet dis.rows i dis.rows = cellGet dis.rows (i + 1) (i + 2) := by
    unfold cellGet
    rw [ht (i + 1) (by omega), ht (i + 1 + 1) (by omega)]
    have h1 : dis.rows * i ≤ 65535 * 65535 := Nat.mul_le_mul hn (by omega)
    have h2 : dis.rows * (i + 1) = dis.rows * i + dis.rows := by ring
    have h3 : (i + 1 + 1) * (i + 1 + 1) + (i + 1 + 1) = (i + 1) * (i + 1) + (i + 1) + 2 * (i + 2) := by ring
    have h4 : (i + 1) * (i + 1) + (i + 1) ≤ 2 * (dis.rows * i + dis.rows) := by nlinarith
    rw [h2, h3, Nat.mod_eq_of_lt (by omega), Nat.mod_eq_of_lt (by omega)]
    unfold subSize
    have h5 : (i + 1) * (i + 1) ≤ 65535 * 65535 := Nat.mul_le_mul (by omega) (by omega)
    omega
  unfold Distance.get
  rw [if_pos (by omega), if_pos (by omega), hc]

end Verif.Props
