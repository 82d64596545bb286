import Verif.Model.Hierarchy
import Mathlib.Logic.Relation
import Mathlib.Data.List.Nodup
import Mathlib.Data.List.Basic
import Mathlib.Data.List.Perm.Subperm
/-
Helper lemmas for the hierarchy: sets as lists, and the exploration of components.
-/
namespace Verif

theorem mem_sInsert {xs : List Nat} {x y : Nat} : y ∈ sInsert xs x ↔ y = x ∨ y ∈ xs := by
  unfold sInsert
  split
  · rename_i h
    constructor
    · exact .inr
    · rintro (rfl | h'); exacts [h, h']
  · simp only [List.mem_append, List.mem_filter, decide_eq_true_eq, List.mem_cons]
    constructor
    · rintro (⟨h, _⟩ | h | ⟨h, _⟩) <;> simp [h]
    · rintro (h | h)
      · simp [h]
      · rcases Nat.lt_trichotomy y x with h1 | h1 | h1 <;> simp [h, h1]

theorem nodup_sInsert {xs : List Nat} (h : xs.Nodup) (x : Nat) : (sInsert xs x).Nodup := by
  unfold sInsert
  split
  · exact h
  · rename_i hx
    rw [List.nodup_append, List.nodup_cons]
    refine ⟨h.filter _, ⟨by simp, h.filter _⟩, ?_⟩
    intro a ha b hb hab
    subst hab
    simp only [List.mem_filter, decide_eq_true_eq, List.mem_cons] at ha hb
    rcases hb with rfl | hb
    · omega
    · omega

theorem length_filter_split (xs : List Nat) (x : Nat) (hx : x ∉ xs) :
    (xs.filter (fun y => decide (y < x))).length + (xs.filter (fun y => decide (x < y))).length = xs.length := by
  induction xs with
  | nil => rfl
  | cons a t ih =>
    simp only [List.mem_cons, not_or] at hx
    have := ih hx.2
    rcases Nat.lt_or_gt_of_ne (Ne.symm hx.1) with h | h
    · simp only [List.filter_cons, h, decide_true, if_true, List.length_cons, show ¬ x < a by omega, decide_false, Bool.false_eq_true, if_false]; omega
    · simp only [List.filter_cons, show ¬ a < x by omega, h, decide_true, if_true, List.length_cons, decide_false, Bool.false_eq_true, if_false]; omega

theorem length_sInsert {xs : List Nat} {x : Nat} (h : x ∉ xs) : (sInsert xs x).length = xs.length + 1 := by
  rw [sInsert, if_neg h]
  have := length_filter_split xs x h
  simp only [List.length_append, List.length_cons]; omega

theorem mem_sRemove {xs : List Nat} {x y : Nat} : y ∈ sRemove xs x ↔ y ∈ xs ∧ y ≠ x := by simp [sRemove]

theorem nodup_sRemove {xs : List Nat} (h : xs.Nodup) (x : Nat) : (sRemove xs x).Nodup := h.filter _

theorem length_sRemove_le (xs : List Nat) (x : Nat) : (sRemove xs x).length ≤ xs.length := List.length_filter_le _ _

theorem mem_foldl_sInsert {ys : List Nat} : ∀ {xs : List Nat} {y : Nat}, y ∈ ys.foldl sInsert xs ↔ y ∈ xs ∨ y ∈ ys := by
  induction ys with
  | nil => simp
  | cons a t ih =>
    intro xs y
    rw [List.foldl_cons, ih, mem_sInsert, List.mem_cons]
    tauto

theorem nodup_foldl_sInsert {ys : List Nat} : ∀ {xs : List Nat}, xs.Nodup → (ys.foldl sInsert xs).Nodup := by
  induction ys with
  | nil => intro xs h; exact h
  | cons a t ih => intro xs h; exact ih (nodup_sInsert h a)

theorem getLast?_split {xs : List Nat} {x : Nat} (h : xs.getLast? = some x) : xs = xs.dropLast ++ [x] := by
  rw [List.getLast?_eq_some_iff] at h
  obtain ⟨ys, rfl⟩ := h
  simp

theorem length_le_of_lt {xs : List Nat} {n : Nat} (hn : xs.Nodup) (h : ∀ x ∈ xs, x < n) : xs.length ≤ n := by
  have : xs.Subperm (List.range n) := hn.subperm (fun x hx => List.mem_range.2 (h x hx))
  simpa using this.length_le

namespace Hier

/-- `v` is in the adjacency list of `u`. -/
def Nbr (adj : List (List Nat)) (u v : Nat) : Prop := v ∈ adj[u]?.getD []

/-- Connected by edges of the adjacency lists. -/
def Reach (adj : List (List Nat)) : Nat → Nat → Prop := Relation.ReflTransGen (Nbr adj)

structure Sym (n : Nat) (adj : List (List Nat)) : Prop where
  len : adj.length = n
  lt : ∀ u v, Nbr adj u v → v < n
  symm : ∀ u v, Nbr adj u v → Nbr adj v u

theorem Sym.lt_left {n adj} (h : Sym n adj) {u v : Nat} (hv : Nbr adj u v) : u < n := h.lt _ _ (h.symm _ _ hv)

theorem Sym.reach_symm {n adj} (h : Sym n adj) {u v : Nat} (hr : Reach adj u v) : Reach adj v u := by
  induction hr with
  | refl => exact .refl
  | tail _ h2 ih => exact .head (h.symm _ _ h2) ih

theorem Sym.reach_lt {n adj} (h : Sym n adj) {u v : Nat} (hu : u < n) (hr : Reach adj u v) : v < n := by
  induction hr with
  | refl => exact hu
  | tail _ h2 _ => exact h.lt _ _ h2

theorem Sym.rd {n adj} (h : Sym n adj) {u : Nat} (hu : u < n) : rd adj u = .ok (adj[u]?.getD []) := by
  rw [rd_ok (by rw [h.len]; exact hu), List.getElem?_eq_getElem (by rw [h.len]; exact hu)]; rfl

/-- The component of `u` is a valid cluster: at least `minPoints` vertices and some edge. -/
def Valid (adj : List (List Nat)) (minPoints u : Nat) : Prop :=
  (∃ l : List Nat, l.Nodup ∧ minPoints ≤ l.length ∧ ∀ v ∈ l, Reach adj u v) ∧ ∃ v w, Reach adj u v ∧ Nbr adj v w

theorem Valid.of_reach {n adj} (h : Sym n adj) {m u v : Nat} (hr : Reach adj u v) (hv : Valid adj m v) : Valid adj m u := by
  obtain ⟨⟨l, h1, h2, h3⟩, x, y, h4, h5⟩ := hv
  exact ⟨⟨l, h1, h2, fun z hz => hr.trans (h3 z hz)⟩, x, y, hr.trans h4, h5⟩

theorem valid_congr {n adj} (h : Sym n adj) {m u v : Nat} (hr : Reach adj u v) : Valid adj m u ↔ Valid adj m v :=
  ⟨Valid.of_reach h (h.reach_symm hr), Valid.of_reach h hr⟩

structure VisitSpec (nb : List Nat) (e e' : Ex) : Prop where
  cm : ∀ v, v ∈ e'.constr ↔ v ∈ e.constr ∨ v ∈ nb
  cn : e.constr.Nodup → e'.constr.Nodup
  um : ∀ v, v ∈ e'.unexpl ↔ v ∈ e.unexpl ∨ (v ∈ nb ∧ v ∉ e.constr)
  un : e.unexpl.Nodup → (∀ v ∈ e.unexpl, v ∈ e.constr) → e'.unexpl.Nodup
  xm : ∀ v, v ∈ e'.examined ↔ v ∈ e.examined ∧ ¬ (v ∈ nb ∧ v ∉ e.constr)
  xn : e.examined.Nodup → e'.examined.Nodup
  xl : e'.examined.length ≤ e.examined.length
  len : e'.constr.length + e.unexpl.length = e.constr.length + e'.unexpl.length
  any : e'.anyEdges = (e.anyEdges || !nb.isEmpty)
  inc : e'.inc = e.inc
  num : e'.numChild = e.numChild
  first : e'.first = e.first
  ufirst : e'.unexplFirst = e.unexplFirst

theorem visitNbrs_spec : ∀ (nb : List Nat) (e : Ex), VisitSpec nb e (visitNbrs nb e) := by
  intro nb
  induction nb with
  | nil => intro e; constructor <;> simp [visitNbrs] <;> tauto
  | cons a t ih =>
    intro e
    unfold visitNbrs
    split
    · rename_i ha
      obtain ⟨cm, cn, um, un, xm, xn, xl, len, any, inc, num, f, uf⟩ := ih { e with anyEdges := true }
      refine ⟨fun v => ?_, cn, fun v => ?_, un, fun v => ?_, xn, xl, len, by simp [any], inc, num, f, uf⟩
      · rw [cm]; simp only [List.mem_cons]
        constructor
        · rintro (h | h) <;> simp [h]
        · rintro (h | rfl | h)
          · exact .inl h
          · exact .inl ha
          · exact .inr h
      · rw [um]; simp only [List.mem_cons]
        constructor
        · rintro (h | ⟨h, h'⟩)
          · exact .inl h
          · exact .inr ⟨.inr h, h'⟩
        · rintro (h | ⟨rfl | h, h'⟩)
          · exact .inl h
          · exact absurd ha h'
          · exact .inr ⟨h, h'⟩
      · rw [xm]; simp only [List.mem_cons]
        constructor
        · rintro ⟨h, h'⟩
          refine ⟨h, ?_⟩
          rintro ⟨rfl | h1, h2⟩
          · exact h2 ha
          · exact h' ⟨h1, h2⟩
        · rintro ⟨h, h'⟩
          exact ⟨h, fun ⟨h1, h2⟩ => h' ⟨.inr h1, h2⟩⟩
    · rename_i ha
      obtain ⟨cm, cn, um, un, xm, xn, xl, len, any, inc, num, f, uf⟩ :=
        ih { e with constr := sInsert e.constr a, unexpl := e.unexpl ++ [a], examined := sRemove e.examined a, anyEdges := true }
      refine ⟨fun v => ?_, fun h => cn (nodup_sInsert h a), fun v => ?_, fun h h' => un ?_ ?_, fun v => ?_,
        fun h => xn (nodup_sRemove h a), Nat.le_trans xl (length_sRemove_le _ _), ?_, by simp [any], inc, num, f, uf⟩
      · rw [cm]; simp only [mem_sInsert, List.mem_cons]; tauto
      · rw [um]; simp only [List.mem_append, List.mem_singleton, mem_sInsert, List.mem_cons]
        by_cases hv : v = a
        · subst hv; simp [ha]
        · simp [hv]
      · simp only [List.nodup_append, List.nodup_singleton, List.mem_singleton, true_and]
        refine ⟨h, ?_⟩
        rintro x hx _ rfl hxy
        subst hxy
        exact ha (h' _ hx)
      · intro v hv
        simp only [List.mem_append, List.mem_singleton] at hv
        simp only [mem_sInsert]
        rcases hv with hv | hv
        · exact .inr (h' _ hv)
        · exact .inl hv
      · rw [xm]; simp only [mem_sInsert, mem_sRemove, List.mem_cons]
        by_cases hv : v = a
        · subst hv; simp [ha]
        · simp [hv]
      · simp only [length_sInsert ha, List.length_append, List.length_singleton] at len
        omega

/-- Invariant of the exploration of one component. -/
structure EInv (n : Nat) (adj : List (List Nat)) (root : Nat) (ex0 : List Nat) (e : Ex) : Prop where
  cn : e.constr.Nodup
  base : root ∈ e.constr
  reach : ∀ v ∈ e.constr, Reach adj root v
  un : e.unexpl.Nodup
  us : ∀ v ∈ e.unexpl, v ∈ e.constr
  closed : ∀ u ∈ e.constr, u ∉ e.unexpl → ∀ v, Nbr adj u v → v ∈ e.constr
  any : e.anyEdges = true ↔ ∃ u ∈ e.constr, u ∉ e.unexpl ∧ ∃ v, Nbr adj u v
  xm : ∀ v, v ∈ e.examined ↔ v ∈ ex0 ∧ v ∉ e.constr
  xn : e.examined.Nodup
  xl : e.examined.length ≤ ex0.length

theorem EInv.step {n adj root ex0 e} (hs : Sym n adj) (h : EInv n adj root ex0 e) {v : Nat} (hv : e.unexpl.getLast? = some v) :
    EInv n adj root ex0 (visitNbrs (adj[v]?.getD []) { e with unexpl := e.unexpl.dropLast }) := by
  have hsp := getLast?_split hv
  obtain ⟨cm, cn, um, un, xm, xn, xl, len, any, -, -, -, -⟩ := visitNbrs_spec (adj[v]?.getD []) { e with unexpl := e.unexpl.dropLast }
  have hvU : v ∈ e.unexpl := by rw [hsp]; simp
  have hvC := h.us _ hvU
  have hnd := h.un
  rw [hsp, List.nodup_append] at hnd
  have hvD : v ∉ e.unexpl.dropLast := fun hx => hnd.2.2 _ hx _ (by simp) rfl
  have hmem : ∀ u, u ∈ e.unexpl ↔ u ∈ e.unexpl.dropLast ∨ u = v := by
    intro u
    conv_lhs => rw [hsp]
    simp
  refine ⟨cn h.cn, (cm _).2 (.inl h.base), ?_, un hnd.1 (fun u hu => h.us u ((hmem u).2 (.inl hu))), ?_, ?_, ?_, ?_, xn h.xn, Nat.le_trans xl h.xl⟩
  · intro u hu
    rcases (cm u).1 hu with hu | hu
    · exact h.reach u hu
    · exact (h.reach v hvC).tail hu
  · intro u hu
    rcases (um u).1 hu with hu | hu
    · exact (cm u).2 (.inl (h.us u ((hmem u).2 (.inl hu))))
    · exact (cm u).2 (.inr hu.1)
  · intro u hu hnu w hw
    rw [um, not_or, not_and, not_not] at hnu
    rcases (cm u).1 hu with hu' | hu'
    · by_cases huv : u = v
      · subst huv
        exact (cm w).2 (.inr hw)
      · have : u ∉ e.unexpl := by rw [hmem, not_or]; exact ⟨hnu.1, huv⟩
        exact (cm w).2 (.inl (h.closed u hu' this w hw))
    · have hu2 : u ∈ e.constr := hnu.2 hu'
      by_cases huv : u = v
      · subst huv
        exact (cm w).2 (.inr hw)
      · have : u ∉ e.unexpl := by rw [hmem, not_or]; exact ⟨hnu.1, huv⟩
        exact (cm w).2 (.inl (h.closed u hu2 this w hw))
  · rw [any, Bool.or_eq_true]
    change (e.anyEdges = true ∨ _) ↔ _
    rw [h.any]
    constructor
    · rintro (⟨u, hu, hnu, w, hw⟩ | hne)
      · refine ⟨u, (cm u).2 (.inl hu), ?_, w, hw⟩
        rw [um, not_or, not_and, not_not]
        rw [hmem, not_or] at hnu
        exact ⟨hnu.1, fun _ => hu⟩
      · refine ⟨v, (cm v).2 (.inl hvC), ?_, ?_⟩
        · rw [um, not_or, not_and, not_not]
          exact ⟨hvD, fun _ => hvC⟩
        · cases hl : adj[v]?.getD [] with
          | nil => simp [hl] at hne
          | cons a t => exact ⟨a, by rw [Nbr, hl]; simp⟩
    · rintro ⟨u, hu, hnu, w, hw⟩
      rw [um, not_or, not_and, not_not] at hnu
      have huC : u ∈ e.constr := by
        rcases (cm u).1 hu with h1 | h1
        · exact h1
        · exact hnu.2 h1
      by_cases huv : u = v
      · right
        subst huv
        cases hl : adj[u]?.getD [] with
        | nil => rw [Nbr, hl] at hw; simp at hw
        | cons a t => rfl
      · left
        exact ⟨u, huC, by rw [hmem, not_or]; exact ⟨hnu.1, huv⟩, w, hw⟩
  · intro u
    rw [xm, cm]
    change (u ∈ e.examined ∧ _) ↔ _
    rw [h.xm]
    change (_ ∧ ¬ (_ ∧ u ∉ e.constr)) ↔ u ∈ ex0 ∧ ¬ (u ∈ e.constr ∨ _)
    tauto

theorem EInv.lt {n adj root ex0 e} (hs : Sym n adj) (h : EInv n adj root ex0 e) (hr : root < n) : ∀ v ∈ e.constr, v < n :=
  fun v hv => hs.reach_lt hr (h.reach v hv)

/-- A fully explored component. -/
theorem EInv.complete {n adj root ex0 e} (h : EInv n adj root ex0 e) (hu : e.unexpl = []) : ∀ v, v ∈ e.constr ↔ Reach adj root v := by
  intro v
  refine ⟨h.reach v, fun hr => ?_⟩
  induction hr with
  | refl => exact h.base
  | tail _ h2 ih => exact h.closed _ ih (by simp [hu]) _ h2

/-- Being valid as the code tests it. -/
def Looks (minPoints : Nat) (e : Ex) : Prop := minPoints ≤ e.constr.length ∧ e.anyEdges = true

theorem EInv.valid_of_looks {n adj root ex0 e m} (h : EInv n adj root ex0 e) (hl : Looks m e) : Valid adj m root := by
  obtain ⟨u, hu, _, w, hw⟩ := h.any.1 hl.2
  exact ⟨⟨e.constr, h.cn, hl.1, h.reach⟩, u, w, h.reach u hu, hw⟩

theorem EInv.looks_of_valid {n adj root ex0 e m} (h : EInv n adj root ex0 e) (hu : e.unexpl = []) (hv : Valid adj m root) : Looks m e := by
  obtain ⟨⟨l, h1, h2, h3⟩, x, y, h4, h5⟩ := hv
  refine ⟨Nat.le_trans h2 ?_, h.any.2 ⟨x, (h.complete hu x).2 h4, by simp [hu], y, h5⟩⟩
  exact (h1.subperm (fun z hz => (h.complete hu z).2 (h3 z hz))).length_le

/-- The exploration of one component: it ends, and either the component is fully explored, or it was the first valid one. -/
theorem explore_spec {n adj m root ex0} (hs : Sym n adj) (hr : root < n) : ∀ (fuel : Nat) (e : Ex), EInv n adj root ex0 e →
    n + e.unexpl.length + 1 ≤ fuel + e.constr.length → (e.inc = true ↔ Looks m e) → (e.inc = true → e.first ≠ []) →
    ∃ e', explore adj m fuel e = .ok e' ∧ EInv n adj root ex0 e' ∧
      ((e'.unexpl = [] ∧ e'.first = e.first ∧ e'.unexplFirst = e.unexplFirst ∧ (e.first = [] → ¬ Looks m e') ∧
          (e'.inc = true ↔ Looks m e') ∧ e'.numChild = e.numChild + (if e.inc = false ∧ e'.inc = true then 1 else 0)) ∨
        (e.first = [] ∧ Looks m e' ∧ e'.first = e'.constr.foldl sInsert [] ∧ e'.unexplFirst = e'.unexpl.foldl sInsert e.unexplFirst ∧
          e'.numChild = e.numChild + 1)) := by
  intro fuel
  induction fuel with
  | zero =>
    intro e h hf _ _
    have := length_le_of_lt h.cn (h.lt hs hr)
    omega
  | succ fuel ih =>
    intro e h hf hi hfi
    unfold explore
    cases hv : e.unexpl.getLast? with
    | none =>
      have hu : e.unexpl = [] := List.getLast?_eq_none_iff.1 hv
      refine ⟨e, rfl, h, .inl ⟨hu, rfl, rfl, ?_, hi, ?_⟩⟩
      · intro hfe hl
        exact hfi (hi.2 hl) hfe
      · cases e.inc <;> simp
    | some v =>
      have hvU : v ∈ e.unexpl := by rw [getLast?_split hv]; simp
      have hvn : v < n := h.lt hs hr v (h.us v hvU)
      have hstep := h.step hs hv
      have hsp := visitNbrs_spec (adj[v]?.getD []) { e with unexpl := e.unexpl.dropLast }
      simp only [hs.rd hvn, Outcome.ok_bind]
      set e1 := visitNbrs (adj[v]?.getD []) { e with unexpl := e.unexpl.dropLast } with he1
      have hlen : e.unexpl.length = e.unexpl.dropLast.length + 1 := by
        conv_lhs => rw [getLast?_split hv]
        simp
      have hl1 := hsp.len
      simp only at hl1
      have hinc : e1.inc = e.inc := hsp.inc
      have hfir : e1.first = e.first := hsp.first
      have hnum : e1.numChild = e.numChild := hsp.num
      have huf : e1.unexplFirst = e.unexplFirst := hsp.ufirst
      have mono : Looks m e → Looks m e1 := by
        rintro ⟨h1, h2⟩
        refine ⟨Nat.le_trans h1 ?_, by rw [hsp.any]; simp [h2]⟩
        exact (h.cn.subperm (fun z hz => (hsp.cm z).2 (.inl hz))).length_le
      split
      · rename_i hc
        split
        · rename_i hfe
          refine ⟨_, rfl, ⟨hstep.cn, hstep.base, hstep.reach, hstep.un, hstep.us, hstep.closed, hstep.any, hstep.xm, hstep.xn, hstep.xl⟩,
            .inr ⟨hfir ▸ hfe, ⟨hc.2.1, hc.2.2⟩, ?_, ?_, ?_⟩⟩
          · simp only [hfe]
          · simp only [huf]
          · simp only [hnum]
        · rename_i hfe
          obtain ⟨e', p1, p2, p3⟩ := ih { e1 with inc := true, numChild := e1.numChild + 1 }
            ⟨hstep.cn, hstep.base, hstep.reach, hstep.un, hstep.us, hstep.closed, hstep.any, hstep.xm, hstep.xn, hstep.xl⟩
            (by simp only; omega) (by simp only [true_iff]; exact ⟨hc.2.1, hc.2.2⟩) (fun _ => hfe)
          refine ⟨e', p1, p2, ?_⟩
          rcases p3 with ⟨q1, q2, q3, q4, q5, q6⟩ | ⟨q1, _⟩
          · left
            refine ⟨q1, q2.trans hfir, q3.trans huf, fun hx => absurd (hfir.trans hx) hfe, q5, ?_⟩
            have hl : Looks m e' := by
              refine ⟨?_, ?_⟩
              · refine Nat.le_trans hc.2.1 (hstep.cn.subperm (fun z hz => ?_)).length_le
                exact (p2.complete q1 z).2 (hstep.reach z hz)
              · obtain ⟨u, hu, _, w, hw⟩ := hstep.any.1 hc.2.2
                exact p2.any.2 ⟨u, (p2.complete q1 u).2 (hstep.reach u hu), by simp [q1], w, hw⟩
            simp only [Bool.true_eq_false, false_and, if_false, Nat.add_zero] at q6
            rw [q6, hnum, if_pos ⟨hinc ▸ hc.1, q5.2 hl⟩]
          · exact absurd q1 hfe
      · rename_i hc
        have hi1 : e1.inc = true ↔ Looks m e1 := by
          constructor
          · intro hx
            exact mono (hi.1 (hinc ▸ hx))
          · intro hx
            by_contra hn
            exact hc ⟨by simpa using hn, hx.1, hx.2⟩
        obtain ⟨e', p1, p2, p3⟩ := ih e1 hstep (by omega) hi1 (fun hx => by rw [hfir]; exact hfi (hinc ▸ hx))
        refine ⟨e', p1, p2, ?_⟩
        rw [hfir, huf, hnum, hinc] at p3
        exact p3

structure GrowSpec (nb first unexpl : List Nat) (r : List Nat × List Nat) : Prop where
  fm : ∀ v, v ∈ r.1 ↔ v ∈ first ∨ v ∈ nb
  fn : first.Nodup → r.1.Nodup
  um : ∀ v, v ∈ r.2 ↔ v ∈ unexpl ∨ (v ∈ nb ∧ v ∉ first)
  un : unexpl.Nodup → r.2.Nodup
  len : (∀ v ∈ unexpl, v ∈ first) → r.1.length + unexpl.length = first.length + r.2.length

theorem growNbrs_spec : ∀ (nb first unexpl : List Nat), GrowSpec nb first unexpl (growNbrs nb (first, unexpl)) := by
  intro nb
  induction nb with
  | nil => intro f u; constructor <;> simp [growNbrs]
  | cons a t ih =>
    intro f u
    unfold growNbrs
    split
    · rename_i ha
      obtain ⟨fm, fn, um, un, len⟩ := ih f u
      refine ⟨fun v => ?_, fn, fun v => ?_, un, len⟩
      · rw [fm]; simp only [List.mem_cons]
        constructor
        · rintro (h | h) <;> simp [h]
        · rintro (h | rfl | h)
          · exact .inl h
          · exact .inl ha
          · exact .inr h
      · rw [um]; simp only [List.mem_cons]
        constructor
        · rintro (h | ⟨h, h'⟩)
          · exact .inl h
          · exact .inr ⟨.inr h, h'⟩
        · rintro (h | ⟨rfl | h, h'⟩)
          · exact .inl h
          · exact absurd ha h'
          · exact .inr ⟨h, h'⟩
    · rename_i ha
      obtain ⟨fm, fn, um, un, len⟩ := ih (sInsert f a) (sInsert u a)
      refine ⟨fun v => ?_, fun h => fn (nodup_sInsert h a), fun v => ?_, fun h => un (nodup_sInsert h a), fun h => ?_⟩
      · rw [fm]; simp only [mem_sInsert, List.mem_cons]; tauto
      · rw [um]; simp only [mem_sInsert, List.mem_cons]
        by_cases hv : v = a
        · subst hv; simp [ha]
        · simp [hv]
      · have := len (fun v hv => by
          rw [mem_sInsert] at hv ⊢
          rcases hv with hv | hv
          · exact .inl hv
          · exact .inr (h v hv))
        rw [length_sInsert ha, length_sInsert (fun hx => ha (h a hx))] at this
        omega

/-- Completing the first child yields its component. -/
theorem growFirst_spec {n adj root} (hs : Sym n adj) (hr : root < n) : ∀ (fuel : Nat) (first unexpl : List Nat), first.Nodup → unexpl.Nodup →
    root ∈ first → (∀ v ∈ first, Reach adj root v) → (∀ v ∈ unexpl, v ∈ first) → (∀ u ∈ first, u ∉ unexpl → ∀ v, Nbr adj u v → v ∈ first) →
    n + unexpl.length + 1 ≤ fuel + first.length →
    ∃ f', growFirst adj fuel (first, unexpl) = .ok f' ∧ f'.Nodup ∧ ∀ v, v ∈ f' ↔ Reach adj root v := by
  intro fuel
  induction fuel with
  | zero =>
    intro f u h1 h2 h3 h4 h5 h6 h7
    have := length_le_of_lt h1 (fun v hv => hs.reach_lt hr (h4 v hv))
    omega
  | succ fuel ih =>
    intro f u h1 h2 h3 h4 h5 h6 h7
    unfold growFirst
    cases hv : u.getLast? with
    | none =>
      have hu : u = [] := List.getLast?_eq_none_iff.1 hv
      refine ⟨f, rfl, h1, fun v => ⟨h4 v, fun hx => ?_⟩⟩
      induction hx with
      | refl => exact h3
      | tail _ h2 ih => exact h6 _ ih (by simp [hu]) _ h2
    | some v =>
      have hsp := getLast?_split hv
      have hmem : ∀ x, x ∈ u ↔ x ∈ u.dropLast ∨ x = v := by
        intro x
        conv_lhs => rw [hsp]
        simp
      have hvU : v ∈ u := (hmem v).2 (.inr rfl)
      have hvn : v < n := hs.reach_lt hr (h4 v (h5 v hvU))
      simp only [hs.rd hvn, Outcome.ok_bind]
      have hnd := h2
      rw [hsp, List.nodup_append] at hnd
      have hs' := growNbrs_spec (adj[v]?.getD []) f u.dropLast
      have hsub : ∀ x ∈ u.dropLast, x ∈ f := fun x hx => h5 x ((hmem x).2 (.inl hx))
      have hlen : u.length = u.dropLast.length + 1 := by
        conv_lhs => rw [hsp]
        simp
      have hl := hs'.len hsub
      refine ih _ _ (hs'.fn h1) (hs'.un hnd.1) ((hs'.fm _).2 (.inl h3)) ?_ ?_ ?_ (by omega)
      · intro x hx
        rcases (hs'.fm x).1 hx with hx | hx
        · exact h4 x hx
        · exact (h4 v (h5 v hvU)).tail hx
      · intro x hx
        rcases (hs'.um x).1 hx with hx | hx
        · exact (hs'.fm x).2 (.inl (hsub x hx))
        · exact (hs'.fm x).2 (.inr hx.1)
      · intro x hx hnx y hy
        rw [hs'.um, not_or, not_and, not_not] at hnx
        have hxf : x ∈ f := by
          rcases (hs'.fm x).1 hx with h | h
          · exact h
          · exact hnx.2 h
        by_cases hxv : x = v
        · subst hxv
          exact (hs'.fm y).2 (.inr hy)
        · exact (hs'.fm y).2 (.inl (h6 x hxf (by rw [hmem, not_or]; exact ⟨hnx.1, hxv⟩) y hy))

end Hier
end Verif
