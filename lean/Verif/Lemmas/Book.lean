import Verif.Lemmas.Explore
import Verif.Lemmas.GraphSort
/-
Helper lemmas for the hierarchy: the bookkeeping of clusters (counts, birth, death, stability, virtual child).
-/
namespace Verif.Hier
variable {W S : Type}

/-- Number of points below `n` with a property. -/
def cnt (n : Nat) (P : Nat → Prop) [DecidablePred P] : Nat := (List.range n).countP (fun p => decide (P p))

theorem cnt_le (n : Nat) (P : Nat → Prop) [DecidablePred P] : cnt n P ≤ n := by
  have := List.countP_le_length (p := fun p => decide (P p)) (l := List.range n)
  simpa [cnt] using this

theorem cnt_congr {n : Nat} {P Q : Nat → Prop} [DecidablePred P] [DecidablePred Q] (h : ∀ p, p < n → (P p ↔ Q p)) : cnt n P = cnt n Q := by
  unfold cnt
  apply List.countP_congr
  intro p hp
  simp [h p (List.mem_range.1 hp)]

theorem cnt_pos {n : Nat} {P : Nat → Prop} [DecidablePred P] : 0 < cnt n P ↔ ∃ p, p < n ∧ P p := by
  unfold cnt
  rw [List.countP_pos_iff]
  simp

theorem cnt_eq_zero {n : Nat} {P : Nat → Prop} [DecidablePred P] : cnt n P = 0 ↔ ∀ p, p < n → ¬ P p := by
  have := cnt_pos (n := n) (P := P)
  constructor
  · intro h p hp hP
    have := this.2 ⟨p, hp, hP⟩
    omega
  · intro h
    by_contra hne
    obtain ⟨p, hp, hP⟩ := this.1 (by omega)
    exact h p hp hP

/-- Splitting off the points of a list. -/
theorem cnt_split {n : Nat} {P : Nat → Prop} [DecidablePred P] {l : List Nat} (hn : l.Nodup) (h : ∀ p ∈ l, p < n ∧ P p) :
    cnt n P = cnt n (fun p => P p ∧ p ∉ l) + l.length := by
  unfold cnt
  rw [List.countP_eq_length_filter, List.countP_eq_length_filter, ← List.length_append]
  apply List.Perm.length_eq
  rw [List.perm_ext_iff_of_nodup (List.nodup_range.filter _)]
  · intro p
    simp only [List.mem_filter, List.mem_range, decide_eq_true_eq, List.mem_append]
    constructor
    · rintro ⟨h1, h2⟩
      by_cases hp : p ∈ l
      · exact .inr hp
      · exact .inl ⟨h1, h2, hp⟩
    · rintro (⟨h1, h2, _⟩ | hp)
      · exact ⟨h1, h2⟩
      · exact h p hp
  · rw [List.nodup_append]
    refine ⟨List.nodup_range.filter _, hn, ?_⟩
    intro a ha b hb hab
    subst hab
    simp only [List.mem_filter, decide_eq_true_eq] at ha
    exact ha.2.2 hb

theorem cnt_ge_of_list {n : Nat} {P : Nat → Prop} [DecidablePred P] {l : List Nat} (hn : l.Nodup) (h : ∀ p ∈ l, p < n ∧ P p) :
    l.length ≤ cnt n P := by rw [cnt_split hn h]; omega

theorem subIndex_eq {a b : Nat} (hb : b ≤ a) : subIndex a b = a - b := by
  rw [subIndex, if_pos hb]

/-- The labels before step `s`. -/
def lab (hist : List (W × (Nat → Nat))) (cur : Nat → Nat) (s : Nat) : Nat → Nat :=
  match hist[s]? with
  | some h => h.2
  | none => cur

theorem lab_get {hist : List (W × (Nat → Nat))} {cur s h} (hs : hist[s]? = some h) : lab hist cur s = h.2 := by simp [lab, hs]
theorem lab_end {hist : List (W × (Nat → Nat))} {cur s} (hs : hist.length ≤ s) : lab hist cur s = cur := by simp [lab, hs]
theorem lab_lt {hist : List (W × (Nat → Nat))} {cur cur' s} (hs : s < hist.length) : lab hist cur s = lab hist cur' s := by simp [lab, hs]

theorem lab_append {hist : List (W × (Nat → Nat))} {cur w} (s : Nat) : lab (hist ++ [(w, cur)]) cur s = lab hist cur s := by
  rcases Nat.lt_trichotomy s hist.length with h | h | h
  · simp [lab, h, List.getElem?_append_left]
  · subst h; simp [lab]
  · rw [lab_end (by simp; omega), lab_end (by omega)]

/-- The contribution of step `s` to the stability of `l`: the points that leave. -/
def stepTerm (ar : Arith W S) (n : Nat) (hist : List (W × (Nat → Nat))) (cur : Nat → Nat) (l : Nat) (birth : Option W) (s : Nat) : S :=
  match hist[s]? with
  | some h => ar.term (cnt n (fun p => h.2 p = l ∧ lab hist cur (s + 1) p ≠ l)) h.1 birth
  | none => ar.zeroS

def stabSum (ar : Arith W S) (n : Nat) (hist : List (W × (Nat → Nat))) (cur : Nat → Nat) (l : Nat) (birth : Option W) (N : Nat) : S :=
  (List.range N).foldl (fun acc s => ar.add acc (stepTerm ar n hist cur l birth s)) ar.zeroS

/-- Exact arithmetic of stabilities. -/
structure Additive (ar : Arith W S) : Prop where
  add_assoc : ∀ a b c, ar.add (ar.add a b) c = ar.add a (ar.add b c)
  add_zero : ∀ a, ar.add a ar.zeroS = a
  term_zero : ∀ w b, ar.term 0 w (some b) = ar.zeroS
  term_add : ∀ j k w b, ar.term (j + k) w (some b) = ar.add (ar.term j w (some b)) (ar.term k w (some b))

theorem stabSum_succ (ar : Arith W S) (n : Nat) (hist : List (W × (Nat → Nat))) (cur : Nat → Nat) (l : Nat) (birth : Option W) (N : Nat) :
    stabSum ar n hist cur l birth (N + 1) = ar.add (stabSum ar n hist cur l birth N) (stepTerm ar n hist cur l birth N) := by
  simp [stabSum, List.range_succ]

theorem stabSum_congr {ar : Arith W S} {n : Nat} {hist hist' : List (W × (Nat → Nat))} {cur cur' : Nat → Nat} {l : Nat} {birth : Option W} {N : Nat}
    (h : ∀ s, s < N → stepTerm ar n hist cur l birth s = stepTerm ar n hist' cur' l birth s) :
    stabSum ar n hist cur l birth N = stabSum ar n hist' cur' l birth N := by
  induction N with
  | zero => rfl
  | succ N ih => rw [stabSum_succ, stabSum_succ, ih (fun s hs => h s (by omega)), h N (by omega)]

theorem stabSum_zero {ar : Arith W S} (ha : Additive ar) {n : Nat} {hist : List (W × (Nat → Nat))} {cur : Nat → Nat} {l : Nat} {birth : Option W} {N : Nat}
    (h : ∀ s, s < N → stepTerm ar n hist cur l birth s = ar.zeroS) : stabSum ar n hist cur l birth N = ar.zeroS := by
  induction N with
  | zero => rfl
  | succ N ih => rw [stabSum_succ, ih (fun s hs => h s (by omega)), h N (by omega), ha.add_zero]

/-- The stability of a cluster is added up from terms for positive numbers of points and its own birth level. -/
def Calls (ar : Arith W S) (c : Cl W S) : Prop :=
  ∃ es : List (Nat × W), (∀ e ∈ es, e.1 ≠ 0) ∧ c.stability = es.foldl (fun s e => ar.add s (ar.term e.1 e.2 c.birth)) ar.zeroS

/-- What is recorded about one cluster. -/
structure CInv (ar : Arith W S) (n m : Nat) (hist : List (W × (Nat → Nat))) (cur : Nat → Nat) (l : Nat) (c : Cl W S) : Prop where
  label : c.label = l
  num : c.numPoints = cnt n (fun p => cur p = l)
  root : l = 1 → c.birth = none ∧ c.parent = none
  born : l ≠ 1 → ∃ q s w f, hist[s]? = some (w, f) ∧ c.parent = some q ∧ 1 ≤ q ∧ q < l ∧ c.birth = some w ∧
    (∀ p, p < n → lab hist cur (s + 1) p = l → f p = q) ∧ m ≤ cnt n (fun p => lab hist cur (s + 1) p = l) ∧
    (∀ s', s' ≤ s → ∀ p, p < n → lab hist cur s' p ≠ l)
  dead : c.numPoints = 0 → ∃ s w f, hist[s]? = some (w, f) ∧ (∃ p, p < n ∧ f p = l) ∧
    (∀ s', s < s' → ∀ p, p < n → lab hist cur s' p ≠ l) ∧ c.death = w
  alive : c.numPoints ≠ 0 → c.death = ar.zeroW
  stab : l ≠ 1 → Additive ar → c.stability = stabSum ar n hist cur l c.birth hist.length
  vc : ∀ p, p ∈ c.vchild ↔ p < n ∧ ∃ s, s < hist.length ∧ lab hist cur s p = l ∧ lab hist cur (s + 1) p = 0
  vn : c.vchild.Nodup
  prop : c.propStability = ar.zeroS ∧ c.propLowest = ar.dmax ∧ c.ncs = 0 ∧ c.pncs = 0 ∧ c.desc = []
  calls : Calls ar c

/-- The bookkeeping invariant. -/
structure BK (ar : Arith W S) (n m : Nat) (hist : List (W × (Nat → Nat))) (cur : Nat → Nat) (cs : List (Option (Cl W S)))
    (noise : Nat → Option W) (last : Nat → Option Nat) : Prop where
  zero : cs[0]? = some none
  two : 2 ≤ cs.length
  cl : ∀ l, 1 ≤ l → l < cs.length → ∃ c, cs[l]? = some (some c) ∧ CInv ar n m hist cur l c
  kids : ∀ l (c : Cl W S), cs[l]? = some (some c) → (c.hasChildren = true ↔ ∃ (l' : Nat) (c' : Cl W S), cs[l']? = some (some c') ∧ c'.parent = some l)
  lt : ∀ s p, p < n → lab hist cur s p < cs.length
  one : ∀ p, p < n → lab hist cur 0 p = 1
  mono : ∀ s p, p < n → s < hist.length → lab hist cur (s + 1) p = lab hist cur s p ∨
    (lab hist cur s p ≠ 0 ∧ (lab hist cur (s + 1) p = 0 ∨ ∀ s', s' ≤ s → ∀ q, q < n → lab hist cur s' q ≠ lab hist cur (s + 1) p))
  noise : ∀ p, p < n → cur p = 0 → ∃ s w f, hist[s]? = some (w, f) ∧ f p ≠ 0 ∧ lab hist cur (s + 1) p = 0 ∧ noise p = some w ∧ last p = some (f p)

theorem BK.get {ar : Arith W S} {n m hist cur cs noise last} (h : BK ar n m hist cur cs noise last) {l : Nat} {c : Cl W S} (hc : cs[l]? = some (some c)) :
    1 ≤ l ∧ l < cs.length ∧ CInv ar n m hist cur l c := by
  have hl : l < cs.length := by
    rw [List.getElem?_eq_some_iff] at hc; exact hc.1
  have h1 : 1 ≤ l := by
    by_contra hne
    have : l = 0 := by omega
    subst this
    rw [h.zero] at hc; simp at hc
  obtain ⟨c', hc', hi⟩ := h.cl l h1 hl
  rw [hc] at hc'
  simp only [Option.some.injEq] at hc'
  subst hc'
  exact ⟨h1, hl, hi⟩

/-- The start. -/
theorem BK.start (ar : Arith W S) {n : Nat} (m : Nat) (hn : 1 ≤ n) :
    BK ar n m [] (fun _ => 1) [none, some (Cl.init ar 1 none none n)] (fun _ => none) (fun _ => none) := by
  refine ⟨rfl, by simp, ?_, ?_, ?_, by simp [lab], by simp, by simp⟩
  · intro l h1 h2
    have : l = 1 := by simp at h2; omega
    subst this
    have hc : cnt n (fun _ => 1 = 1) = n := by simp [cnt]
    refine ⟨_, rfl, rfl, by simpa [Cl.init] using hc.symm, fun _ => ⟨rfl, rfl⟩, fun h => absurd rfl h, ?_, fun _ => rfl, fun h => absurd rfl h,
      by simp [Cl.init], by simp [Cl.init], by simp [Cl.init], ⟨[], by simp, rfl⟩⟩
    intro h
    simp only [Cl.init] at h
    omega
  · intro l c hc
    match l with
    | 0 => simp at hc
    | 1 =>
      simp only [List.getElem?_cons_succ, List.getElem?_cons_zero, Option.some.injEq] at hc
      subst hc
      simp only [Cl.init, Bool.false_eq_true, false_iff, not_exists, not_and]
      intro l' c' hc'
      match l' with
      | 0 => simp at hc'
      | 1 =>
        simp only [List.getElem?_cons_succ, List.getElem?_cons_zero, Option.some.injEq] at hc'
        subst hc'; simp
      | l' + 2 => simp at hc'
    | l + 2 => simp at hc
  · intro s p _
    simp [lab]

theorem get_append_iff {hist : List (W × (Nat → Nat))} {x : W × (Nat → Nat)} {s : Nat} (hs : s < hist.length) : (hist ++ [x])[s]? = hist[s]? :=
  List.getElem?_append_left hs

theorem lt_of_get {α : Type} {xs : List α} {s : Nat} {x : α} (h : xs[s]? = some x) : s < xs.length := by
  rw [List.getElem?_eq_some_iff] at h; exact h.1

/-- A step in which nothing has happened yet. -/
theorem BK.open {ar : Arith W S} {n m hist cur cs noise last} (h : BK ar n m hist cur cs noise last) (w : W) :
    BK ar n m (hist ++ [(w, cur)]) cur cs noise last := by
  refine ⟨h.zero, h.two, ?_, h.kids, ?_, ?_, ?_, ?_⟩
  · intro l h1 h2
    obtain ⟨c, hc, hi⟩ := h.cl l h1 h2
    refine ⟨c, hc, hi.label, hi.num, hi.root, ?_, ?_, hi.alive, ?_, ?_, hi.vn, hi.prop, hi.calls⟩
    · intro hl
      obtain ⟨q, s, w', f, b1, b2, b3, b4, b5, b6, b7, b8⟩ := hi.born hl
      exact ⟨q, s, w', f, by rw [get_append_iff (lt_of_get b1)]; exact b1, b2, b3, b4, b5, by simpa only [lab_append] using b6,
        by simpa only [lab_append] using b7, by simpa only [lab_append] using b8⟩
    · intro h0
      obtain ⟨s, w', f, d1, d2, d3, d4⟩ := hi.dead h0
      exact ⟨s, w', f, by rw [get_append_iff (lt_of_get d1)]; exact d1, d2, by simpa only [lab_append] using d3, d4⟩
    · intro hl ha
      obtain ⟨q, s, w', f, b1, b2, b3, b4, b5, _⟩ := hi.born hl
      rw [List.length_append, List.length_singleton, stabSum_succ, hi.stab hl ha]
      have : stepTerm ar n (hist ++ [(w, cur)]) cur l c.birth hist.length = ar.zeroS := by
        simp only [stepTerm, List.getElem?_concat_length, lab_append]
        rw [lab_end (by omega)]
        have : cnt n (fun p => cur p = l ∧ cur p ≠ l) = 0 := cnt_eq_zero.2 (by intro p _ hp; exact hp.2 hp.1)
        rw [this, b5, ha.term_zero]
      rw [this, ha.add_zero]
      apply stabSum_congr
      intro s hs
      simp only [stepTerm, get_append_iff hs, lab_append]
    · intro p
      rw [hi.vc]
      constructor
      · rintro ⟨hp, s, hs, h1, h2⟩
        exact ⟨hp, s, by simp; omega, by rw [lab_append]; exact h1, by rw [lab_append]; exact h2⟩
      · rintro ⟨hp, s, hs, h1, h2⟩
        rw [lab_append] at h1 h2
        refine ⟨hp, s, ?_, h1, h2⟩
        by_contra hne
        rw [lab_end (by omega)] at h1 h2
        omega
  · intro s p hp
    rw [lab_append]; exact h.lt s p hp
  · intro p hp
    rw [lab_append]; exact h.one p hp
  · intro s p hp hs
    simp only [lab_append]
    by_cases hs' : s < hist.length
    · exact h.mono s p hp hs'
    · left
      rw [lab_end (by omega), lab_end (by omega)]
  · intro p hp h0
    obtain ⟨s, w', f, d1, d2, d3, d4, d5⟩ := h.noise p hp h0
    exact ⟨s, w', f, by rw [get_append_iff (lt_of_get d1)]; exact d1, d2, by rw [lab_append]; exact d3, d4, d5⟩

/-- Labels after giving the points of a list the label `x`. -/
def relabel (cur : Nat → Nat) (P : List Nat) (x : Nat) : Nat → Nat := fun p => if p ∈ P then x else cur p

theorem relabel_in {cur P x p} (h : p ∈ P) : relabel cur P x p = x := by simp [relabel, h]
theorem relabel_out {cur P x p} (h : p ∉ P) : relabel cur P x p = cur p := by simp [relabel, h]

section Event
variable {ar : Arith W S} {n m : Nat} {h0 : List (W × (Nat → Nat))} {w : W} {prev cur : Nat → Nat} {cs : List (Option (Cl W S))}
  {noise : Nat → Option W} {last : Nat → Option Nat} {L : Nat} {P : List Nat} {x : Nat}

/-- The preconditions of relabelling: the points `P` have been in cluster `L` during the whole step. -/
structure Ev (n : Nat) (prev cur : Nat → Nat) (L : Nat) (P : List Nat) : Prop where
  pos : 1 ≤ L
  nd : P.Nodup
  ne : P ≠ []
  lt : ∀ p ∈ P, p < n
  prev : ∀ p ∈ P, prev p = L
  cur : ∀ p ∈ P, cur p = L

theorem lab_before {s : Nat} (hs : s < h0.length + 1) (cur' : Nat → Nat) :
    lab (h0 ++ [(w, prev)]) cur' s = lab (h0 ++ [(w, prev)]) cur s := lab_lt (by simpa using hs)

theorem lab_now : lab (h0 ++ [(w, prev)]) cur (h0.length + 1) = cur := lab_end (by simp)

theorem lab_prev : lab (h0 ++ [(w, prev)]) cur h0.length = prev := by simp [lab]

/-- Clusters other than the one that loses points. -/
theorem CInv.other (ev : Ev n prev cur L P) {l : Nat} {c : Cl W S} (hl : l ≠ L) (hx : l ≠ x) (hx1 : x ≠ 1 ∨ True)
    (h : CInv ar n m (h0 ++ [(w, prev)]) cur l c) (hl1 : 1 ≤ l) :
    CInv ar n m (h0 ++ [(w, prev)]) (relabel cur P x) l c := by
  have hcur : ∀ p, relabel cur P x p = l ↔ cur p = l := by
    intro p
    by_cases hp : p ∈ P
    · rw [relabel_in hp]
      have := ev.cur p hp
      constructor
      · intro h; omega
      · intro h; omega
    · rw [relabel_out hp]
  have hlab : ∀ s p, lab (h0 ++ [(w, prev)]) (relabel cur P x) s p = l ↔ lab (h0 ++ [(w, prev)]) cur s p = l := by
    intro s p
    by_cases hs : s < h0.length + 1
    · rw [lab_before hs]
    · rw [lab_end (by simp; omega), lab_end (by simp; omega), hcur]
  have step : ∀ s, stepTerm ar n (h0 ++ [(w, prev)]) (relabel cur P x) l c.birth s = stepTerm ar n (h0 ++ [(w, prev)]) cur l c.birth s := by
    intro s
    unfold stepTerm
    cases (h0 ++ [(w, prev)])[s]? with
    | none => rfl
    | some hh => simp only [ne_eq, hlab]
  refine ⟨h.label, ?_, h.root, ?_, ?_, h.alive, ?_, ?_, h.vn, h.prop, h.calls⟩
  · rw [h.num]; exact cnt_congr (fun p _ => (hcur p).symm)
  · intro hl'
    obtain ⟨q, s, w', f, b1, b2, b3, b4, b5, b6, b7, b8⟩ := h.born hl'
    refine ⟨q, s, w', f, b1, b2, b3, b4, b5, fun p hp h' => b6 p hp ((hlab _ p).1 h'), ?_, fun s' hs' p hp h' => b8 s' hs' p hp ((hlab _ p).1 h')⟩
    rw [cnt_congr (fun p _ => hlab _ p)]; exact b7
  · intro h0'
    obtain ⟨s, w', f, d1, d2, d3, d4⟩ := h.dead h0'
    exact ⟨s, w', f, d1, d2, fun s' hs' p hp h' => d3 s' hs' p hp ((hlab _ p).1 h'), d4⟩
  · intro hl' ha
    rw [h.stab hl' ha]
    exact stabSum_congr (fun s _ => (step s).symm)
  · intro p
    rw [h.vc]
    refine and_congr_right fun hp => exists_congr fun s => and_congr_right fun hs => ?_
    rw [hlab]
    refine and_congr_right fun hls => ?_
    by_cases hs1 : s + 1 < h0.length + 1
    · rw [lab_before hs1]
    · have hse : s = h0.length := by simp at hs; omega
      subst hse
      rw [lab_prev] at hls
      rw [lab_now, lab_now]
      have hpP : p ∉ P := fun hpP => hl (hls.symm.trans (ev.prev p hpP))
      rw [relabel_out hpP]

/-- The record of the cluster that loses points. -/
structure Lost (ar : Arith W S) (w : W) (k : Nat) (c c' : Cl W S) : Prop where
  label : c'.label = c.label
  birth : c'.birth = c.birth
  parent : c'.parent = c.parent
  num : c'.numPoints = subIndex c.numPoints k
  stab : c'.stability = ar.add c.stability (ar.term k w c.birth)
  death : c'.death = if subIndex c.numPoints k = 0 then w else c.death
  prop : c'.propStability = c.propStability ∧ c'.propLowest = c.propLowest ∧ c'.ncs = c.ncs ∧ c'.pncs = c.pncs ∧ c'.desc = c.desc
  offset : c'.offset = c.offset

theorem detachTo_fields (ar : Arith W S) (c : Cl W S) (np k : Nat) (w : W) :
    (c.detachTo ar np k w).1 = { c with numPoints := np, stability := ar.add c.stability (ar.term k w c.birth), death := if np = 0 then w else c.death } := by
  unfold Cl.detachTo
  simp only
  split
  · rfl
  · split <;> rfl

theorem detach_fields (ar : Arith W S) (c : Cl W S) (k : Nat) (w : W) {np : Nat} (h : np = subIndex c.numPoints k) :
    (c.detach ar k w).1 = { c with numPoints := np, stability := ar.add c.stability (ar.term k w c.birth), death := if np = 0 then w else c.death } := by
  rw [Cl.detach, ← h, detachTo_fields]

theorem lost_detach (ar : Arith W S) (c : Cl W S) (k : Nat) (w : W) : Lost ar w k c (c.detach ar k w).1 := by
  obtain ⟨np, h⟩ : ∃ np, np = subIndex c.numPoints k := ⟨_, rfl⟩
  rw [detach_fields ar c k w h]
  exact ⟨rfl, rfl, rfl, h, rfl, by rw [← h], ⟨rfl, rfl, rfl, rfl, rfl⟩, rfl⟩

theorem detach_vchild (ar : Arith W S) (c : Cl W S) (k : Nat) (w : W) : (c.detach ar k w).1.vchild = c.vchild := by
  obtain ⟨np, h⟩ : ∃ np, np = subIndex c.numPoints k := ⟨_, rfl⟩
  rw [detach_fields ar c k w h]

theorem detach_hasChildren (ar : Arith W S) (c : Cl W S) (k : Nat) (w : W) : (c.detach ar k w).1.hasChildren = c.hasChildren := by
  obtain ⟨np, h⟩ : ∃ np, np = subIndex c.numPoints k := ⟨_, rfl⟩
  rw [detach_fields ar c k w h]

theorem CInv.loses (hn : n < 2 ^ 32) (ev : Ev n prev cur L P) {c c' : Cl W S} (hx : x ≠ L)
    (h : CInv ar n m (h0 ++ [(w, prev)]) cur L c) (hlost : Lost ar w P.length c c')
    (hv : ∀ p, p ∈ c'.vchild ↔ p ∈ c.vchild ∨ (p ∈ P ∧ x = 0)) (hvn : c'.vchild.Nodup) :
    CInv ar n m (h0 ++ [(w, prev)]) (relabel cur P x) L c' := by
  have hcs := cnt_split (n := n) (P := fun p => cur p = L) ev.nd (fun p hp => ⟨ev.lt p hp, ev.cur p hp⟩)
  have hnew : cnt n (fun p => relabel cur P x p = L) = cnt n (fun p => cur p = L ∧ p ∉ P) := by
    apply cnt_congr
    intro p _
    by_cases hp : p ∈ P
    · rw [relabel_in hp]; simp [hp, hx]
    · rw [relabel_out hp]; simp [hp]
  have hnum := h.num
  have hle := cnt_le n (fun p => cur p = L)
  have hsub : subIndex c.numPoints P.length = cnt n (fun p => cur p = L ∧ p ∉ P) := by
    rw [subIndex_eq (by omega)]; omega
  obtain ⟨p0, hp0⟩ := List.exists_mem_of_ne_nil _ ev.ne
  have hprev0 : prev p0 = L := ev.prev p0 hp0
  refine ⟨hlost.label.trans h.label, ?_, ?_, ?_, ?_, ?_, ?_, ?_, hvn, ?_, ?_⟩
  · rw [hlost.num, hsub, hnew]
  · rw [hlost.birth, hlost.parent]; exact h.root
  · intro hl'
    obtain ⟨q, s, w', f, b1, b2, b3, b4, b5, b6, b7, b8⟩ := h.born hl'
    have hs : s < h0.length := by
      by_contra hne
      have hs' := lt_of_get b1
      have hse : s = h0.length := by simp at hs'; omega
      subst hse
      have := b8 h0.length (le_refl _) p0 (ev.lt p0 hp0)
      rw [lab_prev] at this
      exact this hprev0
    refine ⟨q, s, w', f, b1, hlost.parent ▸ b2, b3, b4, hlost.birth ▸ b5, ?_, ?_, ?_⟩
    · rw [lab_before (by omega)]; exact b6
    · rw [lab_before (by omega)]; exact b7
    · intro s' hs'
      rw [lab_before (by omega)]; exact b8 s' hs'
  · intro h0'
    rw [hlost.num] at h0'
    refine ⟨h0.length, w, prev, by simp, ⟨p0, ev.lt p0 hp0, hprev0⟩, ?_, by rw [hlost.death, if_pos h0']⟩
    intro s' hs' p hp
    rw [lab_end (by simp; omega)]
    have := cnt_eq_zero.1 (hnew.trans (hsub.symm.trans h0')) p hp
    exact this
  · intro h0'
    rw [hlost.num] at h0'
    rw [hlost.death, if_neg h0']
    apply h.alive
    rw [hsub] at h0'
    omega
  · intro hl' ha
    obtain ⟨q, s, w', f, b1, b2, b3, b4, b5, _⟩ := h.born hl'
    rw [hlost.stab, h.stab hl' ha, hlost.birth, List.length_append, List.length_singleton, stabSum_succ, stabSum_succ, ha.add_assoc]
    congr 1
    · apply stabSum_congr
      intro s' hs'
      unfold stepTerm
      rw [lab_before (show s' + 1 < h0.length + 1 by omega) (relabel cur P x) (cur := cur)]
    · simp only [stepTerm, List.getElem?_concat_length, lab_now, b5]
      rw [← ha.term_add]
      congr 1
      rw [cnt_split (P := fun p => prev p = L ∧ relabel cur P x p ≠ L) ev.nd (fun p hp => ⟨ev.lt p hp, ev.prev p hp, by rw [relabel_in hp]; exact hx⟩)]
      congr 1
      apply cnt_congr
      intro p _
      by_cases hp : p ∈ P
      · simp [hp, ev.cur p hp]
      · simp [hp, relabel_out hp]
  · intro p
    rw [hv, h.vc]
    constructor
    · rintro (⟨hp, s, hs, h1, h2⟩ | ⟨hp, rfl⟩)
      · refine ⟨hp, s, hs, ?_, ?_⟩
        · rw [lab_before (by simpa using hs)]; exact h1
        · by_cases hs1 : s + 1 < h0.length + 1
          · rw [lab_before hs1]; exact h2
          · have hse : s + 1 = h0.length + 1 := by simp at hs; omega
            rw [hse, lab_now] at h2 ⊢
            by_cases hpP : p ∈ P
            · have := ev.cur p hpP
              have := ev.pos
              omega
            · rw [relabel_out hpP]; exact h2
      · refine ⟨ev.lt p hp, h0.length, by simp, ?_, ?_⟩
        · rw [lab_prev]; exact ev.prev p hp
        · rw [lab_now, relabel_in hp]
    · rintro ⟨hp, s, hs, h1, h2⟩
      rw [lab_before (by simpa using hs)] at h1
      by_cases hpP : p ∈ P ∧ x = 0
      · exact .inr hpP
      · left
        refine ⟨hp, s, hs, h1, ?_⟩
        by_cases hs1 : s + 1 < h0.length + 1
        · rw [lab_before hs1] at h2; exact h2
        · have hse : s + 1 = h0.length + 1 := by simp at hs; omega
          rw [hse, lab_now] at h2 ⊢
          by_cases hpP' : p ∈ P
          · rw [relabel_in hpP'] at h2
            exact absurd ⟨hpP', h2⟩ hpP
          · rw [relabel_out hpP'] at h2; exact h2
  · obtain ⟨a, b, c, d, e⟩ := hlost.prop
    obtain ⟨a', b', c', d', e'⟩ := h.prop
    exact ⟨a.trans a', b.trans b', c.trans c', d.trans d', e.trans e'⟩
  · obtain ⟨es, h1, h2⟩ := h.calls
    refine ⟨es ++ [(P.length, w)], fun e he => ?_, ?_⟩
    · rcases List.mem_append.1 he with he | he
      · exact h1 e he
      · rw [List.mem_singleton.1 he]
        exact fun h => ev.ne (List.length_eq_zero_iff.1 h)
    · rw [hlost.stab, h2, hlost.birth, List.foldl_append]
      rfl

theorem relabel_mono (hb : BK ar n m (h0 ++ [(w, prev)]) cur cs noise last) (ev : Ev n prev cur L P) (hx : x = 0 ∨ cs.length ≤ x) :
    ∀ s p, p < n → s < (h0 ++ [(w, prev)]).length → lab (h0 ++ [(w, prev)]) (relabel cur P x) (s + 1) p = lab (h0 ++ [(w, prev)]) (relabel cur P x) s p ∨
    (lab (h0 ++ [(w, prev)]) (relabel cur P x) s p ≠ 0 ∧ (lab (h0 ++ [(w, prev)]) (relabel cur P x) (s + 1) p = 0 ∨
      ∀ s', s' ≤ s → ∀ q, q < n → lab (h0 ++ [(w, prev)]) (relabel cur P x) s' q ≠ lab (h0 ++ [(w, prev)]) (relabel cur P x) (s + 1) p)) := by
  intro s p hp hs
  have hs' : s < h0.length + 1 := by simpa using hs
  have hm := hb.mono s p hp hs
  by_cases hs1 : s + 1 < h0.length + 1
  · have e1 := lab_before (w := w) (prev := prev) (cur := cur) hs' (relabel cur P x)
    have e2 := lab_before (w := w) (prev := prev) (cur := cur) hs1 (relabel cur P x)
    have e3 : ∀ s', s' ≤ s → lab (h0 ++ [(w, prev)]) (relabel cur P x) s' = lab (h0 ++ [(w, prev)]) cur s' := fun s' h => lab_before (by omega) _
    rw [e1, e2]
    rcases hm with hm | ⟨hm1, hm2 | hm2⟩
    · exact .inl hm
    · exact .inr ⟨hm1, .inl hm2⟩
    · exact .inr ⟨hm1, .inr (fun s' hs' q hq => by rw [e3 s' hs']; exact hm2 s' hs' q hq)⟩
  · have hse : s = h0.length := by omega
    subst hse
    rw [lab_now, lab_prev]
    by_cases hpP : p ∈ P
    · rw [relabel_in hpP]
      right
      refine ⟨by rw [ev.prev p hpP]; have := ev.pos; omega, ?_⟩
      rcases hx with hx | hx
      · exact .inl hx
      · right
        intro s' hs' q hq
        rw [lab_before (by omega) (cur := cur)]
        have := hb.lt s' q hq
        omega
    · rw [relabel_out hpP]
      rw [lab_now, lab_prev] at hm
      rcases hm with hm | ⟨hm1, hm2 | hm2⟩
      · exact .inl hm
      · exact .inr ⟨hm1, .inl hm2⟩
      · exact .inr ⟨hm1, .inr (fun s' hs' q hq => by rw [lab_before (by omega) (cur := cur)]; exact hm2 s' hs' q hq)⟩

/-- Some points of `L` become noise. -/
theorem BK.toNoise (hn : n < 2 ^ 32) (hb : BK ar n m (h0 ++ [(w, prev)]) cur cs noise last) (ev : Ev n prev cur L P) {c c' : Cl W S}
    (hc : cs[L]? = some (some c)) (hlost : Lost ar w P.length c c') (hv0 : c'.vchild = P.foldl sInsert c.vchild) (hh : c'.hasChildren = c.hasChildren) :
    BK ar n m (h0 ++ [(w, prev)]) (relabel cur P 0) (cs.set L (some c'))
      (fun p => if p ∈ P then some w else noise p) (fun p => if p ∈ P then some L else last p) := by
  obtain ⟨hL1, hL2, hcL⟩ := hb.get hc
  have hpar : ∀ (l : Nat) (d : Cl W S), (cs.set L (some c'))[l]? = some (some d) →
      ∃ d0 : Cl W S, cs[l]? = some (some d0) ∧ d0.parent = d.parent ∧ d0.hasChildren = d.hasChildren := by
    intro l d hd
    rw [List.getElem?_set] at hd
    by_cases hl : L = l
    · subst hl
      simp only [hL2, if_true, Option.some.injEq] at hd
      subst hd
      exact ⟨c, hc, hlost.parent.symm, hh.symm⟩
    · rw [if_neg hl] at hd
      exact ⟨d, hd, rfl, rfl⟩
  have hpar' : ∀ (l : Nat) (d0 : Cl W S), cs[l]? = some (some d0) → ∃ d : Cl W S, (cs.set L (some c'))[l]? = some (some d) ∧ d0.parent = d.parent := by
    intro l d0 hd
    by_cases hl : L = l
    · subst hl
      rw [hc] at hd
      simp only [Option.some.injEq] at hd
      subst hd
      exact ⟨_, by rw [List.getElem?_set, if_pos rfl, if_pos hL2], hlost.parent.symm⟩
    · exact ⟨d0, by rw [List.getElem?_set, if_neg hl]; exact hd, rfl⟩
  refine ⟨?_, by simpa using hb.two, ?_, ?_, ?_, ?_, relabel_mono hb ev (.inl rfl), ?_⟩
  · rw [List.getElem?_set, if_neg (by omega)]; exact hb.zero
  · intro l h1 h2
    rw [List.length_set] at h2
    by_cases hl : L = l
    · subst hl
      refine ⟨_, by rw [List.getElem?_set, if_pos rfl, if_pos hL2], ?_⟩
      apply CInv.loses hn ev (by omega) hcL
      · exact hlost
      · intro p
        simp only [mem_foldl_sInsert, hv0, and_true]
      · rw [hv0]; exact nodup_foldl_sInsert hcL.vn
    · obtain ⟨d, hd, hi⟩ := hb.cl l h1 h2
      exact ⟨d, by rw [List.getElem?_set, if_neg hl]; exact hd, CInv.other ev (Ne.symm hl) (by omega) (.inr trivial) hi h1⟩
  · intro l d hd
    obtain ⟨d0, q1, q2, q3⟩ := hpar l d hd
    rw [← q3, hb.kids l d0 q1]
    constructor
    · rintro ⟨l', c', r1, r2⟩
      obtain ⟨c'', r3, r4⟩ := hpar' l' c' r1
      exact ⟨l', c'', r3, r4 ▸ r2⟩
    · rintro ⟨l', c', r1, r2⟩
      obtain ⟨c'', r3, r4, _⟩ := hpar l' c' r1
      exact ⟨l', c'', r3, r4 ▸ r2⟩
  · intro s p hp
    rw [List.length_set]
    by_cases hs : s < h0.length + 1
    · rw [lab_before hs (cur := cur)]; exact hb.lt s p hp
    · rw [lab_end (by simp; omega)]
      by_cases hpP : p ∈ P
      · rw [relabel_in hpP]; have := hb.two; omega
      · rw [relabel_out hpP]
        have := hb.lt s p hp
        rwa [lab_end (by simp; omega)] at this
  · intro p hp
    rw [lab_before (by omega) (cur := cur)]; exact hb.one p hp
  · intro p hp hz
    by_cases hpP : p ∈ P
    · refine ⟨h0.length, w, prev, by simp, ?_, by rw [lab_now]; exact hz, by simp [hpP], by simp [hpP, ev.prev p hpP]⟩
      rw [ev.prev p hpP]; omega
    · rw [relabel_out hpP] at hz
      obtain ⟨s, w', f, d1, d2, d3, d4, d5⟩ := hb.noise p hp hz
      refine ⟨s, w', f, d1, d2, ?_, by simp [hpP, d4], by simp [hpP, d5]⟩
      have := lt_of_get d1
      by_cases hs1 : s + 1 < h0.length + 1
      · rw [lab_before hs1 (cur := cur)]; exact d3
      · have hse : s + 1 = h0.length + 1 := by simp at this; omega
        rw [hse, lab_now, relabel_out hpP]; exact hz

/-- Some points of `L` become a new cluster. -/
theorem BK.toNew (hn : n < 2 ^ 32) (hm : m ≤ P.length) (hb : BK ar n m (h0 ++ [(w, prev)]) cur cs noise last) (ev : Ev n prev cur L P) {c c' : Cl W S}
    (hc : cs[L]? = some (some c)) (hlost : Lost ar w P.length c c') (hv0 : c'.vchild = c.vchild) (hh : c'.hasChildren = true) :
    BK ar n m (h0 ++ [(w, prev)]) (relabel cur P cs.length)
      (cs.set L (some c') ++ [some (Cl.init ar cs.length (some L) (some w) P.length)])
      noise last := by
  obtain ⟨hL1, hL2, hcL⟩ := hb.get hc
  set cs1 := cs.set L (some c') with hcs1
  have hlen : cs1.length = cs.length := by simp [hcs1]
  set nc : Cl W S := Cl.init ar cs.length (some L) (some w) P.length with hnc
  have hgetL : (cs1 ++ [some nc])[L]? = some (some c') := by
    rw [List.getElem?_append_left (by omega), hcs1, List.getElem?_set, if_pos rfl, if_pos hL2]
  have hgetN : (cs1 ++ [some nc])[cs.length]? = some (some nc) := by
    rw [← hlen]; simp
  have hgetO : ∀ l, l ≠ L → l < cs.length → (cs1 ++ [some nc])[l]? = cs[l]? := by
    intro l h1 h2
    rw [List.getElem?_append_left (by omega), hcs1, List.getElem?_set, if_neg (Ne.symm h1)]
  have hcnt1 : 1 ≤ P.length := List.length_pos_iff.2 ev.ne
  have hcntN : cnt n (fun p => relabel cur P cs.length p = cs.length) = P.length := by
    rw [cnt_split (P := fun p => relabel cur P cs.length p = cs.length) ev.nd (fun p hp => ⟨ev.lt p hp, relabel_in hp⟩)]
    have : cnt n (fun p => relabel cur P cs.length p = cs.length ∧ p ∉ P) = 0 := by
      apply cnt_eq_zero.2
      rintro p hp ⟨h1, h2⟩
      rw [relabel_out h2] at h1
      have := hb.lt (h0.length + 1) p hp
      rw [lab_now] at this
      omega
    omega
  have hparL : ∀ (l : Nat) (d : Cl W S), (cs1 ++ [some nc])[l]? = some (some d) → l ≠ cs.length →
      ∃ d0 : Cl W S, cs[l]? = some (some d0) ∧ d0.parent = d.parent ∧ (l ≠ L → d = d0) := by
    intro l d hd hne
    have hl2 : l < cs.length := by
      have := lt_of_get hd
      simp [hlen] at this; omega
    by_cases hl : l = L
    · subst hl
      rw [hgetL] at hd
      simp only [Option.some.injEq] at hd
      subst hd
      exact ⟨c, hc, hlost.parent.symm, fun h => absurd rfl h⟩
    · rw [hgetO l hl hl2] at hd
      exact ⟨d, hd, rfl, fun _ => rfl⟩
  have hparR : ∀ (l : Nat) (d0 : Cl W S), cs[l]? = some (some d0) → ∃ d : Cl W S, (cs1 ++ [some nc])[l]? = some (some d) ∧ d0.parent = d.parent := by
    intro l d0 hd
    by_cases hl : l = L
    · subst hl
      rw [hc] at hd
      simp only [Option.some.injEq] at hd
      subst hd
      exact ⟨_, hgetL, hlost.parent.symm⟩
    · exact ⟨d0, by rw [hgetO l hl (lt_of_get hd)]; exact hd, rfl⟩
  refine ⟨?_, by simp [hlen]; have := hb.two; omega, ?_, ?_, ?_, ?_, relabel_mono hb ev (.inr (le_refl _)), ?_⟩
  · rw [hgetO 0 (by omega) (by have := hb.two; omega)]; exact hb.zero
  · intro l h1 h2
    by_cases hlN : l = cs.length
    · subst hlN
      refine ⟨nc, hgetN, rfl, hcntN.symm, ?_, ?_, ?_, fun _ => rfl, ?_, ?_, by simp [hnc, Cl.init], by simp [hnc, Cl.init], ⟨[], by simp, rfl⟩⟩
      · intro h; have := hb.two; omega
      · intro _
        refine ⟨L, h0.length, w, prev, by simp, rfl, hL1, hL2, rfl, ?_, ?_, ?_⟩
        · intro p hp hlp
          rw [lab_now] at hlp
          by_cases hpP : p ∈ P
          · exact ev.prev p hpP
          · rw [relabel_out hpP] at hlp
            have := hb.lt (h0.length + 1) p hp
            rw [lab_now] at this
            omega
        · rw [lab_now, hcntN]; exact hm
        · intro s' hs' p hp
          rw [lab_before (by omega) (cur := cur)]
          have := hb.lt s' p hp
          omega
      · intro h
        simp only [hnc, Cl.init] at h
        omega
      · intro _ ha
        symm
        apply stabSum_zero ha
        intro s hs
        have hs' : s < h0.length + 1 := by simpa using hs
        unfold stepTerm
        cases hg : (h0 ++ [(w, prev)])[s]? with
        | none => rfl
        | some hh =>
          have : cnt n (fun p => hh.2 p = cs.length ∧ lab (h0 ++ [(w, prev)]) (relabel cur P cs.length) (s + 1) p ≠ cs.length) = 0 := by
            apply cnt_eq_zero.2
            rintro p hp ⟨h1, _⟩
            have := hb.lt s p hp
            rw [lab_get hg] at this
            omega
          simp only [this, hnc, Cl.init, ha.term_zero]
      · intro p
        simp only [hnc, Cl.init, List.not_mem_nil, false_iff]
        rintro ⟨hp, s, hs, h1, _⟩
        rw [lab_before (by simpa using hs) (cur := cur)] at h1
        have := hb.lt s p hp
        omega
    · have hl2 : l < cs.length := by simp [hlen] at h2; omega
      by_cases hl : l = L
      · subst hl
        refine ⟨_, hgetL, ?_⟩
        apply CInv.loses hn ev (by omega) hcL
        · exact hlost
        · intro p
          simp only [hv0]
          have := hb.two
          constructor
          · exact .inl
          · rintro (h | ⟨_, h⟩)
            · exact h
            · omega
        · rw [hv0]; exact hcL.vn
      · obtain ⟨d, hd, hi⟩ := hb.cl l h1 hl2
        exact ⟨d, by rw [hgetO l hl hl2]; exact hd, CInv.other ev hl (by omega) (.inr trivial) hi h1⟩
  · intro l d hd
    by_cases hlN : l = cs.length
    · subst hlN
      rw [hgetN] at hd
      simp only [Option.some.injEq] at hd
      subst hd
      refine ⟨fun h => by simp [hnc, Cl.init] at h, ?_⟩
      rintro ⟨l', c', r1, r2⟩
      exfalso
      by_cases hl' : l' = cs.length
      · subst hl'
        rw [hgetN] at r1
        simp only [Option.some.injEq] at r1
        subst r1
        simp only [hnc, Cl.init, Option.some.injEq] at r2
        omega
      · obtain ⟨d0, q1, q2, _⟩ := hparL l' c' r1 hl'
        obtain ⟨g1, g2, g3⟩ := hb.get q1
        by_cases h1 : l' = 1
        · rw [← q2, (g3.root h1).2] at r2; simp at r2
        · obtain ⟨q, s, w', f, b1, b2, b3, b4, _⟩ := g3.born h1
          rw [← q2, b2] at r2
          simp only [Option.some.injEq] at r2
          omega
    · by_cases hl : l = L
      · subst hl
        rw [hgetL] at hd
        simp only [Option.some.injEq] at hd
        subst hd
        exact ⟨fun _ => ⟨cs.length, nc, hgetN, rfl⟩, fun _ => hh⟩
      · obtain ⟨d0, q1, q2, q3⟩ := hparL l d hd hlN
        rw [q3 hl, hb.kids l d0 q1]
        constructor
        · rintro ⟨l', c', r1, r2⟩
          obtain ⟨c'', r3, r4⟩ := hparR l' c' r1
          exact ⟨l', c'', r3, r4 ▸ r2⟩
        · rintro ⟨l', c', r1, r2⟩
          by_cases hl' : l' = cs.length
          · subst hl'
            rw [hgetN] at r1
            simp only [Option.some.injEq] at r1
            subst r1
            simp only [hnc, Cl.init, Option.some.injEq] at r2
            omega
          · obtain ⟨d1, s1, s2, _⟩ := hparL l' c' r1 hl'
            exact ⟨l', d1, s1, s2 ▸ r2⟩
  · intro s p hp
    simp only [List.length_append, List.length_singleton, hlen]
    by_cases hs : s < h0.length + 1
    · rw [lab_before hs (cur := cur)]
      have := hb.lt s p hp
      omega
    · rw [lab_end (by simp; omega)]
      by_cases hpP : p ∈ P
      · rw [relabel_in hpP]; omega
      · rw [relabel_out hpP]
        have := hb.lt s p hp
        rw [lab_end (by simp; omega)] at this
        omega
  · intro p hp
    rw [lab_before (by omega) (cur := cur)]; exact hb.one p hp
  · intro p hp hz
    have hpP : p ∉ P := by
      intro hpP
      rw [relabel_in hpP] at hz
      have := hb.two
      omega
    rw [relabel_out hpP] at hz
    obtain ⟨s, w', f, d1, d2, d3, d4, d5⟩ := hb.noise p hp hz
    refine ⟨s, w', f, d1, d2, ?_, d4, d5⟩
    have := lt_of_get d1
    by_cases hs1 : s + 1 < h0.length + 1
    · rw [lab_before hs1 (cur := cur)]; exact d3
    · have hse : s + 1 = h0.length + 1 := by simp at this; omega
      rw [hse, lab_now, relabel_out hpP]; exact hz

end Event
end Verif.Hier
