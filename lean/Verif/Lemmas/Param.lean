import Verif.Model.Run
/-
Two runs of the library that see related values: if the comparisons come out alike, so do all decisions. This is the abstraction theorem for the model: `R` relates the distances of the two runs, `Q` their
stabilities.
-/
namespace Verif.Param
open Verif
variable {α β γ δ W W' S S' : Type}

/-- Related outcomes. -/
inductive ORel (P : α → β → Prop) : Outcome α → Outcome β → Prop
  | ok {a b} (h : P a b) : ORel P (.ok a) (.ok b)
  | ub (s) : ORel P (.ub s) (.ub s)
  | abort (s) : ORel P (.abort s) (.abort s)
  | diverge : ORel P .diverge .diverge

theorem ORel.bind {P : α → β → Prop} {P' : γ → δ → Prop} {x : Outcome α} {y : Outcome β} {f : α → Outcome γ} {g : β → Outcome δ} (h : ORel P x y)
    (hf : ∀ a b, P a b → ORel P' (f a) (g b)) : ORel P' (x >>= f) (y >>= g) := by
  cases h with
  | ok h => exact hf _ _ h
  | ub s => exact .ub s
  | abort s => exact .abort s
  | diverge => exact .diverge

theorem ORel.same (x : Outcome α) : ORel Eq x x := by
  cases x with
  | ok a => exact .ok rfl
  | ub s => exact .ub s
  | abort s => exact .abort s
  | diverge => exact .diverge

theorem ORel.bind_same {P' : γ → δ → Prop} (x : Outcome α) {f : α → Outcome γ} {g : α → Outcome δ} (hf : ∀ a, ORel P' (f a) (g a)) : ORel P' (x >>= f) (x >>= g) :=
  ORel.bind (ORel.same x) (fun a _ e => e ▸ hf a)

theorem ORel.mono {P P' : α → β → Prop} {x : Outcome α} {y : Outcome β} (h : ORel P x y) (hp : ∀ a b, P a b → P' a b) : ORel P' x y := by
  cases h with
  | ok h => exact .ok (hp _ _ h)
  | ub s => exact .ub s
  | abort s => exact .abort s
  | diverge => exact .diverge

theorem ORel.ok_left {P : α → β → Prop} {x : Outcome α} {y : Outcome β} (h : ORel P x y) {a : α} (e : x = .ok a) : ∃ b, y = .ok b ∧ P a b := by
  cases h with
  | ok h => cases e; exact ⟨_, rfl, h⟩
  | ub s => cases e
  | abort s => cases e
  | diverge => cases e

/-- Lists of equal length with related elements. -/
inductive LRel (R : α → β → Prop) : List α → List β → Prop
  | nil : LRel R [] []
  | cons {a b l l'} (h : R a b) (t : LRel R l l') : LRel R (a :: l) (b :: l')

/-- Both missing, or related. -/
def OptRel (R : α → β → Prop) : Option α → Option β → Prop
  | none, none => True
  | some a, some b => R a b
  | _, _ => False

theorem LRel.get {R : α → β → Prop} {a : List α} {b : List β} (h : LRel R a b) (i : Nat) : OptRel R a[i]? b[i]? := by
  induction h generalizing i with
  | nil => trivial
  | cons h _ ih =>
    cases i with
    | zero => exact h
    | succ i => simpa using ih i

theorem LRel.length {R : α → β → Prop} {a : List α} {b : List β} (h : LRel R a b) : a.length = b.length := by
  induction h with
  | nil => rfl
  | cons _ _ ih => simp [ih]

theorem LRel.set {R : α → β → Prop} {a : List α} {b : List β} (h : LRel R a b) (i : Nat) {x : α} {y : β} (hx : R x y) : LRel R (a.set i x) (b.set i y) := by
  induction h generalizing i with
  | nil => exact .nil
  | cons h hr ih =>
    cases i with
    | zero => exact .cons hx hr
    | succ i => exact .cons h (ih i)

theorem LRel.replicate {R : α → β → Prop} (n : Nat) {x : α} {y : β} (h : R x y) : LRel R (List.replicate n x) (List.replicate n y) := by
  induction n with
  | zero => exact .nil
  | succ n ih => exact .cons h ih

theorem LRel.append {R : α → β → Prop} {a c : List α} {b d : List β} (h : LRel R a b) (h' : LRel R c d) : LRel R (a ++ c) (b ++ d) := by
  induction h with
  | nil => exact h'
  | cons h _ ih => exact .cons h ih

theorem LRel.take {R : α → β → Prop} {a : List α} {b : List β} (h : LRel R a b) (n : Nat) : LRel R (a.take n) (b.take n) := by
  induction h generalizing n with
  | nil => simpa using .nil
  | cons h _ ih =>
    cases n with
    | zero => simpa using .nil
    | succ n => simpa using .cons h (ih n)

theorem LRel.drop {R : α → β → Prop} {a : List α} {b : List β} (h : LRel R a b) (n : Nat) : LRel R (a.drop n) (b.drop n) := by
  induction h generalizing n with
  | nil => simpa using .nil
  | cons h hr ih =>
    cases n with
    | zero => exact .cons h hr
    | succ n => simpa using ih n

theorem LRel.mono {R R' : α → β → Prop} {a : List α} {b : List β} (h : LRel R a b) (hr : ∀ x y, R x y → R' x y) : LRel R' a b := by
  induction h with
  | nil => exact .nil
  | cons h _ ih => exact .cons (hr _ _ h) ih

theorem rd_rel {R : α → β → Prop} {a : List α} {b : List β} (h : LRel R a b) (i : Nat) : ORel R (rd a i) (rd b i) := by
  have := LRel.get h i
  unfold rd
  cases ha : a[i]? <;> cases hb : b[i]? <;> rw [ha, hb] at this
  · exact .ub _
  · exact this.elim
  · exact this.elim
  · exact .ok this

theorem wr_rel {R : α → β → Prop} {a : List α} {b : List β} (h : LRel R a b) (i : Nat) {x : α} {y : β} (hx : R x y) : ORel (LRel R) (wr a i x) (wr b i y) := by
  unfold wr
  rw [LRel.length h]
  split
  · exact .ok (LRel.set h i hx)
  · exact .ub _

theorem rdInit_rel {R : α → β → Prop} {a : List (Option α)} {b : List (Option β)} (h : LRel (OptRel R) a b) (i : Nat) : ORel R (rdInit a i) (rdInit b i) := by
  unfold rdInit
  refine ORel.bind (rd_rel h i) ?_
  intro x y hxy
  cases x <;> cases y
  · exact .ub _
  · exact hxy.elim
  · exact hxy.elim
  · exact .ok hxy

theorem getCl_rel {R : α → β → Prop} {a : List (Option α)} {b : List (Option β)} (h : LRel (OptRel R) a b) (i : Nat) : ORel R (getCl a i) (getCl b i) := by
  unfold getCl
  refine ORel.bind (rd_rel h i) ?_
  intro x y hxy
  cases x <;> cases y
  · exact .ub _
  · exact hxy.elim
  · exact hxy.elim
  · exact .ok hxy

/-- Comparisons of related values come out alike. -/
structure Alike [CCmp W] [CCmp W'] (R : W → W' → Prop) : Prop where
  lt : ∀ {a a' b b'}, R a a' → R b b' → CCmp.lt a b = CCmp.lt a' b'
  le : ∀ {a a' b b'}, R a a' → R b b' → CCmp.le a b = CCmp.le a' b'
  eq : ∀ {a a' b b'}, R a a' → R b b' → CCmp.eq a b = CCmp.eq a' b'

/-! ### Distances -/

/-- Related distance objects. -/
structure DRel (R : W → W' → Prop) (d : Distance W) (d' : Distance W') : Prop where
  rows : d.rows = d'.rows
  nn : d.numNeighbors = d'.numNeighbors
  distances : LRel (OptRel R) d.distances d'.distances
  cores : LRel (OptRel R) d.coreDistances d'.coreDistances

section
variable [CCmp W] [CCmp W'] {R : W → W' → Prop} (hc : Alike R)

omit [CCmp W] [CCmp W'] in
theorem get_rel {zero : W} {zero' : W'} (hz : R zero zero') {d : Distance W} {d' : Distance W'} (h : DRel R d d') (i j : Nat) : ORel R (d.get zero i j) (d'.get zero' i j) := by
  unfold Distance.get
  rw [h.rows]
  split
  · exact rdInit_rel h.distances _
  · split
    · exact .ok hz
    · exact rdInit_rel h.distances _

include hc in
theorem searchPos_rel {sd : List W} {sd' : List W'} (h : LRel R sd sd') {t : W} {t' : W'} (ht : R t t') : ∀ fuel low high,
    ORel Eq (Distance.searchPos sd t fuel low high) (Distance.searchPos sd' t' fuel low high) := by
  intro fuel
  induction fuel with
  | zero => intros; exact .diverge
  | succ fuel ih =>
    intro low high
    unfold Distance.searchPos
    refine ORel.bind (rd_rel h _) ?_
    intro x x' hx
    rw [hc.lt ht hx, hc.eq hx ht]
    split
    · split
      · exact ih _ _
      · exact .ok rfl
    · split
      · exact .ok rfl
      · split
        · exact ih _ _
        · exact .ok rfl

include hc in
theorem offer_rel (nn : Nat) {sd : List W} {sd' : List W'} (h : LRel R sd sd') {t : W} {t' : W'} (ht : R t t') : ORel (LRel R) (Distance.offer nn sd t) (Distance.offer nn sd' t') := by
  unfold Distance.offer
  refine ORel.bind (rd_rel h _) ?_
  intro x x' hx
  rw [hc.lt hx ht]
  split
  · exact .ok h
  · refine ORel.bind (searchPos_rel hc h ht _ _ _) ?_
    rintro low _ rfl
    rw [hc.eq hx ht]
    split
    · exact .ok ((h.take _).append (.cons ht ((h.drop _).take _)))
    · exact .ok h

include hc in
theorem coreLoop_rel {zero : W} {zero' : W'} (hz : R zero zero') {d : Distance W} {d' : Distance W'} (h : DRel R d d') (i : Nat) : ∀ (l : List Nat) {sd : List W} {sd' : List W'}, LRel R sd sd' →
    ORel (LRel R) (Distance.coreLoop zero d i l sd) (Distance.coreLoop zero' d' i l sd') := by
  intro l
  induction l with
  | nil => intro sd sd' hs; exact .ok hs
  | cons j r ih =>
    intro sd sd' hs
    unfold Distance.coreLoop
    refine ORel.bind (get_rel hz h i j) fun t t' ht => ?_
    rw [h.nn]
    exact ORel.bind (offer_rel hc _ hs ht) fun s s' hs => ih hs

include hc in
theorem coreOf_rel {zero dmax : W} {zero' dmax' : W'} (hz : R zero zero') (hm : R dmax dmax') {d : Distance W} {d' : Distance W'} (h : DRel R d d') (i : Nat) :
    ORel R (Distance.coreOf zero dmax d i) (Distance.coreOf zero' dmax' d' i) := by
  unfold Distance.coreOf
  rw [h.rows, h.nn]
  exact ORel.bind (coreLoop_rel hc hz h i _ (LRel.replicate _ hm)) fun s s' hs => rd_rel hs _

include hc in
theorem coreAll_rel {zero dmax : W} {zero' dmax' : W'} (hz : R zero zero') (hm : R dmax dmax') {d : Distance W} {d' : Distance W'} (h : DRel R d d') : ∀ (l : List Nat) {c : List (Option W)} {c' : List (Option W')},
    LRel (OptRel R) c c' → ORel (LRel (OptRel R)) (Distance.coreAll zero dmax d l c) (Distance.coreAll zero' dmax' d' l c') := by
  intro l
  induction l with
  | nil => intro c c' h; exact .ok h
  | cons i r ih =>
    intro c c' hcc
    unfold Distance.coreAll
    refine ORel.bind (coreOf_rel hc hz hm h i) fun x x' hx => ?_
    exact ORel.bind (wr_rel hcc i (x := some x) (y := some x') hx) fun s s' hs => ih hs

include hc in
theorem getCore_rel {zero dmax : W} {zero' dmax' : W'} (hz : R zero zero') (hm : R dmax dmax') (order : List Nat) {d : Distance W} {d' : Distance W'} (h : DRel R d d') :
    ORel (DRel R) (Distance.getCoreDistances zero dmax order d) (Distance.getCoreDistances zero' dmax' order d') := by
  unfold Distance.getCoreDistances
  exact ORel.bind (coreAll_rel hc hz hm h _ h.cores) fun c c' hcc => .ok ⟨h.rows, h.nn, h.distances, hcc⟩

/-! ### The spanning tree -/

include hc in
theorem mrd_rel {zero : W} {zero' : W'} (hz : R zero zero') {d : Distance W} {d' : Distance W'} (h : DRel R d d') (i j : Nat) : ORel R (Mst.mrd zero d i j) (Mst.mrd zero' d' i j) := by
  unfold Mst.mrd
  refine ORel.bind (get_rel hz h i j) fun x x' hx => ?_
  refine ORel.bind (rdInit_rel h.cores _) fun y y' hy => ?_
  refine ORel.bind (rdInit_rel h.cores _) fun z z' hz => ?_
  have h1 : R (if CCmp.lt x y then y else x) (if CCmp.lt x' y' then y' else x') := by
    rw [hc.lt hx hy]; split <;> assumption
  have h2 : ∀ {u u'}, R u u' → R (if CCmp.lt u z then z else u) (if CCmp.lt u' z' then z' else u') := by
    intro u u' hu
    rw [hc.lt hu hz]; split <;> assumption
  exact .ok (h2 h1)

structure ScanRel (R : W → W' → Prop) (s : Mst.Scan W) (s' : Mst.Scan W') : Prop where
  dist : LRel R s.dist s'.dist
  nb : s.nb = s'.nb
  nd : R s.nd s'.nd
  np : s.np = s'.np

include hc in
theorem relax_rel {m : W} {m' : W'} (hm : R m m') (i j : Nat) {s : Mst.Scan W} {s' : Mst.Scan W'} (h : ScanRel R s s') : ORel (ScanRel R) (Mst.relax m i j s) (Mst.relax m' i j s') := by
  unfold Mst.relax
  refine ORel.bind (rd_rel h.dist _) fun x x' hx => ?_
  rw [hc.lt hm hx]
  split
  · refine ORel.bind (wr_rel h.dist _ hm) fun x x' hx => ?_
    rw [h.nb]
    exact ORel.bind_same _ fun nb => .ok ⟨hx, rfl, h.nd, h.np⟩
  · exact .ok h

include hc in
theorem visit_rel {zero : W} {zero' : W'} (hz : R zero zero') {d : Distance W} {d' : Distance W'} (hd : DRel R d d') (i j : Nat) {s : Mst.Scan W} {s' : Mst.Scan W'} (h : ScanRel R s s') :
    ORel (ScanRel R) (Mst.visit zero d i j s) (Mst.visit zero' d' i j s') := by
  unfold Mst.visit
  refine ORel.bind (mrd_rel hc hz hd _ _) fun m m' hm => ?_
  refine ORel.bind (relax_rel hc hm _ _ h) fun s s' hs => ?_
  refine ORel.bind (rd_rel hs.dist _) fun x x' hx => ?_
  rw [hc.le hx hs.nd]
  split
  · exact .ok ⟨hs.dist, hs.nb, hx, rfl⟩
  · exact .ok hs

include hc in
theorem scan_rel {zero : W} {zero' : W'} (hz : R zero zero') {d : Distance W} {d' : Distance W'} (hd : DRel R d d') (att : List Bool) (cur : Nat) : ∀ (l : List Nat) {s : Mst.Scan W} {s' : Mst.Scan W'},
    ScanRel R s s' → ORel (ScanRel R) (Mst.scan zero d att cur l s) (Mst.scan zero' d' att cur l s') := by
  intro l
  induction l with
  | nil => intro s s' h; exact .ok h
  | cons i r ih =>
    intro s s' h
    unfold Mst.scan
    split
    · exact ih h
    · refine ORel.bind_same _ fun a => ?_
      split
      · exact ih h
      · exact ORel.bind (visit_rel hc hz hd _ _ h) fun s s' hs => ih hs

/-- Related arrays of edges. -/
def ERel (R : W → W' → Prop) (x : List W × List Nat × List Nat) (y : List W' × List Nat × List Nat) : Prop := LRel R x.1 y.1 ∧ x.2 = y.2

include hc in
theorem grow_rel {zero dmax : W} {zero' dmax' : W'} (hz : R zero zero') (hm : R dmax dmax') {d : Distance W} {d' : Distance W'} (hd : DRel R d d') (size : Nat) : ∀ (k num cur : Nat) (att : List Bool)
    {dist : List W} {dist' : List W'} (nb ot : List Nat), LRel R dist dist' → ORel (ERel R) (Mst.grow zero dmax d size k num cur att dist nb ot) (Mst.grow zero' dmax' d' size k num cur att dist' nb ot) := by
  intro k
  induction k with
  | zero => intro num cur att dist dist' nb ot h; exact .ok ⟨h, rfl⟩
  | succ k ih =>
    intro num cur att dist dist' nb ot h
    unfold Mst.grow
    refine ORel.bind (scan_rel hc hz hd att cur _ (s := ⟨dist, nb, dmax, none⟩) (s' := ⟨dist', nb, dmax', none⟩) ⟨h, rfl, hm, rfl⟩) fun s s' hs => ?_
    rw [hs.np, hs.nb]
    refine ORel.bind_same _ ?_
    rintro ⟨att', p⟩
    refine ORel.bind_same _ fun ot' => ?_
    exact ih _ _ _ _ _ hs.dist

omit [CCmp W] [CCmp W'] in
theorem selfLoop_rel {d : Distance W} {d' : Distance W'} (hd : DRel R d d') (start : Nat) : ∀ (k v : Nat) {dist : List W} {dist' : List W'} (nb ot : List Nat), LRel R dist dist' →
    ORel (ERel R) (Mst.selfLoop d start k v dist nb ot) (Mst.selfLoop d' start k v dist' nb ot) := by
  intro k
  induction k with
  | zero => intro v dist dist' nb ot h; exact .ok ⟨h, rfl⟩
  | succ k ih =>
    intro v dist dist' nb ot h
    unfold Mst.selfLoop
    refine ORel.bind_same _ fun nb' => ?_
    refine ORel.bind_same _ fun ot' => ?_
    refine ORel.bind (rdInit_rel hd.cores _) fun x x' hx => ?_
    exact ORel.bind (wr_rel h _ hx) fun a a' ha => ih _ _ _ ha

/-- Related graphs. -/
structure GRel (R : W → W' → Prop) (g : Graph W) (g' : Graph W') : Prop where
  num : g.numVertices = g'.numVertices
  va : g.va = g'.va
  vb : g.vb = g'.vb
  edges : g.edges = g'.edges
  wt : LRel R g.wt g'.wt

include hc in
theorem construct_rel {zero dmax : W} {zero' dmax' : W'} (hz : R zero zero') (hm : R dmax dmax') (self : Bool) {d : Distance W} {d' : Distance W'} (hd : DRel R d d') (size : Nat) :
    ORel (GRel R) (Mst.construct zero dmax self d size) (Mst.construct zero' dmax' self d' size) := by
  unfold Mst.construct
  refine ORel.bind (grow_rel hc hz hm hd _ _ _ _ _ _ _ (LRel.replicate _ hm)) ?_
  rintro ⟨x, y⟩ ⟨x', _⟩ ⟨h, rfl⟩
  refine ORel.bind (P := ERel R) ?_ ?_
  · unfold Mst.addSelf
    split
    · exact selfLoop_rel hd _ _ _ _ _ h
    · exact .ok ⟨h, rfl⟩
  · rintro ⟨x, y⟩ ⟨x', _⟩ ⟨h, rfl⟩
    unfold Graph.init
    exact ORel.bind_same _ fun e => .ok ⟨rfl, rfl, rfl, rfl, h⟩

/-! ### Sorting the edges -/

omit [CCmp W] [CCmp W'] in
theorem swap_rel {g : Graph W} {g' : Graph W'} (h : GRel R g g') (i j : Nat) : ORel (GRel R) (g.swapEdges i j) (g'.swapEdges i j) := by
  unfold Graph.swapEdges
  split
  · rw [h.va, h.vb]
    refine ORel.bind_same _ fun ta => ?_
    refine ORel.bind_same _ fun tb => ?_
    refine ORel.bind (rd_rel h.wt _) fun tw tw' htw => ?_
    refine ORel.bind_same _ fun aj => ?_
    refine ORel.bind_same _ fun va1 => ?_
    refine ORel.bind_same _ fun bj => ?_
    refine ORel.bind_same _ fun vb1 => ?_
    refine ORel.bind (rd_rel h.wt _) fun wj wj' hwj => ?_
    refine ORel.bind (wr_rel h.wt _ hwj) fun w1 w1' hw1 => ?_
    refine ORel.bind_same _ fun va2 => ?_
    refine ORel.bind_same _ fun vb2 => ?_
    refine ORel.bind (wr_rel hw1 _ htw) fun w2 w2' hw2 => ?_
    exact .ok ⟨h.num, rfl, rfl, h.edges, hw2⟩
  · exact .ok h

include hc in
theorem pivot_rel {g : Graph W} {g' : Graph W'} (h : GRel R g g') (s e : Nat) : ORel Eq (g.selectPivot s e) (g'.selectPivot s e) := by
  unfold Graph.selectPivot
  split
  · exact .ok rfl
  · refine ORel.bind (rd_rel h.wt _) fun a a' ha => ?_
    refine ORel.bind (rd_rel h.wt _) fun b b' hb => ?_
    refine ORel.bind (rd_rel h.wt _) fun c c' hcc => ?_
    rw [hc.le ha hb, hc.le hb hcc, hc.le ha hcc]
    repeat' split
    all_goals exact .ok rfl

include hc in
theorem partLoop_rel {pv : W} {pv' : W'} (hp : R pv pv') : ∀ (k i low : Nat) {g : Graph W} {g' : Graph W'}, GRel R g g' →
    ORel (fun x y => GRel R x.1 y.1 ∧ x.2 = y.2) (Graph.partLoop pv k i low g) (Graph.partLoop pv' k i low g') := by
  intro k
  induction k with
  | zero => intro i low g g' h; exact .ok ⟨h, rfl⟩
  | succ k ih =>
    intro i low g g' h
    unfold Graph.partLoop
    refine ORel.bind (rd_rel h.wt _) fun a a' ha => ?_
    rw [hc.lt ha hp]
    split
    · exact ORel.bind (swap_rel h _ _) fun g g' hg => ih _ _ hg
    · exact ih _ _ h

include hc in
theorem partition_rel {g : Graph W} {g' : Graph W'} (h : GRel R g g') (s e p : Nat) : ORel (fun x y => GRel R x.1 y.1 ∧ x.2 = y.2) (g.partition s e p) (g'.partition s e p) := by
  unfold Graph.partition
  refine ORel.bind (rd_rel h.wt _) fun a a' ha => ?_
  refine ORel.bind (swap_rel h _ _) fun g1 g1' h1 => ?_
  refine ORel.bind (partLoop_rel hc ha _ _ _ h1) ?_
  rintro ⟨g2, low⟩ ⟨g2', _⟩ ⟨h2, rfl⟩
  exact ORel.bind (swap_rel h2 _ _) fun g3 g3' h3 => .ok ⟨h3, rfl⟩

include hc in
theorem sortLoop_rel (cap : Nat) : ∀ (fuel : Nat) (st : List (Nat × Nat)) {g : Graph W} {g' : Graph W'}, GRel R g g' → ORel (GRel R) (Graph.sortLoop cap fuel st g) (Graph.sortLoop cap fuel st g') := by
  intro fuel
  induction fuel with
  | zero =>
    intro st g g' h
    cases st with
    | nil => exact .ok h
    | cons => exact .diverge
  | succ fuel ih =>
    intro st g g' h
    cases st with
    | nil => exact .ok h
    | cons p st =>
      obtain ⟨s, e⟩ := p
      unfold Graph.sortLoop
      refine ORel.bind (pivot_rel hc h _ _) ?_
      rintro p _ rfl
      refine ORel.bind (partition_rel hc h _ _ _) ?_
      rintro ⟨g2, p⟩ ⟨g2', _⟩ ⟨h2, rfl⟩
      refine ORel.bind_same _ fun st1 => ?_
      exact ORel.bind_same _ fun st2 => ih _ h2

include hc in
theorem sort_rel {g : Graph W} {g' : Graph W'} (h : GRel R g g') : ORel (GRel R) g.sortByWeight g'.sortByWeight := by
  unfold Graph.sortByWeight
  simp only [LRel.length h.wt]
  split
  · exact .ok h
  · exact ORel.bind_same _ fun st => sortLoop_rel hc _ _ _ h

end

/-! ### The hierarchy -/

/-- Related clusters: `R` for levels, `R1` for the lowest death level, which may be `D_MAX`, `Q` for stabilities. -/
structure ClRel (R R1 : W → W' → Prop) (Q : S → S' → Prop) (c : Cl W S) (c' : Cl W' S') : Prop where
  label : c.label = c'.label
  birth : OptRel R c.birth c'.birth
  death : R c.death c'.death
  numPoints : c.numPoints = c'.numPoints
  offset : c.offset = c'.offset
  stability : Q c.stability c'.stability
  propStability : Q c.propStability c'.propStability
  propLowest : R1 c.propLowest c'.propLowest
  ncs : c.ncs = c'.ncs
  pncs : c.pncs = c'.pncs
  vchild : c.vchild = c'.vchild
  parent : c.parent = c'.parent
  desc : c.desc = c'.desc
  hasChildren : c.hasChildren = c'.hasChildren

/-- Related arithmetic. -/
structure ArRel (R R1 : W → W' → Prop) (Q : S → S' → Prop) (ar : Arith W S) (ar' : Arith W' S') : Prop where
  zeroW : R ar.zeroW ar'.zeroW
  dmax : R1 ar.dmax ar'.dmax
  zeroS : Q ar.zeroS ar'.zeroS
  grow : ∀ (k : Nat) {a a'} {w w'} {b : Option W} {b' : Option W'}, Q a a' → R w w' → OptRel R b b' → Q (ar.add a (ar.term k w b)) (ar'.add a' (ar'.term k w' b'))

/-- Related states of the construction. -/
structure WkRel (R R1 : W → W' → Prop) (Q : S → S' → Prop) (k : Hier.Work W S) (k' : Hier.Work W' S') : Prop where
  cur : k.cur = k'.cur
  clusters : LRel (OptRel (ClRel R R1 Q)) k.clusters k'.clusters
  next : k.next = k'.next
  fresh : k.fresh = k'.fresh
  noise : LRel (OptRel R) k.noise k'.noise
  last : k.last = k'.last

section
variable {R R1 : W → W' → Prop} {Q : S → S' → Prop} {ar : Arith W S} {ar' : Arith W' S'} (ha : ArRel R R1 Q ar ar')

include ha in
theorem init_rel (label : Nat) (parent : Option Nat) {birth : Option W} {birth' : Option W'} (hb : OptRel R birth birth') (n : Nat) :
    ClRel R R1 Q (Cl.init ar label parent birth n) (Cl.init ar' label parent birth' n) :=
  ⟨rfl, hb, ha.zeroW, rfl, rfl, ha.zeroS, ha.zeroS, ha.dmax, rfl, rfl, rfl, rfl, rfl, rfl⟩

include ha in
theorem detach_rel {c : Cl W S} {c' : Cl W' S'} (h : ClRel R R1 Q c c') (n : Nat) {w : W} {w' : W'} (hw : R w w') : ClRel R R1 Q (c.detach ar n w).1 (c'.detach ar' n w').1 := by
  unfold Cl.detach Cl.detachTo
  rw [h.numPoints]
  have hs := ha.grow n h.stability hw h.birth
  simp only
  split
  · exact { h with numPoints := rfl, stability := hs, death := hw }
  · split
    · exact { h with numPoints := rfl, stability := hs }
    · exact { h with numPoints := rfl, stability := hs }

theorem setAll_rel {P : α → β → Prop} {x : α} {y : β} (hx : P x y) : ∀ (l : List Nat) {a : List α} {b : List β}, LRel P a b → ORel (LRel P) (Hier.setAll x l a) (Hier.setAll y l b) := by
  intro l
  induction l with
  | nil => intro a b h; exact .ok h
  | cons p r ih =>
    intro a b h
    unfold Hier.setAll
    exact ORel.bind (wr_rel h _ hx) fun a b h => ih h

include ha in
theorem newCluster_rel (points : List Nat) (parent : Nat) {w : W} {w' : W'} (hw : R w w') {k : Hier.Work W S} {k' : Hier.Work W' S'} (h : WkRel R R1 Q k k') :
    ORel (WkRel R R1 Q) (Hier.newCluster ar points parent w k) (Hier.newCluster ar' points parent w' k') := by
  unfold Hier.newCluster
  rw [h.cur, h.next, h.fresh]
  refine ORel.bind_same _ fun cur => ?_
  refine ORel.bind (getCl_rel h.clusters _) fun c c' hc => ?_
  have h1 := detach_rel ha hc points.length hw
  refine ORel.bind (wr_rel h.clusters parent (x := some { (c.detach ar points.length w).1 with hasChildren := true }) (y := some { (c'.detach ar' points.length w').1 with hasChildren := true })
    { h1 with hasChildren := rfl }) fun cs cs' hcs => ?_
  exact .ok ⟨rfl, hcs.append (.cons (init_rel ha _ _ (birth := some w) (birth' := some w') hw _) .nil), rfl, rfl, h.noise, h.last⟩

include ha in
theorem newNoise_rel (points : List Nat) (parent : Nat) {w : W} {w' : W'} (hw : R w w') {k : Hier.Work W S} {k' : Hier.Work W' S'} (h : WkRel R R1 Q k k') :
    ORel (WkRel R R1 Q) (Hier.newNoise ar points parent w k) (Hier.newNoise ar' points parent w' k') := by
  unfold Hier.newNoise
  rw [h.cur, h.last]
  refine ORel.bind_same _ fun cur => ?_
  refine ORel.bind (getCl_rel h.clusters _) fun c c' hc => ?_
  have h1 := detach_rel ha hc points.length hw
  refine ORel.bind (wr_rel h.clusters parent (x := some ((c.detach ar points.length w).1.addVirtual points)) (y := some ((c'.detach ar' points.length w').1.addVirtual points))
    (by unfold Cl.addVirtual; exact { h1 with vchild := by rw [h1.vchild] })) fun cs cs' hcs => ?_
  refine ORel.bind (setAll_rel (P := OptRel R) (x := some w) (y := some w') hw _ h.noise) fun n n' hn => ?_
  exact ORel.bind_same _ fun l => .ok ⟨rfl, hcs, h.next, h.fresh, hn, rfl⟩

/-- Equal first components, related second ones. -/
def PRel (P : β → γ → Prop) (x : α × β) (y : α × γ) : Prop := x.1 = y.1 ∧ P x.2 y.2

include ha in
theorem settle_rel (m label : Nat) {w : W} {w' : W'} (hw : R w w') (e : Hier.Ex) {k : Hier.Work W S} {k' : Hier.Work W' S'} (h : WkRel R R1 Q k k') :
    ORel (PRel (WkRel R R1 Q)) (Hier.settle ar m label w e k) (Hier.settle ar' m label w' e k') := by
  unfold Hier.settle
  split
  · cases e.first.getLast? with
    | none => exact .ub _
    | some x =>
      simp only
      split
      · exact .ok ⟨rfl, h⟩
      · exact ORel.bind (newCluster_rel ha _ _ hw h) fun a b hab => .ok ⟨rfl, hab⟩
  · split
    · exact ORel.bind (newNoise_rel ha _ _ hw h) fun a b hab => .ok ⟨rfl, hab⟩
    · exact .ok ⟨rfl, h⟩

include ha in
theorem roots_rel (adj : List (List Nat)) (m label : Nat) {w : W} {w' : W'} (hw : R w w') : ∀ (fuel : Nat) (e : Hier.Ex) {k : Hier.Work W S} {k' : Hier.Work W' S'}, WkRel R R1 Q k k' →
    ORel (PRel (WkRel R R1 Q)) (Hier.roots ar adj m label w fuel e k) (Hier.roots ar' adj m label w' fuel e k') := by
  intro fuel
  induction fuel with
  | zero =>
    intro e k k' h
    unfold Hier.roots
    split
    · exact .ok ⟨rfl, h⟩
    · exact .diverge
  | succ fuel ih =>
    intro e k k' h
    unfold Hier.roots
    cases e.examined.getLast? with
    | none => exact .ok ⟨rfl, h⟩
    | some root =>
      refine ORel.bind_same _ fun e1 => ?_
      refine ORel.bind (settle_rel ha _ _ hw e1 h) ?_
      rintro ⟨e2, k⟩ ⟨_, k'⟩ ⟨rfl, hk⟩
      exact ih _ hk

include ha in
theorem finish_rel (adj : List (List Nat)) (label : Nat) {w : W} {w' : W'} (hw : R w w') (e : Hier.Ex) {k : Hier.Work W S} {k' : Hier.Work W' S'} (h : WkRel R R1 Q k k') :
    ORel (WkRel R R1 Q) (Hier.finish ar adj label w e k) (Hier.finish ar' adj label w' e k') := by
  unfold Hier.finish
  split
  · refine ORel.bind_same _ fun dd => ?_
    rw [h.cur]
    refine ORel.bind_same _ fun l => ?_
    split
    · exact ORel.bind_same _ fun f => newCluster_rel ha _ _ hw h
    · exact .ok h
  · exact .ok h

include ha in
theorem clustersLoop_rel (adj : List (List Nat)) (m : Nat) {w : W} {w' : W'} (hw : R w w') : ∀ (fuel : Nat) (affL affV : List Nat) {k : Hier.Work W S} {k' : Hier.Work W' S'}, WkRel R R1 Q k k' →
    ORel (PRel (WkRel R R1 Q)) (Hier.clustersLoop ar adj m w fuel affL affV k) (Hier.clustersLoop ar' adj m w' fuel affL affV k') := by
  intro fuel
  induction fuel with
  | zero =>
    intro affL affV k k' h
    unfold Hier.clustersLoop
    split
    · exact .ok ⟨rfl, h⟩
    · exact .diverge
  | succ fuel ih =>
    intro affL affV k k' h
    unfold Hier.clustersLoop
    cases affL.getLast? with
    | none => exact .ok ⟨rfl, h⟩
    | some label =>
      simp only
      rw [h.cur]
      refine ORel.bind_same _ ?_
      rintro ⟨ex, affV'⟩
      refine ORel.bind (roots_rel ha adj m label hw _ _ h) ?_
      rintro ⟨e2, k⟩ ⟨_, k'⟩ ⟨rfl, hk⟩
      exact ORel.bind (finish_rel ha adj label hw _ hk) fun k k' hk => ih _ _ hk

theorem setOffsets_rel (lc : Nat) : ∀ (l : List Nat) {cs : List (Option (Cl W S))} {cs' : List (Option (Cl W' S'))}, LRel (OptRel (ClRel R R1 Q)) cs cs' →
    ORel (LRel (OptRel (ClRel R R1 Q))) (Hier.setOffsets lc l cs) (Hier.setOffsets lc l cs') := by
  intro l
  induction l with
  | nil => intro cs cs' h; exact .ok h
  | cons x r ih =>
    intro cs cs' h
    unfold Hier.setOffsets
    refine ORel.bind (getCl_rel h _) fun c c' hc => ?_
    exact ORel.bind (wr_rel h _ (x := some { c with offset := lc }) (y := some { c' with offset := lc }) { hc with offset := rfl }) fun cs cs' h => ih h

/-- Related lines of the hierarchy. -/
def LineRel (R : W → W' → Prop) (x : Nat × W × List Nat) (y : Nat × W' × List Nat) : Prop := x.1 = y.1 ∧ R x.2.1 y.2.1 ∧ x.2.2 = y.2.2

/-- Related states of the main loop. -/
structure StRel (R R1 : W → W' → Prop) (Q : S → S' → Prop) (s : Hier.St W S) (s' : Hier.St W' S') : Prop where
  adj : s.adj = s'.adj
  wk : WkRel R R1 Q s.wk s'.wk
  prev : s.prev = s'.prev
  lines : LRel (LineRel R) s.lines s'.lines
  lineCount : s.lineCount = s'.lineCount
  significant : s.significant = s'.significant
  affV : s.affV = s'.affV

theorem endLevel_rel (compact : Bool) {w : W} {w' : W'} (hw : R w w') {s : Hier.St W S} {s' : Hier.St W' S'} (h : StRel R R1 Q s s') :
    ORel (StRel R R1 Q) (Hier.endLevel compact w s) (Hier.endLevel compact w' s') := by
  unfold Hier.endLevel
  rw [h.significant, h.wk.fresh, h.lineCount, h.prev, h.wk.cur]
  refine ORel.bind (setOffsets_rel _ _ h.wk.clusters) fun cs cs' hcs => ?_
  refine .ok ⟨h.adj, ⟨h.wk.cur, hcs, h.wk.next, rfl, h.wk.noise, h.wk.last⟩, rfl, ?_, rfl, rfl, h.affV⟩
  simp only
  split
  · exact h.lines.append (.cons ⟨rfl, hw, rfl⟩ .nil)
  · exact h.lines

variable [CCmp W] [CCmp W'] (hc : Alike R1) (hR : ∀ {a b}, R a b → R1 a b)

include hc hR in
theorem removeTied_rel (va vb : List Nat) {wt : List W} {wt' : List W'} (hwt : LRel R wt wt') (cur : List Nat) {w : W} {w' : W'} (hw : R w w') : ∀ (k : Nat) (r : Hier.Removal),
    ORel Eq (Hier.removeTied va vb wt cur w k r) (Hier.removeTied va vb wt' cur w' k r) := by
  intro k
  induction k with
  | zero => intro r; exact .ok rfl
  | succ k ih =>
    intro r
    unfold Hier.removeTied
    refine ORel.bind (rd_rel hwt _) fun t t' ht => ?_
    rw [hc.eq (hR ht) (hR hw)]
    split
    · exact ORel.bind_same _ fun r => ih r
    · exact .ok rfl

include ha hc hR in
theorem level_rel (m : Nat) (compact : Bool) (va vb : List Nat) {wt : List W} {wt' : List W'} (hwt : LRel R wt wt') (k : Nat) {s : Hier.St W S} {s' : Hier.St W' S'} (h : StRel R R1 Q s s') :
    ORel (PRel (StRel R R1 Q)) (Hier.level ar m compact va vb wt k s) (Hier.level ar' m compact va vb wt' k s') := by
  unfold Hier.level
  refine ORel.bind (rd_rel hwt _) fun w w' hw => ?_
  rw [h.wk.cur, h.adj, h.affV]
  refine ORel.bind (removeTied_rel hc hR va vb hwt _ hw _ _) ?_
  rintro r _ rfl
  split
  · exact .ok ⟨rfl, ⟨rfl, ⟨h.wk.cur, h.wk.clusters, h.wk.next, rfl, h.wk.noise, h.wk.last⟩, h.prev, h.lines, h.lineCount, h.significant, rfl⟩⟩
  · refine ORel.bind (clustersLoop_rel ha _ m hw _ _ _ (k := { s.wk with fresh := [] }) (k' := { s'.wk with fresh := [] })
      ⟨h.wk.cur, h.wk.clusters, h.wk.next, rfl, h.wk.noise, h.wk.last⟩) ?_
    rintro ⟨affV, k⟩ ⟨_, k'⟩ ⟨rfl, hk⟩
    exact ORel.bind (endLevel_rel compact hw (s := { s with adj := r.adj, wk := k, affV := affV }) (s' := { s' with adj := r.adj, wk := k', affV := affV })
      ⟨rfl, hk, h.prev, h.lines, h.lineCount, h.significant, rfl⟩) fun s s' hs => .ok ⟨rfl, hs⟩

include ha hc hR in
theorem mainLoop_rel (m : Nat) (compact : Bool) (va vb : List Nat) {wt : List W} {wt' : List W'} (hwt : LRel R wt wt') : ∀ (fuel k : Nat) {s : Hier.St W S} {s' : Hier.St W' S'}, StRel R R1 Q s s' →
    ORel (StRel R R1 Q) (Hier.mainLoop ar m compact va vb wt fuel k s) (Hier.mainLoop ar' m compact va vb wt' fuel k s') := by
  intro fuel
  induction fuel with
  | zero =>
    intro k s s' h
    cases k with
    | zero => exact .ok h
    | succ k => exact .diverge
  | succ fuel ih =>
    intro k s s' h
    cases k with
    | zero => exact .ok h
    | succ k =>
      unfold Hier.mainLoop
      refine ORel.bind (level_rel ha hc hR m compact va vb hwt k h) ?_
      rintro ⟨k1, s⟩ ⟨_, s'⟩ ⟨rfl, hs⟩
      exact ih _ hs

/-- Related results of the construction. -/
structure ResRel (R R1 : W → W' → Prop) (Q : S → S' → Prop) (r : Hier.Result W S) (r' : Hier.Result W' S') : Prop where
  adj : r.adj = r'.adj
  clusters : LRel (OptRel (ClRel R R1 Q)) r.clusters r'.clusters
  hierarchy : LRel (LineRel R) r.hierarchy r'.hierarchy
  noise : LRel (OptRel R) r.noise r'.noise
  last : r.last = r'.last
  cur : r.cur = r'.cur

include ha hc hR in
theorem compute_rel (m : Nat) (compact : Bool) {g : Graph W} {g' : Graph W'} (h : GRel R g g') : ORel (ResRel R R1 Q) (Hier.compute ar m compact g) (Hier.compute ar' m compact g') := by
  unfold Hier.compute
  rw [h.wt.length, h.va, h.vb]
  refine ORel.bind (mainLoop_rel ha hc hR m compact _ _ h.wt _ _ (s := Hier.initial ar g) (s' := Hier.initial ar' g') ?_) ?_
  · unfold Hier.initial
    rw [h.num]
    exact ⟨h.edges, ⟨rfl, .cons trivial (.cons (init_rel ha _ _ (birth := none) (birth' := none) trivial _) .nil), rfl, rfl, LRel.replicate _ trivial, rfl⟩, rfl, .nil, rfl, rfl, rfl⟩
  · intro s s' hs
    rw [h.num]
    exact .ok ⟨hs.adj, hs.wk.clusters, hs.lines.append (.cons ⟨rfl, ha.zeroW, rfl⟩ .nil), hs.wk.noise, hs.wk.last, hs.wk.cur⟩

/-! ### Propagation and labels -/

section
variable [CCmp S] [CCmp S'] (hadd : ∀ {a a' b b'}, Q a a' → Q b b' → Q (ar.add a b) (ar'.add a' b')) (hq : ∀ {a a' b b'}, Q a a' → Q b b' → CCmp.le a b = CCmp.le a' b')

omit [CCmp S] [CCmp S'] in
include ha hc hR in
theorem ownLowest_rel {c : Cl W S} {c' : Cl W' S'} (h : ClRel R R1 Q c c') : ClRel R R1 Q (c.ownLowest ar) (c'.ownLowest ar') := by
  unfold Cl.ownLowest
  refine { h with propLowest := ?_ }
  simp only
  rw [hc.eq h.propLowest ha.dmax]
  split
  · exact hR h.death
  · exact h.propLowest

omit [CCmp S] [CCmp S'] in
include hc in
theorem passLowest_rel {c p : Cl W S} {c' p' : Cl W' S'} (h : ClRel R R1 Q c c') (h' : ClRel R R1 Q p p') : ClRel R R1 Q (Cl.passLowest c p) (Cl.passLowest c' p') := by
  unfold Cl.passLowest
  refine { h' with propLowest := ?_ }
  simp only
  rw [hc.lt h.propLowest h'.propLowest]
  split
  · exact h.propLowest
  · exact h'.propLowest

omit [CCmp W] [CCmp W'] in
include hadd hq in
theorem choose_rel {c p : Cl W S} {c' p' : Cl W' S'} (h : ClRel R R1 Q c c') (h' : ClRel R R1 Q p p') : ClRel R R1 Q (Cl.choose ar c p) (Cl.choose ar' c' p') := by
  have h1 : ClRel R R1 Q (Cl.passSelf ar c p) (Cl.passSelf ar' c' p') := by
    unfold Cl.passSelf
    exact { h' with pncs := by simp only; rw [h.ncs, h'.pncs], propStability := hadd h'.propStability h.stability, desc := by simp only; rw [h.label, h'.desc] }
  have h2 : ClRel R R1 Q (Cl.passDesc ar c p) (Cl.passDesc ar' c' p') := by
    unfold Cl.passDesc
    exact { h' with pncs := by simp only; rw [h.pncs, h'.pncs], propStability := hadd h'.propStability h.propStability, desc := by simp only; rw [h.desc, h'.desc] }
  unfold Cl.choose
  rw [h.hasChildren, h.ncs, h.pncs, hq h.propStability h.stability]
  repeat' split
  all_goals assumption

include ha hc hR hadd hq in
theorem propagate_rel {cs : List (Option (Cl W S))} {cs' : List (Option (Cl W' S'))} (h : LRel (OptRel (ClRel R R1 Q)) cs cs') (x : Nat) :
    ORel (LRel (OptRel (ClRel R R1 Q))) (Sel.propagate ar cs x) (Sel.propagate ar' cs' x) := by
  unfold Sel.propagate
  refine ORel.bind (getCl_rel h _) fun c c' hcc => ?_
  rw [hcc.parent]
  cases c'.parent with
  | none => exact .ok h
  | some q =>
    have h1 := ownLowest_rel ha hc hR hcc
    refine ORel.bind (wr_rel h _ (x := some (c.ownLowest ar)) (y := some (c'.ownLowest ar')) h1) fun cs cs' hcs => ?_
    refine ORel.bind (getCl_rel hcs _) fun p p' hp => ?_
    exact wr_rel hcs _ (x := some _) (y := some _) (choose_rel hadd hq h1 (passLowest_rel hc h1 hp))

omit [CCmp W] [CCmp W'] [CCmp S] [CCmp S'] in
theorem leaves_rel {cs : List (Option (Cl W S))} {cs' : List (Option (Cl W' S'))} (h : LRel (OptRel (ClRel R R1 Q)) cs cs') : ∀ (order : List Nat) (s : List Nat × List Bool),
    ORel Eq (Sel.leaves cs order s) (Sel.leaves cs' order s) := by
  intro order
  induction order with
  | nil => intro s; exact .ok rfl
  | cons i r ih =>
    rintro ⟨ex, added⟩
    unfold Sel.leaves
    refine ORel.bind (rd_rel h i) fun x y hxy => ?_
    cases x <;> cases y
    · exact ih _
    · exact hxy.elim
    · exact hxy.elim
    · rename_i c c'
      have hcc : ClRel R R1 Q c c' := hxy
      simp only
      rw [hcc.hasChildren, hcc.label]
      split
      · exact ORel.bind_same _ fun a => ih _
      · exact ih _

omit [CCmp W] [CCmp W'] [CCmp S] [CCmp S'] in
theorem queueParent_rel {cs : List (Option (Cl W S))} {cs' : List (Option (Cl W' S'))} (h : LRel (OptRel (ClRel R R1 Q)) cs cs') (parent : Option Nat) (ex : List Nat) (added : List Bool) :
    ORel Eq (Sel.queueParent cs parent ex added) (Sel.queueParent cs' parent ex added) := by
  unfold Sel.queueParent
  cases parent with
  | none => exact .ok rfl
  | some q =>
    refine ORel.bind (getCl_rel h _) fun c c' hcc => ?_
    rw [hcc.label]
    exact ORel.same _

/-- Related states of the examination loop; whether an infinite stability was seen is left out. -/
structure ExRel (R R1 : W → W' → Prop) (Q : S → S' → Prop) (s : Sel.St W S) (s' : Sel.St W' S') : Prop where
  clusters : LRel (OptRel (ClRel R R1 Q)) s.clusters s'.clusters
  ex : s.ex = s'.ex
  added : s.added = s'.added
  trace : s.trace = s'.trace

include ha hc hR hadd hq in
theorem examine_rel (smax : S) (smax' : S') : ∀ (fuel : Nat) {s : Sel.St W S} {s' : Sel.St W' S'}, ExRel R R1 Q s s' → ORel (ExRel R R1 Q) (Sel.examine ar smax fuel s) (Sel.examine ar' smax' fuel s') := by
  intro fuel
  induction fuel with
  | zero =>
    intro s s' h
    unfold Sel.examine
    rw [h.ex]
    split
    · exact .ok h
    · exact .diverge
  | succ fuel ih =>
    intro s s' h
    unfold Sel.examine
    rw [h.ex]
    cases s'.ex.getLast? with
    | none => exact .ok h
    | some x =>
      refine ORel.bind (propagate_rel ha hc hR hadd hq h.clusters x) fun cs cs' hcs => ?_
      refine ORel.bind (getCl_rel hcs _) fun c c' hcc => ?_
      rw [hcc.parent, h.added]
      refine ORel.bind (queueParent_rel hcs _ _ _) ?_
      rintro ⟨ex, added⟩ _ rfl
      exact ih ⟨hcs, rfl, rfl, by rw [h.trace]⟩

include ha hc hR hadd hq in
theorem propagateTree_rel (smax : S) (smax' : S') (order : List Nat) {cs : List (Option (Cl W S))} {cs' : List (Option (Cl W' S'))} (h : LRel (OptRel (ClRel R R1 Q)) cs cs') :
    ORel (ExRel R R1 Q) (Sel.propagateTree ar smax order cs) (Sel.propagateTree ar' smax' order cs') := by
  unfold Sel.propagateTree
  rw [h.length]
  refine ORel.bind (leaves_rel h _ _) ?_
  rintro ⟨ex, added⟩ _ rfl
  exact examine_rel ha hc hR hadd hq smax smax' _ ⟨h, rfl, rfl, rfl⟩

end

omit [CCmp W] [CCmp W'] in
theorem group_rel {cs : List (Option (Cl W S))} {cs' : List (Option (Cl W' S'))} (h : LRel (OptRel (ClRel R R1 Q)) cs cs') (sol : List Nat) : ∀ (order : List Nat) (m : List (Nat × List Nat)),
    ORel Eq (Sel.group cs sol order m) (Sel.group cs' sol order m) := by
  intro order
  induction order with
  | nil => intro m; exact .ok rfl
  | cons i r ih =>
    intro m
    unfold Sel.group
    refine ORel.bind_same _ fun l => ?_
    refine ORel.bind (getCl_rel h _) fun c c' hcc => ?_
    rw [hcc.offset, hcc.label]
    exact ih _

omit [CCmp W] [CCmp W'] in
theorem find_rel {lines : List (Nat × W × List Nat)} {lines' : List (Nat × W' × List Nat)} (h : LRel (LineRel R) lines lines') (k : Nat) :
    OptRel (LineRel R) (lines.find? fun e => e.1 = k) (lines'.find? fun e => e.1 = k) := by
  induction h with
  | nil => trivial
  | cons h _ ih =>
    rw [List.find?_cons, List.find?_cons, h.1]
    split
    · exact h
    · exact ih

omit [CCmp W] [CCmp W'] in
theorem labelAll_rel {lines : List (Nat × W × List Nat)} {lines' : List (Nat × W' × List Nat)} (h : LRel (LineRel R) lines lines') (m : List (Nat × List Nat)) : ∀ (steps : List (Nat × Nat)) (labels : List Nat),
    ORel Eq (Sel.labelAll lines m steps labels) (Sel.labelAll lines' m steps labels) := by
  intro steps
  induction steps with
  | nil => intro l; exact .ok rfl
  | cons p r ih =>
    obtain ⟨k, j⟩ := p
    intro l
    unfold Sel.labelAll
    refine ORel.bind (P := Eq) ?_ (fun a b e => e ▸ ih a)
    unfold Sel.labelStep
    cases m.find? (fun e => e.1 = k) with
    | none => exact .ub _
    | some e =>
      have hf := find_rel h (k + 1)
      cases h1 : lines.find? (fun e => e.1 = k + 1) <;> cases h2 : lines'.find? (fun e => e.1 = k + 1) <;> rw [h1, h2] at hf
      · exact .ub _
      · exact hf.elim
      · exact hf.elim
      · simp only
        rw [hf.2.2]
        exact ORel.same _

omit [CCmp W] [CCmp W'] in
theorem prominent_rel {cs : List (Option (Cl W S))} {cs' : List (Option (Cl W' S'))} (h : LRel (OptRel (ClRel R R1 Q)) cs cs') {lines : List (Nat × W × List Nat)} {lines' : List (Nat × W' × List Nat)}
    (hl : LRel (LineRel R) lines lines') (n : Nat) (order : Nat → List Nat) (sched : List (Nat × Nat) → List (Nat × Nat)) :
    ORel Eq (Sel.prominent cs lines n order sched) (Sel.prominent cs' lines' n order sched) := by
  unfold Sel.prominent
  refine ORel.bind (getCl_rel h _) fun c c' hcc => ?_
  rw [hcc.desc]
  refine ORel.bind (group_rel h _ _ _) ?_
  rintro m _ rfl
  exact labelAll_rel hl m _ _

/-- Related results of a run; whether an infinite stability was seen is left out. -/
structure OutRel (R R1 : W → W' → Prop) (Q : S → S' → Prop) (o : Run.Out W S) (o' : Run.Out W' S') : Prop where
  clusters : LRel (OptRel (ClRel R R1 Q)) o.clusters o'.clusters
  hierarchy : LRel (LineRel R) o.hierarchy o'.hierarchy
  noise : LRel (OptRel R) o.noise o'.noise
  last : o.last = o'.last
  labels : o.labels = o'.labels

include ha hc hR in
theorem fromTree_rel [CCmp S] [CCmp S'] (hadd : ∀ {a a' b b'}, Q a a' → Q b b' → Q (ar.add a b) (ar'.add a' b')) (hq : ∀ {a a' b b'}, Q a a' → Q b b' → CCmp.le a b = CCmp.le a' b') (smax : S) (smax' : S') (sch : Run.Schedule) (m : Nat) {g : Graph W} {g' : Graph W'} (h : GRel R g g') :
    ORel (OutRel R R1 Q) (Run.fromTree ar smax sch m g) (Run.fromTree ar' smax' sch m g') := by
  unfold Run.fromTree
  refine ORel.bind (compute_rel ha hc hR m false h) fun r r' hr => ?_
  rw [hr.clusters.length]
  refine ORel.bind (propagateTree_rel ha hc hR hadd hq smax smax' _ hr.clusters) fun s s' hs => ?_
  rw [h.num]
  refine ORel.bind (prominent_rel hs.clusters hr.hierarchy _ _ _) ?_
  rintro l _ rfl
  exact .ok ⟨hs.clusters, hr.hierarchy, hr.noise, hr.last, rfl⟩

end

end Verif.Param
