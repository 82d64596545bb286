import Verif.Lemmas.AnyRun
import Verif.Lemmas.Core
/-
Comparisons that are those of a linear order as long as one side is a value up to `dmax`, as the comparisons of IEEE arithmetic are when
NaN is put on top of the numbers. A run with such comparisons is a run with the linear order, because no other comparisons are made; and it
does not see the difference between distances from `dmax` on.
-/
namespace Verif.Cut
open Spec Relation
set_option linter.unusedSectionVars false
variable {D W S T : Type}

/-- Comparisons that agree with the linear order when one side is at most `dmax`. -/
structure Cmp [LinearOrder W] (dmax : W) where
  i : CCmp W
  lt : ∀ x y, y ≤ dmax → i.lt x y = decide (x < y)
  le : ∀ x y, y ≤ dmax → i.le x y = decide (x ≤ y)
  eq : ∀ x y, x ≤ dmax → i.eq x y = decide (x = y)

/-- Both are the same value or both are not below `dmax`. -/
def Same [LinearOrder W] (dmax x y : W) : Prop := x = y ∨ (dmax ≤ x ∧ dmax ≤ y)

theorem bind_congr {α β : Type} {o o' : Outcome α} {f g : α → Outcome β} (e : o = o') (h : ∀ x, o' = .ok x → f x = g x) : (o >>= f) = (o' >>= g) := by
  subst e
  cases o <;> first | rfl | exact h _ rfl

theorem rd_mem {α : Type} {a : List α} {k : Nat} {x : α} (h : rd a k = .ok x) : x ∈ a := by
  unfold rd at h
  split at h
  · rename_i y hy
    cases h
    exact List.mem_of_getElem? hy
  · cases h

theorem wr_mem {α : Type} {a a' : List α} {k : Nat} {x : α} (h : wr a k x = .ok a') : ∀ y ∈ a', y ∈ a ∨ y = x := by
  unfold wr at h
  split at h
  · cases h
    intro y hy
    exact List.mem_or_eq_of_mem_set hy
  · cases h

section
variable [LinearOrder W] {dmax : W} (c : Cmp dmax)
include c

/-! ### Core distances -/

theorem searchPos_eq {sd : List W} (hsd : ∀ x ∈ sd, x ≤ dmax) (t : W) : ∀ fuel low high,
    @Distance.searchPos W c.i sd t fuel low high = Distance.searchPos sd t fuel low high
  | 0, _, _ => rfl
  | fuel + 1, low, high => by
    unfold Distance.searchPos
    refine bind_congr rfl (fun x hx => ?_)
    have hx' := hsd x (rd_mem hx)
    rw [c.lt _ _ hx', c.eq _ _ hx', ccmp_lt, ccmp_eq]
    simp only [searchPos_eq hsd t fuel]

/-- A value above `dmax` is searched for at the right end. -/
theorem searchPos_big {sd : List W} (hsd : ∀ x ∈ sd, x ≤ dmax) {t : W} (ht : dmax < t) : ∀ fuel low high p,
    @Distance.searchPos W c.i sd t fuel low high = .ok p → low < high → p = high
  | 0, _, _, _, h, _ => by cases h
  | fuel + 1, low, high, p, h, hlh => by
    unfold Distance.searchPos at h
    obtain ⟨x, hx, h⟩ := Outcome.bind_eq_ok.1 h
    have hx' := hsd x (rd_mem hx)
    rw [c.lt _ _ hx', c.eq _ _ hx', decide_eq_false (not_lt.2 (hx'.trans ht.le)), decide_eq_false (ne_of_lt (lt_of_le_of_lt hx' ht))] at h
    simp only [Bool.false_eq_true, if_false] at h
    split at h
    · exact searchPos_big hsd ht fuel _ _ p h (by assumption)
    · cases h; omega

theorem offer_big {nn : Nat} {sd : List W} (hl : sd.length = nn + 1) (hsd : ∀ x ∈ sd, x ≤ dmax) {t : W} (ht : dmax ≤ t) :
    @Distance.offer W c.i nn sd t = .ok sd := by
  have hn : nn < sd.length := by omega
  have hlast := hsd _ (List.getElem_mem hn)
  unfold Distance.offer
  rw [rd_ok hn]
  simp only [Outcome.ok_bind, Outcome.pure_eq]
  split
  · rfl
  · rename_i hlt
    obtain ⟨p, e, _⟩ := @Distance.searchPos_safe W c.i sd t (nn + 2) 0 (nn + 1) (by omega) (by omega) (by omega)
    rw [e]
    simp only [Outcome.ok_bind]
    rcases lt_or_eq_of_le ht with h | h
    · rw [if_neg]
      have := searchPos_big c hsd h _ _ _ _ e (by omega)
      omega
    · subst h
      rw [c.lt _ _ (le_refl _)] at hlt
      have : sd[nn] = dmax := le_antisymm hlast (by simpa using hlt)
      rw [c.eq _ _ hlast, this]
      simp

theorem offer_eq {nn : Nat} {sd : List W} (hl : sd.length = nn + 1) (hsd : ∀ x ∈ sd, x ≤ dmax) {t t' : W} (ht : Same dmax t t') :
    @Distance.offer W c.i nn sd t = Distance.offer nn sd t' := by
  by_cases hb : dmax ≤ t'
  · have ht2 : dmax ≤ t := by
      rcases ht with rfl | ht
      · exact hb
      · exact ht.1
    rw [offer_big c hl hsd ht2]
    exact (offer_big ⟨inferInstance, fun _ _ _ => rfl, fun _ _ _ => rfl, fun _ _ _ => rfl⟩ hl hsd hb).symm
  · have : t = t' := ht.resolve_right (fun h => hb h.2)
    subst this
    unfold Distance.offer
    refine bind_congr rfl (fun x hx => ?_)
    have hx' := hsd x (rd_mem hx)
    rw [c.lt _ _ (not_le.1 hb).le, c.eq _ _ hx', ccmp_lt, ccmp_eq, searchPos_eq c hsd]

omit c in
theorem offer_le {nn : Nat} {sd sd' : List W} (hl : sd.length = nn + 1) (hsd : ∀ x ∈ sd, x ≤ dmax) {t : W} (h : Distance.offer nn sd t = .ok sd') :
    sd'.length = nn + 1 ∧ ∀ x ∈ sd', x ≤ dmax := by
  by_cases hb : dmax ≤ t
  · rw [offer_big ⟨inferInstance, fun _ _ _ => rfl, fun _ _ _ => rfl, fun _ _ _ => rfl⟩ hl hsd hb] at h
    cases h; exact ⟨hl, hsd⟩
  · obtain ⟨sd2, e, hl2, hm⟩ := Distance.offer_safe t hl
    rw [e] at h; cases h
    refine ⟨hl2, fun x hx => ?_⟩
    rcases hm x hx with h | h
    · rw [h]; exact (not_le.1 hb).le
    · exact hsd x h

theorem coreLoop_eq {zero : W} {dis dis' : Distance W} {a : Nat} {d d' : Nat → W} (hnn : dis.numNeighbors = dis'.numNeighbors) : ∀ (js : List Nat) (sd : List W),
    (∀ b ∈ js, dis.get zero a b = .ok (d b) ∧ dis'.get zero a b = .ok (d' b) ∧ Same dmax (d b) (d' b)) →
    sd.length = dis'.numNeighbors + 1 → (∀ x ∈ sd, x ≤ dmax) →
    @Distance.coreLoop W c.i zero dis a js sd = Distance.coreLoop zero dis' a js sd ∧
      ∀ sd', Distance.coreLoop zero dis' a js sd = .ok sd' → sd'.length = dis'.numNeighbors + 1 ∧ ∀ x ∈ sd', x ≤ dmax
  | [], sd, _, hl, hsd => ⟨rfl, fun sd' h => by cases h; exact ⟨hl, hsd⟩⟩
  | b :: js, sd, hd, hl, hsd => by
    obtain ⟨h1, h2, h3⟩ := hd b (by simp)
    have ih := fun sd1 hl1 hsd1 => coreLoop_eq hnn js sd1 (fun x hx => hd x (by simp [hx])) hl1 hsd1
    unfold Distance.coreLoop
    rw [h1, h2]
    simp only [Outcome.ok_bind]
    rw [hnn]
    constructor
    · exact bind_congr (offer_eq c hl hsd h3) (fun sd1 e1 => (ih sd1 (offer_le hl hsd e1).1 (offer_le hl hsd e1).2).1)
    · intro sd' h
      obtain ⟨sd1, e1, e2⟩ := Outcome.bind_eq_ok.1 h
      exact (ih sd1 (offer_le hl hsd e1).1 (offer_le hl hsd e1).2).2 sd' e2

theorem coreOf_eq {zero : W} {dis dis' : Distance W} {a : Nat} {d d' : Nat → W} (hnn : dis.numNeighbors = dis'.numNeighbors) (hr : dis.rows = dis'.rows)
    (hd : ∀ b, b < dis'.rows → dis.get zero a b = .ok (d b) ∧ dis'.get zero a b = .ok (d' b) ∧ Same dmax (d b) (d' b)) :
    @Distance.coreOf W c.i zero dmax dis a = Distance.coreOf zero dmax dis' a ∧ ∀ x, Distance.coreOf zero dmax dis' a = .ok x → x ≤ dmax := by
  obtain ⟨h1, h2⟩ := coreLoop_eq c hnn (List.range dis'.rows) (List.replicate (dis'.numNeighbors + 1) dmax) (fun b hb => hd b (List.mem_range.1 hb)) (by simp)
    (fun x hx => by rw [List.eq_of_mem_replicate hx])
  unfold Distance.coreOf
  rw [hr, hnn]
  constructor
  · exact bind_congr h1 (fun _ _ => rfl)
  · intro x h
    obtain ⟨sd, e1, e2⟩ := Outcome.bind_eq_ok.1 h
    exact (h2 sd e1).2 x (rd_mem e2)

theorem coreAll_eq {zero : W} {dis dis' : Distance W} {d d' : Nat → Nat → W} (hnn : dis.numNeighbors = dis'.numNeighbors) (hr : dis.rows = dis'.rows)
    (hd : ∀ a b, a < dis'.rows → b < dis'.rows → dis.get zero a b = .ok (d a b) ∧ dis'.get zero a b = .ok (d' a b) ∧ Same dmax (d a b) (d' a b)) :
    ∀ (order : List Nat), (∀ a ∈ order, a < dis'.rows) → ∀ cs : List (Option W),
      @Distance.coreAll W c.i zero dmax dis order cs = Distance.coreAll zero dmax dis' order cs
  | [], _, _ => rfl
  | a :: r, ho, cs => by
    unfold Distance.coreAll
    refine bind_congr (coreOf_eq c hnn hr (fun b hb => hd a b (ho a (by simp)) hb)).1 (fun x _ => ?_)
    refine bind_congr rfl (fun cs' _ => ?_)
    exact coreAll_eq hnn hr hd r (fun a ha => ho a (by simp [ha])) cs'

/-! ### The spanning tree -/

/-- Two distance objects with the same core distances, at most `dmax`, and distances that differ from `dmax` on only. -/
structure Pair (zero dmax : W) (dis dis' : Distance W) (n : Nat) (d d' : Nat → Nat → W) (core : Nat → W) : Prop where
  get : ∀ a b, a < n → b < n → a ≠ b → dis.get zero a b = .ok (d a b)
  get' : ∀ a b, a < n → b < n → a ≠ b → dis'.get zero a b = .ok (d' a b)
  same : ∀ a b, a < n → b < n → a ≠ b → Same dmax (d a b) (d' a b)
  cr : ∀ a, a < n → rdInit dis.coreDistances a = .ok (core a)
  cr' : ∀ a, a < n → rdInit dis'.coreDistances a = .ok (core a)
  le : ∀ a, a < n → core a ≤ dmax

variable {zero : W} {dis dis' : Distance W} {n : Nat} {d d' : Nat → Nat → W} {core : Nat → W}

theorem mrd_eq (h : Pair zero dmax dis dis' n d d' core) {v cur : Nat} (hv : v < n) (hc : cur < n) (hne : v ≠ cur) :
    ∃ m m', @Mst.mrd W c.i zero dis v cur = .ok m ∧ Mst.mrd zero dis' v cur = .ok m' ∧ Same dmax m m' := by
  have hcc := h.le cur hc
  have hcv := h.le v hv
  simp only [Mst.mrd, h.get v cur hv hc hne, h.get' v cur hv hc hne, h.cr cur hc, h.cr v hv, h.cr' cur hc, h.cr' v hv, Outcome.ok_bind, Outcome.pure_eq,
    c.lt _ _ hcc, c.lt _ _ hcv, ccmp_lt, decide_eq_true_eq]
  refine ⟨_, _, rfl, rfl, ?_⟩
  have hmax : ∀ x : W, (if (if x < core cur then core cur else x) < core v then core v else if x < core cur then core cur else x) = max (max x (core cur)) (core v) := by
    intro x; simp only [max_def_lt]
  rw [hmax, hmax]
  rcases h.same v cur hv hc hne with e | ⟨e1, e2⟩
  · rw [e]; exact .inl rfl
  · exact .inr ⟨e1.trans (by simp), e2.trans (by simp)⟩

/-- The values of the inner loop are at most `dmax`. -/
def Low (dmax : W) (s : Mst.Scan W) : Prop := (∀ x ∈ s.dist, x ≤ dmax) ∧ s.nd ≤ dmax

theorem relax_eq {s : Mst.Scan W} (hs : Low dmax s) {m m' : W} (hm : Same dmax m m') (v cur : Nat) :
    @Mst.relax W c.i m v cur s = Mst.relax m' v cur s ∧ ∀ s', Mst.relax m' v cur s = .ok s' → Low dmax s' := by
  constructor
  · unfold Mst.relax
    refine bind_congr rfl (fun x hx => ?_)
    have hx' := hs.1 x (rd_mem hx)
    rw [c.lt _ _ hx', ccmp_lt]
    rcases hm with e | ⟨e1, e2⟩
    · rw [e]
    · rw [decide_eq_false (not_lt.2 (hx'.trans e1)), decide_eq_false (not_lt.2 (hx'.trans e2))]
      rfl
  · intro s' h
    unfold Mst.relax at h
    obtain ⟨x, hx, h⟩ := Outcome.bind_eq_ok.1 h
    have hx' := hs.1 x (rd_mem hx)
    split at h
    · rename_i hlt
      obtain ⟨d1, e1, h⟩ := Outcome.bind_eq_ok.1 h
      obtain ⟨n1, e2, h⟩ := Outcome.bind_eq_ok.1 h
      cases h
      refine ⟨fun y hy => ?_, hs.2⟩
      rcases wr_mem e1 y hy with h | h
      · exact hs.1 y h
      · rw [h]; exact (le_of_lt (by simpa using hlt)).trans hx'
    · cases h; exact hs

theorem visit_eq (h : Pair zero dmax dis dis' n d d' core) {s : Mst.Scan W} (hs : Low dmax s) {v cur : Nat} (hv : v < n) (hc : cur < n) (hne : v ≠ cur) :
    @Mst.visit W c.i zero dis cur v s = Mst.visit zero dis' cur v s ∧ ∀ s', Mst.visit zero dis' cur v s = .ok s' → Low dmax s' := by
  obtain ⟨m, m', e1, e2, hm⟩ := mrd_eq c h hv hc hne
  obtain ⟨r1, r2⟩ := relax_eq c hs hm v cur
  unfold Mst.visit
  rw [e1, e2]
  simp only [Outcome.ok_bind]
  constructor
  · refine bind_congr r1 (fun s1 hs1 => ?_)
    refine bind_congr rfl (fun x hx => ?_)
    rw [c.le _ _ (r2 s1 hs1).2, ccmp_le]
  · intro s' h
    obtain ⟨s1, hs1, h⟩ := Outcome.bind_eq_ok.1 h
    obtain ⟨x, hx, h⟩ := Outcome.bind_eq_ok.1 h
    have := r2 s1 hs1
    split at h
    · cases h; exact ⟨this.1, this.1 x (rd_mem hx)⟩
    · cases h; exact this

theorem scan_eq (h : Pair zero dmax dis dis' n d d' core) (att : List Bool) {cur : Nat} (hc : cur < n) : ∀ (todo : List Nat), (∀ v ∈ todo, v < n) →
    ∀ s : Mst.Scan W, Low dmax s →
    @Mst.scan W c.i zero dis att cur todo s = Mst.scan zero dis' att cur todo s ∧ ∀ s', Mst.scan zero dis' att cur todo s = .ok s' → Low dmax s'
  | [], _, s, hs => ⟨rfl, fun s' h => by cases h; exact hs⟩
  | v :: r, hlt, s, hs => by
    have ih := scan_eq h att hc r (fun x hx => hlt x (by simp [hx]))
    unfold Mst.scan
    by_cases hne : cur = v
    · rw [if_pos hne, if_pos hne]; exact ih s hs
    · rw [if_neg hne, if_neg hne]
      obtain ⟨q1, q2⟩ := visit_eq c h hs (hlt v (by simp)) hc (Ne.symm hne)
      constructor
      · refine bind_congr rfl (fun x _ => ?_)
        cases x
        · simp only [Bool.false_eq_true, if_false]
          exact bind_congr q1 (fun s1 hs1 => (ih s1 (q2 s1 hs1)).1)
        · simp only [if_true]; exact (ih s hs).1
      · intro s' hh
        obtain ⟨x, _, hh⟩ := Outcome.bind_eq_ok.1 hh
        cases x
        · simp only [Bool.false_eq_true, if_false] at hh
          obtain ⟨s1, hs1, hh⟩ := Outcome.bind_eq_ok.1 hh
          exact (ih s1 (q2 s1 hs1)).2 s' hh
        · simp only [if_true] at hh; exact (ih s hs).2 s' hh

omit c in
theorem attach_lt {att att' : List Bool} {np : Option Nat} {p : Nat} (h : Mst.attach att np = .ok (att', p)) : p < att.length ∧ att'.length = att.length := by
  cases np with
  | none => cases h
  | some q =>
    unfold Mst.attach at h
    obtain ⟨a, e, h⟩ := Outcome.bind_eq_ok.1 h
    cases h
    unfold wr at e
    split at e
    · cases e; exact ⟨by assumption, by simp⟩
    · cases e

theorem grow_eq (h : Pair zero dmax dis dis' n d d' core) : ∀ (k t cur : Nat) (att : List Bool) (dist : List W) (nb ot : List Nat), cur < n → att.length = n →
    (∀ x ∈ dist, x ≤ dmax) →
    @Mst.grow W c.i zero dmax dis n k t cur att dist nb ot = Mst.grow zero dmax dis' n k t cur att dist nb ot
  | 0, _, _, _, _, _, _, _, _, _ => rfl
  | k + 1, t, cur, att, dist, nb, ot, hc, hal, hd => by
    unfold Mst.grow
    obtain ⟨q1, q2⟩ := scan_eq c h att hc (List.range n) (fun v hv => List.mem_range.1 hv) { dist := dist, nb := nb, nd := dmax, np := none } ⟨hd, le_refl _⟩
    refine bind_congr q1 (fun s hs => ?_)
    refine bind_congr rfl (fun x hx => ?_)
    refine bind_congr rfl (fun o _ => ?_)
    obtain ⟨att', p⟩ := x
    obtain ⟨h1, h2⟩ := attach_lt hx
    exact grow_eq h k (t + 1) p att' s.dist s.nb o (by omega) (by omega) (q2 s hs).1

theorem selfLoop_eq (h : Pair zero dmax dis dis' n d d' core) (start : Nat) : ∀ (k v : Nat) (dist : List W) (nb ot : List Nat), v + k ≤ n →
    Mst.selfLoop dis start k v dist nb ot = Mst.selfLoop dis' start k v dist nb ot
  | 0, _, _, _, _, _ => rfl
  | k + 1, v, dist, nb, ot, hv => by
    unfold Mst.selfLoop
    rw [h.cr v (by omega), h.cr' v (by omega)]
    refine bind_congr rfl (fun _ _ => bind_congr rfl (fun _ _ => bind_congr rfl (fun _ _ => bind_congr rfl (fun _ _ => ?_))))
    exact selfLoop_eq h start k (v + 1) _ _ _ (by omega)

theorem construct_eq (h : Pair zero dmax dis dis' n d d' core) (hn : 1 ≤ n) :
    @Mst.construct W c.i zero dmax true dis n = Mst.construct zero dmax true dis' n := by
  unfold Mst.construct
  refine bind_congr (grow_eq c h _ _ _ _ _ _ _ (by omega) (by simp; omega) (fun x hx => by rw [List.eq_of_mem_replicate hx])) (fun r _ => ?_)
  simp only [Mst.addSelf, if_true]
  rw [selfLoop_eq c h _ _ _ _ _ _ (by omega)]

/-! ### Sorting -/

omit c in
theorem swap_mem {g g' : Graph W} {i j : Nat} (h : Graph.swapEdges g i j = .ok g') : ∀ x ∈ g'.wt, x ∈ g.wt := by
  unfold Graph.swapEdges at h
  split at h
  · obtain ⟨_, _, h⟩ := Outcome.bind_eq_ok.1 h
    obtain ⟨_, _, h⟩ := Outcome.bind_eq_ok.1 h
    obtain ⟨tw, e1, h⟩ := Outcome.bind_eq_ok.1 h
    obtain ⟨_, _, h⟩ := Outcome.bind_eq_ok.1 h
    obtain ⟨_, _, h⟩ := Outcome.bind_eq_ok.1 h
    obtain ⟨_, _, h⟩ := Outcome.bind_eq_ok.1 h
    obtain ⟨_, _, h⟩ := Outcome.bind_eq_ok.1 h
    obtain ⟨wj, e2, h⟩ := Outcome.bind_eq_ok.1 h
    obtain ⟨wt1, e3, h⟩ := Outcome.bind_eq_ok.1 h
    obtain ⟨_, _, h⟩ := Outcome.bind_eq_ok.1 h
    obtain ⟨_, _, h⟩ := Outcome.bind_eq_ok.1 h
    obtain ⟨wt2, e4, h⟩ := Outcome.bind_eq_ok.1 h
    cases h
    intro x hx
    rcases wr_mem e4 x hx with h | h
    · rcases wr_mem e3 x h with h | h
      · exact h
      · rw [h]; exact rd_mem e2
    · rw [h]; exact rd_mem e1
  · cases h; exact fun x hx => hx

theorem pivot_eq {g : Graph W} (hg : ∀ x ∈ g.wt, x ≤ dmax) (s e : Nat) : @Graph.selectPivot W c.i g s e = Graph.selectPivot g s e := by
  unfold Graph.selectPivot
  split
  · rfl
  · refine bind_congr rfl (fun a ha => bind_congr rfl (fun b hb => bind_congr rfl (fun z hz => ?_)))
    have hb' := hg b (rd_mem hb)
    have hz' := hg z (rd_mem hz)
    simp only [c.le _ _ hb', c.le _ _ hz', ccmp_le]

theorem partLoop_eq {pv : W} (hpv : pv ≤ dmax) : ∀ (k i low : Nat) (g : Graph W), (∀ x ∈ g.wt, x ≤ dmax) →
    @Graph.partLoop W c.i pv k i low g = Graph.partLoop pv k i low g ∧ ∀ r, Graph.partLoop pv k i low g = .ok r → ∀ x ∈ r.1.wt, x ≤ dmax
  | 0, _, _, g, hg => ⟨rfl, fun r h => by cases h; exact hg⟩
  | k + 1, i, low, g, hg => by
    unfold Graph.partLoop
    constructor
    · refine bind_congr rfl (fun a _ => ?_)
      rw [c.lt _ _ hpv, ccmp_lt]
      split
      · exact bind_congr rfl (fun g' e => (partLoop_eq hpv k (i + 1) (low + 1) g' (fun x hx => hg x (swap_mem e x hx))).1)
      · exact (partLoop_eq hpv k (i + 1) low g hg).1
    · intro r h
      obtain ⟨a, _, h⟩ := Outcome.bind_eq_ok.1 h
      split at h
      · obtain ⟨g', e, h⟩ := Outcome.bind_eq_ok.1 h
        exact (partLoop_eq hpv k (i + 1) (low + 1) g' (fun x hx => hg x (swap_mem e x hx))).2 r h
      · exact (partLoop_eq hpv k (i + 1) low g hg).2 r h

theorem partition_eq {g : Graph W} (hg : ∀ x ∈ g.wt, x ≤ dmax) (s e p : Nat) :
    @Graph.partition W c.i g s e p = Graph.partition g s e p ∧ ∀ r, Graph.partition g s e p = .ok r → ∀ x ∈ r.1.wt, x ≤ dmax := by
  unfold Graph.partition
  constructor
  · refine bind_congr rfl (fun pv hpv => bind_congr rfl (fun g1 e1 => ?_))
    exact bind_congr (partLoop_eq c (hg pv (rd_mem hpv)) _ _ _ g1 (fun x hx => hg x (swap_mem e1 x hx))).1 (fun _ _ => rfl)
  · intro r h
    obtain ⟨pv, hpv, h⟩ := Outcome.bind_eq_ok.1 h
    obtain ⟨g1, e1, h⟩ := Outcome.bind_eq_ok.1 h
    obtain ⟨⟨g2, low⟩, e2, h⟩ := Outcome.bind_eq_ok.1 h
    obtain ⟨g3, e3, h⟩ := Outcome.bind_eq_ok.1 h
    cases h
    have := (partLoop_eq c (hg pv (rd_mem hpv)) _ _ _ g1 (fun x hx => hg x (swap_mem e1 x hx))).2 _ e2
    exact fun x hx => this x (swap_mem e3 x hx)

theorem sortLoop_eq (cap : Nat) : ∀ (fuel : Nat) (st : List (Nat × Nat)) (g : Graph W), (∀ x ∈ g.wt, x ≤ dmax) →
    @Graph.sortLoop W c.i cap fuel st g = Graph.sortLoop cap fuel st g
  | 0, [], _, _ => rfl
  | 0, _ :: _, _, _ => rfl
  | _ + 1, [], _, _ => rfl
  | fuel + 1, (s, e) :: st, g, hg => by
    unfold Graph.sortLoop
    refine bind_congr (pivot_eq c hg s e) (fun p0 _ => ?_)
    obtain ⟨q1, q2⟩ := partition_eq c hg s e p0
    refine bind_congr q1 (fun r hr => ?_)
    obtain ⟨g', p⟩ := r
    refine bind_congr rfl (fun st1 _ => bind_congr rfl (fun st2 _ => ?_))
    exact sortLoop_eq cap fuel st2 g' (q2 _ hr)

theorem sort_eq {g : Graph W} (hg : ∀ x ∈ g.wt, x ≤ dmax) : @Graph.sortByWeight W c.i g = Graph.sortByWeight g := by
  unfold Graph.sortByWeight
  simp only [sortLoop_eq c _ _ _ g hg]

/-! ### The hierarchy -/

theorem removeTied_eq {wt : List W} (hw : ∀ x ∈ wt, x ≤ dmax) (va vb cur : List Nat) (w : W) : ∀ (k : Nat) (r : Hier.Removal),
    @Hier.removeTied W c.i va vb wt cur w k r = Hier.removeTied va vb wt cur w k r
  | 0, _ => rfl
  | k + 1, r => by
    unfold Hier.removeTied
    refine bind_congr rfl (fun t ht => ?_)
    rw [c.eq _ _ (hw t (rd_mem ht)), ccmp_eq]
    simp only [removeTied_eq hw va vb cur w k]

theorem level_eq {wt : List W} (hw : ∀ x ∈ wt, x ≤ dmax) (ar : Arith W S) (m : Nat) (compact : Bool) (va vb : List Nat) (k : Nat) (st : Hier.St W S) :
    @Hier.level W S c.i ar m compact va vb wt k st = Hier.level ar m compact va vb wt k st := by
  unfold Hier.level
  simp only [removeTied_eq c hw]

theorem mainLoop_eq {wt : List W} (hw : ∀ x ∈ wt, x ≤ dmax) (ar : Arith W S) (m : Nat) (compact : Bool) (va vb : List Nat) : ∀ (fuel k : Nat) (st : Hier.St W S),
    @Hier.mainLoop W S c.i ar m compact va vb wt fuel k st = Hier.mainLoop ar m compact va vb wt fuel k st
  | 0, 0, _ => rfl
  | _ + 1, 0, _ => rfl
  | 0, _ + 1, _ => rfl
  | fuel + 1, k + 1, st => by
    unfold Hier.mainLoop
    rw [level_eq c hw]
    simp only [mainLoop_eq hw ar m compact va vb fuel]

theorem compute_eq {g : Graph W} (hw : ∀ x ∈ g.wt, x ≤ dmax) (ar : Arith W S) (m : Nat) (compact : Bool) :
    @Hier.compute W S c.i ar m compact g = Hier.compute ar m compact g := by
  unfold Hier.compute
  rw [mainLoop_eq c hw]

/-! ### Selection -/

/-- Death levels are at most `dmax`. -/
def LowCl (dmax : W) (cs : List (Option (Cl W S))) : Prop := ∀ x, some x ∈ cs → x.death ≤ dmax ∧ x.propLowest ≤ dmax

omit c in
theorem getCl_mem {cs : List (Option (Cl W S))} {k : Nat} {x : Cl W S} (h : getCl cs k = .ok x) : some x ∈ cs := by
  unfold getCl at h
  obtain ⟨y, e, h⟩ := Outcome.bind_eq_ok.1 h
  cases y with
  | none => cases h
  | some y => cases h; exact rd_mem e

omit [LinearOrder W] c in
theorem choose_low [CCmp S] (ar : Arith W S) (x p : Cl W S) : (Cl.choose ar x p).death = p.death ∧ (Cl.choose ar x p).propLowest = p.propLowest := by
  unfold Cl.choose
  split
  · exact ⟨rfl, rfl⟩
  · split
    · exact ⟨rfl, rfl⟩
    · split <;> exact ⟨rfl, rfl⟩

theorem propagate_eq [CCmp S] (ar : Arith W S) {cs : List (Option (Cl W S))} (hcs : LowCl dmax cs) (x : Nat) :
    @Sel.propagate W S c.i _ ar cs x = Sel.propagate ar cs x ∧ ∀ cs', Sel.propagate ar cs x = .ok cs' → LowCl dmax cs' := by
  have hown : ∀ y : Cl W S, some y ∈ cs → @Cl.ownLowest W S c.i ar y = Cl.ownLowest ar y := by
    intro y hy
    unfold Cl.ownLowest
    rw [c.eq _ _ (hcs y hy).2, ccmp_eq]
  have hown2 : ∀ y : Cl W S, some y ∈ cs → (Cl.ownLowest ar y).death ≤ dmax ∧ (Cl.ownLowest ar y).propLowest ≤ dmax := by
    intro y hy
    unfold Cl.ownLowest
    refine ⟨(hcs y hy).1, ?_⟩
    simp only
    split
    · exact (hcs y hy).1
    · exact (hcs y hy).2
  constructor
  · unfold Sel.propagate
    refine bind_congr rfl (fun y hy => ?_)
    have hy' := getCl_mem hy
    cases y.parent with
    | none => rfl
    | some q =>
      simp only
      rw [hown y hy']
      refine bind_congr rfl (fun cs1 e1 => bind_congr rfl (fun p hp => ?_))
      have hp' : p.propLowest ≤ dmax := by
        rcases wr_mem e1 _ (getCl_mem hp) with h | h
        · exact (hcs p h).2
        · cases h; exact (hown2 y hy').2
      have : @Cl.passLowest W S c.i (Cl.ownLowest ar y) p = Cl.passLowest (Cl.ownLowest ar y) p := by
        unfold Cl.passLowest
        rw [c.lt _ _ hp', ccmp_lt]
      rw [this]
  · intro cs' h
    unfold Sel.propagate at h
    obtain ⟨y, hy, h⟩ := Outcome.bind_eq_ok.1 h
    have hy' := getCl_mem hy
    cases hpar : y.parent with
    | none => rw [hpar] at h; cases h; exact hcs
    | some q =>
      rw [hpar] at h
      simp only at h
      obtain ⟨cs1, e1, h⟩ := Outcome.bind_eq_ok.1 h
      obtain ⟨p, hp, h⟩ := Outcome.bind_eq_ok.1 h
      have hcs1 : LowCl dmax cs1 := by
        intro z hz
        rcases wr_mem e1 _ hz with h | h
        · exact hcs z h
        · cases h; exact hown2 y hy'
      intro z hz
      rcases wr_mem h _ hz with h | h
      · exact hcs1 z h
      · cases h
        obtain ⟨a1, a2⟩ := choose_low ar (Cl.ownLowest ar y) (Cl.passLowest (Cl.ownLowest ar y) p)
        rw [a1, a2]
        refine ⟨(hcs1 p (getCl_mem hp)).1, ?_⟩
        unfold Cl.passLowest
        simp only
        split
        · exact (hown2 y hy').2
        · exact (hcs1 p (getCl_mem hp)).2

theorem examine_eq [CCmp S] (ar : Arith W S) (smax : S) : ∀ (fuel : Nat) (s : Sel.St W S), LowCl dmax s.clusters →
    @Sel.examine W S c.i _ ar smax fuel s = Sel.examine ar smax fuel s
  | 0, _, _ => rfl
  | fuel + 1, s, hs => by
    unfold Sel.examine
    cases s.ex.getLast? with
    | none => rfl
    | some x =>
      simp only
      obtain ⟨q1, q2⟩ := propagate_eq c ar hs x
      refine bind_congr q1 (fun cs hcs => bind_congr rfl (fun y _ => bind_congr rfl (fun z _ => ?_)))
      exact examine_eq ar smax fuel _ (q2 cs hcs)

theorem tree_eq [CCmp S] (ar : Arith W S) (smax : S) (order : List Nat) {cs : List (Option (Cl W S))} (hcs : LowCl dmax cs) :
    @Sel.propagateTree W S c.i _ ar smax order cs = Sel.propagateTree ar smax order cs := by
  unfold Sel.propagateTree
  exact bind_congr rfl (fun x _ => examine_eq c ar smax _ _ hcs)

end
end Verif.Cut
