import Verif.Lemmas.Obs
/-
Helper lemmas for the hierarchy of a graph that need not be connected and in which a vertex may have several self edges. Self edges then have
no meaning for the neighbour lists, and the components of the root that no removed edge touches are not explored.
-/
namespace Verif.Hier
variable {W S : Type}

/-- The neighbour lists describe the edges, apart from self edges. -/
def DescW (n : Nat) (adj : List (List Nat)) (E : List (Nat × Nat)) : Prop :=
  adj.length = n ∧ ∀ v w, v < n → v ≠ w → (adj[v]?.getD []).count w = E.countP (Spec.joins v w)

theorem DescW.of {n adj E} (h : Spec.Describes n adj E) : DescW n adj E := ⟨h.1, fun v w hv _ => h.2 v w hv⟩

/-- One removal on the level of neighbour lists. -/
theorem removeEdge_descW {n : Nat} {g : Graph W} {E : List (Nat × Nat)} {a b : Nat} (h : DescW n g.edges E)
    (ha : a < n) (hb : b < n) (hm : (a, b) ∈ E) :
    ∃ g', Graph.removeEdge g a b = .ok g' ∧ DescW n g'.edges (E.erase (a, b)) ∧ g'.va = g.va ∧ g'.vb = g.vb ∧
      g'.wt = g.wt ∧ g'.numVertices = g.numVertices := by
  obtain ⟨hl, hc⟩ := h
  subst hl
  have hb' : b < (g.edges.set a (g.edges[a].erase b)).length := by simpa using hb
  refine ⟨{ g with edges := (g.edges.set a (g.edges[a].erase b)).set b ((g.edges.set a (g.edges[a].erase b))[b].erase a) }, ?_,
    ⟨by simp, ?_⟩, rfl, rfl, rfl, rfl⟩
  · unfold Graph.removeEdge
    rw [rd_ok ha]
    simp only [Outcome.ok_bind]
    rw [wr_ok ha]
    simp only [Outcome.ok_bind]
    rw [rd_ok hb']
    simp only [Outcome.ok_bind]
    rw [wr_ok hb']
    rfl
  · intro v w hv hnvw
    have hce := Graph.countP_erase_pair (v := v) (w := w) hm
    have hcv := hc v w hv hnvw
    rw [List.getElem?_eq_getElem hv] at hcv
    simp only [Option.getD_some] at hcv
    by_cases hab : a = b
    · subst hab
      by_cases hva : v = a
      · subst hva
        simp only [List.getElem_set_self, List.set_set, List.getElem?_set_self hv, Option.getD_some, List.count_erase]
        have hvw : w ≠ v := Ne.symm hnvw
        have e1 : Spec.joins v w (v, v) = false := by simp [Spec.joins, Ne.symm hvw]
        rw [e1] at hce
        have e2 : (v == w) = false := by simp [Ne.symm hvw]
        simp only [e2, Bool.false_eq_true, if_false] at *
        omega
      · have e1 : Spec.joins v w (a, a) = false := by simp [Spec.joins, Ne.symm hva]
        rw [e1] at hce
        rw [List.getElem?_set_ne (Ne.symm hva), List.getElem?_set_ne (Ne.symm hva), List.getElem?_eq_getElem hv]
        simp only [Option.getD_some, Bool.false_eq_true, if_false] at *
        omega
    · rw [List.getElem_set_ne hab]
      by_cases hvb : v = b
      · subst hvb
        rw [List.getElem?_set_self hb']
        simp only [Option.getD_some, List.count_erase]
        by_cases hwa : a = w
        · subst hwa
          have : Spec.joins v a (a, v) = true := by simp [Spec.joins]
          rw [this] at hce
          simp only [if_true, beq_self_eq_true] at *
          omega
        · have e1 : Spec.joins v w (a, v) = false := by simp [Spec.joins, hwa, hab]
          have e2 : (a == w) = false := by simp [hwa]
          rw [e1] at hce
          simp only [e2, Bool.false_eq_true, if_false] at *
          omega
      · rw [List.getElem?_set_ne (Ne.symm hvb)]
        by_cases hva : v = a
        · subst hva
          rw [List.getElem?_set_self hv]
          simp only [Option.getD_some, List.count_erase]
          by_cases hwb : b = w
          · subst hwb
            have : Spec.joins v b (v, b) = true := by simp [Spec.joins]
            rw [this] at hce
            simp only [if_true, beq_self_eq_true] at *
            omega
          · have e1 : Spec.joins v w (v, b) = false := by simp [Spec.joins, hwb, Ne.symm hvb]
            have e2 : (b == w) = false := by simp [hwb]
            rw [e1] at hce
            simp only [e2, Bool.false_eq_true, if_false] at *
            omega
        · rw [List.getElem?_set_ne (Ne.symm hva), List.getElem?_eq_getElem hv]
          have e1 : Spec.joins v w (a, b) = false := by simp [Spec.joins, Ne.symm hva, Ne.symm hvb]
          rw [e1] at hce
          simp only [Option.getD_some, Bool.false_eq_true, if_false] at *
          omega


theorem nbr_iffW {n k : Nat} {adj : List (List Nat)} {f : Nat → Nat × Nat × W} (h : DescW n adj (prs f k))
    (hb : ∀ i, i < k → (f i).1 < n ∧ (f i).2.1 < n) {u v : Nat} (huv : u ≠ v) : Nbr adj u v ↔ Jn f k u v := by
  by_cases hu : u < n
  · have := h.2 u v hu huv
    rw [Nbr, ← List.count_pos_iff, this, List.countP_pos_iff]
    constructor
    · rintro ⟨e, he, hj⟩
      rw [prs, List.mem_map] at he
      obtain ⟨i, hi, rfl⟩ := he
      refine ⟨i, List.mem_range.1 hi, ?_⟩
      simpa [Spec.joins] using hj
    · rintro ⟨i, hi, hj⟩
      refine ⟨((f i).1, (f i).2.1), List.mem_map.2 ⟨i, List.mem_range.2 hi, rfl⟩, ?_⟩
      simpa [Spec.joins] using hj
  · constructor
    · intro hx
      rw [Nbr] at hx
      rw [List.getElem?_eq_none (by rw [h.1]; omega)] at hx
      simp at hx
    · rintro ⟨i, hi, hj⟩
      have := hb i hi
      omega

theorem reach_eqW {n k : Nat} {adj : List (List Nat)} {f : Nat → Nat × Nat × W} (h : DescW n adj (prs f k))
    (hb : ∀ i, i < k → (f i).1 < n ∧ (f i).2.1 < n) : Reach adj = RK f k := by
  funext u v
  apply propext
  constructor
  · intro hr
    induction hr with
    | refl => exact .refl
    | @tail b c _ h2 ih =>
      by_cases hbc : b = c
      · subst hbc; exact ih
      · exact ih.tail ((nbr_iffW h hb hbc).1 h2)
  · intro hr
    induction hr with
    | refl => exact .refl
    | @tail b c _ h2 ih =>
      by_cases hbc : b = c
      · subst hbc; exact ih
      · exact ih.tail ((nbr_iffW h hb hbc).2 h2)

/-- Two different vertices connected by a walk: some step leaves a vertex. -/
theorem walk_step {r : Nat → Nat → Prop} {u v : Nat} (h : Relation.ReflTransGen r u v) (hne : u ≠ v) : ∃ a b, Relation.ReflTransGen r u a ∧ r a b ∧ a ≠ b := by
  induction h with
  | refl => exact absurd rfl hne
  | @tail b c h1 h2 ih =>
    by_cases hub : u = b
    · subst hub; exact ⟨u, c, .refl, h2, hne⟩
    · exact ih hub

theorem two_of {l : List Nat} (hn : l.Nodup) (h2 : 2 ≤ l.length) (u : Nat) : ∃ v ∈ l, u ≠ v := by
  match l, hn, h2 with
  | a :: b :: _, hn, _ =>
    by_cases hu : u = a
    · subst hu
      refine ⟨b, by simp, ?_⟩
      intro he
      subst he
      simp at hn
    · exact ⟨a, by simp, hu⟩

theorem valid_iffW {n k m : Nat} {adj : List (List Nat)} {f : Nat → Nat × Nat × W} (h : DescW n adj (prs f k))
    (hb : ∀ i, i < k → (f i).1 < n ∧ (f i).2.1 < n) (hm : 2 ≤ m) (u : Nat) : Valid adj m u ↔ VK f k m u := by
  rw [Valid, VK, reach_eqW h hb]
  constructor
  · rintro ⟨⟨l, h1, h2, h3⟩, _⟩
    refine ⟨⟨l, h1, h2, h3⟩, ?_⟩
    obtain ⟨v, hv, hne⟩ := two_of h1 (by omega) u
    obtain ⟨a, b, h4, h5, _⟩ := walk_step (h3 v hv) hne
    exact ⟨a, b, h4, h5⟩
  · rintro ⟨⟨l, h1, h2, h3⟩, _⟩
    refine ⟨⟨l, h1, h2, h3⟩, ?_⟩
    obtain ⟨v, hv, hne⟩ := two_of h1 (by omega) u
    obtain ⟨a, b, h4, h5, h6⟩ := walk_step (h3 v hv) hne
    exact ⟨a, b, h4, (nbr_iffW h hb h6).2 h5⟩

theorem sym_ofW {n k : Nat} {adj : List (List Nat)} {f : Nat → Nat × Nat × W} (h : DescW n adj (prs f k))
    (hb : ∀ i, i < k → (f i).1 < n ∧ (f i).2.1 < n) : Sym n adj := by
  refine ⟨h.1, ?_, ?_⟩
  · intro u v huv
    by_cases he : u = v
    · subst he
      by_contra hu
      rw [Nbr, List.getElem?_eq_none (by rw [h.1]; omega)] at huv
      simp at huv
    · obtain ⟨i, hi, hj⟩ := (nbr_iffW h hb he).1 huv
      have := hb i hi
      omega
  · intro u v huv
    by_cases he : u = v
    · subst he; exact huv
    · rw [nbr_iffW h hb he] at huv
      rw [nbr_iffW h hb (Ne.symm he)]
      exact huv.symm

theorem rk_symm {f : Nat → Nat × Nat × W} {k u v : Nat} (h : RK f k u v) : RK f k v u := by
  induction h with
  | refl => exact .refl
  | tail _ h2 ih => exact .head h2.symm ih

theorem descW_perm {n : Nat} {adj : List (List Nat)} {E E' : List (Nat × Nat)} (hp : E.Perm E') (h : DescW n adj E) : DescW n adj E' :=
  ⟨h.1, fun v w hv hvw => by rw [h.2 v w hv hvw, hp.countP_eq]⟩

/-- The edges `f 0, ..., f (M-1)`, sorted by weight. -/
structure EW [LinearOrder W] (n M : Nat) (f : Nat → Nat × Nat × W) : Prop where
  lt : ∀ i, i < M → (f i).1 < n ∧ (f i).2.1 < n
  sorted : ∀ i j, i ≤ j → j < M → (f i).2.2 ≤ (f j).2.2

theorem removeOne_repW [LinearOrder W] {n M k : Nat} {f : Nat → Nat × Nat × W} {va vb : List Nat} {cur : Nat → Nat} {r : Removal}
    (ec : EW n M f) (hva : va = (List.range M).map (fun i => (f i).1)) (hvb : vb = (List.range M).map (fun i => (f i).2.1))
    (hk : k < M) (hd : DescW n r.adj (prs f (k + 1))) :
    ∃ r' : Removal, removeOne va vb ((List.range n).map cur) k r = .ok r' ∧ r'.k = k ∧ DescW n r'.adj (prs f k) ∧
      (∀ v, v ∈ r'.affV ↔ v ∈ r.affV ∨ (cur (f k).1 ≠ 0 ∧ (v = (f k).1 ∨ v = (f k).2.1))) ∧
      (∀ l, l ∈ r'.affL ↔ l ∈ r.affL ∨ (cur (f k).1 ≠ 0 ∧ l = cur (f k).1)) ∧
      (r.affV.Nodup → r'.affV.Nodup) ∧ (r.affL.Nodup → r'.affL.Nodup) := by
  obtain ⟨ha, hb⟩ := ec.lt k hk
  obtain ⟨g', e1, e2, _⟩ := removeEdge_descW (g := { numVertices := 0, va := va, vb := vb, wt := ([] : List Unit), edges := r.adj }) hd ha hb
    (by rw [prs_succ]; simp)
  have hd' : DescW n g'.edges (prs f k) := by
    refine descW_perm ?_ e2
    rw [prs_succ]
    have h1 : (prs f k ++ [((f k).1, (f k).2.1)]).Perm (((f k).1, (f k).2.1) :: prs f k) := List.perm_append_singleton _ _
    have := h1.erase ((f k).1, (f k).2.1)
    rwa [List.erase_cons_head] at this
  unfold removeOne
  subst hva hvb
  rw [Graph.rd_map _ hk, Outcome.ok_bind, Graph.rd_map _ hk, Outcome.ok_bind, e1, Outcome.ok_bind, Graph.rd_map _ ha, Outcome.ok_bind]
  by_cases hl : cur (f k).1 = 0
  · rw [if_pos hl]
    exact ⟨_, rfl, rfl, hd', fun v => by simp [hl], fun l => by simp [hl], fun h => h, fun h => h⟩
  · rw [if_neg hl]
    refine ⟨_, rfl, rfl, hd', fun v => ?_, fun l => ?_, fun h => nodup_sInsert (nodup_sInsert h _) _, fun h => nodup_sInsert h _⟩
    · simp only [mem_sInsert]
      tauto
    · simp only [mem_sInsert]
      tauto

theorem removeTied_repW [LinearOrder W] {n M : Nat} {f : Nat → Nat × Nat × W} {va vb : List Nat} {wt : List W} {cur : Nat → Nat} {w : W}
    (ec : EW n M f) (hva : va = (List.range M).map (fun i => (f i).1)) (hvb : vb = (List.range M).map (fun i => (f i).2.1))
    (hwt : wt = (List.range M).map (fun i => (f i).2.2)) :
    ∀ (k : Nat) (r : Removal), k ≤ M → r.k = k → DescW n r.adj (prs f k) →
    ∃ r' : Removal, removeTied va vb wt ((List.range n).map cur) w k r = .ok r' ∧ r'.k ≤ k ∧ DescW n r'.adj (prs f r'.k) ∧
      (∀ i, r'.k ≤ i → i < k → (f i).2.2 = w) ∧ (r'.k = 0 ∨ (f (r'.k - 1)).2.2 ≠ w) ∧
      (∀ v, v ∈ r'.affV ↔ v ∈ r.affV ∨ ∃ i, r'.k ≤ i ∧ i < k ∧ cur (f i).1 ≠ 0 ∧ (v = (f i).1 ∨ v = (f i).2.1)) ∧
      (∀ l, l ∈ r'.affL ↔ l ∈ r.affL ∨ ∃ i, r'.k ≤ i ∧ i < k ∧ cur (f i).1 ≠ 0 ∧ l = cur (f i).1) ∧
      (r.affV.Nodup → r'.affV.Nodup) ∧ (r.affL.Nodup → r'.affL.Nodup) := by
  intro k
  induction k with
  | zero =>
    intro r _ hrk hd
    refine ⟨r, rfl, by omega, by rw [hrk]; exact hd, by omega, .inl hrk, ?_, ?_, fun h => h, fun h => h⟩
    · intro v; constructor
      · exact .inl
      · rintro (h | ⟨i, _, h, _⟩)
        · exact h
        · omega
    · intro v; constructor
      · exact .inl
      · rintro (h | ⟨i, _, h, _⟩)
        · exact h
        · omega
  | succ k ih =>
    intro r hkM hrk hd
    unfold removeTied
    subst hwt
    rw [Graph.rd_map _ (by omega), Outcome.ok_bind]
    simp only [ccmp_eq, decide_eq_true_eq]
    by_cases hw : (f k).2.2 = w
    · rw [if_pos hw]
      obtain ⟨r1, e1, k1, d1, v1, l1, nv1, nl1⟩ := removeOne_repW (cur := cur) ec hva hvb (k := k) (by omega) hd
      obtain ⟨r2, e2, k2, d2, t2, z2, v2, l2, nv2, nl2⟩ := ih r1 (by omega) k1 (by exact d1)
      refine ⟨r2, by rw [e1, Outcome.ok_bind]; exact e2, by omega, d2, ?_, z2, ?_, ?_, fun h => nv2 (nv1 h), fun h => nl2 (nl1 h)⟩
      · intro i h1 h2
        by_cases hi : i = k
        · subst hi; exact hw
        · exact t2 i h1 (by omega)
      · intro v
        rw [v2, v1]
        constructor
        · rintro ((h | h) | ⟨i, h1, h2, h3⟩)
          · exact .inl h
          · exact .inr ⟨k, k2, by omega, h⟩
          · exact .inr ⟨i, h1, by omega, h3⟩
        · rintro (h | ⟨i, h1, h2, h3⟩)
          · exact .inl (.inl h)
          · by_cases hi : i = k
            · subst hi; exact .inl (.inr h3)
            · exact .inr ⟨i, h1, by omega, h3⟩
      · intro v
        rw [l2, l1]
        constructor
        · rintro ((h | h) | ⟨i, h1, h2, h3⟩)
          · exact .inl h
          · exact .inr ⟨k, k2, by omega, h⟩
          · exact .inr ⟨i, h1, by omega, h3⟩
        · rintro (h | ⟨i, h1, h2, h3⟩)
          · exact .inl (.inl h)
          · by_cases hi : i = k
            · subst hi; exact .inl (.inr h3)
            · exact .inr ⟨i, h1, by omega, h3⟩
    · rw [if_neg hw]
      refine ⟨r, rfl, by omega, by rw [hrk]; exact hd, by omega, .inr (by rw [hrk]; exact hw), ?_, ?_, fun h => h, fun h => h⟩
      · intro v; constructor
        · exact .inl
        · rintro (h | ⟨i, h1, h2, _⟩)
          · exact h
          · omega
      · intro v; constructor
        · exact .inl
        · rintro (h | ⟨i, h1, h2, _⟩)
          · exact h
          · omega

/-- What a line of the hierarchy says, with `k` the number of edges of at most its weight; nothing is said about the extent of the root. -/
structure LineW [LinearOrder W] (n m M : Nat) (f : Nat → Nat × Nat × W) (h : W × (Nat → Nat)) (k : Nat) : Prop where
  le : k ≤ M
  wt : ∀ i, i < M → (i < k ↔ (f i).2.2 ≤ h.1)
  at' : ∃ i, i < M ∧ (f i).2.2 = h.1
  uni : ∀ u v, RK f k u v → h.2 v = h.2 u
  conn : ∀ u v, u < n → v < n → 2 ≤ h.2 u → h.2 v = h.2 u → RK f k u v
  zero : ∀ u, u < n → h.2 u = 0 → ¬ VK f k m u
  valid : ∀ u, u < n → 2 ≤ h.2 u → VK f k m u
  edge : ∀ u, u < n → h.2 u ≠ 0 → ∃ v x, RK f k u v ∧ Jn f k v x
  conn1 : ∀ u v, u < n → v < n → h.2 u ≠ 0 → h.2 v = h.2 u → RK f M u v → RK f k u v
  valid1 : ∀ u, u < n → h.2 u ≠ 0 → VK f k m u ∨ ∀ v, RK f M u v → RK f k u v

/-- The invariant of the main loop: `k` edges are left. -/
structure TopW [LinearOrder W] (ar : Arith W S) (n m M : Nat) (f : Nat → Nat × Nat × W) (k : Nat) (st : St W S) (hist : List (W × (Nat → Nat)))
    (cur : Nat → Nat) (noise : Nat → Option W) (last : Nat → Option Nat) : Prop where
  kM : k ≤ M
  rep : WRep n st.wk cur noise last
  prev : st.prev = (List.range n).map cur
  affV : st.affV = []
  adj : DescW n st.adj (prs f k)
  bk : BK ar n m hist cur st.wk.clusters noise last
  twin : Twins st.wk.clusters
  off : ∀ (l : Nat) (c : Cl W S), 2 ≤ l → st.wk.clusters[l]? = some (some c) → OffOK n hist cur l c.offset
  lines : st.lines = hist.zipIdx.map (fun h => (h.2 + 1, h.1.1, (List.range n).map h.1.2))
  lc : st.lineCount = hist.length
  uni : ∀ u v, Jn f k u v → cur v = cur u
  con : ∀ u v, u < n → v < n → 2 ≤ cur u → cur v = cur u → RK f k u v
  inv : ∀ u, u < n → cur u = 0 → ¬ VK f k m u
  val : ∀ u, u < n → 2 ≤ cur u → VK f k m u
  edge : ∀ u, u < n → cur u ≠ 0 → ∃ v x, RK f k u v ∧ Jn f k v x
  con1 : ∀ u v, u < n → v < n → cur u ≠ 0 → cur v = cur u → RK f M u v → RK f k u v
  val1 : ∀ u, u < n → cur u ≠ 0 → VK f k m u ∨ ∀ v, RK f M u v → RK f k u v
  start : hist = [] → k = M ∧ ∀ u, u < n → cur u = 1
  after : hist ≠ [] → k < M
  gap : ∀ i j, i < k → k ≤ j → j < M → (f i).2.2 < (f j).2.2
  ord : (hist.map (·.1)).Pairwise (· > ·)
  rest : ∀ h ∈ hist, ∀ i, i < k → (f i).2.2 < h.1
  line : ∀ h ∈ hist, ∃ k', LineW n m M f h k'

/-- The line that the next level writes. -/
theorem TopW.lineW [LinearOrder W] {ar : Arith W S} {n m M f k st hist cur noise last} (ec : EW n M f) (h : TopW ar n m M f (k + 1) st hist cur noise last) :
    LineW n m M f ((f k).2.2, cur) (k + 1) := by
  have hkM := h.kM
  refine ⟨hkM, ?_, ⟨k, by omega, rfl⟩, fun u v hr => uni_rk h.uni hr, h.con, h.inv, h.val, h.edge, h.con1, h.val1⟩
  intro i hi
  constructor
  · intro hik
    exact ec.sorted i k (by omega) (by omega)
  · intro hle
    by_contra hne
    exact absurd (h.gap k i (by omega) (by omega) hi) (not_lt.2 hle)

section
variable [LinearOrder W] {ar : Arith W S} {n m M : Nat} {f : Nat → Nat × Nat × W} {k : Nat} {st : St W S} {hist : List (W × (Nat → Nat))}
  {cur : Nat → Nat} {noise : Nat → Option W} {last : Nat → Option Nat} {va vb : List Nat} {wt : List W}

theorem level_repW (ec : EW n M f) (hva : va = (List.range M).map (fun i => (f i).1)) (hvb : vb = (List.range M).map (fun i => (f i).2.1))
    (hwt : wt = (List.range M).map (fun i => (f i).2.2)) (n32 : n < 2 ^ 32) (m2 : 2 ≤ m)
    (h : TopW ar n m M f (k + 1) st hist cur noise last) :
    ∃ k' st' hist' cur' noise' last', level ar m false va vb wt k st = .ok (k', st') ∧ k' ≤ k ∧
      TopW ar n m M f k' st' hist' cur' noise' last' ∧ hist' ≠ [] := by
  have hkM := h.kM
  obtain ⟨r, e1, hk', d1, t1, z1, v1, l1, nv1, nl1⟩ := removeTied_repW (cur := cur) (w := (f k).2.2) ec hva hvb hwt (k + 1)
    { k := k + 1, adj := st.adj, affV := st.affV, affL := [] } hkM rfl h.adj
  simp only [h.affV, List.not_mem_nil, false_or, List.nodup_nil, true_implies] at v1 l1 nv1 nl1
  have hrk : r.k ≤ k := by
    rcases z1 with z1 | z1
    · omega
    · by_contra hne
      have : r.k = k + 1 := by omega
      rw [this] at z1
      exact z1 rfl
  have hlt' : ∀ i, i < r.k → (f i).1 < n ∧ (f i).2.1 < n := fun i hi => ec.lt i (by omega)
  have hgapw : ∀ i, i < r.k → (f i).2.2 < (f k).2.2 := by
    intro i hi
    rcases z1 with z1 | z1
    · omega
    · have h1 := ec.sorted i (r.k - 1) (by omega) (by omega)
      have h2 := ec.sorted (r.k - 1) k (by omega) (by omega)
      exact lt_of_le_of_lt h1 (lt_of_le_of_ne h2 z1)
  have hgap : ∀ i j, i < r.k → r.k ≤ j → j < M → (f i).2.2 < (f j).2.2 := by
    intro i j hi hj hjM
    by_cases hjk : j < k + 1
    · rw [t1 j hj hjk]; exact hgapw i hi
    · exact h.gap i j (by omega) (by omega) hjM
  have hcur : st.wk.cur = (List.range n).map cur := h.rep.cur
  have huni' : ∀ u v, Jn f r.k u v → cur v = cur u := fun u v huv => h.uni u v (huv.mono hk')
  have m1 : 1 ≤ m := by omega
  -- a removed edge touching the component of a point that is not noise is seen
  have hseen : ∀ v i y, cur v ≠ 0 → r.k ≤ i → i < k + 1 → (y = (f i).1 ∨ y = (f i).2.1) → RK f r.k v y → y ∈ r.affV ∧ cur v ∈ r.affL := by
    intro v i y hv0 hi1 hi2 hy hr
    have hyv : cur y = cur v := uni_rk huni' hr
    have hAB : cur (f i).2.1 = cur (f i).1 := h.uni _ _ ⟨i, hi2, .inl ⟨rfl, rfl⟩⟩
    have hA : cur (f i).1 = cur v := by
      rcases hy with rfl | rfl
      · exact hyv
      · rw [← hAB]; exact hyv
    exact ⟨(v1 _).2 ⟨i, hi1, hi2, by rw [hA]; exact hv0, hy⟩, (l1 _).2 ⟨i, hi1, hi2, by rw [hA]; exact hv0, hA.symm⟩⟩
  -- an old walk inside a component that no removed edge touches survives
  have hkeep : ∀ v x, cur v ≠ 0 → (¬ ∃ y ∈ r.affV, RK f r.k v y) → RK f (k + 1) v x → RK f r.k v x := by
    intro v x hv0 hvL hr
    rcases walk_cut hk' hr with hr | ⟨i, y, hi1, hi2, hy, hr⟩
    · exact hr
    · exact absurd ⟨y, (hseen v i y hv0 hi1 hi2 hy hr).1, hr⟩ hvL
  have hkeepE : ∀ v, cur v ≠ 0 → (¬ ∃ y ∈ r.affV, RK f r.k v y) → (∃ y x, RK f (k + 1) v y ∧ Jn f (k + 1) y x) → ∃ y x, RK f r.k v y ∧ Jn f r.k y x := by
    rintro v hv0 hvL ⟨y, x, q4, i, hi, hj⟩
    have hr := hkeep v y hv0 hvL q4
    refine ⟨y, x, hr, i, ?_, hj⟩
    by_contra hir
    refine hvL ⟨y, (hseen v i y hv0 (by omega) hi ?_ hr).1, hr⟩
    rcases hj with hj | hj
    · exact .inl hj.1.symm
    · exact .inr hj.2.symm
  have hkeepV : ∀ v, cur v ≠ 0 → (¬ ∃ y ∈ r.affV, RK f r.k v y) → VK f (k + 1) m v → VK f r.k m v := by
    rintro v hv0 hvL ⟨⟨l, q1, q2, q3⟩, he⟩
    exact ⟨⟨l, q1, q2, fun x hx => hkeep v x hv0 hvL (q3 x hx)⟩, hkeepE v hv0 hvL he⟩
  -- a component of a cluster that is not affected is not touched
  have hfar : ∀ v, cur v ∉ r.affL → ¬ ∃ y ∈ r.affV, RK f r.k v y := by
    rintro v hvL ⟨y, hy, hr⟩
    obtain ⟨i, h1, h2, h3, h4⟩ := (v1 y).1 hy
    have hyv : cur y = cur v := uni_rk huni' hr
    have hAB : cur (f i).2.1 = cur (f i).1 := h.uni _ _ ⟨i, h2, .inl ⟨rfl, rfl⟩⟩
    apply hvL
    refine (l1 _).2 ⟨i, h1, h2, h3, ?_⟩
    rcases h4 with rfl | rfl
    · exact hyv.symm
    · rw [← hyv]; exact hAB
  -- the clusters other than the root are explored as a whole
  have hcov : ∀ v, v < n → 2 ≤ cur v → cur v ∈ r.affL → ∃ y ∈ r.affV, RK f r.k v y := by
    intro v hv hv2 hvL
    obtain ⟨i, h1, h2, h3, h4⟩ := (l1 _).1 hvL
    have hr := h.con v (f i).1 hv (ec.lt i (by omega)).1 hv2 h4.symm
    rcases walk_cut hk' hr with hr | ⟨j, y, hj1, hj2, hy, hr⟩
    · exact ⟨_, (v1 _).2 ⟨i, h1, h2, h3, .inl rfl⟩, hr⟩
    · exact ⟨y, (hseen v j y (by omega) hj1 hj2 hy hr).1, hr⟩
  unfold level
  subst hwt
  rw [Graph.rd_map _ (by omega), Outcome.ok_bind, hcur, e1, Outcome.ok_bind]
  by_cases hL : r.affL = []
  · rw [if_pos hL]
    have hno : ∀ i, r.k ≤ i → i < k + 1 → cur (f i).1 = 0 := by
      intro i h1 h2
      by_contra hne
      have := (l1 (cur (f i).1)).2 ⟨i, h1, h2, hne, rfl⟩
      rw [hL] at this
      simp at this
    have haffV : r.affV = [] := by
      apply List.eq_nil_iff_forall_not_mem.2
      intro x hx
      obtain ⟨i, h1, h2, h3, _⟩ := (v1 x).1 hx
      exact h3 (hno i h1 h2)
    have hhist : hist ≠ [] := by
      intro hx
      have := hno k hrk (by omega)
      rw [(h.start hx).2 _ (ec.lt k (by omega)).1] at this
      omega
    refine ⟨r.k, _, hist, cur, noise, last, rfl, hrk, ?_, hhist⟩
    have hnone : ∀ v, ¬ ∃ y ∈ r.affV, RK f r.k v y := by
      rintro v ⟨y, hy, _⟩
      rw [haffV] at hy
      simp at hy
    refine ⟨by omega, ⟨h.rep.cur, h.rep.noise, h.rep.last, h.rep.next⟩, h.prev, haffV, d1, h.bk, h.twin, h.off, h.lines, h.lc, huni', ?_, ?_, ?_, ?_, ?_, ?_,
      fun hx => absurd hx hhist, fun _ => by omega, hgap, h.ord, ?_, h.line⟩
    · intro u v hu hv hu0 he
      exact hkeep u v (by omega) (hnone u) (h.con u v hu hv hu0 he)
    · intro u hu hu0 hv
      exact h.inv u hu hu0 (hv.mono hk')
    · intro u hu hu0
      exact hkeepV u (by omega) (hnone u) (h.val u hu hu0)
    · intro u hu hu0
      exact hkeepE u hu0 (hnone u) (h.edge u hu hu0)
    · intro u v hu hv hu0 he hM
      exact hkeep u v hu0 (hnone u) (h.con1 u v hu hv hu0 he hM)
    · intro u hu hu0
      exact (h.val1 u hu hu0).imp (hkeepV u hu0 (hnone u)) (fun hx v hv => hkeep u v hu0 (hnone u) (hx v hv))
    · intro x hx i hi
      exact h.rest x hx i (by omega)
  · rw [if_neg hL]
    have hsym := sym_ofW d1 hlt'
    have hreach := reach_eqW d1 hlt'
    have hvalid : ∀ u, Valid r.adj m u ↔ VK f r.k m u := valid_iffW d1 hlt' m2
    have hbk0 := h.bk.open (f k).2.2
    have hlab : ∀ L ∈ r.affL, 1 ≤ L ∧ L < st.wk.clusters.length ∧ ∃ p, p < n ∧ cur p = L := by
      intro L hL
      obtain ⟨i, h1, h2, h3, rfl⟩ := (l1 L).1 hL
      have hiM := ec.lt i (by omega)
      have := h.bk.lt hist.length _ hiM.1
      rw [lab_end (le_refl _)] at this
      exact ⟨by omega, this, _, hiM.1, rfl⟩
    have hplt : ∀ v, v < n → cur v < st.wk.clusters.length := by
      intro v hv
      have := h.bk.lt hist.length v hv
      rwa [lab_end (le_refl _)] at this
    have cx : LCtx n m r.adj cur st.wk.clusters.length r.affL r.affV (fun v => n ≤ v ∨ ¬ ∃ x ∈ r.affV, Reach r.adj v x) := by
      refine ⟨n32, m1, hsym, ?_, hlab, hplt, ?_, ?_⟩
      · intro u v huv
        by_cases he : u = v
        · rw [he]
        · exact huni' u v ((nbr_iffW d1 hlt' he).1 huv)
      · intro x hx
        obtain ⟨i, h1, h2, h3, h4⟩ := (v1 x).1 hx
        have hiM := ec.lt i (by omega)
        have hAB : cur (f i).2.1 = cur (f i).1 := h.uni _ _ ⟨i, h2, .inl ⟨rfl, rfl⟩⟩
        rcases h4 with rfl | rfl
        · exact ⟨hiM.1, (l1 _).2 ⟨i, h1, h2, h3, rfl⟩⟩
        · exact ⟨hiM.2, (l1 _).2 ⟨i, h1, h2, h3, hAB⟩⟩
      · intro v _ _
        by_cases hx : ∃ x ∈ r.affV, Reach r.adj v x
        · exact .inl hx
        · exact .inr (.inr hx)
    have li0 : LI ar n m r.adj hist (f k).2.2 cur st.wk.clusters r.affL r.affV (fun v => n ≤ v ∨ ¬ ∃ x ∈ r.affV, Reach r.adj v x) r.affL r.affV { st.wk with fresh := [] } cur noise last := by
      refine ⟨⟨h.rep.cur, h.rep.noise, h.rep.last, h.rep.next⟩, hbk0, le_refl _, fun l c0 hc => ⟨c0, hc, rfl⟩, by simp, fun hz => absurd (.inl (le_refl n)) (hz n), h.twin, fun _ _ _ => rfl,
        fun v hv h1 h2 => absurd h1 h2, cx.uni, fun u v _ _ h1 h2 => absurd h1 h2, nl1, fun l hl => hl, ?_, nv1⟩
      intro x
      exact ⟨fun hx => ⟨hx, (cx.vert x hx).2⟩, fun hx => hx.1⟩
    obtain ⟨wk', cur', noise', last', e2, li⟩ := clustersLoop_rep cx r.affL.length r.affL r.affV _ cur noise last li0 (le_refl _)
    rw [e2, Outcome.ok_bind]
    simp only
    -- the end of the level
    have hcslen := li.len
    obtain ⟨cs', o1, o2, o3, o4⟩ := setOffsets_rep (lc := st.lineCount + 1) st.wk.clusters.length (wk'.clusters.length - st.wk.clusters.length) wk'.clusters
      (by have := h.bk.two; omega) (by omega) (fun l hl1 hl2 => by
        obtain ⟨c, hc, _⟩ := li.bk.cl l (by have := h.bk.two; omega) hl2
        exact ⟨c, hc⟩)
    have hend : endLevel false (f k).2.2 { st with adj := r.adj, wk := wk', affV := [] } = .ok
        { adj := r.adj, wk := { wk' with clusters := cs', fresh := [] }, prev := wk'.cur, lines := st.lines ++ [(st.lineCount + 1, (f k).2.2, st.prev)],
          lineCount := st.lineCount + 1, significant := !wk'.fresh.isEmpty, affV := [] } := by
      unfold endLevel
      simp only [Bool.not_false, Bool.true_or, if_true]
      rw [li.fresh, o1, Outcome.ok_bind]
      rfl
    rw [hend, Outcome.ok_bind]
    have hsame : SameButOffset wk'.clusters cs' := by
      refine ⟨o2, o3 0 (by have := h.bk.two; omega), ?_⟩
      intro l c' hc'
      by_cases hl : l < st.wk.clusters.length
      · rw [o3 l hl] at hc'
        exact ⟨c', hc', rfl⟩
      · have hlt := lt_of_get hc'
        rw [o2] at hlt
        obtain ⟨c, hc, _⟩ := li.bk.cl l (by have := h.bk.two; omega) hlt
        rw [o4 l c (by omega) hc] at hc'
        simp only [Option.some.injEq] at hc'
        subst hc'
        exact ⟨c, hc, rfl⟩
    have hsame' : SameButOffset cs' wk'.clusters := by
      refine ⟨o2.symm, (o3 0 (by have := h.bk.two; omega)).symm, ?_⟩
      intro l c hc
      by_cases hl : l < st.wk.clusters.length
      · exact ⟨c, by rw [o3 l hl]; exact hc, rfl⟩
      · exact ⟨_, o4 l c (by omega) hc, rfl⟩
    refine ⟨r.k, _, hist ++ [((f k).2.2, cur)], cur', noise', last', rfl, hrk, ?_, by simp⟩
    have hlast : ∀ p, lab (hist ++ [((f k).2.2, cur)]) cur' (hist.length + 1) p = cur' p := fun p => by rw [lab_end (by simp)]
    have hbkC := li.bk.sameButOffset hsame hsame'
    have hcase : ∀ v, v < n → (cur v ∈ r.affL ∧ (∃ y ∈ r.affV, RK f r.k v y) ∧
          ((cur' v = cur v ∧ VK f r.k m v) ∨ (cur' v = 0 ∧ ¬ VK f r.k m v) ∨ (st.wk.clusters.length ≤ cur' v ∧ VK f r.k m v))) ∨
        ((¬ ∃ y ∈ r.affV, RK f r.k v y) ∧ (cur' v = cur v ∨ (cur' v = 0 ∧ ¬ VK f r.k m v) ∨ (st.wk.clusters.length ≤ cur' v ∧ VK f r.k m v)) ∧ (2 ≤ cur v → cur v ∉ r.affL)) := by
      intro v hv
      by_cases hvL : cur v ∈ r.affL
      · have := li.done v hv hvL (by simp)
        rw [hvalid, hreach] at this
        by_cases hx : ∃ y ∈ r.affV, RK f r.k v y
        · left
          refine ⟨hvL, hx, ?_⟩
          rcases this with ⟨q1, q2 | q2 | q2⟩ | q | q
          · exact .inl ⟨q1, q2⟩
          · omega
          · exact absurd hx q2
          · exact .inr (.inl q)
          · exact .inr (.inr q)
        · right
          refine ⟨hx, ?_, fun h2 _ => hx (hcov v hv h2 hvL)⟩
          rcases this with ⟨q1, _⟩ | q | q
          · exact .inl q1
          · exact .inr (.inl q)
          · exact .inr (.inr q)
      · exact .inr ⟨hfar v hvL, .inl (li.todo v hv (.inl hvL)), fun _ => hvL⟩
    refine ⟨by omega, ⟨li.rep.cur, li.rep.noise, li.rep.last, by rw [o2]; exact li.rep.next⟩, li.rep.cur, rfl, d1, hbkC, li.twin.sameButOffset hsame hsame', ?_, ?_, by simp [h.lc],
      ?_, ?_, ?_, ?_, ?_, ?_, ?_, by simp, fun _ => by omega, hgap, ?_, ?_, ?_⟩
    · intro l c hl hc
      by_cases hlo : l < st.wk.clusters.length
      · rw [o3 l hlo] at hc
        obtain ⟨c0, hc0, _⟩ := h.bk.cl l (by omega) hlo
        obtain ⟨c1, q1, q2⟩ := li.old l c0 hc0
        rw [hc] at q1
        simp only [Option.some.injEq] at q1
        subst q1
        obtain ⟨s, s1, s2, s3, s4⟩ := h.off l c0 hl hc0
        have hll : ∀ s', s' ≤ hist.length → lab (hist ++ [((f k).2.2, cur)]) cur' s' = lab hist cur s' := by
          intro s' hs'
          rw [← lab_append (w := (f k).2.2) (cur := cur)]
          exact lab_lt (by simp; omega)
        refine ⟨s, by simp; omega, q2.trans s2, ?_, ?_⟩
        · intro s' hs'
          rw [hll s' (by omega)]
          exact s3 s' hs'
        · rw [hll (s + 1) (by omega)]
          exact s4
      · obtain ⟨_, hlt, _⟩ := hbkC.get hc
        rw [o2] at hlt
        obtain ⟨c1, hc1, hi1⟩ := li.bk.cl l (by omega) hlt
        rw [o4 l c1 (by omega) hc1] at hc
        simp only [Option.some.injEq] at hc
        subst hc
        have hfar : ∀ s', s' ≤ hist.length → ∀ p, p < n → lab (hist ++ [((f k).2.2, cur)]) cur' s' p ≠ l := by
          intro s' hs' p hp
          have e : lab (hist ++ [((f k).2.2, cur)]) cur' s' = lab hist cur s' := by
            rw [← lab_append (w := (f k).2.2) (cur := cur)]
            exact lab_lt (by simp; omega)
          rw [e]
          have := h.bk.lt s' p hp
          omega
        refine ⟨hist.length, by simp, by simp [h.lc], hfar, ?_⟩
        obtain ⟨q, s, w', g, b1, b2, b3, b4, b5, b6, b7, b8⟩ := hi1.born (by omega)
        obtain ⟨p, hp, hpl⟩ := cnt_pos.1 (Nat.lt_of_lt_of_le (Nat.lt_of_lt_of_le Nat.zero_lt_one m1) b7)
        have hs := lt_of_get b1
        simp only [List.length_append, List.length_singleton] at hs
        have : s = hist.length := by
          by_contra hne
          exact hfar (s + 1) (by omega) p hp hpl
        subst this
        exact ⟨p, hp, hpl⟩
    · simp [h.lines, h.lc, h.prev, List.zipIdx_append]
    · intro u v huv
      by_cases he : u = v
      · rw [he]
      · exact li.uni u v ((nbr_iffW d1 hlt' he).2 huv)
    · intro u v hu hv hu0 he
      have hpu := hplt u hu
      have hpv := hplt v hv
      by_cases huL : cur u ∈ r.affL <;> by_cases hvL : cur v ∈ r.affL
      · have := li.sep u v hu hv huL (by simp) hvL (by simp) (by omega) he
        rw [hreach] at this
        rcases this with hr | ⟨he', hz⟩
        · exact hr
        · exfalso
          have hu2 : 2 ≤ cur u := by omega
          rcases hz with (hz | hz) | (hz | hz)
          · omega
          · exact hz (hcov u hu hu2 huL)
          · omega
          · have hd := li.done v hv hvL (by simp)
            have hvv : cur v = cur u := by
              rcases hd with hd | hd | hd
              · rw [← hd.1, he, he']
              · omega
              · omega
            exact hz (hcov v hv (by omega) hvL)
      · exfalso
        have hv' := li.todo v hv (.inl hvL)
        have hd := li.done u hu huL (by simp)
        rcases hd with hd | hd | hd
        · apply hvL
          rw [← hv', he, hd.1]; exact huL
        · omega
        · omega
      · exfalso
        have hu' := li.todo u hu (.inl huL)
        have hd := li.done v hv hvL (by simp)
        rcases hd with hd | hd | hd
        · apply huL
          rw [← hu', ← he, hd.1]; exact hvL
        · omega
        · omega
      · have hu' := li.todo u hu (.inl huL)
        have hv' := li.todo v hv (.inl hvL)
        exact hkeep u v (by omega) (hfar u huL) (h.con u v hu hv (by omega) (by omega))
    · intro u hu hu0 hv
      by_cases huL : cur u ∈ r.affL
      · have hd := li.done u hu huL (by simp)
        have := (hlab _ huL).1
        rcases hd with hd | hd | hd
        · omega
        · exact hd.2 ((hvalid u).2 hv)
        · have := h.bk.two
          omega
      · have hu' := li.todo u hu (.inl huL)
        exact h.inv u hu (by omega) (hv.mono hk')
    · intro u hu hu0
      rcases hcase u hu with ⟨_, _, hu2 | hu2 | hu2⟩ | ⟨hu1, hu2 | hu2 | hu2, _⟩
      · exact hu2.2
      · omega
      · exact hu2.2
      · exact hkeepV u (by omega) hu1 (h.val u hu (by omega))
      · omega
      · exact hu2.2
    · intro u hu hu0
      rcases hcase u hu with ⟨_, _, hu2 | hu2 | hu2⟩ | ⟨hu1, hu2 | hu2 | hu2, _⟩
      · exact hu2.2.2
      · omega
      · exact hu2.2.2
      · exact hkeepE u (by omega) hu1 (h.edge u hu (by omega))
      · omega
      · exact hu2.2.2
    · intro u v hu hv hu0 he hM
      have hpu := hplt u hu
      have hpv := hplt v hv
      by_cases huL : cur u ∈ r.affL <;> by_cases hvL : cur v ∈ r.affL
      · have := li.sep u v hu hv huL (by simp) hvL (by simp) (by omega) he
        rw [hreach] at this
        rcases this with hr | ⟨he', hz⟩
        · exact hr
        · have hd := li.done v hv hvL (by simp)
          have hvv : cur v = cur u := by
            rcases hd with hd | hd | hd
            · rw [← hd.1, he, he']
            · omega
            · omega
          have hold := h.con1 u v hu hv (by omega) hvv hM
          rcases hz with (hz | hz) | (hz | hz)
          · omega
          · exact hkeep u v (by omega) hz hold
          · omega
          · exact rk_symm (hkeep v u (by omega) hz (rk_symm hold))
      · exfalso
        have hv' := li.todo v hv (.inl hvL)
        have hd := li.done u hu huL (by simp)
        rcases hd with hd | hd | hd
        · apply hvL
          rw [← hv', he, hd.1]; exact huL
        · omega
        · omega
      · exfalso
        have hu' := li.todo u hu (.inl huL)
        have hd := li.done v hv hvL (by simp)
        rcases hd with hd | hd | hd
        · apply huL
          rw [← hu', ← he, hd.1]; exact hvL
        · omega
        · omega
      · have hu' := li.todo u hu (.inl huL)
        have hv' := li.todo v hv (.inl hvL)
        exact hkeep u v (by omega) (hfar u huL) (h.con1 u v hu hv (by omega) (by omega) hM)
    · intro u hu hu0
      rcases hcase u hu with ⟨_, _, hu2 | hu2 | hu2⟩ | ⟨hu1, hu2 | hu2 | hu2, _⟩
      · exact .inl hu2.2
      · omega
      · exact .inl hu2.2
      · exact (h.val1 u hu (by omega)).imp (hkeepV u (by omega) hu1) (fun hx v hv => hkeep u v (by omega) hu1 (hx v hv))
      · omega
      · exact .inl hu2.2
    · rw [List.map_append, List.pairwise_append]
      refine ⟨h.ord, by simp, ?_⟩
      intro a ha b hb
      simp only [List.map_cons, List.map_nil, List.mem_singleton] at hb
      subst hb
      obtain ⟨x, hx, rfl⟩ := List.mem_map.1 ha
      exact h.rest x hx k (by omega)
    · intro x hx i hi
      rcases List.mem_append.1 hx with hx | hx
      · exact h.rest x hx i (by omega)
      · simp only [List.mem_singleton] at hx
        subst hx
        exact hgapw i hi
    · intro x hx
      rcases List.mem_append.1 hx with hx | hx
      · exact h.line x hx
      · simp only [List.mem_singleton] at hx
        subst hx
        exact ⟨_, h.lineW ec⟩

theorem mainLoop_repW (ec : EW n M f) (hva : va = (List.range M).map (fun i => (f i).1)) (hvb : vb = (List.range M).map (fun i => (f i).2.1))
    (hwt : wt = (List.range M).map (fun i => (f i).2.2)) (n32 : n < 2 ^ 32) (m2 : 2 ≤ m) :
    ∀ (fuel k : Nat) (st : St W S) (hist cur noise last), TopW ar n m M f k st hist cur noise last → k ≤ fuel →
    ∃ st' hist' cur' noise' last', mainLoop ar m false va vb wt fuel k st = .ok st' ∧ TopW ar n m M f 0 st' hist' cur' noise' last' := by
  intro fuel
  induction fuel with
  | zero =>
    intro k st hist cur noise last h hk
    have : k = 0 := by omega
    subst this
    exact ⟨st, hist, cur, noise, last, by simp [mainLoop], h⟩
  | succ fuel ih =>
    intro k st hist cur noise last h hk
    cases k with
    | zero => exact ⟨st, hist, cur, noise, last, by simp [mainLoop], h⟩
    | succ k =>
      obtain ⟨k', st', hist', cur', noise', last', e, hk', ht, _⟩ := level_repW ec hva hvb hwt n32 m2 h
      obtain ⟨st2, hist2, cur2, noise2, last2, e2, ht2⟩ := ih k' st' hist' cur' noise' last' ht (by omega)
      refine ⟨st2, hist2, cur2, noise2, last2, ?_, ht2⟩
      rw [mainLoop, e, Outcome.ok_bind]
      exact e2

theorem initial_twins {g : Graph W} : Twins (initial ar g).wk.clusters := by
  intro l c q hc hq
  match l with
  | 0 => simp [initial] at hc
  | 1 =>
    simp only [initial, List.getElem?_cons_succ, List.getElem?_cons_zero, Option.some.injEq] at hc
    subst hc
    cases hq
  | l + 2 => simp [initial] at hc

theorem initial_topW {g : Graph W} (hM : 1 ≤ M) (ec : EW n M f) (hgn : g.numVertices = n)
    (hd : DescW n g.edges (prs f M)) (hself : ∀ u, u < n → ∃ x, Jn f M u x) :
    TopW ar n m M f M (initial ar g) [] (fun _ => 1) (fun _ => none) (fun _ => none) := by
  have hn : 1 ≤ n := by have := (ec.lt 0 (by omega)).1; omega
  refine ⟨le_refl _, ⟨by simp [initial, hgn], by simp [initial, hgn], by simp [initial, hgn], by simp [initial]⟩, by simp [initial, hgn], rfl, hd,
    hgn ▸ BK.start ar m (hgn ▸ hn), initial_twins, ?_, rfl, rfl, fun _ _ _ => rfl, by simp, by simp, by simp, ?_, fun _ _ _ _ _ _ h => h, fun _ _ _ => .inr (fun _ h => h),
    fun _ => ⟨rfl, fun _ _ => rfl⟩, by simp, ?_, by simp, by simp, by simp⟩
  · intro l c hl hc
    match l with
    | 0 => omega
    | 1 => omega
    | l + 2 => simp [initial] at hc
  · intro u hu _
    obtain ⟨x, hx⟩ := hself u hu
    exact ⟨u, x, .refl, hx⟩
  · intro i j h1 h2 h3; omega

/-- The hierarchy of any graph in which every vertex has an edge, for at least two points per cluster. -/
theorem any_rep {g : Graph W} (ar : Arith W S) (hr : Graph.ERep g M f) (hM : 1 ≤ M) (ec : EW n M f) (hgn : g.numVertices = n) (n32 : n < 2 ^ 32) (m2 : 2 ≤ m)
    (hd : DescW n g.edges (prs f M)) (hself : ∀ u, u < n → ∃ x, Jn f M u x) :
    ∃ (res : Result W S) (hist : List (W × (Nat → Nat))) (cur : Nat → Nat) (noise : Nat → Option W) (last : Nat → Option Nat),
      compute ar m false g = .ok res ∧ Base ar n m res hist cur noise last ∧ (∀ h ∈ hist, ∃ k', LineW n m M f h k') ∧ Twins res.clusters := by
  have hwl : g.wt.length = M := Graph.length_erep hr
  obtain ⟨st, hist, cur, noise, last, e, ht⟩ := mainLoop_repW ec hr.va hr.vb hr.wt n32 m2 M M (initial ar g) [] _ _ _ (initial_topW hM ec hgn hd hself) (le_refl _)
  have hne : hist ≠ [] := by
    intro hx
    have := (ht.start hx).1
    omega
  have hz : ∀ u, u < n → cur u = 0 := by
    intro u hu
    by_contra hne
    obtain ⟨v, x, _, i, hi, _⟩ := ht.edge u hu hne
    omega
  refine ⟨{ adj := st.adj, clusters := st.wk.clusters, hierarchy := st.lines ++ [(0, ar.zeroW, List.replicate n 0)], noise := st.wk.noise,
            last := st.wk.last, cur := st.wk.cur }, hist, cur, noise, last, ?_, ⟨by omega, hne, hz, ht.bk, ht.off, by rw [ht.lines], ht.ord, ht.rep.noise, ht.rep.last, ht.rep.cur⟩, ht.line, ht.twin⟩
  unfold compute
  rw [hwl, hgn, e]
  rfl

end
end Verif.Hier
