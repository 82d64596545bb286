import Verif.Lemmas.Level
/-
Helper lemmas for the hierarchy: removal of the edges of one weight, one level, the main loop.
-/
namespace Verif.Hier
variable {W S : Type}

/-- The first `k` edges as pairs. -/
def prs (f : Nat → Nat × Nat × W) (k : Nat) : List (Nat × Nat) := (List.range k).map (fun i => ((f i).1, (f i).2.1))

/-- One of the first `k` edges joins `u` and `v`. -/
def Jn (f : Nat → Nat × Nat × W) (k : Nat) (u v : Nat) : Prop :=
  ∃ i, i < k ∧ (((f i).1 = u ∧ (f i).2.1 = v) ∨ ((f i).1 = v ∧ (f i).2.1 = u))

def RK (f : Nat → Nat × Nat × W) (k : Nat) : Nat → Nat → Prop := Relation.ReflTransGen (Jn f k)

def VK (f : Nat → Nat × Nat × W) (k m u : Nat) : Prop :=
  (∃ l : List Nat, l.Nodup ∧ m ≤ l.length ∧ ∀ v ∈ l, RK f k u v) ∧ ∃ v x, RK f k u v ∧ Jn f k v x

theorem Jn.symm {f : Nat → Nat × Nat × W} {k u v} (h : Jn f k u v) : Jn f k v u := by
  obtain ⟨i, h1, h2⟩ := h
  exact ⟨i, h1, h2.symm⟩

theorem Jn.mono {f : Nat → Nat × Nat × W} {k k' u v} (hk : k ≤ k') (h : Jn f k u v) : Jn f k' u v := by
  obtain ⟨i, h1, h2⟩ := h
  exact ⟨i, by omega, h2⟩

theorem nbr_iff {n k : Nat} {adj : List (List Nat)} {f : Nat → Nat × Nat × W} (h : Spec.Describes n adj (prs f k))
    (hb : ∀ i, i < k → (f i).1 < n ∧ (f i).2.1 < n) (u v : Nat) : Nbr adj u v ↔ Jn f k u v := by
  by_cases hu : u < n
  · have := h.2 u v hu
    rw [Nbr, ← List.count_pos_iff, this, List.countP_pos_iff]
    constructor
    · rintro ⟨e, he, hj⟩
      rw [prs, List.mem_map] at he
      obtain ⟨i, hi, rfl⟩ := he
      refine ⟨i, List.mem_range.1 hi, ?_⟩
      simpa [Spec.joins] using hj
    · rintro ⟨i, hi, hj⟩
      refine ⟨((f i).1, (f i).2.1), List.mem_map.2 ⟨i, List.mem_range.2 hi, rfl⟩, ?_⟩
      simpa [Spec.joins] using hj
  · constructor
    · intro hx
      rw [Nbr] at hx
      rw [List.getElem?_eq_none (by rw [h.1]; omega)] at hx
      simp at hx
    · rintro ⟨i, hi, hj⟩
      have := hb i hi
      omega

theorem reach_eq {n k : Nat} {adj : List (List Nat)} {f : Nat → Nat × Nat × W} (h : Spec.Describes n adj (prs f k))
    (hb : ∀ i, i < k → (f i).1 < n ∧ (f i).2.1 < n) : Reach adj = RK f k := by
  have : Nbr adj = Jn f k := by
    funext u v
    exact propext (nbr_iff h hb u v)
  rw [Reach, RK, this]

theorem valid_iff {n k m : Nat} {adj : List (List Nat)} {f : Nat → Nat × Nat × W} (h : Spec.Describes n adj (prs f k))
    (hb : ∀ i, i < k → (f i).1 < n ∧ (f i).2.1 < n) (u : Nat) : Valid adj m u ↔ VK f k m u := by
  have : Nbr adj = Jn f k := by
    funext u v
    exact propext (nbr_iff h hb u v)
  rw [Valid, VK, reach_eq h hb, this]

theorem sym_of {n k : Nat} {adj : List (List Nat)} {f : Nat → Nat × Nat × W} (h : Spec.Describes n adj (prs f k))
    (hb : ∀ i, i < k → (f i).1 < n ∧ (f i).2.1 < n) : Sym n adj := by
  refine ⟨h.1, ?_, ?_⟩
  · intro u v huv
    obtain ⟨i, hi, hj⟩ := (nbr_iff h hb u v).1 huv
    have := hb i hi
    omega
  · intro u v huv
    rw [nbr_iff h hb] at *
    exact huv.symm

theorem RK.mono {f : Nat → Nat × Nat × W} {k k' u v} (hk : k ≤ k') (h : RK f k u v) : RK f k' u v := by
  induction h with
  | refl => exact Relation.ReflTransGen.refl
  | tail _ h2 ih => exact ih.tail (h2.mono hk)

theorem VK.mono {f : Nat → Nat × Nat × W} {k k' m u} (hk : k ≤ k') (h : VK f k m u) : VK f k' m u := by
  obtain ⟨⟨l, h1, h2, h3⟩, v, x, h4, h5⟩ := h
  exact ⟨⟨l, h1, h2, fun v hv => (h3 v hv).mono hk⟩, v, x, h4.mono hk, h5.mono hk⟩

theorem describes_perm {n : Nat} {adj : List (List Nat)} {E E' : List (Nat × Nat)} (hp : E.Perm E') (h : Spec.Describes n adj E) : Spec.Describes n adj E' :=
  ⟨h.1, fun v w hv => by rw [h.2 v w hv, hp.countP_eq]⟩

theorem prs_succ (f : Nat → Nat × Nat × W) (k : Nat) : prs f (k + 1) = prs f k ++ [((f k).1, (f k).2.1)] := by simp [prs, List.range_succ]

/-- What is fixed during the construction: the edges `f 0, ..., f (M-1)`, sorted by weight. -/
structure EC [LinearOrder W] (n M : Nat) (f : Nat → Nat × Nat × W) : Prop where
  lt : ∀ i, i < M → (f i).1 < n ∧ (f i).2.1 < n
  sorted : ∀ i j, i ≤ j → j < M → (f i).2.2 ≤ (f j).2.2
  self : ∀ v, (prs f M).countP (Spec.joins v v) ≤ 1

theorem EC.self_le [LinearOrder W] {n M : Nat} {f : Nat → Nat × Nat × W} (h : EC n M f) {k : Nat} (hk : k ≤ M) (v : Nat) :
    (prs f k).countP (Spec.joins v v) ≤ 1 := by
  refine Nat.le_trans ?_ (h.self v)
  have hs : (prs f k).Sublist (prs f M) := by
    rw [prs, prs]
    exact (List.range_sublist.2 hk).map _
  exact hs.countP_le

theorem removeOne_rep [LinearOrder W] {n M k : Nat} {f : Nat → Nat × Nat × W} {va vb : List Nat} {cur : Nat → Nat} {r : Removal}
    (ec : EC n M f) (hva : va = (List.range M).map (fun i => (f i).1)) (hvb : vb = (List.range M).map (fun i => (f i).2.1))
    (hk : k < M) (hd : Spec.Describes n r.adj (prs f (k + 1))) :
    ∃ r' : Removal, removeOne va vb ((List.range n).map cur) k r = .ok r' ∧ r'.k = k ∧ Spec.Describes n r'.adj (prs f k) ∧
      (∀ v, v ∈ r'.affV ↔ v ∈ r.affV ∨ (cur (f k).1 ≠ 0 ∧ (v = (f k).1 ∨ v = (f k).2.1))) ∧
      (∀ l, l ∈ r'.affL ↔ l ∈ r.affL ∨ (cur (f k).1 ≠ 0 ∧ l = cur (f k).1)) ∧
      (r.affV.Nodup → r'.affV.Nodup) ∧ (r.affL.Nodup → r'.affL.Nodup) := by
  obtain ⟨ha, hb⟩ := ec.lt k hk
  obtain ⟨g', e1, e2, _⟩ := Graph.removeEdge_describes (g := { numVertices := 0, va := va, vb := vb, wt := ([] : List Unit), edges := r.adj }) hd ha hb
    (by rw [prs_succ]; simp) (fun _ => ec.self_le (by omega) _)
  have hd' : Spec.Describes n g'.edges (prs f k) := by
    refine describes_perm ?_ e2
    rw [prs_succ]
    have h1 : (prs f k ++ [((f k).1, (f k).2.1)]).Perm (((f k).1, (f k).2.1) :: prs f k) := List.perm_append_singleton _ _
    have := h1.erase ((f k).1, (f k).2.1)
    rwa [List.erase_cons_head] at this
  unfold removeOne
  subst hva hvb
  rw [Graph.rd_map _ hk, Outcome.ok_bind, Graph.rd_map _ hk, Outcome.ok_bind, e1, Outcome.ok_bind, Graph.rd_map _ ha, Outcome.ok_bind]
  by_cases hl : cur (f k).1 = 0
  · rw [if_pos hl]
    exact ⟨_, rfl, rfl, hd', fun v => by simp [hl], fun l => by simp [hl], fun h => h, fun h => h⟩
  · rw [if_neg hl]
    refine ⟨_, rfl, rfl, hd', fun v => ?_, fun l => ?_, fun h => nodup_sInsert (nodup_sInsert h _) _, fun h => nodup_sInsert h _⟩
    · simp only [mem_sInsert]
      tauto
    · simp only [mem_sInsert]
      tauto

theorem removeTied_rep [LinearOrder W] {n M : Nat} {f : Nat → Nat × Nat × W} {va vb : List Nat} {wt : List W} {cur : Nat → Nat} {w : W}
    (ec : EC n M f) (hva : va = (List.range M).map (fun i => (f i).1)) (hvb : vb = (List.range M).map (fun i => (f i).2.1))
    (hwt : wt = (List.range M).map (fun i => (f i).2.2)) :
    ∀ (k : Nat) (r : Removal), k ≤ M → r.k = k → Spec.Describes n r.adj (prs f k) →
    ∃ r' : Removal, removeTied va vb wt ((List.range n).map cur) w k r = .ok r' ∧ r'.k ≤ k ∧ Spec.Describes n r'.adj (prs f r'.k) ∧
      (∀ i, r'.k ≤ i → i < k → (f i).2.2 = w) ∧ (r'.k = 0 ∨ (f (r'.k - 1)).2.2 ≠ w) ∧
      (∀ v, v ∈ r'.affV ↔ v ∈ r.affV ∨ ∃ i, r'.k ≤ i ∧ i < k ∧ cur (f i).1 ≠ 0 ∧ (v = (f i).1 ∨ v = (f i).2.1)) ∧
      (∀ l, l ∈ r'.affL ↔ l ∈ r.affL ∨ ∃ i, r'.k ≤ i ∧ i < k ∧ cur (f i).1 ≠ 0 ∧ l = cur (f i).1) ∧
      (r.affV.Nodup → r'.affV.Nodup) ∧ (r.affL.Nodup → r'.affL.Nodup) := by
  intro k
  induction k with
  | zero =>
    intro r _ hrk hd
    refine ⟨r, rfl, by omega, by rw [hrk]; exact hd, by omega, .inl hrk, ?_, ?_, fun h => h, fun h => h⟩
    · intro v; constructor
      · exact .inl
      · rintro (h | ⟨i, _, h, _⟩)
        · exact h
        · omega
    · intro v; constructor
      · exact .inl
      · rintro (h | ⟨i, _, h, _⟩)
        · exact h
        · omega
  | succ k ih =>
    intro r hkM hrk hd
    unfold removeTied
    subst hwt
    rw [Graph.rd_map _ (by omega), Outcome.ok_bind]
    simp only [ccmp_eq, decide_eq_true_eq]
    by_cases hw : (f k).2.2 = w
    · rw [if_pos hw]
      obtain ⟨r1, e1, k1, d1, v1, l1, nv1, nl1⟩ := removeOne_rep (cur := cur) ec hva hvb (k := k) (by omega) hd
      obtain ⟨r2, e2, k2, d2, t2, z2, v2, l2, nv2, nl2⟩ := ih r1 (by omega) k1 (by exact d1)
      refine ⟨r2, by rw [e1, Outcome.ok_bind]; exact e2, by omega, d2, ?_, z2, ?_, ?_, fun h => nv2 (nv1 h), fun h => nl2 (nl1 h)⟩
      · intro i h1 h2
        by_cases hi : i = k
        · subst hi; exact hw
        · exact t2 i h1 (by omega)
      · intro v
        rw [v2, v1]
        constructor
        · rintro ((h | h) | ⟨i, h1, h2, h3⟩)
          · exact .inl h
          · exact .inr ⟨k, k2, by omega, h⟩
          · exact .inr ⟨i, h1, by omega, h3⟩
        · rintro (h | ⟨i, h1, h2, h3⟩)
          · exact .inl (.inl h)
          · by_cases hi : i = k
            · subst hi; exact .inl (.inr h3)
            · exact .inr ⟨i, h1, by omega, h3⟩
      · intro v
        rw [l2, l1]
        constructor
        · rintro ((h | h) | ⟨i, h1, h2, h3⟩)
          · exact .inl h
          · exact .inr ⟨k, k2, by omega, h⟩
          · exact .inr ⟨i, h1, by omega, h3⟩
        · rintro (h | ⟨i, h1, h2, h3⟩)
          · exact .inl (.inl h)
          · by_cases hi : i = k
            · subst hi; exact .inl (.inr h3)
            · exact .inr ⟨i, h1, by omega, h3⟩
    · rw [if_neg hw]
      refine ⟨r, rfl, by omega, by rw [hrk]; exact hd, by omega, .inr (by rw [hrk]; exact hw), ?_, ?_, fun h => h, fun h => h⟩
      · intro v; constructor
        · exact .inl
        · rintro (h | ⟨i, h1, h2, _⟩)
          · exact h
          · omega
      · intro v; constructor
        · exact .inl
        · rintro (h | ⟨i, h1, h2, _⟩)
          · exact h
          · omega

/-- Changing only the offset. -/
theorem CInv.offset {ar : Arith W S} {n m hist cur l} {c : Cl W S} (h : CInv ar n m hist cur l c) (o : Nat) : CInv ar n m hist cur l { c with offset := o } :=
  ⟨h.label, h.num, h.root, h.born, h.dead, h.alive, h.stab, h.vc, h.vn, h.prop, h.calls⟩

/-- The two lists of clusters agree except for offsets. -/
def SameButOffset (cs cs' : List (Option (Cl W S))) : Prop :=
  cs'.length = cs.length ∧ cs'[0]? = cs[0]? ∧
  ∀ (l : Nat) (c' : Cl W S), cs'[l]? = some (some c') → ∃ c : Cl W S, cs[l]? = some (some c) ∧ c' = { c with offset := c'.offset }

theorem BK.sameButOffset {ar : Arith W S} {n m hist cur cs cs' noise last} (h : BK ar n m hist cur cs noise last)
    (hs : SameButOffset cs cs') (hs' : SameButOffset cs' cs) : BK ar n m hist cur cs' noise last := by
  refine ⟨hs.2.1.trans h.zero, by rw [hs.1]; exact h.two, ?_, ?_, ?_, h.one, h.mono, h.noise⟩
  · intro l h1 h2
    rw [hs.1] at h2
    obtain ⟨c, hc, hi⟩ := h.cl l h1 h2
    obtain ⟨c', hc', he⟩ := hs'.2.2 l c hc
    refine ⟨c', hc', ?_⟩
    have : c' = { c with offset := c'.offset } := by rw [he]
    rw [this]
    exact hi.offset _
  · intro l c' hc'
    obtain ⟨c, hc, he⟩ := hs.2.2 l c' hc'
    have := h.kids l c hc
    rw [he]
    refine this.trans ⟨?_, ?_⟩
    · rintro ⟨l', x, hx, hp⟩
      obtain ⟨x', hx', hxe⟩ := hs'.2.2 l' x hx
      rw [hxe] at hp
      exact ⟨l', x', hx', hp⟩
    · rintro ⟨l', x, hx, hp⟩
      obtain ⟨x', hx', hxe⟩ := hs.2.2 l' x hx
      rw [hxe] at hp
      exact ⟨l', x', hx', hp⟩
  · intro s p hp
    rw [hs.1]; exact h.lt s p hp

theorem SplitOK.sameButOffset {cs cs' : List (Option (Cl W S))} (h : SplitOK cs) (hs : SameButOffset cs cs') (hs' : SameButOffset cs' cs) : SplitOK cs' := by
  intro l c' q hc' hq
  obtain ⟨c, hc, he⟩ := hs.2.2 l c' hc'
  rw [he] at hq
  obtain ⟨cq, s1, s2, s3, l2, c2, s4, s5, s6⟩ := h l c q hc hq
  obtain ⟨cq', t1, te⟩ := hs'.2.2 q cq s1
  obtain ⟨c2', u1, ue⟩ := hs'.2.2 l2 c2 s5
  rw [te] at s2 s3
  rw [ue] at s6
  refine ⟨cq', t1, s2, ?_, l2, c2', s4, u1, s6⟩
  rw [he]; exact s3

theorem Twins.sameButOffset {cs cs' : List (Option (Cl W S))} (h : Twins cs) (hs : SameButOffset cs cs') (hs' : SameButOffset cs' cs) : Twins cs' := by
  intro l c' q hc' hq
  obtain ⟨c, hc, he⟩ := hs.2.2 l c' hc'
  rw [he] at hq
  obtain ⟨l2, c2, s4, s5, s6⟩ := h l c q hc hq
  obtain ⟨c2', u1, ue⟩ := hs'.2.2 l2 c2 s5
  rw [ue] at s6
  exact ⟨l2, c2', s4, u1, s6⟩

theorem setOffsets_rep {lc : Nat} : ∀ (a k : Nat) (cs : List (Option (Cl W S))), 1 ≤ a → a + k = cs.length →
    (∀ l, a ≤ l → l < cs.length → ∃ c : Cl W S, cs[l]? = some (some c)) →
    ∃ cs', setOffsets lc (List.range' a k) cs = .ok cs' ∧ cs'.length = cs.length ∧
      (∀ l, l < a → cs'[l]? = cs[l]?) ∧
      (∀ (l : Nat) (c : Cl W S), a ≤ l → cs[l]? = some (some c) → cs'[l]? = some (some { c with offset := lc })) := by
  intro a k
  induction k generalizing a with
  | zero =>
    intro cs h1 h2 _
    refine ⟨cs, rfl, rfl, fun _ _ => rfl, ?_⟩
    intro l c hl hc
    have := lt_of_get hc
    omega
  | succ k ih =>
    intro cs h1 h2 hex
    obtain ⟨c, hc⟩ := hex a (le_refl _) (by omega)
    rw [List.range'_succ, setOffsets, getCl_ok hc, Outcome.ok_bind, wr_ok (by omega), Outcome.ok_bind]
    obtain ⟨cs', e1, e2, e3, e4⟩ := ih (a + 1) (cs.set a (some { c with offset := lc })) (by omega) (by simp; omega) (by
      intro l hl1 hl2
      rw [List.getElem?_set_ne (by omega)]
      exact hex l (by omega) (by simpa using hl2))
    refine ⟨cs', e1, by rw [e2]; simp, ?_, ?_⟩
    · intro l hl
      rw [e3 l (by omega), List.getElem?_set_ne (by omega)]
    · intro l c2 hl hc2
      by_cases hla : l = a
      · subst hla
        rw [e3 l (by omega), List.getElem?_set_self (by omega)]
        rw [hc] at hc2
        simp only [Option.some.injEq] at hc2
        rw [hc2]
      · exact e4 l c2 (by omega) (by rw [List.getElem?_set_ne (by omega)]; exact hc2)

/-- Where the offset of cluster `l` points: the last line in which `l` does not occur yet. -/
def OffOK (n : Nat) (hist : List (W × (Nat → Nat))) (cur : Nat → Nat) (l o : Nat) : Prop :=
  ∃ s, s < hist.length ∧ o = s + 1 ∧ (∀ s', s' ≤ s → ∀ p, p < n → lab hist cur s' p ≠ l) ∧ ∃ p, p < n ∧ lab hist cur (s + 1) p = l

/-- What a line of the hierarchy says, with `k` the number of edges of at most its weight. -/
structure LineK [LinearOrder W] (n m M : Nat) (f : Nat → Nat × Nat × W) (h : W × (Nat → Nat)) (k : Nat) : Prop where
  le : k ≤ M
  wt : ∀ i, i < M → (i < k ↔ (f i).2.2 ≤ h.1)
  at' : ∃ i, i < M ∧ (f i).2.2 = h.1
  conn : ∀ u v, u < n → v < n → h.2 u ≠ 0 → h.2 v ≠ 0 → (h.2 u = h.2 v ↔ RK f k u v)
  zero : ∀ u, u < n → h.2 u = 0 → ¬ VK f k m u
  valid : k ≠ M → ∀ u, u < n → h.2 u ≠ 0 → VK f k m u
  hit : ∃ i, i < M ∧ (f i).2.2 = h.1 ∧ h.2 (f i).1 ≠ 0

/-- The invariant of the main loop: `k` edges are left. -/
structure Top [LinearOrder W] (ar : Arith W S) (n m M : Nat) (f : Nat → Nat × Nat × W) (k : Nat) (st : St W S) (hist : List (W × (Nat → Nat)))
    (cur : Nat → Nat) (noise : Nat → Option W) (last : Nat → Option Nat) : Prop where
  kM : k ≤ M
  rep : WRep n st.wk cur noise last
  prev : st.prev = (List.range n).map cur
  affV : st.affV = []
  adj : Spec.Describes n st.adj (prs f k)
  bk : BK ar n m hist cur st.wk.clusters noise last
  spl : SplitOK st.wk.clusters
  off : ∀ (l : Nat) (c : Cl W S), 2 ≤ l → st.wk.clusters[l]? = some (some c) → OffOK n hist cur l c.offset
  lines : st.lines = hist.zipIdx.map (fun h => (h.2 + 1, h.1.1, (List.range n).map h.1.2))
  lc : st.lineCount = hist.length
  uni : ∀ u v, Jn f k u v → cur v = cur u
  con : ∀ u v, u < n → v < n → cur u ≠ 0 → cur v = cur u → RK f k u v
  inv : ∀ u, u < n → cur u = 0 → ¬ VK f k m u
  val : hist ≠ [] → ∀ u, u < n → cur u ≠ 0 → VK f k m u
  start : hist = [] → k = M ∧ ∀ u, u < n → cur u = 1
  after : hist ≠ [] → k < M
  gap : ∀ i j, i < k → k ≤ j → j < M → (f i).2.2 < (f j).2.2
  ord : (hist.map (·.1)).Pairwise (· > ·)
  rest : ∀ h ∈ hist, ∀ i, i < k → (f i).2.2 < h.1
  line : ∀ h ∈ hist, ∃ k', LineK n m M f h k'
  first : ∀ h, hist[0]? = some h → LineK n m M f h M
  full : ∀ i, k ≤ i → i < M → (∃ h ∈ hist, h.1 = (f i).2.2) ∨ ∃ k', k' ≤ M ∧ (∀ j, j < M → (j < k' ↔ (f j).2.2 ≤ (f i).2.2)) ∧ ¬ VK f k' m (f i).1

theorem uni_rk {f : Nat → Nat × Nat × W} {k : Nat} {g : Nat → Nat} (h : ∀ u v, Jn f k u v → g v = g u) {u v : Nat} (hr : RK f k u v) : g v = g u := by
  induction hr with
  | refl => rfl
  | tail _ h2 ih => exact (h _ _ h2).trans ih

/-- The line that the next level writes. -/
theorem Top.lineK [LinearOrder W] {ar : Arith W S} {n m M f k st hist cur noise last} (ec : EC n M f) (h : Top ar n m M f (k + 1) st hist cur noise last)
    (hit : ∃ i, i < M ∧ (f i).2.2 = (f k).2.2 ∧ cur (f i).1 ≠ 0) : LineK n m M f ((f k).2.2, cur) (k + 1) := by
  have hkM := h.kM
  refine ⟨hkM, ?_, ⟨k, by omega, rfl⟩, ?_, h.inv, ?_, hit⟩
  · intro i hi
    constructor
    · intro hik
      exact ec.sorted i k (by omega) (by omega)
    · intro hle
      by_contra hne
      exact absurd (h.gap k i (by omega) (by omega) hi) (not_lt.2 hle)
  · intro u v hu hv hu0 hv0
    constructor
    · intro he
      exact h.con u v hu hv hu0 he.symm
    · intro hr
      exact (uni_rk h.uni hr).symm
  · intro hne u hu hu0
    refine h.val ?_ u hu hu0
    intro hx
    exact hne (h.start hx).1

theorem walk_cut {f : Nat → Nat × Nat × W} {k k' : Nat} {v x : Nat} (hkk : k' ≤ k) (h : RK f k v x) :
    RK f k' v x ∨ ∃ i y, k' ≤ i ∧ i < k ∧ (y = (f i).1 ∨ y = (f i).2.1) ∧ RK f k' v y := by
  induction h with
  | refl => exact .inl .refl
  | tail _ h2 ih =>

    rcases ih with ih | ih
    · obtain ⟨i, hi, hj⟩ := h2
      by_cases hik : i < k'
      · exact .inl (ih.tail ⟨i, hik, hj⟩)
      · refine .inr ⟨i, _, by omega, hi, ?_, ih⟩
        rcases hj with hj | hj
        · exact .inl hj.1.symm
        · exact .inr hj.2.symm
    · exact .inr ih

section
variable [LinearOrder W] {ar : Arith W S} {n m M : Nat} {f : Nat → Nat × Nat × W} {k : Nat} {st : St W S} {hist : List (W × (Nat → Nat))}
  {cur : Nat → Nat} {noise : Nat → Option W} {last : Nat → Option Nat} {va vb : List Nat} {wt : List W}

theorem level_rep (ec : EC n M f) (hva : va = (List.range M).map (fun i => (f i).1)) (hvb : vb = (List.range M).map (fun i => (f i).2.1))
    (hwt : wt = (List.range M).map (fun i => (f i).2.2)) (n32 : n < 2 ^ 32) (m1 : 1 ≤ m)
    (h : Top ar n m M f (k + 1) st hist cur noise last) :
    ∃ k' st' hist' cur' noise' last', level ar m false va vb wt k st = .ok (k', st') ∧ k' ≤ k ∧
      Top ar n m M f k' st' hist' cur' noise' last' ∧ hist' ≠ [] := by
  have hkM := h.kM
  obtain ⟨r, e1, hk', d1, t1, z1, v1, l1, nv1, nl1⟩ := removeTied_rep (cur := cur) (w := (f k).2.2) ec hva hvb hwt (k + 1)
    { k := k + 1, adj := st.adj, affV := st.affV, affL := [] } hkM rfl h.adj
  simp only [h.affV, List.not_mem_nil, false_or, List.nodup_nil, true_implies] at v1 l1 nv1 nl1
  have hrk : r.k ≤ k := by
    rcases z1 with z1 | z1
    · omega
    · by_contra hne
      have : r.k = k + 1 := by omega
      rw [this] at z1
      exact z1 rfl
  have hlt' : ∀ i, i < r.k → (f i).1 < n ∧ (f i).2.1 < n := fun i hi => ec.lt i (by omega)
  have hgapw : ∀ i, i < r.k → (f i).2.2 < (f k).2.2 := by
    intro i hi
    rcases z1 with z1 | z1
    · omega
    · have h1 := ec.sorted i (r.k - 1) (by omega) (by omega)
      have h2 := ec.sorted (r.k - 1) k (by omega) (by omega)
      exact lt_of_le_of_lt h1 (lt_of_le_of_ne h2 z1)
  have hgap : ∀ i j, i < r.k → r.k ≤ j → j < M → (f i).2.2 < (f j).2.2 := by
    intro i j hi hj hjM
    by_cases hjk : j < k + 1
    · rw [t1 j hj hjk]; exact hgapw i hi
    · exact h.gap i j (by omega) (by omega) hjM
  have hcur : st.wk.cur = (List.range n).map cur := h.rep.cur
  have huni' : ∀ u v, Jn f r.k u v → cur v = cur u := fun u v huv => h.uni u v (huv.mono hk')
  -- an old walk inside an unaffected cluster survives
  have hkeep : ∀ v x, v < n → cur v ≠ 0 → cur v ∉ r.affL → RK f (k + 1) v x → RK f r.k v x := by
    intro v x hv hv0 hvL hr
    rcases walk_cut hk' hr with hr | ⟨i, y, hi1, hi2, hy, hr⟩
    · exact hr
    · exfalso
      apply hvL
      have hyv : cur y = cur v := uni_rk huni' hr
      have hAB : cur (f i).2.1 = cur (f i).1 := h.uni _ _ ⟨i, by omega, .inl ⟨rfl, rfl⟩⟩
      have hA : cur (f i).1 = cur v := by
        rcases hy with rfl | rfl
        · exact hyv
        · rw [← hAB]; exact hyv
      exact (l1 _).2 ⟨i, hi1, hi2, by rw [hA]; exact hv0, hA.symm⟩
  have hkeepV : ∀ v, v < n → cur v ≠ 0 → cur v ∉ r.affL → VK f (k + 1) m v → VK f r.k m v := by
    rintro v hv hv0 hvL ⟨⟨l, q1, q2, q3⟩, y, x, q4, q5⟩
    refine ⟨⟨l, q1, q2, fun x hx => hkeep v x hv hv0 hvL (q3 x hx)⟩, y, x, hkeep v y hv hv0 hvL q4, ?_⟩
    obtain ⟨i, hi, hj⟩ := q5
    by_cases hir : i < r.k
    · exact ⟨i, hir, hj⟩
    · exfalso
      apply hvL
      have hyv : cur y = cur v := uni_rk h.uni q4
      have hAB : cur (f i).2.1 = cur (f i).1 := h.uni _ _ ⟨i, hi, .inl ⟨rfl, rfl⟩⟩
      have hA : cur (f i).1 = cur v := by
        rcases hj with hj | hj
        · rw [hj.1]; exact hyv
        · rw [← hAB, hj.2]; exact hyv
      exact (l1 _).2 ⟨i, by omega, hi, by rw [hA]; exact hv0, hA.symm⟩
  have hfull : ∀ i, r.k ≤ i → i < M → (∃ h ∈ hist, h.1 = (f i).2.2) ∨ (f i).2.2 = (f k).2.2 ∧ i < k + 1 ∨
      ∃ k', k' ≤ M ∧ (∀ j, j < M → (j < k' ↔ (f j).2.2 ≤ (f i).2.2)) ∧ ¬ VK f k' m (f i).1 := by
    intro i h1 h2
    by_cases hik : i < k + 1
    · exact .inr (.inl ⟨t1 i h1 hik, hik⟩)
    · rcases h.full i (by omega) h2 with hx | hx
      · exact .inl hx
      · exact .inr (.inr hx)
  have hwk : ∀ j, j < M → (j < k + 1 ↔ (f j).2.2 ≤ (f k).2.2) := by
    intro j hj
    constructor
    · intro hjk
      exact ec.sorted j k (by omega) (by omega)
    · intro hle
      by_contra hne
      exact absurd (h.gap k j (by omega) (by omega) hj) (not_lt.2 hle)
  unfold level
  subst hwt
  rw [Graph.rd_map _ (by omega), Outcome.ok_bind, hcur, e1, Outcome.ok_bind]
  by_cases hL : r.affL = []
  · rw [if_pos hL]
    have hno : ∀ i, r.k ≤ i → i < k + 1 → cur (f i).1 = 0 := by
      intro i h1 h2
      by_contra hne
      have := (l1 (cur (f i).1)).2 ⟨i, h1, h2, hne, rfl⟩
      rw [hL] at this
      simp at this
    have haffV : r.affV = [] := by
      apply List.eq_nil_iff_forall_not_mem.2
      intro x hx
      obtain ⟨i, h1, h2, h3, _⟩ := (v1 x).1 hx
      exact h3 (hno i h1 h2)
    have hhist : hist ≠ [] := by
      intro hx
      have := hno k hrk (by omega)
      rw [(h.start hx).2 _ (ec.lt k (by omega)).1] at this
      omega
    refine ⟨r.k, _, hist, cur, noise, last, rfl, hrk, ?_, hhist⟩
    refine ⟨by omega, ⟨h.rep.cur, h.rep.noise, h.rep.last, h.rep.next⟩, h.prev, haffV, d1, h.bk, h.spl, h.off, h.lines, h.lc, huni', ?_, ?_, ?_,
      fun hx => absurd hx hhist, fun _ => by omega, hgap, h.ord, ?_, h.line, h.first, ?_⟩
    · intro u v hu hv hu0 he
      exact hkeep u v hu hu0 (by rw [hL]; simp) (h.con u v hu hv hu0 he)
    · intro u hu hu0 hv
      exact h.inv u hu hu0 (hv.mono hk')
    · intro _ u hu hu0
      exact hkeepV u hu hu0 (by rw [hL]; simp) (h.val hhist u hu hu0)
    · intro x hx i hi
      exact h.rest x hx i (by omega)
    · intro i h1 h2
      rcases hfull i h1 h2 with hx | ⟨hx, hik⟩ | hx
      · exact .inl hx
      · exact .inr ⟨k + 1, hkM, fun j hj => by rw [hx]; exact hwk j hj, h.inv _ (ec.lt i h2).1 (hno i h1 hik)⟩
      · exact .inr hx
  · rw [if_neg hL]
    have hhit : ∃ i, i < M ∧ (f i).2.2 = (f k).2.2 ∧ cur (f i).1 ≠ 0 := by
      obtain ⟨L, hLm⟩ := List.exists_mem_of_ne_nil _ hL
      obtain ⟨i, h1, h2, h3, _⟩ := (l1 L).1 hLm
      exact ⟨i, by omega, t1 i h1 h2, h3⟩
    have hsym := sym_of d1 hlt'
    have hreach := reach_eq d1 hlt'
    have hnbr := nbr_iff d1 hlt'
    have hvalid : ∀ u, Valid r.adj m u ↔ VK f r.k m u := valid_iff d1 hlt'
    have hbk0 := h.bk.open (f k).2.2
    have hlab : ∀ L ∈ r.affL, 1 ≤ L ∧ L < st.wk.clusters.length ∧ ∃ p, p < n ∧ cur p = L := by
      intro L hL
      obtain ⟨i, h1, h2, h3, rfl⟩ := (l1 L).1 hL
      have hiM := ec.lt i (by omega)
      have := h.bk.lt hist.length _ hiM.1
      rw [lab_end (le_refl _)] at this
      exact ⟨by omega, this, _, hiM.1, rfl⟩
    have hplt : ∀ v, v < n → cur v < st.wk.clusters.length := by
      intro v hv
      have := h.bk.lt hist.length v hv
      rwa [lab_end (le_refl _)] at this
    have cx : LCtx n m r.adj cur st.wk.clusters.length r.affL r.affV (fun _ => False) := by
      refine ⟨n32, m1, hsym, ?_, hlab, hplt, ?_, ?_⟩
      · intro u v huv
        exact huni' u v ((hnbr u v).1 huv)
      · intro x hx
        obtain ⟨i, h1, h2, h3, h4⟩ := (v1 x).1 hx
        have hiM := ec.lt i (by omega)
        have hAB : cur (f i).2.1 = cur (f i).1 := h.uni _ _ ⟨i, h2, .inl ⟨rfl, rfl⟩⟩
        rcases h4 with rfl | rfl
        · exact ⟨hiM.1, (l1 _).2 ⟨i, h1, h2, h3, rfl⟩⟩
        · exact ⟨hiM.2, (l1 _).2 ⟨i, h1, h2, h3, hAB⟩⟩
      · intro v hv hvL
        left
        obtain ⟨i, h1, h2, h3, h4⟩ := (l1 _).1 hvL
        have hr := h.con v (f i).1 hv (ec.lt i (by omega)).1 (by rw [h4]; exact h3) h4.symm
        rcases walk_cut hk' hr with hr | ⟨j, y, hj1, hj2, hy, hr⟩
        · exact ⟨_, (v1 _).2 ⟨i, h1, h2, h3, .inl rfl⟩, by rw [hreach]; exact hr⟩
        · refine ⟨y, (v1 _).2 ⟨j, hj1, hj2, ?_, hy⟩, by rw [hreach]; exact hr⟩
          have hyv : cur y = cur v := uni_rk huni' hr
          have hAB : cur (f j).2.1 = cur (f j).1 := h.uni _ _ ⟨j, hj2, .inl ⟨rfl, rfl⟩⟩
          rcases hy with rfl | rfl
          · rw [hyv, h4]; exact h3
          · rw [← hAB, hyv, h4]; exact h3
    have li0 : LI ar n m r.adj hist (f k).2.2 cur st.wk.clusters r.affL r.affV (fun _ => False) r.affL r.affV { st.wk with fresh := [] } cur noise last := by
      refine ⟨⟨h.rep.cur, h.rep.noise, h.rep.last, h.rep.next⟩, hbk0, le_refl _, fun l c0 hc => ⟨c0, hc, rfl⟩, by simp, fun _ => h.spl, h.spl.twins, fun _ _ _ => rfl,
        fun v hv h1 h2 => absurd h1 h2, cx.uni, fun u v _ _ h1 h2 => absurd h1 h2, nl1, fun l hl => hl, ?_, nv1⟩
      intro x
      exact ⟨fun hx => ⟨hx, (cx.vert x hx).2⟩, fun hx => hx.1⟩
    obtain ⟨wk', cur', noise', last', e2, li⟩ := clustersLoop_rep cx r.affL.length r.affL r.affV _ cur noise last li0 (le_refl _)
    rw [e2, Outcome.ok_bind]
    simp only
    -- the end of the level
    have hcslen := li.len
    obtain ⟨cs', o1, o2, o3, o4⟩ := setOffsets_rep (lc := st.lineCount + 1) st.wk.clusters.length (wk'.clusters.length - st.wk.clusters.length) wk'.clusters
      (by have := h.bk.two; omega) (by omega) (fun l hl1 hl2 => by
        obtain ⟨c, hc, _⟩ := li.bk.cl l (by have := h.bk.two; omega) hl2
        exact ⟨c, hc⟩)
    have hend : endLevel false (f k).2.2 { st with adj := r.adj, wk := wk', affV := [] } = .ok
        { adj := r.adj, wk := { wk' with clusters := cs', fresh := [] }, prev := wk'.cur, lines := st.lines ++ [(st.lineCount + 1, (f k).2.2, st.prev)],
          lineCount := st.lineCount + 1, significant := !wk'.fresh.isEmpty, affV := [] } := by
      unfold endLevel
      simp only [Bool.not_false, Bool.true_or, if_true]
      rw [li.fresh, o1, Outcome.ok_bind]
      rfl
    rw [hend, Outcome.ok_bind]
    have hsame : SameButOffset wk'.clusters cs' := by
      refine ⟨o2, o3 0 (by have := h.bk.two; omega), ?_⟩
      intro l c' hc'
      by_cases hl : l < st.wk.clusters.length
      · rw [o3 l hl] at hc'
        exact ⟨c', hc', rfl⟩
      · have hlt := lt_of_get hc'
        rw [o2] at hlt
        obtain ⟨c, hc, _⟩ := li.bk.cl l (by have := h.bk.two; omega) hlt
        rw [o4 l c (by omega) hc] at hc'
        simp only [Option.some.injEq] at hc'
        subst hc'
        exact ⟨c, hc, rfl⟩
    have hsame' : SameButOffset cs' wk'.clusters := by
      refine ⟨o2.symm, (o3 0 (by have := h.bk.two; omega)).symm, ?_⟩
      intro l c hc
      by_cases hl : l < st.wk.clusters.length
      · exact ⟨c, by rw [o3 l hl]; exact hc, rfl⟩
      · exact ⟨_, o4 l c (by omega) hc, rfl⟩
    refine ⟨r.k, _, hist ++ [((f k).2.2, cur)], cur', noise', last', rfl, hrk, ?_, by simp⟩
    have hlast : ∀ p, lab (hist ++ [((f k).2.2, cur)]) cur' (hist.length + 1) p = cur' p := fun p => by rw [lab_end (by simp)]
    have hbkC := li.bk.sameButOffset hsame hsame'
    have hcase : ∀ v, v < n → (cur v ∈ r.affL ∧ ((cur' v = cur v ∧ VK f r.k m v) ∨ (cur' v = 0 ∧ ¬ VK f r.k m v) ∨ (st.wk.clusters.length ≤ cur' v ∧ VK f r.k m v))) ∨
        (cur v ∉ r.affL ∧ cur' v = cur v) := by
      intro v hv
      by_cases hvL : cur v ∈ r.affL
      · left
        refine ⟨hvL, ?_⟩
        have := li.done v hv hvL (by simp)
        simp only [or_false] at this
        rwa [hvalid] at this
      · exact .inr ⟨hvL, li.todo v hv (.inl hvL)⟩
    have hval1 : hist = [] → ∀ v, v < n → cur v ∈ r.affL := by
      intro hx v hv
      rw [(h.start hx).2 v hv]
      obtain ⟨L, hLm⟩ := List.exists_mem_of_ne_nil _ hL
      obtain ⟨_, _, p, hp, hpL⟩ := hlab L hLm
      rw [(h.start hx).2 p hp] at hpL
      rw [hpL]; exact hLm
    refine ⟨by omega, ⟨li.rep.cur, li.rep.noise, li.rep.last, by rw [o2]; exact li.rep.next⟩, li.rep.cur, rfl, d1, hbkC, (li.spl (fun _ h => h)).sameButOffset hsame hsame', ?_, ?_, by simp [h.lc],
      ?_, ?_, ?_, ?_, by simp, fun _ => by omega, hgap, ?_, ?_, ?_, ?_, ?_⟩
    · intro l c hl hc
      by_cases hlo : l < st.wk.clusters.length
      · rw [o3 l hlo] at hc
        obtain ⟨c0, hc0, _⟩ := h.bk.cl l (by omega) hlo
        obtain ⟨c1, q1, q2⟩ := li.old l c0 hc0
        rw [hc] at q1
        simp only [Option.some.injEq] at q1
        subst q1
        obtain ⟨s, s1, s2, s3, s4⟩ := h.off l c0 hl hc0
        have hll : ∀ s', s' ≤ hist.length → lab (hist ++ [((f k).2.2, cur)]) cur' s' = lab hist cur s' := by
          intro s' hs'
          rw [← lab_append (w := (f k).2.2) (cur := cur)]
          exact lab_lt (by simp; omega)
        refine ⟨s, by simp; omega, q2.trans s2, ?_, ?_⟩
        · intro s' hs'
          rw [hll s' (by omega)]
          exact s3 s' hs'
        · rw [hll (s + 1) (by omega)]
          exact s4
      · obtain ⟨_, hlt, _⟩ := hbkC.get hc
        rw [o2] at hlt
        obtain ⟨c1, hc1, hi1⟩ := li.bk.cl l (by omega) hlt
        rw [o4 l c1 (by omega) hc1] at hc
        simp only [Option.some.injEq] at hc
        subst hc
        have hfar : ∀ s', s' ≤ hist.length → ∀ p, p < n → lab (hist ++ [((f k).2.2, cur)]) cur' s' p ≠ l := by
          intro s' hs' p hp
          have e : lab (hist ++ [((f k).2.2, cur)]) cur' s' = lab hist cur s' := by
            rw [← lab_append (w := (f k).2.2) (cur := cur)]
            exact lab_lt (by simp; omega)
          rw [e]
          have := h.bk.lt s' p hp
          omega
        refine ⟨hist.length, by simp, by simp [h.lc], hfar, ?_⟩
        obtain ⟨q, s, w', g, b1, b2, b3, b4, b5, b6, b7, b8⟩ := hi1.born (by omega)
        obtain ⟨p, hp, hpl⟩ := cnt_pos.1 (Nat.lt_of_lt_of_le (Nat.lt_of_lt_of_le Nat.zero_lt_one m1) b7)
        have hs := lt_of_get b1
        simp only [List.length_append, List.length_singleton] at hs
        have : s = hist.length := by
          by_contra hne
          exact hfar (s + 1) (by omega) p hp hpl
        subst this
        exact ⟨p, hp, hpl⟩
    · simp [h.lines, h.lc, h.prev, List.zipIdx_append]
    · intro u v huv
      exact li.uni u v ((hnbr u v).2 huv)
    · intro u v hu hv hu0 he
      rcases hcase u hu with ⟨hu1, hu2⟩ | ⟨hu1, hu2⟩ <;> rcases hcase v hv with ⟨hv1, hv2⟩ | ⟨hv1, hv2⟩
      · have := li.sep u v hu hv hu1 (by simp) hv1 (by simp) hu0 he
        simp only [or_self, and_false, or_false] at this
        rwa [hreach] at this
      · exfalso
        have := hplt v hv
        rcases hu2 with hu2 | hu2 | hu2
        · apply hv1
          rw [← hv2, he, hu2.1]; exact hu1
        · exact hu0 hu2.1
        · omega
      · exfalso
        have := hplt u hu
        rcases hv2 with hv2 | hv2 | hv2
        · apply hu1
          rw [← hu2, ← he, hv2.1]; exact hv1
        · omega
        · omega
      · rw [hu2] at hu0
        exact hkeep u v hu hu0 hu1 (h.con u v hu hv hu0 (by omega))
    · intro u hu hu0
      rcases hcase u hu with ⟨hu1, hu2⟩ | ⟨hu1, hu2⟩
      · have := (hlab _ hu1).1
        rcases hu2 with hu2 | hu2 | hu2
        · omega
        · exact hu2.2
        · have := h.bk.two
          omega
      · intro hv
        exact h.inv u hu (by omega) (hv.mono hk')
    · intro _ u hu hu0
      rcases hcase u hu with ⟨hu1, hu2⟩ | ⟨hu1, hu2⟩
      · rcases hu2 with hu2 | hu2 | hu2
        · exact hu2.2
        · exact absurd hu2.1 hu0
        · exact hu2.2
      · by_cases hx : hist = []
        · exact absurd (hval1 hx u hu) hu1
        · rw [hu2] at hu0
          exact hkeepV u hu hu0 hu1 (h.val hx u hu hu0)
    · rw [List.map_append, List.pairwise_append]
      refine ⟨h.ord, by simp, ?_⟩
      intro a ha b hb
      simp only [List.map_cons, List.map_nil, List.mem_singleton] at hb
      subst hb
      obtain ⟨x, hx, rfl⟩ := List.mem_map.1 ha
      exact h.rest x hx k (by omega)
    · intro x hx i hi
      rcases List.mem_append.1 hx with hx | hx
      · exact h.rest x hx i (by omega)
      · simp only [List.mem_singleton] at hx
        subst hx
        exact hgapw i hi
    · intro x hx
      rcases List.mem_append.1 hx with hx | hx
      · exact h.line x hx
      · simp only [List.mem_singleton] at hx
        subst hx
        exact ⟨_, h.lineK ec hhit⟩
    · intro x hx
      by_cases hh : hist = []
      · subst hh
        simp only [List.nil_append, List.getElem?_cons_zero, Option.some.injEq] at hx
        subst hx
        have := h.lineK ec hhit
        rwa [(h.start rfl).1] at this
      · rw [List.getElem?_append_left (by exact List.length_pos_iff.2 hh)] at hx
        exact h.first x hx
    · intro i h1 h2
      rcases hfull i h1 h2 with ⟨x, hx1, hx2⟩ | ⟨hx, _⟩ | hx
      · exact .inl ⟨x, List.mem_append_left _ hx1, hx2⟩
      · exact .inl ⟨_, List.mem_append_right _ (List.mem_singleton.2 rfl), hx.symm⟩
      · exact .inr hx

theorem mainLoop_rep (ec : EC n M f) (hva : va = (List.range M).map (fun i => (f i).1)) (hvb : vb = (List.range M).map (fun i => (f i).2.1))
    (hwt : wt = (List.range M).map (fun i => (f i).2.2)) (n32 : n < 2 ^ 32) (m1 : 1 ≤ m) :
    ∀ (fuel k : Nat) (st : St W S) (hist cur noise last), Top ar n m M f k st hist cur noise last → k ≤ fuel →
    ∃ st' hist' cur' noise' last', mainLoop ar m false va vb wt fuel k st = .ok st' ∧ Top ar n m M f 0 st' hist' cur' noise' last' := by
  intro fuel
  induction fuel with
  | zero =>
    intro k st hist cur noise last h hk
    have : k = 0 := by omega
    subst this
    exact ⟨st, hist, cur, noise, last, by simp [mainLoop], h⟩
  | succ fuel ih =>
    intro k st hist cur noise last h hk
    cases k with
    | zero => exact ⟨st, hist, cur, noise, last, by simp [mainLoop], h⟩
    | succ k =>
      obtain ⟨k', st', hist', cur', noise', last', e, hk', ht, _⟩ := level_rep ec hva hvb hwt n32 m1 h
      obtain ⟨st2, hist2, cur2, noise2, last2, e2, ht2⟩ := ih k' st' hist' cur' noise' last' ht (by omega)
      refine ⟨st2, hist2, cur2, noise2, last2, ?_, ht2⟩
      rw [mainLoop, e, Outcome.ok_bind]
      exact e2

theorem initial_top {g : Graph W} (hM : 1 ≤ M) (ec : EC n M f) (hgn : g.numVertices = n)
    (hd : Spec.Describes n g.edges (prs f M)) (hspan : ∀ u v, u < n → v < n → RK f M u v) :
    Top ar n m M f M (initial ar g) [] (fun _ => 1) (fun _ => none) (fun _ => none) := by
  have hn : 1 ≤ n := by have := (ec.lt 0 (by omega)).1; omega
  refine ⟨le_refl _, ⟨by simp [initial, hgn], by simp [initial, hgn], by simp [initial, hgn], by simp [initial]⟩, by simp [initial, hgn], rfl, hd, hgn ▸ BK.start ar m (hgn ▸ hn), ?_, ?_, rfl, rfl, ?_, ?_, ?_, by simp,
    fun _ => ⟨rfl, fun _ _ => rfl⟩, by simp, ?_, by simp, by simp, by simp, by simp, fun i h1 h2 => by omega⟩
  · intro l c q hc hq
    match l with
    | 0 => simp [initial] at hc
    | 1 =>
      simp only [initial, List.getElem?_cons_succ, List.getElem?_cons_zero, Option.some.injEq] at hc
      subst hc
      simp [Cl.init] at hq
    | l + 2 => simp [initial] at hc
  · intro l c hl hc
    match l with
    | 0 => omega
    | 1 => omega
    | l + 2 => simp [initial] at hc
  · intro u v _; rfl
  · intro u v hu hv _ _; exact hspan u v hu hv
  · intro u _ h; exact absurd h (by simp)
  · intro i j h1 h2 h3; omega

theorem compute_rep {g : Graph W} (hr : Graph.ERep g M f) (hM : 1 ≤ M) (ec : EC n M f) (hgn : g.numVertices = n) (n32 : n < 2 ^ 32) (m1 : 1 ≤ m)
    (hd : Spec.Describes n g.edges (prs f M)) (hspan : ∀ u v, u < n → v < n → RK f M u v) :
    ∃ (res : Result W S) (st : St W S) (hist : List (W × (Nat → Nat))) (cur : Nat → Nat) (noise : Nat → Option W) (last : Nat → Option Nat), compute ar m false g = .ok res ∧
      Top ar n m M f 0 st hist cur noise last ∧ hist ≠ [] ∧
      res = { adj := st.adj, clusters := st.wk.clusters, hierarchy := st.lines ++ [(0, ar.zeroW, List.replicate n 0)], noise := st.wk.noise,
              last := st.wk.last, cur := st.wk.cur } := by
  have hwl : g.wt.length = M := Graph.length_erep hr
  obtain ⟨st, hist, cur, noise, last, e, ht⟩ := mainLoop_rep ec hr.va hr.vb hr.wt n32 m1 M M (initial ar g) [] _ _ _ (initial_top hM ec hgn hd hspan) (le_refl _)
  refine ⟨_, st, hist, cur, noise, last, ?_, ht, ?_, rfl⟩
  · unfold compute
    rw [hwl, hgn, e]
    rfl
  · intro hx
    have := (ht.start hx).1
    omega

/-- No edge is left at the end, so all points are noise. -/
theorem Top.all_noise {ar : Arith W S} (h : Top ar n m M f 0 st hist cur noise last) (hh : hist ≠ []) : ∀ u, u < n → cur u = 0 := by
  intro u hu
  by_contra hne
  obtain ⟨_, v, x, _, i, hi, _⟩ := h.val hh u hu hne
  omega

end
end Verif.Hier
