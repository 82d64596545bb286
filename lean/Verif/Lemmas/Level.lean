import Verif.Lemmas.Split
import Verif.Lemmas.Graph
/-
Helper lemmas for the hierarchy: all clusters affected by the removal of the edges of one weight.
-/
namespace Verif.Hier
variable {W S : Type}

theorem collect_rep {n : Nat} {cur : Nat → Nat} {L : Nat} : ∀ (vs ex rest : List Nat), (∀ v ∈ vs, v < n) → ex.Nodup → rest.Nodup → vs.Nodup →
    (∀ v ∈ vs, v ∉ rest) →
    ∃ ex' rest', collect ((List.range n).map cur) L vs ex rest = .ok (ex', rest') ∧ ex'.Nodup ∧ rest'.Nodup ∧
      (∀ v, v ∈ ex' ↔ v ∈ ex ∨ (v ∈ vs ∧ cur v = L)) ∧ (∀ v, v ∈ rest' ↔ v ∈ rest ∨ (v ∈ vs ∧ cur v ≠ L)) := by
  intro vs
  induction vs with
  | nil => intro ex rest _ h1 h2 _ _; exact ⟨ex, rest, rfl, h1, h2, by simp, by simp⟩
  | cons a t ih =>
    intro ex rest hlt h1 h2 h3 h4
    rw [List.nodup_cons] at h3
    rw [collect, Graph.rd_map _ (hlt a (by simp)), Outcome.ok_bind]
    split
    · rename_i ha
      obtain ⟨ex', rest', e, d1, d2, m1, m2⟩ := ih (sInsert ex a) rest (fun v hv => hlt v (by simp [hv])) (nodup_sInsert h1 a) h2 h3.2
        (fun v hv => h4 v (by simp [hv]))
      refine ⟨ex', rest', e, d1, d2, fun v => ?_, fun v => ?_⟩
      · rw [m1, mem_sInsert, List.mem_cons]
        by_cases hv : v = a
        · subst hv; simp [ha]
        · simp [hv]
      · rw [m2, List.mem_cons]
        by_cases hv : v = a
        · subst hv; simp [ha]
        · simp [hv]
    · rename_i ha
      obtain ⟨ex', rest', e, d1, d2, m1, m2⟩ := ih ex (rest ++ [a]) (fun v hv => hlt v (by simp [hv])) h1
        (by
          rw [List.nodup_append]
          refine ⟨h2, by simp, ?_⟩
          intro x hx y hy hxy
          simp only [List.mem_singleton] at hy
          subst hxy; subst hy
          exact h4 _ (by simp) hx) h3.2
        (by
          intro v hv
          simp only [List.mem_append, List.mem_singleton, not_or]
          refine ⟨h4 v (by simp [hv]), ?_⟩
          rintro rfl
          exact h3.1 hv)
      refine ⟨ex', rest', e, d1, d2, fun v => ?_, fun v => ?_⟩
      · rw [m1, List.mem_cons]
        by_cases hv : v = a
        · subst hv; simp [ha]
        · simp [hv]
      · rw [m2, List.mem_cons, List.mem_append, List.mem_singleton]
        by_cases hv : v = a
        · subst hv; simp [ha]
        · simp [hv]

/-- Every cluster that has a parent was born when the parent lost its last points, and has a sibling. -/
def SplitOK (cs : List (Option (Cl W S))) : Prop :=
  ∀ (l : Nat) (c : Cl W S) (q : Nat), cs[l]? = some (some c) → c.parent = some q →
    ∃ cq : Cl W S, cs[q]? = some (some cq) ∧ cq.numPoints = 0 ∧ c.birth = some cq.death ∧
      ∃ (l' : Nat) (c' : Cl W S), l' ≠ l ∧ cs[l']? = some (some c') ∧ c'.parent = some q

/-- No cluster is an only child. -/
def Twins (cs : List (Option (Cl W S))) : Prop :=
  ∀ (l : Nat) (c : Cl W S) (q : Nat), cs[l]? = some (some c) → c.parent = some q → ∃ (l' : Nat) (c' : Cl W S), l' ≠ l ∧ cs[l']? = some (some c') ∧ c'.parent = some q

theorem SplitOK.twins {cs : List (Option (Cl W S))} (h : SplitOK cs) : Twins cs := fun l c q hc hq => by
  obtain ⟨_, _, _, _, r⟩ := h l c q hc hq
  exact r

section
variable {ar : Arith W S} {n m : Nat} {adj : List (List Nat)} {h0 : List (W × (Nat → Nat))} {w : W} {prev : Nat → Nat}

theorem LPost.twins {L : Nat} {cur0 : Nat → Nat} {cs0 : List (Option (Cl W S))} {fresh0 : List Nat} {wk : Work W S} {cur noise last}
    {noise0 last0} (cx : Ctx n m adj prev L cur0 cs0) (hb0 : BK ar n m (h0 ++ [(w, prev)]) cur0 cs0 noise0 last0) {Z : Nat → Prop} (h : LPost ar n m adj h0 w prev L cur0 cs0 fresh0 Z wk cur noise last)
    (hs : Twins cs0) : Twins wk.clusters := by
  have hcl := h.frame.1
  intro l c q hc hq
  obtain ⟨hl1, hl2, hci⟩ := h.bk.get hc
  by_cases hlt : l < cs0.length
  · obtain ⟨c0, hc0, hi0⟩ := hb0.cl l hl1 hlt
    obtain ⟨c1, r1, r2, _⟩ := h.frame.2 l c0 hc0
    rw [hc] at r1
    simp only [Option.some.injEq] at r1
    subst r1
    obtain ⟨l', c', s4, s5, s6⟩ := hs l c0 q hc0 (r2 ▸ hq)
    obtain ⟨c'', u1, u2, _⟩ := h.frame.2 l' c' s5
    exact ⟨l', c'', s4, u1, u2.trans s6⟩
  · obtain ⟨n1, n2⟩ := h.new l c hc (by omega)
    rw [hq] at n1
    simp only [Option.some.injEq] at n1
    subst n1
    rcases h.split with hsp | ⟨hsp1, hsp2⟩
    · omega
    · obtain ⟨l', hl', hne⟩ : ∃ l', (cs0.length ≤ l' ∧ l' < wk.clusters.length) ∧ l' ≠ l := by
        by_cases hx : l = cs0.length
        · exact ⟨cs0.length + 1, ⟨by omega, by omega⟩, by omega⟩
        · exact ⟨cs0.length, ⟨by omega, by omega⟩, by omega⟩
      obtain ⟨c', hc', _⟩ := h.bk.cl l' (by have := cx.lt; omega) hl'.2
      exact ⟨l', c', hne, hc', (h.new l' c' hc' hl'.1).1⟩

theorem LPost.splitOK {L : Nat} {cur0 : Nat → Nat} {cs0 : List (Option (Cl W S))} {fresh0 : List Nat} {wk : Work W S} {cur noise last}
    {noise0 last0} (cx : Ctx n m adj prev L cur0 cs0) (hb0 : BK ar n m (h0 ++ [(w, prev)]) cur0 cs0 noise0 last0) {Z : Nat → Prop} (h : LPost ar n m adj h0 w prev L cur0 cs0 fresh0 Z wk cur noise last)
    (hZ : ∀ v, ¬ Z v) (hne : ∃ p, p < n ∧ cur0 p = L) (hs : SplitOK cs0) : SplitOK wk.clusters := by
  obtain ⟨p0, hp0, hpL⟩ := hne
  have hcl := h.frame.1
  intro l c q hc hq
  obtain ⟨hl1, hl2, hci⟩ := h.bk.get hc
  by_cases hlt : l < cs0.length
  · obtain ⟨c0, hc0, hi0⟩ := hb0.cl l hl1 hlt
    obtain ⟨c1, r1, r2, r3, _, r4⟩ := h.frame.2 l c0 hc0
    rw [hc] at r1
    simp only [Option.some.injEq] at r1
    subst r1
    obtain ⟨cq, s1, s2, s3, l', c', s4, s5, s6⟩ := hs l c0 q hc0 (r2 ▸ hq)
    have hqL : q ≠ L := by
      rintro rfl
      obtain ⟨_, _, hqi⟩ := hb0.get s1
      have := hqi.num
      rw [s2] at this
      exact cnt_eq_zero.1 this.symm p0 hp0 hpL
    obtain ⟨cq', t1, _, _, _, t2⟩ := h.frame.2 q cq s1
    obtain ⟨c'', u1, u2, _⟩ := h.frame.2 l' c' s5
    exact ⟨cq', t1, (t2 hqL) ▸ s2, by rw [r3, s3, t2 hqL], l', c'', s4, u1, u2.trans s6⟩
  · obtain ⟨n1, n2⟩ := h.new l c hc (by omega)
    rw [hq] at n1
    simp only [Option.some.injEq] at n1
    subst n1
    rcases h.split with hsp | ⟨hsp1, hsp2⟩
    · omega
    · obtain ⟨cq, hcq, hqi⟩ := h.bk.cl q cx.pos (by have := cx.lt; omega)
      have hz : cq.numPoints = 0 := by rw [hqi.num]; exact cnt_eq_zero.2 (fun v hv hx => hZ v (hsp2 v hv hx))
      obtain ⟨s, w', f, d1, d2, d3, d4⟩ := hqi.dead hz
      have hse : s = h0.length := by
        have hlt := lt_of_get d1
        simp only [List.length_append, List.length_singleton] at hlt
        by_contra hne
        have := d3 h0.length (by omega) p0 hp0
        rw [lab_prev] at this
        exact this (cx.prev p0 hp0 hpL)
      subst hse
      simp only [List.getElem?_concat_length, Option.some.injEq, Prod.mk.injEq] at d1
      refine ⟨cq, hcq, hz, by rw [n2, d4, d1.1], ?_⟩
      obtain ⟨l', hl', hne⟩ : ∃ l', (cs0.length ≤ l' ∧ l' < wk.clusters.length) ∧ l' ≠ l := by
        by_cases hx : l = cs0.length
        · exact ⟨cs0.length + 1, ⟨by omega, by omega⟩, by omega⟩
        · exact ⟨cs0.length, ⟨by omega, by omega⟩, by omega⟩
      obtain ⟨c', hc', _⟩ := h.bk.cl l' (by have := cx.lt; omega) hl'.2
      exact ⟨l', c', hne, hc', (h.new l' c' hc' hl'.1).1⟩

/-- What is fixed during one level; `Z` are the vertices of affected clusters that are not looked at. -/
structure LCtx (n m : Nat) (adj : List (List Nat)) (prev : Nat → Nat) (nlev : Nat) (affL0 affV0 : List Nat) (Z : Nat → Prop) : Prop where
  n32 : n < 2 ^ 32
  m1 : 1 ≤ m
  sym : Sym n adj
  uni : ∀ u v, Nbr adj u v → prev v = prev u
  lab : ∀ L ∈ affL0, 1 ≤ L ∧ L < nlev ∧ ∃ p, p < n ∧ prev p = L
  plt : ∀ v, v < n → prev v < nlev
  vert : ∀ x ∈ affV0, x < n ∧ prev x ∈ affL0
  cov : ∀ v, v < n → prev v ∈ affL0 → (∃ x ∈ affV0, Reach adj v x) ∨ Z v

/-- Invariant of the loop over the affected clusters; `affL` are still to be processed. -/
structure LI (ar : Arith W S) (n m : Nat) (adj : List (List Nat)) (h0 : List (W × (Nat → Nat))) (w : W) (prev : Nat → Nat) (csl : List (Option (Cl W S)))
    (affL0 affV0 : List Nat) (Z : Nat → Prop) (affL affV : List Nat) (wk : Work W S) (cur : Nat → Nat) (noise : Nat → Option W) (last : Nat → Option Nat) : Prop where
  rep : WRep n wk cur noise last
  bk : BK ar n m (h0 ++ [(w, prev)]) cur wk.clusters noise last
  len : csl.length ≤ wk.clusters.length
  old : ∀ (l : Nat) (c0 : Cl W S), csl[l]? = some (some c0) → ∃ c : Cl W S, wk.clusters[l]? = some (some c) ∧ c.offset = c0.offset
  fresh : wk.fresh = List.range' csl.length (wk.clusters.length - csl.length)
  spl : (∀ v, ¬ Z v) → SplitOK wk.clusters
  twin : Twins wk.clusters
  todo : ∀ v, v < n → (prev v ∉ affL0 ∨ prev v ∈ affL) → cur v = prev v
  done : ∀ v, v < n → prev v ∈ affL0 → prev v ∉ affL → (cur v = prev v ∧ (Valid adj m v ∨ Z v)) ∨ (cur v = 0 ∧ ¬ Valid adj m v) ∨ (csl.length ≤ cur v ∧ Valid adj m v)
  uni : ∀ u v, Nbr adj u v → cur v = cur u
  sep : ∀ u v, u < n → v < n → prev u ∈ affL0 → prev u ∉ affL → prev v ∈ affL0 → prev v ∉ affL → cur u ≠ 0 → cur v = cur u → Reach adj u v ∨ (cur u = prev u ∧ (Z u ∨ Z v))
  ln : affL.Nodup
  lsub : ∀ l ∈ affL, l ∈ affL0
  vm : ∀ x, x ∈ affV ↔ x ∈ affV0 ∧ prev x ∈ affL
  vn : affV.Nodup

theorem clustersLoop_rep {csl : List (Option (Cl W S))} {affL0 affV0 : List Nat} {Z : Nat → Prop} (cx : LCtx n m adj prev csl.length affL0 affV0 Z) :
    ∀ (fuel : Nat) (affL affV : List Nat) (wk : Work W S) (cur noise last),
    LI ar n m adj h0 w prev csl affL0 affV0 Z affL affV wk cur noise last → affL.length ≤ fuel →
    ∃ wk' cur' noise' last', clustersLoop ar adj m w fuel affL affV wk = .ok ([], wk') ∧
      LI ar n m adj h0 w prev csl affL0 affV0 Z [] [] wk' cur' noise' last' := by
  intro fuel
  have hend : ∀ {affV : List Nat} {wk cur noise last}, LI ar n m adj h0 w prev csl affL0 affV0 Z [] affV wk cur noise last → affV = [] := by
    intro affV wk cur noise last h
    apply List.eq_nil_iff_forall_not_mem.2
    intro x hx
    have := (h.vm x).1 hx
    simp at this
  induction fuel with
  | zero =>
    intro affL affV wk cur noise last h hf
    have hx : affL = [] := List.length_eq_zero_iff.1 (by omega)
    subst hx
    have := hend h
    subst this
    exact ⟨wk, cur, noise, last, rfl, h⟩
  | succ fuel ih =>
    intro affL affV wk cur noise last h hf
    unfold clustersLoop
    cases hl : affL.getLast? with
    | none =>
      have hx : affL = [] := List.getLast?_eq_none_iff.1 hl
      subst hx
      have := hend h
      subst this
      exact ⟨wk, cur, noise, last, rfl, h⟩
    | some L =>
      have hsp := getLast?_split hl
      have hmem : ∀ x, x ∈ affL ↔ x ∈ affL.dropLast ∨ x = L := by
        intro x
        conv_lhs => rw [hsp]
        simp
      have hnd := h.ln
      rw [hsp, List.nodup_append] at hnd
      have hLD : L ∉ affL.dropLast := fun hx => hnd.2.2 _ hx _ (by simp) rfl
      have hlen : affL.length = affL.dropLast.length + 1 := by
        conv_lhs => rw [hsp]
        simp
      have hL : L ∈ affL := (hmem L).2 (.inr rfl)
      have hL0 := h.lsub L hL
      obtain ⟨hL1, hL2, p0, hp0, hp0L⟩ := cx.lab L hL0
      have hiff : ∀ v, v < n → (cur v = L ↔ prev v = L) := by
        intro v hv
        constructor
        · intro hvL
          by_cases h1 : prev v ∉ affL0 ∨ prev v ∈ affL
          · rw [← h.todo v hv h1]; exact hvL
          · simp only [not_or, not_not] at h1
            rcases h.done v hv h1.1 h1.2 with h2 | h2 | h2
            · exact h2.1.symm.trans hvL
            · omega
            · omega
        · intro hvL
          rw [h.todo v hv (.inr (hvL ▸ hL))]; exact hvL
      have hvlt : ∀ v ∈ affV, v < n := fun v hv => (cx.vert v ((h.vm v).1 hv).1).1
      obtain ⟨ex, rest, e1, d1, d2, m1, m2⟩ := collect_rep (n := n) (cur := cur) (L := L) affV [] [] hvlt List.nodup_nil List.nodup_nil h.vn (by simp)
      have hcx : Ctx n m adj prev L cur wk.clusters := by
        refine ⟨cx.n32, cx.m1, cx.sym, hL1, by have := h.len; omega, ?_, fun v hv hvL => (hiff v hv).1 hvL⟩
        intro u v hu huv
        exact (h.uni u v huv).trans hu
      have hRI : RI ar n m adj h0 w prev L cur wk.clusters wk.fresh Z 0 [] [] ex wk cur noise last := by
        refine ⟨h.rep, h.bk, Frame.refl _ _, ?_, by simp, fun _ _ _ => rfl, fun v _ hvL => .inl hvL, fun u v _ huv => h.uni u v huv, ?_, ?_, by simp, by simp,
          List.nodup_nil, List.nodup_nil, by simp, by simp, ?_, d1, by simp, fun _ => rfl⟩
        · intro l c hc hge
          have := lt_of_get hc
          omega
        · intro u v hu _ huL _ hge
          have := h.len
          omega
        · intro v hv hvL _
          have hvp := (hiff v hv).1 hvL
          rcases cx.cov v hv (hvp ▸ hL0) with ⟨x, hx, hr⟩ | hz
          swap
          · exact .inr (.inr hz)
          left
          have hxL : cur x = L := by
            have : ∀ y, Reach adj v y → cur y = cur v := by
              intro y hy
              induction hy with
              | refl => rfl
              | tail _ h2 ih => exact (h.uni _ _ h2).trans ih
            rw [this x hr]; exact hvL
          refine ⟨x, (m1 x).2 (.inr ⟨(h.vm x).2 ⟨hx, ?_⟩, hxL⟩), hr⟩
          rw [(hiff x (cx.vert x hx).1).1 hxL]; exact hL
        · intro x hx
          rcases (m1 x).1 hx with hx | ⟨hx, hxL⟩
          · simp at hx
          · exact ⟨hvlt x hx, hxL, hxL⟩
      obtain ⟨e', wk1, cur1, noise1, last1, r1, r2⟩ := roots_rep hcx ex.length
        { constr := [], unexpl := [], examined := ex, anyEdges := false, inc := false, numChild := 0, first := [], unexplFirst := [] } wk cur noise last hRI rfl rfl (le_refl _)
      obtain ⟨wk2, cur2, f1, f2⟩ := finish_rep hcx r2
      simp only [h.rep.cur, e1, Outcome.ok_bind, r1, f1]
      refine ih affL.dropLast rest wk2 cur2 noise1 last1 ?_ (by omega)
      have hfr := f2.frame.1
      have hspl := fun hZ : ∀ v, ¬ Z v => f2.splitOK hcx h.bk hZ ⟨p0, hp0, (hiff p0 hp0).2 hp0L⟩ (h.spl hZ)
      have hclen := h.len
      have houtL : ∀ v, v < n → prev v ≠ L → cur2 v = cur v := fun v hv hvL => f2.out v hv (fun hx => hvL ((hiff v hv).1 hx))
      refine ⟨f2.rep, f2.bk, h.len.trans hfr, ?_, ?_, hspl, f2.twins hcx h.bk h.twin, ?_, ?_, ?_, ?_, hnd.1, fun l hl => h.lsub l ((hmem l).2 (.inl hl)), ?_, d2⟩
      · intro l c0 hc0
        obtain ⟨c1, q1, q2⟩ := h.old l c0 hc0
        obtain ⟨c2, s1, _, _, s2, _⟩ := f2.frame.2 l c1 q1
        exact ⟨c2, s1, s2.trans q2⟩
      · rw [f2.fresh, h.fresh]
        have e : wk2.clusters.length - csl.length = (wk.clusters.length - csl.length) + (wk2.clusters.length - wk.clusters.length) := by omega
        have e2 : csl.length + (wk.clusters.length - csl.length) = wk.clusters.length := by omega
        rw [e, ← List.range'_append, Nat.one_mul, e2]
      · intro v hv hvx
        have hvL : prev v ≠ L := by
          rintro rfl
          rcases hvx with hvx | hvx
          · exact hvx hL0
          · exact hLD hvx
        rw [houtL v hv hvL]
        apply h.todo v hv
        rcases hvx with hvx | hvx
        · exact .inl hvx
        · exact .inr ((hmem _).2 (.inl hvx))
      · intro v hv hv0 hvn
        by_cases hvL : prev v = L
        · rcases f2.inn v hv ((hiff v hv).2 hvL) with h2 | h2 | h2
          · exact .inl ⟨h2.1.trans hvL.symm, h2.2⟩
          · exact .inr (.inl h2)
          · exact .inr (.inr ⟨by omega, h2.2⟩)
        · rw [houtL v hv hvL]
          exact h.done v hv hv0 (fun hx => by
            rcases (hmem _).1 hx with hx | hx
            · exact hvn hx
            · exact hvL hx)
      · intro u v huv
        have hun := cx.sym.lt_left huv
        have hvn := cx.sym.lt _ _ huv
        by_cases huL : prev u = L
        · exact f2.uni u v ((hiff u hun).2 huL) huv
        · have hvL : prev v ≠ L := by rw [cx.uni u v huv]; exact huL
          rw [houtL u hun huL, houtL v hvn hvL]
          exact h.uni u v huv
      · intro u v hu hv hu0 hun hv0 hvn hne heq
        have hun' : prev u ≠ L → prev u ∉ affL := fun hx hy => by
          rcases (hmem _).1 hy with hy | hy
          · exact hun hy
          · exact hx hy
        have hvn' : prev v ≠ L → prev v ∉ affL := fun hx hy => by
          rcases (hmem _).1 hy with hy | hy
          · exact hvn hy
          · exact hx hy
        by_cases huL : prev u = L
        · by_cases hvL : prev v = L
          · rw [huL]
            exact f2.sep u v hu hv ((hiff u hu).2 huL) ((hiff v hv).2 hvL) hne heq
          · exfalso
            have hcv := houtL v hv hvL
            have hcvlt : cur v < wk.clusters.length := by
              have := h.bk.lt (h0.length + 1) v hv
              rwa [lab_now] at this
            rcases f2.inn u hu ((hiff u hu).2 huL) with h2 | h2 | h2
            · have : cur v = L := by omega
              exact hvL ((hiff v hv).1 this)
            · exact hne h2.1
            · omega
        · by_cases hvL : prev v = L
          · exfalso
            have hcu := houtL u hu huL
            have hcult : cur u < wk.clusters.length := by
              have := h.bk.lt (h0.length + 1) u hu
              rwa [lab_now] at this
            rcases f2.inn v hv ((hiff v hv).2 hvL) with h2 | h2 | h2
            · have : cur u = L := by omega
              exact huL ((hiff u hu).1 this)
            · omega
            · omega
          · rw [houtL u hu huL] at hne heq ⊢
            rw [houtL v hv hvL] at heq
            exact h.sep u v hu hv hu0 (hun' huL) hv0 (hvn' hvL) hne heq
      · intro x
        rw [m2, h.vm]
        simp only [List.not_mem_nil, false_or]
        constructor
        · rintro ⟨⟨h1, h2⟩, h3⟩
          refine ⟨h1, ?_⟩
          rcases (hmem _).1 h2 with h2 | h2
          · exact h2
          · exact absurd ((hiff x (cx.vert x h1).1).2 h2) h3
        · rintro ⟨h1, h2⟩
          refine ⟨⟨h1, (hmem _).2 (.inl h2)⟩, ?_⟩
          intro h3
          have := (hiff x (cx.vert x h1).1).1 h3
          rw [this] at h2
          exact hLD h2

end
end Verif.Hier
