import Verif.Lemmas.Book
/-
Helper lemmas for the hierarchy: what happens to one affected cluster.
-/
namespace Verif.Hier
variable {W S : Type}

theorem setAll_rep {α : Type} {n : Nat} (x : α) : ∀ (P : List Nat) (f : Nat → α), (∀ p ∈ P, p < n) →
    setAll x P ((List.range n).map f) = .ok ((List.range n).map (fun p => if p ∈ P then x else f p)) := by
  intro P
  induction P with
  | nil => intro f _; simp [setAll]
  | cons a t ih =>
    intro f h
    rw [setAll, Graph.wr_map _ _ (h a (by simp)), Outcome.ok_bind, ih _ (fun p hp => h p (by simp [hp]))]
    congr 1
    apply List.map_congr_left
    intro p _
    by_cases h1 : p ∈ t
    · simp [h1]
    · by_cases h2 : p = a <;> simp [h1, h2]

theorem getCl_ok {C : Type} {cs : List (Option C)} {l : Nat} {c : C} (h : cs[l]? = some (some c)) : getCl cs l = .ok c := by
  simp [getCl, rd, h]

theorem detach_virtual (ar : Arith W S) (c : Cl W S) (k : Nat) (w : W) (P : List Nat) :
    ∃ c', c' = (c.detach ar k w).1.addVirtual P ∧ Lost ar w k c c' ∧ c'.vchild = P.foldl sInsert c.vchild ∧ c'.hasChildren = c.hasChildren := by
  have h := lost_detach ar c k w
  have h1 := detach_vchild ar c k w
  have h2 := detach_hasChildren ar c k w
  generalize (c.detach ar k w).1 = d at h h1 h2
  exact ⟨_, rfl, ⟨h.label, h.birth, h.parent, h.num, h.stab, h.death, h.prop, h.offset⟩, by simp [Cl.addVirtual, h1], h2⟩

theorem detach_split (ar : Arith W S) (c : Cl W S) (k : Nat) (w : W) :
    ∃ c', c' = { (c.detach ar k w).1 with hasChildren := true } ∧ Lost ar w k c c' ∧ c'.vchild = c.vchild ∧ c'.hasChildren = true := by
  have h := lost_detach ar c k w
  have h1 := detach_vchild ar c k w
  generalize (c.detach ar k w).1 = d at h h1
  exact ⟨_, rfl, ⟨h.label, h.birth, h.parent, h.num, h.stab, h.death, h.prop, h.offset⟩, h1, rfl⟩

/-- The arrays of the state, as functions. -/
structure WRep (n : Nat) (wk : Work W S) (cur : Nat → Nat) (noise : Nat → Option W) (last : Nat → Option Nat) : Prop where
  cur : wk.cur = (List.range n).map cur
  noise : wk.noise = (List.range n).map noise
  last : wk.last = (List.range n).map last
  next : wk.next = wk.clusters.length

/-- What an event keeps of the older clusters: only `L` changes. -/
def Frame (L : Nat) (cs0 cs : List (Option (Cl W S))) : Prop :=
  cs0.length ≤ cs.length ∧ ∀ (l : Nat) (c0 : Cl W S), cs0[l]? = some (some c0) →
    ∃ c : Cl W S, cs[l]? = some (some c) ∧ c.parent = c0.parent ∧ c.birth = c0.birth ∧ c.offset = c0.offset ∧ (l ≠ L → c = c0)

theorem Frame.refl (L : Nat) (cs : List (Option (Cl W S))) : Frame L cs cs := ⟨le_refl _, fun _ c0 h => ⟨c0, h, rfl, rfl, rfl, fun _ => rfl⟩⟩

theorem Frame.trans {L : Nat} {a b c : List (Option (Cl W S))} (h1 : Frame L a b) (h2 : Frame L b c) : Frame L a c := by
  refine ⟨h1.1.trans h2.1, fun l c0 h => ?_⟩
  obtain ⟨d, q1, q2, q3, q4, q5⟩ := h1.2 l c0 h
  obtain ⟨e, r1, r2, r3, r4, r5⟩ := h2.2 l d q1
  exact ⟨e, r1, r2.trans q2, r3.trans q3, r4.trans q4, fun hl => (r5 hl).trans (q5 hl)⟩

theorem Frame.set {L : Nat} {cs : List (Option (Cl W S))} {c c' : Cl W S} (hc : cs[L]? = some (some c)) {ar : Arith W S} {w : W} {k : Nat}
    (h : Lost ar w k c c') (tl : List (Option (Cl W S))) : Frame L cs (cs.set L (some c') ++ tl) := by
  have hL := lt_of_get hc
  refine ⟨by simp, fun l c0 h0 => ?_⟩
  have hl := lt_of_get h0
  rw [List.getElem?_append_left (by simpa using hl), List.getElem?_set]
  by_cases hlL : L = l
  · subst hlL
    rw [hc] at h0
    simp only [Option.some.injEq] at h0
    subst h0
    exact ⟨c', by simp [hL], h.parent, h.birth, h.offset, fun h => absurd rfl h⟩
  · rw [if_neg hlL]
    exact ⟨c0, h0, rfl, rfl, rfl, fun _ => rfl⟩

section
variable {ar : Arith W S} {n m : Nat} {h0 : List (W × (Nat → Nat))} {w : W} {prev : Nat → Nat} {L : Nat} {P : List Nat}

theorem newNoise_rep (hn : n < 2 ^ 32) {wk : Work W S} {cur noise last} (hw : WRep n wk cur noise last)
    (hb : BK ar n m (h0 ++ [(w, prev)]) cur wk.clusters noise last) (ev : Ev n prev cur L P) (hL : L < wk.clusters.length) :
    ∃ wk' noise' last', newNoise ar P L w wk = .ok wk' ∧ WRep n wk' (relabel cur P 0) noise' last' ∧
      BK ar n m (h0 ++ [(w, prev)]) (relabel cur P 0) wk'.clusters noise' last' ∧ Frame L wk.clusters wk'.clusters ∧
      wk'.clusters.length = wk.clusters.length ∧ wk'.fresh = wk.fresh := by
  obtain ⟨c, hc, hi⟩ := hb.cl L ev.pos hL
  obtain ⟨c', e1, e2, e3, e4⟩ := detach_virtual ar c P.length w P
  have hbk := hb.toNoise hn ev hc e2 e3 e4
  refine ⟨{ wk with cur := (List.range n).map (relabel cur P 0), clusters := wk.clusters.set L (some c'),
                    noise := (List.range n).map (fun p => if p ∈ P then some w else noise p),
                    last := (List.range n).map (fun p => if p ∈ P then some L else last p) }, _, _, ?_, ⟨rfl, rfl, rfl, ?_⟩, hbk, ?_, ?_, rfl⟩
  · rw [newNoise, hw.cur, setAll_rep 0 P cur ev.lt, Outcome.ok_bind, getCl_ok hc, Outcome.ok_bind]
    simp only
    rw [← e1, wr_ok hL, Outcome.ok_bind, hw.noise, setAll_rep _ P noise ev.lt, Outcome.ok_bind, hw.last, setAll_rep _ P last ev.lt, Outcome.ok_bind]
    rfl
  · simp [hw.next]
  · have := Frame.set hc e2 []
    simpa using this
  · simp

theorem newCluster_rep (hn : n < 2 ^ 32) (hm : m ≤ P.length) {wk : Work W S} {cur noise last} (hw : WRep n wk cur noise last)
    (hb : BK ar n m (h0 ++ [(w, prev)]) cur wk.clusters noise last) (ev : Ev n prev cur L P) (hL : L < wk.clusters.length) :
    ∃ (wk' : Work W S) (nc : Cl W S), newCluster ar P L w wk = .ok wk' ∧ WRep n wk' (relabel cur P wk.clusters.length) noise last ∧
      BK ar n m (h0 ++ [(w, prev)]) (relabel cur P wk.clusters.length) wk'.clusters noise last ∧ Frame L wk.clusters wk'.clusters ∧
      wk'.clusters.length = wk.clusters.length + 1 ∧ wk'.fresh = wk.fresh ++ [wk.clusters.length] ∧
      wk'.clusters[wk.clusters.length]? = some (some nc) ∧ nc.parent = some L ∧ nc.birth = some w := by
  obtain ⟨c, hc, hi⟩ := hb.cl L ev.pos hL
  obtain ⟨c', e1, e2, e3, e4⟩ := detach_split ar c P.length w
  have hbk := hb.toNew hn hm ev hc e2 e3 e4
  refine ⟨{ wk with cur := (List.range n).map (relabel cur P wk.clusters.length),
                    clusters := wk.clusters.set L (some c') ++ [some (Cl.init ar wk.clusters.length (some L) (some w) P.length)],
                    next := wk.clusters.length + 1, fresh := wk.fresh ++ [wk.clusters.length] },
    Cl.init ar wk.clusters.length (some L) (some w) P.length, ?_, ⟨rfl, hw.noise, hw.last, by simp⟩, hbk, ?_, by simp, rfl, ?_, rfl, rfl⟩
  · rw [newCluster, hw.cur, setAll_rep wk.next P cur ev.lt, Outcome.ok_bind, getCl_ok hc, Outcome.ok_bind]
    simp only
    rw [← e1, wr_ok hL, Outcome.ok_bind, hw.next]
    rfl
  · exact Frame.set hc e2 _
  · simp

end

/-- The state while the vertices of cluster `L` are examined; `Z` are the vertices that are not looked at. -/
structure RI (ar : Arith W S) (n m : Nat) (adj : List (List Nat)) (h0 : List (W × (Nat → Nat))) (w : W) (prev : Nat → Nat) (L : Nat) (cur0 : Nat → Nat)
    (cs0 : List (Option (Cl W S))) (fresh0 : List Nat) (Z : Nat → Prop) (numChild : Nat) (first unexplFirst examined : List Nat) (wk : Work W S) (cur : Nat → Nat)
    (noise : Nat → Option W) (last : Nat → Option Nat) : Prop where
  rep : WRep n wk cur noise last
  bk : BK ar n m (h0 ++ [(w, prev)]) cur wk.clusters noise last
  frame : Frame L cs0 wk.clusters
  new : ∀ (l : Nat) (c : Cl W S), wk.clusters[l]? = some (some c) → cs0.length ≤ l → c.parent = some L ∧ c.birth = some w
  fresh : wk.fresh = fresh0 ++ List.range' cs0.length (wk.clusters.length - cs0.length)
  out : ∀ v, v < n → cur0 v ≠ L → cur v = cur0 v
  inn : ∀ v, v < n → cur0 v = L → cur v = L ∨ (cur v = 0 ∧ ¬ Valid adj m v) ∨ (cs0.length ≤ cur v ∧ Valid adj m v)
  uni : ∀ u v, cur0 u = L → Nbr adj u v → cur v = cur u
  sep : ∀ u v, u < n → v < n → cur0 u = L → cur0 v = L → cs0.length ≤ cur u → cur v = cur u → Reach adj u v
  cov : ∀ v, v < n → cur0 v = L → cur v = L → (∃ x ∈ examined, Reach adj v x) ∨ (first ≠ [] ∧ ∀ f ∈ first, Reach adj v f) ∨ Z v
  fst : ∀ f ∈ first, f < n ∧ cur f = L ∧ cur0 f = L ∧ Valid adj m f
  fr : ∀ f ∈ first, ∀ f' ∈ first, Reach adj f f'
  fn : first.Nodup
  un : unexplFirst.Nodup
  us : ∀ v ∈ unexplFirst, v ∈ first
  fc : ∀ u ∈ first, u ∉ unexplFirst → ∀ v, Nbr adj u v → v ∈ first
  ex : ∀ x ∈ examined, x < n ∧ cur0 x = L ∧ cur x = L
  xn : examined.Nodup
  num : numChild = (if first = [] then 0 else 1) + (wk.clusters.length - cs0.length)
  emp : first = [] → wk.clusters.length = cs0.length

section
variable {ar : Arith W S} {n m : Nat} {adj : List (List Nat)} {h0 : List (W × (Nat → Nat))} {w : W} {prev : Nat → Nat} {L : Nat} {cur0 : Nat → Nat}
  {cs0 : List (Option (Cl W S))} {fresh0 : List Nat} {Z : Nat → Prop}

/-- What is fixed while the vertices of cluster `L` are examined. -/
structure Ctx (n m : Nat) (adj : List (List Nat)) (prev : Nat → Nat) (L : Nat) (cur0 : Nat → Nat) (cs0 : List (Option (Cl W S))) : Prop where
  n32 : n < 2 ^ 32
  m1 : 1 ≤ m
  sym : Sym n adj
  pos : 1 ≤ L
  lt : L < cs0.length
  closed : ∀ u v, cur0 u = L → Nbr adj u v → cur0 v = L
  prev : ∀ v, v < n → cur0 v = L → prev v = L

theorem Ctx.reach (cx : Ctx n m adj prev L cur0 cs0) {u v : Nat} (hu : cur0 u = L) (hr : Reach adj u v) : cur0 v = L := by
  induction hr with
  | refl => exact hu
  | tail _ h2 ih => exact cx.closed _ _ ih h2

theorem RI.reach (cx : Ctx n m adj prev L cur0 cs0) {nc f u x wk cur noise last}
    (h : RI ar n m adj h0 w prev L cur0 cs0 fresh0 Z nc f u x wk cur noise last) {a b : Nat} (ha : cur0 a = L) (hr : Reach adj a b) : cur b = cur a := by
  induction hr with
  | refl => rfl
  | tail h1 h2 ih => exact (h.uni _ _ (cx.reach ha h1) h2).trans ih

/-- Relabelling a whole component keeps the topological part. -/
theorem RI.relabel (cx : Ctx n m adj prev L cur0 cs0) {nc f u x wk cur noise last}
    (h : RI ar n m adj h0 w prev L cur0 cs0 fresh0 Z nc f u x wk cur noise last) {r : Nat} (hr0 : cur0 r = L)
    {P : List Nat} (hP : ∀ v, v ∈ P ↔ Reach adj r v) {y : Nat} (hy : y = 0 ∧ ¬ Valid adj m r ∨ y = wk.clusters.length ∧ Valid adj m r) :
    (∀ v, v < n → cur0 v ≠ L → relabel cur P y v = cur0 v) ∧
    (∀ v, v < n → cur0 v = L → relabel cur P y v = L ∨ (relabel cur P y v = 0 ∧ ¬ Valid adj m v) ∨ (cs0.length ≤ relabel cur P y v ∧ Valid adj m v)) ∧
    (∀ u v, cur0 u = L → Nbr adj u v → relabel cur P y v = relabel cur P y u) ∧
    (∀ u v, u < n → v < n → cur0 u = L → cur0 v = L → cs0.length ≤ relabel cur P y u → relabel cur P y v = relabel cur P y u → Reach adj u v) := by
  have hcl := h.frame.1
  have hval : ∀ v, v ∈ P → (Valid adj m v ↔ Valid adj m r) := fun v hv => valid_congr cx.sym (cx.sym.reach_symm ((hP v).1 hv))
  have hcur : ∀ v, v < n → cur v < wk.clusters.length := by
    intro v hv
    have := h.bk.lt (h0.length + 1) v hv
    rwa [lab_now] at this
  refine ⟨?_, ?_, ?_, ?_⟩
  · intro v hv hne
    rw [relabel_out]
    · exact h.out v hv hne
    · intro hvP
      exact hne (cx.reach hr0 ((hP v).1 hvP))
  · intro v hv hvL
    by_cases hvP : v ∈ P
    · rw [relabel_in hvP, hval v hvP]
      rcases hy with ⟨rfl, hy⟩ | ⟨rfl, hy⟩
      · exact .inr (.inl ⟨rfl, hy⟩)
      · exact .inr (.inr ⟨hcl, hy⟩)
    · rw [relabel_out hvP]; exact h.inn v hv hvL
  · intro a b ha hab
    by_cases haP : a ∈ P
    · have hbP : b ∈ P := (hP b).2 (((hP a).1 haP).tail hab)
      rw [relabel_in haP, relabel_in hbP]
    · have hbP : b ∉ P := fun hb => haP ((hP a).2 (((hP b).1 hb).tail (cx.sym.symm _ _ hab)))
      rw [relabel_out haP, relabel_out hbP]; exact h.uni a b ha hab
  · intro a b ha hb haL hbL hge heq
    by_cases haP : a ∈ P
    · by_cases hbP : b ∈ P
      · exact (cx.sym.reach_symm ((hP a).1 haP)).trans ((hP b).1 hbP)
      · rw [relabel_in haP] at heq hge
        rw [relabel_out hbP] at heq
        rcases hy with ⟨rfl, _⟩ | ⟨rfl, _⟩
        · have := cx.lt; omega
        · have := hcur b hb; omega
    · rw [relabel_out haP] at heq hge
      by_cases hbP : b ∈ P
      · rw [relabel_in hbP] at heq
        rcases hy with ⟨rfl, _⟩ | ⟨rfl, _⟩
        · have := cx.lt; omega
        · have := hcur a ha; omega
      · rw [relabel_out hbP] at heq
        exact h.sep a b ha hb haL hbL hge heq

theorem nil_iff_of_mem {xs ys : List Nat} (h : ∀ v, v ∈ xs ↔ v ∈ ys) : xs = [] ↔ ys = [] := by
  simp only [List.eq_nil_iff_forall_not_mem, h]

/-- The loop over the vertices of one cluster keeps the invariant and ends. -/
theorem roots_rep (cx : Ctx n m adj prev L cur0 cs0) : ∀ (fuel : Nat) (e : Ex) (wk : Work W S) (cur noise last),
    RI ar n m adj h0 w prev L cur0 cs0 fresh0 Z e.numChild e.first e.unexplFirst e.examined wk cur noise last → e.constr = [] → e.unexpl = [] →
    e.examined.length ≤ fuel →
    ∃ e' wk' cur' noise' last', roots ar adj m L w fuel e wk = .ok (e', wk') ∧
      RI ar n m adj h0 w prev L cur0 cs0 fresh0 Z e'.numChild e'.first e'.unexplFirst [] wk' cur' noise' last' := by
  intro fuel
  induction fuel with
  | zero =>
    intro e wk cur noise last h _ _ hf
    have hx : e.examined = [] := List.length_eq_zero_iff.1 (by omega)
    exact ⟨e, wk, cur, noise, last, by simp [roots, hx], hx ▸ h⟩
  | succ fuel ih =>
    intro e wk cur noise last h hce hue hf
    unfold roots
    cases hl : e.examined.getLast? with
    | none =>
      have hx : e.examined = [] := List.getLast?_eq_none_iff.1 hl
      exact ⟨e, wk, cur, noise, last, rfl, hx ▸ h⟩
    | some root =>
      have hsp := getLast?_split hl
      have hmem : ∀ x, x ∈ e.examined ↔ x ∈ e.examined.dropLast ∨ x = root := by
        intro x
        conv_lhs => rw [hsp]
        simp
      obtain ⟨hrn, hr0, hrL⟩ := h.ex root ((hmem root).2 (.inr rfl))
      have hnd := h.xn
      rw [hsp, List.nodup_append] at hnd
      have hrD : root ∉ e.examined.dropLast := fun hx => hnd.2.2 _ hx _ (by simp) rfl
      have hlen : e.examined.length = e.examined.dropLast.length + 1 := by
        conv_lhs => rw [hsp]
        simp
      have hE : EInv n adj root e.examined.dropLast { e with
          examined := e.examined.dropLast
          constr := sInsert e.constr root
          unexpl := e.unexpl ++ [root]
          anyEdges := false
          inc := false } := by
        rw [hce, hue]
        refine ⟨nodup_sInsert List.nodup_nil _, by simp [mem_sInsert], ?_, by simp, ?_, ?_, ?_, ?_, hnd.1, le_refl _⟩
        · intro v hv
          simp only [mem_sInsert, List.not_mem_nil, or_false] at hv
          subst hv; exact .refl
        · intro v hv
          simpa [mem_sInsert] using hv
        · intro u hu hnu
          simp only [mem_sInsert, List.not_mem_nil, or_false] at hu
          simp [hu] at hnu
        · simp only [Bool.false_eq_true, false_iff, not_exists, not_and]
          intro u hu hnu
          simp only [mem_sInsert, List.not_mem_nil, or_false] at hu
          simp [hu] at hnu
        · intro v
          simp only [mem_sInsert, List.not_mem_nil, or_false]
          constructor
          · intro hv
            refine ⟨hv, ?_⟩
            rintro rfl
            exact hrD hv
          · exact fun hv => hv.1
      have hlk : ¬ Looks m { e with examined := e.examined.dropLast, constr := sInsert e.constr root, unexpl := e.unexpl ++ [root], anyEdges := false, inc := false } := by
        intro hx; simpa using hx.2
      obtain ⟨e1, p1, p2, p3⟩ := explore_spec (m := m) cx.sym hrn (adj.length + 1) _ hE
        (by rw [hce, hue, cx.sym.len, length_sInsert (by simp)]; simp) (by simp only [Bool.false_eq_true, false_iff]; exact hlk) (by simp)
      simp only [p1, Outcome.ok_bind]
      clear p1
      simp only at p3
      have hxl := p2.xl
      have hcurP : ∀ v ∈ e1.constr, cur v = L := fun v hv => (h.reach cx hr0 (p2.reach v hv)).trans hrL
      have ev : Ev n prev cur L e1.constr := by
        refine ⟨cx.pos, p2.cn, ?_, fun v hv => cx.sym.reach_lt hrn (p2.reach v hv), fun v hv => ?_, hcurP⟩
        · intro hnil
          have := p2.base
          rw [hnil] at this
          simp at this
        · exact cx.prev v (cx.sym.reach_lt hrn (p2.reach v hv)) (cx.reach hr0 (p2.reach v hv))
      have hLlt : L < wk.clusters.length := by have := h.frame.1; have := cx.lt; omega
      have hexam : ∀ x ∈ e1.examined, x < n ∧ cur0 x = L ∧ cur x = L := by
        intro x hx
        exact h.ex x ((hmem x).2 (.inl ((p2.xm x).1 hx).1))
      have hxsplit : ∀ x ∈ e.examined, x ∈ e1.examined ∨ x ∈ e1.constr := by
        intro x hx
        by_cases hxc : x ∈ e1.constr
        · exact .inr hxc
        · refine .inl ((p2.xm x).2 ⟨?_, hxc⟩)
          rcases (hmem x).1 hx with hx | hx
          · exact hx
          · subst hx; exact absurd p2.base hxc
      rcases p3 with ⟨q1, q2, q3, q4, q5, q6⟩ | ⟨q1, q2, q3, q4, q5⟩
      · -- fully explored
        have hP := p2.complete q1
        simp only [true_and] at q6
        by_cases hlook : Looks m e1
        · -- valid, not the first valid one that was seen
          have hfne : e.first ≠ [] := fun hx => q4 hx hlook
          rw [if_pos (q5.2 hlook)] at q6
          have hvr : Valid adj m root := p2.valid_of_looks hlook
          have hnum := h.num
          rw [if_neg hfne] at hnum
          have hc1 : 2 ≤ e1.numChild ∧ m ≤ e1.constr.length ∧ e1.anyEdges = true := ⟨by omega, hlook.1, hlook.2⟩
          obtain ⟨mm, hmm⟩ : ∃ mm, e1.first.getLast? = some mm := by
            cases hg : e1.first.getLast? with
            | none => exact absurd (q2 ▸ List.getLast?_eq_none_iff.1 hg) hfne
            | some mm => exact ⟨mm, rfl⟩
          have hmmF : mm ∈ e.first := by rw [← q2, getLast?_split hmm]; simp
          unfold settle
          rw [if_pos hc1, hmm]
          simp only
          split
          · -- it is the component of the first child
            rename_i hin
            simp only [Outcome.ok_bind]
            refine ih _ wk cur noise last ?_ rfl rfl (by simp only; omega)
            simp only [q2, q3]
            refine { h with cov := ?_, ex := hexam, xn := p2.xn, num := ?_ }
            · intro v hv hv0 hvL
              rcases h.cov v hv hv0 hvL with ⟨x, hx, hvx⟩ | hf
              · rcases hxsplit x hx with hx | hx
                · exact .inl ⟨x, hx, hvx⟩
                · refine .inr (.inl ⟨hfne, fun f hf => ?_⟩)
                  exact hvx.trans ((cx.sym.reach_symm (p2.reach x hx)).trans ((p2.reach mm hin).trans (h.fr mm hmmF f hf)))
              · exact .inr hf
            · rw [if_neg hfne]; omega
          · -- a new cluster
            rename_i hin
            obtain ⟨wk', nc, n1, n2, n3, n4, n5, n6, n7, n8, n9⟩ := newCluster_rep cx.n32 hlook.1 h.rep h.bk ev hLlt
            rw [n1]
            simp only [Outcome.ok_bind]
            obtain ⟨t1, t2, t3, t4⟩ := h.relabel cx hr0 hP (y := wk.clusters.length) (.inr ⟨rfl, hvr⟩)
            have hfout : ∀ f ∈ e.first, f ∉ e1.constr := by
              intro f hf hfc
              exact hin ((hP mm).2 (((hP f).1 hfc).trans (h.fr f hf mm hmmF)))
            refine ih _ wk' (relabel cur e1.constr wk.clusters.length) noise last ?_ rfl rfl (by simp only; omega)
            simp only [q2, q3]
            have hfl := h.frame.1
            refine ⟨n2, n3, h.frame.trans n4, ?_, ?_, t1, t2, t3, t4, ?_, ?_, h.fr, h.fn, h.un, h.us, h.fc, ?_, p2.xn, ?_, fun hx => absurd hx hfne⟩
            · intro l c hc hge
              by_cases hlN : l = wk.clusters.length
              · subst hlN
                rw [n7] at hc
                simp only [Option.some.injEq] at hc
                subst hc
                exact ⟨n8, n9⟩
              · have hl' : l < wk.clusters.length := by have := lt_of_get hc; omega
                obtain ⟨c0, hc0, _⟩ := h.bk.cl l (by have := cx.lt; omega) hl'
                obtain ⟨c1, r1, r2, r3, _⟩ := n4.2 l c0 hc0
                rw [hc] at r1
                simp only [Option.some.injEq] at r1
                subst r1
                have := h.new l c0 hc0 hge
                exact ⟨r2.trans this.1, r3.trans this.2⟩
            · rw [n6, h.fresh, n5, List.append_assoc]
              congr 1
              rw [show wk.clusters.length + 1 - cs0.length = (wk.clusters.length - cs0.length) + 1 by omega, List.range'_1_concat]
              congr 2
              omega
            · intro v hv hv0 hvL
              by_cases hvP : v ∈ e1.constr
              · rw [relabel_in hvP] at hvL; omega
              · rw [relabel_out hvP] at hvL
                rcases h.cov v hv hv0 hvL with ⟨x, hx, hvx⟩ | hf
                · rcases hxsplit x hx with hx | hx
                  · exact .inl ⟨x, hx, hvx⟩
                  · exact absurd ((hP v).2 ((p2.reach x hx).trans (cx.sym.reach_symm hvx))) hvP
                · exact .inr hf
            · intro f hf
              rw [relabel_out (hfout f hf)]
              exact h.fst f hf
            · intro x hx
              rw [relabel_out ((p2.xm x).1 hx).2]
              exact hexam x hx
            · rw [if_neg hfne]; omega
        · -- not valid: noise
          have hnv : ¬ Valid adj m root := fun hv => hlook (p2.looks_of_valid q1 hv)
          have hni : e1.inc = false := by
            cases hx : e1.inc with
            | false => rfl
            | true => exact absurd (q5.1 hx) hlook
          rw [if_neg (by simp [hni])] at q6
          have hc1 : ¬ (2 ≤ e1.numChild ∧ m ≤ e1.constr.length ∧ e1.anyEdges = true) := fun hx => hlook ⟨hx.2.1, hx.2.2⟩
          have hc2 : e1.constr.length < m ∨ e1.anyEdges = false := by
            by_contra hx
            simp only [not_or, Nat.not_lt, Bool.not_eq_false] at hx
            exact hlook hx
          unfold settle
          rw [if_neg hc1, if_pos hc2]
          obtain ⟨wk', noise', last', n1, n2, n3, n4, n5, n6⟩ := newNoise_rep cx.n32 h.rep h.bk ev hLlt
          rw [n1]
          simp only [Outcome.ok_bind, Outcome.pure_eq]
          obtain ⟨t1, t2, t3, t4⟩ := h.relabel cx hr0 hP (y := 0) (.inl ⟨rfl, hnv⟩)
          have hfout : ∀ f ∈ e.first, f ∉ e1.constr := by
            intro f hf hfc
            exact hnv ((valid_congr cx.sym ((hP f).1 hfc)).2 (h.fst f hf).2.2.2)
          refine ih _ wk' (relabel cur e1.constr 0) noise' last' ?_ rfl rfl (by simp only; omega)
          simp only [q2, q3]
          refine ⟨n2, n3, h.frame.trans n4, ?_, ?_, t1, t2, t3, t4, ?_, ?_, h.fr, h.fn, h.un, h.us, h.fc, ?_, p2.xn, ?_, fun hx => by rw [n5]; exact h.emp hx⟩
          · intro l c hc hge
            have hl' : l < wk.clusters.length := by have := lt_of_get hc; omega
            obtain ⟨c0, hc0, _⟩ := h.bk.cl l (by have := cx.lt; omega) hl'
            obtain ⟨c1, r1, r2, r3, _⟩ := n4.2 l c0 hc0
            rw [hc] at r1
            simp only [Option.some.injEq] at r1
            subst r1
            have := h.new l c0 hc0 hge
            exact ⟨r2.trans this.1, r3.trans this.2⟩
          · rw [n6, h.fresh, n5]
          · intro v hv hv0 hvL
            by_cases hvP : v ∈ e1.constr
            · rw [relabel_in hvP] at hvL
              have := cx.pos
              omega
            · rw [relabel_out hvP] at hvL
              rcases h.cov v hv hv0 hvL with ⟨x, hx, hvx⟩ | hf
              · rcases hxsplit x hx with hx | hx
                · exact .inl ⟨x, hx, hvx⟩
                · exact absurd ((hP v).2 ((p2.reach x hx).trans (cx.sym.reach_symm hvx))) hvP
              · exact .inr hf
          · intro f hf
            rw [relabel_out (hfout f hf)]
            exact h.fst f hf
          · intro x hx
            rw [relabel_out ((p2.xm x).1 hx).2]
            exact hexam x hx
          · rw [q6, n5]; exact h.num
      · -- the first valid component, exploration stopped
        have hnum := h.num
        rw [if_pos q1, h.emp q1] at hnum
        have hc1 : ¬ (2 ≤ e1.numChild ∧ m ≤ e1.constr.length ∧ e1.anyEdges = true) := by
          rintro ⟨hx, _⟩; omega
        have hc2 : ¬ (e1.constr.length < m ∨ e1.anyEdges = false) := by
          have := q2.1; have := q2.2
          simp; constructor
          · omega
          · assumption
        unfold settle
        rw [if_neg hc1, if_neg hc2]
        simp only [Outcome.ok_bind]
        have hfm : ∀ v, v ∈ e1.first ↔ v ∈ e1.constr := by
          intro v; rw [q3, mem_foldl_sInsert]; simp
        have hunf : e.unexplFirst = [] := by
          apply List.eq_nil_iff_forall_not_mem.2
          intro v hv
          have := h.us v hv
          rw [q1] at this
          simp at this
        have hum : ∀ v, v ∈ e1.unexplFirst ↔ v ∈ e1.unexpl := by
          intro v; rw [q4, mem_foldl_sInsert, hunf]; simp
        have hfne : e1.first ≠ [] := by
          intro hx
          have := (hfm root).2 p2.base
          rw [hx] at this
          simp at this
        have hvr : Valid adj m root := p2.valid_of_looks q2
        refine ih _ wk cur noise last ?_ rfl rfl (by simp only; omega)
        simp only
        refine { h with cov := ?_, fst := ?_, fr := ?_, fn := ?_, un := ?_, us := ?_, fc := ?_, ex := hexam, xn := p2.xn, num := ?_, emp := fun hx => absurd hx hfne }
        · intro v hv hv0 hvL
          rcases h.cov v hv hv0 hvL with ⟨x, hx, hvx⟩ | hf
          · rcases hxsplit x hx with hx | hx
            · exact .inl ⟨x, hx, hvx⟩
            · refine .inr (.inl ⟨hfne, fun f hf => ?_⟩)
              exact hvx.trans ((cx.sym.reach_symm (p2.reach x hx)).trans (p2.reach f ((hfm f).1 hf)))
          · rcases hf with hf | hf
            · exact absurd q1 hf.1
            · exact .inr (.inr hf)
        · intro f hf
          have hfc := (hfm f).1 hf
          exact ⟨ev.lt f hfc, hcurP f hfc, cx.reach hr0 (p2.reach f hfc), (valid_congr cx.sym (p2.reach f hfc)).1 hvr⟩
        · intro f hf f' hf'
          exact (cx.sym.reach_symm (p2.reach f ((hfm f).1 hf))).trans (p2.reach f' ((hfm f').1 hf'))
        · rw [q3]; exact nodup_foldl_sInsert List.nodup_nil
        · rw [q4, hunf]; exact nodup_foldl_sInsert List.nodup_nil
        · intro v hv
          exact (hfm v).2 (p2.us v ((hum v).1 hv))
        · intro u hu hnu v hv
          rw [hum] at hnu
          exact (hfm v).2 (p2.closed u ((hfm u).1 hu) hnu v hv)
        · rw [if_neg hfne, h.emp q1]; omega

/-- What has become of cluster `L`. -/
structure LPost (ar : Arith W S) (n m : Nat) (adj : List (List Nat)) (h0 : List (W × (Nat → Nat))) (w : W) (prev : Nat → Nat) (L : Nat) (cur0 : Nat → Nat)
    (cs0 : List (Option (Cl W S))) (fresh0 : List Nat) (Z : Nat → Prop) (wk : Work W S) (cur : Nat → Nat) (noise : Nat → Option W) (last : Nat → Option Nat) : Prop where
  rep : WRep n wk cur noise last
  bk : BK ar n m (h0 ++ [(w, prev)]) cur wk.clusters noise last
  frame : Frame L cs0 wk.clusters
  new : ∀ (l : Nat) (c : Cl W S), wk.clusters[l]? = some (some c) → cs0.length ≤ l → c.parent = some L ∧ c.birth = some w
  fresh : wk.fresh = fresh0 ++ List.range' cs0.length (wk.clusters.length - cs0.length)
  out : ∀ v, v < n → cur0 v ≠ L → cur v = cur0 v
  inn : ∀ v, v < n → cur0 v = L → (cur v = L ∧ (Valid adj m v ∨ Z v)) ∨ (cur v = 0 ∧ ¬ Valid adj m v) ∨ (cs0.length ≤ cur v ∧ Valid adj m v)
  uni : ∀ u v, cur0 u = L → Nbr adj u v → cur v = cur u
  sep : ∀ u v, u < n → v < n → cur0 u = L → cur0 v = L → cur u ≠ 0 → cur v = cur u → Reach adj u v ∨ (cur u = L ∧ (Z u ∨ Z v))
  split : wk.clusters.length = cs0.length ∨ (cs0.length + 2 ≤ wk.clusters.length ∧ ∀ v, v < n → cur v = L → Z v)

theorem finish_rep (cx : Ctx n m adj prev L cur0 cs0) {e : Ex} {wk : Work W S} {cur noise last}
    (h : RI ar n m adj h0 w prev L cur0 cs0 fresh0 Z e.numChild e.first e.unexplFirst [] wk cur noise last) :
    ∃ wk' cur', finish ar adj L w e wk = .ok wk' ∧ LPost ar n m adj h0 w prev L cur0 cs0 fresh0 Z wk' cur' noise last := by
  have hcl := h.frame.1
  have hLlt : L < wk.clusters.length := by have := cx.lt; omega
  have hcov : ∀ v, v < n → cur0 v = L → cur v = L → (e.first ≠ [] ∧ ∀ f ∈ e.first, Reach adj v f) ∨ Z v := by
    intro v hv hv0 hvL
    rcases h.cov v hv hv0 hvL with ⟨x, hx, _⟩ | hf
    · simp at hx
    · exact hf
  unfold finish
  by_cases h2 : 2 ≤ e.numChild
  · rw [if_pos h2]
    have hnum := h.num
    have hfne : e.first ≠ [] := by
      intro hx
      rw [if_pos hx, h.emp hx] at hnum
      omega
    rw [if_neg hfne] at hnum
    obtain ⟨dd, t, hdd⟩ := List.exists_cons_of_ne_nil hfne
    have hddF : dd ∈ e.first := by rw [hdd]; simp
    obtain ⟨hddn, hddL, hdd0, hddv⟩ := h.fst dd hddF
    have r0 : rd e.first 0 = .ok dd := by rw [hdd]; rfl
    have r1 : rd wk.cur dd = .ok L := by rw [h.rep.cur, Graph.rd_map _ hddn, hddL]
    obtain ⟨f', g1, g2, g3⟩ := growFirst_spec cx.sym hddn (adj.length + 1) e.first e.unexplFirst h.fn h.un hddF (fun v hv => h.fr dd hddF v hv) h.us h.fc
      (by
        have : e.unexplFirst.length ≤ e.first.length := (h.un.subperm h.us).length_le
        rw [cx.sym.len]; omega)
    simp only [r0, r1, Outcome.ok_bind, if_true, g1]
    have ev : Ev n prev cur L f' := by
      refine ⟨cx.pos, g2, ?_, ?_, ?_, ?_⟩
      · intro hnil
        have := (g3 dd).2 .refl
        rw [hnil] at this
        simp at this
      · intro v hv
        exact cx.sym.reach_lt hddn ((g3 v).1 hv)
      · intro v hv
        exact cx.prev v (cx.sym.reach_lt hddn ((g3 v).1 hv)) (cx.reach hdd0 ((g3 v).1 hv))
      · intro v hv
        exact (h.reach cx hdd0 ((g3 v).1 hv)).trans hddL
    have hlen : m ≤ f'.length := by
      obtain ⟨⟨l, l1, l2, l3⟩, _⟩ := hddv
      exact Nat.le_trans l2 (l1.subperm (fun z hz => (g3 z).2 (l3 z hz))).length_le
    obtain ⟨wk', nc, n1, n2, n3, n4, n5, n6, n7, n8, n9⟩ := newCluster_rep cx.n32 hlen h.rep h.bk ev hLlt
    obtain ⟨t1, t2, t3, t4⟩ := h.relabel cx hdd0 g3 (y := wk.clusters.length) (.inr ⟨rfl, hddv⟩)
    have hnoL : ∀ v, v < n → cur0 v = L → relabel cur f' wk.clusters.length v = L → Z v := by
      intro v hv hv0 hvL
      by_cases hvf : v ∈ f'
      · rw [relabel_in hvf] at hvL; omega
      · rw [relabel_out hvf] at hvL
        rcases hcov v hv hv0 hvL with hx | hx
        · exact absurd ((g3 v).2 (cx.sym.reach_symm (hx.2 dd hddF))) hvf
        · exact hx
    refine ⟨wk', _, n1, n2, n3, h.frame.trans n4, ?_, ?_, t1, ?_, t3, ?_, .inr ⟨by omega, ?_⟩⟩
    · intro l c hc hge
      by_cases hlN : l = wk.clusters.length
      · subst hlN
        rw [n7] at hc
        simp only [Option.some.injEq] at hc
        subst hc
        exact ⟨n8, n9⟩
      · have hl' : l < wk.clusters.length := by have := lt_of_get hc; omega
        obtain ⟨c0, hc0, _⟩ := h.bk.cl l (by have := cx.lt; omega) hl'
        obtain ⟨c1, r1, r2, r3, _⟩ := n4.2 l c0 hc0
        rw [hc] at r1
        simp only [Option.some.injEq] at r1
        subst r1
        have := h.new l c0 hc0 hge
        exact ⟨r2.trans this.1, r3.trans this.2⟩
    · rw [n6, h.fresh, n5, List.append_assoc]
      congr 1
      rw [show wk.clusters.length + 1 - cs0.length = (wk.clusters.length - cs0.length) + 1 by omega, List.range'_1_concat]
      congr 2
      omega
    · intro v hv hv0
      rcases t2 v hv hv0 with h1 | h1 | h1
      · exact .inl ⟨h1, .inr (hnoL v hv hv0 h1)⟩
      · exact .inr (.inl h1)
      · exact .inr (.inr h1)
    · intro u v hu hv hu0 hv0 hne heq
      rcases t2 u hu hu0 with h1 | h1 | h1
      · exact .inr ⟨h1, .inl (hnoL u hu hu0 h1)⟩
      · exact absurd h1.1 hne
      · exact .inl (t4 u v hu hv hu0 hv0 h1.1 heq)
    · intro v hv
      by_cases hv0 : cur0 v = L
      · exact hnoL v hv hv0
      · rw [t1 v hv hv0]; exact fun hx => absurd hx hv0
  · rw [if_neg h2]
    have hnum := h.num
    have hsame : wk.clusters.length = cs0.length := by
      by_cases hx : e.first = []
      · exact h.emp hx
      · rw [if_neg hx] at hnum; omega
    refine ⟨wk, cur, rfl, h.rep, h.bk, h.frame, h.new, h.fresh, h.out, ?_, h.uni, ?_, .inl hsame⟩
    · intro v hv hv0
      rcases h.inn v hv hv0 with h1 | h1 | h1
      · rcases hcov v hv hv0 h1 with ⟨hfne, hf⟩ | hz
        · obtain ⟨dd, t, hdd⟩ := List.exists_cons_of_ne_nil hfne
          have hddF : dd ∈ e.first := by rw [hdd]; simp
          exact .inl ⟨h1, .inl (Valid.of_reach cx.sym (hf dd hddF) (h.fst dd hddF).2.2.2)⟩
        · exact .inl ⟨h1, .inr hz⟩
      · exact .inr (.inl h1)
      · exact .inr (.inr h1)
    · intro u v hu hv hu0 hv0 hne heq
      rcases h.inn u hu hu0 with h1 | h1 | h1
      · rcases hcov u hu hu0 h1 with ⟨hfne, hf⟩ | hz
        · rcases hcov v hv hv0 (heq.trans h1) with ⟨_, hf'⟩ | hz
          · obtain ⟨dd, t, hdd⟩ := List.exists_cons_of_ne_nil hfne
            have hddF : dd ∈ e.first := by rw [hdd]; simp
            exact .inl ((hf dd hddF).trans (cx.sym.reach_symm (hf' dd hddF)))
          · exact .inr ⟨h1, .inr hz⟩
        · exact .inr ⟨h1, .inl hz⟩
      · exact absurd h1.1 hne
      · exact .inl (h.sep u v hu hv hu0 hv0 h1.1 heq)

end
end Verif.Hier
