import Verif.Lemmas.Iso
import Verif.Props.Outlier
/-
Helper lemmas: two runs on corresponding distances have corresponding results.
-/
namespace Verif.Corr
open Spec Relation Hier

section
variable {W S T : Type} [LinearOrder W] [CCmp S] [LinearOrder T]

/-- The parts of one run. -/
structure Parts (ar : Arith W S) (smax : S) (n m M : Nat) (f : Nat → Nat × Nat × W) (res : Result W S) (hist : List (W × (Nat → Nat))) (cur : Nat → Nat) (noise : Nat → Option W)
    (last : Nat → Option Nat) (s : Sel.St W S) (V : Nat → Cl W S) (out : Run.Out W S) : Prop where
  obs : Obs ar n m M f res hist cur noise last
  inp : Inp n M f
  prop : Sel.propagateTree ar smax (List.range res.clusters.length) res.clusters = .ok s
  x : Sel.XInv ar smax res.clusters.length (Sel.kOf ar res.clusters) 0 s V
  sel : Selection res.clusters (V 1).desc
  hier : out.hierarchy = res.hierarchy
  cls : out.clusters = s.clusters
  noise : out.noise = res.noise
  last : out.last = res.last
  len : out.labels.length = n
  lab : ∀ p l, l ≠ 0 → (out.labels[p]? = some l ↔ l ∈ (V 1).desc ∧ p < n ∧ lab hist cur (Sel.kOf ar res.clusters l).offset p = l)

theorem parts (ar : Arith W S) (smax : S) (sch : Run.Schedule) (hsch : sch.Complete) (m : Nat) (hm : 1 ≤ m) (dis : Distance W) (n : Nat) (n32 : n < 2 ^ 32) {d : Nat → Nat → W} {core : Nat → W}
    {g0 g : Graph W} (e0 : Mst.construct ar.zeroW ar.dmax true dis n = .ok g0) (e1 : Graph.sortByWeight g0 = .ok g) (G : Good n d core g) {out : Run.Out W S}
    (h : Run.doRun ar smax sch m dis n = .ok out) :
    ∃ M f res hist cur noise last s V, triples g.va g.vb g.wt = (List.range M).map f ∧ Parts ar smax n m M f res hist cur noise last s V out := by
  obtain ⟨f, hr, ec, hd, hs, htr⟩ := Hier.input_rep G.inp
  obtain ⟨res, hist, cur, noise, last, e, ob⟩ := Hier.obs ar hr G.inp.nonempty ec G.num n32 hm hd hs
  obtain ⟨s, V, hall, hx, hsel, labels, hlen, hprom, hiff⟩ := Sel.labels_rep ob.toBase smax
  refine ⟨_, f, res, hist, cur, noise, last, s, V, htr, ?_⟩
  simp only [Run.doRun, e0, e1, Outcome.ok_bind, Run.fromTree, e, hall _ (hsch.leaf _), G.num, hprom sch.group sch.steps hsch.group hsch.steps, Outcome.pure_eq] at h
  cases h
  exact ⟨ob, ⟨ec, hs⟩, hall _ (.refl _), hx, hsel, rfl, rfl, rfl, rfl, hlen, hiff⟩

variable {ar : Arith W S} {smax : S} {n m M M' : Nat} {f f' : Nat → Nat × Nat × W} {res res' : Result W S} {hist hist' : List (W × (Nat → Nat))}
  {cur cur' : Nat → Nat} {noise noise' : Nat → Option W} {last last' : Nat → Option Nat} {s s' : Sel.St W S} {V V' : Nat → Cl W S} {out out' : Run.Out W S}
  {σ τ : Nat → Nat} {ψ : W → W} {φ : Nat → Nat}

omit [CCmp S] in
theorem noise_of (h : Obs ar n m M f res hist cur noise last) {p k : Nat} (hp : p < n) {w : W} {g : Nat → Nat} (hk : hist[k]? = some (w, g)) (h1 : g p ≠ 0) (h2 : lab hist cur (k + 1) p = 0) :
    noise p = some w ∧ last p = some (g p) := by
  obtain ⟨k', w', g', n1, n2, n3, n4, n5⟩ := h.bk.noise p hp (h.zero p hp)
  have : k' = k := by
    rcases Nat.lt_trichotomy k' k with hlt | heq | hgt
    · have := h.bk.noise_stays hp (s := k' + 1) (t := k) (by omega) n3
      rw [lab_get hk] at this
      exact absurd this h1
    · exact heq
    · have := h.bk.noise_stays hp (s := k + 1) (t := k') (by omega) h2
      rw [lab_get n1] at this
      exact absurd this n2
  subst this
  rw [hk] at n1
  simp only [Option.some.injEq, Prod.mk.injEq] at n1
  obtain ⟨rfl, rfl⟩ := n1
  exact ⟨n4, n5⟩

omit [CCmp S] in
theorem twin_noise (h : Obs ar n m M f res hist cur noise last) (h' : Obs ar n m M' f' res' hist' cur' noise' last') (hi : Inp n M f) (hi' : Inp n M' f')
    (hm : 2 ≤ m) (hmn : m ≤ n) (t : Twin n M M' f f' σ τ ψ) (r : Ren n σ ψ φ hist hist' cur cur' res.clusters res'.clusters) {p : Nat} (hp : p < n) :
    ∃ w l, noise p = some w ∧ last p = some l ∧ 1 ≤ l ∧ l < res.clusters.length ∧ noise' (σ p) = some (ψ w) ∧ last' (σ p) = some (φ l) := by
  obtain ⟨k, w, g, n1, n2, n3, n4, n5⟩ := h.bk.noise p hp (h.zero p hp)
  obtain ⟨g', hg'⟩ := twin_line h h' hi hi' hm hmn t n1
  have e1 := r.lab k p hp
  rw [lab_get n1, lab_get hg'] at e1
  have e1' : g' (σ p) = φ (g p) := e1
  have hlt := h.bk.lt k p hp
  rw [lab_get n1] at hlt
  have hlt' : g p < res.clusters.length := hlt
  have h0 : φ (g p) ≠ 0 := fun hx => n2 (r.inj _ _ hlt' (by have := h.bk.two; omega) (by rw [hx, r.zero]))
  obtain ⟨a, b⟩ := noise_of h' (t.b.s p hp) hg' (by rw [e1']; exact h0) (by rw [r.lab _ p hp, n3, r.zero])
  exact ⟨w, g p, n4, n5, by omega, hlt', a, by rw [b, e1']⟩

omit [CCmp S] in
theorem iso_of (h : Obs ar n m M f res hist cur noise last) (h' : Obs ar n m M' f' res' hist' cur' noise' last') (r : Ren n σ ψ φ hist hist' cur cur' res.clusters res'.clusters) :
    ∃ χ, Iso res.clusters res'.clusters φ χ := by
  classical
  have ht := (Sel.obs_tree h.toBase).1
  have ht' := (Sel.obs_tree h'.toBase).1
  have hlt : ∀ l, 1 ≤ l → l < res.clusters.length → 1 ≤ φ l ∧ φ l < res'.clusters.length := by
    intro l h1 h2
    obtain ⟨c, hc, _⟩ := h.bk.cl l h1 h2
    obtain ⟨c', hc', _⟩ := r.cl l c hc
    obtain ⟨a, b, _⟩ := h'.bk.get hc'
    exact ⟨a, b⟩
  let χ : Nat → Nat := fun l' => if hx : 1 ≤ l' ∧ l' < res'.clusters.length then (r.surj l' hx.1 hx.2).choose else 0
  have hχ : ∀ l', 1 ≤ l' → l' < res'.clusters.length → 1 ≤ χ l' ∧ χ l' < res.clusters.length ∧ φ (χ l') = l' := by
    intro l' h1 h2
    have : χ l' = (r.surj l' h1 h2).choose := dif_pos ⟨h1, h2⟩
    rw [this]
    exact (r.surj l' h1 h2).choose_spec
  refine ⟨χ, hlt, fun l h1 h2 => ⟨(hχ l h1 h2).1, (hχ l h1 h2).2.1⟩, ?_, fun l h1 h2 => (hχ l h1 h2).2.2, ?_, ?_⟩
  · intro l h1 h2
    obtain ⟨a, b⟩ := hlt l h1 h2
    obtain ⟨_, c1, c2⟩ := hχ (φ l) a b
    exact r.inj _ _ c1 h2 c2
  · rintro l q ⟨c, hc, hq⟩
    obtain ⟨c', hc', hp, _⟩ := r.cl l c hc
    exact ⟨c', hc', by rw [hp, hq]; rfl⟩
  · intro l' q' hl
    obtain ⟨⟨a1, a2⟩, a3, a4⟩ := child_lt ht' hl
    obtain ⟨c', hc', hq⟩ := hl
    obtain ⟨b1, b2, b3⟩ := hχ l' a1 a2
    obtain ⟨d1, d2, d3⟩ := hχ q' a3 a4
    obtain ⟨c, hc, _⟩ := h.bk.cl (χ l') b1 b2
    obtain ⟨c2, hc2, hp, _⟩ := r.cl (χ l') c hc
    rw [b3, hc', Option.some.injEq, Option.some.injEq] at hc2
    subst hc2
    refine ⟨c, hc, ?_⟩
    rw [hq] at hp
    cases hcp : c.parent with
    | none => rw [hcp] at hp; simp at hp
    | some q =>
      rw [hcp] at hp
      simp only [Option.map_some, Option.some.injEq] at hp
      have := child_lt ht (⟨c, hc, hcp⟩ : IsChild res.clusters (χ l') q)
      rw [r.inj (χ q') q d2 this.2.2 (by rw [d3, hp])]

theorem Parts.len_eq (p : Parts ar smax n m M f res hist cur noise last s V out) : out.clusters.length = res.clusters.length := by rw [p.cls, p.x.rep.len]

/-- The clusters after propagation are those before, as far as the tree and the death levels are concerned. -/
theorem Parts.after (p : Parts ar smax n m M f res hist cur noise last s V out) {l : Nat} (h1 : 1 ≤ l) (h2 : l < res.clusters.length) :
    out.clusters[l]? = some (some (V l)) ∧ ∃ c : Cl W S, res.clusters[l]? = some (some c) ∧ (V l).death = c.death ∧ (V l).parent = c.parent ∧ (V l).birth = c.birth ∧ (V l).stability = c.stability := by
  obtain ⟨c, hc, _⟩ := p.obs.bk.cl l h1 h2
  refine ⟨by rw [p.cls]; exact p.x.rep.at' l h1 h2, c, hc, ?_⟩
  have := p.x.inv.stat l
  rw [Sel.kOf_eq hc] at this
  rw [this]
  exact ⟨rfl, rfl, rfl, rfl⟩

theorem Parts.child (p : Parts ar smax n m M f res hist cur noise last s V out) (l q : Nat) : IsChild out.clusters l q ↔ IsChild res.clusters l q := by
  rw [p.cls]
  exact Sel.isChild_after (Sel.obs_tree p.obs.toBase).1 p.x l q

omit [CCmp S] in
theorem lowest_iso {cs cs' : List (Option (Cl W S))} {φ χ : Nat → Nat} (h : Iso cs cs' φ χ) (hψ : Monotone ψ)
    (hin : ∀ (l : Nat) (c : Cl W S), cs'[l]? = some (some c) → 1 ≤ l ∧ l < cs'.length) (hin0 : ∀ (l : Nat) (c : Cl W S), cs[l]? = some (some c) → 1 ≤ l ∧ l < cs.length)
    (hd : ∀ (l : Nat) (c : Cl W S), cs[l]? = some (some c) → ∃ c' : Cl W S, cs'[φ l]? = some (some c') ∧ c'.death = ψ c.death)
    (hd' : ∀ (l : Nat) (c' : Cl W S), cs'[l]? = some (some c') → ∃ c : Cl W S, cs[χ l]? = some (some c) ∧ c'.death = ψ c.death)
    {l : Nat} (h1 : 1 ≤ l) (h2 : l < cs.length) {w : W} (hw : LowestBelow cs l w) : LowestBelow cs' (φ l) (ψ w) := by
  obtain ⟨⟨t, c, t1, t2, t3, t4⟩, hall⟩ := hw
  constructor
  · obtain ⟨c', hc', hcd⟩ := hd t c t1
    obtain ⟨b1, b2⟩ := hin0 t c t1
    refine ⟨φ t, c', hc', fun k hk => t2 (χ k) ?_, h.atOrAbove t3, by rw [hcd, t4]⟩
    have := h.child' _ _ hk
    rwa [h.back t b1 b2] at this
  · intro t' c' a1 a2 a3
    obtain ⟨c, hc, hcd⟩ := hd' t' c' a1
    obtain ⟨b1, b2⟩ := hin t' c' a1
    rw [hcd]
    refine hψ (hall (χ t') c hc (fun k hk => a2 (φ k) ?_) ?_)
    · have := h.child _ _ hk
      rwa [h.forth t' b1 b2] at this
    · have := h.symm.atOrAbove a3
      rwa [h.back l h1 h2] at this

omit [CCmp S] in
theorem lowest_unique {cs : List (Option (Cl W S))} {l : Nat} {w w' : W} (h : LowestBelow cs l w) (h' : LowestBelow cs l w') : w = w' := by
  obtain ⟨⟨t, c, t1, t2, t3, rfl⟩, a⟩ := h
  obtain ⟨⟨t', c', t1', t2', t3', rfl⟩, a'⟩ := h'
  exact le_antisymm (a t' c' t1' t2' t3') (a' t c t1 t2 t3)

omit [LinearOrder W] [CCmp S] in
theorem Iso.length_le {cs cs' : List (Option (Cl W S))} {φ χ : Nat → Nat} (h : Iso cs cs' φ χ) (h2 : 2 ≤ cs'.length) : cs.length ≤ cs'.length := by
  have hn : ((List.range' 1 (cs.length - 1)).map φ).Nodup := by
    refine List.Nodup.map_on ?_ List.nodup_range'
    intro x hx y hy he
    rw [List.mem_range'_1] at hx hy
    rw [← h.back x (by omega) (by omega), ← h.back y (by omega) (by omega), he]
  have hsub : ((List.range' 1 (cs.length - 1)).map φ) ⊆ List.range' 1 (cs'.length - 1) := by
    intro x hx
    obtain ⟨y, hy, rfl⟩ := List.mem_map.1 hx
    rw [List.mem_range'_1] at hy ⊢
    have := h.lt y (by omega) (by omega)
    omega
  have := (hn.subperm hsub).length_le
  simp at this
  omega

/-- The tree of the clusters after propagation. -/
theorem Parts.iso (p : Parts ar smax n m M f res hist cur noise last s V out) (p' : Parts ar smax n m M' f' res' hist' cur' noise' last' s' V' out') {χ : Nat → Nat}
    (h : Iso res.clusters res'.clusters φ χ) : Iso out.clusters out'.clusters φ χ := by
  refine ⟨?_, ?_, ?_, ?_, ?_, ?_⟩
  · rw [p.len_eq, p'.len_eq]; exact h.lt
  · rw [p.len_eq, p'.len_eq]; exact h.lt'
  · rw [p.len_eq]; exact h.back
  · rw [p'.len_eq]; exact h.forth
  · intro l q hl
    rw [p'.child]; exact h.child l q ((p.child l q).1 hl)
  · intro l q hl
    rw [p.child]; exact h.child' l q ((p'.child l q).1 hl)

theorem Parts.in_range (p : Parts ar smax n m M f res hist cur noise last s V out) {l : Nat} {c : Cl W S} (hc : out.clusters[l]? = some (some c)) : 1 ≤ l ∧ l < out.clusters.length := by
  have hl : l < out.clusters.length := (List.getElem?_eq_some_iff.1 hc).1
  refine ⟨?_, hl⟩
  by_contra h0
  have : l = 0 := by omega
  subst this
  rw [p.cls, p.x.rep.zero] at hc
  simp at hc

/-- The lowest death levels below corresponding clusters correspond. -/
theorem twin_lowest (p : Parts ar smax n m M f res hist cur noise last s V out) (p' : Parts ar smax n m M' f' res' hist' cur' noise' last' s' V' out')
    (t : Twin n M M' f f' σ τ ψ) (r : Ren n σ ψ φ hist hist' cur cur' res.clusters res'.clusters) {χ : Nat → Nat} (h : Iso res.clusters res'.clusters φ χ)
    {l : Nat} (h1 : 1 ≤ l) (h2 : l < res.clusters.length) {w : W} (hw : LowestBelow out.clusters l w) : LowestBelow out'.clusters (φ l) (ψ w) := by
  have key : ∀ l, 1 ≤ l → l < res.clusters.length → (V' (φ l)).death = ψ (V l).death := by
    intro l h1 h2
    obtain ⟨_, c, hc, d1, _⟩ := p.after h1 h2
    obtain ⟨a, b⟩ := h.lt l h1 h2
    obtain ⟨_, c', hc', d1', _⟩ := p'.after a b
    obtain ⟨c2, hc2, _, _, d2, _⟩ := r.cl l c hc
    rw [hc', Option.some.injEq, Option.some.injEq] at hc2
    subst hc2
    rw [d1', d2, d1]
  refine lowest_iso (p.iso p' h) t.mono.monotone (fun l c => p'.in_range) (fun l c => p.in_range) ?_ ?_ h1 (by rw [p.len_eq]; exact h2) hw
  · intro l c hc
    obtain ⟨a, b⟩ := p.in_range hc
    rw [p.len_eq] at b
    have e := (p.after a b).1
    rw [hc, Option.some.injEq, Option.some.injEq] at e
    subst e
    obtain ⟨a', b'⟩ := h.lt l a b
    exact ⟨V' (φ l), (p'.after a' b').1, key l a b⟩
  · intro l c hc
    obtain ⟨a, b⟩ := p'.in_range hc
    rw [p'.len_eq] at b
    have e := (p'.after a b).1
    rw [hc, Option.some.injEq, Option.some.injEq] at e
    subst e
    obtain ⟨a', b'⟩ := h.lt' l a b
    exact ⟨V (χ l), (p.after a' b').1, by rw [← key _ a' b', h.forth l a b]⟩

end

section
variable {W S : Type} [LinearOrder W] [AddCommGroup S] [LinearOrder S] [IsOrderedAddMonoid S]
variable {ar : Arith W S} {smax : S} {n m M M' : Nat} {f f' : Nat → Nat × Nat × W} {res res' : Result W S} {hist hist' : List (W × (Nat → Nat))}
  {cur cur' : Nat → Nat} {noise noise' : Nat → Option W} {last last' : Nat → Option Nat} {s s' : Sel.St W S} {V V' : Nat → Cl W S} {out out' : Run.Out W S}
  {σ τ : Nat → Nat} {ψ : W → W} {φ : Nat → Nat}

theorem Parts.best (p : Parts ar smax n m M f res hist cur noise last s V out) (hadd : ∀ a b, ar.add a b = a + b) (hz : ar.zeroS = 0) : Best res.clusters (V 1).desc := by
  obtain ⟨ht, hu, hn⟩ := Sel.obs_tree p.obs.toBase
  obtain ⟨s0, root, e, hroot, hsel, _, hopt⟩ := Props.C34_optimal ar hadd hz smax _ res.clusters ht hu hn (.refl _)
  rw [p.prop] at e; cases e
  have := p.x.rep.at' 1 (by omega) (by have := ht.two; omega)
  rw [hroot, Option.some.injEq, Option.some.injEq] at this
  subst this
  exact ⟨hsel, fun T hT => (hopt T hT).1, fun T hT => (hopt T hT).2⟩

/-- The labels correspond. -/
theorem twin_labels (p : Parts ar smax n m M f res hist cur noise last s V out) (p' : Parts ar smax n m M' f' res' hist' cur' noise' last' s' V' out')
    (hm : 2 ≤ m) (hmn : m ≤ n) (t : Twin n M M' f f' σ τ ψ) (r : Ren n σ ψ φ hist hist' cur cur' res.clusters res'.clusters) {χ : Nat → Nat} (h : Iso res.clusters res'.clusters φ χ)
    (hadd : ∀ a b, ar.add a b = a + b) (hz : ar.zeroS = 0) (ha : Additive ar) (γ : S → S) (hγ : StrictMono γ) (gadd : ∀ a b, γ (a + b) = γ a + γ b)
    (gterm : ∀ k w b, w ∈ hist.map (·.1) → b ∈ hist.map (·.1) → ar.term k (ψ w) (some (ψ b)) = γ (ar.term k w (some b)))
    {q : Nat} (hq : q < n) : ∃ l, out.labels[q]? = some l ∧ out'.labels[σ q]? = some (φ l) := by
  have g0 : γ 0 = 0 := by
    have := gadd 0 0
    simpa using this
  have ht := (Sel.obs_tree p.obs.toBase).1
  have ht' := (Sel.obs_tree p'.obs.toBase).1
  have hst : ∀ l q, IsChild res.clusters l q → stabilityOf 0 res'.clusters (φ l) = γ (stabilityOf 0 res.clusters l) := by
    rintro l q ⟨c, hc, hcq⟩
    obtain ⟨c', hc', _⟩ := r.cl l c hc
    have hl : l ≠ 1 := fun hl => by
      have := (ht.root l c hc).2 hl
      rw [hcq] at this; simp at this
    rw [stabilityOf, stabilityOf, hc, hc']
    exact twin_stab p.obs p'.obs p.inp p'.inp hm hmn t r ha ha γ (by rw [hz, g0]) (fun a b => by rw [hadd, hadd, gadd]) gterm hl hc hc'
  obtain ⟨sub1, sub2⟩ := h.best_sub ht ht' γ hγ g0 gadd hst (p.best hadd hz) (p'.best hadd hz)
  have hoff : ∀ l ∈ (V 1).desc, (Sel.kOf ar res'.clusters (φ l)).offset = (Sel.kOf ar res.clusters l).offset := by
    intro l hl
    obtain ⟨q, c, hc, hcq⟩ := p.sel.notRoot l hl
    have hl1 : l ≠ 1 := fun hl => by
      have := (ht.root l c hc).2 hl
      rw [hcq] at this; simp at this
    obtain ⟨c', hc', _, _, _, ho⟩ := r.cl l c hc
    rw [Sel.kOf_eq hc, Sel.kOf_eq hc', ho hl1]
  have fwd : ∀ l, l ≠ 0 → out.labels[q]? = some l → out'.labels[σ q]? = some (φ l) ∧ l < res.clusters.length := by
    intro l h0 hl
    obtain ⟨a, _, b⟩ := (p.lab q l h0).1 hl
    have hlt := sel_lt ht p.sel a
    have := h.lt l hlt.1 hlt.2
    refine ⟨(p'.lab (σ q) (φ l) (by omega)).2 ⟨sub1 l a, t.b.s q hq, ?_⟩, hlt.2⟩
    rw [hoff l a, r.lab _ q hq, b]
  have bwd : ∀ l', l' ≠ 0 → out'.labels[σ q]? = some l' → ∃ l, l ≠ 0 ∧ out.labels[q]? = some l := by
    intro l' h0 hl
    obtain ⟨a, _, b⟩ := (p'.lab (σ q) l' h0).1 hl
    have hlt := sel_lt ht' p'.sel a
    have h1 := h.lt' l' hlt.1 hlt.2
    have hf := h.forth l' hlt.1 hlt.2
    refine ⟨χ l', by omega, (p.lab q (χ l') (by omega)).2 ⟨sub2 l' a, hq, ?_⟩⟩
    have ho := hoff (χ l') (sub2 l' a)
    rw [hf] at ho
    rw [ho, r.lab _ q hq] at b
    exact r.inj _ _ (p.obs.bk.lt _ q hq) h1.2 (by rw [b, hf])
  obtain ⟨l, hl⟩ : ∃ l, out.labels[q]? = some l := ⟨_, List.getElem?_eq_getElem (by rw [p.len]; exact hq)⟩
  obtain ⟨l', hl'⟩ : ∃ l, out'.labels[σ q]? = some l := ⟨_, List.getElem?_eq_getElem (by rw [p'.len]; exact t.b.s q hq)⟩
  refine ⟨l, hl, ?_⟩
  by_cases h0 : l = 0
  · subst h0
    rw [r.zero, hl']
    by_cases h0' : l' = 0
    · rw [h0']
    · obtain ⟨x, x1, x2⟩ := bwd l' h0' hl'
      rw [hl] at x2
      simp only [Option.some.injEq] at x2
      exact absurd x2.symm x1
  · exact (fwd l h0 hl).1

end
end Verif.Corr
