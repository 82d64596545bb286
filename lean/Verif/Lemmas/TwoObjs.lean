import Verif.Lemmas.TwoRuns
import Verif.Lemmas.Fresh
/-
Helper lemmas: two objects on corresponding data.
-/
namespace Verif.Corr
open Spec Relation Hier
variable {D W S T : Type}

theorem bij_of {n : Nat} {σ : Nat → Nat} (h : Rearranges n σ) : ∃ τ, Bij n σ τ := by
  classical
  have hn : ((List.range n).map σ).Nodup := List.Nodup.map_on (fun x hx y hy he => h.inj x y (List.mem_range.1 hx) (List.mem_range.1 hy) he) List.nodup_range
  have hs : ((List.range n).map σ) ⊆ List.range n := by
    intro x hx
    obtain ⟨y, hy, rfl⟩ := List.mem_map.1 hx
    exact List.mem_range.2 (h.lt y (List.mem_range.1 hy))
  have hp : ((List.range n).map σ).Perm (List.range n) := (hn.subperm hs).perm_of_length_le (by simp)
  have hx : ∀ x, x < n → ∃ y, y < n ∧ σ y = x := by
    intro x hx
    obtain ⟨y, hy, e⟩ := List.mem_map.1 (hp.mem_iff.2 (List.mem_range.2 hx))
    exact ⟨y, List.mem_range.1 hy, e⟩
  let τ : Nat → Nat := fun x => if hx' : x < n then (hx x hx').choose else 0
  have ht : ∀ x, x < n → τ x < n ∧ σ (τ x) = x := by
    intro x hx'
    have : τ x = (hx x hx').choose := dif_pos hx'
    rw [this]
    exact (hx x hx').choose_spec
  exact ⟨τ, h.lt, fun x hx' => (ht x hx').1, fun x hx' => h.inj _ _ (ht _ (h.lt x hx')).1 hx' (ht _ (h.lt x hx')).2, fun x hx' => (ht x hx').2⟩

/-- Two runs of the stages after the distances. -/
theorem two_runs [LinearOrder W] [CCmp S] [LinearOrder T] (qsort : (OScore W T → OScore W T → Int) → List (OScore W T) → List (OScore W T)) (hq : SortsAscending qsort)
    (ar : Arith W S) (smax : S) (ops : Outlier.Ops W T) {n m : Nat} (hm : 2 ≤ m) (hmn : m ≤ n) (n31 : n < 2 ^ 31) {dis dis' : Distance W} {d d' : Nat → Nat → W} {core core' : Nat → W}
    (hget : ∀ i j, i < n → j < n → i ≠ j → dis.get ar.zeroW i j = .ok (d i j)) (hsym : ∀ i j, d i j = d j i) (hcore : ∀ i, i < n → dis.coreDistances[i]? = some (some (core i)))
    (hmax : ∀ i j, i < n → j < n → i ≠ j → mutualReach d core i j < ar.dmax)
    (hget' : ∀ i j, i < n → j < n → i ≠ j → dis'.get ar.zeroW i j = .ok (d' i j)) (hsym' : ∀ i j, d' i j = d' j i) (hcore' : ∀ i, i < n → dis'.coreDistances[i]? = some (some (core' i)))
    (hmax' : ∀ i j, i < n → j < n → i ≠ j → mutualReach d' core' i j < ar.dmax)
    {σ τ : Nat → Nat} {ψ : W → W} (hS : Same n d d' core core' σ τ ψ) {sch : Run.Schedule} {order : List Nat} (hsch : sch.Complete) (ho : order.Perm (List.range n)) {out out' : Run.Full W S T}
    (hf : Run.full qsort ar smax ops sch order m dis n = .ok out) (hf' : Run.full qsort ar smax ops sch order m dis' n = .ok out') :
    ∃ M M' f f' res res' hist hist' cur cur' noise noise' last last' s s' V V' φ χ, Parts ar smax n m M f res hist cur noise last s V out.toOut ∧
      Parts ar smax n m M' f' res' hist' cur' noise' last' s' V' out'.toOut ∧ Twin n M M' f f' σ τ ψ ∧ Ren n σ ψ φ hist hist' cur cur' res.clusters res'.clusters ∧
      Iso res.clusters res'.clusters φ χ ∧ SameHierarchy n σ φ ψ out.hierarchy out'.hierarchy ∧ out'.clusters.length = out.clusters.length ∧
      (∀ w ∈ hist.map (·.1), ∃ i, i < n ∧ core i ≤ w) ∧
      (ψ ar.zeroW = ar.zeroW → (∀ a b, ops.ratio (ψ a) (ψ b) = ops.ratio a b) → (out.clusters.length ≠ 2 ∨ ψ ar.dmax = ar.dmax) →
        ∀ a ∈ out.outliers, ∃ b ∈ out'.outliers, b.id = σ a.id ∧ b.core = ψ a.core ∧ b.score = a.score) := by
  obtain ⟨g0, g, e0, e1, G⟩ := good_of ar.zeroW ar.dmax dis n (by omega) d core hget hsym hcore hmax
  obtain ⟨g0', g', e0', e1', G'⟩ := good_of ar.zeroW ar.dmax dis' n (by omega) d' core' hget' hsym' hcore' hmax'
  obtain ⟨dr, _⟩ := Props.full_hierarchy hf
  obtain ⟨dr', _⟩ := Props.full_hierarchy hf'
  obtain ⟨M, f, res, hist, cur, noise, last, s, V, htr, p⟩ := parts ar smax sch hsch m (by omega) dis n (by omega) e0 e1 G dr
  obtain ⟨M', f', res', hist', cur', noise', last', s', V', htr', p'⟩ := parts ar smax sch hsch m (by omega) dis' n (by omega) e0' e1' G' dr'
  have t := twin_of G G' hS htr htr'
  obtain ⟨φ, r⟩ := twin_ren p.obs p'.obs p.inp p'.inp hm hmn t
  obtain ⟨χ, iso⟩ := iso_of p.obs p'.obs r
  have hlen := twin_length p.obs p'.obs p.inp p'.inp hm hmn t
  have hcl : out'.clusters.length = out.clusters.length := by
    have i := p.iso p' iso
    have a1 := i.length_le (by rw [p'.len_eq]; exact p'.obs.bk.two)
    have a2 := i.symm.length_le (by rw [p.len_eq]; exact p.obs.bk.two)
    exact le_antisymm a2 a1
  have hcar : ∀ {i p0 l}, Carries out.hierarchy i p0 l → p0 < n ∧ ∃ k, lab hist cur k p0 = l := by
    intro i p0 l hc
    rw [p.hier] at hc
    by_cases hi : i = 0
    · subst hi
      obtain ⟨a, b⟩ := p.obs.carries_zero.1 hc
      exact ⟨a, hist.length, by rw [lab_end (le_refl _), p.obs.zero p0 a, b]⟩
    · obtain ⟨_, a, b⟩ := (p.obs.carries (by omega)).1 hc
      exact ⟨a, i - 1, b⟩
  refine ⟨M, M', f, f', res, res', hist, hist', cur, cur', noise, noise', last, last', s, s', V, V', φ, χ, p, p', t, r, iso, ⟨?_, ?_, ?_, r.zero, ?_⟩, hcl, ?_, ?_⟩
  · rw [p.hier, p'.hier, p.obs.lines, p'.obs.lines]
    simp [hlen]
  · intro i w hi hw
    rw [p.hier] at hw
    rw [p'.hier]
    obtain ⟨g, hg⟩ := p.obs.weight_of hi hw
    obtain ⟨g', hg'⟩ := twin_line p.obs p'.obs p.inp p'.inp hm hmn t hg
    have := p'.obs.hasWeight hg'
    rwa [show i - 1 + 1 = i by omega] at this
  · intro i q l hq hc
    rw [p.hier] at hc
    rw [p'.hier]
    by_cases hi : i = 0
    · subst hi
      obtain ⟨_, rfl⟩ := p.obs.carries_zero.1 hc
      exact p'.obs.carries_zero.2 ⟨t.b.s q hq, r.zero⟩
    · obtain ⟨a, b, c⟩ := (p.obs.carries (by omega)).1 hc
      exact (p'.obs.carries (by omega)).2 ⟨by omega, t.b.s q hq, by rw [r.lab _ q hq, c]⟩
  · intro i j q q' l l' h1 h2 he
    obtain ⟨a, k, rfl⟩ := hcar h1
    obtain ⟨a', k', rfl⟩ := hcar h2
    exact r.inj _ _ (p.obs.bk.lt _ _ a) (p.obs.bk.lt _ _ a') he
  · intro w hw
    obtain ⟨u, hu, _, i, hi, hiw, _⟩ := (line_iff p.obs p.inp hm hmn w).1 hw
    have he : f i ∈ triples g.va g.vb g.wt := by rw [htr]; exact List.mem_map.2 ⟨i, List.mem_range.2 hi, rfl⟩
    rcases hfi : f i with ⟨x, y, w0⟩
    rw [hfi] at he hiw
    simp only at hiw
    subst hiw
    obtain ⟨h1, h2, ⟨_, h3⟩ | ⟨_, h3, _⟩⟩ := G.edge x y w0 he
    · exact ⟨x, h1, h3.ge⟩
    · exact ⟨x, h1, by rw [h3]; simp [mutualReach]⟩
  · intro hz hr hsplit a ha
    obtain ⟨o, o1, o2, _, o4⟩ := Props.full_rep qsort ar smax ops m dis n d core hq (by omega) (by omega) n31 hget hsym hcore hmax
    obtain ⟨o', o1', o2', _, o4'⟩ := Props.full_rep qsort ar smax ops m dis' n d' core' hq (by omega) (by omega) n31 hget' hsym' hcore' hmax'
    have := o1 sch order hsch ho
    rw [hf] at this; cases this
    have := o1' sch order hsch ho
    rw [hf'] at this; cases this
    obtain ⟨aid, acore, eps, l, c, a1, a2, a3, _, _, a6, a7, a8⟩ := o4 a ha
    have hmem : σ a.id ∈ out'.outliers.map (·.id) := o2'.mem_iff.2 (List.mem_range.2 (t.b.s _ aid))
    obtain ⟨b, hb, hbid⟩ := List.mem_map.1 hmem
    obtain ⟨bid, bcore, eps', l', c', b1, b2, b3, _, _, b6, b7, b8⟩ := o4' b hb
    refine ⟨b, hb, hbid, by rw [bcore, acore, hbid]; exact hS.core _ aid, ?_⟩
    obtain ⟨w, l0, n1, n2, n3, n4, n5, n6⟩ := twin_noise p.obs p'.obs p.inp p'.inp hm hmn t r aid
    rw [p.noise, p.obs.noise] at a1
    rw [p.last, p.obs.last] at a2
    rw [hbid, p'.noise, p'.obs.noise] at b1
    rw [hbid, p'.last, p'.obs.last] at b2
    simp only [List.getElem?_map, List.getElem?_range aid, Option.map_some, n1, n2, Option.some.injEq] at a1 a2
    simp only [List.getElem?_map, List.getElem?_range (t.b.s _ aid), Option.map_some, n5, n6, Option.some.injEq] at b1 b2
    subst a1; subst a2; subst b1; subst b2
    have hez : ψ w = ar.zeroW ↔ w = ar.zeroW := by
      constructor
      · intro he; rw [← hz] at he; exact t.mono.injective he
      · intro he; rw [he, hz]
    rw [a6, b6]
    by_cases hw : w = ar.zeroW
    · rw [if_pos hw, if_pos (hez.2 hw)]
    · rw [if_neg hw, if_neg (fun he => hw (hez.1 he))]
      have hlow : c'.propLowest = ψ c.propLowest := by
        by_cases h2 : out.clusters.length = 2
        · rw [a7 h2, b7 (by rw [hcl, h2])]
          rcases hsplit with hs | hs
          · exact absurd h2 hs
          · exact hs.symm
        · have q1 := (a8 h2).2.1
          have q2 := (b8 (by rw [hcl]; exact h2)).2.1
          exact lowest_unique q2 (twin_lowest p p' t r iso n3 n4 q1)
      rw [hlow, hr]

end Verif.Corr
