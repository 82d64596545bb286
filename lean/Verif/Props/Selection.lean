import Verif.Lemmas.Selection
import Mathlib.Algebra.Order.Ring.Int
/-
C32, C33, C34: propagation in the cluster tree and the clusters it selects.
-/
namespace Verif.Props
open Spec Relation Sel
variable {W S : Type}

/-- The leaf loop does not depend on the schedule. -/
theorem leaves_schedule [CCmp W] [CCmp S] {ar : Arith W S} {cs : List (Option (Cl W S))} (h : ClusterTree cs) {o1 o2 : List Nat}
    (h1 : o1.Perm (List.range cs.length)) (h2 : o2.Perm (List.range cs.length)) :
    leaves cs o1 ([], List.replicate cs.length false) = leaves cs o2 ([], List.replicate cs.length false) := by
  obtain ⟨hr, ht, _⟩ := tree_of (ar := ar) h
  have m1 : ∀ l, l ∈ o1 ↔ l ∈ o2 := fun l => by rw [h1.mem_iff, h2.mem_iff]
  obtain ⟨x1, a1, e1, p1, q1, r1, _, s1⟩ := leaves_rep ht hr o1 (fun i hi => List.mem_range.1 (h1.mem_iff.1 hi)) [] (List.replicate cs.length false) .nil (by simp)
  obtain ⟨x2, a2, e2, p2, q2, r2, _, s2⟩ := leaves_rep ht hr o2 (fun i hi => List.mem_range.1 (h2.mem_iff.1 hi)) [] (List.replicate cs.length false) .nil (by simp)
  have hx : x1 = x2 := sorted_ext p1 p2 (fun l => by rw [r1, r2, m1])
  have ha : a1 = a2 := by
    apply List.ext_getElem? 
    intro i
    by_cases hi : i < cs.length
    · by_cases hc : 1 ≤ i ∧ i ∈ o1 ∧ (kOf ar cs i).hasChildren = false
      · rw [(s1 i hi).1 hc, (s2 i hi).1 ⟨hc.1, (m1 i).1 hc.2.1, hc.2.2⟩]
      · rw [(s1 i hi).2 hc, (s2 i hi).2 (fun h => hc ⟨h.1, (m1 i).2 h.2.1, h.2.2⟩)]
    · rw [List.getElem?_eq_none (by omega), List.getElem?_eq_none (by omega)]
  rw [e1, e2, hx, ha]

/-- C32. Propagation on a cluster tree ends, with the same final state for every schedule of the leaf discovery loop; every cluster is
    processed exactly once, and every child before its parent. -/
theorem C32_propagation [CCmp W] [CCmp S] (ar : Arith W S) (smax : S) (cs : List (Option (Cl W S))) (h : ClusterTree cs) (hf : Unpropagated ar cs) :
    ∃ s : St W S, (∀ order : List Nat, order.Perm (List.range cs.length) → propagateTree ar smax order cs = .ok s) ∧
      s.trace.Nodup ∧ (∀ l, l ∈ s.trace ↔ ∃ c : Cl W S, cs[l]? = some (some c)) ∧
      (∀ l q, IsChild cs l q → ∃ a b c, s.trace = a ++ l :: b ++ q :: c) := by
  obtain ⟨hr, ht, hout⟩ := tree_of (ar := ar) h
  obtain ⟨s, V, e, hx⟩ := propagateTree_rep ht hr (fresh_of hf) hout smax (List.Perm.refl _)
  have hN := h.two
  have htr : s.trace = (List.range' 1 (cs.length - 1)).reverse := by simpa using hx.trace
  have hmem : ∀ l, l ∈ s.trace ↔ 1 ≤ l ∧ l < cs.length := fun l => by
    rw [htr, List.mem_reverse, List.mem_range'_1]
    constructor <;> (intro h; omega)
  refine ⟨s, fun order ho => ?_, ?_, fun l => ?_, fun l q hlq => ?_⟩
  · rw [← e, propagateTree, propagateTree, leaves_schedule (ar := ar) h ho (List.Perm.refl _)]
  · rw [htr, List.nodup_reverse]; exact List.nodup_range' (step := 1) (h := by omega)
  · rw [hmem]
    constructor
    · rintro ⟨h1, h2⟩
      exact ⟨_, hr.at' l h1 h2⟩
    · rintro ⟨c, hc⟩
      refine ⟨?_, (List.getElem?_eq_some_iff.1 hc).1⟩
      by_contra hn
      have : l = 0 := by omega
      subst this
      rw [h.zero] at hc; simp at hc
  · obtain ⟨q1, q2⟩ := h.up l q hlq
    have hl : l < cs.length := by
      obtain ⟨c, hc, _⟩ := hlq
      exact (List.getElem?_eq_some_iff.1 hc).1
    refine ⟨(List.range' (l + 1) (cs.length - 1 - l)).reverse, (List.range' (q + 1) (l - 1 - q)).reverse, (List.range' 1 (q - 1)).reverse, ?_⟩
    rw [htr]
    have e1 : List.range' 1 (cs.length - 1) = List.range' 1 (q - 1) ++ (q :: List.range' (q + 1) (l - 1 - q)) ++ (l :: List.range' (l + 1) (cs.length - 1 - l)) := by
      have a1 : List.range' 1 (q - 1) ++ List.range' q (l - 1 - q + 1) = List.range' 1 (l - 1) := by
        have := List.range'_append_1 (s := 1) (m := q - 1) (n := l - 1 - q + 1)
        rw [show 1 + (q - 1) = q by omega, show q - 1 + (l - 1 - q + 1) = l - 1 by omega] at this
        exact this
      have a2 : List.range' 1 (l - 1) ++ List.range' l (cs.length - 1 - l + 1) = List.range' 1 (cs.length - 1) := by
        have := List.range'_append_1 (s := 1) (m := l - 1) (n := cs.length - 1 - l + 1)
        rw [show 1 + (l - 1) = l by omega, show l - 1 + (cs.length - 1 - l + 1) = cs.length - 1 by omega] at this
        exact this
      rw [← List.range'_succ, ← List.range'_succ, a1, a2]
    rw [e1]
    simp

theorem above_iff {ar : Arith W S} {cs : List (Option (Cl W S))} (a l : Nat) : Above cs a l ↔ TransGen (fun a b => (kOf ar cs a).parent = some b) l a := by
  have : IsChild cs = (fun a b => (kOf ar cs a).parent = some b) := by
    funext a b; exact propext child_iff
  rw [Above, this]

theorem atOrAbove_iff {ar : Arith W S} {cs : List (Option (Cl W S))} (a l : Nat) : AtOrAbove cs a l ↔ ReflTransGen (fun a b => (kOf ar cs a).parent = some b) l a := by
  have : IsChild cs = (fun a b => (kOf ar cs a).parent = some b) := by
    funext a b; exact propext child_iff
  rw [AtOrAbove, this]

/-- The root is above every other cluster. -/
theorem root_above {ar : Arith W S} {cs : List (Option (Cl W S))} (h : ClusterTree cs) : ∀ l q, IsChild cs l q → TransGen (fun a b => (kOf ar cs a).parent = some b) l 1 := by
  intro l
  induction l using Nat.strongRecOn with
  | _ l ih =>
    intro q hq
    obtain ⟨q1, q2⟩ := h.up l q hq
    have hp := child_iff (ar := ar).1 hq
    by_cases h1 : q = 1
    · subst h1; exact .single hp
    · have hl : l < cs.length := by
        obtain ⟨c, hc, _⟩ := hq
        exact (List.getElem?_eq_some_iff.1 hc).1
      obtain ⟨c, hc, _⟩ := h.cl q q1 (by omega)
      cases hcp : c.parent with
      | none => exact absurd ((h.root q c hc).1 hcp) h1
      | some q' => exact TransGen.head hp (ih q q2 q' ⟨c, hc, hcp⟩)

theorem kOf_zero {ar : Arith W S} {cs : List (Option (Cl W S))} (h : ClusterTree cs) : ∀ l, cs.length ≤ l ∨ l = 0 → (kOf ar cs l).parent = none := by
  intro l hl
  rcases hl with hl | hl
  · exact (tree_of h).2.2 l hl
  · subst hl; simp [kOf, h.zero, Cl.init]

/-- C33. Whatever the stabilities (NaN included) and constraint counts, the clusters selected at the root form a set of clusters below the root
    none of which is above another one, and every leaf below the root is or lies below exactly one of them. -/
theorem C33_selection [CCmp W] [CCmp S] (ar : Arith W S) (smax : S) (order : List Nat) (cs : List (Option (Cl W S))) (h : ClusterTree cs) (hf : Unpropagated ar cs)
    (ho : order.Perm (List.range cs.length)) :
    ∃ (s : St W S) (root : Cl W S), propagateTree ar smax order cs = .ok s ∧ s.clusters[1]? = some (some root) ∧
      Selection cs root.desc ∧ ∀ l, Leaf cs l → ∃! t, t ∈ root.desc ∧ AtOrAbove cs t l := by
  obtain ⟨hr, ht, hout⟩ := tree_of (ar := ar) h
  obtain ⟨s, V, e, hx⟩ := propagateTree_rep ht hr (fresh_of hf) hout smax ho
  have hN := h.two
  obtain ⟨d1, d2, d3, d4⟩ := desc_spec ht (kOf_zero h) hx.inv 1
  have hcov : ∀ l, Leaf cs l → ∃ t ∈ (V 1).desc, AtOrAbove cs t l := by
    rintro l ⟨⟨q, hq⟩, hleaf⟩
    obtain ⟨t, h1, h2⟩ := d4 l (fun l' hl' => hleaf l' (child_iff.2 hl')) (root_above h l q hq)
    exact ⟨t, h1, (atOrAbove_iff (ar := ar) t l).2 h2⟩
  refine ⟨s, V 1, e, hx.rep.at' 1 (by omega) (by omega), ⟨d2, ?_, ?_, hcov⟩, fun l hl => ?_⟩
  · intro t h1
    obtain ⟨b, hb, _⟩ := TransGen.head'_iff.1 (d1 t h1)
    exact ⟨b, child_iff.2 hb⟩
  · intro s hs t ht' hst
    exact d3 s hs t ht' ((above_iff (ar := ar) s t).1 hst)
  · obtain ⟨t, h1, h2⟩ := hcov l hl
    refine ⟨t, ⟨h1, h2⟩, fun t' ⟨h1', h2'⟩ => ?_⟩
    rw [atOrAbove_iff (ar := ar)] at h2 h2'
    rcases comparable (par_un (K := kOf ar cs)) h2 h2' with hc | hc
    · rcases reflTransGen_iff_eq_or_transGen.1 hc with h | h
      · exact h
      · exact absurd h (d3 t' h1' t h1)
    · rcases reflTransGen_iff_eq_or_transGen.1 hc with h | h
      · exact h.symm
      · exact absurd h (d3 t h1 t' h1')

/-- C34. In exact arithmetic and without constraints (the code counts none) no selection has a larger total stability than the one made;
    a selection with the same total consists of clusters at or below selected ones, so that ties favour the larger cluster. -/
theorem C34_optimal [CCmp W] [AddCommGroup S] [LinearOrder S] [IsOrderedAddMonoid S] (ar : Arith W S) (hadd : ∀ a b, ar.add a b = a + b) (hz : ar.zeroS = 0)
    (smax : S) (order : List Nat) (cs : List (Option (Cl W S))) (h : ClusterTree cs) (hf : Unpropagated ar cs)
    (hn : ∀ (l : Nat) (c : Cl W S), cs[l]? = some (some c) → c.ncs = 0 ∧ c.pncs = 0) (ho : order.Perm (List.range cs.length)) :
    ∃ (s : St W S) (root : Cl W S), propagateTree ar smax order cs = .ok s ∧ s.clusters[1]? = some (some root) ∧ Selection cs root.desc ∧
      root.propStability = (root.desc.map (stabilityOf 0 cs)).sum ∧
      ∀ T, Selection cs T → (T.map (stabilityOf 0 cs)).sum ≤ (root.desc.map (stabilityOf 0 cs)).sum ∧
        ((T.map (stabilityOf 0 cs)).sum = (root.desc.map (stabilityOf 0 cs)).sum → ∀ t ∈ T, ∃ r ∈ root.desc, AtOrAbove cs r t) := by
  obtain ⟨s, root, e, hroot, hsel, _⟩ := C33_selection ar smax order cs h hf ho
  obtain ⟨hr, ht, hout⟩ := tree_of (ar := ar) h
  obtain ⟨s', V, e', hx⟩ := propagateTree_rep ht hr (fresh_of hf) hout smax ho
  have : s' = s := by rw [e] at e'; exact (Outcome.ok.inj e').symm
  subst this
  have hN := h.two
  have hV : V 1 = root := by
    have := hx.rep.at' 1 (by omega) (by omega)
    rw [hroot] at this
    simpa using this.symm
  have hn' : ∀ l, (kOf ar cs l).ncs = 0 ∧ (kOf ar cs l).pncs = 0 := by
    intro l
    unfold kOf
    split
    · rename_i c hc; exact hn l c hc
    · exact ⟨rfl, rfl⟩
  have hst : ∀ T : List Nat, (∀ t ∈ T, ∃ q, IsChild cs t q) → T.map (stabilityOf 0 cs) = T.map (fun l => (kOf ar cs l).stability) := by
    intro T hT
    refine List.map_congr_left (fun t h1 => ?_)
    obtain ⟨q, c, hc, _⟩ := hT t h1
    rw [stabilityOf, hc, kOf_eq hc]
  have hsum : root.propStability = (root.desc.map (stabilityOf 0 cs)).sum := by
    rw [hst _ hsel.notRoot, ← hV]
    exact desc_sum ht (kOf_zero h) hx.inv hadd hz 1
  refine ⟨s', root, e, hroot, hsel, hsum, fun T hT => ?_⟩
  have hopt := optimal ht (kOf_zero h) hx.inv hadd hz hn' 1 T hT.nodup
    (fun t h1 => by
      obtain ⟨q, hq⟩ := hT.notRoot t h1
      exact root_above h t q hq)
    (fun a ha b hb hab => hT.apart a ha b hb ((above_iff (ar := ar) a b).2 hab))
    (fun l hleaf hl => by
      obtain ⟨b, hb, _⟩ := TransGen.head'_iff.1 hl
      obtain ⟨t, h1, h2⟩ := hT.covers l ⟨⟨b, child_iff.2 hb⟩, fun l' hl' => hleaf l' (child_iff.1 hl')⟩
      exact ⟨t, h1, (atOrAbove_iff (ar := ar) t l).1 h2⟩)
  rw [hV] at hopt
  rw [hst T hT.notRoot, ← hsum]
  refine ⟨hopt.1, fun he t h1 => ?_⟩
  obtain ⟨r, h2, h3⟩ := hopt.2 he t h1
  exact ⟨r, h2, (atOrAbove_iff (ar := ar) r t).2 h3⟩

/-! ### A concrete tree -/

/-- Arithmetic for the concrete tree. -/
def treeArith : Arith Int Int := { zeroW := 0, dmax := 1000, zeroS := 0, add := (· + ·), term := fun _ _ _ => 0 }

/-- A cluster of the concrete tree. -/
def treeCl (label : Nat) (parent : Option Nat) (stability : Int) (death : Int) (hasChildren : Bool) : Cl Int Int :=
  { Cl.init treeArith label parent (some 9) 0 with
    stability := stability
    death := death
    hasChildren := hasChildren }

/-- Root 1 with children 2 and 3; 3 has children 4 and 5 whose stabilities add up to that of 3. -/
def treeEx : List (Option (Cl Int Int)) :=
  [none, some (treeCl 1 none 0 9 true), some (treeCl 2 (some 1) 5 4 false), some (treeCl 3 (some 1) 4 6 true), some (treeCl 4 (some 3) 1 2 false),
    some (treeCl 5 (some 3) 3 3 false)]

theorem treeEx_child (l q : Nat) : IsChild treeEx l q ↔ (l, q) ∈ [(2, 1), (3, 1), (4, 3), (5, 3)] := by
  unfold IsChild
  match l with
  | 0 | 1 => simp [treeEx, treeCl, Cl.init]
  | 2 | 3 | 4 | 5 => simp [treeEx, treeCl, Cl.init, eq_comm]
  | l + 6 => simp [treeEx]

theorem treeEx_tree : ClusterTree treeEx := by
  refine ⟨rfl, by decide, ?_, ?_, ?_, ?_⟩
  · intro l h1 h2
    have h3 : l < 6 := h2
    match l, h1, h3 with
    | 1, _, _ | 2, _, _ | 3, _, _ | 4, _, _ | 5, _, _ => exact ⟨_, rfl, rfl⟩
  · intro l c hc
    match l with
    | 0 => simp [treeEx] at hc
    | 1 | 2 | 3 | 4 | 5 =>
      simp [treeEx] at hc
      subst hc
      simp [treeCl, Cl.init]
    | l + 6 => simp [treeEx] at hc
  · intro l q h
    rw [treeEx_child] at h
    simp at h
    omega
  · intro l c hc
    simp only [treeEx_child]
    match l with
    | 0 => simp [treeEx] at hc
    | 1 | 2 | 3 | 4 | 5 =>
      simp [treeEx] at hc
      subst hc
      simp [treeCl, Cl.init]
    | l + 6 => simp [treeEx] at hc

theorem treeEx_fresh : Unpropagated treeArith treeEx ∧ ∀ (l : Nat) (c : Cl Int Int), treeEx[l]? = some (some c) → c.ncs = 0 ∧ c.pncs = 0 := by
  constructor
  all_goals
    intro l c hc
    match l with
    | 0 => simp [treeEx] at hc
    | 1 | 2 | 3 | 4 | 5 =>
      simp [treeEx] at hc
      subst hc
      simp [treeCl, Cl.init, treeArith]
    | l + 6 => simp [treeEx] at hc

example := C32_propagation treeArith 1000 treeEx treeEx_tree treeEx_fresh.1
example := C33_selection treeArith 1000 [5, 0, 3, 1, 2, 4] treeEx treeEx_tree treeEx_fresh.1 (by decide)
example := C34_optimal treeArith (fun _ _ => rfl) rfl 1000 [5, 0, 3, 1, 2, 4] treeEx treeEx_tree treeEx_fresh.1 treeEx_fresh.2 (by decide)

/-- In the concrete tree the tie between 3 and its children goes to 3, and the selection is {3, 2} with total stability 9. -/
theorem C34_concrete : (propagateTree treeArith 1000 [5, 0, 3, 1, 2, 4] treeEx >>= fun s => getCl s.clusters 1 >>= fun r => .ok (s.trace, r.desc, r.propStability, r.propLowest)) =
    .ok ([5, 4, 3, 2, 1], [3, 2], 9, 2) := by decide +kernel

end Verif.Props
