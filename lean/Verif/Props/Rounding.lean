import Verif.Spec.Rounding
import Verif.Lemmas.SelDouble
import Verif.Lemmas.Prominent
import Verif.Props.Stability
import Verif.Props.Selection
/-
Properties C101 and C102: stabilities and the selection of clusters in rounded arithmetic.
-/
namespace Verif.Props
open Spec Verif.Binary64 Relation

/-- C101. For `double` data the stability of every cluster other than the root is the exact one up to `(2 k + 6) 2^-53` times its mass, `k` being the number of its points;
    it is not negative and not larger than twice the mass. -/
theorem C101_accurate (g : Graph F64) (minPoints : Nat) (hm : 1 ≤ minPoints) (hn : g.numVertices < 2 ^ 32)
    (hg : TreeInput g.numVertices g.va g.vb g.wt g.edges) (hw : Weights g.wt) :
    ∃ res : Hier.Result F64 F64, Hier.compute doubleArith minPoints false g = .ok res ∧
      ∀ (l : Nat) (c : Cl F64 F64), res.clusters[l]? = some (some c) → l ≠ 1 →
        ∃ (b : F64) (members : List Nat) (leave : Nat → F64), c.birth = some b ∧ Life res.hierarchy l members leave ∧
          0 < exactStability b members leave ∧ 0 ≤ c.stability.1 ∧ c.stability.1 ≤ 2 * massOf members leave ∧
          |c.stability.1 - exactStability b members leave| ≤ (2 * members.length + 6) * 2 ^ (-53 : ℤ) * massOf members leave := by
  obtain ⟨res, e, h⟩ := Hier.terms doubleArith g minPoints hm hn hg
  refine ⟨res, e, fun l c hc hl => ?_⟩
  obtain ⟨b, members, leave, es, h1, h2, h3, h4, h5, h6, h7, -, h8⟩ := h l c hc hl
  have hlen : members.length < 2 ^ 32 := by
    have : members.length ≤ g.numVertices := by
      have := List.Subperm.length_le (h4.subperm (l₂ := List.range g.numVertices) fun p hp => List.mem_range.2 (h6 p hp).2.2.2)
      simpa using this
    omega
  have hpos : ∀ p ∈ members, 0 < (leave p).1 ∧ leave p < b ∧ (leave p).1 ≤ 2 ^ (1000 : ℤ) := fun p hp => ⟨(hw _ (h6 p hp).2.2.1).1, (h6 p hp).2.1, (hw _ (h6 p hp).2.2.1).2⟩
  obtain ⟨r1, r2, r3⟩ := Hier.stab_error hlen hpos h8
  rw [← h7] at r1 r2 r3
  refine ⟨b, members, leave, h1, ⟨h4, h5, fun p hp => (h6 p hp).1⟩, ?_, r1, r2, r3⟩
  have : ∀ (l : List Nat), l ≠ [] → (∀ p ∈ l, 0 < 1 / (leave p).1 - 1 / b.1) → 0 < (l.map fun p => 1 / (leave p).1 - 1 / b.1).sum := by
    intro l hl hF
    refine List.sum_pos _ ?_ (by simpa using hl)
    intro x hx
    obtain ⟨p, hp, rfl⟩ := List.mem_map.1 hx
    exact hF p hp
  exact this members h3 fun p hp => sub_pos.2 (one_div_lt_one_div_of_lt (hpos p hp).1 (hpos p hp).2.1)

theorem demo_weights {a b : F64} (ha : 0 < a.1 ∧ a.1 ≤ 2 ^ (1000 : ℤ)) (hb : 0 < b.1 ∧ b.1 ≤ 2 ^ (1000 : ℤ)) : Weights (demo a b).wt := by
  intro w hw
  simp only [demo, List.mem_cons, List.not_mem_nil, or_false] at hw
  rcases hw with rfl | rfl | rfl | rfl | rfl | rfl | rfl | rfl | rfl | rfl | rfl <;> first | exact ha | exact hb

theorem small_weight {x : ℚ} (h0 : 0 < x) (h : x ≤ 2) (hx : IsDouble x) : 0 < (F64.of x).1 ∧ (F64.of x).1 ≤ 2 ^ (1000 : ℤ) := by
  have : (F64.of x).1 = x := fl_double hx
  rw [this]
  exact ⟨h0, h.trans (by
    calc (2 : ℚ) = 2 ^ (1 : ℤ) := by norm_num
      _ ≤ _ := zpow_le_zpow_right₀ (by norm_num) (by norm_num))⟩

/-- Two neighbouring doubles below 2. -/
def below2 : F64 := F64.of (2 - 1 / 2 ^ 52)
def below2' : F64 := F64.of (2 - 1 / 2 ^ 51)

theorem below2_weights : Weights (demo below2' below2).wt :=
  demo_weights (small_weight (by norm_num) (by norm_num) ⟨2 ^ 52 - 1, -51, by norm_num, by norm_num, by norm_num⟩)
    (small_weight (by norm_num) (by norm_num) ⟨2 ^ 53 - 1, -52, by norm_num, by norm_num, by norm_num⟩)

theorem below2_lt : below2' ≤ below2 := of_mono (by norm_num)

example := C101_accurate (demo below2' below2) 2 (by decide) (by decide) (demo_input below2_lt) below2_weights

/-- C101. Rounded stabilities need not be positive: the reciprocals of the neighbouring doubles `2 - 2^-51` and `2 - 2^-52` are the same double, and clusters that live between these levels have
    stability 0. -/
theorem C101_positive_violated : ∃ g : Graph F64, TreeInput g.numVertices g.va g.vb g.wt g.edges ∧ Weights g.wt ∧ ∃ res : Hier.Result F64 F64, Hier.compute doubleArith 2 false g = .ok res ∧
    res.clusters.length = 4 ∧ ∀ (l : Nat) (c : Cl F64 F64), res.clusters[l]? = some (some c) → c.stability.1 = 0 := by
  refine ⟨demo below2' below2, demo_input below2_lt, below2_weights, ?_⟩
  have h : (Hier.compute doubleArith 2 false (demo below2' below2) >>= fun r => .ok (r.clusters.map (fun c => c.map (·.stability.1)))) = .ok [none, some 0, some 0, some 0] := by decide +kernel
  cases hc : Hier.compute doubleArith 2 false (demo below2' below2) with
  | ok res =>
    rw [hc] at h
    simp only [Outcome.ok_bind, Outcome.ok.injEq] at h
    refine ⟨res, rfl, by have := congrArg List.length h; simpa using this, fun l c hl => ?_⟩
    have h1 : (res.clusters.map (fun c => c.map (·.stability.1)))[l]? = some (some c.stability.1) := by rw [List.getElem?_map, hl]; rfl
    rw [h] at h1
    match l with
    | 0 => simp at h1
    | 1 | 2 | 3 => simp at h1; exact h1.symm
    | l + 4 => simp at h1
  | ub w => rw [hc] at h; exact absurd h (by simp)
  | abort w => rw [hc] at h; exact absurd h (by simp)
  | diverge => rw [hc] at h; exact absurd h (by simp)

/-- C102. With rounded sums of stabilities that are not negative, no selection has a total stability larger by more than the factor `1 / (1 - 2 N 2^-53)` than the one made, `N` being the
    length of the list of clusters. -/
theorem C102_nearly_optimal {W : Type} [CCmp W] (ar : Arith W F64) (ha : AddsDouble ar) (smax : F64) (order : List Nat) (cs : List (Option (Cl W F64))) (h : ClusterTree cs)
    (hf : Unpropagated ar cs) (hn : ∀ (l : Nat) (c : Cl W F64), cs[l]? = some (some c) → c.ncs = 0 ∧ c.pncs = 0)
    (hpos : ∀ (l : Nat) (c : Cl W F64), cs[l]? = some (some c) → l ≠ 1 → 0 ≤ c.stability.1) (ho : order.Perm (List.range cs.length)) :
    ∃ (s : Sel.St W F64) (root : Cl W F64), Sel.propagateTree ar smax order cs = .ok s ∧ s.clusters[1]? = some (some root) ∧ Selection cs root.desc ∧
      ∀ T, Selection cs T → (1 - 2 * cs.length * 2 ^ (-53 : ℤ)) * stabilitySum cs T ≤ stabilitySum cs root.desc := by
  obtain ⟨s, root, e, hroot, hsel, _⟩ := C33_selection ar smax order cs h hf ho
  obtain ⟨hr, ht, hout⟩ := Sel.tree_of (ar := ar) h
  obtain ⟨s', V, e', hx⟩ := Sel.propagateTree_rep ht hr (Sel.fresh_of hf) hout smax ho
  have : s' = s := by rw [e] at e'; exact (Outcome.ok.inj e').symm
  subst this
  have hN := h.two
  have hV : V 1 = root := by
    have := hx.rep.at' 1 (by omega) (by omega)
    rw [hroot] at this
    simpa using this.symm
  have hn' : ∀ l, (Sel.kOf ar cs l).ncs = 0 ∧ (Sel.kOf ar cs l).pncs = 0 := by
    intro l
    unfold Sel.kOf
    split
    · rename_i c hc; exact hn l c hc
    · exact ⟨rfl, rfl⟩
  have hpos' : ∀ l q, (Sel.kOf ar cs l).parent = some q → 0 ≤ (Sel.kOf ar cs l).stability.1 := by
    intro l q hq
    obtain ⟨c, hc, hp⟩ := (Sel.child_iff (ar := ar)).2 hq
    rw [Sel.kOf_eq hc]
    refine hpos l c hc fun hl => ?_
    rw [(h.root l c hc).2 hl] at hp
    simp at hp
  have hst : ∀ T : List Nat, (∀ t ∈ T, ∃ q, IsChild cs t q) → stabilitySum cs T = (T.map fun l => (Sel.kOf ar cs l).stability.1).sum := by
    intro T hT
    unfold stabilitySum
    congr 1
    refine List.map_congr_left (fun t h1 => ?_)
    obtain ⟨q, c, hc, _⟩ := hT t h1
    rw [stabilityOf, hc, Sel.kOf_eq hc]
  refine ⟨s', root, e, hroot, hsel, fun T hT => ?_⟩
  have hlow := Sel.near_optimal ht (kOf_zero h) hx.inv ha hn' hpos' 1 T hT.nodup
    (fun t h1 => by
      obtain ⟨q, hq⟩ := hT.notRoot t h1
      exact root_above h t q hq)
    (fun a ha b hb hab => hT.apart a ha b hb ((above_iff (ar := ar) a b).2 hab))
    (fun l hleaf hl => by
      obtain ⟨b, hb, _⟩ := TransGen.head'_iff.1 hl
      obtain ⟨t, h1, h2⟩ := hT.covers l ⟨⟨b, Sel.child_iff.2 hb⟩, fun l' hl' => hleaf l' (Sel.child_iff.1 hl')⟩
      exact ⟨t, h1, (atOrAbove_iff (ar := ar) t l).1 h2⟩)
  have hup := (Sel.desc_upper ht (kOf_zero h) hx.inv ha hpos' 1).2
  rw [hV, ← hst _ hsel.notRoot] at hup
  rw [hV, ← hst _ hT.notRoot] at hlow
  have h0 : 0 ≤ stabilitySum cs T := by
    rw [hst _ hT.notRoot]
    refine List.sum_nonneg fun x hx => ?_
    obtain ⟨t, h1, rfl⟩ := List.mem_map.1 hx
    obtain ⟨q, hq⟩ := hT.notRoot t h1
    exact hpos' t q (Sel.child_iff.1 hq)
  refine le_trans (mul_le_mul_of_nonneg_right ?_ h0) (Sel.ratio_bound hlow hup h0)
  have u0 := Hier.u_pos
  have hle : ((cs.length - 1 : Nat) : ℚ) ≤ cs.length := by exact_mod_cast Nat.sub_le _ _
  have := mul_le_mul_of_nonneg_right hle u0.le
  linarith

theorem map_child {W S S' : Type} (φ : S → S') {cs : List (Option (Cl W S))} {l q : Nat} : IsChild (Hier.mapCls φ cs) l q ↔ IsChild cs l q := by
  unfold IsChild Hier.mapCls
  simp only [List.getElem?_map]
  cases cs[l]? with
  | none => simp
  | some x => cases x <;> simp [Hier.mapCl]

theorem map_tree {W S S' : Type} (φ : S → S') {cs : List (Option (Cl W S))} (h : ClusterTree cs) : ClusterTree (Hier.mapCls φ cs) := by
  have hget : ∀ (l : Nat) (c : Cl W S'), (Hier.mapCls φ cs)[l]? = some (some c) → ∃ c0, cs[l]? = some (some c0) ∧ c = Hier.mapCl φ c0 := by
    intro l c hc
    unfold Hier.mapCls at hc
    rw [List.getElem?_map] at hc
    cases hx : cs[l]? with
    | none => rw [hx] at hc; simp at hc
    | some x =>
      cases x with
      | none => rw [hx] at hc; simp at hc
      | some c0 => rw [hx] at hc; exact ⟨c0, rfl, by simpa using hc.symm⟩
  refine ⟨by simp [Hier.mapCls, h.zero], by simpa [Hier.mapCls] using h.two, ?_, ?_, ?_, ?_⟩
  · intro l h1 h2
    obtain ⟨c, hc, hl⟩ := h.cl l h1 (by simpa [Hier.mapCls] using h2)
    exact ⟨Hier.mapCl φ c, by simp [Hier.mapCls, hc], hl⟩
  · intro l c hc
    obtain ⟨c0, h0, rfl⟩ := hget l c hc
    exact h.root l c0 h0
  · intro l q hlq
    exact h.up l q ((map_child φ).1 hlq)
  · intro l c hc
    obtain ⟨c0, h0, rfl⟩ := hget l c hc
    simp only [map_child φ]
    exact h.kids l c0 h0

/-- The tree of the example of C34, with stabilities 1 for clusters 3 and 5 and `2^-53` for cluster 4. -/
def tinyCode (z : Int) : F64 := F64.of (if z = 1 then 1 / 2 ^ 53 else if z = 0 then 0 else 1)

def tinyArith : Arith Int F64 := { zeroW := 0, dmax := 1000, zeroS := F64.of 0, add := fun a b => F64.of (a.1 + b.1), term := fun _ _ _ => F64.of 0 }

def tinyTree : List (Option (Cl Int F64)) := Hier.mapCls tinyCode treeEx

theorem tiny_get {l : Nat} {c : Cl Int F64} (h : tinyTree[l]? = some (some c)) : ∃ c0, treeEx[l]? = some (some c0) ∧ c = Hier.mapCl tinyCode c0 := by
  unfold tinyTree Hier.mapCls at h
  rw [List.getElem?_map] at h
  cases hx : treeEx[l]? with
  | none => rw [hx] at h; simp at h
  | some x =>
    cases x with
    | none => rw [hx] at h; simp at h
    | some c0 => rw [hx] at h; exact ⟨c0, rfl, by simpa using h.symm⟩

theorem tiny_fresh : Unpropagated tinyArith tinyTree := by
  intro l c hc
  obtain ⟨c0, h0, rfl⟩ := tiny_get hc
  obtain ⟨a1, a2, a3⟩ := treeEx_fresh.1 l c0 h0
  refine ⟨?_, a2, a3⟩
  show tinyCode c0.propStability = F64.of 0
  rw [a1]
  rfl

theorem tiny_ncs : ∀ (l : Nat) (c : Cl Int F64), tinyTree[l]? = some (some c) → c.ncs = 0 ∧ c.pncs = 0 := by
  intro l c hc
  match l with
  | 0 => simp [tinyTree, Hier.mapCls, treeEx] at hc
  | 1 | 2 | 3 | 4 | 5 =>
    simp [tinyTree, Hier.mapCls, treeEx] at hc
    subst hc
    exact ⟨rfl, rfl⟩
  | l + 6 => simp [tinyTree, Hier.mapCls, treeEx] at hc

theorem tiny_pos : ∀ (l : Nat) (c : Cl Int F64), tinyTree[l]? = some (some c) → l ≠ 1 → 0 ≤ c.stability.1 := by
  intro l c hc _
  obtain ⟨c0, h0, rfl⟩ := tiny_get hc
  show 0 ≤ (tinyCode c0.stability).1
  unfold tinyCode
  refine fl_nonneg ?_
  split
  · norm_num
  · split <;> norm_num

example := C102_nearly_optimal tinyArith ⟨fun _ _ => rfl, rfl⟩ F64.max [0, 1, 2, 3, 4, 5] tinyTree (map_tree tinyCode treeEx_tree) tiny_fresh tiny_ncs tiny_pos (by decide)

/-- C102. The selection need not be optimal: cluster 3, of stability 1, is preferred to its children 4 and 5, whose stabilities are `2^-53` and 1, since the rounded sum of these is 1. -/
theorem C102_optimal_violated : ∃ cs : List (Option (Cl Int F64)), ClusterTree cs ∧ Unpropagated tinyArith cs ∧ (∀ (l : Nat) (c : Cl Int F64), cs[l]? = some (some c) → c.ncs = 0 ∧ c.pncs = 0) ∧
    (∀ (l : Nat) (c : Cl Int F64), cs[l]? = some (some c) → l ≠ 1 → 0 ≤ c.stability.1) ∧
    ∃ (s : Sel.St Int F64) (root : Cl Int F64), Sel.propagateTree tinyArith F64.max (List.range cs.length) cs = .ok s ∧ s.clusters[1]? = some (some root) ∧
      ∃ T, Selection cs T ∧ stabilitySum cs root.desc < stabilitySum cs T := by
  refine ⟨tinyTree, map_tree tinyCode treeEx_tree, tiny_fresh, tiny_ncs, tiny_pos, ?_⟩
  obtain ⟨s, root, e, h1, -, -⟩ := C33_selection tinyArith F64.max (List.range tinyTree.length) tinyTree (map_tree tinyCode treeEx_tree) tiny_fresh (.refl _)
  refine ⟨s, root, e, h1, [2, 4, 5], ?_, ?_⟩
  · have hch : ∀ l q, IsChild tinyTree l q ↔ (l, q) ∈ [(2, 1), (3, 1), (4, 3), (5, 3)] := fun l q => (map_child tinyCode).trans (treeEx_child l q)
    have hab : ∀ a b, Above tinyTree a b → a = 1 ∨ a = 3 := by
      intro a b hab
      obtain ⟨x, _, hx⟩ := TransGen.tail'_iff.1 hab
      rw [hch] at hx
      simp only [List.mem_cons, Prod.mk.injEq, List.not_mem_nil, or_false] at hx
      omega
    refine ⟨by decide, ?_, ?_, ?_⟩
    · intro t ht
      simp only [List.mem_cons, List.not_mem_nil, or_false] at ht
      rcases ht with rfl | rfl | rfl
      · exact ⟨1, (hch _ _).2 (by decide)⟩
      · exact ⟨3, (hch _ _).2 (by decide)⟩
      · exact ⟨3, (hch _ _).2 (by decide)⟩
    · intro a ha b _ h
      have := hab a b h
      simp only [List.mem_cons, List.not_mem_nil, or_false] at ha
      omega
    · rintro l ⟨⟨q, hq⟩, hleaf⟩
      rw [hch] at hq
      simp only [List.mem_cons, Prod.mk.injEq, List.not_mem_nil, or_false] at hq
      rcases hq with ⟨rfl, rfl⟩ | ⟨rfl, rfl⟩ | ⟨rfl, rfl⟩ | ⟨rfl, rfl⟩
      · exact ⟨2, by decide, .refl⟩
      · exact absurd ((hch 4 3).2 (by decide)) (hleaf 4)
      · exact ⟨4, by decide, .refl⟩
      · exact ⟨5, by decide, .refl⟩
  · have hd : (Sel.propagateTree tinyArith F64.max (List.range tinyTree.length) tinyTree >>= fun s => .ok (s.clusters[1]?.map fun c => c.map (·.desc))) = .ok (some (some [3, 2])) := by
      decide +kernel
    rw [e] at hd
    simp only [Outcome.ok_bind, Outcome.ok.injEq, h1, Option.map_some, Option.some.injEq] at hd
    rw [hd]
    decide +kernel

/-- C102. The selection made for `double` data, judged by exact stabilities: no selection has an exact total that is larger by more than `(2 n + 6 + 4 N) 2^-53` times the masses of
    both selections. -/
theorem C102_exact (g : Graph F64) (minPoints : Nat) (hm : 1 ≤ minPoints) (hn : g.numVertices < 2 ^ 32)
    (hg : TreeInput g.numVertices g.va g.vb g.wt g.edges) (hw : Weights g.wt) :
    ∃ (res : Hier.Result F64 F64) (E M : Nat → ℚ), Hier.compute doubleArith minPoints false g = .ok res ∧ Exact res.hierarchy res.clusters E M ∧
      ∀ (smax : F64) (order : List Nat), order.Perm (List.range res.clusters.length) →
        ∃ (s : Sel.St F64 F64) (root : Cl F64 F64), Sel.propagateTree doubleArith smax order res.clusters = .ok s ∧ s.clusters[1]? = some (some root) ∧
          Selection res.clusters root.desc ∧ ∀ T, Selection res.clusters T →
            (T.map E).sum - (2 * g.numVertices + 6 + 4 * res.clusters.length) * 2 ^ (-53 : ℤ) * ((T.map M).sum + (root.desc.map M).sum) ≤ (root.desc.map E).sum := by
  obtain ⟨f, hr, ec, hd, hs, htr⟩ := Hier.input_rep hg
  obtain ⟨res, hist, cur, noise, last, e, ho⟩ := Hier.obs doubleArith hr hg.nonempty ec rfl hn hm hd hs
  obtain ⟨hct, hunp, hncs⟩ := Sel.obs_tree ho.toBase
  obtain ⟨res', e', hacc⟩ := C101_accurate g minPoints hm hn hg hw
  have : res' = res := by rw [e] at e'; exact (Outcome.ok.inj e').symm
  subst this
  -- one exact value for every cluster
  have hex : ∀ l, ∃ x : ℚ × ℚ, ∀ c : Cl F64 F64, res'.clusters[l]? = some (some c) → l ≠ 1 → ∃ (b : F64) (members : List Nat) (leave : Nat → F64),
      c.birth = some b ∧ Life res'.hierarchy l members leave ∧ x.1 = exactStability b members leave ∧ x.2 = massOf members leave ∧
      0 ≤ c.stability.1 ∧ c.stability.1 ≤ 2 * x.2 ∧ |c.stability.1 - x.1| ≤ (2 * g.numVertices + 6) * 2 ^ (-53 : ℤ) * x.2 := by
    intro l
    by_cases hx : ∃ c : Cl F64 F64, res'.clusters[l]? = some (some c) ∧ l ≠ 1
    · obtain ⟨c, hc, hl⟩ := hx
      obtain ⟨b, members, leave, k1, k2, k3, k4, k5, k6⟩ := hacc l c hc hl
      refine ⟨(exactStability b members leave, massOf members leave), fun c' hc' _ => ?_⟩
      rw [hc] at hc'
      simp only [Option.some.injEq] at hc'
      subst hc'
      refine ⟨b, members, leave, k1, k2, rfl, rfl, k4, k5, k6.trans ?_⟩
      have hM0 : 0 ≤ massOf members leave := by linarith
      have hlen : members.length ≤ g.numVertices := by
        have := List.Subperm.length_le (k2.nodup.subperm (l₂ := List.range g.numVertices) fun p hp => by
          obtain ⟨i, hi⟩ := (k2.mem p).1 hp
          rw [List.mem_range]
          rcases Nat.eq_zero_or_pos i with h0 | h0
          · subst h0; exact (ho.carries_zero.1 hi).1
          · exact ((ho.carries h0).1 hi).2.1)
        simpa using this
      have hlen' : (members.length : ℚ) ≤ g.numVertices := by exact_mod_cast hlen
      have u0 := Hier.u_pos
      refine mul_le_mul_of_nonneg_right (mul_le_mul_of_nonneg_right (by linarith) u0.le) hM0
    · exact ⟨(0, 0), fun c hc hl => absurd ⟨c, hc, hl⟩ hx⟩
  choose x hx using hex
  refine ⟨res', fun l => (x l).1, fun l => (x l).2, e', ?_, fun smax order hperm => ?_⟩
  · intro l c hc hl
    obtain ⟨b, members, leave, k1, k2, k3, k4, _⟩ := hx l c hc hl
    exact ⟨b, members, leave, k1, k2, k3, k4⟩
  obtain ⟨s, root, p1, p2, p3, p4⟩ := C102_nearly_optimal doubleArith ⟨fun _ _ => rfl, rfl⟩ smax order res'.clusters hct hunp hncs
    (fun l c hc hl => by obtain ⟨_, _, _, _, _, _, _, k5, _⟩ := hx l c hc hl; exact k5) hperm
  refine ⟨s, root, p1, p2, p3, fun T hT => ?_⟩
  -- the sums of the errors
  have hsum : ∀ T, Selection res'.clusters T → 0 ≤ stabilitySum res'.clusters T ∧ stabilitySum res'.clusters T ≤ 2 * (T.map fun l => (x l).2).sum ∧
      |stabilitySum res'.clusters T - (T.map fun l => (x l).1).sum| ≤ (2 * g.numVertices + 6) * 2 ^ (-53 : ℤ) * (T.map fun l => (x l).2).sum := by
    intro T hT
    have : ∀ L : List Nat, (∀ t ∈ L, ∃ q, IsChild res'.clusters t q) → 0 ≤ stabilitySum res'.clusters L ∧ stabilitySum res'.clusters L ≤ 2 * (L.map fun l => (x l).2).sum ∧
        |stabilitySum res'.clusters L - (L.map fun l => (x l).1).sum| ≤ (2 * g.numVertices + 6) * 2 ^ (-53 : ℤ) * (L.map fun l => (x l).2).sum := by
      intro L
      induction L with
      | nil => intro _; simp [stabilitySum]
      | cons t L ih =>
        intro hL
        obtain ⟨i1, i2, i3⟩ := ih fun t ht => hL t (List.mem_cons_of_mem _ ht)
        obtain ⟨q, c, hc, hp⟩ := hL t List.mem_cons_self
        have ht1 : t ≠ 1 := by
          intro h1
          rw [(hct.root t c hc).2 h1] at hp
          simp at hp
        obtain ⟨_, _, _, _, _, _, _, k5, k6, k7⟩ := hx t c hc ht1
        have hst : stabilitySum res'.clusters (t :: L) = c.stability.1 + stabilitySum res'.clusters L := by
          simp [stabilitySum, stabilityOf, hc]
        rw [hst, List.map_cons, List.map_cons, List.sum_cons, List.sum_cons]
        refine ⟨add_nonneg k5 i1, by linarith, ?_⟩
        have e1 : c.stability.1 + stabilitySum res'.clusters L - ((x t).1 + (L.map fun l => (x l).1).sum) =
          (c.stability.1 - (x t).1) + (stabilitySum res'.clusters L - (L.map fun l => (x l).1).sum) := by ring
        rw [e1, mul_add]
        exact (abs_add_le _ _).trans (add_le_add k7 i3)
    exact this T hT.notRoot
  obtain ⟨a1, a2, a3⟩ := hsum T hT
  obtain ⟨d1, d2, d3⟩ := hsum root.desc p3
  have key := p4 T hT
  have u0 := Hier.u_pos
  have b1 := (abs_le.1 a3).1
  have b2 := (abs_le.1 d3).2
  have hMd : 0 ≤ (root.desc.map fun l => (x l).2).sum := by linarith
  have hN : (0 : ℚ) ≤ 4 * res'.clusters.length := mul_nonneg (by norm_num) (Nat.cast_nonneg _)
  change |_ - _| ≤ (2 * (g.numVertices : ℚ) + 6) * Hier.u * _ at a3 d3
  change _ ≤ (_ : ℚ) at key
  show _ - (2 * (g.numVertices : ℚ) + 6 + 4 * res'.clusters.length) * Hier.u * _ ≤ _
  change -((2 * (g.numVertices : ℚ) + 6) * Hier.u * _) ≤ _ at b1
  change _ ≤ (2 * (g.numVertices : ℚ) + 6) * Hier.u * _ at b2
  change (1 - 2 * (res'.clusters.length : ℚ) * Hier.u) * _ ≤ _ at key
  generalize Hier.u = v at *
  generalize stabilitySum res'.clusters T = ST at *
  generalize stabilitySum res'.clusters root.desc = SD at *
  generalize (T.map fun l => (x l).1).sum = ET at *
  generalize (T.map fun l => (x l).2).sum = MT at *
  generalize (root.desc.map fun l => (x l).1).sum = ED at *
  generalize (root.desc.map fun l => (x l).2).sum = MD at *
  generalize (res'.clusters.length : ℚ) = N at *
  generalize (g.numVertices : ℚ) = n at *
  have q1 : 2 * N * v * ST ≤ 4 * N * v * MT := by
    have := mul_le_mul_of_nonneg_left a2 (show 0 ≤ 2 * N * v from mul_nonneg (by linarith) u0.le)
    linarith
  have q2 : 0 ≤ 4 * N * v * MD := mul_nonneg (mul_nonneg hN u0.le) hMd
  have e2 : (2 * n + 6 + 4 * N) * v * (MT + MD) = (2 * n + 6) * v * MT + (2 * n + 6) * v * MD + 4 * N * v * MT + 4 * N * v * MD := by ring
  have e3 : (1 - 2 * N * v) * ST = ST - 2 * N * v * ST := by ring
  rw [e3] at key
  rw [e2]
  linarith

example := C102_exact (demo below2' below2) 2 (by decide) (by decide) (demo_input below2_lt) below2_weights

end Verif.Props
