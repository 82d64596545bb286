import Verif.Lemmas.ConstraintsTree
import Verif.Props.Selection
/-
C99: constraints come before stability.
-/
namespace Verif.Props
open Spec Relation Sel
variable {W S : Type}

/-- The tree with counts is the same tree. -/
theorem counted_tree {cs cs' : List (Option (Cl W S))} (f g : Nat → Nat) (h : ClusterTree cs) (he : ∀ l, cs'[l]? = (cs[l]?).map (Option.map (withCounts (f l) (g l)))) :
    ClusterTree cs' ∧ IsChild cs' = IsChild cs ∧ cs'.length = cs.length := by
  have hget : ∀ (l : Nat) (c : Cl W S), cs[l]? = some (some c) → cs'[l]? = some (some (withCounts (f l) (g l) c)) := fun l c hc => by rw [he, hc]; rfl
  have hback : ∀ (l : Nat) (c : Cl W S), cs'[l]? = some (some c) → ∃ d, cs[l]? = some (some d) ∧ c = withCounts (f l) (g l) d := by
    intro l c hc
    rw [he] at hc
    cases h0 : cs[l]? with
    | none => rw [h0] at hc; simp at hc
    | some o =>
      cases o with
      | none => rw [h0] at hc; simp at hc
      | some d =>
        rw [h0] at hc
        exact ⟨d, rfl, by simpa using hc.symm⟩
  have hlen : cs'.length = cs.length := by
    refine Nat.le_antisymm ?_ ?_
    · by_contra hn
      have : cs'[cs.length]? = none := by rw [he, List.getElem?_eq_none (le_refl _)]; rfl
      exact absurd (List.getElem?_eq_none_iff.1 this) (by omega)
    · by_contra hn
      have h1 : cs'[cs'.length]? = none := List.getElem?_eq_none (le_refl _)
      rw [he, Option.map_eq_none_iff] at h1
      exact absurd (List.getElem?_eq_none_iff.1 h1) (by omega)
  have hch : IsChild cs' = IsChild cs := by
    funext l q
    refine propext ⟨?_, ?_⟩
    · rintro ⟨c, hc, hp⟩
      obtain ⟨d, hd, rfl⟩ := hback l c hc
      exact ⟨d, hd, hp⟩
    · rintro ⟨c, hc, hp⟩
      exact ⟨_, hget l c hc, hp⟩
  refine ⟨⟨by rw [he, h.zero]; rfl, by rw [hlen]; exact h.two, ?_, ?_, ?_, ?_⟩, hch, hlen⟩
  · intro l h1 h2
    obtain ⟨c, hc, hl⟩ := h.cl l h1 (by omega)
    exact ⟨_, hget l c hc, hl⟩
  · intro l c hc
    obtain ⟨d, hd, rfl⟩ := hback l c hc
    exact h.root l d hd
  · intro l q hq
    rw [hch] at hq
    exact h.up l q hq
  · intro l c hc
    obtain ⟨d, hd, rfl⟩ := hback l c hc
    rw [hch]
    exact h.kids l d hd

/-- C99 (partial: the counts must not add up to 2^32 or more). Constraints recorded for clusters and for their noise before the propagation decide the selection: no selection satisfies more
    constraints than the one made, none that satisfies as many has a larger total stability, and one with as many and the same total consists of clusters at or below selected ones.
    The count at the root is the number of constraints that the selection satisfies. -/
theorem C99_constraints_partial [CCmp W] [AddCommGroup S] [LinearOrder S] [IsOrderedAddMonoid S] (ar : Arith W S) (hadd : ∀ a b, ar.add a b = a + b) (hz : ar.zeroS = 0)
    (smax : S) (order : List Nat) (cs : List (Option (Cl W S))) (h : ClusterTree cs) (hf : Unpropagated ar cs)
    (hn : ∀ (l : Nat) (c : Cl W S), cs[l]? = some (some c) → c.ncs = 0 ∧ c.pncs = 0) (ho : order.Perm (List.range cs.length))
    (calls : List ConstraintCall) (hin : ∀ x ∈ calls, 1 ≤ x.label ∧ x.label < cs.length) (hs : (calls.map (·.count)).sum < 2 ^ 32) :
    ∃ (cs' : List (Option (Cl W S))) (s : St W S) (root : Cl W S),
      recordAll calls cs = .ok cs' ∧ propagateTree ar smax order cs' = .ok s ∧ s.clusters[1]? = some (some root) ∧ Selection cs root.desc ∧
      root.pncs = satisfied cs calls root.desc ∧ root.propStability = (root.desc.map (stabilityOf 0 cs)).sum ∧
      ∀ T, Selection cs T →
        satisfied cs calls T < satisfied cs calls root.desc ∨
        (satisfied cs calls T = satisfied cs calls root.desc ∧ (T.map (stabilityOf 0 cs)).sum ≤ (root.desc.map (stabilityOf 0 cs)).sum ∧
          ((T.map (stabilityOf 0 cs)).sum = (root.desc.map (stabilityOf 0 cs)).sum → ∀ t ∈ T, ∃ r ∈ root.desc, AtOrAbove cs r t)) := by
  obtain ⟨cs', e0, hcs'⟩ := recordAll_ok calls cs 0 (fun x hx => by
      obtain ⟨c, hc, _⟩ := h.cl x.label (hin x hx).1 (hin x hx).2
      exact ⟨c, hc⟩) (fun l c hc => by have := hn l c hc; omega) (by omega)
  obtain ⟨h', hch, hlen⟩ := counted_tree _ _ h hcs'
  have hget : ∀ (l : Nat) (c : Cl W S), cs[l]? = some (some c) → cs'[l]? = some (some (withCounts (own calls l) (virt calls l) c)) := fun l c hc => by rw [hcs', hc]; rfl
  have hf' : Unpropagated ar cs' := by
    intro l c hc
    rw [hcs'] at hc
    cases h0 : cs[l]? with
    | none => rw [h0] at hc; simp at hc
    | some o =>
      cases o with
      | none => rw [h0] at hc; simp at hc
      | some d =>
        rw [h0] at hc
        simp only [Option.map_some, Option.some.injEq] at hc
        subst hc
        exact hf l d h0
  have hsel' : ∀ T, Selection cs' T ↔ Selection cs T := by
    intro T
    constructor
    · rintro ⟨a, b, c, d⟩
      exact ⟨a, by simpa [hch] using b, by simpa [Above, hch] using c, by simpa [Leaf, AtOrAbove, hch] using d⟩
    · rintro ⟨a, b, c, d⟩
      exact ⟨a, by simpa [hch] using b, by simpa [Above, hch] using c, by simpa [Leaf, AtOrAbove, hch] using d⟩
  obtain ⟨s, root, e, hroot, hsel, _⟩ := C33_selection ar smax order cs' h' hf' (by rw [hlen]; exact ho)
  obtain ⟨hr, ht, hout⟩ := tree_of (ar := ar) h'
  obtain ⟨s', V, e', hx⟩ := propagateTree_rep ht hr (fresh_of hf') hout smax (order := order) (by rw [hlen]; exact ho)
  have : s' = s := by rw [e] at e'; exact (Outcome.ok.inj e').symm
  subst this
  have hN := h'.two
  have hV : V 1 = root := by
    have := hx.rep.at' 1 (by omega) (by omega)
    rw [hroot] at this
    simpa using this.symm
  have hk : ∀ l, 1 ≤ l → l < cs.length → (kOf ar cs' l).ncs = own calls l ∧ (kOf ar cs' l).pncs = virt calls l ∧ (kOf ar cs' l).stability = stabilityOf 0 cs l := by
    intro l h1 h2
    obtain ⟨c, hc, _⟩ := h.cl l h1 h2
    rw [kOf_eq (hget l c hc), stabilityOf, hc]
    have := hn l c hc
    simp [withCounts, this.1, this.2]
  have hk0 : (kOf ar cs' 0).ncs = 0 ∧ (kOf ar cs' 0).pncs = 0 := by
    simp [kOf, h'.zero, Cl.init]
  have hsmall : (Finset.range cs'.length).sum (fun l => (kOf ar cs' l).ncs + (kOf ar cs' l).pncs) < 2 ^ 32 := by
    refine lt_of_le_of_lt (le_trans (Finset.sum_le_sum (fun l hl => ?_)) (range_total cs'.length calls)) hs
    rcases Nat.eq_zero_or_pos l with h0 | h0
    · subst h0; omega
    · obtain ⟨a, b, _⟩ := hk l h0 (by have := Finset.mem_range.1 hl; omega)
      omega
  obtain ⟨hval, hopt⟩ := lex_optimal ht (kOf_zero h') hx.inv hadd hz hsmall (by omega)
  have hmem : ∀ l, 1 ≤ l → l < cs'.length → l ∈ below cs'.length (kOf ar cs') 1 := by
    intro l h1 h2
    refine mem_below.2 ⟨h2, ?_⟩
    obtain ⟨c, hc, _⟩ := h'.cl l h1 h2
    cases hp : c.parent with
    | none => rw [(h'.root l c hc).1 hp]
    | some q => exact (root_above h' l q ⟨c, hc, hp⟩).to_reflTransGen
  have hsat : ∀ T, Selection cs T → (T.map (fun l => (kOf ar cs' l).ncs)).sum + (below cs'.length (kOf ar cs') 1).sum (rest (kOf ar cs') (fun l => (kOf ar cs' l).pncs) T) =
      satisfied cs calls T := by
    intro T hT
    have hb : ∀ t ∈ T, 1 ≤ t ∧ t < cs.length := by
      intro t h1
      obtain ⟨q, hq⟩ := hT.notRoot t h1
      have := h.up t q hq
      obtain ⟨c, hc, _⟩ := hq
      exact ⟨by omega, (List.getElem?_eq_some_iff.1 hc).1⟩
    have e1 : T.map (fun l => (kOf ar cs' l).ncs) = T.map (own calls) := List.map_congr_left (fun t h1 => (hk t (hb t h1).1 (hb t h1).2).1)
    have e2 : (below cs'.length (kOf ar cs') 1).sum (rest (kOf ar cs') (fun l => (kOf ar cs' l).pncs) T) = (below cs'.length (kOf ar cs') 1).sum (rest (kOf ar cs') (virt calls) T) := by
      refine Finset.sum_congr rfl (fun l hl => ?_)
      unfold rest
      split
      · rfl
      · obtain ⟨h1, h2⟩ := mem_below.1 hl
        have := refl_le (par_lt ht (kOf_zero h')) h2
        exact (hk l this (by omega)).2.1
    rw [e1, e2, satisfied_sum _ _ calls T hT.nodup 1 (fun x hx => hmem _ (hin x hx).1 (by have := (hin x hx).2; omega)), satisfied]
    have : (fun a b => (kOf ar cs' a).parent = some b) = IsChild cs := by
      rw [← hch]
      funext a b
      exact propext child_iff.symm
    rw [this]
    rfl
  have hst : ∀ T, Selection cs T → T.map (stabilityOf 0 cs) = T.map (fun l => (kOf ar cs' l).stability) := by
    intro T hT
    refine List.map_congr_left (fun t h1 => ?_)
    obtain ⟨q, hq⟩ := hT.notRoot t h1
    have := h.up t q hq
    obtain ⟨c, hc, _⟩ := hq
    exact (hk t (by omega) (List.getElem?_eq_some_iff.1 hc).1).2.2.symm
  have hselr := (hsel' _).1 hsel
  have hsum : root.propStability = (root.desc.map (stabilityOf 0 cs)).sum := by
    rw [hst _ hselr, ← hV]
    exact desc_sum ht (kOf_zero h') hx.inv hadd hz 1
  rw [hV, hsat _ hselr] at hval
  have hval' : root.pncs = satisfied cs calls root.desc := by exact_mod_cast hval
  refine ⟨cs', s', root, e0, e, hroot, hselr, hval', hsum, fun T hT => ?_⟩
  have hT' := (hsel' T).2 hT
  obtain ⟨o1, o2⟩ := hopt T hT.nodup
    (fun t h1 => by
      obtain ⟨q, hq⟩ := hT'.notRoot t h1
      exact root_above h' t q hq)
    (fun a ha b hb hab => hT'.apart a ha b hb ((above_iff (ar := ar) a b).2 hab))
    (fun l hleaf hl => by
      obtain ⟨b, hb, _⟩ := TransGen.head'_iff.1 hl
      obtain ⟨t, h1, h2⟩ := hT'.covers l ⟨⟨b, child_iff.2 hb⟩, fun l' hl' => hleaf l' (child_iff.1 hl')⟩
      exact ⟨t, h1, (atOrAbove_iff (ar := ar) t l).1 h2⟩)
  rw [hV, hsat T hT, ← hst T hT, hval', hsum] at o1 o2
  rw [Prod.Lex.toLex_le_toLex] at o1
  simp only [Nat.cast_lt, Nat.cast_inj] at o1
  rcases o1 with o1 | ⟨o1, o3⟩
  · exact .inl o1
  · refine .inr ⟨o1, o3, fun he t h1 => ?_⟩
    obtain ⟨r, h2, h3⟩ := o2 (by rw [o1, he]) t h1
    refine ⟨r, h2, ?_⟩
    have := (atOrAbove_iff (ar := ar) (cs := cs') r t).2 h3
    rwa [AtOrAbove, hch] at this

/-- Calls on the concrete tree of C34: 4 satisfies two constraints, the noise of 3 one, 3 itself two. -/
def treeCalls : List ConstraintCall := [⟨4, false, 2⟩, ⟨3, true, 1⟩, ⟨3, false, 2⟩, ⟨2, true, 7⟩]

example := C99_constraints_partial treeArith (fun _ _ => rfl) rfl 1000 [5, 0, 3, 1, 2, 4] treeEx treeEx_tree treeEx_fresh.1 treeEx_fresh.2 (by decide) treeCalls (by decide) (by decide)

/-- The selection without constraints is {3, 2}; with these it is {5, 4, 2}, which satisfies three instead of two. -/
theorem C99_concrete : (recordAll treeCalls treeEx >>= fun cs => propagateTree treeArith 1000 [5, 0, 3, 1, 2, 4] cs >>= fun s => getCl s.clusters 1 >>= fun r => .ok (r.desc, r.pncs, r.propStability)) =
    .ok ([5, 4, 2], 3, 9) := by decide +kernel

/-- C99 (violated). With counts that add up to 2^32 the sum wraps around: 4 and 5 satisfy 2^32 constraints together, 3 satisfies one, and 3 is selected. -/
theorem C99_wrap_violated :
    (recordAll [⟨4, false, 2 ^ 31⟩, ⟨5, false, 2 ^ 31⟩, ⟨3, false, 1⟩] treeEx >>= fun cs => propagateTree treeArith 1000 [5, 0, 3, 1, 2, 4] cs >>= fun s =>
      getCl s.clusters 1 >>= fun r => .ok (r.desc, r.pncs)) = .ok ([3, 2], 1) ∧
    Selection treeEx [5, 4, 2] ∧ satisfied treeEx [⟨4, false, 2 ^ 31⟩, ⟨5, false, 2 ^ 31⟩, ⟨3, false, 1⟩] [5, 4, 2] = 2 ^ 32 ∧
    satisfied treeEx [⟨4, false, 2 ^ 31⟩, ⟨5, false, 2 ^ 31⟩, ⟨3, false, 1⟩] [3, 2] = 1 := by
  refine ⟨by decide +kernel, ⟨by decide, ?_, ?_, ?_⟩, by simp [satisfied], by simp [satisfied]⟩
  · intro t ht
    simp at ht
    rcases ht with rfl | rfl | rfl
    · exact ⟨3, (treeEx_child _ _).2 (by decide)⟩
    · exact ⟨3, (treeEx_child _ _).2 (by decide)⟩
    · exact ⟨1, (treeEx_child _ _).2 (by decide)⟩
  · intro s hs t ht hst
    obtain ⟨b, _, hb⟩ := TransGen.tail'_iff.1 hst
    rw [treeEx_child] at hb
    simp at hs hb
    omega
  · rintro l ⟨⟨q, hq⟩, hl⟩
    rw [treeEx_child] at hq
    simp at hq
    rcases hq with ⟨rfl, rfl⟩ | ⟨rfl, rfl⟩ | ⟨rfl, rfl⟩ | ⟨rfl, rfl⟩
    · exact ⟨2, by simp, .refl⟩
    · exact absurd ((treeEx_child _ _).2 (by decide)) (hl 4)
    · exact ⟨4, by simp, .refl⟩
    · exact ⟨5, by simp, .refl⟩

end Verif.Props
