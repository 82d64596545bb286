import Verif.Lemmas.Main
import Verif.Lemmas.Prim
import Verif.Spec.Hierarchy
/-
Helper lemmas for the hierarchy: from the invariant to the observable result.
-/
namespace Verif.Hier
open Spec
variable {W S : Type}

/-- What is known of the result whatever the graph. -/
structure Base [LinearOrder W] (ar : Arith W S) (n m : Nat) (res : Result W S) (hist : List (W × (Nat → Nat)))
    (cur : Nat → Nat) (noise : Nat → Option W) (last : Nat → Option Nat) : Prop where
  m1 : 1 ≤ m
  ne : hist ≠ []
  zero : ∀ u, u < n → cur u = 0
  bk : BK ar n m hist cur res.clusters noise last
  off : ∀ (l : Nat) (c : Cl W S), 2 ≤ l → res.clusters[l]? = some (some c) → OffOK n hist cur l c.offset
  lines : res.hierarchy = hist.zipIdx.map (fun h => (h.2 + 1, h.1.1, (List.range n).map h.1.2)) ++ [(0, ar.zeroW, List.replicate n 0)]
  ord : (hist.map (·.1)).Pairwise (· > ·)
  noise : res.noise = (List.range n).map noise
  last : res.last = (List.range n).map last
  cur : res.cur = (List.range n).map cur

/-- All that is known of the result for a tree. -/
structure Obs [LinearOrder W] (ar : Arith W S) (n m M : Nat) (f : Nat → Nat × Nat × W) (res : Result W S) (hist : List (W × (Nat → Nat)))
    (cur : Nat → Nat) (noise : Nat → Option W) (last : Nat → Option Nat) : Prop extends Base ar n m res hist cur noise last where
  spl : SplitOK res.clusters
  line : ∀ h ∈ hist, ∃ k', LineK n m M f h k'
  first : ∀ h, hist[0]? = some h → LineK n m M f h M
  full : ∀ i, i < M → (∃ h ∈ hist, h.1 = (f i).2.2) ∨ ∃ k', k' ≤ M ∧ (∀ j, j < M → (j < k' ↔ (f j).2.2 ≤ (f i).2.2)) ∧ ¬ VK f k' m (f i).1

theorem obs [LinearOrder W] (ar : Arith W S) {n m M f} {g : Graph W} (hr : Graph.ERep g M f) (hM : 1 ≤ M) (ec : EC n M f) (hgn : g.numVertices = n)
    (n32 : n < 2 ^ 32) (m1 : 1 ≤ m) (hd : Spec.Describes n g.edges (prs f M)) (hspan : ∀ u v, u < n → v < n → RK f M u v) :
    ∃ (res : Result W S) (hist : List (W × (Nat → Nat))) (cur : Nat → Nat) (noise : Nat → Option W) (last : Nat → Option Nat),
      compute ar m false g = .ok res ∧ Obs ar n m M f res hist cur noise last := by
  obtain ⟨res, st, hist, cur, noise, last, e, ht, hne, hres⟩ := compute_rep (ar := ar) hr hM ec hgn n32 m1 hd hspan
  refine ⟨res, hist, cur, noise, last, e, ?_⟩
  subst hres
  exact ⟨⟨m1, hne, ht.all_noise hne, ht.bk, ht.off, by rw [ht.lines], ht.ord, ht.rep.noise, ht.rep.last, ht.rep.cur⟩, ht.spl, ht.line, ht.first,
    fun i => ht.full i (Nat.zero_le _)⟩

theorem eqv_to_walk {α : Type} {r : α → α → Prop} (hs : ∀ a b, r a b → r b a) {u v : α} (h : Relation.EqvGen r u v) : Relation.ReflTransGen r u v := by
  induction h with
  | rel x y hxy => exact .single hxy
  | refl => exact .refl
  | symm x y _ ih =>
    have : ∀ a b, Relation.ReflTransGen r a b → Relation.ReflTransGen r b a := by
      intro a b hab
      induction hab with
      | refl => exact .refl
      | tail _ h2 ih => exact .head (hs _ _ h2) ih
    exact this _ _ ih
  | trans _ _ _ _ _ i1 i2 => exact i1.trans i2

/-- The admissible inputs in terms of the edge function. -/
theorem input_rep [LinearOrder W] {n : Nat} {g : Graph W} (hg : TreeInput n g.va g.vb g.wt g.edges) :
    ∃ f, Graph.ERep g g.wt.length f ∧ EC n g.wt.length f ∧ Describes n g.edges (prs f g.wt.length) ∧
      (∀ u v, u < n → v < n → RK f g.wt.length u v) ∧ triples g.va g.vb g.wt = (List.range g.wt.length).map f := by
  have : Nonempty W := by
    have := hg.nonempty
    cases hw : g.wt with
    | nil => rw [hw] at this; simp at this
    | cons a _ => exact ⟨a⟩
  obtain ⟨f, hr⟩ := Graph.exists_erep g hg.lenA hg.lenB
  have hz : g.va.zip g.vb = prs f g.wt.length := by
    conv_lhs => rw [hr.va, hr.vb]
    rw [prs]
    apply List.ext_getElem
    · simp
    · intro i h1 h2; simp
  refine ⟨f, hr, ⟨?_, ?_, ?_⟩, hz ▸ hg.adj, ?_, Graph.triples_erep hr⟩
  · intro i hi
    refine ⟨hg.endA _ ?_, hg.endB _ ?_⟩
    · rw [hr.va]; exact List.mem_map.2 ⟨i, List.mem_range.2 hi, rfl⟩
    · rw [hr.vb]; exact List.mem_map.2 ⟨i, List.mem_range.2 hi, rfl⟩
  · intro i j hij hj
    rcases Nat.lt_or_eq_of_le hij with h | h
    · have hs := hg.sorted
      rw [List.pairwise_iff_getElem] at hs
      have := hs i j (by omega) hj h
      have e : ∀ k (hk : k < g.wt.length), g.wt[k] = (f k).2.2 := by
        intro k hk
        have e1 : g.wt[k]? = ((List.range g.wt.length).map (fun i => (f i).2.2))[k]? := congrArg (·[k]?) hr.wt
        rw [List.getElem?_eq_getElem hk] at e1
        simpa [hk] using e1
      rw [e, e] at this
      exact this
    · subst h; exact le_refl _
  · intro v
    rw [← hz]; exact hg.self v
  · intro u v hu hv
    have := hg.spans u v hu hv
    have h2 : Relation.EqvGen (Jn f g.wt.length) u v := by
      refine Prim.eqv_mono ?_ this
      intro a b hab
      rw [hz, prs, List.mem_map] at hab
      obtain ⟨i, hi, he⟩ := hab
      simp only [Prod.mk.injEq] at he
      exact ⟨i, List.mem_range.1 hi, .inl he⟩
    exact eqv_to_walk (fun a b => Jn.symm) h2

/-- Walks over the first `k` edges are walks over edges of bounded weight. -/
theorem rk_iff [LinearOrder W] {M k : Nat} {f : Nat → Nat × Nat × W} {w : W} (hk : k ≤ M) (hw : ∀ i, i < M → (i < k ↔ (f i).2.2 ≤ w)) (u v : Nat) :
    RK f k u v ↔ ConnectedBy ((List.range M).map f) w u v := by
  constructor
  · intro h
    induction h with
    | refl => exact .refl _
    | tail _ h2 ih =>
      obtain ⟨i, hi, hj⟩ := h2
      have hle := (hw i (by omega)).1 hi
      refine .trans _ _ _ ih ?_
      have hmem : ((f i).1, (f i).2.1, (f i).2.2) ∈ (List.range M).map f := List.mem_map.2 ⟨i, List.mem_range.2 (by omega), rfl⟩
      rcases hj with ⟨rfl, rfl⟩ | ⟨rfl, rfl⟩
      · exact .rel _ _ ⟨_, hmem, hle⟩
      · exact .symm _ _ (.rel _ _ ⟨_, hmem, hle⟩)
  · intro h
    have h2 : Relation.EqvGen (Jn f k) u v := by
      refine Prim.eqv_mono ?_ h
      rintro a b ⟨x, hx, hle⟩
      obtain ⟨i, hi, he⟩ := List.mem_map.1 hx
      have hiM := List.mem_range.1 hi
      refine ⟨i, (hw i hiM).2 (by rw [he]; exact hle), .inl ⟨by rw [he], by rw [he]⟩⟩
    exact eqv_to_walk (fun a b => Jn.symm) h2

section
variable [LinearOrder W] {ar : Arith W S} {n m : Nat} {res : Result W S} {hist : List (W × (Nat → Nat))}
    {cur : Nat → Nat} {noise : Nat → Option W} {last : Nat → Option Nat}

theorem Base.mem_lines (h : Base ar n m res hist cur noise last) {i : Nat} {w : W} {A : List Nat} :
    (i, w, A) ∈ res.hierarchy ↔ (i = 0 ∧ w = ar.zeroW ∧ A = List.replicate n 0) ∨
      ∃ s g, hist[s]? = some (w, g) ∧ i = s + 1 ∧ A = (List.range n).map g := by
  rw [h.lines, List.mem_append, List.mem_map, List.mem_singleton]
  simp only [Prod.mk.injEq]
  constructor
  · rintro (⟨⟨⟨w', g⟩, s⟩, hx, h1, h2, h3⟩ | hx)
    · right
      rw [List.mem_zipIdx_iff_getElem?] at hx
      simp only at h1 h2 h3 hx
      exact ⟨s, g, by rw [hx, h2], h1.symm, h3.symm⟩
    · exact .inl hx
  · rintro (hx | ⟨s, g, hx, h1, h2⟩)
    · exact .inr hx
    · exact .inl ⟨((w, g), s), by rw [List.mem_zipIdx_iff_getElem?]; exact hx, h1.symm, rfl, h2.symm⟩

theorem Base.carries (h : Base ar n m res hist cur noise last) {i p l : Nat} (hi : 1 ≤ i) :
    Carries res.hierarchy i p l ↔ i ≤ hist.length ∧ p < n ∧ lab hist cur (i - 1) p = l := by
  constructor
  · rintro ⟨w, A, hm, hA⟩
    rcases h.mem_lines.1 hm with ⟨h0, _⟩ | ⟨s, g, hs, h1, h2⟩
    · omega
    · subst h1 h2
      have hpn : p < n := by
        have := lt_of_get hA
        simpa using this
      refine ⟨lt_of_get hs, hpn, ?_⟩
      rw [Nat.add_sub_cancel, lab_get hs]
      simpa [hpn] using hA
  · rintro ⟨h1, hp, h2⟩
    obtain ⟨⟨w, g⟩, hs⟩ : ∃ x, hist[i - 1]? = some x := ⟨_, List.getElem?_eq_getElem (by omega)⟩
    refine ⟨w, (List.range n).map g, h.mem_lines.2 (.inr ⟨i - 1, g, hs, by omega, rfl⟩), ?_⟩
    rw [lab_get hs] at h2
    simpa [hp] using h2

theorem Base.carries_zero (h : Base ar n m res hist cur noise last) {p l : Nat} :
    Carries res.hierarchy 0 p l ↔ p < n ∧ l = 0 := by
  constructor
  · rintro ⟨w, A, hm, hA⟩
    rcases h.mem_lines.1 hm with ⟨_, _, h0⟩ | ⟨s, g, hs, h1, h2⟩
    · subst h0
      have hpn : p < n := by
        have := lt_of_get hA
        simpa using this
      refine ⟨hpn, ?_⟩
      simpa [hpn] using hA.symm
    · omega
  · rintro ⟨hp, rfl⟩
    exact ⟨_, _, h.mem_lines.2 (.inl ⟨rfl, rfl, rfl⟩), by simp [hp]⟩

theorem Base.hasWeight (h : Base ar n m res hist cur noise last) {s : Nat} {w : W} {g : Nat → Nat} (hs : hist[s]? = some (w, g)) :
    HasWeight res.hierarchy (s + 1) w := ⟨_, h.mem_lines.2 (.inr ⟨s, g, hs, rfl, rfl⟩)⟩

theorem Base.weight_of (h : Base ar n m res hist cur noise last) {i : Nat} (hi : 1 ≤ i) {w : W} (hw : HasWeight res.hierarchy i w) :
    ∃ g, hist[i - 1]? = some (w, g) := by
  obtain ⟨A, hm⟩ := hw
  rcases h.mem_lines.1 hm with ⟨h0, _⟩ | ⟨s, g, hs, h1, _⟩
  · omega
  · subst h1
    exact ⟨g, by simpa using hs⟩

theorem Base.lt_hist (h : Base ar n m res hist cur noise last) {s p : Nat} (hp : p < n) (hl : lab hist cur s p ≠ 0) : s < hist.length := by
  by_contra hne
  rw [lab_end (by omega), h.zero p hp] at hl
  exact hl rfl

omit [LinearOrder W] in
/-- Noise stays noise. -/
theorem BK.noise_stays {cs : List (Option (Cl W S))} (h : BK ar n m hist cur cs noise last) {s t p : Nat} (hp : p < n) (hst : s ≤ t)
    (h0 : lab hist cur s p = 0) : lab hist cur t p = 0 := by
  induction t with
  | zero =>
    have : s = 0 := by omega
    subst this; exact h0
  | succ t ih =>
    by_cases hs : s = t + 1
    · subst hs; exact h0
    · have ht := ih (by omega)
      by_cases htl : t < hist.length
      · rcases h.mono t p hp htl with h1 | h1
        · rw [h1]; exact ht
        · exact absurd ht h1.1
      · rw [lab_end (by omega), ← lab_end (hist := hist) (cur := cur) (s := t) (by omega)]; exact ht

omit [LinearOrder W] in
/-- A label that has been seen is not taken up again. -/
theorem BK.back {cs : List (Option (Cl W S))} (h : BK ar n m hist cur cs noise last) {s t p l : Nat} (hp : p < n) (hst : s ≤ t) (hl : l ≠ 0)
    (hq : ∃ q, q < n ∧ lab hist cur s q = l) (ht : lab hist cur t p = l) : lab hist cur s p = l := by
  induction t with
  | zero =>
    have : s = 0 := by omega
    subst this; exact ht
  | succ t ih =>
    by_cases hs : s = t + 1
    · subst hs; exact ht
    · apply ih (by omega)
      by_cases htl : t < hist.length
      · rcases h.mono t p hp htl with h1 | ⟨_, h1 | h1⟩
        · rw [← h1]; exact ht
        · rw [ht] at h1; exact absurd h1 hl
        · obtain ⟨q, hq1, hq2⟩ := hq
          exact absurd (hq2.trans ht.symm) (h1 s (by omega) q hq1)
      · rw [lab_end (by omega), ← lab_end (hist := hist) (cur := cur) (s := t + 1) (by omega)]; exact ht

/-- Where a cluster is born, in terms of its offset. -/
theorem Base.birth (h : Base ar n m res hist cur noise last) {l : Nat} {c : Cl W S} (hl : l ≠ 1) (hc : res.clusters[l]? = some (some c)) :
    ∃ q s w g, hist[s]? = some (w, g) ∧ c.parent = some q ∧ 1 ≤ q ∧ q < l ∧ c.birth = some w ∧ c.offset = s + 1 ∧ s + 1 < hist.length ∧
      (∀ p, p < n → lab hist cur (s + 1) p = l → g p = q) ∧ m ≤ cnt n (fun p => lab hist cur (s + 1) p = l) ∧
      (∃ p, p < n ∧ lab hist cur (s + 1) p = l) ∧
      (∀ s', s' ≤ s → ∀ p, p < n → lab hist cur s' p ≠ l) := by
  obtain ⟨h1, h2, hi⟩ := h.bk.get hc
  obtain ⟨q, s, w, g, b1, b2, b3, b4, b5, b6, b7, b8⟩ := hi.born hl
  obtain ⟨s2, o1, o2, o3, p, o4, o5⟩ := h.off l c (by omega) hc
  have hs : s2 = s := by
    have hsl := lt_of_get b1
    rcases Nat.lt_trichotomy s2 s with hlt | heq | hgt
    · exact absurd o5 (b8 (s2 + 1) (by omega) p o4)
    · exact heq
    · exfalso
      have hm : 0 < cnt n (fun p => lab hist cur (s + 1) p = l) := Nat.lt_of_lt_of_le (Nat.lt_of_lt_of_le Nat.zero_lt_one h.m1) b7
      obtain ⟨p', hp', hpl⟩ := cnt_pos.1 hm
      exact o3 (s + 1) (by omega) p' hp' hpl
  subst hs
  refine ⟨q, s2, w, g, b1, b2, b3, b4, b5, o2, ?_, b6, b7, ⟨p, o4, o5⟩, b8⟩
  exact h.lt_hist o4 (by rw [o5]; omega)

end
end Verif.Hier
