import Verif.Lemmas.GraphSort
import Verif.Spec.Graph
/-
Helper lemmas for properties C23 and C24.
-/
namespace Verif.Graph
variable {W : Type}

theorem exists_erep [Nonempty W] (g : Graph W) (ha : g.va.length = g.wt.length) (hb : g.vb.length = g.wt.length) :
    ∃ f, ERep g g.wt.length f := by
  obtain ⟨w0⟩ := ‹Nonempty W›
  refine ⟨fun i => (g.va[i]?.getD 0, g.vb[i]?.getD 0, g.wt[i]?.getD w0), ?_, ?_, ?_⟩ <;>
  · apply List.ext_getElem
    · simp [ha, hb]
    · intro i h1 h2
      simp only [List.getElem_map, List.getElem_range]
      rw [List.getElem?_eq_getElem h1]; rfl

theorem triples_erep {g : Graph W} {n : Nat} {f} (h : ERep g n f) :
    Spec.triples g.va g.vb g.wt = (List.range n).map f := by
  rw [Spec.triples, h.va, h.vb, h.wt]
  apply List.ext_getElem
  · simp
  · intro i h1 h2
    simp

theorem length_erep {g : Graph W} {n : Nat} {f} (h : ERep g n f) : g.wt.length = n := by rw [h.wt]; simp

theorem ordered_pairwise [LinearOrder W] {g : Graph W} {n : Nat} {f} (h : ERep g n f) (ho : Ordered n f []) :
    g.wt.Pairwise (· ≤ ·) := by
  rw [List.pairwise_iff_getElem]
  intro i j hi hj hij
  rw [length_erep h] at hi hj
  have := ho i j hij hj
  simp only [List.not_mem_nil, false_and, exists_false, or_false, ccmp_lt, decide_eq_false_iff_not, not_lt] at this
  simpa [h.wt] using this

theorem start_ranges {n : Nat} (hn : 1 < n) : Ranges n [(0, n - 1)] ∧ weight [(0, n - 1)] = n := by
  refine ⟨⟨?_, by simp⟩, ?_⟩
  · intro r hr
    simp only [List.mem_singleton] at hr
    subst hr
    simp only; omega
  · simp [weight]; omega

/-- The recursive variant, on the range `[s, e1)`. -/
theorem quicksort_rep [LinearOrder W] {n : Nat} : ∀ (fuel s e1 : Nat) (g : Graph W) (f : Nat → Nat × Nat × W),
    ERep g n f → e1 ≤ n → e1 - s < fuel →
    ∃ (g' : Graph W) (σ : Equiv.Perm Nat), quicksort fuel s e1 g = .ok g' ∧ ERep g' n (fun k => f (σ k)) ∧ (∀ k, k < s ∨ e1 ≤ k → σ k = k) ∧
      (∀ i j, s ≤ i → i < j → j < e1 → (f (σ i)).2.2 ≤ (f (σ j)).2.2) ∧ g'.numVertices = g.numVertices ∧ g'.edges = g.edges := by
  intro fuel
  induction fuel with
  | zero => intro s e1 g f h he hf; omega
  | succ fuel ih =>
    intro s e1 g f h he hf
    unfold quicksort
    by_cases hs : s + 1 < e1
    · rw [if_pos hs]
      obtain ⟨g1, q, σ, p1, r1, w1, a1, a2, a3, a4, n1, ed1⟩ := partition_rep h (s := s) (p := s) (show e1 - 1 < n by omega) (by omega)
      obtain ⟨g2, τ, p2, r2, w2, o2, n2, ed2⟩ := ih s q g1 _ r1 (by omega) (by omega)
      obtain ⟨g3, ρ, p3, r3, w3, o3, n3, ed3⟩ := ih (q + 1) e1 g2 _ r2 (by omega) (by omega)
      simp only [ccmp_lt, decide_eq_true_eq, decide_eq_false_iff_not, not_lt] at a3 a4
      refine ⟨g3, (ρ.trans τ).trans σ, ?_, by simpa using r3, ?_, ?_, n3.trans (n2.trans n1), ed3.trans (ed2.trans ed1)⟩
      · simp only [selectPivot_eq g (show s ≤ e1 - 1 by omega), Outcome.ok_bind, p1, p2, p3]
      · intro k hk
        have := w3 k (by omega)
        have h2 := w2 k (by omega)
        have h3 := w1 k (by omega)
        simp [this, h2, h3]
      · have key : ∀ i, s ≤ i → i < e1 → (i < q → s ≤ τ (ρ i) ∧ τ (ρ i) < q) ∧ (i = q → τ (ρ i) = q) ∧
            (q < i → q < τ (ρ i) ∧ τ (ρ i) < e1) := by
          intro i hi1 hi2
          have wt' : Within s (q - 1) τ ∨ q = s := by
            by_cases hq : q = s
            · exact .inr hq
            · exact .inl (fun k hk => w2 k (by omega))
          have wr' : Within (q + 1) (e1 - 1) ρ := fun k hk => w3 k (by omega)
          refine ⟨fun hiq => ?_, fun hiq => ?_, fun hiq => ?_⟩
          · have e1' : ρ i = i := w3 i (by omega)
            rw [e1']
            rcases wt' with wt' | hq
            · have := within_mem wt' (k := i) (by omega); omega
            · omega
          · have e1' : ρ i = i := w3 i (by omega)
            rw [e1', hiq, w2 q (by omega)]
          · have m := within_mem wr' (k := i) (by omega)
            rw [w2 (ρ i) (by omega)]; omega
        intro i j hi hij hj
        simp only [Equiv.trans_apply]
        have ki := key i hi (by omega)
        have kj := key j (by omega) hj
        by_cases c1 : j < q
        · have := o2 i j hi hij c1
          rw [w3 i (by omega), w3 j (by omega)]; exact this
        · by_cases c2 : q < i
          · exact o3 i j (by omega) hij hj
          · have hA : (f (σ (τ (ρ i)))).2.2 ≤ (f (σ q)).2.2 := by
              by_cases c : i = q
              · rw [ki.2.1 c]
              · have := ki.1 (by omega); exact (a3 _ this.1 this.2).le
            have hB : (f (σ q)).2.2 ≤ (f (σ (τ (ρ j)))).2.2 := by
              by_cases c : j = q
              · rw [kj.2.1 c]
              · have := kj.2.2 (by omega); exact a4 _ this.1 (by omega)
            exact hA.trans hB
    · rw [if_neg hs]
      refine ⟨g, Equiv.refl Nat, rfl, by simpa using h, fun _ _ => rfl, ?_, rfl, rfl⟩
      intro i j h1 h2 h3; omega

theorem joins_symm (v w : Nat) (e : Nat × Nat) : Spec.joins v w e = Spec.joins w v e := by
  simp only [Spec.joins, Bool.or_comm]

theorem addEdge_describes {n : Nat} {adj : List (List Nat)} {E : List (Nat × Nat)} {a b : Nat}
    (h : Spec.Describes n adj E) (ha : a < n) (hb : b < n) :
    ∃ adj', addEdge adj a b = .ok adj' ∧ Spec.Describes n adj' (E ++ [(a, b)]) := by
  obtain ⟨hl, hc⟩ := h
  subst hl
  unfold addEdge
  rw [rd_ok ha]
  simp only [Outcome.ok_bind]
  rw [wr_ok ha]
  simp only [Outcome.ok_bind]
  by_cases hab : a = b
  · subst hab
    refine ⟨_, by simp; rfl, by simp, ?_⟩
    intro v w hv
    rw [List.countP_append, ← hc v w hv]
    by_cases hva : v = a
    · subst hva
      simp only [List.getElem?_set_self ha, Option.getD_some, List.count_append, List.getElem?_eq_getElem ha]
      simp only [List.count_singleton, List.countP_singleton, Spec.joins]
      by_cases hw' : v = w
      · simp [hw']
      · simp [hw']
    · rw [List.getElem?_set_ne (Ne.symm hva)]
      simp [Spec.joins, Ne.symm hva]
  · rw [if_pos hab]
    have hb' : b < (adj.set a (adj[a] ++ [b])).length := by simpa using hb
    rw [rd_ok hb']
    simp only [Outcome.ok_bind]
    rw [wr_ok hb']
    refine ⟨_, rfl, by simp, ?_⟩
    intro v w hv
    rw [List.countP_append, ← hc v w hv]
    rw [List.getElem_set_ne hab]
    by_cases hvb : v = b
    · subst hvb
      rw [List.getElem?_set_self (by simpa using hb)]
      simp only [Option.getD_some, List.count_append, List.getElem?_eq_getElem hb]
      simp only [List.count_singleton, List.countP_singleton, Spec.joins]
      by_cases hw' : a = w
      · simp [hw']
      · simp [hw', hab]
    · rw [List.getElem?_set_ne (Ne.symm hvb)]
      by_cases hva : v = a
      · subst hva
        rw [List.getElem?_set_self ha]
        simp only [Option.getD_some, List.count_append, List.getElem?_eq_getElem ha]
        simp only [List.count_singleton, List.countP_singleton, Spec.joins]
        by_cases hw' : b = w
        · simp [hw']
        · simp [hw', Ne.symm hab]

      · rw [List.getElem?_set_ne (Ne.symm hva)]
        simp [Spec.joins, Ne.symm hva, Ne.symm hvb]

theorem addEdges_describes {n : Nat} {va vb : List Nat} (hva : ∀ a ∈ va, a < n) (hvb : ∀ b ∈ vb, b < n)
    (hl : vb.length = va.length) : ∀ (k i : Nat) (adj : List (List Nat)), i + k = va.length →
    Spec.Describes n adj ((va.zip vb).take i) →
    ∃ adj', addEdges va vb k i adj = .ok adj' ∧ Spec.Describes n adj' (va.zip vb) := by
  intro k
  induction k with
  | zero =>
    intro i adj hi h
    refine ⟨adj, rfl, ?_⟩
    rw [List.take_of_length_le (by simp; omega)] at h
    exact h
  | succ k ih =>
    intro i adj hi h
    have h1 : i < va.length := by omega
    have h2 : i < vb.length := by omega
    obtain ⟨adj', e, d⟩ := addEdge_describes h (hva _ (List.getElem_mem h1)) (hvb _ (List.getElem_mem h2))
    have ht : (va.zip vb).take (i + 1) = (va.zip vb).take i ++ [(va[i], vb[i])] := by
      rw [List.take_add_one, List.getElem?_eq_getElem (by simp; omega)]
      simp
    rw [← ht] at d
    obtain ⟨adj'', e', d'⟩ := ih (i + 1) adj' (by omega) d
    refine ⟨adj'', ?_, d'⟩
    simp only [addEdges]
    rw [rd_ok h1, rd_ok h2]
    simp only [Outcome.ok_bind, e, e']

theorem countP_erase_pair {E : List (Nat × Nat)} {a b v w : Nat} (hm : (a, b) ∈ E) :
    (E.erase (a, b)).countP (Spec.joins v w) + (if Spec.joins v w (a, b) then 1 else 0) = E.countP (Spec.joins v w) := by
  have := (List.perm_cons_erase hm).countP_eq (Spec.joins v w)
  rw [this, List.countP_cons]

/-- One removal on the level of neighbour lists. -/
theorem removeEdge_describes {n : Nat} {g : Graph W} {E : List (Nat × Nat)} {a b : Nat} (h : Spec.Describes n g.edges E)
    (ha : a < n) (hb : b < n) (hm : (a, b) ∈ E) (hself : a = b → E.countP (Spec.joins a a) ≤ 1) :
    ∃ g', removeEdge g a b = .ok g' ∧ Spec.Describes n g'.edges (E.erase (a, b)) ∧ g'.va = g.va ∧ g'.vb = g.vb ∧
      g'.wt = g.wt ∧ g'.numVertices = g.numVertices := by
  obtain ⟨hl, hc⟩ := h
  subst hl
  have hb' : b < (g.edges.set a (g.edges[a].erase b)).length := by simpa using hb
  refine ⟨{ g with edges := (g.edges.set a (g.edges[a].erase b)).set b ((g.edges.set a (g.edges[a].erase b))[b].erase a) }, ?_,
    ⟨by simp, ?_⟩, rfl, rfl, rfl, rfl⟩
  · unfold removeEdge
    rw [rd_ok ha]
    simp only [Outcome.ok_bind]
    rw [wr_ok ha]
    simp only [Outcome.ok_bind]
    rw [rd_ok hb']
    simp only [Outcome.ok_bind]
    rw [wr_ok hb']
    rfl
  · intro v w hv
    have hce := countP_erase_pair (v := v) (w := w) hm
    have hcv := hc v w hv
    rw [List.getElem?_eq_getElem hv] at hcv
    simp only [Option.getD_some] at hcv
    by_cases hab : a = b
    · subst hab
      by_cases hva : v = a
      · subst hva
        have h1 := hself rfl
        simp only [List.getElem_set_self, List.set_set, List.getElem?_set_self hv, Option.getD_some, List.count_erase]
        by_cases hvw : w = v
        · subst hvw
          have : Spec.joins w w (w, w) = true := by simp [Spec.joins]
          rw [this] at hce
          simp only [if_true, beq_self_eq_true] at *
          omega
        · have e1 : Spec.joins v w (v, v) = false := by simp [Spec.joins, Ne.symm hvw]
          rw [e1] at hce
          have e2 : (v == w) = false := by simp [Ne.symm hvw]
          simp only [e2, Bool.false_eq_true, if_false] at *
          omega
      · have e1 : Spec.joins v w (a, a) = false := by simp [Spec.joins, Ne.symm hva]
        rw [e1] at hce
        rw [List.getElem?_set_ne (Ne.symm hva), List.getElem?_set_ne (Ne.symm hva), List.getElem?_eq_getElem hv]
        simp only [Option.getD_some, Bool.false_eq_true, if_false] at *
        omega
    · rw [List.getElem_set_ne hab]
      by_cases hvb : v = b
      · subst hvb
        rw [List.getElem?_set_self hb']
        simp only [Option.getD_some, List.count_erase]
        by_cases hwa : a = w
        · subst hwa
          have : Spec.joins v a (a, v) = true := by simp [Spec.joins]
          rw [this] at hce
          simp only [if_true, beq_self_eq_true] at *
          omega
        · have e1 : Spec.joins v w (a, v) = false := by simp [Spec.joins, hwa, hab]
          have e2 : (a == w) = false := by simp [hwa]
          rw [e1] at hce
          simp only [e2, Bool.false_eq_true, if_false] at *
          omega
      · rw [List.getElem?_set_ne (Ne.symm hvb)]
        by_cases hva : v = a
        · subst hva
          rw [List.getElem?_set_self hv]
          simp only [Option.getD_some, List.count_erase]
          by_cases hwb : b = w
          · subst hwb
            have : Spec.joins v b (v, b) = true := by simp [Spec.joins]
            rw [this] at hce
            simp only [if_true, beq_self_eq_true] at *
            omega
          · have e1 : Spec.joins v w (v, b) = false := by simp [Spec.joins, hwb, Ne.symm hvb]
            have e2 : (b == w) = false := by simp [hwb]
            rw [e1] at hce
            simp only [e2, Bool.false_eq_true, if_false] at *
            omega
        · rw [List.getElem?_set_ne (Ne.symm hva), List.getElem?_eq_getElem hv]
          have e1 : Spec.joins v w (a, b) = false := by simp [Spec.joins, Ne.symm hva, Ne.symm hvb]
          rw [e1] at hce
          simp only [Option.getD_some, Bool.false_eq_true, if_false] at *
          omega

end Verif.Graph

