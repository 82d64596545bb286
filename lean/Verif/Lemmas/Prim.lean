import Verif.Spec.Graph
import Mathlib.Data.List.Perm.Subperm
import Mathlib.Data.List.Forall2
import Mathlib.Data.List.Perm.Basic
import Mathlib.Tactic.Linarith
/-
Graph theory of Prim's algorithm, independent of the program: the points are attached in the order `a 0, a 1, ...`, the
point `a t` to the point `a (pi t)`.
-/
namespace Verif.Prim
variable {W : Type} [LinearOrder W]

/-- Points are attached in the order `a`, each to the point `a (pi t)` by a cheapest edge leaving the tree. -/
structure Run (n : Nat) (m : Nat → Nat → W) (a pi : Nat → Nat) : Prop where
  lt : ∀ t, t < n → a t < n
  inj : ∀ s t, s < n → t < n → a s = a t → s = t
  surj : ∀ v, v < n → ∃ t, t < n ∧ a t = v
  pi_lt : ∀ t, 0 < t → t < n → pi t < t
  cheapest : ∀ t, 0 < t → t < n → ∀ p q, p < t → t ≤ q → q < n → m (a (pi t)) (a t) ≤ m (a p) (a q)

/-- Connected by tree edges of weight at most `M`. -/
def Conn (n : Nat) (m : Nat → Nat → W) (a pi : Nat → Nat) (M : W) : Nat → Nat → Prop :=
  Relation.EqvGen (fun x y => ∃ t, 0 < t ∧ t < n ∧ x = a (pi t) ∧ y = a t ∧ m x y ≤ M)

theorem eqv_mono {r s : Nat → Nat → Prop} (h : ∀ x y, r x y → s x y) {x y : Nat} (hr : Relation.EqvGen r x y) :
    Relation.EqvGen s x y := by
  induction hr with
  | rel x y hxy => exact .rel _ _ (h x y hxy)
  | refl => exact .refl _
  | symm _ _ _ ih => exact .symm _ _ ih
  | trans _ _ _ _ _ i1 i2 => exact .trans _ _ _ i1 i2

theorem walk_mono {r s : Nat → Nat → Prop} (h : ∀ x y, r x y → s x y) {x y : Nat} (hr : Relation.ReflTransGen r x y) :
    Relation.ReflTransGen s x y := by
  induction hr with
  | refl => exact .refl
  | tail _ hxy ih => exact ih.tail (h _ _ hxy)

theorem walk_symm {r : Nat → Nat → Prop} (h : ∀ x y, r x y → r y x) {x y : Nat} (hr : Relation.ReflTransGen r x y) :
    Relation.ReflTransGen r y x := by
  induction hr with
  | refl => exact .refl
  | tail _ hxy ih => exact ih.head (h _ _ hxy)

variable {n : Nat} {m : Nat → Nat → W} {a pi : Nat → Nat}

theorem conn_of_keys (h : Run n m a pi) (M : W) : ∀ q p, p < q → q < n →
    (∀ s, p < s → s ≤ q → m (a (pi s)) (a s) ≤ M) → Conn n m a pi M (a p) (a q) := by
  intro q
  induction q using Nat.strong_induction_on with
  | _ q ih =>
    intro p hp hq hk
    have hr : pi q < q := h.pi_lt q (by omega) hq
    have hkq := hk q hp (le_refl _)
    have hedge : Conn n m a pi M (a (pi q)) (a q) := .rel _ _ ⟨q, by omega, hq, rfl, rfl, hkq⟩
    rcases Nat.lt_trichotomy (pi q) p with c | c | c
    · -- the parent is older than p
      refine .trans _ _ _ (.symm _ _ (ih p hp (pi q) c (by omega) ?_)) hedge
      intro s hs1 hs2
      exact (h.cheapest s (by omega) (by omega) (pi q) q hs1 (by omega) hq).trans hkq
    · rw [← c]; exact hedge
    · refine .trans _ _ _ (ih (pi q) hr p c (by omega) ?_) hedge
      intro s hs1 hs2
      exact hk s hs1 (by omega)

theorem conn_of_pair (h : Run n m a pi) {M : W} {p q : Nat} (hpq : p < q) (hq : q < n) (hm : m (a p) (a q) ≤ M) :
    Conn n m a pi M (a p) (a q) :=
  conn_of_keys h M q p hpq hq (fun s h1 h2 => (h.cheapest s (by omega) (by omega) p q h1 h2 hq).trans hm)

/-- Below every threshold the tree connects what the complete graph connects. -/
theorem conn_iff_reachable (h : Run n m a pi) (hsym : ∀ i j, m i j = m j i) (M : W) (u v : Nat) :
    Conn n m a pi M u v ↔ Spec.Reachable n m M u v := by
  constructor
  · intro hc
    refine eqv_mono ?_ hc
    rintro x y ⟨t, h0, ht, rfl, rfl, hm⟩
    have hp := h.pi_lt t h0 ht
    refine ⟨h.lt _ (by omega), h.lt _ ht, ?_, hm⟩
    intro e
    have := h.inj _ _ (by omega) ht e
    omega
  · intro hr
    induction hr with
    | rel x y hxy =>
      obtain ⟨hx, hy, hne, hm⟩ := hxy
      obtain ⟨p, hp, rfl⟩ := h.surj x hx
      obtain ⟨q, hq, rfl⟩ := h.surj y hy
      rcases Nat.lt_trichotomy p q with c | c | c
      · exact conn_of_pair h c hq hm
      · subst c; exact absurd rfl hne
      · exact .symm _ _ (conn_of_pair h c hp (by rw [hsym]; exact hm))
    | refl x => exact .refl _
    | symm _ _ _ ih => exact .symm _ _ ih
    | trans _ _ _ _ _ i1 i2 => exact .trans _ _ _ i1 i2

/-- Walks as symmetric closures. -/
theorem eqvGen_iff_walk {r : Nat → Nat → Prop} {x y : Nat} :
    Relation.EqvGen r x y ↔ Relation.ReflTransGen (fun c d => r c d ∨ r d c) x y := by
  constructor
  · intro h
    induction h with
    | rel x y h => exact .single (.inl h)
    | refl => exact .refl
    | symm x y _ ih =>
      exact walk_symm (fun _ _ h => h.symm) ih
    | trans _ _ _ _ _ i1 i2 => exact i1.trans i2
  · intro h
    induction h with
    | refl => exact .refl _
    | tail _ h ih =>
      refine .trans _ _ _ ih ?_
      rcases h with h | h
      · exact .rel _ _ h
      · exact .symm _ _ (.rel _ _ h)

/-- The last edge by which a walk from inside `S` leaves `S`. -/
theorem last_crossing {r : Nat → Nat → Prop} (S : Nat → Prop) {x y : Nat} (h : Relation.ReflTransGen r x y) (hx : S x) :
    ¬ S y → ∃ u v, S u ∧ ¬ S v ∧ r u v ∧ Relation.ReflTransGen (fun c d => r c d ∧ ¬ S c ∧ ¬ S d) v y := by
  induction h with
  | refl => intro hy; exact absurd hx hy
  | @tail b c _ hbc ih =>
    intro hc
    by_cases hb : S b
    · exact ⟨b, c, hb, hc, hbc, .refl⟩
    · obtain ⟨u, v, hu, hv, huv, hw⟩ := ih hb
      exact ⟨u, v, hu, hv, huv, hw.tail ⟨hbc, hb, hc⟩⟩

/-- The first `k` tree edges. -/
def treeEdges (a pi : Nat → Nat) (k : Nat) : List (Nat × Nat) := (List.range' 1 k).map (fun t => (a (pi t), a t))

theorem mem_treeEdges {a pi : Nat → Nat} {k : Nat} {e : Nat × Nat} :
    e ∈ treeEdges a pi k ↔ ∃ t, 0 < t ∧ t ≤ k ∧ e = (a (pi t), a t) := by
  simp only [treeEdges, List.mem_map, List.mem_range'_1]
  constructor
  · rintro ⟨t, ht, rfl⟩; exact ⟨t, by omega, by omega, rfl⟩
  · rintro ⟨t, h1, h2, rfl⟩; exact ⟨t, by omega, rfl⟩

/-- The attached points are connected by the tree edges attached so far. -/
theorem tree_connected (h : Run n m a pi) : ∀ t, t < n → Relation.EqvGen (fun x y => (x, y) ∈ treeEdges a pi t) (a 0) (a t) := by
  have key : ∀ t, t < n → ∀ k, t ≤ k → Relation.EqvGen (fun x y => (x, y) ∈ treeEdges a pi k) (a 0) (a t) := by
    intro t
    induction t using Nat.strong_induction_on with
    | _ t ih =>
      intro ht k hk
      by_cases h0 : t = 0
      · subst h0; exact .refl _
      · have hp := h.pi_lt t (by omega) ht
        exact .trans _ _ _ (ih (pi t) hp (by omega) k (by omega))
          (.rel _ _ (mem_treeEdges.mpr ⟨t, by omega, hk, rfl⟩))
  exact fun t ht => key t ht t (le_refl _)

theorem tree_connected' (h : Run n m a pi) {s k : Nat} (hs : s ≤ k) (hk : k < n) :
    Relation.EqvGen (fun x y => (x, y) ∈ treeEdges a pi k) (a 0) (a s) := by
  refine eqv_mono ?_ (tree_connected h s (by omega))
  intro x y hxy
  obtain ⟨t, h1, h2, h3⟩ := mem_treeEdges.mp hxy
  exact mem_treeEdges.mpr ⟨t, h1, by omega, h3⟩

theorem tree_spans (h : Run n m a pi) : Spec.Spans n (treeEdges a pi (n - 1)) := by
  intro u v hu hv
  obtain ⟨p, hp, rfl⟩ := h.surj u hu
  obtain ⟨q, hq, rfl⟩ := h.surj v hv
  exact .trans _ _ _ (.symm _ _ (tree_connected' h (by omega) (by omega))) (tree_connected' h (by omega) (by omega))

/-- Exchange step: in a spanning edge set that contains the first `t` tree edges, the next tree edge replaces an edge that is
    not cheaper. -/
theorem exchange (h : Run n m a pi) (hsym : ∀ i j, m i j = m j i) {t : Nat} (ht : t + 1 < n) {R : List (Nat × Nat)}
    (hR : ∀ e ∈ R, e.1 < n ∧ e.2 < n) (hs : Spec.Spans n (treeEdges a pi t ++ R)) :
    ∃ f ∈ R, m (a (pi (t + 1))) (a (t + 1)) ≤ m f.1 f.2 ∧ Spec.Spans n (treeEdges a pi (t + 1) ++ R.erase f) := by
  let S : Nat → Prop := fun x => ∃ s, s ≤ t ∧ a s = x
  have hp := h.pi_lt (t + 1) (by omega) ht
  have hSp : S (a (pi (t + 1))) := ⟨pi (t + 1), by omega, rfl⟩
  have hSa : ¬ S (a (t + 1)) := by
    rintro ⟨s, h1, h2⟩
    have := h.inj _ _ (by omega) ht h2
    omega
  have hw := eqvGen_iff_walk.mp (hs (a (pi (t + 1))) (a (t + 1)) (h.lt _ (by omega)) (h.lt _ ht))
  obtain ⟨u, v, hu, hv, huv, hrest⟩ := last_crossing S hw hSp hSa
  -- no tree edge so far crosses the cut
  have hcross : ∀ e ∈ treeEdges a pi t, S e.1 ∧ S e.2 := by
    intro e he
    obtain ⟨s, h1, h2, rfl⟩ := mem_treeEdges.mp he
    have := h.pi_lt s h1 (by omega)
    exact ⟨⟨pi s, by omega, rfl⟩, ⟨s, h2, rfl⟩⟩
  have hf : ∃ f ∈ R, (f = (u, v) ∨ f = (v, u)) := by
    rcases huv with huv | huv
    · rcases List.mem_append.mp huv with hm | hm
      · exact absurd (hcross _ hm).2 hv
      · exact ⟨_, hm, .inl rfl⟩
    · rcases List.mem_append.mp huv with hm | hm
      · exact absurd (hcross _ hm).1 hv
      · exact ⟨_, hm, .inr rfl⟩
  obtain ⟨f, hfR, hfuv⟩ := hf
  have hvn : v < n := by
    rcases hfuv with rfl | rfl
    · exact (hR _ hfR).2
    · exact (hR _ hfR).1
  refine ⟨f, hfR, ?_, ?_⟩
  · have hle : m (a (pi (t + 1))) (a (t + 1)) ≤ m u v := by
      obtain ⟨s, h1, rfl⟩ := hu
      obtain ⟨q, hq, rfl⟩ := h.surj v hvn
      refine h.cheapest (t + 1) (by omega) ht s q (by omega) ?_ hq
      by_contra hc
      exact hv ⟨q, by omega, rfl⟩
    rcases hfuv with rfl | rfl
    · exact hle
    · rw [hsym v u]; exact hle
  · -- connectivity after the exchange
    let E' : List (Nat × Nat) := treeEdges a pi (t + 1) ++ R.erase f
    have hmono : ∀ e ∈ treeEdges a pi t, e ∈ E' := by
      intro e he
      obtain ⟨s, h1, h2, h3⟩ := mem_treeEdges.mp he
      exact List.mem_append_left _ (mem_treeEdges.mpr ⟨s, h1, by omega, h3⟩)
    have hkeep : ∀ e ∈ treeEdges a pi t ++ R, e ≠ f → e ∈ E' := by
      intro e he hne
      rcases List.mem_append.mp he with hm | hm
      · exact hmono e hm
      · exact List.mem_append_right _ ((List.mem_erase_of_ne hne).mpr hm)
    have hSconn : ∀ x, S x → Relation.EqvGen (fun c d => (c, d) ∈ E') (a 0) x := by
      rintro x ⟨s, h1, rfl⟩
      exact eqv_mono (fun c d hcd => hmono _ hcd) (tree_connected' h h1 (by omega))
    have hnew : Relation.EqvGen (fun c d => (c, d) ∈ E') (a (pi (t + 1))) (a (t + 1)) :=
      .rel _ _ (List.mem_append_left _ (mem_treeEdges.mpr ⟨t + 1, by omega, le_refl _, rfl⟩))
    have hva : Relation.EqvGen (fun c d => (c, d) ∈ E') v (a (t + 1)) := by
      rw [eqvGen_iff_walk]
      refine walk_mono ?_ hrest
      rintro c d ⟨hcd, hc, hd⟩
      have hu' : S u := hu
      rcases hcd with hcd | hcd
      · refine .inl (hkeep _ hcd ?_)
        rintro e
        rcases hfuv with rfl | rfl
        · simp only [Prod.mk.injEq] at e; exact hc (e.1 ▸ hu')
        · simp only [Prod.mk.injEq] at e; exact hd (e.2 ▸ hu')
      · refine .inr (hkeep _ hcd ?_)
        rintro e
        rcases hfuv with rfl | rfl
        · simp only [Prod.mk.injEq] at e; exact hd (e.1 ▸ hu')
        · simp only [Prod.mk.injEq] at e; exact hc (e.2 ▸ hu')
    have huv' : Relation.EqvGen (fun c d => (c, d) ∈ E') u v :=
      .trans _ _ _ (.symm _ _ (hSconn u hu)) (.trans _ _ _ (hSconn _ hSp) (.trans _ _ _ hnew (.symm _ _ hva)))
    intro x y hx hy
    have hxy := hs x y hx hy
    induction hxy with
    | rel c d hcd =>
      by_cases he : (c, d) = f
      · rcases hfuv with e | e
        · rw [e, Prod.mk.injEq] at he
          rw [he.1, he.2]; exact huv'
        · rw [e, Prod.mk.injEq] at he
          rw [he.1, he.2]; exact .symm _ _ huv'
      · exact .rel _ _ (hkeep _ hcd he)
    | refl => exact .refl _
    | symm c d _ ih => exact .symm _ _ (ih hy hx)
    | trans c d e h1 h2 i1 i2 =>
      by_cases hd : d < n
      · exact .trans _ _ _ (i1 hx hd) (i2 hd hy)
      · -- a point that is not below n cannot be reached
        exfalso
        have hlt : ∀ c d, Relation.EqvGen (fun x y => (x, y) ∈ treeEdges a pi t ++ R) c d → (c < n ↔ d < n) := by
          intro c d hcd
          induction hcd with
          | rel c d hcd =>
            have : c < n ∧ d < n := by
              rcases List.mem_append.mp hcd with hm | hm
              · obtain ⟨s, h1, h2, h3⟩ := mem_treeEdges.mp hm
                simp only [Prod.mk.injEq] at h3
                have := h.pi_lt s h1 (by omega)
                rw [h3.1, h3.2]
                exact ⟨h.lt _ (by omega), h.lt _ (by omega)⟩
              · exact hR _ hm
            tauto
          | refl => rfl
          | symm _ _ _ ih => exact ih.symm
          | trans _ _ _ _ _ i1 i2 => exact i1.trans i2
        exact hd ((hlt _ _ h1).mp hx)

/-- Any spanning set of edges contains, for every tree edge, its own edge that is not cheaper. -/
theorem dominated (h : Run n m a pi) (hsym : ∀ i j, m i j = m j i) {F : List (Nat × Nat)}
    (hF : ∀ e ∈ F, e.1 < n ∧ e.2 < n) (hs : Spec.Spans n F) : ∀ t, t + 1 ≤ n →
    ∃ fs R, (fs ++ R).Perm F ∧
      List.Forall₂ (fun (e f : Nat × Nat) => m e.1 e.2 ≤ m f.1 f.2) (treeEdges a pi t) fs ∧
      Spec.Spans n (treeEdges a pi t ++ R) := by
  intro t
  induction t with
  | zero => intro _; exact ⟨[], F, List.Perm.refl _, List.Forall₂.nil, hs⟩
  | succ t ih =>
    intro ht
    obtain ⟨fs, R, hp, hd, hsp⟩ := ih (by omega)
    obtain ⟨f, hfR, hle, hsp'⟩ := exchange h hsym (by omega)
      (fun e he => hF e (hp.mem_iff.mp (List.mem_append_right _ he))) hsp
    refine ⟨fs ++ [f], R.erase f, ?_, ?_, hsp'⟩
    · refine List.Perm.trans ?_ hp
      rw [List.append_assoc]
      exact List.Perm.append_left fs (by simpa using (List.perm_cons_erase hfR).symm)
    · have : treeEdges a pi (t + 1) = treeEdges a pi t ++ [(a (pi (t + 1)), a (t + 1))] := by
        simp [treeEdges, List.range'_concat, Nat.add_comm]
      rw [this]
      exact List.rel_append hd (List.Forall₂.cons hle List.Forall₂.nil)

end Verif.Prim
