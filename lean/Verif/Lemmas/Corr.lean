import Verif.Lemmas.Lowest
/-
Helper lemmas: two hierarchies whose levels connect corresponding points have corresponding clusters.
-/
namespace Verif.Corr
open Spec Relation Hier

/-- How labels develop from line to line. -/
structure Steps (n N : Nat) (lb : Nat → Nat → Nat) : Prop where
  one : ∀ u, u < n → lb 0 u = 1
  stop : ∀ s, N ≤ s → ∀ u, u < n → lb s u = 0
  mono : ∀ s u, u < n → s < N → lb (s + 1) u = lb s u ∨ (lb s u ≠ 0 ∧ (lb (s + 1) u = 0 ∨ ∀ s', s' ≤ s → ∀ q, q < n → lb s' q ≠ lb (s + 1) u))
  split : ∀ s u, u < n → s < N → lb (s + 1) u ≠ 0 → lb (s + 1) u ≠ lb s u →
    (∀ v, v < n → lb (s + 1) v ≠ lb s u) ∧ ∃ v, v < n ∧ lb s v = lb s u ∧ lb (s + 1) v ≠ 0 ∧ lb (s + 1) v ≠ lb (s + 1) u

/-- `σ` and `τ` are inverse to each other on the points. -/
structure Bij (n : Nat) (σ τ : Nat → Nat) : Prop where
  s : ∀ u, u < n → σ u < n
  t : ∀ u, u < n → τ u < n
  ts : ∀ u, u < n → τ (σ u) = u
  st : ∀ u, u < n → σ (τ u) = u

theorem Bij.symm {n : Nat} {σ τ : Nat → Nat} (h : Bij n σ τ) : Bij n τ σ := ⟨h.t, h.s, h.st, h.ts⟩

/-- The lines group the points alike. -/
structure Alike (n : Nat) (σ : Nat → Nat) (lb lb' : Nat → Nat → Nat) : Prop where
  zero : ∀ s u, u < n → (lb s u = 0 ↔ lb' s (σ u) = 0)
  same : ∀ s u v, u < n → v < n → (lb s u = lb s v ↔ lb' s (σ u) = lb' s (σ v))

theorem Alike.symm {n : Nat} {σ τ : Nat → Nat} {lb lb' : Nat → Nat → Nat} (b : Bij n σ τ) (h : Alike n σ lb lb') : Alike n τ lb' lb := by
  constructor
  · intro s u hu
    rw [h.zero s (τ u) (b.t u hu), b.st u hu]
  · intro s u v hu hv
    rw [h.same s (τ u) (τ v) (b.t u hu) (b.t v hv), b.st u hu, b.st v hv]

section
variable {n N : Nat} {σ τ : Nat → Nat} {lb lb' : Nat → Nat → Nat}

theorem Steps.eq_prev (h : Steps n N lb) {s t v : Nat} (hv : v < n) (ht : t < N) (hst : s ≤ t) {u : Nat} (hu : u < n) (h0 : lb (t + 1) v ≠ 0)
    (he : lb s u = lb (t + 1) v) : lb t v = lb (t + 1) v := by
  rcases h.mono t v hv ht with h1 | ⟨_, h1 | h1⟩
  · exact h1.symm
  · exact absurd h1 h0
  · exact absurd he (h1 s hst u hu)

/-- Points of one cluster belong to one cluster in the other hierarchy, also in different lines. -/
theorem carry (hs : Steps n N lb) (hs' : Steps n N lb') (b : Bij n σ τ) (al : Alike n σ lb lb') :
    ∀ (d s u v : Nat), u < n → v < n → lb s u ≠ 0 → lb s u = lb (s + d) v → lb' s (σ u) = lb' (s + d) (σ v)
  | 0, s, u, v, hu, hv, _, he => (al.same s u v hu hv).1 he
  | d + 1, s, u, v, hu, hv, h0, he => by
    have hlt : s + d < N := by
      by_contra hn
      have := hs.stop (s + (d + 1)) (by omega) v hv
      rw [this] at he
      exact h0 he
    have h0' : lb (s + d + 1) v ≠ 0 := by
      intro hx
      rw [show s + (d + 1) = s + d + 1 by omega, hx] at he
      exact h0 he
    have hprev : lb (s + d) v = lb (s + d + 1) v := hs.eq_prev hv hlt (by omega : s ≤ s + d) hu h0' he
    have ih := carry hs hs' b al d s u v hu hv h0 (he.trans hprev.symm)
    rw [ih]
    by_contra hne
    have hsv := b.s v hv
    have h0s : lb' (s + d + 1) (σ v) ≠ 0 := fun hx => h0' ((al.zero _ v hv).2 hx)
    obtain ⟨_, x, hx, hx1, hx2, hx3⟩ := hs'.split (s + d) (σ v) hsv hlt h0s (fun h => hne h.symm)
    have hy := b.t x hx
    have e : σ (τ x) = x := b.st x hx
    have y1 : lb (s + d) (τ x) = lb (s + d) v := (al.same _ _ _ hy hv).2 (by rw [e]; exact hx1)
    have y2 : lb (s + d + 1) (τ x) ≠ 0 := fun h => hx2 (by have := (al.zero _ _ hy).1 h; rwa [e] at this)
    have y3 : lb (s + d + 1) (τ x) ≠ lb (s + d + 1) v := fun h => hx3 (by have := (al.same _ _ _ hy hv).1 h; rwa [e] at this)
    have y4 : lb (s + d + 1) (τ x) ≠ lb (s + d) (τ x) := by rw [y1, hprev]; exact y3
    have := (hs.split (s + d) (τ x) hy hlt y2 y4).1 v hv
    rw [y1, hprev] at this
    exact this rfl

theorem carry' (hs : Steps n N lb) (hs' : Steps n N lb') (b : Bij n σ τ) (al : Alike n σ lb lb') {s t u v : Nat} (hu : u < n) (hv : v < n) (h0 : lb s u ≠ 0)
    (he : lb s u = lb t v) : lb' s (σ u) = lb' t (σ v) := by
  rcases Nat.le_total s t with h | h
  · have := carry hs hs' b al (t - s) s u v hu hv h0
    rw [show s + (t - s) = t by omega] at this
    exact this he
  · have := carry hs hs' b al (s - t) t v u hv hu (by rw [← he]; exact h0)
    rw [show t + (s - t) = s by omega] at this
    exact (this he.symm).symm

/-- A renaming of the clusters. -/
theorem rename (hs : Steps n N lb) (hs' : Steps n N lb') (b : Bij n σ τ) (al : Alike n σ lb lb') :
    ∃ φ : Nat → Nat, φ 0 = 0 ∧ (∀ s u, u < n → lb' s (σ u) = φ (lb s u)) ∧
      (∀ s u t v, u < n → v < n → φ (lb s u) = φ (lb t v) → lb s u = lb t v) := by
  classical
  have hz : ∀ s u, u < n → lb s u = 0 → lb' s (σ u) = 0 := fun s u hu h => (al.zero s u hu).1 h
  refine ⟨fun l => if h : l ≠ 0 ∧ ∃ s u, u < n ∧ lb s u = l then lb' h.2.choose (σ h.2.choose_spec.choose) else 0, by simp, ?_, ?_⟩
  · intro s u hu
    by_cases h0 : lb s u = 0
    · simp [h0, hz s u hu h0]
    · have hx : lb s u ≠ 0 ∧ ∃ s' u', u' < n ∧ lb s' u' = lb s u := ⟨h0, s, u, hu, rfl⟩
      simp only [dif_pos hx]
      have hc := hx.2.choose_spec.choose_spec
      exact carry' hs hs' b al hu hc.1 h0 hc.2.symm
  · have key : ∀ s u, u < n → (if h : lb s u ≠ 0 ∧ ∃ s' u', u' < n ∧ lb s' u' = lb s u then lb' h.2.choose (σ h.2.choose_spec.choose) else 0) = lb' s (σ u) := by
      intro s u hu
      by_cases h0 : lb s u = 0
      · simp [h0, hz s u hu h0]
      · have hx : lb s u ≠ 0 ∧ ∃ s' u', u' < n ∧ lb s' u' = lb s u := ⟨h0, s, u, hu, rfl⟩
        rw [dif_pos hx]
        have hc := hx.2.choose_spec.choose_spec
        exact (carry' hs hs' b al hu hc.1 h0 hc.2.symm).symm
    intro s u t v hu hv he
    have he' : lb' s (σ u) = lb' t (σ v) := by
      rw [← key s u hu, ← key t v hv]; exact he
    by_cases h0 : lb s u = 0
    · rw [hz s u hu h0] at he'
      rw [h0, (al.zero t v hv).2 he'.symm]
    · have := carry' hs' hs b.symm (al.symm b) (b.s u hu) (b.s v hv) (fun hx => h0 ((al.zero s u hu).2 hx)) he'
      rwa [b.ts u hu, b.ts v hv] at this

end

/-- The lines of a hierarchy develop like this. -/
theorem steps_of {W S : Type} [LinearOrder W] {ar : Arith W S} {n m M : Nat} {f : Nat → Nat × Nat × W} {res : Result W S} {hist : List (W × (Nat → Nat))}
    {cur : Nat → Nat} {noise : Nat → Option W} {last : Nat → Option Nat} (h : Obs ar n m M f res hist cur noise last) : Steps n hist.length (lab hist cur) := by
  refine ⟨h.bk.one, fun s hs u hu => by rw [lab_end hs]; exact h.zero u hu, h.bk.mono, ?_⟩
  intro s u hu hs h0 hne
  have hnew : ∀ s', s' ≤ s → ∀ q, q < n → lab hist cur s' q ≠ lab hist cur (s + 1) u := by
    rcases h.bk.mono s u hu hs with h1 | ⟨_, h1 | h1⟩
    · exact absurd h1 hne
    · exact absurd h1 h0
    · exact h1
  have hl1 : lab hist cur (s + 1) u ≠ 1 := fun hx => hnew 0 (by omega) u hu (by rw [hx]; exact h.bk.one u hu)
  obtain ⟨c, hc, _⟩ := h.bk.cl _ (by omega : 1 ≤ lab hist cur (s + 1) u) (h.bk.lt (s + 1) u hu)
  obtain ⟨q, s0, w, g, b1, b2, b3, b4, b5, b6, b7, b8, b9, ⟨p, b10, b11⟩, b12⟩ := h.birth hl1 hc
  have hs0 : s0 = s := by
    rcases Nat.lt_trichotomy s0 s with hlt | heq | hgt
    · exact absurd b11 (hnew (s0 + 1) (by omega) p b10)
    · exact heq
    · exact absurd rfl (b12 (s + 1) (by omega) u hu)
  subst hs0
  have hq : lab hist cur s0 u = q := by rw [lab_get b1]; exact b8 u hu rfl
  obtain ⟨cq, c1, c2, c3, l', c', c4, c5, c6⟩ := h.spl _ c q hc b2
  obtain ⟨sd, gd, d1, d2, d3⟩ := Sel.death_at h.toBase c1
  rw [b5, Option.some.injEq] at c3
  have hat : ∀ {t g'}, hist[t]? = some (cq.death, g') → t = s0 := by
    intro t g' ht
    rcases Nat.lt_trichotomy t s0 with hlt | heq | hgt
    · have := Sel.hist_lt h.toBase ht b1 hlt
      rw [c3] at this; exact absurd this (lt_irrefl _)
    · exact heq
    · have := Sel.hist_lt h.toBase b1 ht hgt
      rw [c3] at this; exact absurd this (lt_irrefl _)
  have hsd := hat d1
  subst hsd
  refine ⟨fun v hv hx => ?_, ?_⟩
  · rw [hq] at hx
    have := d3 _ v hv hx
    omega
  · have hl' : l' ≠ 1 := fun hl => by
      have := ((h.bk.get c5).2.2.root hl).2
      rw [c6] at this
      simp at this
    obtain ⟨q2, s2, w2, g2, e1, e2, e3, e4, e5, e6, e7, e8, e9, ⟨v, e10, e11⟩, e12⟩ := h.birth hl' c5
    have hqq : q2 = q := by rw [c6] at e2; simpa using e2.symm
    subst hqq
    obtain ⟨cq2, f1, _, f3, _⟩ := h.spl _ c' q2 c5 c6
    rw [c1, Option.some.injEq, Option.some.injEq] at f1
    rw [e5, Option.some.injEq, ← f1] at f3
    rw [f3] at e1
    have hs2 := hat e1
    subst hs2
    refine ⟨v, e10, ?_, by rw [e11]; omega, by rw [e11]; exact c4⟩
    rw [hq, lab_get e1]
    exact e8 v e10 e11

/-! ### Lines -/

section
variable {W S S' : Type} [LinearOrder W]

/-- Connected by edges of at most weight `w`. -/
def Conn (M : Nat) (f : Nat → Nat × Nat × W) (w : W) (u v : Nat) : Prop := ConnectedBy ((List.range M).map f) w u v

/-- The admissible edge lists. -/
structure Inp (n M : Nat) (f : Nat → Nat × Nat × W) : Prop where
  ec : EC n M f
  span : ∀ u v, u < n → v < n → RK f M u v

/-- At least `m` points are connected with `u`. -/
def Big (M : Nat) (f : Nat → Nat × Nat × W) (w : W) (m u : Nat) : Prop := ∃ l : List Nat, l.Nodup ∧ m ≤ l.length ∧ ∀ v ∈ l, Conn M f w u v

/-- An edge of weight `w` is connected with `u`. -/
def Touch (M : Nat) (f : Nat → Nat × Nat × W) (w : W) (u : Nat) : Prop := ∃ i, i < M ∧ (f i).2.2 = w ∧ Conn M f w u (f i).1

/-- Two edge lists which connect corresponding points at corresponding levels. -/
structure Twin (n M M' : Nat) (f f' : Nat → Nat × Nat × W) (σ τ : Nat → Nat) (ψ : W → W) : Prop where
  b : Bij n σ τ
  mono : StrictMono ψ
  conn : ∀ w u v, u < n → v < n → (Conn M f w u v ↔ Conn M' f' (ψ w) (σ u) (σ v))
  touch : ∀ w u, u < n → (Touch M f w u ↔ Touch M' f' (ψ w) (σ u))
  range : ∀ i, i < M' → ∃ w, (f' i).2.2 = ψ w

theorem Conn.symm {M : Nat} {f : Nat → Nat × Nat × W} {w : W} {u v : Nat} (h : Conn M f w u v) : Conn M f w v u := EqvGen.symm _ _ h
theorem Conn.trans {M : Nat} {f : Nat → Nat × Nat × W} {w : W} {u v x : Nat} (h : Conn M f w u v) (h' : Conn M f w v x) : Conn M f w u x := EqvGen.trans _ _ _ h h'

theorem Inp.conn_lt {n M : Nat} {f : Nat → Nat × Nat × W} (h : Inp n M f) {w : W} {u v : Nat} (hc : Conn M f w u v) : u < n ↔ v < n := by
  induction hc with
  | rel x y hxy =>
    obtain ⟨z, hz, _⟩ := hxy
    obtain ⟨i, hi, he⟩ := List.mem_map.1 hz
    have := h.ec.lt i (List.mem_range.1 hi)
    rw [he] at this
    simp only at this
    constructor <;> intro _ <;> omega
  | refl => exact Iff.rfl
  | symm _ _ _ ih => exact ih.symm
  | trans _ _ _ _ _ i1 i2 => exact i1.trans i2

theorem vk_iff {M m k : Nat} {f : Nat → Nat × Nat × W} {w : W} (hm : 2 ≤ m) (hk : k ≤ M) (hw : ∀ i, i < M → (i < k ↔ (f i).2.2 ≤ w)) (u : Nat) :
    VK f k m u ↔ Big M f w m u := by
  constructor
  · rintro ⟨⟨l, h1, h2, h3⟩, _⟩
    exact ⟨l, h1, h2, fun v hv => (rk_iff hk hw u v).1 (h3 v hv)⟩
  · rintro ⟨l, h1, h2, h3⟩
    refine ⟨⟨l, h1, h2, fun v hv => (rk_iff hk hw u v).2 (h3 v hv)⟩, ?_⟩
    have hex : ∃ v ∈ l, v ≠ u := by
      by_contra hn
      push Not at hn
      have := List.nodup_iff_count_le_one.1 h1 u
      have h4 : l = List.replicate l.length u := List.eq_replicate_iff.2 ⟨rfl, hn⟩
      rw [h4, List.count_replicate_self] at this
      omega
    obtain ⟨v, hv, hvu⟩ := hex
    rcases ReflTransGen.cases_head ((rk_iff hk hw u v).2 (h3 v hv)) with he | ⟨x, hx, _⟩
    · exact absurd he.symm hvu
    · exact ⟨u, x, .refl, hx⟩

theorem Inp.nonzero {n M m k : Nat} {f : Nat → Nat × Nat × W} (hi : Inp n M f) (hm : 2 ≤ m) (hmn : m ≤ n) {h : W × (Nat → Nat)} (hk : LineK n m M f h k) {u : Nat} (hu : u < n) :
    h.2 u ≠ 0 ↔ Big M f h.1 m u := by
  rw [← vk_iff hm hk.le hk.wt u]
  by_cases hkM : k = M
  · have hv : VK f k m u := by
      rw [hkM]
      have hk' := hk.wt
      rw [hkM] at hk'
      rw [vk_iff hm (le_refl _) hk' u]
      exact ⟨List.range n, List.nodup_range, by simpa using hmn, fun v hv => (rk_iff (le_refl _) hk' u v).1 (hi.span u v hu (List.mem_range.1 hv))⟩
    exact ⟨fun _ => hv, fun _ h0 => hk.zero u hu h0 hv⟩
  · exact ⟨hk.valid hkM u hu, fun hv h0 => hk.zero u hu h0 hv⟩

theorem Big.of_conn {M m : Nat} {f : Nat → Nat × Nat × W} {w : W} {u v : Nat} (h : Big M f w m u) (hc : Conn M f w u v) : Big M f w m v := by
  obtain ⟨l, h1, h2, h3⟩ := h
  exact ⟨l, h1, h2, fun x hx => hc.symm.trans (h3 x hx)⟩

/-- Which levels have a line. -/
theorem line_iff {ar : Arith W S} {n m M : Nat} {f : Nat → Nat × Nat × W} {res : Result W S} {hist : List (W × (Nat → Nat))} {cur : Nat → Nat} {noise : Nat → Option W}
    {last : Nat → Option Nat} (h : Obs ar n m M f res hist cur noise last) (hi : Inp n M f) (hm : 2 ≤ m) (hmn : m ≤ n) (w : W) :
    w ∈ hist.map (·.1) ↔ ∃ u, u < n ∧ Big M f w m u ∧ Touch M f w u := by
  constructor
  · intro hw
    obtain ⟨x, hx, rfl⟩ := List.mem_map.1 hw
    obtain ⟨k, hk⟩ := h.line x hx
    obtain ⟨i, h1, h2, h3⟩ := hk.hit
    have hlt := (hi.ec.lt i h1).1
    exact ⟨(f i).1, hlt, (hi.nonzero hm hmn hk hlt).1 h3, i, h1, h2, .refl _⟩
  · rintro ⟨u, hu, hb, i, h1, h2, h3⟩
    rcases h.full i h1 with ⟨x, hx, he⟩ | ⟨k, hk, hw, hv⟩
    · exact List.mem_map.2 ⟨x, hx, by rw [he, h2]⟩
    · refine absurd ((vk_iff hm hk hw _).2 ?_) hv
      rw [h2]
      exact hb.of_conn h3

theorem Twin.big {n M M' m : Nat} {f f' : Nat → Nat × Nat × W} {σ τ : Nat → Nat} {ψ : W → W} (t : Twin n M M' f f' σ τ ψ) (hi : Inp n M f) (hi' : Inp n M' f')
    (w : W) {u : Nat} (hu : u < n) : Big M f w m u ↔ Big M' f' (ψ w) m (σ u) := by
  constructor
  · rintro ⟨l, h1, h2, h3⟩
    have hlt : ∀ v ∈ l, v < n := fun v hv => (hi.conn_lt (h3 v hv)).1 hu
    refine ⟨l.map σ, ?_, by simpa using h2, ?_⟩
    · refine List.Nodup.map_on ?_ h1
      intro x hx y hy he
      rw [← t.b.ts x (hlt x hx), ← t.b.ts y (hlt y hy), he]
    · intro v hv
      obtain ⟨x, hx, rfl⟩ := List.mem_map.1 hv
      exact (t.conn w u x hu (hlt x hx)).1 (h3 x hx)
  · rintro ⟨l, h1, h2, h3⟩
    have hlt : ∀ v ∈ l, v < n := fun v hv => (hi'.conn_lt (h3 v hv)).1 (t.b.s u hu)
    refine ⟨l.map τ, ?_, by simpa using h2, ?_⟩
    · refine List.Nodup.map_on ?_ h1
      intro x hx y hy he
      rw [← t.b.st x (hlt x hx), ← t.b.st y (hlt y hy), he]
    · intro v hv
      obtain ⟨x, hx, rfl⟩ := List.mem_map.1 hv
      have := t.b.st x (hlt x hx)
      exact (t.conn w u (τ x) hu (t.b.t x (hlt x hx))).2 (by rw [this]; exact h3 x hx)

variable {ar : Arith W S} {ar' : Arith W S'} {n m M M' : Nat} {f f' : Nat → Nat × Nat × W} {res : Result W S} {res' : Result W S'} {hist hist' : List (W × (Nat → Nat))}
  {cur cur' : Nat → Nat} {noise noise' : Nat → Option W} {last last' : Nat → Option Nat} {σ τ : Nat → Nat} {ψ : W → W}

theorem twin_weights (h : Obs ar n m M f res hist cur noise last) (h' : Obs ar' n m M' f' res' hist' cur' noise' last') (hi : Inp n M f) (hi' : Inp n M' f')
    (hm : 2 ≤ m) (hmn : m ≤ n) (t : Twin n M M' f f' σ τ ψ) : hist'.map (·.1) = (hist.map (·.1)).map ψ := by
  have hp : ((hist.map (·.1)).map ψ).Pairwise (· > ·) := by
    rw [List.pairwise_map]
    exact h.ord.imp fun hab => t.mono hab
  have hmem : ∀ x, x ∈ hist'.map (·.1) ↔ x ∈ (hist.map (·.1)).map ψ := by
    intro x
    rw [line_iff h' hi' hm hmn, List.mem_map]
    constructor
    · rintro ⟨u, hu, hb, ht⟩
      obtain ⟨i, h1, h2, h3⟩ := ht
      obtain ⟨w, hw⟩ := t.range i h1
      have hx : ψ w = x := by rw [← hw, h2]
      subst hx
      refine ⟨w, (line_iff h hi hm hmn w).2 ⟨τ u, t.b.t u hu, ?_, ?_⟩, rfl⟩
      · rw [t.big hi hi' w (t.b.t u hu), t.b.st u hu]; exact hb
      · rw [t.touch w _ (t.b.t u hu), t.b.st u hu]; exact ⟨i, h1, h2, h3⟩
    · rintro ⟨w, hw, rfl⟩
      obtain ⟨u, hu, hb, ht⟩ := (line_iff h hi hm hmn w).1 hw
      exact ⟨σ u, t.b.s u hu, (t.big hi hi' w hu).1 hb, (t.touch w u hu).1 ht⟩
  have hperm : (hist'.map (·.1)).Perm ((hist.map (·.1)).map ψ) := by
    rw [List.perm_ext_iff_of_nodup]
    · exact hmem
    · exact h'.ord.imp fun hab => hab.ne'
    · exact hp.imp fun hab => hab.ne'
  exact hperm.eq_of_pairwise (fun a b _ _ h1 h2 => absurd h1 (lt_asymm h2)) h'.ord hp

theorem twin_line (h : Obs ar n m M f res hist cur noise last) (h' : Obs ar' n m M' f' res' hist' cur' noise' last') (hi : Inp n M f) (hi' : Inp n M' f')
    (hm : 2 ≤ m) (hmn : m ≤ n) (t : Twin n M M' f f' σ τ ψ) {s : Nat} {w : W} {g : Nat → Nat} (hs : hist[s]? = some (w, g)) : ∃ g', hist'[s]? = some (ψ w, g') := by
  have e := congrArg (·[s]?) (twin_weights h h' hi hi' hm hmn t)
  simp only [List.getElem?_map, hs, Option.map_some] at e
  cases he : hist'[s]? with
  | none => rw [he] at e; simp at e
  | some x =>
    rw [he] at e
    simp only [Option.map_some, Option.some.injEq] at e
    exact ⟨x.2, by rw [← e]⟩

theorem twin_length (h : Obs ar n m M f res hist cur noise last) (h' : Obs ar' n m M' f' res' hist' cur' noise' last') (hi : Inp n M f) (hi' : Inp n M' f')
    (hm : 2 ≤ m) (hmn : m ≤ n) (t : Twin n M M' f f' σ τ ψ) : hist'.length = hist.length := by
  simpa using congrArg List.length (twin_weights h h' hi hi' hm hmn t)

theorem twin_alike (h : Obs ar n m M f res hist cur noise last) (h' : Obs ar' n m M' f' res' hist' cur' noise' last') (hi : Inp n M f) (hi' : Inp n M' f')
    (hm : 2 ≤ m) (hmn : m ≤ n) (t : Twin n M M' f f' σ τ ψ) : Alike n σ (lab hist cur) (lab hist' cur') := by
  have hl := twin_length h h' hi hi' hm hmn t
  have zero : ∀ s u, u < n → (lab hist cur s u = 0 ↔ lab hist' cur' s (σ u) = 0) := by
    intro s u hu
    by_cases hs : s < hist.length
    · obtain ⟨⟨w, g⟩, hsg⟩ : ∃ x, hist[s]? = some x := ⟨_, List.getElem?_eq_getElem hs⟩
      obtain ⟨g', hsg'⟩ := twin_line h h' hi hi' hm hmn t hsg
      obtain ⟨k, hk⟩ := h.line _ (List.mem_of_getElem? hsg)
      obtain ⟨k', hk'⟩ := h'.line _ (List.mem_of_getElem? hsg')
      rw [lab_get hsg, lab_get hsg']
      have e1 := hi.nonzero hm hmn hk hu
      have e2 := hi'.nonzero hm hmn hk' (t.b.s u hu)
      rw [t.big hi hi' w hu] at e1
      have := e1.trans e2.symm
      constructor
      · intro h0; by_contra h1; exact this.2 h1 h0
      · intro h0; by_contra h1; exact this.1 h1 h0
    · rw [lab_end (by omega), lab_end (by omega), h.zero u hu, h'.zero _ (t.b.s u hu)]
  refine ⟨zero, ?_⟩
  intro s u v hu hv
  by_cases hs : s < hist.length
  · by_cases hu0 : lab hist cur s u = 0
    · by_cases hv0 : lab hist cur s v = 0
      · rw [hu0, hv0, (zero s u hu).1 hu0, (zero s v hv).1 hv0]
      · rw [hu0, (zero s u hu).1 hu0]
        exact ⟨fun he => absurd he.symm hv0, fun he => absurd ((zero s v hv).2 he.symm) hv0⟩
    · by_cases hv0 : lab hist cur s v = 0
      · rw [hv0, (zero s v hv).1 hv0]
        exact ⟨fun he => absurd he hu0, fun he => absurd ((zero s u hu).2 he) hu0⟩
      · have hu0' : lab hist' cur' s (σ u) ≠ 0 := fun hx => hu0 ((zero s u hu).2 hx)
        have hv0' : lab hist' cur' s (σ v) ≠ 0 := fun hx => hv0 ((zero s v hv).2 hx)
        obtain ⟨⟨w, g⟩, hsg⟩ : ∃ x, hist[s]? = some x := ⟨_, List.getElem?_eq_getElem hs⟩
        obtain ⟨g', hsg'⟩ := twin_line h h' hi hi' hm hmn t hsg
        obtain ⟨k, hk⟩ := h.line _ (List.mem_of_getElem? hsg)
        obtain ⟨k', hk'⟩ := h'.line _ (List.mem_of_getElem? hsg')
        rw [lab_get hsg] at hu0 hv0 ⊢
        rw [lab_get hsg'] at hu0' hv0' ⊢
        rw [hk.conn u v hu hv hu0 hv0, hk'.conn _ _ (t.b.s u hu) (t.b.s v hv) hu0' hv0', rk_iff hk.le hk.wt, rk_iff hk'.le hk'.wt]
        exact t.conn w u v hu hv
  · rw [lab_end (by omega), lab_end (by omega), h.zero u hu, h.zero v hv, h'.zero _ (t.b.s u hu), h'.zero _ (t.b.s v hv)]

end
end Verif.Corr
