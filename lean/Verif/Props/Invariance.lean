import Verif.Lemmas.Fresh
import Verif.Spec.Exact
import Mathlib.Tactic.IntervalCases
import Mathlib.Tactic.NormNum
/-
C59, C60: duplicate points, and data sets with the same distances.
-/
namespace Verif.Props
open Spec
variable {D D' W S T : Type}

/-! ### C59 -/

/-- Sums of squares with pairwise equal squares are equal. -/
theorem foldl_sq (ops : DistOps D W) : ∀ (ds es : List W) (s : W), ds.length = es.length → (∀ (k : Nat) d e, ds[k]? = some d → es[k]? = some e → ops.mul d d = ops.mul e e) →
    ds.foldl (fun s d => ops.add s (ops.mul d d)) s = es.foldl (fun s d => ops.add s (ops.mul d d)) s
  | [], [], _, _, _ => rfl
  | d :: ds, e :: es, s, hl, h => by
    rw [List.foldl_cons, List.foldl_cons, h 0 d e rfl rfl]
    exact foldl_sq ops ds es _ (by simpa using hl) (fun k => h (k + 1))

/-- The sum of squares does not depend on which of two equal rows is used, nor on the order of the rows. -/
theorem sqSum_congr {ops : DistOps D W} (ha : PlainArith ops) {data data' : List D} {cols i j i' j' : Nat} {s s' : W} (h : SqSum ops data cols i j s) (h' : SqSum ops data' cols i' j' s')
    (hij : (SameRow data data' cols i i' ∧ SameRow data data' cols j j') ∨ (SameRow data data' cols i j' ∧ SameRow data data' cols j i')) : s = s' := by
  obtain ⟨ds, h1, rfl, h2⟩ := h
  obtain ⟨es, h1', rfl, h2'⟩ := h'
  refine foldl_sq ops ds es _ (by omega) fun k d e hd he => ?_
  have hk : k < cols := by rw [← h1]; exact (List.getElem?_eq_some_iff.1 hd).1
  obtain ⟨a, b, ea, eb, hab⟩ := h2 k d hd
  obtain ⟨a', b', ea', eb', hab'⟩ := h2' k e he
  rcases hij with ⟨r1, r2⟩ | ⟨r1, r2⟩
  · rw [r1 k hk, ea'] at ea
    rw [r2 k hk, eb'] at eb
    cases ea; cases eb
    rw [hab] at hab'; cases hab'; rfl
  · rw [r1 k hk, eb'] at ea
    rw [r2 k hk, ea'] at eb
    cases ea; cases eb
    exact ha.swap _ _ _ _ hab hab'

/-- The distance of equal rows is zero. -/
theorem sqSum_same {ops : DistOps D W} (ha : PlainArith ops) {data : List D} {cols i j : Nat} {s : W} (h : SqSum ops data cols i j s) (hij : SameRow data data cols i j) : ops.sqrt s = ops.zero := by
  obtain ⟨ds, h1, rfl, h2⟩ := h
  have : ∀ d ∈ ds, d = ops.zero := by
    intro d hd
    obtain ⟨k, hk, e⟩ := List.mem_iff_getElem.1 hd
    obtain ⟨a, b, ea, eb, hab⟩ := h2 k d (by rw [List.getElem?_eq_getElem hk, e])
    rw [hij k (by omega), eb] at ea
    cases ea
    exact ha.self _ _ hab
  have hz : ∀ ds : List W, (∀ d ∈ ds, d = ops.zero) → ds.foldl (fun s d => ops.add s (ops.mul d d)) ops.zero = ops.zero := by
    intro ds
    induction ds with
    | nil => intro _; rfl
    | cons d ds ih =>
      intro h
      rw [List.foldl_cons, h d (by simp), ha.mul_zero, ha.add_zero]
      exact ih fun d hd => h d (by simp [hd])
  rw [hz _ this, ha.sqrt_zero]

/-- Distances from rows that hold the same values. -/
theorem distOf_congr [LinearOrder W] {env : Api.Env D W S T} {data data' : List D} {rows rows' cols : Nat} {f f' : Nat → Nat → W} (ha : PlainArith env.dops) (h : Supported env data rows cols f)
    (h' : Supported env data' rows' cols f') {i j i' j' : Nat} (hi : i < rows) (hj : j < rows) (hi' : i' < rows') (hj' : j' < rows') (h1 : SameRow data data' cols i i') (h2 : SameRow data data' cols j j')
    (h3 : i = j → SameRow data' data' cols i' j') (h4 : i' = j' → SameRow data data cols i j) : distOf env.dops f i j = distOf env.dops f' i' j' := by
  have flip : ∀ {a b : List D} {x y}, SameRow a b cols x y → SameRow b a cols y x := fun h k hk => (h k hk).symm
  unfold distOf
  rcases Nat.lt_trichotomy i j with a | a | a
  · rw [if_pos a]
    rcases Nat.lt_trichotomy i' j' with b | b | b
    · rw [if_pos b, sqSum_congr ha (h.sum i j a hj) (h'.sum i' j' b hj') (.inl ⟨h1, h2⟩)]
    · rw [if_neg (by omega), if_pos b]; exact sqSum_same ha (h.sum i j a hj) (h4 b)
    · rw [if_neg (by omega), if_neg (by omega), sqSum_congr ha (h.sum i j a hj) (h'.sum j' i' b hi') (.inr ⟨h1, h2⟩)]
  · rw [if_neg (by omega), if_pos a]
    rcases Nat.lt_trichotomy i' j' with b | b | b
    · rw [if_pos b]; exact (sqSum_same ha (h'.sum i' j' b hj') (h3 a)).symm
    · rw [if_neg (by omega), if_pos b]
    · rw [if_neg (by omega), if_neg (by omega)]; exact (sqSum_same ha (h'.sum j' i' b hi') (flip (h3 a))).symm
  · rw [if_neg (by omega), if_neg (by omega)]
    rcases Nat.lt_trichotomy i' j' with b | b | b
    · rw [if_pos b, sqSum_congr ha (h.sum j i a hi) (h'.sum i' j' b hj') (.inr ⟨h2, h1⟩)]
    · rw [if_neg (by omega), if_pos b]; exact sqSum_same ha (h.sum j i a hi) (flip (h4 b))
    · rw [if_neg (by omega), if_neg (by omega), sqSum_congr ha (h.sum j i a hi) (h'.sum j' i' b hi') (.inl ⟨h2, h1⟩)]

/-- The core distance of a point is determined by the distances from it. -/
theorem coreOf_eq [CCmp W] {zero dmax : W} {dis : Distance W} {p q : Nat} (h : ∀ j, j < dis.rows → dis.get zero p j = dis.get zero q j) :
    Distance.coreOf zero dmax dis p = Distance.coreOf zero dmax dis q := by
  have : ∀ (js : List Nat) (sd : List W), (∀ j ∈ js, j < dis.rows) → Distance.coreLoop zero dis p js sd = Distance.coreLoop zero dis q js sd := by
    intro js
    induction js with
    | nil => intro sd _; rfl
    | cons j r ih =>
      intro sd hj
      simp only [Distance.coreLoop, h j (hj j (by simp))]
      refine congrArg _ (funext fun t => congrArg _ (funext fun sd' => ih sd' fun j hj' => hj j (by simp [hj'])))
  unfold Distance.coreOf
  rw [this _ _ fun j hj => List.mem_range.1 hj]

/-- A point of a group of at least two has a core distance of at most the threshold. -/
theorem core_le_of_atLeast [LinearOrder W] {n m : Nat} (hm : 2 ≤ m) {d : Nat → Nat → W} {core : Nat → W} {w : W} {p : Nat}
    (h : AtLeast m (fun v => Reachable n (mutualReach d core) w p v)) : core p ≤ w := by
  obtain ⟨l, h1, h2, h3⟩ := h
  have : ∃ v ∈ l, v ≠ p := by
    by_contra hc
    push Not at hc
    have : l.length ≤ 1 := by
      match l, h1, hc with
      | [], _, _ => simp
      | [_], _, _ => simp
      | a :: b :: r, h1, hc =>
        have ha := hc a (by simp)
        have hb := hc b (by simp)
        rw [ha, hb] at h1
        simp at h1
    omega
  obtain ⟨v, hv, hne⟩ := this
  have key : ∀ u v, Reachable n (mutualReach d core) w u v → u ≠ v → core u ≤ w ∧ core v ≤ w := by
    intro u v h
    induction h with
    | rel a b h =>
      intro _
      have := h.2.2.2
      simp only [mutualReach, max_le_iff] at this
      exact ⟨this.1.2, this.2⟩
    | refl => intro h; exact absurd rfl h
    | symm a b _ ih => intro h; exact (ih (Ne.symm h)).symm
    | trans a b c _ _ ih1 ih2 =>
      intro h
      by_cases hab : a = b
      · subst hab; exact ih2 h
      · by_cases hbc : b = c
        · subst hbc; exact ih1 h
        · exact ⟨(ih1 hab).1, (ih2 hbc).2⟩
  exact (key p v (h3 v hv) (Ne.symm hne)).1

theorem atLeast_mono {m : Nat} {P Q : Nat → Prop} (h : ∀ v, P v → Q v) : AtLeast m P → AtLeast m Q :=
  fun ⟨l, h1, h2, h3⟩ => ⟨l, h1, h2, fun v hv => h v (h3 v hv)⟩

/-- **C59**. Two rows that hold the same values get the same core distance, the same label in every hierarchy line, the same final label and the same outlier score. -/
theorem C59_duplicates [LinearOrder W] [CCmp S] [LinearOrder T] (env : Api.Env D W S T) (hq : SortsAscending env.qsort) (ha : PlainArith env.dops) (data : List D) (rows cols : Nat)
    (f : Nat → Nat → W) (h : Supported env data rows cols f) (h5 : 5 ≤ rows) (m : Nat) (hm : 2 ≤ m) (hmr : m ≤ rows) (hz : ∀ w : W, env.ar.zeroW ≤ env.dops.sqrt w)
    (p q : Nat) (hp : p < rows) (hq' : q < rows) (hpq : SameRow data data cols p q) :
    ∃ obj : Api.Obj W S T, (∀ par, Complete rows rows par → Api.fresh env par m data rows cols true = .ok obj) ∧
      (∃ c, obj.dis.coreDistances[p]? = some (some c) ∧ obj.dis.coreDistances[q]? = some (some c)) ∧
      (∀ i w A, (i, w, A) ∈ obj.results.hierarchy → ∃ l, A[p]? = some l ∧ A[q]? = some l) ∧
      (∃ l, obj.results.labels[p]? = some l ∧ obj.results.labels[q]? = some l) ∧
      (∃ a ∈ obj.results.outliers, ∃ b ∈ obj.results.outliers, a.id = p ∧ b.id = q ∧ a.score = b.score) := by
  obtain ⟨obj, core, g, res, hf, r1, r2, hget, hcore, hmax, hgn, hin, hconn, hres, hhier, hfull⟩ := stages hq h h5 hm hmr
  have hfew := h.few
  obtain ⟨obj', core', hf', _, _, _, hc', hden, ⟨root, _, _, _, hll, hlab, _⟩, hids, _⟩ := C55_run_partial env hq data rows cols f h h5 m hm hmr
  have hseq : Complete rows rows ⟨Distance.pairs rows, List.range rows, seqSchedule, List.range rows⟩ := ⟨.refl _, .refl _, seqSchedule_complete, .refl _⟩
  have : obj' = obj := by
    have := hf' _ hseq
    rw [hf _ hseq] at this
    exact (Outcome.ok.inj this).symm
  subst this
  have hcc : ∀ i, i < rows → core' i = core i := fun i hi => by
    have := (hc' i hi).1
    rw [(hcore i hi).1] at this
    simpa using this.symm
  have same : ∀ {x}, SameRow data data cols x x := fun k _ => rfl
  have flip : SameRow data data cols q p := fun k hk => (hpq k hk).symm
  have hd : ∀ j, j < rows → distOf env.dops f p j = distOf env.dops f q j := fun j hj =>
    distOf_congr ha h h hp hj hq' hj hpq same (fun e => by subst e; exact flip) (fun e => by subst e; exact hpq)
  have hdz : distOf env.dops f p q = env.ar.zeroW := by
    rw [hd q hq', ← h.zero]; simp [distOf]
  have hcpq : core p = core q := by
    have := coreOf_eq (zero := env.dops.zero) (dmax := env.ar.dmax) (dis := obj'.dis) (p := p) (q := q) fun j hj => by
      rw [r1] at hj
      rw [hget p j hp hj, hget q j hq' hj, hd j hj]
    rw [(hcore p hp).2, (hcore q hq').2] at this
    exact Outcome.ok.inj this
  have hnn : ∀ i j, env.ar.zeroW ≤ distOf env.dops f i j := by
    intro i j
    unfold distOf
    split
    · exact hz _
    · split
      · exact h.zero.symm.le
      · exact hz _
  -- at every level the two points are connected to the same points, or both are alone
  have hR : ∀ w, core' p ≤ w → env.ar.zeroW ≤ w → Reachable rows (mutualReach (distOf env.dops f) core') w p q := by
    intro w h1 h0
    by_cases e : p = q
    · subst e; exact .refl _
    · refine .rel _ _ ⟨hp, hq', e, ?_⟩
      rw [hcc p hp] at h1
      simp only [mutualReach, hcc p hp, hcc q hq', hdz, max_le_iff]
      exact ⟨⟨h0, h1⟩, hcpq ▸ h1⟩
  have hpos : ∀ {w x}, AtLeast m (fun v => Reachable rows (mutualReach (distOf env.dops f) core') w x v) → env.ar.zeroW ≤ w := by
    intro w x ⟨l, h1, h2, h3⟩
    have key : ∀ u v, Reachable rows (mutualReach (distOf env.dops f) core') w u v → u ≠ v → env.ar.zeroW ≤ w := by
      intro u v h
      induction h with
      | rel a b h =>
        intro _
        have := h.2.2.2
        simp only [mutualReach, max_le_iff] at this
        exact (hnn a b).trans this.1.1
      | refl => intro h; exact absurd rfl h
      | symm a b _ ih => intro h; exact ih (Ne.symm h)
      | trans a b c _ _ ih1 ih2 =>
        intro h
        by_cases hab : a = b
        · subst hab; exact ih2 h
        · exact ih1 hab
    match l, h1, h2, h3 with
    | [], _, h2, _ => exact absurd h2 (by simp; omega)
    | [_], _, h2, _ => exact absurd h2 (by simp; omega)
    | a :: b :: r, h1, _, h3 =>
      have hab : a ≠ b := fun e => by subst e; simp at h1
      exact key a b (.trans _ _ _ (.symm _ _ (h3 a (by simp))) (h3 b (by simp))) hab
  have hAL : ∀ w, AtLeast m (fun v => Reachable rows (mutualReach (distOf env.dops f) core') w p v) ↔ AtLeast m (fun v => Reachable rows (mutualReach (distOf env.dops f) core') w q v) := by
    intro w
    constructor
    · intro hal
      have := hR w (core_le_of_atLeast hm hal) (hpos hal)
      exact atLeast_mono (fun v hv => .trans _ _ _ (.symm _ _ this) hv) hal
    · intro hal
      have h1 := core_le_of_atLeast hm hal
      rw [hcc q hq', ← hcpq, ← hcc p hp] at h1
      exact atLeast_mono (fun v hv => .trans _ _ _ (hR w h1 (hpos hal)) hv) hal
  obtain ⟨res', lines, e1, e2, hnum, _⟩ := C27_lines env.ar g m (by omega) (by rw [hgn]; omega) (by rw [hgn]; exact hin)
  rw [hres] at e1; cases e1
  have hlines : ∀ i w A, (i, w, A) ∈ obj'.results.hierarchy → ∃ l, A[p]? = some l ∧ A[q]? = some l := by
    intro i w A hA
    by_cases hi : i = 0
    · subst hi
      rw [← hhier, e2] at hA
      rcases List.mem_append.1 hA with hA | hA
      · have : 0 ∈ lines.map (·.1) := List.mem_map.2 ⟨_, hA, rfl⟩
        rw [hnum] at this
        simp at this
      · simp only [List.mem_singleton, Prod.mk.injEq] at hA
        rw [hA.2.2, hgn]
        exact ⟨0, by simp [hp], by simp [hq']⟩
    · obtain ⟨hl, h1, h2⟩ := hden i w A hA hi
      have ep : A[p]? = some A[p] := List.getElem?_eq_getElem (by omega)
      have eq : A[q]? = some A[q] := List.getElem?_eq_getElem (by omega)
      refine ⟨_, ep, ?_⟩
      rw [eq]
      by_cases h0 : A[p] = 0
      · have := (h2 p _ ep).1 h0
        rw [hAL] at this
        rw [h0, (h2 q _ eq).2 this]
      · have hal := (not_not.1 (mt (h2 p _ ep).2 h0))
        have h0' : A[q] ≠ 0 := fun e => (h2 q _ eq).1 e ((hAL w).1 hal)
        rw [(h1 p q _ _ ep eq h0 h0').2 (hR w (core_le_of_atLeast hm hal) (hpos hal))]
  have hcar : ∀ i l, Carries obj'.results.hierarchy i p l ↔ Carries obj'.results.hierarchy i q l := by
    intro i l
    constructor
    · rintro ⟨w, A, hA, e⟩
      obtain ⟨l', a, b⟩ := hlines i w A hA
      rw [a] at e; cases e
      exact ⟨w, A, hA, b⟩
    · rintro ⟨w, A, hA, e⟩
      obtain ⟨l', a, b⟩ := hlines i w A hA
      rw [b] at e; cases e
      exact ⟨w, A, hA, a⟩
  have huniq : ∀ i, 1 ≤ i → ∀ w A w' A', (i, w, A) ∈ obj'.results.hierarchy → (i, w', A') ∈ obj'.results.hierarchy → w = w' ∧ A = A' := by
    intro i hi w A w' A' ha hb
    rw [← hhier, e2] at ha hb
    have hin : ∀ {w A}, (i, w, A) ∈ lines ++ [(0, env.ar.zeroW, List.replicate g.numVertices 0)] → (i, w, A) ∈ lines := by
      intro w A hx
      rcases List.mem_append.1 hx with hx | hx
      · exact hx
      · simp only [List.mem_singleton, Prod.mk.injEq] at hx; omega
    have hnd : (lines.map (·.1)).Nodup := by rw [hnum]; exact List.nodup_range'
    have := List.inj_on_of_nodup_map hnd (hin ha) (hin hb) rfl
    simp only [Prod.mk.injEq, true_and] at this
    exact this
  refine ⟨obj', hf, ⟨core p, (hcore p hp).1, hcpq ▸ (hcore q hq').1⟩, hlines, ?_, ?_⟩
  · have ep : obj'.results.labels[p]? = some obj'.results.labels[p] := List.getElem?_eq_getElem (by omega)
    have eq : obj'.results.labels[q]? = some obj'.results.labels[q] := List.getElem?_eq_getElem (by omega)
    have hmb : ∀ l, MemberAtBirth obj'.results.hierarchy l p ↔ MemberAtBirth obj'.results.hierarchy l q := by
      intro l
      constructor
      · rintro ⟨i, h1, h2, h3⟩; exact ⟨i, h1, (hcar i l).1 h2, h3⟩
      · rintro ⟨i, h1, h2, h3⟩; exact ⟨i, h1, (hcar i l).2 h2, h3⟩
    refine ⟨_, ep, ?_⟩
    by_cases h0 : obj'.results.labels[p] = 0
    · by_cases h1 : obj'.results.labels[q] = 0
      · rw [eq, h0, h1]
      · obtain ⟨a, b⟩ := (hlab q _ h1).1 eq
        have := (hlab p _ h1).2 ⟨a, (hmb _).2 b⟩
        rw [eq, ← this, ep]
    · obtain ⟨a, b⟩ := (hlab p _ h0).1 ep
      exact (hlab q _ h0).2 ⟨a, (hmb _).1 b⟩
  · obtain ⟨out, o1, o2, _, o4⟩ := full_rep env.qsort env.ar env.smax env.oops m obj'.dis rows (distOf env.dops f) core hq (by omega) (by omega) (by omega)
      (fun i j a b _ => by rw [← h.zero]; exact hget i j a b) (distOf_symm _ _) (fun i hi => (hcore i hi).1) hmax
    have : out = obj'.results := by
      have := o1 seqSchedule (List.range rows) seqSchedule_complete (.refl _)
      rw [hfull _ _ seqSchedule_complete (.refl _)] at this
      exact (Outcome.ok.inj this).symm
    subst this
    have hmem : ∀ x, x < rows → ∃ a ∈ obj'.results.outliers, a.id = x := by
      intro x hx
      have : x ∈ obj'.results.outliers.map (·.id) := hids.mem_iff.2 (List.mem_range.2 hx)
      obtain ⟨a, h1, h2⟩ := List.mem_map.1 this
      exact ⟨a, h1, h2⟩
    obtain ⟨a, ha1, ha2⟩ := hmem p hp
    obtain ⟨b, hb1, hb2⟩ := hmem q hq'
    refine ⟨a, ha1, b, hb1, ha2, hb2, ?_⟩
    obtain ⟨_, _, eps, l, c, _, _, hc1, _, ⟨i, i1, i2, i3, i4, i5⟩, hs, _⟩ := o4 a ha1
    obtain ⟨_, _, eps', l', c', _, _, hc2, _, ⟨i', i1', i2', i3', i4', i5'⟩, hs', _⟩ := o4 b hb1
    rw [ha2] at i3 i5
    rw [hb2] at i3' i5'
    have hii : i = i' := by
      rcases Nat.lt_trichotomy i i' with h | h | h
      · exact absurd (i5 i' _ h ((hcar _ _).2 i3')) i2'
      · exact h
      · exact absurd (i5' i _ h ((hcar _ _).1 i3)) i2
    subst hii
    obtain ⟨w1, A1, m1, n1⟩ := (hcar _ _).1 i3
    obtain ⟨w2, A2, m2, n2⟩ := i3'
    obtain ⟨A3, m3⟩ := i4
    obtain ⟨A4, m4⟩ := i4'
    obtain ⟨_, hA⟩ := huniq i i1 _ _ _ _ m1 m2
    obtain ⟨hw, _⟩ := huniq i i1 _ _ _ _ m3 m4
    rw [hA, n2] at n1
    cases n1
    subst hw
    rw [hc1] at hc2
    cases hc2
    rw [hs, hs']

/-! ### C60 -/

theorem computeLoop_congr {ops : DistOps D W} {ops' : DistOps D' W} {data : List D} {data' : List D'} {rows cols cols' : Nat} {f f' : Nat → Nat → W}
    (hf : ∀ i j, i < j → j < rows → SqSum ops data cols i j (f i j)) (hf' : ∀ i j, i < j → j < rows → SqSum ops' data' cols' i j (f' i j))
    (hd : ∀ i j, i < j → j < rows → ops.sqrt (f i j) = ops'.sqrt (f' i j)) (order : List (Nat × Nat)) : ∀ (c : List (Option W)), (∀ x ∈ order, x.1 < x.2 ∧ x.2 < rows) →
    Distance.computeLoop ops data cols rows order c = Distance.computeLoop ops' data' cols' rows order c := by
  induction order with
  | nil => intro c _; rfl
  | cons x r ih =>
    intro c ho
    obtain ⟨h1, h2⟩ := ho x (by simp)
    rw [Distance.computeLoop, Distance.computeLoop, Distance.computeCell, Distance.computeCell, sqSum_iff.2 (hf _ _ h1 h2), sqSum_iff.2 (hf' _ _ h1 h2), Outcome.ok_bind, Outcome.ok_bind, hd _ _ h1 h2]
    exact congrArg _ (funext fun c' => ih c' fun x hx => ho x (by simp [hx]))

section
variable [CCmp W] (dis : Distance W) (c : Nat)

omit [CCmp W] in
theorem get_cols (zero : W) (i j : Nat) : Distance.get zero { dis with cols := c } i j = dis.get zero i j := rfl

theorem coreLoop_cols (zero : W) (i : Nat) (js : List Nat) : ∀ sd, Distance.coreLoop zero { dis with cols := c } i js sd = Distance.coreLoop zero dis i js sd := by
  induction js with
  | nil => intro sd; rfl
  | cons j r ih => intro sd; simp only [Distance.coreLoop, get_cols, ih]

theorem coreAll_cols (zero dmax : W) (order : List Nat) : ∀ cs, Distance.coreAll zero dmax { dis with cols := c } order cs = Distance.coreAll zero dmax dis order cs := by
  induction order with
  | nil => intro cs; rfl
  | cons j r ih => intro cs; simp only [Distance.coreAll, Distance.coreOf, coreLoop_cols, ih]

theorem scan_cols (zero : W) (att : List Bool) (cur : Nat) (js : List Nat) : ∀ s, Mst.scan zero { dis with cols := c } att cur js s = Mst.scan zero dis att cur js s := by
  induction js with
  | nil => intro s; rfl
  | cons j r ih => intro s; simp only [Mst.scan, Mst.visit, Mst.mrd, get_cols, ih]

theorem grow_cols (zero dmax : W) (size : Nat) : ∀ k a cur att dist nb ot, Mst.grow zero dmax { dis with cols := c } size k a cur att dist nb ot = Mst.grow zero dmax dis size k a cur att dist nb ot := by
  intro k
  induction k with
  | zero => intros; rfl
  | succ k ih => intros; simp only [Mst.grow, scan_cols, ih]

omit [CCmp W] in
theorem selfLoop_cols (start : Nat) : ∀ k v dist nb ot, Mst.selfLoop { dis with cols := c } start k v dist nb ot = Mst.selfLoop dis start k v dist nb ot := by
  intro k
  induction k with
  | zero => intros; rfl
  | succ k ih => intros; simp only [Mst.selfLoop, ih]

/-- The stages after the distances do not look at the number of columns. -/
theorem full_cols [CCmp S] [CCmp T] (qsort : (OScore W T → OScore W T → Int) → List (OScore W T) → List (OScore W T)) (ar : Arith W S) (smax : S) (ops : Outlier.Ops W T)
    (sch : Run.Schedule) (order : List Nat) (m : Nat) (n : Nat) :
    Run.full qsort ar smax ops sch order m { dis with cols := c } n = Run.full qsort ar smax ops sch order m dis n := by
  simp only [Run.full, Run.doRun, Mst.construct, Mst.addSelf, grow_cols, selfLoop_cols]

end

/-- **C60**. A run depends on the data only through the distances: two data sets, possibly of different types and with different numbers of columns, whose pairwise distances agree
    give the same labels, hierarchy, clusters, core distances and outlier scores. -/
theorem C60_same_distances [LinearOrder W] [CCmp S] [LinearOrder T] (env : Api.Env D W S T) (env' : Api.Env D' W S T) (hq : SortsAscending env.qsort)
    (e1 : env'.ar = env.ar) (e2 : env'.smax = env.smax) (e3 : env'.oops = env.oops) (e4 : env'.qsort = env.qsort)
    (data : List D) (data' : List D') (rows cols cols' : Nat) (f f' : Nat → Nat → W) (h : Supported env data rows cols f) (h' : Supported env' data' rows cols' f')
    (hd : ∀ i j, i < j → j < rows → env.dops.sqrt (f i j) = env'.dops.sqrt (f' i j)) (h5 : 5 ≤ rows) (m : Nat) (hm : 2 ≤ m) (hmr : m ≤ rows) :
    ∃ obj obj' : Api.Obj W S T, (∀ par, Complete rows rows par → Api.fresh env par m data rows cols true = .ok obj ∧ Api.fresh env' par m data' rows cols' true = .ok obj') ∧
      obj'.results = obj.results ∧ obj'.dis.coreDistances = obj.dis.coreDistances ∧ obj'.dis.distances = obj.dis.distances := by
  obtain ⟨obj, core, hf, -⟩ := C55_run_partial env hq data rows cols f h h5 m hm hmr
  obtain ⟨obj', core', hf', -⟩ := C55_run_partial env' (e4 ▸ hq) data' rows cols' f' h' h5 m hm hmr
  have hfew := h.few
  have hseq : Complete rows rows ⟨Distance.pairs rows, List.range rows, seqSchedule, List.range rows⟩ := ⟨.refl _, .refl _, seqSchedule_complete, .refl _⟩
  obtain ⟨_, k1, k2, _⟩ := fresh_inv (by omega) (hf _ hseq)
  obtain ⟨_, k1', k2', _⟩ := fresh_inv (by omega) (hf' _ hseq)
  have hdis : obj'.dis = { obj.dis with cols := cols' } := by
    unfold Distance.compute at k1 k1'
    obtain ⟨c, a1, a2⟩ := Outcome.bind_eq_ok.mp k1
    obtain ⟨c', a1', a2'⟩ := Outcome.bind_eq_ok.mp k1'
    rw [computeLoop_congr h.sum h'.sum hd _ _ (fun x hx => Distance.mem_pairs.1 hx)] at a1
    rw [a1] at a1'
    cases a1'
    unfold Distance.getCoreDistances at a2 a2'
    obtain ⟨x, b1, b2⟩ := Outcome.bind_eq_ok.mp a2
    obtain ⟨x', b1', b2'⟩ := Outcome.bind_eq_ok.mp a2'
    rw [e1, h'.zero, e1, ← h.zero] at b1'
    have : Distance.coreAll env.dops.zero env.ar.dmax (⟨rows, cols', m - 1, c, List.replicate rows none⟩ : Distance W) (List.range rows) (List.replicate rows none) =
      Distance.coreAll env.dops.zero env.ar.dmax (⟨rows, cols, m - 1, c, List.replicate rows none⟩ : Distance W) (List.range rows) (List.replicate rows none) :=
      coreAll_cols (⟨rows, cols, m - 1, c, List.replicate rows none⟩ : Distance W) cols' _ _ _ _
    have := b1'.symm.trans (this.trans b1)
    cases this
    have h1 := Outcome.ok.inj b2
    have h2 := Outcome.ok.inj b2'
    rw [← h1, ← h2]
  refine ⟨obj, obj', fun par hp => ⟨hf par hp, hf' par hp⟩, ?_, by rw [hdis], by rw [hdis]⟩
  rw [hdis, full_cols, e1, e2, e3, e4, k2] at k2'
  exact (Outcome.ok.inj k2').symm

/-- Real data are supported as long as no distance reaches `D_MAX`. -/
theorem real_supported {S T : Type} (env : Api.Env ℝ ℝ S T) (ho : env.dops = realOps) (hz : env.ar.zeroW = 0) (h0 : 0 < env.ar.dmax) (data : List ℝ) (rows cols : Nat) (hr : rows ≤ 65536)
    (hl : rows * cols ≤ data.length) (hlt : ∀ i j, i < j → j < rows → euclid data cols i j < env.ar.dmax) :
    Supported env data rows cols (fun i j => ∑ k ∈ Finset.range cols, (data.getD (i * cols + k) 0 - data.getD (j * cols + k) 0) ^ 2) where
  few := hr
  zero := by rw [ho, hz]; rfl
  zero_lt := by rw [hz]; exact h0
  sum i j hij hj := by
    rw [ho]
    refine sqSum_iff.1 ?_
    have : ∀ x, x < rows → (x + 1) * cols ≤ data.length := fun x hx => le_trans (Nat.mul_le_mul_right _ hx) hl
    rw [sumFrom_real data cols i j (this i (by omega)) (this j hj) cols 0 _ (by omega)]
    simp [realOps]
  lt i j hij hj := by
    rw [ho]; exact hlt i j hij hj

/-- **C60 in exact arithmetic**: data sets with the same Euclidean distances (shifted, rotated, mirrored, with columns exchanged or constant columns added) give the same results. -/
theorem C60_isometry [CCmp S] [LinearOrder T] (env : Api.Env ℝ ℝ S T) (hq : SortsAscending env.qsort) (ho : env.dops = realOps) (hz : env.ar.zeroW = 0) (h0 : 0 < env.ar.dmax)
    (data data' : List ℝ) (rows cols cols' : Nat) (hr : rows ≤ 65536) (hl : rows * cols ≤ data.length) (hl' : rows * cols' ≤ data'.length)
    (hlt : ∀ i j, i < j → j < rows → euclid data cols i j < env.ar.dmax) (heq : ∀ i j, i < j → j < rows → euclid data cols i j = euclid data' cols' i j)
    (h5 : 5 ≤ rows) (m : Nat) (hm : 2 ≤ m) (hmr : m ≤ rows) :
    ∃ obj obj' : Api.Obj ℝ S T, (∀ par, Complete rows rows par → Api.fresh env par m data rows cols true = .ok obj ∧ Api.fresh env par m data' rows cols' true = .ok obj') ∧
      obj'.results = obj.results ∧ obj'.dis.coreDistances = obj.dis.coreDistances ∧ obj'.dis.distances = obj.dis.distances :=
  C60_same_distances env env hq rfl rfl rfl rfl data data' rows cols cols' _ _ (real_supported env ho hz h0 data rows cols hr hl hlt)
    (real_supported env ho hz h0 data' rows cols' hr hl' fun i j a b => by rw [← heq i j a b]; exact hlt i j a b)
    (fun i j a b => by rw [ho]; exact heq i j a b) h5 m hm hmr

/-! ### Concrete cases -/

theorem lineEnv_plain : PlainArith lineEnv.dops where
  self a d h := by
    have := Outcome.ok.inj h
    rw [← this]; exact sub_self a
  swap a b d e h h' := by
    rw [← Outcome.ok.inj h, ← Outcome.ok.inj h']
    show (a - b) * (a - b) = (b - a) * (b - a)
    ring
  mul_zero := by decide +kernel
  add_zero := by decide +kernel
  sqrt_zero := by decide

/-- Five points on a line, the first and the third equal. -/
theorem dupPts_supported : Supported lineEnv [0, 7, 0, 9, 3] 5 1 (lineSq [0, 7, 0, 9, 3]) where
  few := by omega
  zero := rfl
  zero_lt := by decide
  sum i j hij hj := sqSum_iff.1 <| (by decide +kernel : ∀ j, j < 5 → ∀ i, i < j → Distance.sumFrom lineEnv.dops [0, 7, 0, 9, 3] 1 i j 1 0 lineEnv.dops.zero = .ok (lineSq [0, 7, 0, 9, 3] i j)) j hj i hij
  lt i j hij hj := (by decide +kernel : ∀ j, j < 5 → ∀ i, i < j → lineEnv.dops.sqrt (lineSq [0, 7, 0, 9, 3] i j) < lineEnv.ar.dmax) j hj i hij

example := C59_duplicates lineEnv (isort_sorts _) lineEnv_plain [0, 7, 0, 9, 3] 5 1 (lineSq [0, 7, 0, 9, 3]) dupPts_supported (by omega) 2 (by omega) (by omega)
  (fun w => Nat.cast_nonneg _) 0 2 (by omega) (by omega) (by intro k hk; interval_cases k; rfl)

/-- The points of `linePts` mirrored. -/
theorem mirror_supported : Supported lineEnv [10, 3, 9, 1, 7] 5 1 (lineSq [10, 3, 9, 1, 7]) where
  few := by omega
  zero := rfl
  zero_lt := by decide
  sum i j hij hj := sqSum_iff.1 <| (by decide +kernel : ∀ j, j < 5 → ∀ i, i < j → Distance.sumFrom lineEnv.dops [10, 3, 9, 1, 7] 1 i j 1 0 lineEnv.dops.zero = .ok (lineSq [10, 3, 9, 1, 7] i j)) j hj i hij
  lt i j hij hj := (by decide +kernel : ∀ j, j < 5 → ∀ i, i < j → lineEnv.dops.sqrt (lineSq [10, 3, 9, 1, 7] i j) < lineEnv.ar.dmax) j hj i hij

example := C60_same_distances lineEnv lineEnv (isort_sorts _) rfl rfl rfl rfl linePts [10, 3, 9, 1, 7] 5 1 1 _ _ linePts_supported mirror_supported
  (fun i j hij hj => (by decide +kernel : ∀ j, j < 5 → ∀ i, i < j → lineEnv.dops.sqrt (lineSq linePts i j) = lineEnv.dops.sqrt (lineSq [10, 3, 9, 1, 7] i j)) j hj i hij)
  (by omega) 2 (by omega) (by omega)

/-- Real arithmetic, with distances below 1000. -/
noncomputable def realEnv : Api.Env ℝ ℝ ℝ ℝ where
  dops := realOps
  ar := exact ℝ 1000
  smax := 1000000
  oops := exactScore ℝ
  qsort := isort

/-- Five points in the plane and the same points moved by (10, -1), with the columns exchanged. -/
example := C60_isometry realEnv (isort_sorts _) rfl rfl (by simp [realEnv, exact]) [0, 1, 7, 2, 1, 3, 9, 4, 3, 5] [0, 10, 1, 17, 2, 11, 3, 19, 4, 13] 5 2 2 (by omega) (by simp) (by simp)
  (fun i j hij hj => by
    have : euclid [0, 1, 7, 2, 1, 3, 9, 4, 3, 5] 2 i j ≤ 100 := by
      unfold euclid
      rw [Real.sqrt_le_left (by norm_num)]
      interval_cases j <;> interval_cases i <;> norm_num [Finset.sum_range_succ]
    exact lt_of_le_of_lt this (by simp [realEnv, exact]; norm_num))
  (fun i j hij hj => by
    unfold euclid
    congr 1
    interval_cases j <;> interval_cases i <;> norm_num [Finset.sum_range_succ])
  (by omega) 2 (by omega) (by omega)

end Verif.Props
