import Verif.Lemmas.Ieee
import Verif.Props.Api
/-
C71, C72, C73: runs on arbitrary data, NaN, infinities, overflowing distances and too few points included.
-/
namespace Verif.Props
open Spec Relation
variable {D V S T : Type}

/-! ### C71 -/

/-- **C71**. For every data set of `5 ≤ rows ≤ 65536` rows that the library can read, whatever the values, and every `m ≥ 2`, also one larger than the number
    of rows, `hdbscan_init` and `hdbscan_run` complete without undefined behaviour, failed assertion or endless loop, with the same result for every schedule, and the
    result is sound: the distances are those between the rows; the core distances are numbers up to `D_MAX`, less exactly for the rows with `m` distances below `D_MAX`; the hierarchy is nested; a line of a weight below
    `D_MAX` shows the components at that level; the labels are those of a selection of the cluster tree; the outlier scores contain every point once in ascending order.
    Any sequence of reruns gives the result of a fresh run.
    `Ieee V` are the values of `distance_t`; the comparisons with NaN are false. As in C55 the loop with the data race of C37 is executed by one thread. The scores are
    taken from a linear order, since none is NaN: a score is 0 or `1 - a / b` with numbers `a` and `b` up to `D_MAX` and `b` not 0. -/
theorem C71_any_data [LinearOrder V] [CCmp S] [LinearOrder T] (env : Api.Env D (Ieee V) S T) (hd : ∃ v, env.ar.dmax = .num v) (hq : SortsAscending env.qsort)
    (data : List D) (rows cols : Nat) (f : Nat → Nat → Ieee V) (h : Readable env data rows cols f) (h5 : 5 ≤ rows) :
    ∃ (obj : Nat → Api.Obj (Ieee V) S T) (core : Nat → Nat → Ieee V), ∀ m, 2 ≤ m →
      (∀ par, Complete rows rows par → Api.fresh env par m data rows cols true = .ok (obj m)) ∧
      (obj m).minPoints = m ∧ (obj m).numPoints = rows ∧
      (∀ i j, i < rows → j < rows → (obj m).dis.get env.ar.zeroW i j = .ok (distOf env.dops f i j)) ∧
      (∀ i, i < rows → (obj m).dis.coreDistances[i]? = some (some (core m i)) ∧ CCmp.le (core m i) env.ar.dmax = true ∧
        (CCmp.lt (core m i) env.ar.dmax = true ↔ AtLeast m (fun j => j < rows ∧ CCmp.lt (distOf env.dops f i j) env.ar.dmax = true))) ∧
      Sound env.ar rows m (distOf env.dops f) (core m) (obj m).results ∧
      ∀ (m0 : Nat) (hist : List (Nat × Api.Par)) (par : Api.Par), 2 ≤ m0 → (∀ c ∈ hist, 2 ≤ c.1 ∧ Complete rows rows c.2) → Complete rows rows par →
        Api.reruns env (hist ++ [(m, par)]) (obj m0) = .ok (obj m) := by
  obtain ⟨C, C', core, O, key⟩ := Cut.any_pair hd h h (fun i j _ _ => .inl rfl) hq (by omega)
  refine ⟨fun m => ⟨m, rows, C' m, O m⟩, core, fun m hm => ?_⟩
  obtain ⟨_, k2, k3, k4, k5⟩ := key m hm
  refine ⟨fun par hp => (k5 par hp).2.1 h5, rfl, rfl, k2, fun i hi => (k3 i hi).2, k4, fun m0 hist par hm0 hh hp => ?_⟩
  induction hist generalizing m0 with
  | nil =>
    rw [List.nil_append, Api.reruns, (k5 par hp).2.2.2 m0 hm0]
    rfl
  | cons c r ih =>
    obtain ⟨hc, hpc⟩ := hh c (by simp)
    rw [List.cons_append, Api.reruns, ((key c.1 hc).2.2.2.2 c.2 hpc).2.2.2 m0 hm0, Outcome.ok_bind]
    exact ih c.1 hc (fun x hx => hh x (by simp [hx]))

/-! ### C72 -/

/-- **C72**. A distance that is not below `D_MAX` (NaN, infinite, overflowed) counts as `D_MAX`: for two data sets whose distances agree wherever one of them is
    below `D_MAX`, core distances, hierarchy, clusters, labels and outlier scores are equal. -/
theorem C72_not_below [LinearOrder V] [CCmp S] [LinearOrder T] (env : Api.Env D (Ieee V) S T) (hd : ∃ v, env.ar.dmax = .num v) (hq : SortsAscending env.qsort)
    (data data' : List D) (rows cols cols' : Nat) (f f' : Nat → Nat → Ieee V) (h : Readable env data rows cols f) (h' : Readable env data' rows cols' f') (h5 : 5 ≤ rows)
    (hs : ∀ i j, i < j → j < rows → env.dops.sqrt (f i j) = env.dops.sqrt (f' i j) ∨
      (NotBelow env.ar.dmax (env.dops.sqrt (f i j)) ∧ NotBelow env.ar.dmax (env.dops.sqrt (f' i j))))
    (m : Nat) (hm : 2 ≤ m) (par par' : Api.Par) (hp : Complete rows rows par) (hp' : Complete rows rows par') :
    ∃ obj obj', Api.fresh env par m data rows cols true = .ok obj ∧ Api.fresh env par' m data' rows cols' true = .ok obj' ∧
      obj.results = obj'.results ∧ ∀ i, i < rows → obj.dis.coreDistances[i]? = obj'.dis.coreDistances[i]? := by
  obtain ⟨C, C', core, O, key⟩ := Cut.any_pair hd h h' hs hq (by omega)
  obtain ⟨_, _, k3, _, k5⟩ := key m hm
  exact ⟨_, _, (k5 par hp).1 h5, (k5 par' hp').2.1 h5, rfl, fun i hi => by simp only; rw [(k3 i hi).1, (k3 i hi).2.1]⟩

/-! ### C73 -/

/-- The points of a cluster are those of a component of at least `m` points at a level below `D_MAX`. -/
theorem labelled_component [LinearOrder V] [LinearOrder T] {ar : Arith (Ieee V) S} (hd : ∃ v, ar.dmax = .num v) {n m : Nat} {d : Nat → Nat → Ieee V} {core : Nat → Ieee V}
    {r : Run.Full (Ieee V) S T} (h : Sound ar n m d core r) {p l : Nat} (hl : l ≠ 0) (hp : r.labels[p]? = some l) :
    ∃ w, CCmp.lt w ar.dmax = true ∧ AtLeast m (Linked n d core w p) ∧ ∀ q, q < n → (r.labels[q]? = some l ↔ Linked n d core w p q) := by
  obtain ⟨root, h1, h2, h3, h4, h5⟩ := h.labels
  obtain ⟨k1, i, i1, i2, i3⟩ := (h4 p l hl).1 hp
  obtain ⟨q0, hq0⟩ := h2.notRoot l k1
  have hl2 : 2 ≤ l := by have := h.tree.up l q0 hq0; omega
  have hmb : ∀ q, MemberAtBirth r.hierarchy l q ↔ Carries r.hierarchy i q l := by
    intro q
    constructor
    · rintro ⟨i', j1, j2, j3⟩
      rcases Nat.lt_trichotomy i i' with h | h | h
      · exact absurd i2 (j3 i p i1 h)
      · subst h; exact j2
      · exact absurd j2 (i3 i' q j1 h)
    · exact fun hc => ⟨i, i1, hc, i3⟩
  have i2' := i2
  obtain ⟨w, A, hA, hA2⟩ := i2
  obtain ⟨L, e1, e2, e3, e4, w1, e5⟩ := h.nested.shape
  have hpn : p < n := by rw [← h3]; exact (List.getElem?_eq_some_iff.1 hp).1
  have hmem : ∀ x, x ∈ L → x ∈ r.hierarchy := fun x hx => by rw [e1]; exact List.mem_append_left _ hx
  have hAL : (i, w, A) ∈ L := by
    rw [e1] at hA
    rcases List.mem_append.1 hA with h | h
    · exact h
    · simp only [List.mem_singleton, Prod.mk.injEq] at h; omega
  -- the line is not the first one
  obtain ⟨a, ha, ea⟩ := List.mem_iff_getElem.1 hAL
  obtain ⟨b, hb, eb⟩ := List.mem_iff_getElem.1 e5
  have hnum : ∀ k (hk : k < L.length), (L[k]).1 = k + 1 := by
    intro k hk
    have : (L.map (·.1))[k]? = ((List.range L.length).map (· + 1))[k]? := by rw [e2]
    simpa [hk] using this
  have hai : i = a + 1 := by have := hnum a ha; rw [ea] at this; exact this
  have hbi : b = 0 := by have := hnum b hb; rw [eb] at this; simp only at this; omega
  subst hbi
  have ha0 : 0 < a := by
    by_contra h0
    have : a = 0 := by omega
    subst this
    rw [eb] at ea
    simp only [Prod.mk.injEq] at ea
    obtain ⟨_, _, rfl⟩ := ea
    rw [List.getElem?_replicate, if_pos hpn] at hA2
    simp only [Option.some.injEq] at hA2
    omega
  rw [List.pairwise_iff_getElem] at e3
  have hlt := e3 0 a hb ha ha0
  rw [ea, eb] at hlt
  simp only at hlt
  have hle := h.weights 1 w1 _ (hmem _ e5) (by omega)
  have hlt' : CCmp.lt w ar.dmax = true := by
    obtain ⟨v, hv⟩ := hd
    rw [hv] at hle ⊢
    cases w with
    | nan => cases w1 <;> simp [CCmp.lt] at hlt
    | num x =>
      cases w1 with
      | nan => simp [CCmp.lt] at hlt
      | num y =>
        simp only [CCmp.lt, CCmp.le, decide_eq_true_eq] at hlt hle ⊢
        exact lt_of_lt_of_le hlt hle
  have hsh := h.shown i w A hA (by omega) hlt'
  refine ⟨w, hlt', (hsh.large p l hl hA2).resolve_right (fun hc => by omega), fun q hqn => ?_⟩
  have hone : ∀ w' A', (i, w', A') ∈ r.hierarchy → A' = A := by
    intro w' A' hA'
    have hAL' : (i, w', A') ∈ L := by
      rw [e1] at hA'
      rcases List.mem_append.1 hA' with h | h
      · exact h
      · simp only [List.mem_singleton, Prod.mk.injEq] at h; omega
    obtain ⟨a', ha', ea'⟩ := List.mem_iff_getElem.1 hAL'
    have : i = a' + 1 := by have := hnum a' ha'; rw [ea'] at this; exact this
    have haa : a' = a := by omega
    subst haa
    rw [ea] at ea'
    simp only [Prod.mk.injEq, true_and] at ea'
    exact ea'.2.symm
  rw [h4 q l hl, hmb q]
  constructor
  · rintro ⟨_, w', A', hA', hl'⟩
    rw [hone w' A' hA'] at hl'
    exact hsh.apart p q l hl hA2 hl' (.inl (by omega))
  · intro hlk
    exact ⟨k1, w, A, hA, by rw [← hsh.together p q hpn hqn hlk]; exact hA2⟩

/-- **C73**. A point whose distances to all other points are not below `D_MAX`, for instance one with a NaN coordinate, is noise; and if `m` exceeds the number of points, all are
    noise and there is no cluster but the root. -/
theorem C73_noise [LinearOrder V] [CCmp S] [LinearOrder T] (env : Api.Env D (Ieee V) S T) (hd : ∃ v, env.ar.dmax = .num v) (hq : SortsAscending env.qsort)
    (data : List D) (rows cols : Nat) (f : Nat → Nat → Ieee V) (h : Readable env data rows cols f) (h5 : 5 ≤ rows) (m : Nat) (hm : 2 ≤ m) (par : Api.Par) (hp : Complete rows rows par) :
    ∃ obj, Api.fresh env par m data rows cols true = .ok obj ∧ obj.results.labels.length = rows ∧
      (∀ p, p < rows → (∀ j, j < rows → j ≠ p → NotBelow env.ar.dmax (distOf env.dops f p j)) → obj.results.labels[p]? = some 0) ∧
      (rows < m → obj.results.labels = List.replicate rows 0 ∧ obj.results.clusters.length = 2) := by
  obtain ⟨obj, core, key⟩ := C71_any_data env hd hq data rows cols f h h5
  obtain ⟨k1, _, _, _, _, k4, _⟩ := key m hm
  obtain ⟨root, q1, q2, q3, q4, q5⟩ := k4.labels
  -- what an unlabelled point needs
  have hzero : ∀ p, p < rows → (∀ w, CCmp.lt w env.ar.dmax = true → ¬ AtLeast m (Linked rows (distOf env.dops f) (core m) w p)) → (obj m).results.labels[p]? = some 0 := by
    intro p hp hno
    have hlt : p < (obj m).results.labels.length := by rw [q3]; exact hp
    by_cases h0 : (obj m).results.labels[p] = 0
    · rw [List.getElem?_eq_getElem hlt, h0]
    · obtain ⟨w, w1, w2, _⟩ := labelled_component hd k4 h0 (List.getElem?_eq_getElem hlt)
      exact absurd w2 (hno w w1)
  have hbnd : ∀ w u v, Linked rows (distOf env.dops f) (core m) w u v → u = v ∨ (u < rows ∧ v < rows) := by
    intro w u v hl
    induction hl with
    | rel x y hxy => exact .inr ⟨hxy.1, hxy.2.1⟩
    | refl => exact .inl rfl
    | symm _ _ _ ih => exact ih.imp Eq.symm And.symm
    | trans _ _ _ _ _ i1 i2 =>
      rcases i1 with rfl | i1
      · exact i2
      · rcases i2 with rfl | i2
        · exact .inr i1
        · exact .inr ⟨i1.1, i2.2⟩
  have hmany : rows < m → ∀ w p, p < rows → ¬ AtLeast m (Linked rows (distOf env.dops f) (core m) w p) := by
    rintro hlt w p hp ⟨l, l1, l2, l3⟩
    have hsub : l ⊆ List.range rows := by
      intro v hv
      rcases hbnd w p v (l3 v hv) with e | e
      · subst e; exact List.mem_range.2 hp
      · exact List.mem_range.2 e.2
    have := (l1.subperm hsub).length_le
    rw [List.length_range] at this
    omega
  refine ⟨obj m, k1 par hp, q3, fun p hp hfar => hzero p hp ?_, fun hlt => ⟨?_, ?_⟩⟩
  · rintro w hw ⟨l, l1, l2, l3⟩
    obtain ⟨v, hv, hne⟩ : ∃ v ∈ l, v ≠ p := by
      by_contra hn'
      push Not at hn'
      have h5 := List.nodup_iff_count_le_one.1 l1 p
      have h4 : l = List.replicate l.length p := List.eq_replicate_iff.2 ⟨rfl, hn'⟩
      rw [h4, List.count_replicate_self] at h5
      omega
    -- no step leads away from `p`
    have hfar' : ∀ j, j < rows → j ≠ p → CCmp.le (distOf env.dops f p j) w = false := by
      intro j hj hjp
      have := hfar j hj hjp
      unfold NotBelow at this
      cases hx : distOf env.dops f p j with
      | nan => cases w <;> rfl
      | num x =>
        rw [hx] at this
        obtain ⟨v, hv⟩ := hd
        rw [hv] at this hw
        cases w with
        | nan => rfl
        | num y =>
          simp only [CCmp.lt, CCmp.le, decide_eq_false_iff_not, decide_eq_true_eq] at this hw ⊢
          exact fun hle => this (lt_of_le_of_lt hle hw)
    have hstay : ∀ u v, Linked rows (distOf env.dops f) (core m) w u v → (u = p ↔ v = p) := by
      intro u v hl
      induction hl with
      | rel x y hxy =>
        obtain ⟨x1, x2, x3, x4, _⟩ := hxy
        constructor
        · rintro rfl
          rw [hfar' y x2 (fun e => x3 e.symm)] at x4; simp at x4
        · rintro rfl
          rw [distOf_symm, hfar' x x1 x3] at x4; simp at x4
      | refl => rfl
      | symm _ _ _ ih => exact ih.symm
      | trans _ _ _ _ _ i1 i2 => exact i1.trans i2
    exact hne ((hstay p v (l3 v hv)).1 rfl)
  · apply List.ext_getElem?
    intro p
    by_cases hp : p < rows
    · rw [hzero p hp (fun w _ => hmany hlt w p hp), List.getElem?_replicate, if_pos hp]
    · rw [List.getElem?_eq_none (by omega), List.getElem?_eq_none (by simpa using hp)]
  · by_contra hlen
    have := k4.tree.two
    have hne := selection_nonempty k4.tree (by omega) q2
    obtain ⟨l, hl⟩ := List.exists_mem_of_ne_nil _ hne
    obtain ⟨ps, p1, p2, p3⟩ := q5 l hl
    obtain ⟨q, hq'⟩ := q2.notRoot l hl
    have hl1 := k4.tree.up l q hq'
    obtain ⟨p, hps⟩ := List.exists_mem_of_length_pos (l := ps) (by omega)
    have hpl : (obj m).results.labels[p]? = some l := p3 p hps
    have hpn : p < rows := by rw [← q3]; exact (List.getElem?_eq_some_iff.1 hpl).1
    rw [hzero p hpn (fun w _ => hmany hlt w p hpn)] at hpl
    simp only [Option.some.injEq] at hpl
    omega

/-! ### C74 -/

/-- No step leads from or to a point all of whose distances are not below `D_MAX`. -/
theorem linked_far [LinearOrder V] {dmax : Ieee V} (hd : ∃ v, dmax = .num v) {n : Nat} {d : Nat → Nat → Ieee V} {core : Nat → Ieee V} (hsym : ∀ i j, d i j = d j i) {w : Ieee V}
    (hw : CCmp.lt w dmax = true) {p : Nat} (hfar : ∀ j, j < n → j ≠ p → NotBelow dmax (d p j)) {u v : Nat} (h : Linked n d core w u v) : u = p ↔ v = p := by
  have hfar' : ∀ j, j < n → j ≠ p → CCmp.le (d p j) w = false := by
    intro j hj hjp
    have := hfar j hj hjp
    unfold NotBelow at this
    obtain ⟨v, rfl⟩ := hd
    cases hx : d p j with
    | nan => cases w <;> rfl
    | num x =>
      rw [hx] at this
      cases w with
      | nan => rfl
      | num y =>
        simp only [CCmp.lt, CCmp.le, decide_eq_false_iff_not, decide_eq_true_eq] at this hw ⊢
        exact fun hle => this (lt_of_le_of_lt hle hw)
  induction h with
  | rel x y hxy =>
    obtain ⟨x1, x2, x3, x4, _⟩ := hxy
    constructor
    · rintro rfl
      rw [hfar' y x2 (fun e => x3 e.symm)] at x4; simp at x4
    · rintro rfl
      rw [hsym, hfar' x x1 x3] at x4; simp at x4
  | refl => rfl
  | symm _ _ _ ih => exact ih.symm
  | trans _ _ _ _ _ i1 i2 => exact i1.trans i2

/-- The greatest of three values below `dmax` is below `dmax`. -/
theorem bound_three [LinearOrder V] {dmax a b c : Ieee V} (ha : CCmp.lt a dmax = true) (hb : CCmp.lt b dmax = true) (hc : CCmp.lt c dmax = true) :
    ∃ w, CCmp.lt w dmax = true ∧ CCmp.le a w = true ∧ CCmp.le b w = true ∧ CCmp.le c w = true := by
  cases dmax with
  | nan => cases a <;> simp [CCmp.lt] at ha
  | num z =>
    cases a with
    | nan => simp [CCmp.lt] at ha
    | num x =>
      cases b with
      | nan => simp [CCmp.lt] at hb
      | num y =>
        cases c with
        | nan => simp [CCmp.lt] at hc
        | num t =>
          simp only [CCmp.lt, decide_eq_true_eq] at ha hb hc
          exact ⟨.num (max (max x y) t), by simp [CCmp.lt, ha, hb, hc], by simp [CCmp.le], by simp [CCmp.le], by simp [CCmp.le]⟩

/-- **C74**. Incomplete rows do not disturb the others. Suppose that the distances between complete rows are below `D_MAX`, that all distances of the other rows are not
    (a NaN or infinite coordinate, for instance), and that there are at least `m` complete rows. Then the incomplete rows are noise, in the labels and in every hierarchy line of
    a weight below `D_MAX`, and each such line shows exactly the components of at least `m` points at that level: two points carry the same label other than 0 if
    and only if they are linked and their component has at least `m` points. -/
theorem C74_incomplete_rows [LinearOrder V] [CCmp S] [LinearOrder T] (env : Api.Env D (Ieee V) S T) (hd : ∃ v, env.ar.dmax = .num v) (hq : SortsAscending env.qsort)
    (hz : CCmp.lt env.ar.zeroW env.ar.dmax = true) (data : List D) (rows cols : Nat) (f : Nat → Nat → Ieee V) (h : Readable env data rows cols f) (h5 : 5 ≤ rows) (m : Nat) (hm : 2 ≤ m)
    (complete : Nat → Prop) (hmany : AtLeast m (fun i => i < rows ∧ complete i))
    (hin : ∀ i j, i < rows → j < rows → i ≠ j → complete i → complete j → CCmp.lt (distOf env.dops f i j) env.ar.dmax = true)
    (hout : ∀ i j, i < rows → j < rows → i ≠ j → ¬ complete i → NotBelow env.ar.dmax (distOf env.dops f i j)) (par : Api.Par) (hp : Complete rows rows par) :
    ∃ (obj : Api.Obj (Ieee V) S T) (core : Nat → Ieee V), Api.fresh env par m data rows cols true = .ok obj ∧
      (∀ i, i < rows → obj.dis.coreDistances[i]? = some (some (core i)) ∧ (CCmp.lt (core i) env.ar.dmax = true ↔ complete i)) ∧
      (∀ i, i < rows → ¬ complete i → obj.results.labels[i]? = some 0) ∧
      ∀ k w A, (k, w, A) ∈ obj.results.hierarchy → k ≠ 0 → CCmp.lt w env.ar.dmax = true →
        (∀ u v, u < rows → v < rows → ((A[u]? = A[v]? ∧ A[u]? ≠ some 0) ↔
          (Linked rows (distOf env.dops f) core w u v ∧ AtLeast m (Linked rows (distOf env.dops f) core w u)))) ∧
        ∀ u, u < rows → ¬ complete u → A[u]? = some 0 := by
  obtain ⟨obj, core, key⟩ := C71_any_data env hd hq data rows cols f h h5
  obtain ⟨k1, _, _, _, k3, k4, _⟩ := key m hm
  obtain ⟨obj', e', _, hn, _⟩ := C73_noise env hd hq data rows cols f h h5 m hm par hp
  rw [k1 par hp] at e'
  cases e'
  have hfar : ∀ i, i < rows → ¬ complete i → ∀ j, j < rows → j ≠ i → NotBelow env.ar.dmax (distOf env.dops f i j) :=
    fun i hi hc j hj hne => hout i j hi hj (Ne.symm hne) hc
  have hcore : ∀ i, i < rows → (CCmp.lt (core m i) env.ar.dmax = true ↔ complete i) := by
    intro i hi
    rw [(k3 i hi).2.2]
    constructor
    · rintro ⟨l, l1, l2, l3⟩
      by_contra hc
      obtain ⟨v, hv, hne⟩ := Hier.two_of l1 (by omega) i
      have h1 := (l3 v hv).2
      have h2 := hfar i hi hc v (l3 v hv).1 (Ne.symm hne)
      unfold NotBelow at h2
      rw [h1] at h2
      simp at h2
    · intro hc
      obtain ⟨l, l1, l2, l3⟩ := hmany
      refine ⟨l, l1, l2, fun v hv => ⟨(l3 v hv).1, ?_⟩⟩
      by_cases hiv : i = v
      · subst hiv
        unfold distOf
        rw [if_neg (by omega), if_pos rfl, h.zero]
        exact hz
      · exact hin i v hi (l3 v hv).1 hiv hc (l3 v hv).2
  have hlink : ∀ u v, u < rows → v < rows → complete u → complete v → ∃ w, CCmp.lt w env.ar.dmax = true ∧ Linked rows (distOf env.dops f) (core m) w u v := by
    intro u v hu hv cu cv
    by_cases huv : u = v
    · subst huv
      exact ⟨_, (hcore u hu).2 cu, .refl _⟩
    · obtain ⟨w, w1, w2, w3, w4⟩ := bound_three (hin u v hu hv huv cu cv) ((hcore u hu).2 cu) ((hcore v hv).2 cv)
      exact ⟨w, w1, .rel _ _ ⟨hu, hv, huv, w2, w3, w4⟩⟩
  refine ⟨obj m, core m, k1 par hp, fun i hi => ⟨(k3 i hi).1, hcore i hi⟩, fun i hi hc => hn i hi (hfar i hi hc), fun k w A hA hk hw => ?_⟩
  have hsh := k4.shown k w A hA hk hw
  obtain ⟨L, e1, e2, e3, e4, _⟩ := k4.nested.shape
  have hlen : A.length = rows := by
    rw [e1] at hA
    rcases List.mem_append.1 hA with h | h
    · exact e4 _ h
    · simp only [List.mem_singleton, Prod.mk.injEq] at h; omega
  have hcomp : ∀ u l, u < rows → l ≠ 0 → A[u]? = some l → complete u := by
    intro u l hu hl hA
    have := hsh.alive u l hl hA
    rw [← hcore u hu]
    obtain ⟨v, hv⟩ := hd
    rw [hv] at hw ⊢
    cases hc : core m u with
    | nan => rw [hc] at this; cases w <;> simp [CCmp.le] at this
    | num x =>
      rw [hc] at this
      cases w with
      | nan => simp [CCmp.lt] at hw
      | num y =>
        simp only [CCmp.le, CCmp.lt, decide_eq_true_eq] at this hw ⊢
        exact lt_of_le_of_lt this hw
  refine ⟨fun u v hu hv => ⟨?_, ?_⟩, fun u hu hc => ?_⟩
  · rintro ⟨he, hne⟩
    have hul : u < A.length := by rw [hlen]; exact hu
    obtain ⟨l, hl⟩ : ∃ l, A[u]? = some l := ⟨_, List.getElem?_eq_getElem hul⟩
    have hl0 : l ≠ 0 := fun e => hne (by rw [hl, e])
    have cu := hcomp u l hu hl0 hl
    have cv := hcomp v l hv hl0 (by rw [← he]; exact hl)
    refine ⟨hsh.apart u v l hl0 hl (by rw [← he]; exact hl) (.inr (hlink u v hu hv cu cv)), ?_⟩
    rcases hsh.large u l hl0 hl with h | ⟨_, h⟩
    · exact h
    · obtain ⟨x, l1, l2, l3⟩ := hmany
      refine ⟨x, l1, l2, fun y hy => ?_⟩
      obtain ⟨w', w1, w2⟩ := hlink u y hu (l3 y hy).1 cu (l3 y hy).2
      exact h y w' w1 w2
  · rintro ⟨h1, h2⟩
    exact ⟨hsh.together u v hu hv h1, fun h0 => hsh.small u h0 h2⟩
  · have hul : u < A.length := by rw [hlen]; exact hu
    by_cases h0 : A[u] = 0
    · rw [List.getElem?_eq_getElem hul, h0]
    · exact absurd (hcomp u _ hu h0 (List.getElem?_eq_getElem hul)) hc

/-! ### C75 -/

/-- **C75**, what holds: the points of a cluster are exactly those of a component of at least `m` points at some level below `D_MAX`; hence no cluster reaches over a gap of
    `D_MAX` or more. What is missing: groups of at least `m` points that are `D_MAX` or more apart from each other need not be found, see `C75_violated`. -/
theorem C75_far_groups_partial [LinearOrder V] [CCmp S] [LinearOrder T] (env : Api.Env D (Ieee V) S T) (hd : ∃ v, env.ar.dmax = .num v) (hq : SortsAscending env.qsort)
    (data : List D) (rows cols : Nat) (f : Nat → Nat → Ieee V) (h : Readable env data rows cols f) (h5 : 5 ≤ rows) (m : Nat) (hm : 2 ≤ m) (par : Api.Par) (hp : Complete rows rows par) :
    ∃ (obj : Api.Obj (Ieee V) S T) (core : Nat → Ieee V), Api.fresh env par m data rows cols true = .ok obj ∧
      (∀ i, i < rows → obj.dis.coreDistances[i]? = some (some (core i))) ∧
      ∀ p l, l ≠ 0 → obj.results.labels[p]? = some l → ∃ w, CCmp.lt w env.ar.dmax = true ∧ AtLeast m (Linked rows (distOf env.dops f) core w p) ∧
        ∀ q, q < rows → (obj.results.labels[q]? = some l ↔ Linked rows (distOf env.dops f) core w p q) := by
  obtain ⟨obj, core, key⟩ := C71_any_data env hd hq data rows cols f h h5
  obtain ⟨k1, _, _, _, k3, k4, _⟩ := key m hm
  exact ⟨obj m, core m, k1 par hp, fun i hi => (k3 i hi).1, fun p l hl hpl => labelled_component hd k4 hl hpl⟩

/-! ### Concrete cases -/

/-- Arithmetic that NaN runs through. -/
def nanOp (g : Rat → Rat → Rat) : Ieee Rat → Ieee Rat → Ieee Rat
  | .num a, .num b => .num (g a b)
  | _, _ => .nan

/-- Rational data in one column that may contain NaN; `D_MAX` is 1000. -/
def nanEnv : Api.Env (Ieee Rat) (Ieee Rat) Rat Rat where
  dops := { diff := fun a b => .ok (nanOp (· - ·) a b), add := nanOp (· + ·), mul := nanOp (· * ·)
            sqrt := fun x => match x with | .num v => .num (Nat.sqrt v.num.toNat : Rat) | .nan => .nan
            zero := .num 0 }
  ar := { zeroW := .num 0, dmax := .num 1000, zeroS := 0, add := (· + ·)
          term := fun k w b => match w, b with | .num w, some (.num b) => k * (1 / w - 1 / b) | _, _ => 0 }
  smax := 100000
  oops := { zero := 0, ratio := fun a b => match a, b with | .num a, .num b => 1 - a / b | _, _ => 0 }
  qsort := isort

/-- The squared distances of the rows of one column. -/
def nanSq (xs : List (Ieee Rat)) (i j : Nat) : Ieee Rat := nanOp (· * ·) (nanOp (· - ·) (xs.getD i .nan) (xs.getD j .nan)) (nanOp (· - ·) (xs.getD i .nan) (xs.getD j .nan))

theorem nanOp_zero (x : Ieee Rat) : nanOp (· + ·) (.num 0) x = x := by
  cases x with
  | nan => rfl
  | num v => simp [nanOp]

/-- Every column of values can be read. -/
theorem nan_readable (xs : List (Ieee Rat)) (h : xs.length ≤ 65536) : Readable nanEnv xs xs.length 1 (nanSq xs) where
  few := h
  zero := rfl
  sum i j hij hj := by
    refine sqSum_iff.1 ?_
    have h1 : i < xs.length := by omega
    simp only [Distance.sumFrom, Nat.mul_one, Nat.add_zero, rd_ok h1, rd_ok hj, Outcome.ok_bind, nanEnv, nanOp_zero, nanSq, List.getD_eq_getElem?_getD,
      List.getElem?_eq_getElem h1, List.getElem?_eq_getElem hj, Option.getD_some]

/-- Two groups of three points, a row with NaN in between, and a row farther away than `D_MAX`. -/
def nanPts : List (Ieee Rat) := [.num 0, .num 1, .nan, .num 2, .num 50, .num 5000, .num 51, .num 52]

example := C71_any_data nanEnv ⟨1000, rfl⟩ (isort_sorts _) nanPts 8 1 (nanSq nanPts) (nan_readable nanPts (by decide)) (by omega)

/-- What the run computes for `m = 2`, and for more neighbours than there are rows. -/
example : (Api.fresh nanEnv (backPar 8 8) 2 nanPts 8 1 true >>= fun o => .ok (o.results.labels, o.results.clusters.length)) = .ok ([2, 2, 0, 2, 3, 0, 3, 3], 4) := by decide +kernel
example : (Api.fresh nanEnv (backPar 8 8) 12 nanPts 8 1 true >>= fun o => .ok (o.results.labels, o.results.clusters.length)) = .ok (List.replicate 8 0, 2) := by decide +kernel

/-- Two groups of three points, more than `D_MAX` apart; and the same points in another order of the rows. -/
def farPts : List (Ieee Rat) := [.num 0, .num 1, .num 2, .num 5000, .num 5001, .num 5002]
def farPts' : List (Ieee Rat) := [.num 5000, .num 5001, .num 0, .num 1, .num 2, .num 5002]

/-- **C75** is violated: of two groups of three neighbouring points more than `D_MAX` apart, in one order of the rows none is found, all points are noise, and
    their outlier scores are -999; in another order of the same rows both are found, and the scores are 0. -/
theorem C75_violated :
    (Api.fresh nanEnv (backPar 6 6) 2 farPts 6 1 true >>= fun o => .ok (o.results.labels, o.results.outliers.map (·.score))) =
      .ok ([0, 0, 0, 0, 0, 0], [-999, -999, -999, -999, -999, -999]) ∧
    (Api.fresh nanEnv (backPar 6 6) 2 farPts' 6 1 true >>= fun o => .ok (o.results.labels, o.results.outliers.map (·.score))) =
      .ok ([2, 2, 3, 3, 3, 2], [0, 0, 0, 0, 0, 0]) := by
  constructor <;> decide +kernel

example := C75_far_groups_partial nanEnv ⟨1000, rfl⟩ (isort_sorts _) farPts 6 1 (nanSq farPts) (nan_readable farPts (by decide)) (by omega) 2 (by omega) (backPar 6 6) (backPar_complete 6 6)

instance [CCmp D] (a b : D) : Decidable (NotBelow a b) := inferInstanceAs (Decidable (_ = false))

/-- The row with NaN and the row that is too far away are noise. -/
example := (C73_noise nanEnv ⟨1000, rfl⟩ (isort_sorts _) nanPts 8 1 (nanSq nanPts) (nan_readable nanPts (by decide)) (by omega) 2 (by omega) (backPar 8 8) (backPar_complete 8 8)).imp
  fun _ h => And.intro (h.2.2.1 2 (by omega) (by decide +kernel)) (h.2.2.1 5 (by omega) (by decide +kernel))
example := (C73_noise nanEnv ⟨1000, rfl⟩ (isort_sorts _) nanPts 8 1 (nanSq nanPts) (nan_readable nanPts (by decide)) (by omega) 12 (by omega) (backPar 8 8) (backPar_complete 8 8)).imp
  fun _ h => h.2.2.2 (by omega)

/-- NaN and a distance beyond `D_MAX` have the same effect. -/
example := C72_not_below nanEnv ⟨1000, rfl⟩ (isort_sorts _) nanPts (nanPts.set 5 .nan) 8 1 1 (nanSq nanPts) (nanSq (nanPts.set 5 .nan)) (nan_readable nanPts (by decide))
  (nan_readable (nanPts.set 5 .nan) (by decide)) (by omega)
  (fun i j hij hj => (by decide +kernel : ∀ j, j < 8 → ∀ i, i < j → nanEnv.dops.sqrt (nanSq nanPts i j) = nanEnv.dops.sqrt (nanSq (nanPts.set 5 .nan) i j) ∨
    (NotBelow nanEnv.ar.dmax (nanEnv.dops.sqrt (nanSq nanPts i j)) ∧ NotBelow nanEnv.ar.dmax (nanEnv.dops.sqrt (nanSq (nanPts.set 5 .nan) i j)))) j hj i hij)
  2 (by omega) (backPar 8 8) (backPar 8 8) (backPar_complete 8 8) (backPar_complete 8 8)

/-- The other six rows are complete. -/
example := C74_incomplete_rows nanEnv ⟨1000, rfl⟩ (isort_sorts _) (by decide +kernel) nanPts 8 1 (nanSq nanPts) (nan_readable nanPts (by decide)) (by omega) 3 (by omega)
  (fun i => i ≠ 2 ∧ i ≠ 5) ⟨[0, 1, 3], by decide, by decide, by decide⟩
  (fun i j hi hj h1 h2 h3 => (by decide +kernel : ∀ i, i < 8 → ∀ j, j < 8 → (i ≠ j ∧ (i ≠ 2 ∧ i ≠ 5) ∧ j ≠ 2 ∧ j ≠ 5) →
    ¬ NotBelow nanEnv.ar.dmax (distOf nanEnv.dops (nanSq nanPts) i j)) i hi j hj ⟨h1, h2, h3⟩ |> fun h => by simpa [NotBelow] using h)
  (fun i j hi hj h1 h2 => (by decide +kernel : ∀ i, i < 8 → ∀ j, j < 8 → (i ≠ j ∧ ¬ (i ≠ 2 ∧ i ≠ 5)) →
    NotBelow nanEnv.ar.dmax (distOf nanEnv.dops (nanSq nanPts) i j)) i hi j hj ⟨h1, h2⟩)
  (backPar 8 8) (backPar_complete 8 8)

end Verif.Props
