import Verif.Props.FarRows
import Verif.Props.SingleLink
import Verif.Props.AnyThreads
/-
C87, C91, C92, C119 and C127 for every interleaving of threads: the data race of C37 changes neither core distances nor the hierarchy.
-/
namespace Verif.Props
open Spec Race
variable {D W S T : Type}

/-- With any interleaving of threads a run completes with the core distances and the hierarchy of a run with one thread. -/
theorem threads_hierarchy [LinearOrder W] [CCmp S] [LinearOrder T] {env : Api.Env D W S T} (hq : SortsAscending env.qsort) {data : List D} {rows cols : Nat} {f : Nat → Nat → W}
    (h : Supported env data rows cols f) (h5 : 5 ≤ rows) {m : Nat} (hm : 2 ≤ m) (hmr : m ≤ rows) {obj : Api.Obj W S T}
    (hf : ∀ par, Complete rows rows par → Api.fresh env par m data rows cols true = .ok obj) {th : Threads} (hth : Interleaves th) :
    ∃ o : Api.Obj W S T, (∀ par, Complete rows rows par → Race.fresh th env par m data rows cols true = .ok o) ∧ o.dis = obj.dis ∧ o.results.hierarchy = obj.results.hierarchy := by
  obtain ⟨o2, b1, b2, -⟩ := C63_threads_partial env hq data rows cols f h h5 m hm hmr
  obtain rfl : o2 = obj := fresh_same b1 hf
  obtain ⟨o, lost, -, s2, s3⟩ := b2 th hth
  exact ⟨o, s3, s2.dis, s2.hierarchy⟩

/-- **C87 for every interleaving of threads** in each of the two runs. Same gap as in `C87_never_joins_partial`. -/
theorem C87_threads_partial [LinearOrder W] [CCmp S] [LinearOrder T] (env : Api.Env D W S T) (hq : SortsAscending env.qsort) (data : List D) (rows cols : Nat) (f : Nat → Nat → W)
    (h : Supported env data rows cols f) (h5 : 5 ≤ rows) (m m' : Nat) (hm : 2 ≤ m) (hmm : m ≤ m') (hmr : m' ≤ rows)
    (ht : Untied rows m (distOf env.dops f)) (ht' : Untied rows m' (distOf env.dops f)) (th th' : Threads) (hth : Interleaves th) (hth' : Interleaves th') :
    ∃ obj obj' : Api.Obj W S T, (∀ par, Complete rows rows par → Race.fresh th env par m data rows cols true = .ok obj ∧ Race.fresh th' env par m' data rows cols true = .ok obj') ∧
      (∀ i, i < rows → ∃ c c', obj.dis.coreDistances[i]? = some (some c) ∧ obj'.dis.coreDistances[i]? = some (some c') ∧ c ≤ c') ∧
      ∀ i w A i' w' A', (i, w, A) ∈ obj.results.hierarchy → i ≠ 0 → (i', w', A') ∈ obj'.results.hierarchy → i' ≠ 0 → w' ≤ w →
        ∀ (u v l' : Nat), A'[u]? = some l' → A'[v]? = some l' → l' ≠ 0 → ∃ l, l ≠ 0 ∧ A[u]? = some l ∧ A[v]? = some l := by
  obtain ⟨a, b, hab, h1, h2⟩ := C87_never_joins_partial env hq data rows cols f h h5 m m' hm hmm hmr ht ht'
  obtain ⟨o, p1, p2, p3⟩ := threads_hierarchy hq h h5 hm (by omega) (fun par hp => (hab par hp).1) hth
  obtain ⟨o', q1, q2, q3⟩ := threads_hierarchy hq h h5 (by omega) hmr (fun par hp => (hab par hp).2.1) hth'
  rw [← p2, ← q2] at h1
  rw [← p3, ← q3] at h2
  exact ⟨o, o', fun par hp => ⟨p1 par hp, q1 par hp⟩, h1, h2⟩

/-- **C91 for every interleaving of threads** in each of the two runs. Same gap as in `C91_stable_partial`. -/
theorem C91_threads_partial [AddCommGroup W] [LinearOrder W] [IsOrderedAddMonoid W] [CCmp S] [LinearOrder T] (env : Api.Env D W S T) (hq : SortsAscending env.qsort) (data data' : List D)
    (rows cols cols' : Nat) (f f' : Nat → Nat → W) (h : Supported env data rows cols f) (h' : Supported env data' rows cols' f') (h5 : 5 ≤ rows) (m : Nat) (hm : 2 ≤ m) (hmr : m ≤ rows)
    (ht : Untied rows m (distOf env.dops f)) (ht' : Untied rows m (distOf env.dops f')) (eps : W) (he : 0 ≤ eps)
    (hclose : ∀ i j, i < j → j < rows → |distOf env.dops f i j - distOf env.dops f' i j| ≤ eps) (th th' : Threads) (hth : Interleaves th) (hth' : Interleaves th') :
    ∃ obj obj' : Api.Obj W S T, (∀ par, Complete rows rows par → Race.fresh th env par m data rows cols true = .ok obj ∧ Race.fresh th' env par m data' rows cols' true = .ok obj') ∧
      (∀ i, i < rows → ∃ c c', obj.dis.coreDistances[i]? = some (some c) ∧ obj'.dis.coreDistances[i]? = some (some c') ∧ |c - c'| ≤ eps) ∧
      ∀ i w A i' w' A', (i, w, A) ∈ obj.results.hierarchy → i ≠ 0 → (i', w', A') ∈ obj'.results.hierarchy → i' ≠ 0 → ∀ u v l : Nat, l ≠ 0 →
        (w + eps ≤ w' → A[u]? = some l → A[v]? = some l → ∃ l', l' ≠ 0 ∧ A'[u]? = some l' ∧ A'[v]? = some l') ∧
        (w' + eps ≤ w → A'[u]? = some l → A'[v]? = some l → ∃ l', l' ≠ 0 ∧ A[u]? = some l' ∧ A[v]? = some l') := by
  obtain ⟨a, b, hab, h1, h2⟩ := C91_stable_partial env hq data data' rows cols cols' f f' h h' h5 m hm hmr ht ht' eps he hclose
  obtain ⟨o, p1, p2, p3⟩ := threads_hierarchy hq h h5 hm hmr (fun par hp => (hab par hp).1) hth
  obtain ⟨o', q1, q2, q3⟩ := threads_hierarchy hq h' h5 hm hmr (fun par hp => (hab par hp).2) hth'
  rw [← p2, ← q2] at h1
  rw [← p3, ← q3] at h2
  exact ⟨o, o', fun par hp => ⟨p1 par hp, q1 par hp⟩, h1, h2⟩

/-- **C92 for every interleaving of threads** in each of the two runs. Same gap as in `C92_more_rows_partial`. -/
theorem C92_threads_partial [LinearOrder W] [CCmp S] [LinearOrder T] (env : Api.Env D W S T) (hq : SortsAscending env.qsort) (ha : PlainArith env.dops) (data data' : List D) (rows rows' cols : Nat)
    (f f' : Nat → Nat → W) (h : Supported env data rows cols f) (h' : Supported env data' rows' cols f') (h5 : 5 ≤ rows) (h5' : 5 ≤ rows') (m : Nat) (hm : 2 ≤ m) (hmr : m ≤ rows) (hmr' : m ≤ rows')
    (φ : Nat → Nat) (hlt : ∀ i, i < rows → φ i < rows') (hinj : ∀ i j, i < rows → j < rows → φ i = φ j → i = j) (hrow : ∀ i, i < rows → SameRow data data' cols i (φ i))
    (ht : Untied rows m (distOf env.dops f)) (ht' : Untied rows' m (distOf env.dops f')) (th th' : Threads) (hth : Interleaves th) (hth' : Interleaves th') :
    ∃ obj obj' : Api.Obj W S T, (∀ par, Complete rows rows par → Race.fresh th env par m data rows cols true = .ok obj) ∧
      (∀ par, Complete rows' rows' par → Race.fresh th' env par m data' rows' cols true = .ok obj') ∧
      (∀ i, i < rows → ∃ c c', obj.dis.coreDistances[i]? = some (some c) ∧ obj'.dis.coreDistances[φ i]? = some (some c') ∧ c' ≤ c) ∧
      ∀ i w A i' w' A', (i, w, A) ∈ obj.results.hierarchy → i ≠ 0 → (i', w', A') ∈ obj'.results.hierarchy → i' ≠ 0 → w ≤ w' → ∀ u v l : Nat, l ≠ 0 →
        A[u]? = some l → A[v]? = some l → ∃ l', l' ≠ 0 ∧ A'[φ u]? = some l' ∧ A'[φ v]? = some l' := by
  obtain ⟨a, b, ha', hb, h1, h2⟩ := C92_more_rows_partial env hq ha data data' rows rows' cols f f' h h' h5 h5' m hm hmr hmr' φ hlt hinj hrow ht ht'
  obtain ⟨o, p1, p2, p3⟩ := threads_hierarchy hq h h5 hm hmr ha' hth
  obtain ⟨o', q1, q2, q3⟩ := threads_hierarchy hq h' h5' hm hmr' hb hth'
  rw [← p2, ← q2] at h1
  rw [← p3, ← q3] at h2
  exact ⟨o, o', p1, q1, h1, h2⟩

/-- **C119 for every interleaving of threads.** -/
theorem C119_threads [LinearOrder W] [CCmp S] [LinearOrder T] (env : Api.Env D W S T) (hq : SortsAscending env.qsort) (data : List D) (rows cols : Nat) (f : Nat → Nat → W)
    (h : Supported env data rows cols f) (h5 : 5 ≤ rows) (hpos : ∀ i j, i < j → j < rows → env.dops.zero ≤ env.dops.sqrt (f i j)) (th : Threads) (hth : Interleaves th) :
    ∃ obj : Api.Obj W S T, (∀ par, Complete rows rows par → Race.fresh th env par 2 data rows cols true = .ok obj) ∧
      (∀ i, i < rows → ∃ j, j < rows ∧ j ≠ i ∧ obj.dis.coreDistances[i]? = some (some (distOf env.dops f i j)) ∧ ∀ j', j' < rows → j' ≠ i → distOf env.dops f i j ≤ distOf env.dops f i j') ∧
      (∀ w, (∃ i, i ≠ 0 ∧ HasWeight obj.results.hierarchy i w) ↔ ∃ u v, MeetAt rows (distOf env.dops f) w u v) ∧
      ∀ i w A, (i, w, A) ∈ obj.results.hierarchy → i ≠ 0 → A.length = rows ∧
        (∀ u v : Nat, u < rows → v < rows → u ≠ v → ((∃ l, l ≠ 0 ∧ A[u]? = some l ∧ A[v]? = some l) ↔ Reachable rows (distOf env.dops f) w u v)) ∧
        (∀ u : Nat, u < rows → (A[u]? = some 0 ↔ ∀ v, v < rows → v ≠ u → w < distOf env.dops f u v)) := by
  obtain ⟨a, ha, h1, h2, h3⟩ := C119_single_linkage env hq data rows cols f h h5 hpos
  obtain ⟨o, p1, p2, p3⟩ := threads_hierarchy hq h h5 (by omega) (by omega) ha hth
  rw [← p2] at h1
  rw [← p3] at h2 h3
  exact ⟨o, p1, h1, h2, h3⟩

/-- **C127 for every interleaving of threads** in each of the two runs. Same gap as in `C127_far_rows_partial`. -/
theorem C127_threads_partial [LinearOrder W] [CCmp S] [LinearOrder T] (env : Api.Env D W S T) (hq : SortsAscending env.qsort) (ha : PlainArith env.dops) (data data' : List D) (rows rows' cols : Nat)
    (f f' : Nat → Nat → W) (h : Supported env data rows cols f) (h' : Supported env data' rows' cols f') (h5 : 5 ≤ rows) (h5' : 5 ≤ rows') (m : Nat) (hm : 2 ≤ m) (hmr : m ≤ rows) (hmr' : m ≤ rows')
    (φ : Nat → Nat) (hlt : ∀ i, i < rows → φ i < rows') (hinj : ∀ i j, i < rows → j < rows → φ i = φ j → i = j) (hrow : ∀ i, i < rows → SameRow data data' cols i (φ i))
    (ht : Untied rows m (distOf env.dops f)) (ht' : Untied rows' m (distOf env.dops f')) (Δ : W)
    (hfar : ∀ i j, i < rows → j < rows' → (∀ k, k < rows → φ k ≠ j) → Δ ≤ distOf env.dops f' (φ i) j) (th th' : Threads) (hth : Interleaves th) (hth' : Interleaves th') :
    ∃ obj obj' : Api.Obj W S T, (∀ par, Complete rows rows par → Race.fresh th env par m data rows cols true = .ok obj) ∧
      (∀ par, Complete rows' rows' par → Race.fresh th' env par m data' rows' cols true = .ok obj') ∧
      (∀ i, i < rows → ∃ c c', obj.dis.coreDistances[i]? = some (some c) ∧ obj'.dis.coreDistances[φ i]? = some (some c') ∧ (c' < Δ → c = c')) ∧
      ∀ i w A i' w' A', (i, w, A) ∈ obj.results.hierarchy → i ≠ 0 → (i', w', A') ∈ obj'.results.hierarchy → i' ≠ 0 → ∀ u v l : Nat, u < rows → v < rows → l ≠ 0 →
        (w ≤ w' → A[u]? = some l → A[v]? = some l → ∃ l', l' ≠ 0 ∧ A'[φ u]? = some l' ∧ A'[φ v]? = some l') ∧
        (w' ≤ w → w' < Δ → A'[φ u]? = some l → A'[φ v]? = some l → ∃ l', l' ≠ 0 ∧ A[u]? = some l' ∧ A[v]? = some l') := by
  obtain ⟨a, b, ha', hb, h1, h2⟩ := C127_far_rows_partial env hq ha data data' rows rows' cols f f' h h' h5 h5' m hm hmr hmr' φ hlt hinj hrow ht ht' Δ hfar
  obtain ⟨o, p1, p2, p3⟩ := threads_hierarchy hq h h5 hm hmr ha' hth
  obtain ⟨o', q1, q2, q3⟩ := threads_hierarchy hq h' h5' hm hmr' hb hth'
  rw [← p2, ← q2] at h1
  rw [← p3, ← q3] at h2
  exact ⟨o, o', p1, q1, h1, h2⟩

/-- Cases of C87, C91, C92, C119 and C127: those of the theorems with one thread, and threads that read an old value. -/
example := C87_threads_partial lineEnv (isort_sorts _) apartPts 5 1 (lineSq apartPts) apartPts_supported (by omega) 3 4 (by omega) (by omega) (by omega) C87_premises.1 C87_premises.2 hasty hasty hasty_interleaves hasty_interleaves
example := C91_threads_partial lineEnv (isort_sorts _) apartPts [0, 1, 3, 7, 16] 5 1 1 (lineSq apartPts) (lineSq [0, 1, 3, 7, 16]) apartPts_supported movedPts_supported (by omega) 3 (by omega) (by omega)
  C87_premises.1 (untied_of_distinct (by decide +kernel)) 1 (by decide +kernel)
  (fun i j hij hj => (by decide +kernel : ∀ j, j < 5 → ∀ i, i < j → |distOf lineEnv.dops (lineSq apartPts) i j - distOf lineEnv.dops (lineSq [0, 1, 3, 7, 16]) i j| ≤ 1) j hj i hij)
  hasty hasty hasty_interleaves hasty_interleaves
example := C92_threads_partial lineEnv (isort_sorts _) lineEnv_plain apartPts [0, 1, 3, 31, 7, 15] 5 6 1 (lineSq apartPts) (lineSq [0, 1, 3, 31, 7, 15]) apartPts_supported morePts_supported (by omega) (by omega)
  3 (by omega) (by omega) (by omega) (fun i => if i < 3 then i else i + 1) (by decide) (fun i j _ _ e => by split_ifs at e <;> omega)
  (fun i hi k hk => (by decide +kernel : ∀ i, i < 5 → ∀ k, k < 1 → apartPts[i * 1 + k]? = ([0, 1, 3, 31, 7, 15] : List Rat)[(if i < 3 then i else i + 1) * 1 + k]?) i hi k hk)
  C87_premises.1 (untied_of_distinct (by decide +kernel)) hasty hasty hasty_interleaves hasty_interleaves
example := C119_threads lineEnv (isort_sorts _) apartPts 5 1 (lineSq apartPts) apartPts_supported (by omega)
  (fun i j hij hj => (by decide +kernel : ∀ j, j < 5 → ∀ i, i < j → lineEnv.dops.zero ≤ lineEnv.dops.sqrt (lineSq apartPts i j)) j hj i hij) hasty hasty_interleaves
example := C127_threads_partial lineEnv (isort_sorts _) lineEnv_plain apartPts [0, 1, 3, 60, 7, 15] 5 6 1 (lineSq apartPts) (lineSq [0, 1, 3, 60, 7, 15]) apartPts_supported farPts_supported (by omega) (by omega)
  3 (by omega) (by omega) (by omega) (fun i => if i < 3 then i else i + 1) (by decide) (fun i j _ _ e => by split_ifs at e <;> omega)
  (fun i hi k hk => (by decide +kernel : ∀ i, i < 5 → ∀ k, k < 1 → apartPts[i * 1 + k]? = ([0, 1, 3, 60, 7, 15] : List Rat)[(if i < 3 then i else i + 1) * 1 + k]?) i hi k hk)
  C87_premises.1 (untied_of_distinct (by decide +kernel)) 40
  (fun i j hi hj hno => (by decide +kernel : ∀ i, i < 5 → ∀ j, j < 6 → (∀ k, k < 5 → (if k < 3 then k else k + 1) ≠ j) → (40 : Rat) ≤ distOf lineEnv.dops (lineSq [0, 1, 3, 60, 7, 15]) (if i < 3 then i else i + 1) j)
    i hi j hj hno) hasty hasty hasty_interleaves hasty_interleaves

end Verif.Props
