import Verif.Props.RaceRun
import Verif.Props.Invariance
import Verif.Props.Size
/-
C35, C59, C60 and C64 with several threads: what remains true whatever the interleaving of the loop that assigns offsets (C37).
-/
namespace Verif.Props
open Spec Race
variable {D D' W S T : Type}

/-- Two statements about fresh runs are about the same object. -/
theorem fresh_same [CCmp W] [CCmp S] [CCmp T] {env : Api.Env D W S T} {m rows cols : Nat} {data : List D} {a b : Api.Obj W S T}
    (h1 : ∀ par, Complete rows rows par → Api.fresh env par m data rows cols true = .ok a)
    (h2 : ∀ par, Complete rows rows par → Api.fresh env par m data rows cols true = .ok b) : a = b :=
  Outcome.ok.inj ((h1 _ (backPar_complete rows rows)).symm.trans (h2 _ (backPar_complete rows rows)))

/-- The labels of a run that lost clusters. -/
theorem lost_label {lost : Nat → Bool} {a b : Api.Obj W S T} (h : SameButLost lost a b) (p l : Nat) (hl : l ≠ 0) :
    b.results.labels[p]? = some l ↔ a.results.labels[p]? = some l ∧ lost l = false := by
  rw [h.labels, List.getElem?_map]
  cases (a.results.labels[p]? : Option Nat) with
  | none => simp
  | some x =>
    simp only [Option.map_some, Option.some.injEq]
    constructor
    · intro hx
      by_cases hlx : lost x = true
      · rw [if_pos hlx] at hx; omega
      · rw [if_neg hlx] at hx; subst hx; exact ⟨rfl, by simpa using hlx⟩
    · rintro ⟨rfl, hx⟩; simp [hx]

/-- **C35 with threads.** Whatever the interleaving of the loop with the data race and the schedules of the other loops: the labels are those of some of the selected clusters. Every selected
    cluster is either kept - its label is carried by exactly its first members, at least `m` points - or lost, and then no point carries its label. All other points are noise. -/
theorem C35_threads [LinearOrder W] [CCmp S] [LinearOrder T] (env : Api.Env D W S T) (hq : SortsAscending env.qsort) (data : List D) (rows cols : Nat) (f : Nat → Nat → W)
    (h : Supported env data rows cols f) (h5 : 5 ≤ rows) (m : Nat) (hm : 2 ≤ m) (hmr : m ≤ rows) (th : Threads) (hth : Interleaves th) :
    ∃ (obj : Api.Obj W S T) (root : Cl W S) (lost : Nat → Bool), (∀ par, Complete rows rows par → Race.fresh th env par m data rows cols true = .ok obj) ∧
      obj.results.clusters[1]? = some (some root) ∧ obj.results.labels.length = rows ∧
      (∀ p l : Nat, l ≠ 0 → (obj.results.labels[p]? = some l ↔ l ∈ root.desc ∧ lost l = false ∧ MemberAtBirth obj.results.hierarchy l p)) ∧
      (∀ l ∈ root.desc, lost l = false → AtLeast m (fun p => obj.results.labels[p]? = some l)) := by
  obtain ⟨o1, core, a1, _, _, _, _, _, ⟨root, r1, r2, r3, r4, r5, r6⟩, _⟩ := C55_run_partial env hq data rows cols f h h5 m hm hmr
  obtain ⟨o2, b1, b2, _⟩ := C63_threads_partial env hq data rows cols f h h5 m hm hmr
  have e : o2 = o1 := fresh_same b1 a1
  subst e
  obtain ⟨obj, lost, s1, s2, s3⟩ := b2 th hth
  have hr : obj.results.clusters[1]? = some (some (if lost 1 then { root with offset := 0 } else root)) := by
    rw [s2.clusters 1, r1]; rfl
  have hd : (if lost 1 then { root with offset := 0 } else root).desc = root.desc := by split <;> rfl
  refine ⟨obj, _, lost, s3, hr, by rw [s2.labels, List.length_map, r4], fun p l hl => ?_, fun l hl hk => ?_⟩
  · rw [hd, lost_label s2 p l hl, r5 p l hl, s2.hierarchy]
    tauto
  · rw [hd] at hl
    have hl0 : l ≠ 0 := by
      obtain ⟨q, hq⟩ := r3.notRoot l hl
      have := r2.up l q hq
      omega
    obtain ⟨ps, p1, p2, p3⟩ := r6 l hl
    exact ⟨ps, p1, p2, fun p hp => (lost_label s2 p l hl0).2 ⟨p3 p hp, hk⟩⟩

/-- **C59 with threads.** Duplicate rows are treated alike also when the race loses clusters. -/
theorem C59_threads [LinearOrder W] [CCmp S] [LinearOrder T] (env : Api.Env D W S T) (hq : SortsAscending env.qsort) (ha : PlainArith env.dops) (data : List D) (rows cols : Nat)
    (f : Nat → Nat → W) (h : Supported env data rows cols f) (h5 : 5 ≤ rows) (m : Nat) (hm : 2 ≤ m) (hmr : m ≤ rows) (hz : ∀ w : W, env.ar.zeroW ≤ env.dops.sqrt w)
    (p q : Nat) (hp : p < rows) (hq' : q < rows) (hpq : SameRow data data cols p q) (th : Threads) (hth : Interleaves th) :
    ∃ obj : Api.Obj W S T, (∀ par, Complete rows rows par → Race.fresh th env par m data rows cols true = .ok obj) ∧
      (∃ c, obj.dis.coreDistances[p]? = some (some c) ∧ obj.dis.coreDistances[q]? = some (some c)) ∧
      (∀ i w A, (i, w, A) ∈ obj.results.hierarchy → ∃ l, A[p]? = some l ∧ A[q]? = some l) ∧
      (∃ l, obj.results.labels[p]? = some l ∧ obj.results.labels[q]? = some l) ∧
      (∃ a ∈ obj.results.outliers, ∃ b ∈ obj.results.outliers, a.id = p ∧ b.id = q ∧ a.score = b.score) := by
  obtain ⟨o1, a1, c1, c2, ⟨l, c3, c4⟩, c5⟩ := C59_duplicates env hq ha data rows cols f h h5 m hm hmr hz p q hp hq' hpq
  obtain ⟨o2, b1, b2, _⟩ := C63_threads_partial env hq data rows cols f h h5 m hm hmr
  have e : o2 = o1 := fresh_same b1 a1
  subst e
  obtain ⟨obj, lost, s1, s2, s3⟩ := b2 th hth
  refine ⟨obj, s3, by rwa [s2.dis], by rwa [s2.hierarchy], ⟨if lost l then 0 else l, ?_, ?_⟩, by rwa [s2.outliers]⟩
  · rw [s2.labels, List.getElem?_map, c3]; rfl
  · rw [s2.labels, List.getElem?_map, c4]; rfl

/-- **C60 with threads.** For data sets with the same distances the same results are possible: whatever the threads make of one of them, they can make of the other one. -/
theorem C60_threads [LinearOrder W] [CCmp S] [LinearOrder T] (env : Api.Env D W S T) (env' : Api.Env D' W S T) (hq : SortsAscending env.qsort)
    (e1 : env'.ar = env.ar) (e2 : env'.smax = env.smax) (e3 : env'.oops = env.oops) (e4 : env'.qsort = env.qsort)
    (data : List D) (data' : List D') (rows cols cols' : Nat) (f f' : Nat → Nat → W) (h : Supported env data rows cols f) (h' : Supported env' data' rows cols' f')
    (hd : ∀ i j, i < j → j < rows → env.dops.sqrt (f i j) = env'.dops.sqrt (f' i j)) (h5 : 5 ≤ rows) (m : Nat) (hm : 2 ≤ m) (hmr : m ≤ rows)
    (th : Threads) (hth : Interleaves th) :
    ∃ (th' : Threads) (obj obj' : Api.Obj W S T), Interleaves th' ∧
      (∀ par, Complete rows rows par → Race.fresh th env par m data rows cols true = .ok obj ∧ Race.fresh th' env' par m data' rows cols' true = .ok obj') ∧
      obj'.results = obj.results ∧ obj'.dis.coreDistances = obj.dis.coreDistances ∧ obj'.dis.distances = obj.dis.distances := by
  obtain ⟨o, o', a1, a2, a3, a4⟩ := C60_same_distances env env' hq e1 e2 e3 e4 data data' rows cols cols' f f' h h' hd h5 m hm hmr
  obtain ⟨p, b1, b2, _⟩ := C63_threads_partial env hq data rows cols f h h5 m hm hmr
  obtain ⟨p', b1', _, b3'⟩ := C63_threads_partial env' (by rw [e4]; exact hq) data' rows cols' f' h' h5 m hm hmr
  have e : p = o := fresh_same b1 (fun par hp => (a1 par hp).1)
  have e' : p' = o' := fresh_same b1' (fun par hp => (a1 par hp).2)
  subst e e'
  obtain ⟨obj, lost, s1, s2, s3⟩ := b2 th hth
  obtain ⟨th', obj', t1, t2, t3⟩ := b3' lost (by rw [a2]; exact s1)
  refine ⟨th', obj, obj', t1, fun par hp => ⟨s3 par hp, t3 par hp⟩, ?_, by rw [t2.dis, s2.dis, a3], by rw [t2.dis, s2.dis, a4]⟩
  have hc : obj'.results.clusters = obj.results.clusters := List.ext_getElem? (fun l => by rw [t2.clusters l, s2.clusters l, a2])
  have q1 := t2.labels.trans (by rw [a2, ← s2.labels])
  have q2 := t2.hierarchy.trans (by rw [a2, ← s2.hierarchy])
  have q3 := t2.noise.trans (by rw [a2, ← s2.noise])
  have q4 := t2.last.trans (by rw [a2, ← s2.last])
  have q5 := t2.infinite.trans (by rw [a2, ← s2.infinite])
  have q6 := t2.outliers.trans (by rw [a2, ← s2.outliers])
  revert hc q1 q2 q3 q4 q5 q6
  generalize obj.results = x
  generalize obj'.results = y
  rcases x with ⟨⟨_, _, _, _, _, _⟩, _⟩
  rcases y with ⟨⟨_, _, _, _, _, _⟩, _⟩
  rintro rfl rfl rfl rfl rfl rfl rfl
  rfl

/-- **C64 with threads.** The bounds on the size of the results hold whatever the threads do. -/
theorem C64_threads [LinearOrder W] [CCmp S] [LinearOrder T] (env : Api.Env D W S T) (hq : SortsAscending env.qsort) (data : List D) (rows cols : Nat) (f : Nat → Nat → W)
    (h : Supported env data rows cols f) (h5 : 5 ≤ rows) (m : Nat) (hm : 2 ≤ m) (hmr : m ≤ rows) (th : Threads) (hth : Interleaves th) :
    ∃ obj : Api.Obj W S T, (∀ par, Complete rows rows par → Race.fresh th env par m data rows cols true = .ok obj) ∧
      obj.results.hierarchy.length ≤ rows ∧ obj.results.clusters.length * m ≤ 2 * rows ∧
      (∀ ls : List Nat, ls.Nodup → (∀ l ∈ ls, l ≠ 0 ∧ l ∈ obj.results.labels) → ls.length * m ≤ rows) ∧
      ∀ l ∈ obj.results.labels, l < obj.results.clusters.length := by
  obtain ⟨o1, a1, c1, c2, c3, c4⟩ := C64_size env hq data rows cols f h h5 m hm hmr
  obtain ⟨o2, b1, b2, _⟩ := C63_threads_partial env hq data rows cols f h h5 m hm hmr
  have e : o2 = o1 := fresh_same b1 a1
  subst e
  obtain ⟨obj, lost, s1, s2, s3⟩ := b2 th hth
  have hlen : obj.results.clusters.length = o2.results.clusters.length := by
    have hx : ∀ l, l < obj.results.clusters.length ↔ l < o2.results.clusters.length := by
      intro l
      have := congrArg Option.isSome (s2.clusters l)
      rw [Option.isSome_map, Bool.eq_iff_iff] at this
      simpa using this
    have h1 := hx obj.results.clusters.length
    have h2 := hx o2.results.clusters.length
    omega
  have hmem : ∀ l, l ≠ 0 → l ∈ obj.results.labels → l ∈ o2.results.labels := by
    intro l hl hx
    obtain ⟨p, hp⟩ := List.mem_iff_getElem?.1 hx
    exact List.mem_iff_getElem?.2 ⟨p, ((lost_label s2 p l hl).1 hp).1⟩
  refine ⟨obj, s3, by rwa [s2.hierarchy], by rwa [hlen], fun ls h1 h2 => c3 ls h1 (fun l hl => ⟨(h2 l hl).1, hmem l (h2 l hl).1 (h2 l hl).2⟩), fun l hl => ?_⟩
  rw [hlen]
  by_cases hl0 : l = 0
  · subst hl0
    have hne : o2.results.labels ≠ [] := by
      intro he
      rw [s2.labels, he] at hl
      simp at hl
    obtain ⟨x, hx⟩ := List.exists_mem_of_ne_nil _ hne
    exact lt_of_le_of_lt (Nat.zero_le x) (c4 x hx)
  · exact c4 l (hmem l hl0 hl)

/-! ### Concrete cases: hasty threads, on the points of C55 and on points with a duplicate -/

example := C35_threads lineEnv (isort_sorts _) linePts 5 1 _ linePts_supported (by decide) 2 (by decide) (by decide) hasty hasty_interleaves
example := C59_threads lineEnv (isort_sorts _) lineEnv_plain [0, 7, 0, 9, 3] 5 1 (lineSq [0, 7, 0, 9, 3]) dupPts_supported (by omega) 2 (by omega) (by omega)
  (fun w => Nat.cast_nonneg _) 0 2 (by omega) (by omega) (by intro k hk; obtain rfl : k = 0 := by omega
                                                             rfl) hasty hasty_interleaves
example := C60_threads lineEnv lineEnv (isort_sorts _) rfl rfl rfl rfl linePts [10, 3, 9, 1, 7] 5 1 1 _ _ linePts_supported mirror_supported
  (fun i j hij hj => (by decide +kernel : ∀ j, j < 5 → ∀ i, i < j → lineEnv.dops.sqrt (lineSq linePts i j) = lineEnv.dops.sqrt (lineSq [10, 3, 9, 1, 7] i j)) j hj i hij)
  (by omega) 2 (by omega) (by omega) hasty hasty_interleaves
example := C64_threads lineEnv (isort_sorts _) linePts 5 1 _ linePts_supported (by decide) 2 (by decide) (by decide) hasty hasty_interleaves

end Verif.Props
