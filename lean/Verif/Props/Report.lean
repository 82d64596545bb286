import Verif.Lemmas.Report
import Verif.Lemmas.SortNan
import Verif.Props.Any
import Mathlib.Order.WithBot
/-
Property C79: the report on a clustering.
-/
namespace Verif.Props
open Verif.Spec Verif.CSort Verif.Report
variable {V W : Type}

theorem mem_group {labels : List Nat} {n : Nat} {m : KMap (List Nat)} (hm : IsClusterMap labels 0 n m) {x : Nat × List Nat} (hx : x ∈ m) :
    x.2 ≠ [] ∧ ∀ i ∈ x.2, i < n := by
  have h := (hm.lists x.1 x.2).1 ((KMap.lookup_mem hm.ascending).2 hx)
  refine ⟨h.2, fun i hi => ?_⟩
  rw [h.1] at hi
  simp [carriers] at hi
  exact hi.1

theorem map_ne_nil {labels : List Nat} {n : Nat} {m : KMap (List Nat)} (hm : IsClusterMap labels 0 n m) (h1 : 1 ≤ n) (hl : n ≤ labels.length) : m ≠ [] := by
  rintro rfl
  have h0 : 0 < labels.length := by omega
  have := (hm.lists labels[0] (carriers labels 0 n labels[0])).2 ⟨rfl, by
    intro h
    have : 0 ∈ carriers labels 0 n labels[0] := by simp [carriers, h0]; omega
    rw [h] at this
    simp at this⟩
  simp [KMap.lookup] at this

/-- The statistics can be computed for every table with entries. -/
theorem calculate_ok [CCmp W] (o : Stat.Ops W) (m : KMap (DistVals W)) (hne : m ≠ []) (old : Stat.Stats W) :
    ∃ mx mx' s, Stat.calculate o m old = .ok (m.map (fun e => (e.1, { e.2 with crConf := Stat.confidence o mx (Stat.crRatio o e.2), drConf := Stat.confidence o mx' (Stat.drRatio o e.2) })), s) ∧
      (∃ x r, m.map (fun e => Stat.crRatio o e.2) = x :: r ∧ mx = (Stat.maxSum o r (x, x)).1) ∧
      (∃ x r, m.map (fun e => Stat.drRatio o e.2) = x :: r ∧ mx' = (Stat.maxSum o r (x, x)).1) := by
  cases m with
  | nil => exact absurd rfl hne
  | cons e m => exact ⟨_, _, _, rfl, ⟨_, _, rfl, rfl⟩, ⟨_, _, rfl, rfl⟩⟩

/-- The fetched confidences. -/
theorem fetch_ok {m : KMap (DistVals W)} (hm : Ascending m) (coreType : Bool) : ∀ (count i : Nat), i + count ≤ m.length →
    fetch m coreType count i = .ok (((m.drop i).take count).map (fun e => conf coreType e.2)) := by
  intro count
  induction count with
  | zero => intro i _; simp [fetch]
  | succ count ih =>
    intro i hi
    have hil : i < m.length := by omega
    have hlk : m.lookup m[i].1 = some m[i].2 := (KMap.lookup_mem hm).2 (List.getElem_mem hil)
    rw [fetch, KMap.keys, rd_ok (by simpa using hil), Outcome.ok_bind, List.getElem_map, hlk]
    simp only []
    rw [ih (i + 1) (by omega), Outcome.ok_bind, List.drop_eq_getElem_cons hil, List.take_succ_cons, List.map_cons]
    rfl

theorem bySimilarity_eq [CCmp W] {m : KMap (DistVals W)} (hm : Ascending m) (hne : m ≠ []) (coreType : Bool) (cl : List Nat) (hcl : cl.length = m.length) :
    bySimilarity m (some cl) coreType = sortAll cl (m.map (fun e => conf coreType e.2)) := by
  have : 0 < m.length := List.length_pos_of_ne_nil hne
  rw [bySimilarity, if_neg (by omega), hcl, fetch_ok hm coreType _ _ (by omega), Outcome.ok_bind, List.drop_zero, List.take_length]

/-- The confidences in the order of a list of labels. -/
theorem cppFetch_ok {m : KMap (DistVals W)} (hm : Ascending m) (coreType : Bool) : ∀ cl : List Nat, (∀ l ∈ cl, l ∈ m.keys) →
    ∃ ds, cppFetch m coreType cl = .ok ds ∧ ds.length = cl.length ∧ ∀ x ∈ ds, ∃ e ∈ m, x = conf coreType e.2 := by
  intro cl
  induction cl with
  | nil => intro _; exact ⟨[], rfl, rfl, by simp⟩
  | cons k l ih =>
    intro hl
    obtain ⟨ds, e, h1, h2⟩ := ih (fun j hj => hl j (by simp [hj]))
    obtain ⟨x, hx, hk⟩ := List.mem_map.1 (hl k (by simp))
    have hlk : m.lookup k = some x.2 := (KMap.lookup_mem hm).2 (by rw [← hk]; exact hx)
    refine ⟨conf coreType x.2 :: ds, by rw [cppFetch, hlk]; simp only [e, Outcome.ok_bind, Outcome.pure_eq], by simp [h1], ?_⟩
    intro y hy
    rcases List.mem_cons.1 hy with rfl | hy
    · exact ⟨x, hx, rfl⟩
    · exact h2 y hy

/-- The same with the positions. -/
theorem cppFetch_at {m : KMap (DistVals W)} (hm : Ascending m) (coreType : Bool) : ∀ cl : List Nat, (∀ l ∈ cl, l ∈ m.keys) →
    ∃ ds, cppFetch m coreType cl = .ok ds ∧ ds.length = cl.length ∧ ∀ i : Nat, ∀ e ∈ m, cl[i]? = some e.1 → ds[i]? = some (conf coreType e.2) := by
  intro cl
  induction cl with
  | nil => intro _; exact ⟨[], rfl, rfl, by simp⟩
  | cons k l ih =>
    intro hl
    obtain ⟨ds, e, h1, h2⟩ := ih (fun j hj => hl j (by simp [hj]))
    obtain ⟨x, hx, hk⟩ := List.mem_map.1 (hl k (by simp))
    have hlk : m.lookup k = some x.2 := (KMap.lookup_mem hm).2 (by rw [← hk]; exact hx)
    refine ⟨conf coreType x.2 :: ds, by rw [cppFetch, hlk]; simp only [e, Outcome.ok_bind, Outcome.pure_eq], by simp [h1], ?_⟩
    intro i y hy hi
    cases i with
    | zero =>
      have : m.lookup k = some y.2 := (KMap.lookup_mem hm).2 (by rw [show k = y.1 by simpa using hi]; exact hy)
      rw [hlk] at this
      simp [Option.some.inj this]
    | succ i => simpa using h2 i y hy (by simpa using hi)

theorem byLength_all (m : KMap (List Nat)) (hm : Ascending m) (hne : m ≠ []) : ∃ r, byLength m (some m.keys) = .ok r ∧ cppByLength m [] = .ok r ∧ r.Perm m.keys ∧
    r.Pairwise (fun a b => ∀ u v, m.lookup a = some u → m.lookup b = some v → u.length ≤ v.length) := by
  have hk : m.keys ≠ [] := by simpa [KMap.keys] using hne
  obtain ⟨r, e1, e2, h1, h2⟩ := C48_length m hm m.keys hk (fun _ h => h)
  refine ⟨r, e1, ?_, h1, h2⟩
  have hs : ∀ l : KMap (List Nat), (∀ e ∈ l, e ∈ m) → sizes m l.keys = .ok (l.map (fun e => e.2.length)) := by
    intro l
    induction l with
    | nil => intro _; rfl
    | cons e l ih =>
      intro hl
      rw [KMap.keys, List.map_cons, sizes, (KMap.lookup_mem hm).2 (hl e (by simp))]
      simp only []
      rw [show l.map (·.1) = KMap.keys l from rfl, ih (fun x hx => hl x (by simp [hx]))]
      rfl
  rw [cppByLength, if_neg (by simpa using hk), hs m (fun _ h => h), Outcome.ok_bind] at e2
  rw [cppByLength, if_pos (by rfl), e2]

/-- The table with the confidences for two given maxima. -/
def withConf (o : Stat.Ops W) (mx mx' : W) (m : KMap (DistVals W)) : KMap (DistVals W) :=
  m.map (fun e => (e.1, { e.2 with crConf := Stat.confidence o mx (Stat.crRatio o e.2), drConf := Stat.confidence o mx' (Stat.drRatio o e.2) }))

/-- The steps up to the sorting by similarity, for arbitrary values (helper). `P` is what is known of the record of a group. -/
theorem report_any [CCmp W] (k : DMap.Consts W) (o : Stat.Ops W) (labels : List Nat) (n : Nat) (h3 : 3 ≤ n) (hn : n ≤ labels.length)
    (dis : Distance W) (old : Stat.Stats W) (P : List Nat → DistVals W → Prop)
    (hP : ∀ l x, l ≠ [] → l = carriers labels 0 n x → ∃ v, DMap.members k dis l none = .ok (some v) ∧ P l v) :
    ∃ m d0 mx mx' s byLen, IsClusterMap labels 0 n m ∧ m ≠ [] ∧ List.Forall₂ (fun x y => x.1 = y.1 ∧ P x.2 y.2) m d0 ∧
      (∃ x r, d0.map (fun e => Stat.crRatio o e.2) = x :: r ∧ mx = (Stat.maxSum o r (x, x)).1) ∧
      (∃ x r, d0.map (fun e => Stat.drRatio o e.2) = x :: r ∧ mx' = (Stat.maxSum o r (x, x)).1) ∧
      (withConf o mx mx' d0).keys = m.keys ∧ (withConf o mx mx' d0).length = m.length ∧ byLen.Perm m.keys ∧
      byLen.Pairwise (fun a b => ∀ u v, m.lookup a = some u → m.lookup b = some v → u.length ≤ v.length) ∧
      (∀ b, Report.make k o labels n dis old b = bySimilarity (withConf o mx mx' d0) (some byLen) b >>= fun r => .ok ⟨m, withConf o mx mx' d0, s, byLen, r⟩) ∧
      (∀ b, Report.cppMake k o labels n dis old b = cppBySimilarity (withConf o mx mx' d0) byLen b >>= fun r => .ok ⟨m, withConf o mx mx' d0, s, byLen, r⟩) ∧
      DMap.minMax k dis m = .ok d0 ∧ Stat.calculate o d0 old = .ok (withConf o mx mx' d0, s) ∧ byLength m (some m.keys) = .ok byLen ∧ cppByLength m [] = .ok byLen := by
  obtain ⟨m, e1, e1', hm⟩ := C41_map_partial labels 0 n hn (.inl (by omega))
  rw [Nat.max_eq_right (by omega)] at hm
  have hne := map_ne_nil hm (by omega) hn
  obtain ⟨d0, e2, hd0⟩ := loop_any (k := k) (dis := dis) P m [] hm.ascending (by simp [KMap.keys]) (fun x hx => by
    have h := (hm.lists x.1 x.2).1 ((KMap.lookup_mem hm.ascending).2 hx)
    exact hP x.2 x.1 h.2 h.1)
  rw [List.nil_append] at e2
  have hk0 : d0.keys = m.keys := by
    clear e2
    rw [KMap.keys, KMap.keys]
    clear hm hne e1 e1'
    induction hd0 with
    | nil => rfl
    | cons h _ ih => rw [List.map_cons, List.map_cons, h.1, ih]
  have hl0 : d0.length = m.length := by simpa [KMap.keys] using congrArg List.length hk0
  obtain ⟨mx, mx', s, e3, q1, q2⟩ := calculate_ok o d0 (by intro h; rw [h] at hl0; exact hne (List.length_eq_zero_iff.1 hl0.symm)) old
  obtain ⟨byLen, e4, e4', hp, hs⟩ := byLength_all m hm.ascending hne
  refine ⟨m, d0, mx, mx', s, byLen, hm, hne, hd0, q1, q2, by rw [← hk0]; simp [KMap.keys, withConf], by rw [← hl0]; simp [withConf], hp, hs, fun b => ?_, fun b => ?_, e2, e3, e4, e4'⟩
  · simp only [Report.make, e1, Outcome.ok_bind, DMap.minMax, e2, e3, e4, Outcome.pure_eq, withConf]
  · simp only [Report.cppMake, e1', Outcome.ok_bind, DMap.minMax, e2, e3, e4', Outcome.pure_eq, withConf]

/-- Two entries at different positions (helper). -/
theorem positions {α : Type} {l : List α} {x y : α} (hx : x ∈ l) (hy : y ∈ l) (hne : x ≠ y) : ∃ i j : Nat, i < j ∧ (l[i]? = some x ∧ l[j]? = some y ∨ l[i]? = some y ∧ l[j]? = some x) := by
  obtain ⟨i, hi⟩ := List.getElem?_of_mem hx
  obtain ⟨j, hj⟩ := List.getElem?_of_mem hy
  rcases Nat.lt_trichotomy i j with h | h | h
  · exact ⟨i, j, h, .inl ⟨hi, hj⟩⟩
  · subst h; rw [hi] at hj; exact absurd (Option.some.inj hj) hne
  · exact ⟨j, i, h, .inr ⟨hj, hi⟩⟩

/-- Two of the entries of a table that has three or more (helper). -/
theorem two_of_all {d : KMap (DistVals (Ieee V))} (hd : Ascending d) (h3 : 3 ≤ d.length) {b : Bool} (h : ∀ e ∈ d, confidenceOf b e.2 = .nan) :
    ∃ e ∈ d, ∃ e' ∈ d, e.1 ≠ e'.1 ∧ confidenceOf b e.2 = .nan ∧ confidenceOf b e'.2 = .nan := by
  obtain ⟨e, r, rfl⟩ : ∃ e r, d = e :: r := by cases d with | nil => simp at h3 | cons e r => exact ⟨e, r, rfl⟩
  obtain ⟨e', r, rfl⟩ : ∃ e' r', r = e' :: r' := by cases r with | nil => simp at h3 | cons e r => exact ⟨e, r, rfl⟩
  refine ⟨e, by simp, e', by simp, ?_, h _ (by simp), h _ (by simp)⟩
  have := hd
  simp only [Ascending, KMap.keys, List.map_cons, List.pairwise_cons] at this
  exact (this.1 e'.1 (by simp)).ne

/-- Sorting by similarity when no confidence is NaN, and when two are (helper). -/
theorem similarity_cases [LinearOrder V] {m : KMap (List Nat)} {d : KMap (DistVals (Ieee V))} {byLen : List Nat} (hm : Ascending m) (hne : m ≠ []) (hkd : d.keys = m.keys)
    (hld : d.length = m.length) (hp : byLen.Perm m.keys) (b : Bool) :
    ((∀ e ∈ d, confidenceOf b e.2 ≠ .nan) → (∃ r, bySimilarity d (some byLen) b = .ok r ∧ r.Perm m.keys) ∧
      ∃ r, cppBySimilarity d byLen b = .ok r ∧ r.Perm m.keys ∧
        r.Pairwise (fun a c => ∀ u v, d.lookup a = some u → d.lookup c = some v → CCmp.le (confidenceOf b u) (confidenceOf b v) = true)) ∧
    (3 ≤ m.length → (∃ e ∈ d, ∃ e' ∈ d, e.1 ≠ e'.1 ∧ confidenceOf b e.2 = .nan ∧ confidenceOf b e'.2 = .nan) →
      bySimilarity d (some byLen) b = .diverge ∧ cppBySimilarity d byLen b = .diverge) := by
  have hda : Ascending d := by rw [Ascending, hkd]; exact hm
  have hdne : d ≠ [] := by intro h; rw [h] at hld; exact hne (List.length_eq_zero_iff.1 hld.symm)
  have hbl : byLen.length = m.length := by rw [hp.length_eq]; simp [KMap.keys]
  have hconf : (confidenceOf : Bool → DistVals (Ieee V) → Ieee V) = conf := by funext b v; cases b <;> rfl
  have hblk : ∀ l ∈ byLen, l ∈ d.keys := fun l hl => by rw [hkd]; exact hp.mem_iff.1 hl
  have hpos := List.length_pos_of_ne_nil hne
  refine ⟨fun hnum => ?_, fun hg hnan => ?_⟩
  · rw [hconf] at hnum ⊢
    have hval : ∀ e ∈ d, ∃ v, conf b e.2 = .num v := fun e he => by
      have := hnum e he
      cases h : conf b e.2 with
      | nan => exact absurd h this
      | num v => exact ⟨v, rfl⟩
    obtain ⟨e0, he0⟩ := List.exists_mem_of_ne_nil d hdne
    obtain ⟨v0, _⟩ := hval e0 he0
    let g : Ieee V → V := fun x => match x with | .num v => v | .nan => v0
    have hg : ∀ e ∈ d, Ieee.num (g (conf b e.2)) = conf b e.2 := fun e he => by
      obtain ⟨v, hv⟩ := hval e he
      rw [hv]
    constructor
    · have hv : d.map (fun e => conf b e.2) = (d.map (fun e => g (conf b e.2))).map .num := by
        rw [List.map_map]
        exact List.map_congr_left (fun e he => (hg e he).symm)
      obtain ⟨r, er, hr, _⟩ := sortAll_spec byLen (d.map (fun e => g (conf b e.2))) (by simp; omega)
      exact ⟨r, by rw [bySimilarity_eq hda hdne b byLen (by omega), hv, sortAll_lift, er], hr.trans hp⟩
    · obtain ⟨r, er, hr, hs'⟩ := sortAll_spec byLen (byLen.map (valueOf d (fun v => g (conf b v)) v0)) (by simp)
      have hf : ∀ l : List Nat, (∀ j ∈ l, j ∈ d.keys) → cppFetch d b l = .ok ((l.map (valueOf d (fun v => g (conf b v)) v0)).map .num) := by
        intro l
        induction l with
        | nil => intro _; rfl
        | cons j l ih =>
          intro hl
          obtain ⟨e, he, hj⟩ := List.mem_map.1 (hl j (by simp))
          have hlk : d.lookup j = some e.2 := (KMap.lookup_mem hda).2 (by rw [← hj]; exact he)
          rw [cppFetch, hlk]
          simp only []
          rw [ih (fun i hi => hl i (by simp [hi])), Outcome.ok_bind, ← hg e he]
          simp [valueOf, hlk]
      refine ⟨r, ?_, hr.trans hp, (hs' _ rfl).imp ?_⟩
      · rw [cppBySimilarity, if_neg (by omega), hf byLen hblk, Outcome.ok_bind, cppSort, if_neg (by omega), sortAll_lift, er]
      · intro a c hac u v hu hv
        rw [← hg (a, u) ((KMap.lookup_mem hda).1 hu), ← hg (c, v) ((KMap.lookup_mem hda).1 hv)]
        simpa [valueOf, hu, hv, CCmp.le] using hac
  · rw [hconf] at hnan
    obtain ⟨e, he, e', he', hee, hn1, hn2⟩ := hnan
    constructor
    · obtain ⟨i, j, hij, h⟩ := positions he he' (fun h => hee (congrArg Prod.fst h))
      rw [bySimilarity_eq hda hdne b byLen (by omega), sortAll_nans _ _ (by simp; omega) (by omega) hij] <;> rw [List.getElem?_map] <;>
        rcases h with ⟨h1, h2⟩ | ⟨h1, h2⟩ <;> simp [h1, h2, hn1, hn2]
    · have hmem : ∀ e ∈ d, e.1 ∈ byLen := fun e he => hp.mem_iff.2 (by rw [← hkd]; exact List.mem_map.2 ⟨e, he, rfl⟩)
      obtain ⟨ds, ef, hl, hx⟩ := cppFetch_at hda b byLen hblk
      obtain ⟨i, j, hij, h⟩ := positions (hmem e he) (hmem e' he') hee
      have h1 : ds[i]? = some .nan ∧ ds[j]? = some .nan := by
        rcases h with ⟨h1, h2⟩ | ⟨h1, h2⟩
        · exact ⟨by rw [hx i e he h1, hn1], by rw [hx j e' he' h2, hn2]⟩
        · exact ⟨by rw [hx i e' he' h1, hn2], by rw [hx j e he h2, hn1]⟩
      rw [cppBySimilarity, if_neg (by omega), ef, Outcome.ok_bind, cppSort, if_neg (by omega), sortAll_nans _ _ hl.symm (by omega) hij h1.1 h1.2]

/-- **C79, the part that holds.** For the labels of three or more points, any matrix of distances and core distances (NaN and infinite values included) and any
    arithmetic, the cluster map, the distances, the statistics and the clusters in the order of their sizes are computed. If none of the confidences of the requested
    kind that the statistics enter in the table of distances is NaN the report is completed, in C and in C++; the C++ program sorts the clusters by their confidences. If two of them are NaN and there are three or more
    groups (clusters, or noise) neither program ends. -/
theorem C79_report_partial [LinearOrder V] (k : DMap.Consts (Ieee V)) (o : Stat.Ops (Ieee V)) (labels : List Nat) (n : Nat) (h3 : 3 ≤ n) (hn : n ≤ labels.length)
    (dis : Distance (Ieee V)) (d : Nat → Nat → Ieee V) (core : Nat → Ieee V) (hget : ∀ i j, i < n → j < n → dis.get k.zero i j = .ok (d i j))
    (hcore : ∀ i, i < n → dis.coreDistances[i]? = some (some (core i))) (old : Stat.Stats (Ieee V)) :
    ∃ m d0 d s byLen, IsClusterMap labels 0 n m ∧ DMap.minMax k dis m = .ok d0 ∧ Stat.calculate o d0 old = .ok (d, s) ∧ byLength m (some m.keys) = .ok byLen ∧
      cppByLength m [] = .ok byLen ∧ d.keys = m.keys ∧ byLen.Perm m.keys ∧
      byLen.Pairwise (fun a b => ∀ u v, m.lookup a = some u → m.lookup b = some v → u.length ≤ v.length) ∧
      ∀ coreType,
        ((∀ e ∈ d, confidenceOf coreType e.2 ≠ .nan) →
          (∃ r, Report.make k o labels n dis old coreType = .ok ⟨m, d, s, byLen, r⟩ ∧ r.Perm m.keys) ∧
          ∃ r, Report.cppMake k o labels n dis old coreType = .ok ⟨m, d, s, byLen, r⟩ ∧ r.Perm m.keys ∧
            r.Pairwise (fun a b => ∀ u v, d.lookup a = some u → d.lookup b = some v → CCmp.le (confidenceOf coreType u) (confidenceOf coreType v) = true)) ∧
        (3 ≤ m.length → (∃ e ∈ d, ∃ e' ∈ d, e.1 ≠ e'.1 ∧ confidenceOf coreType e.2 = .nan ∧ confidenceOf coreType e'.2 = .nan) →
          Report.make k o labels n dis old coreType = .diverge ∧ Report.cppMake k o labels n dis old coreType = .diverge) := by
  obtain ⟨m, d0, mx, mx', s, byLen, hm, hne, _, _, _, hk, hl, hp, hs, em, ec, g1, g2, g3, g4⟩ := report_any k o labels n h3 hn dis old (fun _ _ => True) (fun l x h1 h2 => by
    obtain ⟨i, r, rfl⟩ := List.exists_cons_of_ne_nil h1
    have hlt : ∀ a ∈ i :: r, a < n := fun a ha => by rw [h2] at ha; simp [carriers] at ha; exact ha.1
    obtain ⟨v, e, h, _⟩ := cluster_any (k := k) (dis := dis) (d := d) (core := core) (P := fun _ => True) (F := fun _ => True) (Gc := fun _ => True) (Gp := fun _ _ => True) i r
      (fun a ha b hb => hget a b (hlt a ha) (hlt b hb)) (fun a ha => hcore a (hlt a ha)) trivial ⟨fun _ _ _ _ => ⟨trivial, fun _ => trivial⟩, fun _ _ _ _ _ => ⟨trivial, fun _ => trivial⟩⟩
    exact ⟨v, e, h⟩)
  refine ⟨m, d0, withConf o mx mx' d0, s, byLen, hm, g1, g2, g3, g4, hk, hp, hs, fun b => ?_⟩
  obtain ⟨h1, h2⟩ := similarity_cases hm.ascending hne hk hl hp b
  refine ⟨fun h => ?_, fun hg h => ?_⟩
  · obtain ⟨⟨r, e, hr⟩, ⟨r', e', hr', hs'⟩⟩ := h1 h
    exact ⟨⟨r, by rw [em, e]; rfl, hr⟩, ⟨r', by rw [ec, e']; rfl, hr', hs'⟩⟩
  · obtain ⟨e, e'⟩ := h2 hg h
    exact ⟨by rw [em, e]; rfl, by rw [ec, e']; rfl⟩

/-! ### Which clusterings have a report -/

/-- The largest of numbers (helper). -/
theorem maxSum_num [LinearOrder V] (o : Stat.Ops (Ieee V)) : ∀ (l : List (Ieee V)) (x : V) (s : Ieee V), (∀ y ∈ l, ∃ v, y = .num v) →
    ∃ w, (Stat.maxSum o l (.num x, s)).1 = .num w ∧ (Ieee.num w ∈ Ieee.num x :: l) ∧ x ≤ w ∧ ∀ v, Ieee.num v ∈ l → v ≤ w := by
  intro l
  induction l with
  | nil => intro x s _; exact ⟨x, rfl, by simp, le_rfl, by simp⟩
  | cons y l ih =>
    intro x s h
    obtain ⟨v, rfl⟩ := h y (by simp)
    rw [Stat.maxSum]
    by_cases hv : x < v
    · rw [if_pos (by simpa [CCmp.lt] using hv)]
      obtain ⟨w, e, h1, h2, h3⟩ := ih v (o.add s (.num v)) (fun y hy => h y (by simp [hy]))
      refine ⟨w, e, List.mem_cons_of_mem _ h1, (hv.trans_le h2).le, fun u hu => ?_⟩
      rcases List.mem_cons.1 hu with hu | hu
      · rw [Ieee.num.injEq] at hu; rw [hu]; exact h2
      · exact h3 u hu
    · rw [if_neg (by simpa [CCmp.lt] using hv)]
      obtain ⟨w, e, h1, h2, h3⟩ := ih x (o.add s (.num v)) (fun y hy => h y (by simp [hy]))
      refine ⟨w, e, ?_, h2, fun u hu => ?_⟩
      · rcases List.mem_cons.1 h1 with h1 | h1
        · rw [h1]; simp
        · simp [h1]
      · rcases List.mem_cons.1 hu with hu | hu
        · rw [Ieee.num.injEq] at hu; rw [hu]; exact (not_lt.1 hv).trans h2
        · exact h3 u hu

/-- The largest of values one of which is the positive infinity: that, or NaN (helper). -/
theorem maxSum_inf [LinearOrder V] (o : Stat.Ops (Ieee V)) (inf : V) (htop : ∀ x, x ≤ inf) : ∀ (l : List (Ieee V)) (x s : Ieee V), Ieee.num inf ∈ x :: l →
    (Stat.maxSum o l (x, s)).1 = .nan ∨ (Stat.maxSum o l (x, s)).1 = .num inf := by
  intro l
  induction l with
  | nil => intro x s h; right; rw [Stat.maxSum]; simpa [eq_comm] using h
  | cons y l ih =>
    intro x s h
    rw [Stat.maxSum]
    cases x with
    | nan =>
      rw [if_neg (by simp [CCmp.lt])]
      left
      clear ih h
      generalize o.add s y = t
      induction l generalizing t with
      | nil => rfl
      | cons z l ih => rw [Stat.maxSum, if_neg (by simp [CCmp.lt])]; exact ih _
    | num x =>
      apply ih
      rcases List.mem_cons.1 h with h | h
      · rw [Ieee.num.injEq] at h
        subst h
        rw [if_neg]
        · simp
        · cases y with
          | nan => simp [CCmp.lt]
          | num y => simpa [CCmp.lt] using htop y
      rcases List.mem_cons.1 h with h | h
      · subst h
        by_cases hx : x < inf
        · rw [if_pos (by simpa [CCmp.lt] using hx)]; simp
        · rw [if_neg (by simpa [CCmp.lt] using hx), le_antisymm (htop x) (not_lt.1 hx)]; simp
      · simp [h]

/-- The confidence is a number if the largest ratio is a positive number and finite (helper). -/
theorem confidence_num [LinearOrder V] {o : Stat.Ops (Ieee V)} {zero inf : V} (ho : NumLaws o zero inf) {w r : V} (h0 : zero < w) (hi : w < inf) (hr0 : zero ≤ r) (hr : r ≤ w) :
    Stat.confidence o (.num w) (.num r) ≠ .nan := by
  obtain ⟨a, e1, ha⟩ := ho.sub w r hr0 hr hi
  obtain ⟨b, e2, _⟩ := ho.div a w ha h0 hi
  obtain ⟨c, e3⟩ := ho.mul b
  rw [Stat.confidence, e1, e2, e3]
  simp

/-- The confidence is NaN if the largest ratio is NaN or infinite (helper). -/
theorem confidence_nan [LinearOrder V] {o : Stat.Ops (Ieee V)} {zero inf : V} (ho : SpecialLaws o zero inf) {mx : Ieee V} (h : mx = .nan ∨ mx = .num inf) (r : Ieee V) :
    Stat.confidence o mx r = .nan := by
  rw [Stat.confidence]
  rcases h with rfl | rfl
  · rw [ho.nan_sub, ho.nan_div, ho.nan_mul]
  · cases r with
    | nan => rw [ho.sub_nan, ho.nan_div, ho.nan_mul]
    | num r =>
      rcases (ho.top r).lt_or_eq with h | rfl
      · rw [ho.inf_sub _ h, ho.inf_inf, ho.nan_mul]
      · rw [ho.inf_sub_inf, ho.nan_div, ho.nan_mul]

/-- From the records of the groups to the confidences (helper). -/
theorem conf_num [LinearOrder V] {o : Stat.Ops (Ieee V)} {zero inf : V} (ho : NumLaws o zero inf) {d : KMap (DistVals (Ieee V))} {f : DistVals (Ieee V) → Ieee V} {mx : Ieee V}
    (hmx : ∃ x r, d.map (fun e => f e.2) = x :: r ∧ mx = (Stat.maxSum o r (x, x)).1) (hf : ∀ e ∈ d, ∃ r, f e.2 = .num r ∧ zero ≤ r ∧ r < inf)
    (hpos : ∃ e ∈ d, ∃ r, f e.2 = .num r ∧ zero < r) : ∀ e ∈ d, Stat.confidence o mx (f e.2) ≠ .nan := by
  obtain ⟨x, r, hx, rfl⟩ := hmx
  have hall : ∀ y ∈ x :: r, ∃ v, y = .num v ∧ zero ≤ v ∧ v < inf := fun y hy => by
    rw [← hx] at hy
    obtain ⟨e, he, rfl⟩ := List.mem_map.1 hy
    exact hf e he
  obtain ⟨x, rfl, _⟩ := hall x (by simp)
  obtain ⟨w, hw, h1, h2, h3⟩ := maxSum_num o r x (.num x) (fun y hy => (hall y (by simp [hy])).imp fun _ h => h.1)
  have hle : ∀ v, Ieee.num v ∈ Ieee.num x :: r → v ≤ w := fun v hv => by
    rcases List.mem_cons.1 hv with hv | hv
    · rw [Ieee.num.injEq] at hv; rw [hv]; exact h2
    · exact h3 v hv
  have hmem : ∀ e ∈ d, f e.2 ∈ Ieee.num x :: r := fun e he => by rw [← hx]; exact List.mem_map.2 ⟨e, he, rfl⟩
  obtain ⟨e0, he0, r0, hr0, hp0⟩ := hpos
  obtain ⟨w', hw', _, hwi⟩ := hall _ h1
  rw [Ieee.num.injEq] at hw'
  subst hw'
  intro e he
  obtain ⟨q, hq, hq0, _⟩ := hf e he
  rw [hw, hq]
  exact confidence_num ho (hp0.trans_le (hle r0 (by rw [← hr0]; exact hmem e0 he0))) hwi hq0 (hle q (by rw [← hq]; exact hmem e he))

/-- What is known of the record of a group if the distances are zero or between `lo` and `hi`, and the core distances are between them. -/
structure InRange [LinearOrder V] (zero dmax lo hi : V) (v : DistVals (Ieee V)) : Prop where
  core : ∃ a b, v.minCr = .num a ∧ v.maxCr = .num b ∧ lo ≤ a ∧ a ≤ b ∧ b ≤ hi
  intra : ∃ a b, v.minDr = .num a ∧ v.maxDr = .num b ∧ lo ≤ a ∧ a ≤ dmax ∧ zero < b ∧ b ≤ hi

theorem inRange_steps [LinearOrder V] {zero dmin dmax lo hi : V} (h0 : zero < lo) (d : Nat → Nat → Ieee V) (core : Nat → Ieee V) (l : List Nat)
    (hc : ∀ i ∈ l, ∃ x, core i = .num x ∧ lo ≤ x ∧ x ≤ hi) (hd : ∀ i ∈ l, ∀ j ∈ l, ∃ x, d i j = .num x ∧ (x = zero ∨ lo ≤ x ∧ x ≤ hi)) :
    Steps ⟨.num zero, .num dmin, .num dmax⟩ d core l (InRange zero dmax lo hi) (fun v => ∃ a b, v.minDr = .num a ∧ v.maxDr = .num b ∧ a ≤ b) (fun _ => False) (fun i j => d i j ≠ .num zero) := by
  constructor
  · intro i hi' v hv
    obtain ⟨x, hx, hlx, hxh⟩ := hc i hi'
    obtain ⟨⟨a, b, ha, hb, h1, h2, h3⟩, hin⟩ := hv
    have e : DMap.core ⟨.num zero, .num dmin, .num dmax⟩ (core i) v = { v with minCr := .num (min a x), maxCr := .num (max b x) } := by
      obtain ⟨c1, c2, c3, c4, c5, c6⟩ := v
      simp only at ha hb
      subst ha hb
      simp only [DMap.core, hx, CCmp.lt]
      rcases lt_or_ge x a with h | h
      · have hz : zero < x := h0.trans_le hlx
        rw [min_eq_right h.le, max_eq_left (h.le.trans h2)]
        simp [h, hz, (h.le.trans h2).not_gt]
      · rw [min_eq_left h]
        rcases lt_or_ge b x with h' | h'
        · rw [max_eq_right h'.le]; simp [h.not_gt, h']
        · rw [max_eq_left h']; simp [h.not_gt, h'.not_gt]
    rw [e]
    refine ⟨⟨⟨_, _, rfl, rfl, le_min h1 hlx, (min_le_left _ _).trans (h2.trans (le_max_left _ _)), max_le h3 hxh⟩, hin⟩, ?_⟩
    rintro (hf | hf)
    · exact hf
    · exact hf.elim
  · intro i j hij v hv
    obtain ⟨x, hx, hx'⟩ := hd i (hij.subset (by simp)) j (hij.subset (by simp))
    obtain ⟨hin, ⟨a, b, ha, hb, h1, h2, h3, h4⟩⟩ := hv
    rcases hx' with rfl | ⟨hlx, hxh⟩
    · have e : DMap.pair ⟨.num x, .num dmin, .num dmax⟩ (d i j) v = v := by
        obtain ⟨c1, c2, c3, c4, c5, c6⟩ := v
        simp only at ha hb
        subst ha hb
        simp [DMap.pair, hx, CCmp.lt, h3.le]
      rw [e]
      refine ⟨⟨hin, ⟨a, b, ha, hb, h1, h2, h3, h4⟩⟩, ?_⟩
      rintro (hf | hf)
      · exact hf
      · exact absurd hx hf
    · have hz : zero < x := h0.trans_le hlx
      have e : DMap.pair ⟨.num zero, .num dmin, .num dmax⟩ (d i j) v = { v with minDr := .num (min a x), maxDr := .num (max b x) } := by
        obtain ⟨c1, c2, c3, c4, c5, c6⟩ := v
        simp only at ha hb
        subst ha hb
        simp only [DMap.pair, hx, CCmp.lt]
        rcases lt_or_ge x a with h | h
        · rw [min_eq_right h.le]
          rcases lt_or_ge b x with h' | h'
          · rw [max_eq_right h'.le]; simp [h, h', hz]
          · rw [max_eq_left h']; simp [h, h'.not_gt, hz]
        · rw [min_eq_left h]
          rcases lt_or_ge b x with h' | h'
          · rw [max_eq_right h'.le]; simp [h.not_gt, h']
          · rw [max_eq_left h']; simp [h.not_gt, h'.not_gt]
      rw [e]
      exact ⟨⟨hin, ⟨_, _, rfl, rfl, le_min h1 hlx, (min_le_left _ _).trans h2, h3.trans_le (le_max_left _ _), max_le h4 hxh⟩⟩,
        fun _ => ⟨_, _, rfl, rfl, (min_le_right _ _).trans (le_max_right _ _)⟩⟩

/-- Corresponding entries of two tables (helper). -/
theorem forall₂_right {α β : Type} {R : α → β → Prop} {l : List α} {l' : List β} (h : List.Forall₂ R l l') : ∀ y ∈ l', ∃ x ∈ l, R x y := by
  induction h with
  | nil => simp
  | cons h _ ih =>
    intro y hy
    rcases List.mem_cons.1 hy with rfl | hy
    · exact ⟨_, by simp, h⟩
    · obtain ⟨x, hx, hr⟩ := ih y hy
      exact ⟨x, by simp [hx], hr⟩

theorem forall₂_left {α β : Type} {R : α → β → Prop} {l : List α} {l' : List β} (h : List.Forall₂ R l l') : ∀ x ∈ l, ∃ y ∈ l', R x y := by
  induction h with
  | nil => simp
  | cons h _ ih =>
    intro y hy
    rcases List.mem_cons.1 hy with rfl | hy
    · exact ⟨_, by simp, h⟩
    · obtain ⟨x, hx, hr⟩ := ih y hy
      exact ⟨x, by simp [hx], hr⟩

/-- Two members of an ascending list in their order (helper). -/
theorem ascending_pair {i j : Nat} (hij : i < j) : ∀ l : List Nat, l.Pairwise (· < ·) → i ∈ l → j ∈ l → [i, j].Sublist l := by
  intro l
  induction l with
  | nil => intro _ h; simp at h
  | cons a l ih =>
    intro hp hi hj
    rw [List.pairwise_cons] at hp
    rcases List.mem_cons.1 hj with h | h
    · rcases List.mem_cons.1 hi with h' | h'
      · omega
      · have := hp.1 i h'; omega
    · rcases List.mem_cons.1 hi with h' | h'
      · rw [h']; exact (List.singleton_sublist.2 h).cons_cons _
      · exact (ih hp.2 h' h).cons _

theorem pair_sublist {labels : List Nat} {n x i j : Nat} (hij : i < j) (hj : j < n) (h1 : labels[i]? = some x) (h2 : labels[j]? = some x) : [i, j].Sublist (carriers labels 0 n x) :=
  ascending_pair hij _ (List.Pairwise.filter _ List.pairwise_lt_range) (by simp [carriers, h1]; omega) (by simp [carriers, h2]; omega)

/-- The entry of the cluster map for the label of a point (helper). -/
theorem group_of {labels : List Nat} {n : Nat} {m : KMap (List Nat)} (hm : IsClusterMap labels 0 n m) {i x : Nat} (hi : i < n) (h : labels[i]? = some x) :
    (x, carriers labels 0 n x) ∈ m :=
  (KMap.lookup_mem hm.ascending).1 ((hm.lists x _).2 ⟨rfl, List.ne_nil_of_mem (a := i) (by simp [carriers, h]; omega)⟩)

/-- Three different labels make three groups (helper). -/
theorem three_groups {labels : List Nat} {n : Nat} {m : KMap (List Nat)} (hm : IsClusterMap labels 0 n m) {a b c x y z : Nat} (ha : a < n) (hb : b < n) (hc : c < n)
    (hx : labels[a]? = some x) (hy : labels[b]? = some y) (hz : labels[c]? = some z) (hd : x ≠ y ∧ x ≠ z ∧ y ≠ z) : 3 ≤ m.length := by
  have hsub : [x, y, z] ⊆ m.keys := by
    intro u hu
    simp only [List.mem_cons, List.not_mem_nil, or_false] at hu
    rcases hu with rfl | rfl | rfl
    · exact List.mem_map.2 ⟨_, group_of hm ha hx, rfl⟩
    · exact List.mem_map.2 ⟨_, group_of hm hb hy, rfl⟩
    · exact List.mem_map.2 ⟨_, group_of hm hc hz, rfl⟩
  have hnd : [x, y, z].Nodup := by simp [hd]
  have := (hnd.subperm hsub).length_le
  simpa [KMap.keys] using this

/-- **C79, for distances in a range.** Suppose that the core distances of all points lie between two positive finite numbers `lo` and `hi`, that the distance of every
    two points is zero or lies between them, and that quotients of such numbers do not overflow. Then the report with the clusters by core distances is completed, in C and
    in C++. If there are two points with the same label at a distance other than zero, so is the report with the clusters by distances. -/
theorem C79_range_partial [LinearOrder V] (o : Stat.Ops (Ieee V)) (zero inf dmin dmax lo hi : V) (ho : NumLaws o zero inf) (hdmin : zero < dmin) (hdmax : dmax < inf) (h0 : zero < lo)
    (hmh : dmin ≤ hi) (hhm : hi ≤ dmax) (hover : ∀ a b r, zero < a → a ≤ hi → lo ≤ b → b < inf → o.div (.num a) (.num b) = .num r → r < inf)
    (labels : List Nat) (n : Nat) (h3 : 3 ≤ n) (hn : n ≤ labels.length) (dis : Distance (Ieee V)) (d : Nat → Nat → Ieee V) (core : Nat → Ieee V)
    (hget : ∀ i j, i < n → j < n → dis.get (.num zero) i j = .ok (d i j)) (hcore : ∀ i, i < n → dis.coreDistances[i]? = some (some (core i)))
    (hc : ∀ i, i < n → ∃ x, core i = .num x ∧ lo ≤ x ∧ x ≤ hi) (hd : ∀ i j, i < n → j < n → ∃ x, d i j = .num x ∧ (x = zero ∨ lo ≤ x ∧ x ≤ hi)) (old : Stat.Stats (Ieee V)) :
    (∃ r r', Report.make ⟨.num zero, .num dmin, .num dmax⟩ o labels n dis old true = .ok r ∧ Report.cppMake ⟨.num zero, .num dmin, .num dmax⟩ o labels n dis old true = .ok r') ∧
    ((∃ i j, i < j ∧ j < n ∧ labels[i]? = labels[j]? ∧ d i j ≠ .num zero) →
      ∃ r r', Report.make ⟨.num zero, .num dmin, .num dmax⟩ o labels n dis old false = .ok r ∧ Report.cppMake ⟨.num zero, .num dmin, .num dmax⟩ o labels n dis old false = .ok r') := by
  have hlh : lo ≤ hi := by obtain ⟨x, _, h1, h2⟩ := hc 0 (by omega); exact h1.trans h2
  obtain ⟨m, d0, mx, mx', s, byLen, hm, hne, hall, hmx, hmx', hk, hl, hp, _, em, ec, -⟩ := report_any ⟨.num zero, .num dmin, .num dmax⟩ o labels n h3 hn dis old
    (fun l v => InRange zero dmax lo hi v ∧ ((∃ a b, [a, b].Sublist l ∧ d a b ≠ .num zero) → ∃ a b, v.minDr = .num a ∧ v.maxDr = .num b ∧ a ≤ b)) (fun l x h1 h2 => by
    obtain ⟨i, r, rfl⟩ := List.exists_cons_of_ne_nil h1
    have hlt : ∀ a ∈ i :: r, a < n := fun a ha => by rw [h2] at ha; simp [carriers] at ha; exact ha.1
    obtain ⟨v, e, h, hf⟩ := cluster_any (k := ⟨.num zero, .num dmin, .num dmax⟩) (dis := dis) (d := d) (core := core) i r
      (fun a ha b hb => hget a b (hlt a ha) (hlt b hb)) (fun a ha => hcore a (hlt a ha)) (by
        obtain ⟨x, hx, hx1, hx2⟩ := hc i (hlt i (by simp))
        rw [hx]
        exact ⟨⟨x, x, rfl, rfl, hx1, le_rfl, hx2⟩, ⟨dmax, dmin, rfl, rfl, hlh.trans hhm, le_rfl, hdmin, hmh⟩⟩)
      (inRange_steps h0 d core (i :: r) (fun a ha => hc a (hlt a ha)) (fun a ha b hb => hd a b (hlt a ha) (hlt b hb)))
    exact ⟨v, e, h, fun h => hf (.inr h)⟩)
  have hcr : ∀ e ∈ d0, ∃ r, Stat.crRatio o e.2 = .num r ∧ zero < r ∧ r < inf := fun e he => by
    obtain ⟨x, _, _, ⟨⟨a, b, ha, hb, h1, h2, h4⟩, _⟩, _⟩ := forall₂_right hall e he
    have hai : a < inf := (h2.trans (h4.trans hhm)).trans_lt hdmax
    obtain ⟨r, hr, _, hr'⟩ := ho.div b a (h0.trans_le (h1.trans h2)).le (h0.trans_le h1) hai
    exact ⟨r, by rw [Stat.crRatio, ha, hb, hr], hr' h2, hover b a r (h0.trans_le (h1.trans h2)) h4 h1 hai hr⟩
  have hdr : ∀ e ∈ d0, ∃ r, Stat.drRatio o e.2 = .num r ∧ zero ≤ r ∧ r < inf ∧ ((∃ a b, e.2.minDr = .num a ∧ e.2.maxDr = .num b ∧ a ≤ b) → zero < r) := fun e he => by
    obtain ⟨x, _, _, ⟨_, ⟨a, b, ha, hb, h1, h2, h4, h5⟩⟩, _⟩ := forall₂_right hall e he
    have hai : a < inf := h2.trans_lt hdmax
    obtain ⟨r, hr, hr0, hr'⟩ := ho.div b a h4.le (h0.trans_le h1) hai
    refine ⟨r, by rw [Stat.drRatio, ha, hb, hr], hr0, hover b a r h4 h5 h1 hai hr, ?_⟩
    rintro ⟨a', b', ha', hb', hab⟩
    rw [ha] at ha'
    rw [hb] at hb'
    rw [Ieee.num.injEq] at ha' hb'
    subst ha' hb'
    exact hr' hab
  have hd0 : d0 ≠ [] := by
    intro h
    obtain ⟨x, r, hx, _⟩ := hmx
    rw [h] at hx
    simp at hx
  have done : ∀ b, (∀ e ∈ withConf o mx mx' d0, confidenceOf b e.2 ≠ .nan) → ∃ r r', Report.make ⟨.num zero, .num dmin, .num dmax⟩ o labels n dis old b = .ok r ∧
      Report.cppMake ⟨.num zero, .num dmin, .num dmax⟩ o labels n dis old b = .ok r' := fun b h => by
    obtain ⟨⟨r, e, _⟩, ⟨r', e', _⟩⟩ := (similarity_cases hm.ascending hne hk hl hp b).1 h
    exact ⟨_, _, by rw [em, e]; rfl, by rw [ec, e']; rfl⟩
  constructor
  · refine done true (fun e he => ?_)
    obtain ⟨e', he', rfl⟩ := List.mem_map.1 he
    refine conf_num (f := Stat.crRatio o) ho hmx (fun e he => ?_) ?_ e' he'
    · obtain ⟨r, h1, h0, h2⟩ := hcr e he; exact ⟨r, h1, h0.le, h2⟩
    · obtain ⟨e, he⟩ := List.exists_mem_of_ne_nil d0 hd0
      obtain ⟨r, h1, h2, _⟩ := hcr e he
      exact ⟨e, he, r, h1, h2⟩
  · rintro ⟨i, j, hij, hj, hlab, hne0⟩
    refine done false (fun e he => ?_)
    obtain ⟨e', he', rfl⟩ := List.mem_map.1 he
    refine conf_num (f := Stat.drRatio o) ho hmx' (fun e he => ?_) ?_ e' he'
    · obtain ⟨r, h1, h0, h2, _⟩ := hdr e he; exact ⟨r, h1, h0, h2⟩
    · obtain ⟨x, hx⟩ : ∃ x, labels[i]? = some x := ⟨_, List.getElem?_eq_getElem (by omega)⟩
      obtain ⟨e, he, _, _, hf⟩ := forall₂_left hall _ (group_of hm (by omega) hx)
      obtain ⟨r, h1, _, _, h2⟩ := hdr e he
      exact ⟨e, he, r, h1, h2 (hf ⟨i, j, pair_sublist hij hj hx (by rw [← hlab, hx]), hne0⟩)⟩

/-- **C79 fails for repeated points.** If a group begins with a point whose core distance is 0 and a later member has a positive one, and there are three or more groups,
    the report with the clusters by core distances never ends, in C and in C++. -/
theorem C79_core_violated [LinearOrder V] (k : DMap.Consts (Ieee V)) (o : Stat.Ops (Ieee V)) (zero inf : V) (hz : k.zero = .num zero) (ho : SpecialLaws o zero inf)
    (labels : List Nat) (n : Nat) (hn : n ≤ labels.length) (dis : Distance (Ieee V)) (d : Nat → Nat → Ieee V) (core : Nat → Ieee V)
    (hget : ∀ i j, i < n → j < n → dis.get (.num zero) i j = .ok (d i j)) (hcore : ∀ i, i < n → dis.coreDistances[i]? = some (some (core i)))
    (hc : ∀ i, i < n → ∀ x, core i = .num x → zero ≤ x)
    (a b c x y z : Nat) (ha : a < n) (hb : b < n) (hcn : c < n) (hx : labels[a]? = some x) (hy : labels[b]? = some y) (hzl : labels[c]? = some z) (hxyz : x ≠ y ∧ x ≠ z ∧ y ≠ z)
    (i j g : Nat) (w : V) (hj : j < n) (hi : labels[i]? = some g) (hjg : labels[j]? = some g) (hfirst : ∀ p, p < i → labels[p]? ≠ some g) (hci : core i = .num zero)
    (hcj : core j = .num w) (hw : zero < w) (old : Stat.Stats (Ieee V)) :
    Report.make k o labels n dis old true = .diverge ∧ Report.cppMake k o labels n dis old true = .diverge := by
  have h3 : 3 ≤ n := by
    have : a ≠ b := by rintro rfl; rw [hx] at hy; exact hxyz.1 (Option.some.inj hy)
    have : a ≠ c := by rintro rfl; rw [hx] at hzl; exact hxyz.2.1 (Option.some.inj hzl)
    have : b ≠ c := by rintro rfl; rw [hy] at hzl; exact hxyz.2.2 (Option.some.inj hzl)
    omega
  have hij : i < j := by
    rcases lt_trichotomy i j with h | rfl | h
    · exact h
    · rw [hci] at hcj; rw [Ieee.num.injEq] at hcj; exact absurd hw (by rw [hcj]; exact lt_irrefl _)
    · exact absurd hjg (hfirst j h)
  obtain ⟨m, d0, mx, mx', s, byLen, hm, hne, hall, hmx, hmx', hk, hl, hp, _, em, ec, -⟩ := report_any k o labels n h3 hn dis old
    (fun l v => l = carriers labels 0 n g → v.minCr = .num zero ∧ ∃ b, v.maxCr = .num b ∧ zero < b) (fun l x h1 h2 => by
    obtain ⟨i', r, rfl⟩ := List.exists_cons_of_ne_nil h1
    have hlt : ∀ a ∈ i' :: r, a < n := fun a ha => by rw [h2] at ha; simp [carriers] at ha; exact ha.1
    have hasc : (i' :: r).Pairwise (· < ·) := by rw [h2]; exact List.Pairwise.filter _ List.pairwise_lt_range
    by_cases hg : i' :: r = carriers labels 0 n g
    · have hmi : i ∈ i' :: r := by rw [hg]; simp [carriers, hi]; omega
      have hmj : j ∈ i' :: r := by rw [hg]; simp [carriers, hjg]; omega
      have hii : i' = i := by
        rcases List.mem_cons.1 hmi with h | h
        · exact h.symm
        · have hmi' : i' ∈ carriers labels 0 n g := by rw [← hg]; simp
          simp [carriers] at hmi'
          exact absurd hmi'.2 (hfirst i' ((List.pairwise_cons.1 hasc).1 i h))
      subst hii
      have hjr : j ∈ r := by
        rcases List.mem_cons.1 hmj with h | h
        · omega
        · exact h
      obtain ⟨v, e, h, hf⟩ := cluster_any (k := k) (dis := dis) (d := d) (core := core)
        (P := fun v => v.minCr = .num zero ∧ ∃ b, v.maxCr = .num b ∧ zero ≤ b) (F := fun v => ∃ b, v.maxCr = .num b ∧ zero < b) (Gc := fun i => ∃ b, core i = .num b ∧ zero < b)
        (Gp := fun _ _ => False) i' r
        (fun a ha b hb => by rw [hz]; exact hget a b (hlt a ha) (hlt b hb)) (fun a ha => hcore a (hlt a ha)) ⟨by rw [hci]; rfl, zero, by rw [hci]; rfl, le_rfl⟩ (by
          constructor
          · intro q hq v hv
            obtain ⟨h1, b, hb, hb0⟩ := hv
            obtain ⟨c1, c2, c3, c4, c5, c6⟩ := v
            simp only at h1 hb
            subst h1 hb
            cases hq' : core q with
            | nan =>
              have e : DMap.core k .nan ⟨.num zero, .num b, c3, c4, c5, c6⟩ = ⟨.num zero, .num b, c3, c4, c5, c6⟩ := by
                simp [DMap.core, CCmp.lt]
              rw [e]
              refine ⟨⟨rfl, b, rfl, hb0⟩, ?_⟩
              rintro (h | ⟨_, h, _⟩)
              · exact h
              · cases h
            | num u =>
              have hu := hc q (hlt q hq) u hq'
              have e : DMap.core k (.num u) ⟨.num zero, .num b, c3, c4, c5, c6⟩ = ⟨.num zero, .num (max b u), c3, c4, c5, c6⟩ := by
                simp only [DMap.core, CCmp.lt]
                rcases lt_or_ge b u with h | h
                · rw [max_eq_right h.le]; simp [hu.not_gt, h]
                · rw [max_eq_left h]; simp [hu.not_gt, h.not_gt]
              rw [e]
              refine ⟨⟨rfl, _, rfl, hb0.trans (le_max_left _ _)⟩, ?_⟩
              rintro (⟨b', hb', h⟩ | ⟨b', hb', h⟩)
              · cases hb'; exact ⟨_, rfl, h.trans_le (le_max_left _ _)⟩
              · cases hb'; exact ⟨_, rfl, h.trans_le (le_max_right _ _)⟩
          · intro p q _ v hv
            have e1 : (DMap.pair k (d p q) v).minCr = v.minCr := by simp only [DMap.pair]; split <;> split <;> rfl
            have e2 : (DMap.pair k (d p q) v).maxCr = v.maxCr := by simp only [DMap.pair]; split <;> split <;> rfl
            simp only [e1, e2]
            exact ⟨hv, fun h => h.elim id False.elim⟩)
      exact ⟨v, e, fun _ => ⟨h.1, hf (.inl ⟨j, hjr, w, hcj, hw⟩)⟩⟩
    · obtain ⟨v, e, h, _⟩ := cluster_any (k := k) (dis := dis) (d := d) (core := core) (P := fun _ => True) (F := fun _ => True) (Gc := fun _ => True) (Gp := fun _ _ => True) i' r
        (fun a ha b hb => by rw [hz]; exact hget a b (hlt a ha) (hlt b hb)) (fun a ha => hcore a (hlt a ha)) trivial ⟨fun _ _ _ _ => ⟨trivial, fun _ => trivial⟩, fun _ _ _ _ _ => ⟨trivial, fun _ => trivial⟩⟩
      exact ⟨v, e, fun h => absurd h hg⟩)
  have hin : mx = .nan ∨ mx = .num inf := by
    obtain ⟨x, r, hx, rfl⟩ := hmx
    refine maxSum_inf o inf ho.top r x x ?_
    rw [← hx]
    obtain ⟨e, he, _, hP⟩ := forall₂_left hall _ (group_of hm (by omega) hi)
    obtain ⟨h1, b, h2, hb⟩ := hP rfl
    exact List.mem_map.2 ⟨e, he, by rw [Stat.crRatio, h1, h2, ho.pos_zero b hb]⟩
  have h3g := three_groups hm ha hb hcn hx hy hzl hxyz
  obtain ⟨e, e'⟩ := (similarity_cases hm.ascending hne hk hl hp true).2 h3g (two_of_all (by rw [Ascending, hk]; exact hm.ascending) (by omega) fun e he => by
    obtain ⟨e', _, rfl⟩ := List.mem_map.1 he
    exact confidence_nan ho hin _)
  exact ⟨by rw [em, e]; rfl, by rw [ec, e']; rfl⟩

/-- **C79 fails for groups of identical points.** If points with the same label are at distance 0 from each other, and there are three or more groups, the report with the
    clusters by distances, which the sample programs ask for, never ends, in C and in C++. (`D_MIN / D_MAX` underflows to 0.) -/
theorem C79_intra_violated [LinearOrder V] (o : Stat.Ops (Ieee V)) (zero inf dmin dmax : V) (ho : SpecialLaws o zero inf) (hdmin : zero ≤ dmin)
    (hunder : o.div (.num dmin) (.num dmax) = .num zero) (labels : List Nat) (n : Nat) (hn : n ≤ labels.length) (dis : Distance (Ieee V)) (d : Nat → Nat → Ieee V)
    (core : Nat → Ieee V) (hget : ∀ i j, i < n → j < n → dis.get (.num zero) i j = .ok (d i j)) (hcore : ∀ i, i < n → dis.coreDistances[i]? = some (some (core i)))
    (hsame : ∀ i j, i < n → j < n → labels[i]? = labels[j]? → d i j = .num zero)
    (a b c x y z : Nat) (ha : a < n) (hb : b < n) (hcn : c < n) (hx : labels[a]? = some x) (hy : labels[b]? = some y) (hzl : labels[c]? = some z) (hxyz : x ≠ y ∧ x ≠ z ∧ y ≠ z)
    (old : Stat.Stats (Ieee V)) :
    Report.make ⟨.num zero, .num dmin, .num dmax⟩ o labels n dis old false = .diverge ∧ Report.cppMake ⟨.num zero, .num dmin, .num dmax⟩ o labels n dis old false = .diverge := by
  have h3 : 3 ≤ n := by
    have : a ≠ b := by rintro rfl; rw [hx] at hy; exact hxyz.1 (Option.some.inj hy)
    have : a ≠ c := by rintro rfl; rw [hx] at hzl; exact hxyz.2.1 (Option.some.inj hzl)
    have : b ≠ c := by rintro rfl; rw [hy] at hzl; exact hxyz.2.2 (Option.some.inj hzl)
    omega
  obtain ⟨m, d0, mx, mx', s, byLen, hm, hne, hall, hmx, hmx', hk, hl, hp, _, em, ec, -⟩ := report_any ⟨.num zero, .num dmin, .num dmax⟩ o labels n h3 hn dis old
    (fun _ v => v.minDr = .num dmax ∧ v.maxDr = .num dmin) (fun l g h1 h2 => by
    obtain ⟨i, r, rfl⟩ := List.exists_cons_of_ne_nil h1
    have hlt : ∀ a ∈ i :: r, a < n ∧ labels[a]? = some g := fun a ha => by rw [h2] at ha; simpa [carriers] using ha
    obtain ⟨v, e, h, _⟩ := cluster_any (k := ⟨.num zero, .num dmin, .num dmax⟩) (dis := dis) (d := d) (core := core) (P := fun v => v.minDr = .num dmax ∧ v.maxDr = .num dmin)
      (F := fun _ => True) (Gc := fun _ => True) (Gp := fun _ _ => True) i r
      (fun a ha b hb => hget a b (hlt a ha).1 (hlt b hb).1) (fun a ha => hcore a (hlt a ha).1) ⟨rfl, rfl⟩ (by
        constructor
        · intro q _ v hv
          have e1 : (DMap.core ⟨.num zero, .num dmin, .num dmax⟩ (core q) v).minDr = v.minDr := by simp only [DMap.core]; split <;> split <;> rfl
          have e2 : (DMap.core ⟨.num zero, .num dmin, .num dmax⟩ (core q) v).maxDr = v.maxDr := by simp only [DMap.core]; split <;> split <;> rfl
          rw [e1, e2]
          exact ⟨hv, fun _ => trivial⟩
        · intro p q hpq v hv
          have h1 := hlt p (hpq.subset (by simp))
          have h2 := hlt q (hpq.subset (by simp))
          rw [hsame p q h1.1 h2.1 (by rw [h1.2, h2.2])]
          have e : DMap.pair ⟨.num zero, .num dmin, .num dmax⟩ (.num zero) v = v := by
            obtain ⟨c1, c2, c3, c4, c5, c6⟩ := v
            obtain ⟨h1, h2⟩ := hv
            simp only at h1 h2
            subst h1 h2
            simp [DMap.pair, CCmp.lt, hdmin]
          rw [e]
          exact ⟨hv, fun _ => trivial⟩)
    exact ⟨v, e, h⟩)
  have hdr : ∀ e ∈ d0, Stat.drRatio o e.2 = .num zero := fun e he => by
    obtain ⟨_, _, _, h1, h2⟩ := forall₂_right hall e he
    rw [Stat.drRatio, h1, h2, hunder]
  have hz : mx' = .num zero := by
    obtain ⟨x, r, hx, rfl⟩ := hmx'
    have hall : ∀ y ∈ x :: r, y = .num zero := fun y hy => by
      rw [← hx] at hy
      obtain ⟨e, he, rfl⟩ := List.mem_map.1 hy
      exact hdr e he
    rw [hall x (by simp)]
    obtain ⟨w, e, h1, _⟩ := maxSum_num o r zero (.num zero) (fun y hy => ⟨zero, hall y (by simp [hy])⟩)
    rw [e]
    rcases List.mem_cons.1 h1 with h | h
    · exact h
    · exact hall _ (by simp [h])
  have h3g := three_groups hm ha hb hcn hx hy hzl hxyz
  obtain ⟨e, e'⟩ := (similarity_cases hm.ascending hne hk hl hp false).2 h3g (two_of_all (by rw [Ascending, hk]; exact hm.ascending) (by omega) fun e he => by
    obtain ⟨e', he', rfl⟩ := List.mem_map.1 he
    show Stat.confidence o mx' (Stat.drRatio o e'.2) = .nan
    rw [hdr e' he', hz, Stat.confidence, ho.zero_sub, ho.zero_zero, ho.nan_mul])
  exact ⟨by rw [em, e]; rfl, by rw [ec, e']; rfl⟩

/-! ### Examples -/

/-- Rational numbers with both infinities. -/
abbrev Ext := WithBot (WithTop Rat)

/-- Rounding to a format whose smallest positive number is 1/1000 and whose largest is 1000. -/
def extRound (q : Rat) : Ext := if -1/1000 < q ∧ q < 1/1000 then ((0 : Rat) : WithTop Rat) else if 1000 < q then (⊤ : WithTop Rat) else if q < -1000 then ⊥ else (q : WithTop Rat)

/-- Division. -/
def extDiv : Ieee Ext → Ieee Ext → Ieee Ext
  | .num (some (some a)), .num (some (some b)) => if b = 0 then (if a = 0 then .nan else if 0 < a then .num ((⊤ : WithTop Rat) : Ext) else .num ⊥) else .num (extRound (a / b))
  | .num (some (some _)), .num _ => .num ((0 : Rat) : WithTop Rat)
  | .num (some none), .num (some (some b)) => .num (if b < 0 then ⊥ else ((⊤ : WithTop Rat) : Ext))
  | .num none, .num (some (some b)) => .num (if b < 0 then ((⊤ : WithTop Rat) : Ext) else ⊥)
  | _, _ => .nan

/-- Subtraction. -/
def extSub : Ieee Ext → Ieee Ext → Ieee Ext
  | .num (some (some a)), .num (some (some b)) => .num (extRound (a - b))
  | .num (some none), .num (some none) => .nan
  | .num none, .num none => .nan
  | .num (some none), .num _ => .num ((⊤ : WithTop Rat) : Ext)
  | .num none, .num _ => .num ⊥
  | .num (some (some _)), .num (some none) => .num ⊥
  | .num (some (some _)), .num none => .num ((⊤ : WithTop Rat) : Ext)
  | _, _ => .nan

/-- Multiplication by a positive number. -/
def extMul : Ieee Ext → Ieee Ext → Ieee Ext
  | .num (some (some a)), .num (some (some b)) => .num (extRound (a * b))
  | .num (some none), .num _ => .num ((⊤ : WithTop Rat) : Ext)
  | .num none, .num _ => .num ⊥
  | _, _ => .nan

/-- The operations; those that only the statistics use are arbitrary. -/
def extStat : Stat.Ops (Ieee Ext) where
  zero := .num ((0 : Rat) : WithTop Rat)
  add := fun _ _ => .nan
  sub := extSub
  mul := extMul
  div := extDiv
  ofNat n := .num ((n : Rat) : WithTop Rat)
  sqrt x := x
  pow3 x := x
  pow4 x := x

theorem extRound_nonneg {q : Rat} (h : 0 ≤ q) : (((0 : Rat) : WithTop Rat) : Ext) ≤ extRound q := by
  unfold extRound
  split
  · exact le_rfl
  split
  · exact WithBot.coe_le_coe.2 le_top
  split
  · linarith
  · exact WithBot.coe_le_coe.2 (WithTop.coe_le_coe.2 h)

theorem extRound_pos {q : Rat} (h : 1 ≤ q) : (((0 : Rat) : WithTop Rat) : Ext) < extRound q := by
  unfold extRound
  rw [if_neg (by intro h'; linarith [h'.2])]
  split
  · exact WithBot.coe_lt_coe.2 (WithTop.coe_lt_top _)
  · rw [if_neg (by linarith)]
    exact WithBot.coe_lt_coe.2 (WithTop.coe_lt_coe.2 (by linarith))

theorem ext_cases (x : Ext) : x = ⊥ ∨ x = ((⊤ : WithTop Rat) : Ext) ∨ ∃ q : Rat, x = ((q : WithTop Rat) : Ext) := by
  rcases x with _ | _ | q
  · exact .inl rfl
  · exact .inr (.inl rfl)
  · exact .inr (.inr ⟨q, rfl⟩)

theorem ext_numLaws : NumLaws extStat (((0 : Rat) : WithTop Rat) : Ext) ((⊤ : WithTop Rat) : Ext) where
  top := by
    intro x
    rcases ext_cases x with rfl | rfl | ⟨q, rfl⟩
    · exact bot_le
    · exact le_rfl
    · exact WithBot.coe_le_coe.2 le_top
  pos := WithBot.coe_lt_coe.2 (WithTop.coe_lt_top _)
  div := by
    intro a b ha hb hb'
    rcases ext_cases b with rfl | rfl | ⟨q, rfl⟩
    · exact absurd hb (by simp)
    · exact absurd hb' (lt_irrefl _)
    · have hq : 0 < q := WithTop.coe_lt_coe.1 (WithBot.coe_lt_coe.1 hb)
      rcases ext_cases a with rfl | rfl | ⟨p, rfl⟩
      · exact absurd ha (by simp)
      · refine ⟨_, rfl, ?_, fun _ => ?_⟩ <;> rw [if_neg (by linarith)]
        · exact WithBot.coe_le_coe.2 le_top
        · exact WithBot.coe_lt_coe.2 (WithTop.coe_lt_top _)
      · have hp : 0 ≤ p := WithTop.coe_le_coe.1 (WithBot.coe_le_coe.1 ha)
        refine ⟨extRound (p / q), ?_, extRound_nonneg (by positivity), fun h => extRound_pos ?_⟩
        · show (if q = 0 then _ else _) = _
          rw [if_neg hq.ne']
        · rw [le_div_iff₀ hq, one_mul]
          exact WithTop.coe_le_coe.1 (WithBot.coe_le_coe.1 h)
  sub := by
    intro a b hb h ha
    rcases ext_cases a with rfl | rfl | ⟨p, rfl⟩
    · exact absurd (hb.trans h) (by simp)
    · exact absurd ha (lt_irrefl _)
    · rcases ext_cases b with rfl | rfl | ⟨q, rfl⟩
      · exact absurd hb (by simp)
      · exact absurd (h.trans_lt ha) (lt_irrefl _)
      · have := WithTop.coe_le_coe.1 (WithBot.coe_le_coe.1 h)
        exact ⟨_, rfl, extRound_nonneg (by linarith)⟩
  mul := by
    intro a
    rcases ext_cases a with rfl | rfl | ⟨p, rfl⟩ <;> exact ⟨_, rfl⟩

theorem ext_specialLaws : SpecialLaws extStat (((0 : Rat) : WithTop Rat) : Ext) ((⊤ : WithTop Rat) : Ext) where
  top := ext_numLaws.top
  pos_zero := by
    intro a ha
    rcases ext_cases a with rfl | rfl | ⟨p, rfl⟩
    · exact absurd ha (by simp)
    · rfl
    · have hp : 0 < p := WithTop.coe_lt_coe.1 (WithBot.coe_lt_coe.1 ha)
      show (if (0 : Rat) = 0 then (if p = 0 then (Ieee.nan : Ieee Ext) else if 0 < p then .num ((⊤ : WithTop Rat) : Ext) else .num ⊥) else .num (extRound (p / 0))) = _
      rw [if_pos rfl, if_neg hp.ne', if_pos hp]
  zero_zero := by decide +kernel
  inf_inf := rfl
  inf_sub := by
    intro a ha
    rcases ext_cases a with rfl | rfl | ⟨p, rfl⟩
    · rfl
    · exact absurd ha (lt_irrefl _)
    · rfl
  inf_sub_inf := rfl
  zero_sub := by decide +kernel
  nan_div := fun _ => rfl
  nan_sub := fun _ => rfl
  sub_nan := by
    intro x
    cases x with
    | nan => rfl
    | num x => rcases ext_cases x with rfl | rfl | ⟨p, rfl⟩ <;> rfl
  nan_mul := fun _ => rfl

/-- A number. -/
def extNum (q : Rat) : Ieee Ext := .num ((q : WithTop Rat) : Ext)

/-- Addition. -/
def extAdd : Ieee Ext → Ieee Ext → Ieee Ext
  | .num (some (some a)), .num (some (some b)) => .num (extRound (a + b))
  | .num (some none), .num none => .nan
  | .num none, .num (some none) => .nan
  | .num (some none), .num _ => .num ((⊤ : WithTop Rat) : Ext)
  | .num none, .num _ => .num ⊥
  | .num (some (some _)), .num (some none) => .num ((⊤ : WithTop Rat) : Ext)
  | .num (some (some _)), .num none => .num ⊥
  | _, _ => .nan

/-- Runs on one column of numbers with this arithmetic; `D_MAX` is 1000. -/
def extEnv : Api.Env Rat (Ieee Ext) (Ieee Ext) (Ieee Ext) where
  dops := { diff := fun a b => .ok (extNum (a - b)), add := extAdd, mul := extMul
            sqrt := fun x => match x with | .num (some (some v)) => extNum (Nat.sqrt v.num.toNat : Rat) | x => x
            zero := extNum 0 }
  ar := { zeroW := extNum 0, dmax := extNum 1000, zeroS := extNum 0, add := extAdd
          term := fun k w b => extMul (extSub (extDiv (extNum 1) w) (match b with | some b => extDiv (extNum 1) b | none => .nan)) (extNum k) }
  smax := extNum 1000
  oops := { zero := extNum 0, ratio := fun a b => extSub (extNum 1) (extDiv a b) }
  qsort := isort

/-- The constants of this arithmetic. -/
def extConsts : DMap.Consts (Ieee Ext) := ⟨extNum 0, extNum (1/1000), extNum 1000⟩

/-- The statistics record before the call. -/
def extOld : Stat.Stats (Ieee Ext) :=
  { count := 0, core := ⟨extNum 0, extNum 0, extNum 0, extNum 0, extNum 0, extNum 0⟩, intra := ⟨extNum 0, extNum 0, extNum 0, extNum 0, extNum 0, extNum 0⟩ }

/-- A run followed by the report. -/
def extRun (m : Nat) (data : List Rat) (coreType cpp : Bool) : Outcome (List Nat × List Nat) := do
  let o ← Api.fresh extEnv (backPar data.length data.length) m data data.length 1 true
  let r ← if cpp then Report.cppMake extConsts extStat o.results.labels data.length o.dis extOld coreType
    else Report.make extConsts extStat o.results.labels data.length o.dis extOld coreType
  return (r.byLength, r.bySimilarity)

/-- **C79 is violated.** Three groups of three identical points: the run succeeds and finds them, and the report that the sample programs make never ends, in C and
    in C++. Neither does the report by core distances end if each group has two identical points and a third one nearby. -/
theorem C79_violated :
    (Api.fresh extEnv (backPar 9 9) 2 [0, 0, 0, 5, 5, 5, 9, 9, 9] 9 1 true >>= fun o => .ok o.results.labels) = .ok [2, 2, 2, 4, 4, 4, 5, 5, 5] ∧
    extRun 2 [0, 0, 0, 5, 5, 5, 9, 9, 9] false false = .diverge ∧ extRun 2 [0, 0, 0, 5, 5, 5, 9, 9, 9] false true = .diverge ∧
    (Api.fresh extEnv (backPar 9 9) 2 [0, 0, 1, 5, 5, 6, 9, 9, 10] 9 1 true >>= fun o => .ok o.results.labels) = .ok [2, 2, 2, 4, 4, 4, 5, 5, 5] ∧
    extRun 2 [0, 0, 1, 5, 5, 6, 9, 9, 10] true false = .diverge ∧ extRun 2 [0, 0, 1, 5, 5, 6, 9, 9, 10] true true = .diverge := by
  decide +kernel

/-- Reports that are completed. -/
example : extRun 2 [0, 1, 3, 10, 12, 13, 20, 23, 24] false false = .ok ([3, 4, 2], [2, 4, 3]) ∧ extRun 2 [0, 1, 3, 10, 12, 13, 20, 23, 24] true true = .ok ([3, 4, 2], [4, 2, 3]) := by
  decide +kernel

/-- The matrix for points on a line in the layout of the library, with given core distances. -/
def extDis (xs core : List Rat) : Distance (Ieee Ext) :=
  { rows := xs.length, cols := 1, numNeighbors := 1
    distances := (List.range xs.length).flatMap (fun i => (List.range xs.length).filterMap (fun j => if i < j then some (some (extNum |xs.getD i 0 - xs.getD j 0|)) else none))
    coreDistances := core.map (fun c => some (extNum c)) }

/-- The distances. -/
def extD (xs : List Rat) (i j : Nat) : Ieee Ext := extNum |xs.getD i 0 - xs.getD j 0|

example := C79_report_partial extConsts extStat [2, 2, 3, 3, 4, 4] 6 (by omega) (by simp) (extDis [0, 2, 10, 12, 20, 23] [2, 2, 2, 2, 3, 3]) (extD [0, 2, 10, 12, 20, 23])
  (fun i => extNum ([2, 2, 2, 2, 3, 3].getD i 0)) (fun i j hi hj => (by decide +kernel : ∀ i, i < 6 → ∀ j, j < 6 → (extDis [0, 2, 10, 12, 20, 23] [2, 2, 2, 2, 3, 3]).get (extNum 0) i j = .ok (extD [0, 2, 10, 12, 20, 23] i j)) i hi j hj)
  (by decide +kernel) extOld

/-- No overflow in the quotients of numbers between 1 and 100. -/
theorem ext_over (a b r : Ext) (ha : (((0 : Rat) : WithTop Rat) : Ext) < a) (ha' : a ≤ (((100 : Rat) : WithTop Rat) : Ext)) (hb : (((1 : Rat) : WithTop Rat) : Ext) ≤ b)
    (hb' : b < ((⊤ : WithTop Rat) : Ext)) (h : extStat.div (.num a) (.num b) = .num r) : r < ((⊤ : WithTop Rat) : Ext) := by
  rcases ext_cases b with rfl | rfl | ⟨q, rfl⟩
  · exact absurd hb (by simp)
  · exact absurd hb' (lt_irrefl _)
  rcases ext_cases a with rfl | rfl | ⟨p, rfl⟩
  · exact absurd ha (by simp)
  · exact absurd (WithBot.coe_le_coe.1 ha') (not_le.2 (WithTop.coe_lt_top _))
  have hp : 0 < p := WithTop.coe_lt_coe.1 (WithBot.coe_lt_coe.1 ha)
  have hp' : p ≤ 100 := WithTop.coe_le_coe.1 (WithBot.coe_le_coe.1 ha')
  have hq : 1 ≤ q := WithTop.coe_le_coe.1 (WithBot.coe_le_coe.1 hb)
  have e : extStat.div (.num ((p : WithTop Rat) : Ext)) (.num ((q : WithTop Rat) : Ext)) = .num (extRound (p / q)) := by
    show (if q = 0 then (if p = 0 then (Ieee.nan : Ieee Ext) else if 0 < p then .num ((⊤ : WithTop Rat) : Ext) else .num ⊥) else .num (extRound (p / q))) = _
    rw [if_neg (by linarith)]
  rw [e, Ieee.num.injEq] at h
  have h1 : p / q ≤ 100 := by rw [div_le_iff₀ (by linarith)]; linarith
  have h0 : 0 < p / q := by positivity
  rw [← h]
  unfold extRound
  split
  · exact WithBot.coe_lt_coe.2 (WithTop.coe_lt_top _)
  rw [if_neg (by linarith), if_neg (by linarith)]
  exact WithBot.coe_lt_coe.2 (WithTop.coe_lt_top _)

example := C79_range_partial extStat _ _ (((1/1000 : Rat) : WithTop Rat) : Ext) (((1000 : Rat) : WithTop Rat) : Ext) _ _ ext_numLaws (by decide +kernel) (by decide +kernel)
  (by decide +kernel) (by decide +kernel) (by decide +kernel) ext_over [2, 2, 3, 3, 4, 4] 6 (by omega) (by simp) (extDis [0, 2, 10, 10, 20, 23] [2, 2, 8, 8, 3, 3]) (extD [0, 2, 10, 10, 20, 23])
  (fun i => extNum ([2, 2, 8, 8, 3, 3].getD i 0))
  (fun i j hi hj => (by decide +kernel : ∀ i, i < 6 → ∀ j, j < 6 → (extDis [0, 2, 10, 10, 20, 23] [2, 2, 8, 8, 3, 3]).get (extNum 0) i j = .ok (extD [0, 2, 10, 10, 20, 23] i j)) i hi j hj)
  (by decide +kernel)
  (fun i hi => ⟨_, rfl, (by decide +kernel : ∀ i, i < 6 → (((1 : Rat) : WithTop Rat) : Ext) ≤ ((([2, 2, 8, 8, 3, 3].getD i 0 : Rat) : WithTop Rat) : Ext) ∧
    ((([2, 2, 8, 8, 3, 3].getD i 0 : Rat) : WithTop Rat) : Ext) ≤ (((100 : Rat) : WithTop Rat) : Ext)) i hi⟩)
  (fun i j hi hj => ⟨_, rfl, (by decide +kernel : ∀ i, i < 6 → ∀ j, j < 6 → (((|[0, 2, 10, 10, 20, 23].getD i 0 - [0, 2, 10, 10, 20, 23].getD j 0| : Rat) : WithTop Rat) : Ext) = (((0 : Rat) : WithTop Rat) : Ext) ∨
    (((1 : Rat) : WithTop Rat) : Ext) ≤ (((|[0, 2, 10, 10, 20, 23].getD i 0 - [0, 2, 10, 10, 20, 23].getD j 0| : Rat) : WithTop Rat) : Ext) ∧
    (((|[0, 2, 10, 10, 20, 23].getD i 0 - [0, 2, 10, 10, 20, 23].getD j 0| : Rat) : WithTop Rat) : Ext) ≤ (((100 : Rat) : WithTop Rat) : Ext)) i hi j hj⟩)
  extOld

example := C79_core_violated extConsts extStat _ _ rfl ext_specialLaws [2, 2, 3, 3, 4, 4] 6 (by simp) (extDis [0, 2, 10, 12, 20, 23] [0, 2, 2, 2, 3, 3]) (extD [0, 2, 10, 12, 20, 23])
  (fun i => extNum ([0, 2, 2, 2, 3, 3].getD i 0)) (fun i j hi hj => (by decide +kernel : ∀ i, i < 6 → ∀ j, j < 6 → (extDis [0, 2, 10, 12, 20, 23] [0, 2, 2, 2, 3, 3]).get (extNum 0) i j = .ok (extD [0, 2, 10, 12, 20, 23] i j)) i hi j hj)
  (by decide +kernel)
  (fun i hi x hx => by
    have : ∀ i, i < 6 → (0 : Rat) ≤ [0, 2, 2, 2, 3, 3].getD i 0 := by decide +kernel
    cases hx
    exact WithBot.coe_le_coe.2 (WithTop.coe_le_coe.2 (this i hi)))
  0 2 4 2 3 4 (by omega) (by omega) (by omega) rfl rfl rfl (by decide) 0 1 2 _ (by omega) rfl rfl (by omega) rfl rfl (by decide +kernel) extOld

example := C79_intra_violated extStat _ _ (((1/1000 : Rat) : WithTop Rat) : Ext) (((1000 : Rat) : WithTop Rat) : Ext) ext_specialLaws (by decide +kernel) (by decide +kernel) [2, 2, 3, 3, 4, 4] 6 (by simp) (extDis [0, 0, 10, 10, 20, 20] [0, 0, 0, 0, 0, 0])
  (extD [0, 0, 10, 10, 20, 20]) (fun i => extNum ([0, 0, 0, 0, 0, 0].getD i 0))
  (fun i j hi hj => (by decide +kernel : ∀ i, i < 6 → ∀ j, j < 6 → (extDis [0, 0, 10, 10, 20, 20] [0, 0, 0, 0, 0, 0]).get (extNum 0) i j = .ok (extD [0, 0, 10, 10, 20, 20] i j)) i hi j hj)
  (by decide +kernel) (fun i j hi hj h => ((by decide +kernel : ∀ i, i < 6 → ∀ j, j < 6 →
    ¬ ([2, 2, 3, 3, 4, 4] : List Nat)[i]? = ([2, 2, 3, 3, 4, 4] : List Nat)[j]? ∨ extD [0, 0, 10, 10, 20, 20] i j = extNum 0) i hi j hj).resolve_left (fun g => g h))
  0 2 4 2 3 4 (by omega) (by omega) (by omega) rfl rfl rfl (by decide) extOld

end Verif.Props
