import Verif.Spec.Race
import Verif.Props.Labels
/-
C37: the loop that assigns offsets.
-/
namespace Verif.Props
open Spec Race
variable {W S : Type}

theorem step_write (lc : Nat) (fresh : List Nat) (i l : Nat) (cs : List (Option (Cl W S))) (h : ∃ c : Cl W S, cs[l]? = some (some c)) :
    ∃ cs', step lc fresh (.write i) (some l, cs) = .ok (some l, cs') ∧ OffsetsSet lc [l] cs cs' := by
  obtain ⟨c, hc⟩ := h
  have hlt := (List.getElem?_eq_some_iff.1 hc).1
  refine ⟨cs.set l (some { c with offset := lc }), ?_, fun k => ?_⟩
  · simp [step, Hier.getCl_ok hc, wr_ok hlt]
  · by_cases hk : k = l
    · subst hk; rw [hc]; simp [hlt]
    · rw [List.getElem?_set_ne (by omega)]
      simp only [List.mem_singleton, hk, if_false, Option.map_id']

theorem offsets_trans {lc : Nat} {f1 f2 : List Nat} {a b c : List (Option (Cl W S))} (h1 : OffsetsSet lc f1 a b) (h2 : OffsetsSet lc f2 b c) :
    OffsetsSet lc (f1 ++ f2) a c := by
  intro l
  rw [h2 l, h1 l, Option.map_map]
  congr 1
  funext x
  simp only [Function.comp_apply, Option.map_map]
  congr 1
  funext y
  simp only [Function.comp_apply, List.mem_append]
  by_cases p : l ∈ f1 <;> by_cases q : l ∈ f2 <;> simp [p, q]

theorem offsets_congr {lc : Nat} {f1 f2 : List Nat} {a b : List (Option (Cl W S))} (h : ∀ l, l ∈ f1 ↔ l ∈ f2) (h1 : OffsetsSet lc f1 a b) :
    OffsetsSet lc f2 a b := by
  intro l
  rw [h1 l]
  simp only [h]

theorem offsets_nil {lc : Nat} (a : List (Option (Cl W S))) : OffsetsSet lc [] a a := by
  intro l
  simp

theorem offsets_some {lc : Nat} {f : List Nat} {a b : List (Option (Cl W S))} (h : OffsetsSet lc f a b) {l : Nat} (hl : ∃ c : Cl W S, a[l]? = some (some c)) :
    ∃ c : Cl W S, b[l]? = some (some c) := by
  obtain ⟨c, hc⟩ := hl
  rw [h l, hc]
  exact ⟨_, rfl⟩

theorem run_append (lc : Nat) (fresh : List Nat) (a b : List Access) (s : Option Nat × List (Option (Cl W S))) :
    run lc fresh (a ++ b) s = run lc fresh a s >>= fun s' => run lc fresh b s' := by
  induction a generalizing s with
  | nil => simp [run]
  | cons x a ih =>
    simp only [List.cons_append, run, Outcome.bind_assoc]
    cases step lc fresh x s <;> simp [ih]

/-- C37, the part that holds: if the iterations are executed one after the other, in any order (a single thread, or a `newCluster` private to each thread),
    every new cluster gets the offset `lineCount` and nothing else changes.
    Missing: interleaved iterations, for which the claim is false (`C37_lost_updates`). -/
theorem C37_sequential_partial (lineCount : Nat) (fresh : List Nat) (cs : List (Option (Cl W S))) (hf : ∀ l ∈ fresh, ∃ c : Cl W S, cs[l]? = some (some c))
    (order : List Nat) (ho : order.Perm (List.range fresh.length)) :
    ∃ cs', offsets lineCount fresh (oneByOne order) cs = .ok cs' ∧ OffsetsSet lineCount fresh cs cs' := by
  have key : ∀ (ord : List Nat) (ptr : Option Nat) (a : List (Option (Cl W S))), (∀ l ∈ fresh, ∃ c : Cl W S, a[l]? = some (some c)) → (∀ i ∈ ord, i < fresh.length) →
      ∃ ptr' b, run lineCount fresh (oneByOne ord) (ptr, a) = .ok (ptr', b) ∧ OffsetsSet lineCount (ord.filterMap (fun i => fresh[i]?)) a b := by
    intro ord
    induction ord with
    | nil => exact fun ptr a _ _ => ⟨ptr, a, rfl, offsets_nil a⟩
    | cons i ord ih =>
      intro ptr a ha hi
      have hif := hi i (by simp)
      have hget : fresh[i]? = some fresh[i] := List.getElem?_eq_getElem hif
      obtain ⟨b, e, hb⟩ := step_write lineCount fresh i fresh[i] a (ha _ (List.getElem_mem hif))
      obtain ⟨p', c, e', hc⟩ := ih (some fresh[i]) b (fun l hl => offsets_some hb (ha l hl)) (fun j hj => hi j (by simp [hj]))
      refine ⟨p', c, ?_, ?_⟩
      · rw [oneByOne, List.flatMap_cons, ← oneByOne]
        simp only [List.cons_append, List.nil_append, run]
        have : step lineCount fresh (.assign i) (ptr, a) = .ok (some fresh[i], a) := by simp [step, rd_ok hif]
        rw [this, Outcome.ok_bind, e, Outcome.ok_bind, e']
      · rw [List.filterMap_cons, hget]
        exact offsets_trans hb hc
  obtain ⟨p, b, e, hb⟩ := key order none cs hf (fun i hi => List.mem_range.1 (ho.mem_iff.1 hi))
  refine ⟨b, by simp [offsets, e], offsets_congr (fun l => ?_) hb⟩
  rw [List.mem_filterMap]
  constructor
  · rintro ⟨i, _, hi⟩
    exact List.mem_of_getElem? hi
  · intro hl
    obtain ⟨i, hi, rfl⟩ := List.getElem_of_mem hl
    exact ⟨i, ho.mem_iff.2 (List.mem_range.2 hi), List.getElem?_eq_getElem hi⟩

/-- Executing one iteration after the other is an interleaving. -/
theorem oneByOne_interleaving {m : Nat} {order : List Nat} (ho : order.Perm (List.range m)) : Interleaving m (oneByOne order) := by
  refine ⟨ho.flatMap_right _, fun i hi => ?_⟩
  obtain ⟨a, b, rfl⟩ := List.append_of_mem (ho.mem_iff.2 (List.mem_range.2 hi))
  exact ⟨oneByOne a, [], oneByOne b, by simp [oneByOne]⟩

/-- What every interleaving guarantees: the loop finishes and sets the offsets of a non-empty part of the new clusters, and changes nothing else. -/
theorem C37_every_interleaving (lineCount : Nat) (fresh : List Nat) (hne : fresh ≠ []) (cs : List (Option (Cl W S)))
    (hf : ∀ l ∈ fresh, ∃ c : Cl W S, cs[l]? = some (some c)) (acts : List Access) (ha : Interleaving fresh.length acts) :
    ∃ cs' part, offsets lineCount fresh acts cs = .ok cs' ∧ OffsetsSet lineCount part cs cs' ∧ part ≠ [] ∧ ∀ l ∈ part, l ∈ fresh := by
  have hidx : ∀ i, Access.assign i ∈ acts → i < fresh.length := by
    intro i hi
    have := ha.once.mem_iff.1 hi
    simp only [List.mem_flatMap, List.mem_range] at this
    obtain ⟨j, hj, h⟩ := this
    simp at h
    omega
  -- an execution whose pointer is set
  have key : ∀ (r : List Access) (p : Nat) (a : List (Option (Cl W S))), p ∈ fresh → (∀ l ∈ fresh, ∃ c : Cl W S, a[l]? = some (some c)) →
      (∀ i, Access.assign i ∈ r → i < fresh.length) →
      ∃ s part, run lineCount fresh r (some p, a) = .ok s ∧ OffsetsSet lineCount part a s.2 ∧ (∀ l ∈ part, l ∈ fresh) ∧ ((∃ i, Access.write i ∈ r) → part ≠ []) := by
    intro r
    induction r with
    | nil => exact fun p a _ _ _ => ⟨_, [], rfl, offsets_nil a, by simp, by simp⟩
    | cons x r ih =>
      intro p a hp hcl hr
      cases x with
      | assign i =>
        have hi := hr i (by simp)
        obtain ⟨s, part, e, h1, h2, h3⟩ := ih fresh[i] a (List.getElem_mem hi) hcl (fun j hj => hr j (by simp [hj]))
        refine ⟨s, part, ?_, h1, h2, fun ⟨j, hj⟩ => h3 ⟨j, by simpa using hj⟩⟩
        have : step lineCount fresh (.assign i) (some p, a) = .ok (some fresh[i], a) := by simp [step, rd_ok hi]
        rw [run, this, Outcome.ok_bind, e]
      | write i =>
        obtain ⟨b, e, hb⟩ := step_write lineCount fresh i p a (hcl p hp)
        obtain ⟨s, part, e', h1, h2, h3⟩ := ih p b hp (fun l hl => offsets_some hb (hcl l hl)) (fun j hj => hr j (by simp [hj]))
        refine ⟨s, [p] ++ part, by rw [run, e, Outcome.ok_bind, e'], offsets_trans hb h1, ?_, by simp⟩
        intro l hl
        rcases List.mem_append.1 hl with h | h
        · rw [List.mem_singleton.1 h]; exact hp
        · exact h2 l h
  have hm : 0 < fresh.length := List.length_pos_iff.2 hne
  -- the first access is an assignment
  match hacts : acts, ha, hidx with
  | [], ha, _ =>
    obtain ⟨a, b, c, h⟩ := ha.before 0 hm
    simp at h
  | .write i :: r, ha, _ =>
    exfalso
    have hi : i < fresh.length := by
      have := ha.once.mem_iff.1 (List.mem_cons_self (a := Access.write i) (l := r))
      simp only [List.mem_flatMap, List.mem_range] at this
      obtain ⟨j, hj, h⟩ := this
      simp at h
      omega
    have hnd : (Access.write i :: r).Nodup := by
      rw [ha.once.nodup_iff]
      rw [List.nodup_flatMap]
      refine ⟨fun x _ => by simp, ?_⟩
      exact List.nodup_range.imp (fun {x y} hxy => by simp [List.disjoint_left, hxy])
    obtain ⟨a, b, c, h⟩ := ha.before i hi
    cases a with
    | nil => simp at h
    | cons y a =>
      simp only [List.cons_append, List.cons.injEq] at h
      rw [List.nodup_cons, h.2] at hnd
      exact hnd.1 (by simp)
  | .assign i :: r, ha, hidx =>
    have hi := hidx i (by simp)
    obtain ⟨s, part, e, h1, h2, h3⟩ := key r fresh[i] cs (List.getElem_mem hi) hf (fun j hj => hidx j (by simp [hj]))
    refine ⟨s.2, part, ?_, h1, h3 ?_, h2⟩
    · have : step lineCount fresh (.assign i) (none, cs) = .ok (some fresh[i], cs) := by simp [step, rd_ok hi]
      simp [offsets, run, this, e]
    · obtain ⟨a, b, c, h⟩ := ha.before 0 hm
      have : Access.write 0 ∈ Access.assign i :: r := by rw [h]; simp
      exact ⟨0, by simpa using this⟩

/-- C37 is violated whenever two or more clusters are born in one level: in the interleaving in which all threads assign before any of them writes, only
    the last assigned cluster gets the offset; the others keep theirs. -/
theorem C37_lost_updates (lineCount : Nat) (fresh : List Nat) (last : Nat) (cs : List (Option (Cl W S)))
    (hf : ∃ c : Cl W S, cs[last]? = some (some c)) :
    ∃ acts cs', Interleaving (fresh ++ [last]).length acts ∧ offsets lineCount (fresh ++ [last]) acts cs = .ok cs' ∧ OffsetsSet lineCount [last] cs cs' := by
  let m := (fresh ++ [last]).length
  have hm : m = fresh.length + 1 := by simp [m]
  have assigns : ∀ (l : List Nat) (p : Option Nat), (∀ i ∈ l, i < m) → ∃ q, run lineCount (fresh ++ [last]) (l.map .assign) (p, cs) = .ok (q, cs) ∧
      (∀ i, l.getLast? = some i → q = (fresh ++ [last])[i]?) := by
    intro l
    induction l with
    | nil => exact fun p _ => ⟨p, rfl, by simp⟩
    | cons i l ih =>
      intro p hl
      have hi := hl i (by simp)
      obtain ⟨q, e, hq⟩ := ih (some (fresh ++ [last])[i]) (fun j hj => hl j (by simp [hj]))
      refine ⟨q, ?_, fun j hj => ?_⟩
      · have : step lineCount (fresh ++ [last]) (.assign i) (p, cs) = .ok (some (fresh ++ [last])[i], cs) := by
          simp only [step, rd_ok hi, Outcome.ok_bind, Outcome.pure_eq]
        rw [List.map_cons, run, this, Outcome.ok_bind, e]
      · cases l with
        | nil =>
          simp at hj; subst hj
          simp only [List.map_nil, run] at e
          cases e
          exact (List.getElem?_eq_getElem hi).symm
        | cons k l => exact hq j (by simpa [List.getLast?_cons_cons] using hj)
  have writes : ∀ (l : List Nat) (a : List (Option (Cl W S))), (∃ c : Cl W S, a[last]? = some (some c)) → l ≠ [] →
      ∃ b, run lineCount (fresh ++ [last]) (l.map .write) (some last, a) = .ok (some last, b) ∧ OffsetsSet lineCount [last] a b := by
    intro l
    induction l with
    | nil => exact fun a _ h => absurd rfl h
    | cons i l ih =>
      intro a ha _
      obtain ⟨b, e, hb⟩ := step_write lineCount (fresh ++ [last]) i last a ha
      by_cases hl : l = []
      · subst hl
        exact ⟨b, by rw [List.map_cons, run, e]; rfl, hb⟩
      · obtain ⟨c, e', hc⟩ := ih b (offsets_some hb ha) hl
        exact ⟨c, by rw [List.map_cons, run, e, Outcome.ok_bind, e'], offsets_congr (fun x => by simp) (offsets_trans hb hc)⟩
  obtain ⟨q, e, hq⟩ := assigns (List.range m) none (fun i hi => List.mem_range.1 hi)
  have hlast : q = some last := by
    rw [hq fresh.length (by rw [hm, List.range_succ]; simp)]
    simp
  subst hlast
  obtain ⟨b, e', hb⟩ := writes (List.range m) cs hf (by rw [hm]; simp)
  refine ⟨(List.range m).map .assign ++ (List.range m).map .write, b, ⟨?_, fun i hi => ?_⟩, ?_, hb⟩
  · have : ∀ l : List Nat, (l.map Access.assign ++ l.map Access.write).Perm (l.flatMap (fun i => [.assign i, .write i])) := by
      intro l
      induction l with
      | nil => exact .refl _
      | cons i l ih =>
        simp only [List.map_cons, List.cons_append, List.flatMap_cons, List.nil_append]
        exact (List.perm_middle.trans (ih.cons _)).cons _
    exact this _
  · obtain ⟨x, y, hxy⟩ := List.append_of_mem (List.mem_range.2 hi : i ∈ List.range m)
    exact ⟨x.map .assign, y.map .assign ++ x.map .write, y.map .write, by rw [hxy]; simp⟩
  · simp [offsets, run_append, e, e']

/-! ### Concrete case -/

/-- The clusters 2 and 3 of the example `demo 1 5` before the loop. -/
def raceClusters : List (Option (Cl Nat Nat)) :=
  [none, some { Cl.init demoArith 1 none none 0 with hasChildren := true }, some (Cl.init demoArith 2 (some 1) (some 5) 3), some (Cl.init demoArith 3 (some 1) (some 5) 3)]

theorem raceClusters_some : ∀ l ∈ [2, 3], ∃ c : Cl Nat Nat, raceClusters[l]? = some (some c) := by
  intro l hl
  simp at hl
  rcases hl with rfl | rfl <;> exact ⟨_, rfl⟩

example := C37_sequential_partial 1 [2, 3] raceClusters raceClusters_some [1, 0] (by decide)
example := C37_every_interleaving 1 [2, 3] (by simp) raceClusters raceClusters_some _ (oneByOne_interleaving (order := [1, 0]) (by decide))
example := C37_lost_updates 1 [2] 3 raceClusters (raceClusters_some 3 (by simp))

/-- C37 is violated: two threads, two new clusters; cluster 2 keeps offset 0. -/
theorem C37_violated : (offsets 1 [2, 3] [.assign 0, .assign 1, .write 0, .write 1] raceClusters >>= fun cs => .ok (cs.map (fun c => c.map (·.offset)))) =
    .ok [none, some 0, some 0, some 1] := by decide +kernel

/-- The clusters of a run in which cluster 2 lost its offset. -/
def loseOffset (cs : List (Option (Cl Nat Nat))) : List (Option (Cl Nat Nat)) := cs.map (fun c => c.map (fun c => if c.label = 2 then { c with offset := 0 } else c))

/-- What a lost offset does to the result: the six points of `demo 1 5` are labelled 2, 2, 2, 3, 3, 3 without the race, but with it the points of cluster 2 are
    reported as noise although cluster 2 is selected. -/
theorem C37_wrong_labels :
    (Hier.compute demoArith 2 false (demo 1 5) >>= fun res => Sel.propagateTree demoArith 1000 (List.range 4) res.clusters >>= fun s =>
      Sel.prominent s.clusters res.hierarchy 6 List.range id) = .ok [2, 2, 2, 3, 3, 3] ∧
    (Hier.compute demoArith 2 false (demo 1 5) >>= fun res => Sel.propagateTree demoArith 1000 (List.range 4) (loseOffset res.clusters) >>= fun s =>
      Sel.prominent s.clusters res.hierarchy 6 List.range id) = .ok [0, 0, 0, 3, 3, 3] := by decide +kernel

end Verif.Props
