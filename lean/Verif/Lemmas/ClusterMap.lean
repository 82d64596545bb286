import Verif.Spec.ClusterMap
import Verif.Lemmas.Outlier
/-
Helper lemmas for the tables of clusters.
-/
namespace Verif
open Spec

namespace KMap
variable {V : Type}

theorem lookup_mem {m : KMap V} (h : Ascending m) {k : Nat} {v : V} : m.lookup k = some v ↔ (k, v) ∈ m := by
  induction m with
  | nil => simp [KMap.lookup]
  | cons e m ih =>
    have h' := h
    rw [Ascending, KMap.keys, List.map_cons, List.pairwise_cons] at h
    have ih := ih h.2
    unfold KMap.lookup at ih ⊢
    by_cases hk : e.1 = k
    · rw [List.find?_cons_of_pos (by simpa using hk)]
      simp only [Option.map_some, Option.some.injEq, List.mem_cons]
      constructor
      · rintro rfl; exact .inl (by rw [← hk])
      · rintro (h1 | h1)
        · rw [← h1]
        · have := h.1 k (List.mem_map.2 ⟨_, h1, rfl⟩)
          omega
    · rw [List.find?_cons_of_neg (by simpa using hk), ih]
      simp only [List.mem_cons]
      constructor
      · exact .inr
      · rintro (h1 | h1)
        · exact absurd (by rw [← h1]) hk
        · exact h1

theorem lookup_cons (e : Nat × V) (m : KMap V) (k : Nat) : KMap.lookup (e :: m) k = if e.1 = k then some e.2 else KMap.lookup m k := by
  unfold KMap.lookup
  by_cases h : e.1 = k <;> simp [h]

theorem lookup_insert (m : KMap V) (k k' : Nat) (v : V) : (m.insert k v).lookup k' = if k = k' then some v else m.lookup k' := by
  induction m with
  | nil => simp [insert, lookup_cons]
  | cons e m ih =>
    obtain ⟨a, b⟩ := e
    unfold insert
    by_cases h1 : k < a
    · rw [if_pos h1, lookup_cons]
    · rw [if_neg h1]
      by_cases h2 : k = a
      · rw [if_pos h2, lookup_cons, lookup_cons]
        subst h2
        by_cases h3 : k = k' <;> simp [h3]
      · rw [if_neg h2, lookup_cons, ih, lookup_cons]
        by_cases h3 : a = k'
        · rw [if_pos h3, if_neg (fun hc : k = k' => h2 (hc.trans h3.symm)), if_pos h3]
        · simp [h3]

theorem keys_insert (m : KMap V) (k x : Nat) (v : V) : x ∈ (m.insert k v).keys ↔ x = k ∨ x ∈ m.keys := by
  induction m with
  | nil => simp [insert, keys]
  | cons e m ih =>
    obtain ⟨a, b⟩ := e
    unfold insert
    by_cases h1 : k < a
    · simp [h1, keys]
    · by_cases h2 : k = a
      · subst h2; simp [keys]
      · simp only [keys] at ih
        simp only [h1, h2, if_false, keys, List.map_cons, List.mem_cons, ih]
        tauto

theorem ascending_insert {m : KMap V} (h : Ascending m) (k : Nat) (v : V) : Ascending (m.insert k v) := by
  induction m with
  | nil => simp [insert, Ascending, keys]
  | cons e m ih =>
    obtain ⟨a, b⟩ := e
    have h0 := h
    rw [Ascending, keys, List.map_cons, List.pairwise_cons] at h
    unfold insert
    by_cases h1 : k < a
    · rw [if_pos h1, Ascending, keys, List.map_cons, List.pairwise_cons]
      refine ⟨fun x hx => ?_, h0⟩
      rw [List.map_cons, List.mem_cons] at hx
      rcases hx with rfl | hx
      · exact h1
      · exact h1.trans (h.1 x hx)
    · rw [if_neg h1]
      by_cases h2 : k = a
      · rw [if_pos h2, Ascending, keys, List.map_cons, List.pairwise_cons]
        subst h2
        exact h
      · rw [if_neg h2, Ascending, keys, List.map_cons, List.pairwise_cons]
        refine ⟨fun x hx => ?_, ih h.2⟩
        rcases (keys_insert m k x v).1 hx with rfl | hx
        · show a < x
          omega
        · exact h.1 x hx

/-- Appending behind all keys. -/
theorem insert_last {m : KMap V} {k : Nat} (h : ∀ x ∈ m.keys, x < k) (v : V) : m.insert k v = m ++ [(k, v)] := by
  induction m with
  | nil => rfl
  | cons e m ih =>
    obtain ⟨a, b⟩ := e
    have : a < k := h a (by simp [keys])
    rw [insert, if_neg (by omega), if_neg (by omega), ih (fun x hx => h x (by simp [keys] at hx ⊢; exact .inr hx))]
    rfl

theorem lookup_none {m : KMap V} {k : Nat} (h : ∀ x ∈ m.keys, x ≠ k) : m.lookup k = none := by
  unfold lookup
  rw [Option.map_eq_none_iff, List.find?_eq_none]
  intro e he
  simpa using h e.1 (List.mem_map.2 ⟨e, he, rfl⟩)

end KMap

namespace CMap

theorem carriers_succ (labels : List Nat) (b e k : Nat) (hbe : b ≤ e) :
    carriers labels b (e + 1) k = if labels[e]? = some k then carriers labels b e k ++ [e] else carriers labels b e k := by
  unfold carriers
  rw [List.range_succ, List.filter_append]
  by_cases h : labels[e]? = some k <;> simp [h, hbe]

theorem carriers_start (labels : List Nat) (b k : Nat) : carriers labels b b k = [] := by
  unfold carriers
  rw [List.filter_eq_nil_iff]
  intro i hi
  rw [List.mem_range] at hi
  simp
  omega

/-- The tables with one more index. -/
theorem step_map {labels : List Nat} {b e x : Nat} (hbe : b ≤ e) (hx : labels[e]? = some x) {m : KMap (List Nat)} (h : IsClusterMap labels b e m) :
    IsClusterMap labels b (e + 1) (m.insert x ((m.lookup x).getD [] ++ [e])) := by
  refine ⟨KMap.ascending_insert h.ascending _ _, fun k l => ?_⟩
  rw [KMap.lookup_insert, carriers_succ _ _ _ _ hbe, hx]
  by_cases hk : x = k
  · subst hk
    simp only [if_true, Option.some.injEq]
    have hc : (m.lookup x).getD [] = carriers labels b e x := by
      cases hl : m.lookup x with
      | none =>
        by_contra hne
        have := (h.lists x (carriers labels b e x)).2 ⟨rfl, fun hc => hne (by rw [hc]; rfl)⟩
        rw [hl] at this; cases this
      | some l => exact ((h.lists x l).1 hl).1
    rw [hc]
    constructor
    · rintro rfl; exact ⟨rfl, by simp⟩
    · rintro ⟨rfl, _⟩; rfl
  · simp only [hk, if_false, Option.some.injEq]
    exact h.lists k l

theorem empty_map (labels : List Nat) (b : Nat) : IsClusterMap labels b b [] := by
  refine ⟨List.Pairwise.nil, fun k l => ?_⟩
  rw [carriers_start]
  simp [KMap.lookup]

theorem cppLoop_rep (labels : List Nat) (b : Nat) : ∀ (count e : Nat) (m : KMap (List Nat)), b ≤ e → e + count ≤ labels.length → IsClusterMap labels b e m →
    ∃ m', cppLoop labels count e m = .ok m' ∧ IsClusterMap labels b (e + count) m' := by
  intro count
  induction count with
  | zero => exact fun e m _ _ h => ⟨m, rfl, h⟩
  | succ count ih =>
    intro e m hb hl h
    have he : e < labels.length := by omega
    obtain ⟨m', e', h'⟩ := ih (e + 1) _ (by omega) (by omega) (step_map hb (List.getElem?_eq_getElem he) h)
    refine ⟨m', ?_, by rwa [Nat.add_assoc, Nat.add_comm 1] at h'⟩
    rw [cppLoop, rd_ok he, Outcome.ok_bind, e']

/-- With lists of at least three cells the C loop does what the C++ loop does. -/
theorem loop_eq (labels : List Nat) (size : Nat) (hs : size / 3 ≠ 0) : ∀ (count e : Nat) (m : KMap (List Nat)), loop labels size count e m = cppLoop labels count e m := by
  intro count
  induction count with
  | zero => exact fun _ _ => rfl
  | succ count ih =>
    intro e m
    rw [loop, cppLoop, add]
    by_cases he : e < labels.length
    · rw [rd_ok he, Outcome.ok_bind, Outcome.ok_bind]
      cases hl : m.lookup labels[e] with
      | none => simp [hs, ih]
      | some l => simp [ih]
    · have : rd labels e = .ub "read out of bounds" := by simp [rd, he]
      rw [this]; rfl

end CMap

namespace DMap
variable {W : Type} [LinearOrder W]

/-- What the record says about the core distances and distances seen so far. -/
structure Inv (k : Consts W) (c0 : W) (C P : W → Prop) (v : DistVals W) : Prop where
  maxCr : Largest C v.maxCr
  minCr0 : c0 = k.zero → v.minCr = k.zero
  minCr : c0 ≠ k.zero → Smallest (fun x => C x ∧ x ≠ k.zero) v.minCr
  maxDr : Largest (fun x => P x ∨ x = k.dmin) v.maxDr
  minDr : Smallest (fun x => (P x ∧ x ≠ k.zero) ∨ x = k.dmax) v.minDr

theorem Inv.congr {k : Consts W} {c0 : W} {C P C' P' : W → Prop} {v : DistVals W} (h : Inv k c0 C P v) (hC : ∀ x, C x ↔ C' x) (hP : ∀ x, P x ↔ P' x) :
    Inv k c0 C' P' v := by
  obtain rfl : C = C' := funext fun x => propext (hC x)
  obtain rfl : P = P' := funext fun x => propext (hP x)
  exact h

theorem largest_or {P : W → Prop} {w x : W} (h : Largest P w) : Largest (fun y => P y ∨ y = x) (if w < x then x else w) := by
  by_cases hw : w < x
  · rw [if_pos hw]
    refine ⟨.inr rfl, fun y hy => ?_⟩
    rcases hy with hy | rfl
    · exact (h.2 y hy).trans hw.le
    · exact le_refl _
  · rw [if_neg hw]
    refine ⟨.inl h.1, fun y hy => ?_⟩
    rcases hy with hy | rfl
    · exact h.2 y hy
    · exact not_lt.1 hw

theorem smallest_or {P : W → Prop} {w x z : W} (h : Smallest P w) :
    Smallest (fun y => P y ∨ (y = x ∧ x ≠ z)) (if x < w ∧ x ≠ z then x else w) := by
  by_cases hw : x < w ∧ x ≠ z
  · rw [if_pos hw]
    refine ⟨.inr ⟨rfl, hw.2⟩, fun y hy => ?_⟩
    rcases hy with hy | ⟨rfl, _⟩
    · exact hw.1.le.trans (h.2 y hy)
    · exact le_refl _
  · rw [if_neg hw]
    refine ⟨.inl h.1, fun y hy => ?_⟩
    rcases hy with hy | ⟨rfl, hz⟩
    · exact h.2 y hy
    · by_contra hc
      exact hw ⟨not_le.1 hc, hz⟩

theorem cond_iff (z c m : W) : (CCmp.lt c m && (CCmp.lt c z || CCmp.lt z c)) = true ↔ c < m ∧ c ≠ z := by
  simp only [ccmp_lt, Bool.and_eq_true, decide_eq_true_eq, Bool.or_eq_true]
  rw [lt_or_lt_iff_ne]

theorem pair_fields (k : Consts W) (d : W) (v : DistVals W) :
    (pair k d v).minDr = (if d < v.minDr ∧ d ≠ k.zero then d else v.minDr) ∧ (pair k d v).maxDr = (if v.maxDr < d then d else v.maxDr) ∧
      (pair k d v).minCr = v.minCr ∧ (pair k d v).maxCr = v.maxCr ∧ (pair k d v).crConf = v.crConf ∧ (pair k d v).drConf = v.drConf := by
  unfold pair
  by_cases h : d < v.minDr ∧ d ≠ k.zero
  · rw [if_pos ((cond_iff _ _ _).2 h), if_pos h]
    by_cases h2 : v.maxDr < d <;> simp [h2]
  · rw [if_neg (fun hc => h ((cond_iff _ _ _).1 hc)), if_neg h]
    by_cases h2 : v.maxDr < d <;> simp [h2]

theorem core_fields (k : Consts W) (c : W) (v : DistVals W) :
    (core k c v).minCr = (if c < v.minCr ∧ c ≠ k.zero then c else v.minCr) ∧ (core k c v).maxCr = (if v.maxCr < c then c else v.maxCr) ∧
      (core k c v).minDr = v.minDr ∧ (core k c v).maxDr = v.maxDr ∧ (core k c v).crConf = v.crConf ∧ (core k c v).drConf = v.drConf := by
  unfold core
  by_cases h : c < v.minCr ∧ c ≠ k.zero
  · rw [if_pos ((cond_iff _ _ _).2 h), if_pos h]
    by_cases h2 : v.maxCr < c <;> simp [h2]
  · rw [if_neg (fun hc => h ((cond_iff _ _ _).1 hc)), if_neg h]
    by_cases h2 : v.maxCr < c <;> simp [h2]

theorem first_inv (k : Consts W) (c : W) : Inv k c (fun x => x = c) (fun _ => False) (first k c) := by
  refine ⟨⟨rfl, fun x hx => hx.le⟩, fun h => h, fun h => ⟨⟨rfl, h⟩, fun x hx => hx.1.ge⟩, ⟨.inr rfl, fun x hx => ?_⟩, ⟨.inr rfl, fun x hx => ?_⟩⟩
  · rcases hx with hx | rfl
    · exact hx.elim
    · exact le_refl _
  · rcases hx with hx | rfl
    · exact hx.1.elim
    · exact le_refl _

theorem core_inv {k : Consts W} {c0 c : W} {C P : W → Prop} {v : DistVals W} (h : Inv k c0 C P v) (hc : k.zero ≤ c) :
    Inv k c0 (fun x => C x ∨ x = c) P (core k c v) := by
  obtain ⟨f1, f2, f3, f4, _, _⟩ := core_fields k c v
  refine ⟨by rw [f2]; exact largest_or h.maxCr, fun h0 => ?_, fun h0 => ?_, by rw [f4]; exact h.maxDr, by rw [f3]; exact h.minDr⟩
  · rw [f1, h.minCr0 h0, if_neg (fun hh => absurd hh.1 (not_lt.2 hc))]
  · rw [f1]
    have := smallest_or (x := c) (z := k.zero) (h.minCr h0)
    have e : (fun x => (C x ∨ x = c) ∧ x ≠ k.zero) = (fun y => (C y ∧ y ≠ k.zero) ∨ (y = c ∧ c ≠ k.zero)) := by
      funext x
      refine propext ⟨?_, ?_⟩
      · rintro ⟨h1 | rfl, h2⟩
        · exact .inl ⟨h1, h2⟩
        · exact .inr ⟨rfl, h2⟩
      · rintro (⟨h1, h2⟩ | ⟨rfl, h2⟩)
        · exact ⟨.inl h1, h2⟩
        · exact ⟨.inr rfl, h2⟩
    rw [e]
    exact this

theorem pair_inv {k : Consts W} {c0 d : W} {C P : W → Prop} {v : DistVals W} (h : Inv k c0 C P v) :
    Inv k c0 C (fun x => P x ∨ x = d) (pair k d v) := by
  obtain ⟨f1, f2, f3, f4, _, _⟩ := pair_fields k d v
  refine ⟨by rw [f4]; exact h.maxCr, fun h0 => by rw [f3]; exact h.minCr0 h0, fun h0 => by rw [f3]; exact h.minCr h0, ?_, ?_⟩
  · rw [f2]
    have := largest_or (x := d) h.maxDr
    have e : (fun x => (P x ∨ x = d) ∨ x = k.dmin) = (fun y => (P y ∨ y = k.dmin) ∨ y = d) := by
      funext x; exact propext or_right_comm
    rw [e]
    exact this
  · rw [f1]
    have := smallest_or (x := d) (z := k.zero) h.minDr
    have e : (fun x => ((P x ∨ x = d) ∧ x ≠ k.zero) ∨ x = k.dmax) = (fun y => ((P y ∧ y ≠ k.zero) ∨ y = k.dmax) ∨ (y = d ∧ d ≠ k.zero)) := by
      funext x
      refine propext ⟨?_, ?_⟩
      · rintro (⟨h1 | rfl, h2⟩ | h1)
        · exact .inl (.inl ⟨h1, h2⟩)
        · exact .inr ⟨rfl, h2⟩
        · exact .inl (.inr h1)
      · rintro ((⟨h1, h2⟩ | h1) | ⟨rfl, h2⟩)
        · exact .inl ⟨.inl h1, h2⟩
        · exact .inr h1
        · exact .inl ⟨.inr rfl, h2⟩
    rw [e]
    exact this

theorem pairs_rep {k : Consts W} {dis : Distance W} {d : Nat → Nat → W} {i : Nat} : ∀ (r : List Nat) (c0 : W) (C P : W → Prop) (v : DistVals W),
    (∀ j ∈ r, dis.get k.zero i j = .ok (d i j)) → Inv k c0 C P v →
    ∃ v', pairs k dis i r v = .ok v' ∧ Inv k c0 C (fun x => P x ∨ ∃ j ∈ r, x = d i j) v' := by
  intro r
  induction r with
  | nil => exact fun c0 C P v _ h => ⟨v, rfl, h.congr (fun _ => Iff.rfl) (by simp)⟩
  | cons j r ih =>
    intro c0 C P v hg h
    obtain ⟨v', e, h'⟩ := ih c0 C _ (pair k (d i j) v) (fun j' hj => hg j' (by simp [hj])) (pair_inv h)
    refine ⟨v', by rw [pairs, hg j (by simp), Outcome.ok_bind, e], h'.congr (fun _ => Iff.rfl) (fun x => ?_)⟩
    simp [or_assoc]

omit [LinearOrder W] in
theorem pairOf_cons (d : Nat → Nat → W) (i : Nat) (r : List Nat) (x : W) : PairOf d (i :: r) x ↔ (∃ j ∈ r, x = d i j) ∨ PairOf d r x := by
  unfold PairOf
  constructor
  · rintro ⟨a, b, h, rfl⟩
    rcases List.sublist_cons_iff.1 h with h | ⟨t, e, h⟩
    · exact .inr ⟨a, b, h, rfl⟩
    · simp at e
      obtain ⟨rfl, rfl⟩ := e
      exact .inl ⟨b, List.singleton_sublist.1 h, rfl⟩
  · rintro (⟨j, hj, rfl⟩ | ⟨a, b, h, rfl⟩)
    · exact ⟨i, j, (List.singleton_sublist.2 hj).cons_cons i, rfl⟩
    · exact ⟨a, b, h.cons i, rfl⟩

theorem members_rep {k : Consts W} {dis : Distance W} {d : Nat → Nat → W} {core : Nat → W} : ∀ (l : List Nat) (c0 : W) (C P : W → Prop) (v : DistVals W),
    (∀ i j, [i, j].Sublist l → dis.get k.zero i j = .ok (d i j)) → (∀ i ∈ l, dis.coreDistances[i]? = some (some (core i))) → (∀ i ∈ l, k.zero ≤ core i) → Inv k c0 C P v →
    ∃ v', members k dis l (some v) = .ok (some v') ∧ Inv k c0 (fun x => C x ∨ CoreOf core l x) (fun x => P x ∨ PairOf d l x) v' := by
  intro l
  induction l with
  | nil => exact fun c0 C P v _ _ _ h => ⟨v, rfl, h.congr (by simp [CoreOf]) (by simp [PairOf])⟩
  | cons i r ih =>
    intro c0 C P v hg hc hz h
    obtain ⟨v1, e1, h1⟩ := pairs_rep (dis := dis) (d := d) (i := i) r c0 _ _ _ (fun j hj => hg i j ((List.singleton_sublist.2 hj).cons_cons i)) (core_inv h (hz i (by simp)))
    obtain ⟨v2, e2, h2⟩ := ih c0 _ _ v1 (fun a b hab => hg a b (hab.cons i)) (fun j hj => hc j (by simp [hj])) (fun j hj => hz j (by simp [hj])) h1
    refine ⟨v2, ?_, h2.congr (fun x => ?_) (fun x => ?_)⟩
    · rw [members, Outlier.rdInit_ok (hc i (by simp)), Outcome.ok_bind]
      simp only []
      rw [e1, Outcome.ok_bind, e2]
    · simp [CoreOf, or_assoc]
    · rw [pairOf_cons, or_assoc]

/-- The record of a non-empty cluster. -/
theorem cluster_rep {k : Consts W} {dis : Distance W} {d : Nat → Nat → W} {core : Nat → W} (i : Nat) (r : List Nat)
    (hg : ∀ a b, [a, b].Sublist (i :: r) → dis.get k.zero a b = .ok (d a b)) (hc : ∀ a ∈ i :: r, dis.coreDistances[a]? = some (some (core a))) (hz : ∀ a ∈ i :: r, k.zero ≤ core a) :
    ∃ v, members k dis (i :: r) none = .ok (some v) ∧ Inv k (core i) (CoreOf core (i :: r)) (PairOf d (i :: r)) v := by
  obtain ⟨v1, e1, h1⟩ := pairs_rep (dis := dis) (d := d) (i := i) r (core i) _ _ _ (fun j hj => hg i j ((List.singleton_sublist.2 hj).cons_cons i)) (first_inv k (core i))
  obtain ⟨v2, e2, h2⟩ := members_rep r (core i) _ _ v1 (fun a b hab => hg a b (hab.cons i)) (fun j hj => hc j (by simp [hj])) (fun j hj => hz j (by simp [hj])) h1
  refine ⟨v2, ?_, h2.congr (fun x => ?_) (fun x => ?_)⟩
  · rw [members, Outlier.rdInit_ok (hc i (by simp)), Outcome.ok_bind]
    simp only []
    rw [e1, Outcome.ok_bind, e2]
  · simp [CoreOf]
  · rw [pairOf_cons]; simp

end DMap
end Verif
