import Verif.Lemmas.HeapLife
import Verif.Spec.Cpp
/-
Helper lemmas for the life of C++ objects.
-/
namespace Verif.Mem
open Spec

/-- The blocks that belong to an object in a phase. -/
def blocks (z : CppPhase × Option Obj) : Multiset Nat :=
  match z with
  | (.left, _) => 0
  | (_, none) => 0
  | (.ready, some o) => o.own
  | (_, some o) => {o.self}

/-- What is known of an object in a phase. -/
def Fits (z : CppPhase × Option Obj) : Prop :=
  match z with
  | (.left, _) => True
  | (_, none) => False
  | (.ready, some o) => o.Ready
  | (.made, some o) => o.constraints = .null ∧ o.mst = .indet ∧ o.labels = .null ∧ o.outliers = .null ∧ o.distances = .null ∧ o.core = .null
  | (.sharing, some o) => o.constraints = .null

/-- The state of a tidy program. -/
structure CppInv (ps : List CppPhase) (vs : List (Option Obj)) (h : Heap) (base : Multiset Nat) (zs : List (CppPhase × Option Obj)) : Prop where
  phases : ps = zs.map Prod.fst
  vars : vs = zs.map Prod.snd
  fits : ∀ z ∈ zs, Fits z
  heap : HeapOk h
  live : h.live = owns blocks zs + base

theorem owns_set {α : Type} (f : α → Multiset Nat) : ∀ (l : List α) (i : Nat) (a : α), l[i]? = some a → ∃ r, owns f l = f a + r ∧ ∀ b, owns f (l.set i b) = f b + r
  | [], _, _, e => by simp at e
  | c :: l, 0, a, e => by
    simp only [List.getElem?_cons_zero, Option.some.injEq] at e
    subst e
    exact ⟨owns f l, owns_cons f c l, fun b => owns_cons f b l⟩
  | c :: l, i + 1, a, e => by
    simp only [List.getElem?_cons_succ] at e
    obtain ⟨r, h1, h2⟩ := owns_set f l i a e
    refine ⟨f c + r, by rw [owns_cons, h1]; abel, fun b => ?_⟩
    rw [List.set_cons_succ, owns_cons, h2]; abel

theorem owns_none {α : Type} {f : α → Multiset Nat} : ∀ {l : List α}, (∀ a ∈ l, f a = 0) → owns f l = 0
  | [], _ => rfl
  | a :: l, h => by rw [owns_cons, h a (by simp), owns_none fun b hb => h b (by simp [hb]), add_zero]

theorem CppInv.at {ps vs h base zs} (i : CppInv ps vs h base zs) {x : Nat} {p : CppPhase} (hp : ps[x]? = some p) (hn : p ≠ .left) :
    ∃ o, zs[x]? = some (p, some o) ∧ vs[x]? = some (some o) ∧ Fits (p, some o) := by
  rw [i.phases, List.getElem?_map] at hp
  cases hz : zs[x]? with
  | none => rw [hz] at hp; cases hp
  | some z =>
    rw [hz] at hp
    simp only [Option.map_some, Option.some.injEq] at hp
    obtain ⟨q, v⟩ := z
    simp only at hp
    subst hp
    have hf := i.fits _ (List.mem_of_getElem? hz)
    cases v with
    | none => cases q <;> simp_all [Fits]
    | some o => exact ⟨o, rfl, by rw [i.vars, List.getElem?_map, hz]; rfl, hf⟩

theorem var_eq {vs : List (Option Obj)} {x : Nat} {o : Obj} (e : vs[x]? = some (some o)) (h : Heap) : var vs x h = .ok (o, h) := by
  rw [var, e]; rfl

theorem var_left {vs : List (Option Obj)} {x : Nat} (e : vs[x]? = some none) (h : Heap) : ∃ w, var vs x h = .ub w := by
  rw [var, e]; exact ⟨_, rfl⟩

/-- Replace the state of one object. -/
theorem CppInv.put {ps vs h base zs} (i : CppInv ps vs h base zs) {x : Nat} {z : CppPhase × Option Obj} (hz : zs[x]? = some z) :
    ∃ r, h.live = blocks z + (r + base) ∧ ∀ (z' : CppPhase × Option Obj) (h' : Heap), Fits z' → HeapOk h' → h'.live = blocks z' + (r + base) →
      CppInv (ps.set x z'.1) (vs.set x z'.2) h' base (zs.set x z') := by
  obtain ⟨r, h1, h2⟩ := owns_set blocks zs x z hz
  refine ⟨r, by rw [i.live, h1]; abel, fun z' h' f k l => ⟨?_, ?_, ?_, k, ?_⟩⟩
  · rw [i.phases, List.map_set]
  · rw [i.vars, List.map_set]
  · intro y hy
    rcases List.mem_or_eq_of_mem_set hy with hy | hy
    · exact i.fits y hy
    · rw [hy]; exact f
  · rw [l, h2]; abel

/-- Add an object. -/
theorem CppInv.add {ps vs h base zs} (i : CppInv ps vs h base zs) (z : CppPhase × Option Obj) (h' : Heap) (f : Fits z) (k : HeapOk h') (l : h'.live = blocks z + h.live) :
    CppInv (ps ++ [z.1]) (vs ++ [z.2]) h' base (zs ++ [z]) := by
  refine ⟨by rw [i.phases]; simp, by rw [i.vars]; simp, ?_, k, ?_⟩
  · intro y hy
    rcases List.mem_append.1 hy with hy | hy
    · exact i.fits y hy
    · rw [List.mem_singleton] at hy; rw [hy]; exact f
  · rw [l, i.live, owns_append]
    simp only [owns, List.map_cons, List.map_nil, List.sum_cons, List.sum_nil]
    abel

theorem tri_leave {o : Obj} (h : o.AllSet) : Tri o.own (leave o) (fun _ => 0) (fun _ => True) := by
  refine Tri.bind (f := 0) (tri_clean h) (by abel) fun o1 h1 => ?_
  have e1 : Tri 0 (whenSet o1.distances free) (fun _ => 0) (fun _ => True) := by rw [h1.1.distances]; exact Tri.pure rfl trivial
  have e2 : Tri 0 (whenSet o1.core free) (fun _ => 0) (fun _ => True) := by rw [h1.1.core]; exact Tri.pure rfl trivial
  rw [AllNull.own h1.1]
  refine Tri.bind (f := {o1.self}) e1 (by abel) fun _ _ => ?_
  refine Tri.bind (f := {o1.self}) e2 (by abel) fun _ _ => ?_
  exact Tri.frame (f := 0) (Tri.free o1.self) (by abel) fun _ _ => ⟨by abel, trivial⟩

/-- A tidy step returns and keeps the invariant. -/
theorem act_defined {ps qs vs h base zs} (i : CppInv ps vs h base zs) {a : Act} (e : tidyStep ps a = some qs) :
    ∃ vs' h' zs', act vs a h = .ok (vs', h') ∧ CppInv qs vs' h' base zs' := by
  cases a with
  | make =>
    simp only [tidyStep, Option.some.injEq] at e
    subst e
    obtain ⟨b, h', e1, ho, _, hl, _⟩ := Tri.alloc h i.heap h.live (by abel)
    let o : Obj := { self := b, distances := .null, core := .null, mst := .indet, constraints := .null, clusters := .null, outliers := .null, labels := .null,
                     hierarchy := .null, stabilities := .null, points := none }
    exact ⟨vs ++ [some o], h', _, (bind_ok (a := o) (h1 := h') ((bind_ok e1).trans rfl)).trans rfl, i.add (.made, some o) h' ⟨rfl, rfl, rfl, rfl, rfl, rfl⟩ ho hl⟩
  | copyOf x =>
    simp only [tidyStep] at e
    split at e
    · rename_i hx
      cases e
      obtain ⟨o, hz, hv, hf⟩ := i.at hx (by decide)
      have hr : o.Ready := hf
      obtain ⟨g, hg⟩ := hr.mst
      obtain ⟨r, h1, _⟩ := i.put hz
      have hs : o.self ∈ h.live := by rw [h1]; simp [blocks, own_self o]
      obtain ⟨b, h', e1, ho, _, hl, _⟩ := Tri.alloc h i.heap h.live (by abel)
      have hrd : readPtr o.mst h = .ok ((), h) := by rw [hg]; rfl
      refine ⟨vs ++ [some { o with self := b }], h', _, ?_, i.add (.sharing, some { o with self := b }) h' hr.constraints ho hl⟩
      exact (bind_ok (var_eq hv h)).trans ((bind_ok (a := { o with self := b }) (h1 := h') ((bind_ok (use_live hs)).trans ((bind_ok hrd).trans ((bind_ok e1).trans rfl)))).trans rfl)
    · cases e
  | run x s n =>
    simp only [tidyStep] at e
    split at e
    · rename_i hx
      cases e
      obtain ⟨hx, hn⟩ := hx
      obtain ⟨p, hp, o, hz, hv, hc, hb⟩ : ∃ p, ps[x]? = some p ∧ ∃ o, zs[x]? = some (p, some o) ∧ vs[x]? = some (some o) ∧ o.constraints = .null ∧ blocks (p, some o) = {o.self} := by
        rcases hx with hx | hx
        · obtain ⟨o, hz, hv, hf⟩ := i.at hx (by decide)
          exact ⟨_, hx, o, hz, hv, hf.1, rfl⟩
        · obtain ⟨o, hz, hv, hf⟩ := i.at hx (by decide)
          exact ⟨_, hx, o, hz, hv, hf, rfl⟩
      obtain ⟨r, h1, h2⟩ := i.put hz
      obtain ⟨o', h', e1, ho, _, hl, hr, _⟩ := tri_run s n hn o hc h i.heap (r + base) (by rw [h1, hb])
      exact ⟨_, h', _, (bind_ok (var_eq hv h)).trans ((bind_ok e1).trans rfl), h2 (.ready, some o') h' hr ho hl⟩
    · cases e
  | reRun x s =>
    simp only [tidyStep] at e
    split at e
    · rename_i hx
      cases e
      obtain ⟨o, hz, hv, hf⟩ := i.at hx (by decide)
      obtain ⟨r, h1, h2⟩ := i.put hz
      obtain ⟨o', h', e1, ho, _, hl, hr, _⟩ := tri_rerun s (o := o) hf h i.heap (r + base) h1
      have i' := h2 (.ready, some o') h' hr ho hl
      have hps : ps.set x .ready = ps := by
        apply List.ext_getElem?
        intro j
        rw [List.getElem?_set]
        split
        · rename_i hj; subst hj; rw [hx]; split
          · rfl
          · rename_i hlt; rw [List.getElem?_eq_none (by omega)] at hx; cases hx
        · rfl
      rw [hps] at i'
      exact ⟨_, h', _, (bind_ok (var_eq hv h)).trans ((bind_ok e1).trans rfl), i'⟩
    · cases e
  | clean x => cases e
  | leave x =>
    simp only [tidyStep] at e
    split at e
    · rename_i hx
      cases e
      obtain ⟨o, hz, hv, hf⟩ := i.at hx (by decide)
      obtain ⟨r, h1, h2⟩ := i.put hz
      obtain ⟨u, h', e1, ho, _, hl, _⟩ := tri_leave (Ready.set (o := o) hf) h i.heap (r + base) h1
      exact ⟨_, h', _, (bind_ok (var_eq hv h)).trans ((bind_ok e1).trans rfl), h2 (.left, none) h' trivial ho hl⟩
    · cases e

theorem acts_defined : ∀ {as : List Act} {ps qs vs h base zs}, CppInv ps vs h base zs → tidyFrom ps as = some qs →
    ∃ vs' h' zs', acts as vs h = .ok (vs', h') ∧ CppInv qs vs' h' base zs'
  | [], ps, qs, vs, h, base, zs, i, e => by cases e; exact ⟨vs, h, zs, rfl, i⟩
  | a :: r, ps, qs, vs, h, base, zs, i, e => by
    simp only [tidyFrom, Option.bind_eq_some_iff] at e
    obtain ⟨ms, h1, h2⟩ := e
    obtain ⟨v1, k1, z1, e1, i1⟩ := act_defined i h1
    obtain ⟨v2, k2, z2, e2, i2⟩ := acts_defined i1 h2
    exact ⟨v2, k2, z2, (bind_ok e1).trans e2, i2⟩

theorem inv_start {h : Heap} (hh : HeapOk h) : CppInv [] [] h h.live [] := ⟨rfl, rfl, by simp, hh, by simp⟩

theorem acts_append : ∀ (as bs : List Act) (vs : List (Option Obj)) (h : Heap) {vs' h'}, acts as vs h = .ok (vs', h') → acts (as ++ bs) vs h = acts bs vs' h'
  | [], bs, vs, h, vs', h', e => by cases e; rfl
  | a :: r, bs, vs, h, vs', h', e => by
    change (act vs a >>= fun v => acts (r ++ bs) v) h = _
    change (act vs a >>= fun v => acts r v) h = _ at e
    rw [bind_apply] at e ⊢
    cases hx : act vs a h with
    | ok p => rw [hx] at e; exact acts_append r bs p.1 p.2 e
    | ub w => rw [hx] at e; cases e
    | abort w => rw [hx] at e; cases e
    | diverge => rw [hx] at e; cases e

end Verif.Mem
