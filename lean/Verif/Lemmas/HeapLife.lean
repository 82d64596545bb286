import Verif.Lemmas.Heap
/-
Helper lemmas for C50: the state of an object between calls.
-/
namespace Verif.Mem
open Spec

/-- The state of an object between calls: `base` is what was there before the object, `lost` what nobody points to any more. -/
structure Inv (p : Phase) (o : Obj) (h : Heap) (base lost : Multiset Nat) : Prop where
  heap : HeapOk h
  live : h.live = (if p = .gone then 0 else o.own) + base + lost
  new : p = .new → o.distances = .indet ∧ o.mst = .indet ∧ o.labels = .null ∧ o.outliers = .null ∧ o.constraints = .null ∧ o.own = {o.self}
  ready : p = .ready → o.Ready
  cleaned : p = .cleaned → o.AllNull
  gone : p = .gone → o.self ∉ h.live

theorem own_self (o : Obj) : o.self ∈ o.own := by simp [Obj.own]

theorem parts_pos {o : Obj} (h : o.Ready) : o.parts ≠ 0 := by
  obtain ⟨b, hb⟩ := h.distances
  intro e
  have : b ∈ o.parts := by simp [Obj.parts, hb, Ptr.own]
  rw [e] at this
  simp at this

theorem run_inv {p : Phase} {o : Obj} {h : Heap} {base lost : Multiset Nat} (hi : Inv p o h base lost) (hp : p ≠ .gone) (hc : o.constraints = .null)
    (s : Shape) {n : Nat} (hn : 5 ≤ n) : ∃ o' h', run s n o h = .ok (o', h') ∧ Inv .ready o' h' base (lost + o.parts) := by
  obtain ⟨o', h', e, ho, _, hl, hr, _⟩ := tri_run s n hn o hc h hi.heap (o.parts + base + lost) (by rw [hi.live, if_neg hp, Obj.own]; abel)
  exact ⟨o', h', e, ho, by rw [hl, if_neg (by decide)]; abel, nofun, fun _ => hr, nofun, nofun⟩

theorem clean_inv {p : Phase} {o : Obj} {h : Heap} {base lost : Multiset Nat} (hi : Inv p o h base lost) (hp : p ≠ .gone) (hs : o.AllSet) :
    ∃ o' h', clean o h = .ok (o', h') ∧ Inv .cleaned o' h' base lost := by
  obtain ⟨o', h', e, ho, _, hl, hr, _⟩ := tri_clean hs h hi.heap (base + lost) (by rw [hi.live, if_neg hp]; abel)
  exact ⟨o', h', e, ho, by rw [hl, if_neg (by decide)]; abel, nofun, nofun, fun _ => hr, nofun⟩

theorem destroy_inv {p : Phase} {o : Obj} {h : Heap} {base lost : Multiset Nat} (hi : Inv p o h base lost) (hp : p ≠ .gone) (hs : o.AllSet) :
    ∃ o' h', destroy o h = .ok (o', h') ∧ Inv .gone o' h' base lost := by
  obtain ⟨o1, h1, e1, i1⟩ := clean_inv hi hp hs
  have hl1 : h1.live = {o1.self} + (base + lost) := by rw [i1.live, if_neg (by decide), AllNull.own (i1.cleaned rfl)]; abel
  obtain ⟨u, h2, e2, ho, _, hl, _⟩ := Tri.free o1.self h1 i1.heap (base + lost) hl1
  refine ⟨o1, h2, ?_, ho, by rw [hl, if_pos rfl]; show (0 : Multiset Nat) + (base + lost) = _; abel, nofun, nofun, nofun, fun _ => ?_⟩
  · show (clean o >>= fun o1 => free o1.self >>= fun _ => pure o1) h = _
    rw [bind_apply, e1]
    show (free o1.self >>= fun _ => pure o1) h1 = _
    rw [bind_apply, e2]
    rfl
  · have hd := i1.heap.nodup
    rw [hl1, Multiset.singleton_add, Multiset.nodup_cons] at hd
    rw [hl]
    show o1.self ∉ (0 : Multiset Nat) + (base + lost)
    rw [zero_add]
    exact hd.1

theorem ready_constraints {p : Phase} {o : Obj} {h : Heap} {base lost : Multiset Nat} (hi : Inv p o h base lost) (hp : p ≠ .gone) : o.constraints = .null := by
  cases p with
  | new => exact (hi.new rfl).2.2.2.2.1
  | ready => exact (hi.ready rfl).constraints
  | cleaned => exact (hi.cleaned rfl).constraints
  | gone => exact absurd rfl hp

/-- An allowed call returns and follows the protocol. -/
theorem step_defined {p q : Phase} {o : Obj} {h : Heap} {base lost : Multiset Nat} (hi : Inv p o h base lost) {c : Call} (hn : next p c = some q) :
    ∃ o' h', step o c h = .ok (o', h') ∧ Inv q o' h' base lost := by
  cases p with
  | new =>
    cases c with
    | run s n =>
      simp only [next] at hn
      split at hn
      · cases hn
        obtain ⟨o', h', e, i⟩ := run_inv hi (by decide) (hi.new rfl).2.2.2.2.1 s ‹_›
        have hpz : o.parts = 0 := by
          have := (hi.new rfl).2.2.2.2.2
          rw [Obj.own] at this
          exact left_eq_add.1 this.symm
        rw [hpz, add_zero] at i
        exact ⟨o', h', e, i⟩
      · cases hn
    | rerun s => cases hn
    | clean => cases hn
    | destroy => cases hn
  | ready =>
    cases c with
    | run s n => cases hn
    | rerun s =>
      cases hn
      obtain ⟨o', h', e, ho, _, hl, hr, _⟩ := tri_rerun s (hi.ready rfl) h hi.heap (base + lost) (by rw [hi.live, if_neg (by decide)]; abel)
      exact ⟨o', h', e, ho, by rw [hl, if_neg (by decide)]; abel, nofun, fun _ => hr, nofun, nofun⟩
    | clean => cases hn; exact clean_inv hi (by decide) (Ready.set (hi.ready rfl))
    | destroy => cases hn; exact destroy_inv hi (by decide) (Ready.set (hi.ready rfl))
  | cleaned =>
    cases c with
    | run s n =>
      simp only [next] at hn
      split at hn
      · cases hn
        obtain ⟨o', h', e, i⟩ := run_inv hi (by decide) (hi.cleaned rfl).constraints s ‹_›
        have hpz : o.parts = 0 := by
          have := AllNull.own (hi.cleaned rfl)
          rw [Obj.own] at this
          exact left_eq_add.1 this.symm
        rw [hpz, add_zero] at i
        exact ⟨o', h', e, i⟩
      · cases hn
    | rerun s => cases hn
    | clean => cases hn; exact clean_inv hi (by decide) (AllNull.set (hi.cleaned rfl))
    | destroy => cases hn; exact destroy_inv hi (by decide) (AllNull.set (hi.cleaned rfl))
  | gone => cases c <;> cases hn

theorem steps_defined : ∀ {cs : List Call} {p q : Phase} {o : Obj} {h : Heap} {base lost : Multiset Nat}, Inv p o h base lost → follow p cs = some q →
    ∃ o' h', steps cs o h = .ok (o', h') ∧ Inv q o' h' base lost
  | [], p, q, o, h, base, lost, hi, hf => by cases hf; exact ⟨o, h, rfl, hi⟩
  | c :: r, p, q, o, h, base, lost, hi, hf => by
    simp only [follow, Option.bind_eq_some_iff] at hf
    obtain ⟨m, h1, h2⟩ := hf
    obtain ⟨o1, k1, e1, i1⟩ := step_defined hi h1
    obtain ⟨o2, k2, e2, i2⟩ := steps_defined i1 h2
    refine ⟨o2, k2, ?_, i2⟩
    show (step o c >>= fun o' => steps r o') h = _
    rw [bind_apply, e1]
    exact e2

theorem init_inv {h : Heap} (hh : HeapOk h) : ∃ o h', init h = .ok (o, h') ∧ Inv .new o h' h.live 0 := by
  obtain ⟨b, h', e, ho, _, hl, _⟩ := Tri.alloc h hh h.live (by abel)
  refine ⟨_, h', by show (alloc >>= _) h = _; rw [bind_apply, e]; rfl, ho, ?_, ?_, nofun, nofun, nofun⟩
  · rw [hl, if_neg (by decide)]
    simp [Obj.own, Obj.parts, Obj.results, Ptr.own]
  · intro _
    simp [Obj.own, Obj.parts, Obj.results, Ptr.own]

theorem follow_reruns (rs : List Shape) (cs : List Call) : follow .ready (rs.map Call.rerun ++ cs) = follow .ready cs := by
  induction rs with
  | nil => rfl
  | cons r rs ih => exact ih


/-! ### Everything else is an error -/

theorem bind_ok {α β : Type} {m : M α} {k : α → M β} {h h1 : Heap} {a : α} (e : m h = .ok (a, h1)) : (m >>= k) h = k a h1 := by rw [bind_apply, e]; rfl
theorem bind_ub {α β : Type} {m : M α} {k : α → M β} {h : Heap} {w : String} (e : m h = .ub w) : (m >>= k) h = .ub w := by rw [bind_apply, e]; rfl
theorem bind_abort {α β : Type} {m : M α} {k : α → M β} {h : Heap} {w : String} (e : m h = .abort w) : (m >>= k) h = .abort w := by rw [bind_apply, e]; rfl

theorem use_dead {b : Nat} {h : Heap} (hb : b ∉ h.live) : use b h = .ub "use of a block that is not allocated" := by rw [use, if_neg hb]
theorem use_live {b : Nat} {h : Heap} (hb : b ∈ h.live) : use b h = .ok ((), h) := by rw [use, if_pos hb]

/-- Every call on an object that was released. -/
theorem step_dead {o : Obj} {h : Heap} (hs : o.self ∉ h.live) (c : Call) : ∃ w, step o c h = .ub w := by
  cases c with
  | run s n => exact ⟨_, bind_ub (use_dead hs)⟩
  | rerun s => exact ⟨_, bind_ub (bind_ub (use_dead hs))⟩
  | clean => exact ⟨_, bind_ub (use_dead hs)⟩
  | destroy => exact ⟨_, bind_ub (bind_ub (use_dead hs))⟩

theorem run_small {o : Obj} {h : Heap} (hs : o.self ∈ h.live) (s : Shape) {n : Nat} (hn : n < 5) : ∃ w, run s n o h = .abort w := by
  refine ⟨"initial_size > 0", (bind_ok (use_live hs)).trans ((bind_ok rfl).trans ((bind_ok rfl).trans (bind_abort ?_)))⟩
  rw [assertSize, if_pos hn]
  rfl

theorem minimalClean_new {o : Obj} {h : Heap} (h1 : o.self ∈ h.live) (h2 : o.mst = .indet) (h3 : o.labels = .null) (h4 : o.outliers = .null) :
    ∃ w, minimalClean o h = .ub w := by
  refine ⟨"read of an indeterminate pointer", (bind_ok (use_live h1)).trans ((bind_ok (h1 := h) (a := ()) ?_).trans ((bind_ok (h1 := h) (a := ()) ?_).trans (bind_ub ?_)))⟩
  · rw [h3]; rfl
  · rw [h4]; rfl
  · rw [h2]; rfl

theorem clean_new {o : Obj} {h : Heap} (h1 : o.self ∈ h.live) (h2 : o.distances = .indet) : ∃ w, clean o h = .ub w := by
  refine ⟨"read of an indeterminate pointer", (bind_ok (use_live h1)).trans (bind_ub ?_)⟩
  · rw [h2]; rfl

theorem Inv.self_live {p : Phase} {o : Obj} {h : Heap} {base lost : Multiset Nat} (hi : Inv p o h base lost) (hp : p ≠ .gone) : o.self ∈ h.live := by
  rw [hi.live, if_neg hp]
  simp [own_self o]

theorem both_zero {a b : Multiset Nat} (h : a + b = 0) : a = 0 ∧ b = 0 := by
  have := congrArg Multiset.card h
  rw [Multiset.card_add, Multiset.card_zero] at this
  exact ⟨Multiset.card_eq_zero.1 (by omega), Multiset.card_eq_zero.1 (by omega)⟩

/-- What is allowed when leaks do not count. -/
def Lax : Phase → Call → Prop
  | .ready, .run _ n => 5 ≤ n
  | _, _ => False

/-- A call that is neither allowed nor a second run does not return. -/
theorem step_bad {p : Phase} {o : Obj} {h : Heap} {base lost : Multiset Nat} (hi : Inv p o h base lost) {c : Call} (hn : next p c = none) (hl : ¬ Lax p c) :
    (∃ w, step o c h = .ub w) ∨ (∃ w s n, c = .run s n ∧ n < 5 ∧ step o c h = .abort w) := by
  cases p with
  | gone => exact .inl (step_dead (hi.gone rfl) c)
  | new =>
    have hs := hi.self_live (by decide)
    obtain ⟨h1, h2, h3, h4, _, _⟩ := hi.new rfl
    cases c with
    | run s n =>
      simp only [next] at hn
      split at hn
      · cases hn
      · obtain ⟨w, e⟩ := run_small (o := o) hs s (n := n) (by omega)
        exact .inr ⟨w, s, n, rfl, by omega, e⟩
    | rerun s => obtain ⟨w, e⟩ := minimalClean_new hs h2 h3 h4; exact .inl ⟨w, bind_ub e⟩
    | clean => exact .inl (clean_new hs h1)
    | destroy => obtain ⟨w, e⟩ := clean_new hs h1; exact .inl ⟨w, bind_ub e⟩
  | ready =>
    cases c with
    | run s n =>
      obtain ⟨w, e⟩ := run_small (o := o) (hi.self_live (by decide)) s (n := n) (by simp only [Lax] at hl; omega)
      exact .inr ⟨w, s, n, rfl, by simp only [Lax] at hl; omega, e⟩
    | rerun s => cases hn
    | clean => cases hn
    | destroy => cases hn
  | cleaned =>
    cases c with
    | run s n =>
      simp only [next] at hn
      split at hn
      · cases hn
      · obtain ⟨w, e⟩ := run_small (o := o) (hi.self_live (by decide)) s (n := n) (by omega)
        exact .inr ⟨w, s, n, rfl, by omega, e⟩
    | rerun s =>
      have hnl := hi.cleaned rfl
      obtain ⟨o1, h1, e, _, _, _, hc⟩ := tri_minimalClean (AllNull.set hnl) h hi.heap (base + lost) (by rw [hi.live, if_neg (by decide)]; abel)
      refine .inl ⟨"null pointer", (bind_ok e).trans (bind_ub (bind_ub ?_))⟩
      rw [hc.distances, hnl.distances]
      rfl
    | clean => cases hn
    | destroy => cases hn

/-- A call that returns is allowed or loses memory. -/
theorem step_returns {p : Phase} {o o' : Obj} {h h' : Heap} {base lost : Multiset Nat} (hi : Inv p o h base lost) {c : Call} (e : step o c h = .ok (o', h')) :
    ∃ q lost', Inv q o' h' base lost' ∧ (next p c = some q ∧ lost' = lost ∨ lost' ≠ 0) ∧ (lost ≠ 0 → lost' ≠ 0) := by
  cases hn : next p c with
  | some q =>
    obtain ⟨o1, h1, e1, i⟩ := step_defined hi hn
    rw [e1] at e
    cases e
    exact ⟨q, lost, i, .inl ⟨rfl, rfl⟩, id⟩
  | none =>
    by_cases hl : Lax p c
    · cases p with
      | ready =>
        cases c with
        | run s n =>
          obtain ⟨o1, h1, e1, i⟩ := run_inv hi (by decide) (hi.ready rfl).constraints s hl
          have e2 : run s n o h = .ok (o', h') := e
          rw [e1] at e2
          cases e2
          have hp := parts_pos (hi.ready rfl)
          have : lost + o.parts ≠ 0 := fun hz => hp (both_zero hz).2
          exact ⟨_, _, i, .inr this, fun _ => this⟩
        | rerun s => exact hl.elim
        | clean => exact hl.elim
        | destroy => exact hl.elim
      | new => exact hl.elim
      | cleaned => exact hl.elim
      | gone => exact hl.elim
    · rcases step_bad hi hn hl with ⟨w, e1⟩ | ⟨w, _, _, _, _, e1⟩ <;> (rw [e1] at e; cases e)

theorem steps_returns : ∀ {cs : List Call} {p : Phase} {o o' : Obj} {h h' : Heap} {base lost : Multiset Nat}, Inv p o h base lost → steps cs o h = .ok (o', h') →
    ∃ q lost', Inv q o' h' base lost' ∧ (follow p cs = some q ∧ lost' = lost ∨ lost' ≠ 0) ∧ (lost ≠ 0 → lost' ≠ 0)
  | [], p, o, o', h, h', base, lost, hi, e => by
    cases e
    exact ⟨p, lost, hi, .inl ⟨rfl, rfl⟩, id⟩
  | c :: r, p, o, o', h, h', base, lost, hi, e => by
    have e' : (step o c h >>= fun x => steps r x.1 x.2) = .ok (o', h') := e
    obtain ⟨⟨o1, h1⟩, e1, e2⟩ := Outcome.bind_eq_ok.1 e'
    obtain ⟨q, l1, i1, a1, b1⟩ := step_returns hi e1
    obtain ⟨q2, l2, i2, a2, b2⟩ := steps_returns i1 e2
    refine ⟨q2, l2, i2, ?_, fun hz => b2 (b1 hz)⟩
    rcases a1 with ⟨a1, rfl⟩ | a1
    · rcases a2 with ⟨a2, rfl⟩ | a2
      · exact .inl ⟨by rw [follow, a1]; exact a2, rfl⟩
      · exact .inr a2
    · exact .inr (b2 a1)

theorem life_eq {cs : List Call} {h h1 : Heap} {o : Obj} (e : init h = .ok (o, h1)) : life cs h = steps cs o h1 := bind_ok e

end Verif.Mem
