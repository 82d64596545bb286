import Verif.Model.SkewKurt
import Mathlib.Logic.Relation
import Mathlib.Data.List.Basic
/-
Helper lemmas: what threads that execute the same accesses leave in a field.
-/
namespace Verif.Stat
open Relation
variable {W : Type}

/-- Does the access touch the field? -/
def Act.on (c : Cell) : Act W → Bool
  | .put d _ => decide (d = c)
  | .get d => decide (d = c)
  | .putSub d _ => decide (d = c)

theorem run_off {o : Ops W} {a : Act W} {c : Cell} (h : a.on c = false) (reg mem : Cell → W) :
    (a.run o reg mem).1 c = reg c ∧ (a.run o reg mem).2 c = mem c := by
  cases a <;> simp [Act.on] at h <;> simp [Act.run, upd, Ne.symm h]

theorem rest_off {a : Act W} {c : Cell} (h : a.on c = false) (rest : List (Act W)) : (a :: rest).filter (Act.on c) = rest.filter (Act.on c) := by
  rw [List.filter_cons_of_neg (by simp [h])]

theorem rest_on {a : Act W} {c : Cell} (h : a.on c = true) (rest : List (Act W)) : (a :: rest).filter (Act.on c) = a :: rest.filter (Act.on c) := by
  rw [List.filter_cons_of_pos h]

/-- Fields that only receive one value. -/
structure PutInv (c : Cell) (v : W) (n : Nat) (s : Conf W) : Prop where
  len : s.ths.length = n
  each : ∀ t ∈ s.ths, t.rest.filter (Act.on c) = [.put c v] ∨ t.rest.filter (Act.on c) = []
  mem : s.mem c = v ∨ ∀ t ∈ s.ths, t.rest.filter (Act.on c) = [.put c v]

theorem PutInv.step {o : Ops W} {c : Cell} {v : W} {n : Nat} {s s' : Conf W} (h : PutInv c v n s) (hs : Step o s s') : PutInv c v n s' := by
  obtain ⟨l, r, a, rest, reg, mem⟩ := hs
  obtain ⟨h1, h2, h3⟩ := h
  dsimp only at h1 h2 h3
  have hlen : (l ++ ⟨rest, (a.run o reg mem).1⟩ :: r : List (Th W)).length = n := by simpa using h1
  have me := h2 ⟨a :: rest, reg⟩ (by simp)
  by_cases ha : a.on c = true
  · simp only [rest_on ha] at me
    rcases me with me | me
    · obtain ⟨rfl, me'⟩ := List.cons.inj me
      refine ⟨hlen, fun t ht => ?_, .inl (by simp [Act.run, upd])⟩
      simp only [List.mem_append, List.mem_cons] at ht
      rcases ht with ht | rfl | ht
      · exact h2 t (by simp [ht])
      · exact .inr me'
      · exact h2 t (by simp [ht])
    · simp at me
  · rw [Bool.not_eq_true] at ha
    simp only [rest_off ha] at me
    refine ⟨hlen, fun t ht => ?_, ?_⟩
    · simp only [List.mem_append, List.mem_cons] at ht
      rcases ht with ht | rfl | ht
      · exact h2 t (by simp [ht])
      · exact me
      · exact h2 t (by simp [ht])
    · rcases h3 with h3 | h3
      · exact .inl ((run_off ha reg mem).2.trans h3)
      · refine .inr (fun t ht => ?_)
        simp only [List.mem_append, List.mem_cons] at ht
        rcases ht with ht | rfl | ht
        · exact h3 t (by simp [ht])
        · have := h3 ⟨a :: rest, reg⟩ (by simp)
          simpa only [rest_off ha] using this
        · exact h3 t (by simp [ht])

/-- Such a field has the value in the end. -/
theorem put_end {o : Ops W} {c : Cell} {v : W} {n : Nat} (hn : 0 < n) {prog : List (Act W)} (hp : prog.filter (Act.on c) = [.put c v]) {reg mem : Cell → W} {s : Conf W}
    (hs : ReflTransGen (Step o) (start n prog reg mem) s) (hd : s.done) : s.mem c = v := by
  have h0 : PutInv c v n (start n prog reg mem) := by
    refine ⟨by simp [start], fun t ht => .inl ?_, .inr (fun t ht => ?_)⟩ <;> rw [List.eq_of_mem_replicate ht] <;> exact hp
  have : PutInv c v n s := by
    generalize hs0 : start n prog reg mem = s0 at hs h0
    clear hs0 hd
    induction hs with
    | refl => exact h0
    | tail _ h ih => exact ih.step h
  rcases this.mem with h | h
  · exact h
  · cases hths : s.ths with
    | nil => have := this.len; rw [hths] at this; simp at this; omega
    | cons t _ =>
      have ht : t ∈ s.ths := by simp [hths]
      have := h t ht
      rw [hd t ht] at this
      simp at this

/-- Repeated subtraction. -/
def minus (o : Ops W) (a t : W) : Nat → W
  | 0 => a
  | k + 1 => o.sub (minus o a t k) t

/-- The number of threads that are through with the field. -/
def through (c : Cell) (ths : List (Th W)) : Nat := ths.countP (fun t => (t.rest.filter (Act.on c)).isEmpty)

/-- Fields that receive a value from which something is then subtracted. -/
structure SubInv (o : Ops W) (c : Cell) (a t : W) (n : Nat) (s : Conf W) : Prop where
  len : s.ths.length = n
  each : ∀ x ∈ s.ths, x.rest.filter (Act.on c) = [.put c a, .get c, .putSub c t] ∨ x.rest.filter (Act.on c) = [.get c, .putSub c t] ∨
    (x.rest.filter (Act.on c) = [.putSub c t] ∧ ∃ j ≤ through c s.ths, x.reg c = minus o a t j) ∨ x.rest.filter (Act.on c) = []
  mem : (∀ x ∈ s.ths, x.rest.filter (Act.on c) = [.put c a, .get c, .putSub c t]) ∨
    ∃ j ≤ through c s.ths, s.mem c = minus o a t j ∧
      (1 ≤ j ∨ ∃ x ∈ s.ths, x.rest.filter (Act.on c) = [.get c, .putSub c t] ∨ x.rest.filter (Act.on c) = [.putSub c t])

theorem SubInv.step {o : Ops W} {c : Cell} {a t : W} {n : Nat} {s s' : Conf W} (h : SubInv o c a t n s) (hs : Step o s s') : SubInv o c a t n s' := by
  obtain ⟨l, r, b, rest, reg, mem⟩ := hs
  obtain ⟨h1, h2, h3⟩ := h
  dsimp only at h1 h2 h3
  have hlen : (l ++ ⟨rest, (b.run o reg mem).1⟩ :: r : List (Th W)).length = n := by simpa using h1
  have me := h2 ⟨b :: rest, reg⟩ (by simp)
  have hth : ∀ x : Th W, through c (l ++ x :: r) = through c l + through c r + (if (x.rest.filter (Act.on c)).isEmpty then 1 else 0) := by
    intro x
    simp only [through, List.countP_append, List.countP_cons]
    omega
  -- the other threads
  have others : ∀ x : Th W, through c (l ++ ⟨b :: rest, reg⟩ :: r) ≤ through c (l ++ x :: r) → ∀ y, y ∈ l ∨ y ∈ r → y.rest.filter (Act.on c) = [.put c a, .get c, .putSub c t] ∨ y.rest.filter (Act.on c) = [.get c, .putSub c t] ∨
      (y.rest.filter (Act.on c) = [.putSub c t] ∧ ∃ j ≤ through c (l ++ x :: r), y.reg c = minus o a t j) ∨ y.rest.filter (Act.on c) = [] := by
    intro x hle y hy
    rcases h2 y (by simp only [List.mem_append, List.mem_cons]; tauto) with h | h | ⟨h, j, hj, h'⟩ | h
    · exact .inl h
    · exact .inr (.inl h)
    · exact .inr (.inr (.inl ⟨h, j, Nat.le_trans hj hle, h'⟩))
    · exact .inr (.inr (.inr h))
  by_cases hb : b.on c = true
  · simp only [rest_on hb] at me
    rcases me with me | me | ⟨me, j, hj, hreg⟩ | me
    · obtain ⟨rfl, me'⟩ := List.cons.inj me
      have hle : through c (l ++ ⟨.put c a :: rest, reg⟩ :: r) ≤ through c (l ++ ⟨rest, ((Act.put c a).run o reg mem).1⟩ :: r) := by
        rw [hth, hth]; simp [rest_on hb]
      refine ⟨hlen, fun y hy => ?_, .inr ⟨0, by omega, by simp [Act.run, upd, minus], .inr ⟨⟨rest, _⟩, List.mem_append_right _ List.mem_cons_self, .inl me'⟩⟩⟩
      simp only [List.mem_append, List.mem_cons] at hy
      rcases hy with hy | rfl | hy
      · exact others _ hle y (.inl hy)
      · exact .inr (.inl me')
      · exact others _ hle y (.inr hy)
    · obtain ⟨rfl, me'⟩ := List.cons.inj me
      have hle : through c (l ++ ⟨.get c :: rest, reg⟩ :: r) ≤ through c (l ++ ⟨rest, ((Act.get c).run o reg mem).1⟩ :: r) := by
        rw [hth, hth]; simp [rest_on hb]
      have hm : ∃ j ≤ through c (l ++ ⟨.get c :: rest, reg⟩ :: r), mem c = minus o a t j ∧
          (1 ≤ j ∨ ∃ x ∈ l ++ ⟨.get c :: rest, reg⟩ :: r, x.rest.filter (Act.on c) = [.get c, .putSub c t] ∨ x.rest.filter (Act.on c) = [.putSub c t]) := by
        rcases h3 with h3 | h3
        · have := h3 ⟨.get c :: rest, reg⟩ (by simp)
          simp only [rest_on hb, me'] at this
          simp at this
        · exact h3
      obtain ⟨j, hj, e, _⟩ := hm
      refine ⟨hlen, fun y hy => ?_, .inr ⟨j, Nat.le_trans hj hle, e, .inr ⟨⟨rest, _⟩, List.mem_append_right _ List.mem_cons_self, .inr me'⟩⟩⟩
      simp only [List.mem_append, List.mem_cons] at hy
      rcases hy with hy | rfl | hy
      · exact others _ hle y (.inl hy)
      · exact .inr (.inr (.inl ⟨me', j, Nat.le_trans hj hle, by simpa [Act.run, upd] using e⟩))
      · exact others _ hle y (.inr hy)
    · obtain ⟨rfl, me'⟩ := List.cons.inj me
      have hle : through c (l ++ ⟨.putSub c t :: rest, reg⟩ :: r) + 1 = through c (l ++ ⟨rest, ((Act.putSub c t).run o reg mem).1⟩ :: r) := by
        rw [hth, hth]; simp [rest_on hb, me']
      refine ⟨hlen, fun y hy => ?_, .inr ⟨j + 1, hle ▸ Nat.succ_le_succ hj, by simp [Act.run, upd, minus, hreg], .inl (by omega)⟩⟩
      simp only [List.mem_append, List.mem_cons] at hy
      rcases hy with hy | rfl | hy
      · exact others _ (by omega) y (.inl hy)
      · exact .inr (.inr (.inr me'))
      · exact others _ (by omega) y (.inr hy)
    · simp at me
  · rw [Bool.not_eq_true] at hb
    simp only [rest_off hb] at me
    have he : through c (l ++ ⟨b :: rest, reg⟩ :: r) = through c (l ++ ⟨rest, (b.run o reg mem).1⟩ :: r) := by
      rw [hth, hth]; simp [rest_off hb]
    refine ⟨hlen, fun y hy => ?_, ?_⟩
    · simp only [List.mem_append, List.mem_cons] at hy
      rcases hy with hy | rfl | hy
      · exact others _ (Nat.le_of_eq he) y (.inl hy)
      · rw [he] at me
        simpa only [(run_off hb reg mem).1] using me
      · exact others _ (Nat.le_of_eq he) y (.inr hy)
    · rcases h3 with h3 | ⟨j, hj, e, h4⟩
      · refine .inl (fun y hy => ?_)
        simp only [List.mem_append, List.mem_cons] at hy
        rcases hy with hy | rfl | hy
        · exact h3 y (by simp [hy])
        · have := h3 ⟨b :: rest, reg⟩ (by simp)
          simpa only [rest_off hb] using this
        · exact h3 y (by simp [hy])
      · refine .inr ⟨j, by rw [← he]; exact hj, (run_off hb reg mem).2.trans e, ?_⟩
        rcases h4 with h4 | ⟨x, hx, h4⟩
        · exact .inl h4
        · refine .inr ?_
          simp only [List.mem_append, List.mem_cons] at hx
          rcases hx with hx | rfl | hx
          · exact ⟨x, by simp [hx], h4⟩
          · exact ⟨⟨rest, _⟩, List.mem_append_right _ List.mem_cons_self, by simpa only [rest_off hb] using h4⟩
          · exact ⟨x, by simp [hx], h4⟩

/-- In the end it has been subtracted at least once and at most once for every thread. -/
theorem sub_end {o : Ops W} {c : Cell} {a t : W} {n : Nat} (hn : 0 < n) {prog : List (Act W)} (hp : prog.filter (Act.on c) = [.put c a, .get c, .putSub c t])
    {reg mem : Cell → W} {s : Conf W} (hs : ReflTransGen (Step o) (start n prog reg mem) s) (hd : s.done) : ∃ j, 1 ≤ j ∧ j ≤ n ∧ s.mem c = minus o a t j := by
  have h0 : SubInv o c a t n (start n prog reg mem) := by
    refine ⟨by simp [start], fun t ht => .inl ?_, .inl (fun t ht => ?_)⟩ <;> rw [List.eq_of_mem_replicate ht] <;> exact hp
  have : SubInv o c a t n s := by
    generalize hs0 : start n prog reg mem = s0 at hs h0
    clear hs0 hd
    induction hs with
    | refl => exact h0
    | tail _ h ih => exact ih.step h
  have hle : through c s.ths ≤ n := this.len ▸ List.countP_le_length
  rcases this.mem with h | ⟨j, hj, e, h⟩
  · cases hths : s.ths with
    | nil => have := this.len; rw [hths] at this; simp at this; omega
    | cons x _ =>
      have ht : x ∈ s.ths := by simp [hths]
      have := h x ht
      rw [hd x ht] at this
      simp at this
  · rcases h with h | ⟨x, hx, h⟩
    · exact ⟨j, h, by omega, e⟩
    · rw [hd x hx] at h
      simp at h

/-- Executing some accesses. -/
def runs (o : Ops W) : List (Act W) → (Cell → W) × (Cell → W) → (Cell → W) × (Cell → W)
  | [], s => s
  | a :: r, s => runs o r (a.run o s.1 s.2)

/-- A thread can make some accesses while the others wait. -/
theorem one_runs (o : Ops W) (xs ys : List (Act W)) (l r : List (Th W)) (reg mem : Cell → W) :
    ReflTransGen (Step o) ⟨l ++ ⟨xs ++ ys, reg⟩ :: r, mem⟩ ⟨l ++ ⟨ys, (runs o xs (reg, mem)).1⟩ :: r, (runs o xs (reg, mem)).2⟩ := by
  induction xs generalizing reg mem with
  | nil => exact .refl
  | cons a xs ih => exact ReflTransGen.head (Step.mk l r a (xs ++ ys) reg mem) (ih _ _)

/-- One thread after the other can make some accesses. -/
theorem seg_runs (o : Ops W) (xs ys : List (Act W)) (Q Q' : (Cell → W) → Prop) (P : Nat → (Cell → W) → Prop)
    (hx : ∀ k reg mem, Q reg → P k mem → Q' (runs o xs (reg, mem)).1 ∧ P (k + 1) (runs o xs (reg, mem)).2)
    (seg l r : List (Th W)) (hseg : ∀ t ∈ seg, t.rest = xs ++ ys ∧ Q t.reg) (k : Nat) (mem : Cell → W) (hP : P k mem) :
    ∃ seg' mem', ReflTransGen (Step o) ⟨l ++ seg ++ r, mem⟩ ⟨l ++ seg' ++ r, mem'⟩ ∧ seg'.length = seg.length ∧ (∀ t ∈ seg', t.rest = ys ∧ Q' t.reg) ∧ P (k + seg.length) mem' := by
  induction seg generalizing l k mem with
  | nil => exact ⟨[], mem, .refl, rfl, by simp, hP⟩
  | cons t seg ih =>
    obtain ⟨h1, h2⟩ := hseg t (by simp)
    obtain ⟨rest, reg⟩ := t
    dsimp only at h1 h2
    subst h1
    obtain ⟨q1, q2⟩ := hx k reg mem h2 hP
    have e1 := one_runs o xs ys l (seg ++ r) reg mem
    obtain ⟨seg', mem', e2, e3, e4, e5⟩ := ih (l ++ [⟨ys, (runs o xs (reg, mem)).1⟩]) (fun t ht => hseg t (by simp [ht])) (k + 1) _ q2
    refine ⟨⟨ys, (runs o xs (reg, mem)).1⟩ :: seg', mem', ?_, by simp [e3], ?_, ?_⟩
    · simp only [List.append_assoc, List.cons_append, List.nil_append] at e1 e2 ⊢
      exact e1.trans e2
    · intro t ht
      rcases List.mem_cons.1 ht with rfl | ht
      · exact ⟨rfl, q1⟩
      · exact e4 t ht
    · rw [List.length_cons, show k + (seg.length + 1) = k + 1 + seg.length by omega]
      exact e5

/-- Every number of subtractions from one to the number of threads can happen. -/
theorem sub_possible (o : Ops W) (c : Cell) (a t : W) (pre post : List (Act W)) (hpre : ∀ reg mem, (runs o pre (reg, mem)).2 c = a)
    (hpost : ∀ x ∈ post, x.on c = false) (n j : Nat) (h1 : 1 ≤ j) (hj : j ≤ n) (reg mem : Cell → W) :
    ∃ s, ReflTransGen (Step o) (start n (pre ++ [.get c, .putSub c t] ++ post) reg mem) s ∧ s.done ∧ s.mem c = minus o a t j := by
  have hoff : ∀ (post : List (Act W)), (∀ x ∈ post, x.on c = false) → ∀ reg mem, (runs o post (reg, mem)).2 c = mem c := by
    intro post
    induction post with
    | nil => intro _ _ _; rfl
    | cons b r ih =>
      intro h reg mem
      rw [runs, ih (fun x hx => h x (by simp [hx]))]
      exact (run_off (h b (by simp)) reg mem).2
  -- all make the first accesses
  obtain ⟨s1, m1, e1, l1, q1, p1⟩ := seg_runs o pre ([.get c, .putSub c t] ++ post) (fun _ => True) (fun _ => True) (fun k m => 1 ≤ k → m c = a)
    (fun k reg mem _ _ => ⟨trivial, fun _ => hpre reg mem⟩) (List.replicate n ⟨pre ++ [.get c, .putSub c t] ++ post, reg⟩) [] []
    (fun x hx => by rw [List.eq_of_mem_replicate hx]; simp) 0 mem (by simp)
  rw [List.length_replicate] at l1 p1
  have p1 := p1 (by omega)
  -- those that read early
  obtain ⟨s2, m2, e2, l2, q2, p2⟩ := seg_runs o [.get c] ([.putSub c t] ++ post) (fun _ => True) (fun r => r c = a) (fun _ m => m c = a)
    (fun k reg mem _ h => ⟨by simpa [runs, Act.run, upd] using h, by simpa [runs, Act.run] using h⟩) (s1.take (n - j + 1)) [] (s1.drop (n - j + 1))
    (fun x hx => by simpa using (q1 x (List.mem_of_mem_take hx)).1) 0 m1 p1
  have hl2 : s2.length = n - j + 1 := by rw [l2, List.length_take, l1]; omega
  -- they store
  obtain ⟨s3, m3, e3, l3, q3, p3⟩ := seg_runs o [.putSub c t] post (fun r => r c = a) (fun _ => True) (fun k m => 1 ≤ k → m c = minus o a t 1)
    (fun k reg mem h _ => ⟨trivial, fun _ => by simp [runs, Act.run, upd, minus, h]⟩) s2 [] (s1.drop (n - j + 1))
    (fun x hx => by simpa using q2 x hx) 0 m2 (by simp)
  have p3 := p3 (by omega)
  -- the others one after the other
  obtain ⟨s4, m4, e4, l4, q4, p4⟩ := seg_runs o [.get c, .putSub c t] post (fun _ => True) (fun _ => True) (fun k m => m c = minus o a t k)
    (fun k reg mem _ h => ⟨trivial, by simp [runs, Act.run, upd, minus, h]⟩) (s1.drop (n - j + 1)) s3 []
    (fun x hx => by simpa using (q1 x (List.mem_of_mem_drop hx)).1) 1 m3 p3
  rw [List.length_drop, l1, show 1 + (n - (n - j + 1)) = j by omega] at p4
  -- the rest
  obtain ⟨s5, m5, e5, l5, q5, p5⟩ := seg_runs o post [] (fun _ => True) (fun _ => True) (fun _ m => m c = minus o a t j)
    (fun k reg mem _ h => ⟨trivial, by rw [hoff post hpost]; exact h⟩) (s3 ++ s4) [] []
    (fun x hx => by
      rw [List.append_nil]
      rcases List.mem_append.1 hx with hx | hx
      · exact ⟨(q3 x hx).1, trivial⟩
      · exact ⟨(q4 x hx).1, trivial⟩) 0 m4 p4
  refine ⟨⟨s5, m5⟩, ?_, fun x hx => (q5 x hx).1, p5⟩
  simp only [List.nil_append, List.append_nil] at e1 e2 e3 e4 e5
  rw [List.take_append_drop] at e2
  exact (((e1.trans e2).trans e3).trans e4).trans e5

end Verif.Stat
