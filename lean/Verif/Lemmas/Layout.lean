import Verif.Spec.Layout
import Mathlib.Order.Lattice
/-
Helper lemmas for the layout of structures.
-/
namespace Verif.Layout
open Spec
variable {B : Type}

theorem alignUp_ge (o a : Nat) (ha : 0 < a) : o ≤ alignUp o a := by
  unfold alignUp
  have := Nat.div_add_mod (o + (a - 1)) a
  have h2 := Nat.mod_lt (o + (a - 1)) ha
  rw [Nat.mul_comm] at this
  omega

theorem ending_ge : ∀ (fs : List Field) (o : Nat), (∀ f ∈ fs, 0 < f.align) → o ≤ ending o fs
  | [], o, _ => le_refl o
  | f :: fs, o, h => by
    have h1 := alignUp_ge o f.align (h f (by simp))
    have h2 := ending_ge fs (alignUp o f.align + f.size) (fun g hg => h g (by simp [hg]))
    simp only [ending]
    omega

theorem store_length : ∀ (fs : List Field) (vs : List (List B)) (o : Nat), (∀ f ∈ fs, 0 < f.align) → vs.map List.length = fs.map (·.size) →
    (store o fs vs).length = ending o fs - o
  | [], vs, o, _, e => by simp [store, ending]
  | f :: fs, [], o, _, e => by simp at e
  | f :: fs, v :: vs, o, h, e => by
    simp only [List.map_cons, List.cons.injEq] at e
    have h1 := alignUp_ge o f.align (h f (by simp))
    have hr : ∀ g ∈ fs, 0 < g.align := fun g hg => h g (by simp [hg])
    have h2 := ending_ge fs (alignUp o f.align + f.size) hr
    simp only [store, List.length_append, List.length_replicate, List.length_map, ending, store_length fs vs _ hr e.2, e.1]
    omega

theorem offsets_ge : ∀ (fs : List Field) (o j p : Nat), (∀ f ∈ fs, 0 < f.align) → (offsets o fs)[j]? = some p → o ≤ p
  | [], o, j, p, _, e => by simp [offsets] at e
  | f :: fs, o, 0, p, h, e => by
    simp only [offsets, List.getElem?_cons_zero, Option.some.injEq] at e
    rw [← e]; exact alignUp_ge o f.align (h f (by simp))
  | f :: fs, o, j + 1, p, h, e => by
    simp only [offsets, List.getElem?_cons_succ] at e
    have h1 := alignUp_ge o f.align (h f (by simp))
    have := offsets_ge fs _ j p (fun g hg => h g (by simp [hg])) e
    omega

theorem store_field : ∀ (fs : List Field) (vs : List (List B)) (o j p : Nat) (v : List B), (∀ f ∈ fs, 0 < f.align) → vs.map List.length = fs.map (·.size) →
    (offsets o fs)[j]? = some p → vs[j]? = some v → p + v.length ≤ ending o fs ∧ ((store o fs vs).drop (p - o)).take v.length = v.map some
  | [], vs, o, j, p, v, _, _, e, _ => by simp [offsets] at e
  | f :: fs, [], o, j, p, v, _, e, _, _ => by simp at e
  | f :: fs, w :: vs, o, 0, p, v, h, e, hp, hv => by
    simp only [offsets, List.getElem?_cons_zero, Option.some.injEq] at hp hv
    subst hp hv
    simp only [List.map_cons, List.cons.injEq] at e
    have hr : ∀ g ∈ fs, 0 < g.align := fun g hg => h g (by simp [hg])
    refine ⟨?_, ?_⟩
    · rw [e.1]; exact ending_ge fs _ hr
    · simp only [store, List.append_assoc]
      rw [List.drop_append_of_le_length (by simp), List.drop_eq_nil_of_le (by simp), List.nil_append, List.take_append_of_le_length (by simp), List.take_of_length_le (by simp)]
  | f :: fs, w :: vs, o, j + 1, p, v, h, e, hp, hv => by
    simp only [offsets, List.getElem?_cons_succ] at hp hv
    simp only [List.map_cons, List.cons.injEq] at e
    have hr : ∀ g ∈ fs, 0 < g.align := fun g hg => h g (by simp [hg])
    obtain ⟨h1, h2⟩ := store_field fs vs _ j p v hr e.2 hp hv
    have h3 := offsets_ge fs _ j p hr hp
    have h4 := alignUp_ge o f.align (h f (by simp))
    refine ⟨h1, ?_⟩
    simp only [store]
    rw [List.drop_append, List.drop_eq_nil_of_le (by simp only [List.length_append, List.length_replicate, List.length_map, e.1]; omega), List.nil_append]
    rw [show p - o - (List.replicate (alignUp o f.align - o) (none : Option B) ++ List.map some w).length = p - (alignUp o f.align + f.size) by
      simp only [List.length_append, List.length_replicate, List.length_map, e.1]; omega]
    exact h2

theorem alignOf_pos (fs : List Field) : 0 < alignOf fs := by
  have : ∀ (l : List Nat) (a : Nat), a ≤ l.foldl max a := by
    intro l
    induction l with
    | nil => intro a; exact le_refl a
    | cons b l ih => intro a; exact (le_max_left a b).trans (ih _)
  exact this _ 1

theorem size_ge (d : Decl) : ending 0 d.fields ≤ cSize d := alignUp_ge _ _ (alignOf_pos _)

theorem element_length {d : Decl} (ha : ∀ f ∈ d.fields, 0 < f.align) {vs : List (List B)} (e : vs.map List.length = d.fields.map (·.size)) :
    (element d vs).length = cSize d := by
  have := size_ge d
  simp only [element, List.length_append, List.length_replicate, store_length d.fields vs 0 ha e]
  omega

theorem element_field {d : Decl} (ha : ∀ f ∈ d.fields, 0 < f.align) {vs : List (List B)} (e : vs.map List.length = d.fields.map (·.size)) {j p : Nat} {v : List B}
    (hp : (cOffsets d)[j]? = some p) (hv : vs[j]? = some v) : p + v.length ≤ cSize d ∧ ((element d vs).drop p).take v.length = v.map some := by
  obtain ⟨h1, h2⟩ := store_field d.fields vs 0 j p v ha e hp hv
  have h3 := size_ge d
  refine ⟨h1.trans h3, ?_⟩
  have hl := store_length d.fields vs 0 ha e
  rw [element, List.drop_append_of_le_length (by omega), List.take_append_of_le_length (by rw [List.length_drop]; omega)]
  exact h2

theorem block_length {d : Decl} (ha : ∀ f ∈ d.fields, 0 < f.align) : ∀ {arr : List (List (List B))}, Typed d arr → (block d arr).length = arr.length * cSize d
  | [], _ => by simp [block]
  | vs :: arr, h => by
    have ih := block_length ha (arr := arr) fun x hx => h x (by simp [hx])
    have h1 := element_length ha (h vs (by simp))
    simp only [block, List.flatMap_cons, List.length_append] at ih ⊢
    rw [h1, ih, List.length_cons, Nat.succ_mul]; omega

theorem block_drop {d : Decl} (ha : ∀ f ∈ d.fields, 0 < f.align) : ∀ {arr : List (List (List B))} (i : Nat), Typed d arr → (block d arr).drop (i * cSize d) = block d (arr.drop i)
  | arr, 0, _ => by simp
  | [], i + 1, _ => by simp [block]
  | vs :: arr, i + 1, h => by
    have h1 := element_length ha (h vs (by simp))
    have ih := block_drop ha (arr := arr) i fun x hx => h x (by simp [hx])
    simp only [block, List.flatMap_cons, List.drop_succ_cons] at ih ⊢
    rw [← ih, List.drop_append, List.drop_eq_nil_of_le (by rw [h1, Nat.succ_mul]; omega), List.nil_append, h1]
    congr 1
    rw [Nat.succ_mul]; omega

/-- A read inside element `m`. -/
theorem read_element {d : Decl} (ha : ∀ f ∈ d.fields, 0 < f.align) {arr : List (List (List B))} (ht : Typed d arr) {m : Nat} {vs : List (List B)} (hm : arr[m]? = some vs)
    {r n : Nat} (hr : r + n ≤ cSize d) : read (block d arr) (m * cSize d + r) n = .ok (((element d vs).drop r).take n) := by
  have hl := block_length ha ht
  have hmem : vs ∈ arr := List.mem_of_getElem? hm
  have hel := element_length ha (ht vs hmem)
  obtain ⟨hlt, he⟩ := List.getElem?_eq_some_iff.1 hm
  have hle : (m + 1) * cSize d ≤ arr.length * cSize d := Nat.mul_le_mul_right _ hlt
  rw [Nat.succ_mul] at hle
  rw [read, if_pos (by rw [hl]; omega), ← List.drop_drop, block_drop ha m ht, List.drop_eq_getElem_cons hlt, he]
  simp only [block, List.flatMap_cons]
  rw [List.drop_append_of_le_length (by omega), List.take_append_of_le_length (by rw [List.length_drop]; omega)]

theorem read_outside {d : Decl} (ha : ∀ f ∈ d.fields, 0 < f.align) {arr : List (List (List B))} (ht : Typed d arr) {o n : Nat} (h : arr.length * cSize d < o + n) :
    (read (block d arr) o n).IsUB := by
  rw [read, if_neg (by rw [block_length ha ht]; omega)]
  exact ⟨_, rfl⟩

theorem offsets_length : ∀ (fs : List Field) (o : Nat), (offsets o fs).length = fs.length
  | [], _ => rfl
  | f :: fs, o => by simp [offsets, offsets_length fs]

theorem cRead_spec {d : Decl} (ha : ∀ f ∈ d.fields, 0 < f.align) {arr : List (List (List B))} (ht : Typed d arr) {i j : Nat} {v : List B} (hv : member arr i j = some v) :
    cRead d (block d arr) i j = .ok (v.map some) := by
  simp only [member, Option.bind_eq_some_iff] at hv
  obtain ⟨vs, hi, hj⟩ := hv
  have e := ht vs (List.mem_of_getElem? hi)
  have hjl : (d.fields[j]?).map (·.size) = some v.length := by
    have := congrArg (·[j]?) e
    simp only [List.getElem?_map, hj] at this
    rw [← this]; rfl
  obtain ⟨f, hf, hs⟩ := Option.map_eq_some_iff.1 hjl
  obtain ⟨p, hp⟩ : ∃ p, (cOffsets d)[j]? = some p := by
    have : j < (cOffsets d).length := by
      rw [cOffsets, offsets_length]; exact (List.getElem?_eq_some_iff.1 hf).1
    exact ⟨_, List.getElem?_eq_getElem this⟩
  obtain ⟨h1, h2⟩ := element_field ha e hp hj
  rw [cRead, hp, hf]
  simp only
  rw [hs, read_element ha ht hi h1, h2]

end Verif.Layout
