import Verif.Props.Collections
import Mathlib.Order.Basic
/-
Property C16: the comparison functions.
-/
namespace Verif.Props
open Spec

/-- The order on unsigned values that `int_compare` induces is that of their signed reading. -/
theorem asInt32_inj {a b : Nat} (ha : a < 2 ^ 32) (hb : b < 2 ^ 32) (h : asInt32 a = asInt32 b) : a = b := by
  unfold asInt32 at h
  simp only [Nat.mod_eq_of_lt ha, Nat.mod_eq_of_lt hb] at h
  split at h <;> split at h <;> omega

/-- C16: `int_compare`, `short_compare`, `long_compare`, `char_compare` (all the same text) on values of any of these
    types; `ptr_compare` on addresses; `int_compare` on the bit patterns of unsigned values, as the library uses it for
    labels and vertices. -/
theorem C16_compare_total_order :
    LawfulCmp intCompare ∧ LawfulCmp ptrCompare ∧
    LawfulCmp (fun a b : Fin (2 ^ 32) => indexCompare a.val b.val) := by
  refine ⟨intCompare_lawful, ⟨⟨?_, ?_⟩, ?_⟩, ⟨⟨?_, ?_⟩, ?_⟩⟩
  · intro a b; unfold ptrCompare; split_ifs <;> first | omega | simp
  · intro a b c; unfold ptrCompare; split_ifs <;> omega
  · intro a b; unfold ptrCompare; split_ifs <;> (simp; try omega)
  · intro a b; exact intCompare_lawful.swap _ _
  · intro a b c; exact intCompare_lawful.le_trans _ _ _
  · intro a b
    refine (intCompare_lawful.eq_iff _ _).trans ⟨fun h => Fin.ext (asInt32_inj a.isLt b.isLt h), fun h => by rw [h]⟩

/-- C16, direction: the result is positive exactly when the first value is the larger, and for unsigned values below
    2^31 the order is the ordinary one. -/
theorem C16_compare_direction (a b : Int) (m n : Nat) (hm : m < 2 ^ 31) (hn : n < 2 ^ 31) :
    (0 < intCompare a b ↔ b < a) ∧ (intCompare a b < 0 ↔ a < b) ∧ (0 < indexCompare m n ↔ n < m) := by
  have e : ∀ {k : Nat}, k < 2 ^ 31 → asInt32 k = k := by
    intro k hk
    unfold asInt32
    rw [Nat.mod_eq_of_lt (by omega)]
    rw [if_pos (by omega)]
  unfold indexCompare intCompare
  rw [e hm, e hn]
  refine ⟨?_, ?_, ?_⟩ <;> split_ifs <;> omega

example : (3 : Nat) < 2 ^ 31 ∧ (2147483647 : Nat) < 2 ^ 31 := by decide

/-- C16 for `double_compare` and `float_compare` on any values that are linearly ordered (no NaN). -/
theorem C16_double_compare {D : Type} [LinearOrder D] : LawfulCmp (doubleCompare : D → D → Int) := by
  refine ⟨⟨?_, ?_⟩, ?_⟩
  · intro a b
    unfold doubleCompare
    rcases lt_trichotomy a b with h | h | h
    · simp [h, h.ne, not_lt_of_gt h]
    · simp [h]
    · simp [h, h.ne, not_lt_of_gt h]
  · intro a b c
    have key : ∀ x y : D, doubleCompare x y ≤ 0 ↔ x ≤ y := by
      intro x y
      unfold doubleCompare
      rcases lt_trichotomy x y with h | h | h
      · simp [h.ne, not_lt_of_gt h, h.le]
      · simp [h]
      · simp [h]
    simp only [key]
    exact le_trans
  · intro a b
    unfold doubleCompare
    rcases lt_trichotomy a b with h | h | h
    · simp [h.ne, not_lt_of_gt h]
    · simp [h]
    · simp [h, h.ne']

/-- Outside C16 (which is about integers): `double_compare` is not an order once a NaN is present, and
    `cluster_compare` is not one on NULL pointers. -/
theorem C16_nan_not_an_order :
    ¬ PreCmp (doubleCompare : Fl → Fl → Int) ∧ ¬ PreCmp clusterCompare := by
  constructor
  · intro h
    have := (h.swap .nan .nan).mp (by decide)
    exact absurd this (by decide)
  · intro h
    have := (h.swap none none).mp (by decide)
    exact absurd this (by decide)

/-- `cluster_compare` on clusters that exist is a total order on their labels. -/
theorem C16_cluster_compare : LawfulCmp (fun a b : Nat => clusterCompare (some a) (some b)) := by
  refine ⟨⟨?_, ?_⟩, ?_⟩
  · intro a b; simp only [clusterCompare]; split_ifs <;> first | omega | simp
  · intro a b c; simp only [clusterCompare]; split_ifs <;> omega
  · intro a b; simp only [clusterCompare]; split_ifs <;> (simp; try omega)

end Verif.Props
