import Verif.Lemmas.SortNan
import Verif.Props.SortClusters
/-
C46: `hdbscan_quicksort` with NaN among the values.
-/
namespace Verif.Props
open CSort Spec
variable {L V : Type}

/-- **C46, two or more NaN.** On arrays of equal length and any range of three or more positions, `hdbscan_quicksort` never ends if the values at two of the positions are NaN, whatever the
    others are: the loop of its first call of `partition` does not end, whatever number of iterations is allowed, and so the sort does not. -/
theorem C46_nans [LinearOrder V] (c : List L) (d : List (Ieee V)) (hl : c.length = d.length) (left hi : Nat) (hh : hi ≤ c.length) (h3 : left + 3 ≤ hi) (i j : Nat) (h1 : left ≤ i) (h2 : i < j) (h4 : j < hi)
    (ni : d[i]? = some .nan) (nj : d[j]? = some .nan) :
    (∀ x, d[left]? = some x → ∀ fuel, partLoop x fuel (left + 1) (hi - 1) { c := c, d := d } = .diverge) ∧ ∀ fuel, quicksort fuel { c := c, d := d } left hi = .diverge :=
  have hh' : hi ≤ d.length := by omega
  ⟨fun x hx fuel => Report.partLoop_nans (a := { c := c, d := d }) hl hh' h3 h1 h2 h4 ni nj x hx fuel, fun fuel => Report.quicksort_nans (a := { c := c, d := d }) hl hh' h3 h1 h2 h4 ni nj fuel⟩

/-- **C46, a NaN in front.** Nor does it end if the first of the three or more values is NaN. -/
theorem C46_nan_first [LinearOrder V] (c : List L) (d : List (Ieee V)) (hl : c.length = d.length) (left hi : Nat) (hh : hi ≤ c.length) (h3 : left + 3 ≤ hi) (hn : d[left]? = some .nan) :
    (∀ fuel, partLoop .nan fuel (left + 1) (hi - 1) { c := c, d := d } = .diverge) ∧ ∀ fuel, quicksort fuel { c := c, d := d } left hi = .diverge := by
  have key : ∀ fuel, partLoop .nan fuel (left + 1) (hi - 1) { c := c, d := d } = .diverge := fun fuel =>
    Report.partLoop_stops _ _ _ _ _ (left + 1) (left + 2) hl (by show hi - 1 < d.length; omega) le_rfl (by omega) (by omega) (fun v _ => by cases v <;> exact ⟨rfl, rfl⟩) (fun v _ => by cases v <;> exact ⟨rfl, rfl⟩)
  refine ⟨key, fun fuel => ?_⟩
  cases fuel with
  | zero => rw [quicksort, if_pos (by omega)]
  | succ fuel =>
    have hp : partition ({ c := c, d := d } : Arr L (Ieee V)) left (hi - 1) = .diverge := by
      have hx : d[left]'(by omega) = .nan := by rw [List.getElem?_eq_getElem (by omega)] at hn; exact Option.some.inj hn
      simp only [partition]
      rw [rd_ok (by omega), Outcome.ok_bind, rd_ok (by omega), Outcome.ok_bind, hx, key]
      rfl
    rw [quicksort, if_pos (by omega), hp]
    rfl

/-- Two NaN among five values; a NaN in front of a range of four. -/
example := C46_nans ["a", "b", "c", "d", "e"] [.num 3, .num 1, .nan, .num 7, (.nan : Ieee Int)] rfl 0 5 (by decide) (by decide) 2 4 (by decide) (by decide) (by decide) rfl rfl
example := C46_nan_first ["a", "b", "c", "d", "e"] [.num 3, .nan, .num 4, .num 7, (.num 6 : Ieee Int)] rfl 1 5 (by decide) (by decide) rfl

/-- With one NaN that is not in front it depends on the order of the values: here the sort ends, with the NaN in front. -/
example : quicksort 3 { c := ["a", "b", "c"], d := [.num 1, .num 2, (.nan : Ieee Int)] } 0 3 = .ok { c := ["c", "a", "b"], d := [.nan, .num 1, .num 2] } := by decide +kernel
/-- And here it does not, because the NaN becomes the first value of a range of three. -/
example : quicksort 4 { c := ["a", "b", "c", "d"], d := [.num 3, .num 1, .num 2, (.nan : Ieee Int)] } 0 4 = .diverge := by decide +kernel

end Verif.Props
