import Verif.Model.Double
import Verif.Model.Fp
import Verif.Spec.Distance

namespace Verif.Spec

/-- The exact difference of rows `i` and `j` in column `k`. -/
def columnDiff (data : List ℚ) (cols i j k : Nat) : ℚ := data.getD (i * cols + k) 0 - data.getD (j * cols + k) 0

/-- `y` is the Euclidean distance of the rows `i` and `j` up to the relative error `err`, and 0 only if the rows are equal. -/
def Accurate (data : List ℚ) (cols i j : Nat) (err : ℝ) (y : Fin754 binary64) : Prop :=
  0 ≤ y.1 ∧ |((y.1 : ℚ) : ℝ) - euclid (data.map (fun x : ℚ => (x : ℝ))) cols i j| ≤ err * euclid (data.map (fun x : ℚ => (x : ℝ))) cols i j ∧
    (y.1 = 0 ↔ ∀ k, k < cols → data[i * cols + k]? = data[j * cols + k]?)

/-- The sum `distance_compute` forms for rows `i` and `j` of `double` data: the squares of the rounded differences are rounded and added from the first column to the last. -/
def squareSum (data : List Dbl) (cols i j : Nat) : Dbl :=
  ((List.range cols).map fun k => (data.getD (i * cols + k) .nan).sub (data.getD (j * cols + k) .nan)).foldl (fun s d => s.add (d.mul d)) (Fp.of 0)

/-- Row `i` consists of finite numbers of moderate size. -/
def CompleteRow (data : List Dbl) (cols i : Nat) : Prop := ∀ k, k < cols → ∃ x, data[i * cols + k]? = some (Fp.fin x) ∧ |x.1| ≤ 2 ^ (480 : ℤ)

/-- Row `i` contains a NaN or an infinity. -/
def IncompleteRow (data : List Dbl) (cols i : Nat) : Prop := ∃ k, k < cols ∧ ∃ a, data[i * cols + k]? = some a ∧ ∀ x, a ≠ Fp.fin x

end Verif.Spec
