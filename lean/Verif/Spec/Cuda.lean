import Verif.Spec.Double
import Verif.Model.Cuda

namespace Verif.Spec

/-- The number of the pair of rows `r` and `c`, `c < r`, when pairs are counted row by row: (1, 0), (2, 0), (2, 1), (3, 0), ... -/
def pairNumber (r c : Nat) : Nat := r * (r - 1) / 2 + c

end Verif.Spec
