import Verif.Model.Outcome
import Verif.Model.Utils
/-
Model of `partition` and `hdbscan_quicksort`, /repo/src/hdbscan.c 1556-1616.

Simplifications: the `ArrayList`s are lists (property C01); indices are natural numbers (`int32_t` in C; arrays have less than 2^31
elements); a range `left..right` is given by `left` and `right + 1`, because `right` may be -1.
-/
namespace Verif.CSort
variable {L D : Type}

/-- The two arrays: `c_data` and `d_data`. -/
structure Arr (L D : Type) where
  c : List L
  d : List D
  deriving DecidableEq

/-- `while((up < down) && (d_data[up] <= x)) up++`, hdbscan.c 1564-1566; `k` is `down - up`. -/
def upLoop [CCmp D] (d : List D) (x : D) : (k up : Nat) → Outcome Nat
  | 0, up => .ok up
  | k + 1, up => do
    let v ← rd d up
    if CCmp.le v x then upLoop d x k (up + 1) else .ok up

/-- `while((up < down) && (d_data[down] > x)) down--`, hdbscan.c 1568-1570; `k` is `down - up`. -/
def downLoop [CCmp D] (d : List D) (x : D) : (k down : Nat) → Outcome Nat
  | 0, down => .ok down
  | k + 1, down => do
    let v ← rd d down
    if CCmp.lt x v then downLoop d x k (down - 1) else .ok down

/-- The exchange of two elements in both arrays, hdbscan.c 1576-1582. -/
def swap (a : Arr L D) (up down : Nat) : Outcome (Arr L D) := do
  let tmp ← rd a.d up
  let v ← rd a.d down
  let d1 ← wr a.d up v
  let d2 ← wr d1 down tmp
  let tmp2 ← rd a.c up
  let v2 ← rd a.c down
  let c1 ← wr a.c up v2
  let c2 ← wr c1 down tmp2
  return { c := c2, d := d2 }

/-- The loop of `partition`, hdbscan.c 1563-1584; the result is (`up`, arrays). -/
def partLoop [CCmp D] (x : D) : (fuel up down : Nat) → Arr L D → Outcome (Nat × Arr L D)
  | 0, up, down, a => if up < down then .diverge else .ok (up, a)
  | fuel + 1, up, down, a =>
    if up < down then do
      let up' ← upLoop a.d x (down - up) up
      let down' ← downLoop a.d x (down - up') down
      if up' = down' then return (up', a)
      else do
        let a' ← swap a up' down'
        partLoop x fuel up' down' a'
    else .ok (up, a)

/-- `partition`, hdbscan.c 1556-1596; the result is (`*pivot`, arrays). -/
def partition [CCmp D] (a : Arr L D) (lower upper : Nat) : Outcome (Nat × Arr L D) := do
  let x ← rd a.d lower
  let x2 ← rd a.c lower
  let (up, a1) ← partLoop x (upper - lower) (lower + 1) upper a
  let v ← rd a1.d up
  let up1 := if CCmp.lt x v then up - 1 else up
  let dv ← rd a1.d up1
  let d1 ← wr a1.d lower dv
  let d2 ← wr d1 up1 x
  let cv ← rd a1.c up1
  let c1 ← wr a1.c lower cv
  let c2 ← wr c1 up1 x2
  return (up1, { c := c2, d := d2 })

/-- `hdbscan_quicksort`, hdbscan.c 1606-1616, on the positions `left`, ..., `hi - 1`; `fuel` bounds the depth of the recursion. -/
def quicksort [CCmp D] : (fuel : Nat) → Arr L D → (left hi : Nat) → Outcome (Arr L D)
  | 0, a, left, hi => if left + 1 < hi then .diverge else .ok a
  | fuel + 1, a, left, hi =>
    if left + 1 < hi then do
      let (pivot, a1) ← partition a left (hi - 1)
      let a2 ← quicksort fuel a1 left pivot
      quicksort fuel a2 (pivot + 1) hi
    else .ok a

end Verif.CSort
