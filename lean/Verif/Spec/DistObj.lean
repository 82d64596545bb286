import Verif.Model.DistObj
import Verif.Spec.Distance
/-
What a program may do with a distance object, and what it should be told. Nothing here mentions memory.
-/
namespace Verif.Spec
variable {D W : Type}

/-- What a distance object holds: a data set and the number of neighbours of the core distances. -/
structure DataHeld (D : Type) where
  data : List D
  rows : Nat
  cols : Nat
  nn : Nat

/-- What the object holds after one more call. -/
def heldAfter (h : Option (DataHeld D)) : DistCall D → Option (DataHeld D)
  | .compute data rows cols nn _ _ => some { data := data, rows := rows, cols := cols, nn := nn }
  | .setCores nn _ => h.map fun p => { p with nn := nn }
  | .clean => none
  | .get _ _ => h
  | .getCore _ => h

/-- What the object holds after a sequence of calls. -/
def holds (h : Option (DataHeld D)) (calls : List (DistCall D)) : Option (DataHeld D) := calls.foldl heldAfter h

/-- A call that makes sense when the object holds `h`: a data set of at most 65536 rows (C17) whose sums of squares are
    defined; elements that exist. The orders of the parallel loops are orders of all their iterations. -/
def Sensible (ops : DistOps D W) (h : Option (DataHeld D)) : DistCall D → Prop
  | .compute data rows cols _ order corder => rows ≤ 65536 ∧
      (∃ f : Nat → Nat → W, ∀ i j, i < j → j < rows → SqSum ops data cols i j (f i j)) ∧
      order.Perm (Distance.pairs rows) ∧ corder.Perm (List.range rows)
  | .get row col => row = col ∨ ∃ p, h = some p ∧ row < p.rows ∧ col < p.rows
  | .getCore i => ∃ p, h = some p ∧ i < p.rows
  | .setCores _ order => ∃ p, h = some p ∧ order.Perm (List.range p.rows)
  | .clean => True

/-- Every call makes sense when it is made. -/
def AllSensible (ops : DistOps D W) : Option (DataHeld D) → List (DistCall D) → Prop
  | _, [] => True
  | h, c :: r => Sensible ops h c ∧ AllSensible ops (heldAfter h c) r

/-- `dis` is what `distance_compute` makes of `p` on a new object. -/
def Fresh [CCmp W] (ops : DistOps D W) (dmax : W) (p : DataHeld D) (dis : Distance W) : Prop :=
  Distance.compute ops dmax (Distance.pairs p.rows) (List.range p.rows) p.data p.rows p.cols p.nn = .ok dis

/-- `x` is the right answer to a call while the object holds `h`: the number a new object gives for that data set. -/
def RightAnswer [CCmp W] (ops : DistOps D W) (dmax : W) : Option (DataHeld D) → DistCall D → Option W → Prop
  | none, .get _ _, x => x = some ops.zero
  | some p, .get row col, x => ∃ dis y, Fresh ops dmax p dis ∧ dis.get ops.zero row col = .ok y ∧ x = some y
  | none, .getCore _, _ => False
  | some p, .getCore i, x => ∃ dis y, Fresh ops dmax p dis ∧ dis.coreDistances[i]? = some (some y) ∧ x = some y
  | _, _, x => x = none

/-- All answers are right. -/
def AllRight [CCmp W] (ops : DistOps D W) (dmax : W) : Option (DataHeld D) → List (DistCall D) → List (Option W) → Prop
  | _, [], [] => True
  | h, c :: r, x :: xs => RightAnswer ops dmax h c x ∧ AllRight ops dmax (heldAfter h c) r xs
  | _, _, _ => False

/-- The number of times a data set is computed while the object still holds another one. -/
def overwritten : Option (DataHeld D) → List (DistCall D) → Nat
  | _, [] => 0
  | h, c :: r =>
    (match h, c with
      | some _, .compute .. => 1
      | _, _ => 0) + overwritten (heldAfter h c) r

end Verif.Spec
