import Verif.Model.Utils
/-
Memory-level model of `ArrayList`, /repo/modules/collections/src/list.c.

Simplifications, for the whole file: memory is counted in elements instead of bytes (every access in list.c is a
multiple of `step` long and `step` aligned); allocation never fails; products `index * step` do not overflow.
`list != NULL` is assumed.
-/
namespace Verif

/-- `struct ArrayList`, /repo/modules/collections/include/collections/list.h.
    `buf` is the block `data` points to: its length is what is really allocated (in elements), a slot is `none` while
    nothing has been stored in it. `maxSize` is the *recorded* capacity `max_size`. -/
structure AList (α : Type) where
  buf : List (Option α)
  size : Nat
  maxSize : Nat
  deriving Repr, DecidableEq

namespace AList
variable {α : Type}

/-- `array_list_init`, list.c 54-75. -/
def init (initialSize : Nat) : Outcome (AList α) :=
  if initialSize > 0 then
    .ok { buf := List.replicate initialSize none, size := 0, maxSize := initialSize }
  else .abort "initial_size > 0"

/-- Read one stored element of the block: undefined outside the block or when nothing was stored. -/
def readSlot (l : AList α) (i : Nat) : Outcome α :=
  match l.buf[i]? with
  | some (some x) => .ok x
  | some none => .ub "read of a slot nothing was stored in"
  | none => .ub "read outside the allocation"

/-- `array_list_value_at`, list.c 99-111: `none` stands for return value 0, `some x` for return value 1 with `x`
    copied to the caller. -/
def valueAt (l : AList α) (pos : Nat) : Outcome (Option α) :=
  if pos ≥ l.size then .ok none
  else do
    let x ← l.readSlot pos
    return some x

/-- `array_list_grow`, list.c 119-131. `realloc` keeps the common prefix; new slots are indeterminate. -/
def grow (l : AList α) : Outcome (AList α) := do
  let newmax ← highestPowerof2 (l.maxSize * 2)
  return { l with buf := (l.buf ++ List.replicate (newmax - l.buf.length) none).take newmax, maxSize := newmax }

/-- `array_list_insertion_helper`, list.c 165-178. -/
def insertionHelper (l : AList α) (x : α) (index : Nat) : Outcome (AList α) :=
  if index < l.buf.length then .ok { l with buf := l.buf.set index (some x) }
  else .ub "write outside the allocation"

/-- `array_list_replace_at`, list.c 180-187: return value and new list. -/
def replaceAt (l : AList α) (x : α) (index : Nat) : Outcome (Int × AList α) :=
  if index ≥ l.size then .ok (0, l)
  else do
    let l' ← l.insertionHelper x index
    return (1, l')

/-- The growth test at the start of `array_list_append` (list.c 191-196) and `array_list_insert_at` (210-212). -/
def ensureRoom (l : AList α) : Outcome (AList α) :=
  if l.size = l.maxSize then l.grow else .ok l

/-- `array_list_append`, list.c 189-206. -/
def append (l : AList α) (x : α) : Outcome (AList α) := do
  let l1 ← l.ensureRoom
  let l2 ← l1.insertionHelper x l1.size
  return { l2 with size := l2.size + 1 }

/-- The `memmove` of `array_list_insert_at`, list.c 214-219: `size - pos` elements from `pos` to `pos + 1`.
    `pos > size` makes the unsigned subtraction wrap, so the move runs far outside the block. -/
def shiftRight (l : AList α) (pos : Nat) : Outcome (AList α) :=
  if pos > l.size then .ub "memmove of a wrapped length"
  else if l.size - pos > 0 ∧ l.buf.length < l.size + 1 then .ub "memmove outside the allocation"
  else
    .ok { l with buf := l.buf.take (pos + 1) ++ (l.buf.drop pos).take (l.size - pos) ++ l.buf.drop (l.size + 1) }

/-- `array_list_insert_at`, list.c 208-223. -/
def insertAt (l : AList α) (x : α) (pos : Nat) : Outcome (AList α) := do
  let l1 ← l.ensureRoom
  let l2 ← l1.shiftRight pos
  ({ l2 with size := l2.size + 1 } : AList α).insertionHelper x pos

/-- `unordered_search`, list.c 230-245, from index `i` on with `k` elements to go; -1 if there is no match. -/
def unorderedSearchFrom (cmp : α → α → Int) (l : AList α) (x : α) : (k i : Nat) → Outcome Int
  | 0, _ => .ok (-1)
  | k + 1, i => do
    let t ← l.readSlot i
    if cmp t x = 0 then return (i : Int)
    else unorderedSearchFrom cmp l x k (i + 1)

/-- `unordered_search`, list.c 230-245. -/
def unorderedSearch (cmp : α → α → Int) (l : AList α) (x : α) : Outcome Int :=
  unorderedSearchFrom cmp l x l.size 0

/-- `binary_search`, list.c 247-268. A negative `mid` would be converted to a huge offset. The recursion depth is
    bounded by `fuel`. -/
def binarySearch (cmp : α → α → Int) (l : AList α) (x : α) : (fuel : Nat) → (lo hi : Int) → Outcome Int
  | 0, _, _ => .diverge
  | fuel + 1, lo, hi =>
    if hi ≥ lo then do
      let mid := lo + Int.tdiv (hi - lo) 2
      if mid < 0 then .ub "negative index"
      else do
        let t ← l.readSlot mid.toNat
        let c := cmp t x
        if c = 0 then return mid
        else if c > 0 then binarySearch cmp l x fuel lo (mid - 1)
        else binarySearch cmp l x fuel (mid + 1) hi
    else .ok (-1)

/-- `array_list_find`, list.c 270-277. Fuel `size + 1` is enough, see `Props.Collections`. -/
def find (cmp : α → α → Int) (l : AList α) (x : α) (sorted : Bool) : Outcome Int :=
  if sorted then binarySearch cmp l x (l.size + 1) 0 ((l.size : Int) - 1)
  else unorderedSearch cmp l x

/-- `array_list_clear`, list.c 279-285. With `resize` the block is reallocated to one element while `max_size` keeps
    its old value. -/
def clear (l : AList α) (resize : Bool) : AList α :=
  if resize then
    { l with size := 0, buf := (l.buf ++ List.replicate (1 - l.buf.length) none).take 1 }
  else { l with size := 0 }

/-- `array_list_remove_at`, list.c 287-307: `none` stands for return value 0, `some x` for 1 with the removed value. -/
def removeAt (l : AList α) (pos : Nat) : Outcome (Option α × AList α) :=
  if pos ≥ l.size then .ok (none, l)
  else do
    let x ← l.readSlot pos
    if l.size - pos - 1 > 0 ∧ l.buf.length < l.size then .ub "memmove outside the allocation"
    else
      return (some x,
        { l with
          buf := l.buf.take pos ++ (l.buf.drop (pos + 1)).take (l.size - pos - 1) ++ l.buf.drop (l.size - 1)
          size := l.size - 1 })

/-- `array_list_remove`, list.c 309-319: the return value (-1 if absent, else 1) and the new list. The removed
    element, which compares equal to `x`, is copied over `*data`. -/
def remove (cmp : α → α → Int) (l : AList α) (x : α) : Outcome (Int × AList α) := do
  let r ← l.find cmp x false
  if r < 0 then return (-1, l)
  else do
    let (o, l') ← l.removeAt r.toNat
    return (if o.isSome then 1 else 0, l')

/-- `array_list_pop`, list.c 321-331: `none` stands for return value -1. -/
def pop (l : AList α) : Outcome (Option α × AList α) :=
  if l.size = 0 then .ok (none, l)
  else do
    let x ← l.readSlot (l.size - 1)
    return (some x, { l with size := l.size - 1 })

/-- `array_list_empty`, list.c 333-341. -/
def isEmpty (l : AList α) : Bool := l.size = 0

end AList
end Verif
