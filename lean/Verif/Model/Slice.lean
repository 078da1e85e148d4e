import Verif.Base.Out
/-!
# Model of include/mstl/slice.h and of `ArrayIterRef` (include/mstl/collection/array.h:100-144)

Addresses are offsets (in elements) into one storage region of `cells` elements; forming a reference `*p` to a cell
outside the region is `ub`.  An `Option<T&>` result is modelled by the address it refers to.
-/
namespace Verif.Model.Slice
open Verif

/-- `*p` for a region of `cells` elements. -/
def deref (cells p : Nat) : Out Nat := if p < cells then .ok p else .ub

/-- slice.h:68-70 (and array.h:142-143) the two pointers of a borrowing iterator. -/
structure RefIter where
  start : Nat
  stop : Nat
  deriving Repr, DecidableEq

/-- slice.h:19 constructor. -/
def RefIter.mk' (ptr len : Nat) : RefIter := ⟨ptr, ptr + len⟩

/-- slice.h:22-30 `SliceRefIter::next`. -/
def RefIter.next (cells : Nat) (it : RefIter) : Out (Option Nat × RefIter) :=
  if it.start ≥ it.stop then .ok (none, it)
  else do
    let op ← deref cells it.start
    return (some op, { it with start := it.start + 1 })

/-- slice.h:33-41 `SliceRefIter::prev`. -/
def RefIter.prev (cells : Nat) (it : RefIter) : Out (Option Nat × RefIter) :=
  if it.start ≥ it.stop then .ok (none, it)
  else do
    let stop := it.stop - 1
    let op ← deref cells stop
    return (some op, { it with stop })

/-- slice.h:44-46 `len` (and array.h:128-131). -/
def RefIter.len (it : RefIter) : Nat := it.stop - it.start

/-- slice.h:49-51 `is_empty` (and array.h:132-135). -/
def RefIter.isEmpty (it : RefIter) : Bool := it.start = it.stop

/-- slice.h:54-60 `last` (does not advance). -/
def RefIter.last (cells : Nat) (it : RefIter) : Out (Option Nat) :=
  if it.isEmpty then .ok none
  else do
    let op ← deref cells (it.stop - 1)
    return some op

/-- array.h:104 constructor of `ArrayIterRef<T, N>`. -/
def arrayIterRef (ptr N : Nat) : RefIter := ⟨ptr, ptr + N⟩

/-- array.h:106-115 `ArrayIterRef::next`. -/
def RefIter.arrNext (cells : Nat) (it : RefIter) : Out (Option Nat × RefIter) :=
  if it.isEmpty then .ok (none, it)
  else do
    let op ← deref cells it.start
    return (some op, { it with start := it.start + 1 })

/-- array.h:117-126 `ArrayIterRef::prev`. -/
def RefIter.arrPrev (cells : Nat) (it : RefIter) : Out (Option Nat × RefIter) :=
  if it.isEmpty then .ok (none, it)
  else do
    let stop := it.stop - 1
    let op ← deref cells stop
    return (some op, { it with stop })

/-- slice.h:117-118 the fields of `Slice` (`none`: `nullptr`). -/
structure Slice where
  ptr : Option Nat
  size : Nat
  deriving Repr, DecidableEq

/-- slice.h:88-91 `from_raw`. -/
def Slice.fromRaw (ptr size : Nat) : Slice := ⟨some ptr, size⟩

/-- slice.h:102-104 `iter` and 107-109 `iter_mut`; a null slice has size 0, its iterator is empty. -/
def Slice.iter (s : Slice) : RefIter := RefIter.mk' (s.ptr.getD 0) s.size

/-- slice.h:94-99 `into_iter`: hands the region over and empties the slice. -/
def Slice.intoIter (s : Slice) : RefIter × Slice := (s.iter, ⟨none, 0⟩)

end Verif.Model.Slice
