import Verif.Base.Out
/-!
# Model of include/mstl/ops/range.h for any index type

`Model/Range` is for integers.  Here the index type is anything a client can write down: floating point numbers, iterators, classes with
their own operators.  It is described by what its operators do; a step may be undefined (an iterator past its end).  `++x` and `x++` do the
same to `x`.  `contains` may be given a value of another type; both types' values are then values of `T` (their sum), and the operators
are those between them.
-/
namespace Verif.Model.RangeAny
open Verif

variable {T : Type}

/-- The operators range.h uses of an index type. -/
structure Index (T : Type) where
  eq : T → T → Bool
  lt : T → T → Bool
  le : T → T → Bool
  inc : T → Out T
  dec : T → Out T

/-- range.h:92-98, 151-152 `struct Range`. -/
structure Range (T : Type) where
  low : T
  high : T

/-- range.h:103-107 `contains`. -/
def Range.contains (I : Index T) (r : Range T) (item : T) : Bool := I.le r.low item && I.lt item r.high

/-- range.h:109-117 `next`. -/
def Range.next (I : Index T) (r : Range T) : Out (Option T × Range T) :=
  if I.eq r.low r.high then .ok (none, r)
  else do
    let value := r.low
    let low ← I.inc r.low
    return (some value, { r with low })

/-- range.h:119-127 `prev`: hands out `high` before decrementing it. -/
def Range.prev (I : Index T) (r : Range T) : Out (Option T × Range T) :=
  if I.eq r.low r.high then .ok (none, r)
  else do
    let value := r.high
    let high ← I.dec r.high
    return (some value, { r with high })

/-- range.h:129-133 `is_empty`. -/
def Range.isEmpty (I : Index T) (r : Range T) : Bool := !(I.lt r.low r.high)

/-- range.h:145-149 `==`. -/
def Range.equal (I : Index T) (r rhs : Range T) : Bool := I.eq r.low rhs.low && I.eq r.high rhs.high

/-- `for (auto x = r.next(); x.is_some(); x = r.next())` with range.h:109-117: everything `next()` hands out. -/
def Range.drain (I : Index T) (r : Range T) : Out (List T) := do
  let (x, r) ← r.next I
  match x with
  | none => return []
  | some x => do
    let xs ← Range.drain I r
    return x :: xs
partial_fixpoint

/-- `for (auto x : range)`: `begin()`/`end()` (range.h:135-143) with `RangeCursor`'s `!=`, `*`, `++` (range.h:23-26, 53-56, 70-74,
82-86).  It compiles for index types with a weak or strong order only: cursors of others (floating point numbers) have no `==`. -/
def forLoop (I : Index T) (pos stop : T) : Out (List T) :=
  if I.eq pos stop then .ok []
  else do
    let x := pos
    let pos ← I.inc pos
    let xs ← forLoop I pos stop
    return x :: xs
partial_fixpoint

end Verif.Model.RangeAny
