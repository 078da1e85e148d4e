import Verif.Base.Out
/-!
# Model of include/mstl/ops/range.h for integer index types

An integer type is described by its bounds and by what `x++` / `x--` do at the bound: unsigned types and signed
types smaller than `int` wrap, `int` and wider overflow (undefined behaviour).  Values are mathematical integers
inside the bounds; `==`, `<`, `<=` between values of the same type are the mathematical relations.  Index types
that are not integers (floats, iterators) and mixed-type `contains` are not modelled.
-/
namespace Verif.Model.Range
open Verif

/-- A C++ integer type (no counterpart in the repository). -/
structure IntTy where
  minVal : Int
  maxVal : Int
  wraps : Bool

def usizeTy : IntTy := ⟨0, 18446744073709551615, true⟩
def i32Ty : IntTy := ⟨-2147483648, 2147483647, false⟩
def i8Ty : IntTy := ⟨-128, 127, true⟩

/-- `x++` of the C++ type. -/
def IntTy.inc (t : IntTy) (x : Int) : Out Int :=
  if x < t.maxVal then .ok (x + 1) else if t.wraps then .ok t.minVal else .ub

/-- `x--` of the C++ type. -/
def IntTy.dec (t : IntTy) (x : Int) : Out Int :=
  if t.minVal < x then .ok (x - 1) else if t.wraps then .ok t.maxVal else .ub

/-- range.h:92-98, 151-152 `struct Range`. -/
structure Range where
  low : Int
  high : Int
  deriving Repr, DecidableEq

/-- range.h:103-107 `contains`. -/
def Range.contains (r : Range) (item : Int) : Bool := r.low ≤ item && item < r.high

/-- range.h:109-117 `next`. -/
def Range.next (t : IntTy) (r : Range) : Out (Option Int × Range) :=
  if r.low = r.high then .ok (none, r)
  else do
    let value := r.low
    let low ← t.inc r.low
    return (some value, { r with low })

/-- range.h:119-127 `prev`: hands out `high` before decrementing it. -/
def Range.prev (t : IntTy) (r : Range) : Out (Option Int × Range) :=
  if r.low = r.high then .ok (none, r)
  else do
    let value := r.high
    let high ← t.dec r.high
    return (some value, { r with high })

/-- range.h:130-133 `is_empty`. -/
def Range.isEmpty (r : Range) : Bool := !(r.low < r.high)

/-- `for (auto x = r.next(); x.is_some(); x = r.next())`: everything `next()` hands out. -/
def Range.drain (t : IntTy) (r : Range) : Out (List Int) := do
  let (x, r) ← r.next t
  match x with
  | none => return []
  | some x => do
    let xs ← Range.drain t r
    return x :: xs
partial_fixpoint

/-- Calls of `next()` (`true`, range.h:109-117) and `prev()` (`false`, range.h:119-127) in any order on one range, with their answers. -/
def Range.interleave (t : IntTy) : List Bool → Range → Out (List (Bool × Option Int) × Range)
  | [], r => .ok ([], r)
  | c :: cs, r => do
    let (x, r) ← if c then r.next t else r.prev t
    let (xs, r) ← Range.interleave t cs r
    return ((c, x) :: xs, r)

/-- `for (auto x : range)`: `begin()`/`end()` (range.h:135-143) with `RangeCursor`'s `!=`, `++`, `*`
(range.h:23-26, 53-56, 82-86). -/
def forLoop (t : IntTy) (pos stop : Int) : Out (List Int) :=
  if pos = stop then .ok []
  else do
    let pos' ← t.inc pos
    let xs ← forLoop t pos' stop
    return pos :: xs
partial_fixpoint

end Verif.Model.Range
