import Verif.Model.Range
/-!
# Model of `RangeCursor` (include/mstl/ops/range.h:13-90) and of `Range::operator==`

A cursor is its position.  `+` and `-` exist for index types at least as wide as `int` only: `Add<Idx>` and
`Sub<Idx>` (arithmetical.h:21-29) ask that `pos + pos` has type `Idx`, which integer promotion prevents for the
smaller ones.  For the types that have them, unsigned results wrap and signed ones overflow (undefined behaviour).
-/
namespace Verif.Model.Range
open Verif

/-- Bring a result into the type: unchanged inside the bounds, reduced modulo the number of values for an unsigned
type, undefined for a signed one (no counterpart in the repository). -/
def IntTy.fit (t : IntTy) (x : Int) : Out Int :=
  if t.minVal ≤ x ∧ x ≤ t.maxVal then .ok x
  else if t.wraps then .ok (t.minVal + (x - t.minVal) % (t.maxVal - t.minVal + 1))
  else .ub

/-- range.h:13-17, 53-56, 88-89: the position; `*cursor` reads it. -/
structure Cursor where
  pos : Int
  deriving Repr, DecidableEq

/-- range.h:23-26 `++cursor`: the cursor moves and is the value of the expression. -/
def Cursor.inc (t : IntTy) (c : Cursor) : Out (Cursor × Cursor) := do
  let pos ← t.inc c.pos
  return (⟨pos⟩, ⟨pos⟩)

/-- range.h:28-32 `cursor++`: the cursor moves, the value of the expression is a copy (18-21) made before. -/
def Cursor.postInc (t : IntTy) (c : Cursor) : Out (Cursor × Cursor) := do
  let old := c
  let pos ← t.inc c.pos
  return (old, ⟨pos⟩)

/-- range.h:38-41 `--cursor`. -/
def Cursor.dec (t : IntTy) (c : Cursor) : Out (Cursor × Cursor) := do
  let pos ← t.dec c.pos
  return (⟨pos⟩, ⟨pos⟩)

/-- range.h:43-47 `cursor--`. -/
def Cursor.postDec (t : IntTy) (c : Cursor) : Out (Cursor × Cursor) := do
  let old := c
  let pos ← t.dec c.pos
  return (old, ⟨pos⟩)

/-- range.h:34-36 `cursor + rhs`: a new cursor, the operand stays. -/
def Cursor.add (t : IntTy) (c rhs : Cursor) : Out (Cursor × Cursor) := do
  let pos ← t.fit (c.pos + rhs.pos)
  return (⟨pos⟩, c)

/-- range.h:49-51 `cursor - rhs`. -/
def Cursor.sub (t : IntTy) (c rhs : Cursor) : Out (Cursor × Cursor) := do
  let pos ← t.fit (c.pos - rhs.pos)
  return (⟨pos⟩, c)

/-- range.h:70-74, 82-86 `==` between cursors of one index type. -/
def Cursor.eq (c rhs : Cursor) : Bool := c.pos = rhs.pos

/-- range.h:76-80 `<=>` between cursors of one index type. -/
def Cursor.cmp (c rhs : Cursor) : Ordering := compare c.pos rhs.pos

/-- range.h:135-138 `begin()`. -/
def Range.begin (r : Range) : Cursor := ⟨r.low⟩

/-- range.h:140-143 `end()`. -/
def Range.end (r : Range) : Cursor := ⟨r.high⟩

/-- range.h:145-149 `==` between ranges of one index type. -/
def Range.eq (r rhs : Range) : Bool := r.low = rhs.low && r.high = rhs.high

/-- One call on a cursor variable: the four steps, and `c = c + rhs`, `c = c - rhs` through the implicit copy
assignment (no counterpart in the repository: any calling program). -/
inductive CMove where
  | inc | postInc | dec | postDec
  | add (rhs : Cursor)
  | sub (rhs : Cursor)

/-- The expression's value and the cursor afterwards. -/
def CMove.run (t : IntTy) (c : Cursor) : CMove → Out (Cursor × Cursor)
  | .inc => c.inc t
  | .postInc => c.postInc t
  | .dec => c.dec t
  | .postDec => c.postDec t
  | .add rhs => do
    let (v, _) ← c.add t rhs
    return (v, v)
  | .sub rhs => do
    let (v, _) ← c.sub t rhs
    return (v, v)

/-- A program of such calls; the values of the expressions and the cursor at the end. -/
def CMove.runAll (t : IntTy) (c : Cursor) : List CMove → Out (List Int × Cursor)
  | [] => .ok ([], c)
  | m :: ms => do
    let (v, c) ← m.run t c
    let (vs, c) ← CMove.runAll t c ms
    return (v.pos :: vs, c)

end Verif.Model.Range
