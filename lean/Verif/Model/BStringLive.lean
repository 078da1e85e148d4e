import Verif.Model.BString
/-!
# Programs over strings and `chars()` iterators that live across calls

A `Chars` (include/mstl/str/basic_string.h:22-38) is a `SliceRefIter<u8, const u8&>` (include/mstl/slice.h:15-71): two pointers into the bytes
of the string it was taken from (basic_string.h:344-357), either into the array `storage.local` inside the string object or into the
string's heap block.  `Model/BString.lean` iterates `chars()` to its end at once; here a program keeps such iterators in variables while it
goes on calling the strings.  The bytes are looked up when `next()` is called.

A string variable that is constructed again after its destruction is another object: `born` numbers the objects, so that a pointer into an
object that no longer exists is detected.  A pointer into `storage.local` may be used while `local` is the active member of the union.
-/
namespace Verif.Model.BStr
open Verif

/-- What a byte pointer points into: the inline array of object `t`, which is (or was) string variable `i`, or a heap pointer. -/
inductive Mem where
  | inside (i t : Nat)
  | heap (p : Option Nat)

/-- slice.h:68-69 `start` and `end`, as offsets into `mem`. -/
structure Cursor where
  mem : Mem
  start : Nat
  stop : Nat

/-- Strings (Model/BString.lean, basic_string.h:41-463), the number of the object each string variable holds, and iterator variables
(basic_string.h:36-37 `iter`).  The object numbers are not in the program; they tell a re-used variable from the object it held before. -/
structure LWorld where
  base : World := {}
  born : Nat → Nat := fun _ => 0
  clock : Nat := 0
  its : Nat → Option Cursor := fun _ => none

/-- Calls.  `k`, `l` are iterator variables, `i` a string variable. -/
inductive LOp where
  /-- any call on the strings -/
  | str (op : Op)
  /-- `auto k = s_i.chars()` -/
  | chars (k i : Nat)
  /-- `k` constructed from or assigned `l` -/
  | copy (k l : Nat)
  /-- `k.next()` -/
  | next (k : Nat)

/-- A call on the strings only (basic_string.h:41-463). -/
def inBase {β : Type} (f : Prog World β) : Prog LWorld β := fun w => f w.base >>= fun p => .ok (p.1, { w with base := p.2 })

/-- The string variable a call constructs, basic_string.h:55-157 (constructors). -/
def made : Op → Option Nat
  | .newAlloc i _ | .newLit i _ _ | .newCopy i _ | .newMove i _ => some i
  | _ => none

/-- The constructed variable is a new object: the start of a lifetime after a constructor, basic_string.h:55-157.  Not in the program. -/
def birth (o : Option Nat) : Prog LWorld Unit := fun w =>
  match o with
  | none => .ok ((), w)
  | some i => .ok ((), { w with born := upd w.born i w.clock, clock := w.clock + 1 })

/-- The object expression `k` in `k.next()`, basic_string.h:31.  Using a variable that holds no iterator is no program; it counts as undefined. -/
def theIt (k : Nat) : Prog LWorld Cursor := fun w =>
  match w.its k with
  | none => .ub
  | some c => .ok (c, w)

/-- Construction or assignment of the iterator variable `k`, basic_string.h:28 and the implicit copy operations. -/
def setIt (k : Nat) (c : Cursor) : Prog LWorld Unit := fun w => .ok ((), { w with its := upd w.its k (some c) })

/-- The object variable `i` holds.  Not in the program. -/
def theBorn (i : Nat) : Prog LWorld Nat := fun w => .ok (w.born i, w)

/-- One determinate byte, `*start` in slice.h:26. -/
def byte (s : Str) (l : Loc) (off : Nat) : M UInt8 := do
  let d ← readAt s l off 1
  match d with
  | [some b] => return b
  | _ => Prog.ub

/-- slice.h:26 `*start` for a byte pointer; the string a heap pointer is read through does not matter. -/
def peek (m : Mem) (off : Nat) : Prog LWorld UInt8 :=
  match m with
  | .inside i t => do
    let t' ← theBorn i
    let s ← inBase (var i)
    if t' = t then inBase (inHeap (byte s .inline off)) else Prog.ub
  | .heap p => inBase (inHeap (byte (Str.blank dfltAlloc) (.heap p) off))

/-- slice.h:21-30 `next()`. -/
def Cursor.next (c : Cursor) : Prog LWorld (Option UInt8 × Cursor) :=
  if c.start ≥ c.stop then return (none, c)
  else do
    let b ← peek c.mem c.start
    return (some b, { c with start := c.start + 1 })

/-- utf8.h:41, 50, 59 `iter.next().unwrap_unchecked()`. -/
def Cursor.must (c : Cursor) : Prog LWorld (UInt8 × Cursor) := do
  let r ← c.next
  match r.1 with
  | none => Prog.ub
  | some b => return (b, r.2)

/-- ascii.h:22-33 `next`. -/
def nextAscii (c : Cursor) : Prog LWorld (Option (List UInt8) × Cursor) := do
  let r ← c.next
  match r.1 with
  | none => return (none, r.2)
  | some b => return (some [b], r.2)

/-- utf8.h:26-62 `next`. -/
def nextUtf8 (c : Cursor) : Prog LWorld (Option (List UInt8) × Cursor) := do
  let r ← c.next
  match r.1 with
  | none => return (none, r.2)
  | some x =>
    if x.toNat < 0x7F then return (some [x], r.2)
    else do
      let y ← r.2.must
      if x.toNat < 0xE0 then return (some [x, y.1], y.2)
      else do
        let z ← y.2.must
        if x.toNat < 0xF0 then return (some [x, y.1, z.1], z.2)
        else do
          let v ← z.2.must
          return (some [x, y.1, z.1, v.1], v.2)

/-- basic_string.h:30-34 `Chars::next`. -/
def charsNext (cfg : Cfg) (c : Cursor) : Prog LWorld (Option (List UInt8) × Cursor) :=
  match cfg.enc with
  | .ascii => nextAscii c
  | .utf8 => nextUtf8 c

/-- basic_string.h:344-357 `chars()` with `make_slice()`, slice.h:19 and slice.h:101-104 `iter()`. -/
def makeChars (s : Str) (i t : Nat) : Cursor :=
  if s.len > localSize then ⟨.heap s.bytes, 0, s.len⟩ else ⟨.inside i t, 0, s.len⟩

/-- One call: a call on strings, `auto k = i.chars()` (basic_string.h:344-347), `auto k = l` (implicit copy of basic_string.h:22-38),
`k.next()` (basic_string.h:30-34). -/
def lstep (cfg : Cfg) : LOp → Prog LWorld Res
  | .str op => do
    let r ← inBase (step cfg op)
    birth (made op)
    return r
  | .chars k i => do
    let s ← inBase (var i)
    let t ← theBorn i
    setIt k (makeChars s i t)
    return .unit
  | .copy k l => do
    let c ← theIt l
    setIt k c
    return .unit
  | .next k => do
    let c ← theIt k
    let r ← charsNext cfg c
    setIt k r.2
    return .opt r.1

/-- The calls of a program one after the other (client code). -/
def lrun (cfg : Cfg) : List LOp → Prog LWorld (List Res)
  | [] => return []
  | op :: ops => do
    let r ← lstep cfg op
    let rs ← lrun cfg ops
    return r :: rs

end Verif.Model.BStr
