import Verif.Model.Range
import Verif.Model.Slice
/-!
# Model of include/mstl/collection/array.h

`values` is a list of `N` cells; a cell is `none` while its value is indeterminate (a default-initialised object of a
trivial type); reading such a cell is `ub`.  `dflt` is what default-initialisation (`T values[N];`) leaves in a cell:
`none` for trivial types, `some d` for class types.  `zero` is the value-initialised object.  `mv v` is what a move
leaves behind.  Lifetimes of the cells are those of the array and need no model.
-/
namespace Verif.Model.Array
open Verif Verif.Model.Range

/-- Description of an element type. -/
structure Elem (α : Type) where
  mv : α → α
  dflt : Option α
  zero : α

variable {α : Type}

/-- array.h:297 `T values[N]` (or array.h:96 `Item data[N]`). -/
abbrev Cells (α : Type) := List (Option α)

/-- Reading cell `pos`. -/
def readCell (c : Cells α) (pos : Nat) : Out α :=
  match c[pos]? with
  | some (some v) => .ok v
  | _ => .ub

/-- Writing cell `pos` (assignment). -/
def writeCell (c : Cells α) (pos : Nat) (v : α) : Out (Cells α) :=
  if pos < c.length then .ok (c.set pos (some v)) else .ub

/-- Moving out of cell `pos`. -/
def moveCell (E : Elem α) (c : Cells α) (pos : Nat) : Out (α × Cells α) := do
  let v ← readCell c pos
  return (v, c.set pos (some (E.mv v)))

/-- array.h:170-177 the loop of the initializer-list constructor. -/
def initLoop (N : Nat) (c : Cells α) (pos : Nat) : List α → Out (Cells α)
  | [] => .ok c
  | ele :: rest => do
    let c ← writeCell c pos ele
    if pos + 1 ≥ N then return c
    else initLoop N c (pos + 1) rest

/-- array.h:165-178 `Array(std::initializer_list<T>)`. -/
def ofInitList (E : Elem α) (N : Nat) (list : List α) : Out (Cells α) :=
  if list.length > N then .panic
  else initLoop N (List.replicate N E.dflt) 0 list

/-- array.h:179-183 `Array(const T (&raw)[N])`. -/
def ofRaw (N : Nat) (raw : List α) : Cells α := (raw.take N).map some

/-- array.h:259-272 `operator[]` (both overloads): the address of the element. -/
def index (N : Nat) (pos : Nat) : Out Nat := if pos ≥ N then .panic else .ok pos

/-- array.h:232-240 `operator==`, with element inequality `ne`. -/
def eqLoop (ne : α → α → Bool) : Cells α → Cells α → Out Bool
  | some a :: as, some b :: bs => if ne a b then .ok false else eqLoop ne as bs
  | [], [] => .ok true
  | _, _ => .ub

/-- array.h:186-196 element-wise assignment loops (copy). -/
def copyAssign (src : Cells α) (dst : Cells α) : Cells α := src ++ dst.drop src.length

/-- array.h:17-25, 95-98 `ArrayIter`: owns the moved elements and a `Range<usize>`. -/
structure ArrayIter (α : Type) where
  data : Cells α
  range : Range

/-- array.h:21-25 the constructor's loop: moves the elements of the array out, front to back. -/
def moveAll (E : Elem α) (i : Nat) : (n : Nat) → Cells α → Out (List (Option α) × Cells α)
  | 0, c => .ok ([], c)
  | n + 1, c => do
    let (v, c) ← moveCell E c i
    let (vs, c) ← moveAll E (i + 1) n c
    return (some v :: vs, c)

/-- array.h:223-226 `into_iter`, with 21-25: the iterator and what is left in the array. -/
def intoIter (E : Elem α) (N : Nat) (c : Cells α) : Out (ArrayIter α × Cells α) := do
  let (data, c) ← moveAll E 0 N c
  return (⟨data, ⟨0, N⟩⟩, c)

/-- array.h:67-72 `ArrayIter::next`: `range.next().map([&](usize pos){ move data[pos] })`. -/
def ArrayIter.next (E : Elem α) (it : ArrayIter α) : Out (Option α × ArrayIter α) := do
  let (p, r) ← it.range.next usizeTy
  match p with
  | none => return (none, { it with range := r })
  | some p => do
    let (v, data) ← moveCell E it.data p.toNat
    return (some v, ⟨data, r⟩)

/-- array.h:75-80 `ArrayIter::prev`. -/
def ArrayIter.prev (E : Elem α) (it : ArrayIter α) : Out (Option α × ArrayIter α) := do
  let (p, r) ← it.range.prev usizeTy
  match p with
  | none => return (none, { it with range := r })
  | some p => do
    let (v, data) ← moveCell E it.data p.toNat
    return (some v, ⟨data, r⟩)

/-- array.h:83-85 `len`. -/
def ArrayIter.len (N : Nat) (_ : ArrayIter α) : Nat := N

/-- Repeated `next()` until none. -/
def ArrayIter.drain (E : Elem α) (it : ArrayIter α) : Out (List α) := do
  let (x, it) ← it.next E
  match x with
  | none => return []
  | some x => do
    let xs ← ArrayIter.drain E it
    return x :: xs
partial_fixpoint

/-- array.h:249-255 the loop of `from_iter`, for a source iterator with state `σ`.  `next` is the value already
fetched; the result is the array and the number of source elements consumed. -/
def fromIterLoop {σ : Type} (srcNext : σ → Out (Option α × σ)) (N : Nat) (c : Cells α) (pos : Nat)
    (nxt : Option α) (s : σ) : Out (Cells α × σ) :=
  match nxt with
  | some v =>
    if pos < N then do
      let p ← index N pos
      let c ← writeCell c p v
      let (nxt, s) ← srcNext s
      fromIterLoop srcNext N c (pos + 1) nxt s
    else .ok (c, s)
  | none => .ok (c, s)
termination_by N - pos

/-- array.h:243-256 `from_iter`: `Array<...> arr{}` value-initialises the cells. -/
def fromIter {σ : Type} (E : Elem α) (srcNext : σ → Out (Option α × σ)) (N : Nat) (s : σ) : Out (Cells α × σ) := do
  let (nxt, s) ← srcNext s
  fromIterLoop srcNext N (List.replicate N (some E.zero)) 0 nxt s

end Verif.Model.Array
