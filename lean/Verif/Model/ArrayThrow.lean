import Verif.Model.ArrayHist
/-!
# Arrays and owning iterators whose elements can throw (include/mstl/collection/array.h)

The copies and moves of elements that a call makes are numbered from 0 in the order in which the code makes them.  With a call comes `x`, the
number of the first one that throws, or `none` if none does; every way in which element copies and moves can throw, by value, by
chance or by a counter, gives some such number for each call.  A copy or move that throws changes neither side.  Default
construction and destruction of elements do not throw.  A call answers `none` if an exception leaves it; the client catches it.
A function declared `noexcept` that an exception would leave ends the program (`panic`, as everywhere in this model: the program
stops).
-/
namespace Verif.Model.Array
open Verif Verif.Model.Range

variable {α : Type}

/-- The copy or move with which a loop goes on throws. -/
def throwsNow (x : Option Nat) : Bool := x == some 0
/-- The number of the first one that throws, counted from the next one on. -/
def later (x : Option Nat) : Option Nat := x.map (· - 1)

/-- `for (pos = 0; pos < N; pos++) dst[pos] = src[pos];` (array.h:34-36, 192-194) when a copy can throw: whether one did, and the
destination then. -/
def copyLoopT (src : Cells α) (pos : Nat) : (n : Nat) → Option Nat → Cells α → Out (Bool × Cells α)
  | 0, _, dst => .ok (false, dst)
  | n + 1, x, dst => do
    let v ← readCell src pos
    if throwsNow x then .ok (true, dst)
    else do
      let dst ← writeCell dst pos v
      copyLoopT src (pos + 1) n (later x) dst

/-- `for (pos = 0; pos < N; pos++) dst[pos] = std::move(src[pos]);` in the `noexcept` functions (array.h:43-51, 201-206, 207-218). -/
def moveLoopT (E : Elem α) (pos : Nat) : (n : Nat) → Option Nat → Cells α → Cells α → Out (Cells α × Cells α)
  | 0, _, src, dst => .ok (src, dst)
  | n + 1, x, src, dst => do
    let _ ← readCell src pos
    if throwsNow x then .panic
    else do
      let (v, src) ← moveCell E src pos
      let dst ← writeCell dst pos v
      moveLoopT E (pos + 1) n (later x) src dst

/-- array.h:170-177 the loop of the initializer-list constructor: `T ele` is copied from the list, then moved into its cell.  `none`
if one of the two throws. -/
def initLoopT (N : Nat) (c : Cells α) (pos : Nat) (x : Option Nat) : List α → Out (Option (Cells α))
  | [] => .ok (some c)
  | ele :: rest =>
    if throwsNow x then .ok none
    else if throwsNow (later x) then .ok none
    else do
      let c ← writeCell c pos ele
      if pos + 1 ≥ N then return some c
      else initLoopT N c (pos + 1) (later (later x)) rest

/-- array.h:165-178 `Array(std::initializer_list<T>)`. -/
def ofInitListT (E : Elem α) (N : Nat) (x : Option Nat) (list : List α) : Out (Option (Cells α)) :=
  if list.length > N then .panic
  else initLoopT N (List.replicate N E.dflt) 0 x list

/-- array.h:179-183 `Array(const T (&raw)[N])`: `raw` is an array of `N` objects. -/
def ofRawT (N : Nat) (x : Option Nat) (raw : List α) : Out (Bool × Cells α) :=
  copyLoopT (raw.map some) 0 N x (List.replicate N none)

/-- array.h:21-25 the constructor's loop of `ArrayIter`: `none` if a move threw, and what is then in the array. -/
def moveAllT (E : Elem α) (i : Nat) : (n : Nat) → Option Nat → Cells α → Out (Option (List (Option α)) × Cells α)
  | 0, _, c => .ok (some [], c)
  | n + 1, x, c => do
    let _ ← readCell c i
    if throwsNow x then .ok (none, c)
    else do
      let (v, c) ← moveCell E c i
      let (vs, c) ← moveAllT E (i + 1) n (later x) c
      return (vs.map (some v :: ·), c)

/-- array.h:67-72 `ArrayIter::next`: `range.next()` has advanced before the lambda moves the element out (number 0), and
`Option::map` (option.h:82-89) moves the lambda's result into the `Option` it returns (number 1; a further move of `item` into the
lambda's result, which compilers may leave out, is counted with it).  `none` if one of them throws. -/
def ArrayIter.nextT (E : Elem α) (it : ArrayIter α) (x : Option Nat) : Out (Option (Option α) × ArrayIter α) := do
  let (p, r) ← it.range.next usizeTy
  match p with
  | none => return (some none, { it with range := r })
  | some p => do
    let _ ← readCell it.data p.toNat
    if throwsNow x then return (none, { it with range := r })
    else do
      let (v, data) ← moveCell E it.data p.toNat
      if throwsNow (later x) then return (none, ⟨data, r⟩)
      else return (some (some v), ⟨data, r⟩)

/-- The calls of `step` when elements can throw; calls that copy and move no element are as there. -/
def stepT (E : Elem α) (ne : α → α → Bool) (x : Option Nat) : Op α → M α (Option (Ret α))
  /- array.h:165-178 -/
  | .newList i N xs => do
    fresh i
    let c ← lift (ofInitListT E N x xs)
    match c with
    | none => return none
    | some c => do
      setArr i N c
      return some .unit
  /- array.h:179-183 -/
  | .newRaw i xs => do
    fresh i
    let (b, c) ← lift (ofRawT xs.length x xs)
    if b then return none
    else do
      setArr i xs.length c
      return some .unit
  /- array.h:185, the defaulted copy constructor -/
  | .newCopy i j => do
    fresh i
    let (N, src) ← getArr j
    let (b, c) ← lift (copyLoopT src 0 N x (List.replicate N none))
    if b then return none
    else do
      setArr i N c
      return some .unit
  /- array.h:201-206 `noexcept` -/
  | .newMove i j => do
    fresh i
    let (N, src) ← getArr j
    let (src, c) ← lift (moveLoopT E 0 N x src (List.replicate N E.dflt))
    setArr j N src
    setArr i N c
    return some .unit
  /- array.h:186-196 -/
  | .copyAssign i j => do
    let (N, dst) ← getArr i
    let (N', src) ← getArr j
    if N ≠ N' then Prog.ub
    else if i = j then return some .unit
    else do
      let (b, c) ← lift (copyLoopT src 0 N x dst)
      setArr i N c
      return (if b then none else some .unit)
  /- array.h:207-218 `noexcept` -/
  | .moveAssign i j => do
    let (N, dst) ← getArr i
    let (N', src) ← getArr j
    if N ≠ N' then Prog.ub
    else if i = j then return some .unit
    else do
      let (src, c) ← lift (moveLoopT E 0 N x src dst)
      setArr j N src
      setArr i N c
      return some .unit
  /- array.h:259-272 and the element's copy assignment, as in `a[p] = y` -/
  | .set i p y => do
    let (N, c) ← getArr i
    let p ← lift (index N p)
    if throwsNow x then return none
    else do
      let c ← lift (writeCell c p y)
      setArr i N c
      return some .unit
  /- array.h:223-226, 21-25: not `noexcept`; the half-built iterator is gone with the exception -/
  | .intoIter k i => do
    freshIt k
    let (N, c) ← getArr i
    let (data, c) ← lift (moveAllT E 0 N x c)
    setArr i N c
    match data with
    | none => return none
    | some data => do
      setIt k N ⟨data, ⟨0, N⟩⟩
      return some .unit
  /- array.h:67-72 -/
  | .next k => do
    let (N, t) ← getIt k
    let (r, t) ← lift (t.nextT E x)
    setIt k N t
    return r.map .opt
  /- array.h:27, the defaulted copy constructor: all `N` cells -/
  | .itCopy k l => do
    freshIt k
    let (N, t) ← getIt l
    let (b, c) ← lift (copyLoopT t.data 0 N x (List.replicate N none))
    if b then return none
    else do
      setIt k N ⟨c, t.range⟩
      return some .unit
  /- array.h:43-51 `noexcept` -/
  | .itMove k l => do
    freshIt k
    let (N, t) ← getIt l
    let (src, data) ← lift (moveLoopT E 0 N x t.data (List.replicate N E.dflt))
    setIt l N { t with data := src }
    setIt k N ⟨data, t.range⟩
    return some .unit
  /- array.h:28-38 -/
  | .itCopyAssign k l => do
    let (N, t) ← getIt k
    let (N', s) ← getIt l
    if N ≠ N' then Prog.ub
    else if k = l then return some .unit
    else do
      let (b, c) ← lift (copyLoopT s.data 0 N x t.data)
      setIt k N { t with data := c }
      return (if b then none else some .unit)
  | op => do
    let r ← step E ne op
    return some r

/-- A program that catches the exceptions; with each call comes the number of its first copy or move that throws. -/
def runT (E : Elem α) (ne : α → α → Bool) : List (Op α × Option Nat) → M α (List (Option (Ret α)))
  | [] => pure []
  | (op, x) :: ops => do
    let r ← stepT E ne x op
    let rs ← runT E ne ops
    return r :: rs

end Verif.Model.Array
