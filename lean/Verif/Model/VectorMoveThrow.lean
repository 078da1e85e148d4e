import Verif.Model.VectorThrow
/-!
# Programs over vectors whose element moves may throw

The calls of `Model/VectorHist.lean` once more, for an element type whose moves may throw: moving (move construction and move
assignment) a value `x` with `bad x = true` throws and leaves the source as it is; copies, default construction and destruction do not
throw.  A client that catches the exception goes on with the variables as the call left them.  `none` is the exception, `some r` the
result `r`.

An exception that reaches a `noexcept` function ends the program (`std::terminate`); the outcome is `panic`, as for a panic of the
library.

Which calls move elements: all that give the vector new memory (`allocate_reserve` is `noexcept`); insertion, which moves elements
back; erasure, which moves elements forward; the draining iterators.  `push_back(T&&)`, `insert(pos, T&&)`, `emplace(pos, x)` and
`from_iter` move their argument.  An own value of the client (`Arg.val`) is handed to `push_back` and `insert` as `T&&`, an element of
a vector (`Arg.elem`) as `const T&`.

Constructors and `assign` move nothing: the vector has no elements when it gets new memory.  `swap`, move construction and move
assignment of vectors hand over the memory and move no elements.
-/
namespace Verif.Model.Vector
open Verif Verif.Model.Mem

variable {α : Type} (ty : ElemTy α) (bad : α → Bool)

/-- `std::move(p[i])` as the source of a move construction or assignment; `none` if it throws. -/
def takeM (p : Option Nat) (i : Nat) : M α (Option α) := do
  let x ← load p i
  if bad x then return none
  else do
    let x ← take ty p i
    return some x

/-- vector.h:808, moving one element to new memory inside a `noexcept` function. -/
def relocM (p q : Option Nat) (i : Nat) : M α Unit := do
  let o ← takeM ty bad p i
  match o with
  | none => Prog.panic
  | some x => construct q i x

/-- vector.h:805-816 `allocate_reserve`, `noexcept`. -/
def allocateReserveM (v : Vec) (size : Nat) : M α Vec := do
  let nArr ← alloc ty v.alloc size
  forUp 0 v.len fun i => relocM ty bad v.ptr (some nArr) i
  let oLen := v.len
  let v ← clear ty v
  return { v with len := oLen, cap := size, ptr := some nArr }

/-- vector.h:495-499 `reserve`. -/
def reserveM (v : Vec) (newCap : Nat) : M α Vec :=
  if newCap > v.cap then allocateReserveM ty bad v newCap else pure v

/-- vector.h:877-885 `extend_space`. -/
def extendSpaceM (v : Vec) : M α Vec :=
  let newCap := if v.cap = 0 then 2 else wrap (2 * v.cap)
  reserveM ty bad v newCap

/-- vector.h:674-680 `push_back(const T&)` (`own = false`) and 685-691 `push_back(T&&)` (`own = true`): `len++` is evaluated before
the element is made. -/
def pushBackM (own : Bool) (v : Vec) (r : Ref α) : M α (Bool × Vec) := do
  let v ← (if v.len ≥ v.cap then extendSpaceM ty bad v else pure v)
  let x ← deref r
  let v' := { v with len := v.len + 1 }
  if own && bad x then return (true, v')
  else do
    construct v.ptr v.len x
    return (false, v')

/-- vector.h:869-873, the loop of `move_elements_back`, up to the first move that throws. -/
def moveBackLoopM (p : Option Nat) (count pos hi : Nat) : M α Bool :=
  if hi ≥ pos then do
    let o ← takeM ty bad p hi
    match o with
    | none => return true
    | some x => do
      construct p (wrap (hi + count)) x
      destroy p hi
      moveBackLoopM p count pos (wsub hi 1)
  else return false
partial_fixpoint

/-- vector.h:861-875 `move_elements_back`: `len` changes last. -/
def moveElementsBackM (v : Vec) (pos count : Nat) : M α (Bool × Vec) :=
  if v.len = 0 then return (false, v)
  else do
    let v ← (if wrap (v.len + count) > v.cap then reserveM ty bad v (wrap (v.len + count)) else pure v)
    let t ← moveBackLoopM ty bad v.ptr count pos (v.len - 1)
    if t then return (true, v) else return (false, { v with len := wrap (v.len + count) })

/-- vector.h:543-551 `emplace(pos, x)`: from the by-value parameter the element is moved to its place. -/
def emplaceM (v : Vec) (pos : Nat) (x : α) : M α (Bool × Vec) := do
  let v ← (if v.len = v.cap then extendSpaceM ty bad v else pure v)
  let p ← moveElementsBackM ty bad v pos 1
  if p.1 then return p
  else if bad x then return (true, p.2)
  else do
    construct p.2.ptr pos x
    return (false, p.2)

/-- vector.h:608-612 `insert(pos, const T&)` (`own = false`) and 619-623 `insert(pos, T&&)` (`own = true`), which moves the argument
into the parameter of `emplace` first. -/
def insertM (own : Bool) (v : Vec) (pos : Nat) (r : Ref α) : M α (Bool × Vec) := do
  let x ← deref r
  if own && bad x then return (true, v) else emplaceM ty bad v pos x

/-- vector.h:630-640 `insert(pos, count, val)`. -/
def insertFillM (v : Vec) (pos count : Nat) (r : Ref α) : M α (Bool × Vec) := do
  let p ← moveElementsBackM ty bad v pos count
  if p.1 then return p
  else do
    forUp 0 count fun i => do
      let x ← deref r
      construct p.2.ptr (wrap (pos + i)) x
    return (false, p.2)

/-- vector.h:650-669 `insert(pos, first, last)` and `insert(pos, list)`. -/
def insertRangeM (v : Vec) (pos : Nat) (xs : List α) : M α (Bool × Vec) := do
  let v ← (if wrap (v.len + xs.length) > v.cap then allocateReserveM ty bad v (wrap (v.len + xs.length)) else pure v)
  let p ← moveElementsBackM ty bad v pos xs.length
  if p.1 then return p
  else do
    constructList p.2.ptr pos xs
    return (false, p.2)

/-- `std::move(p + first, p + last, p + dest)` from element `k` on, up to the first move assignment that throws. -/
def stdMoveLoopM (p : Option Nat) (first dest k : Nat) : Nat → M α Bool
  | 0 => return false
  | n + 1 => do
    let o ← takeM ty bad p (first + k)
    match o with
    | none => return true
    | some x => do
      store p (dest + k) x
      stdMoveLoopM p first dest (k + 1) n

def stdMoveM (p : Option Nat) (first last dest : Nat) : M α Bool :=
  if last < first ∨ (first ≤ dest ∧ dest < last) then Prog.ub
  else stdMoveLoopM ty bad p first dest 0 (last - first)

/-- vector.h:565-577 `erase(pos)`. -/
def eraseM (v : Vec) (p : Nat) : M α (Bool × Vec × Option Nat) :=
  if p = wsub v.len 1 then do
    let v ← popBack v
    return (false, v, some v.len)
  else if p < wsub v.len 1 then do
    let t ← stdMoveM ty bad v.ptr (p + 1) v.len p
    if t then return (true, v, none)
    else do
      let v ← popBack v
      return (false, v, some p)
  else return (false, v, none)

/-- vector.h:586-601 `erase(first, last)`. -/
def eraseRangeM (v : Vec) (lo hi : Nat) : M α (Bool × Vec × Option Nat) :=
  if hi > v.len then return (false, v, none)
  else do
    let t ← stdMoveM ty bad v.ptr hi v.len lo
    if t then return (true, v, none)
    else do
      let v ← popLoop v (wsub hi lo)
      return (false, v, some lo)

/-- vector.h:711-728 `resize(count)` and 735-752 `resize(count, r)`; the elements are appended by copies into memory that is there. -/
def resizeFillM (v : Vec) (count : Nat) (r : Ref α) : M α Vec :=
  if count < v.len then popLoop v (v.len - count)
  else if count > v.len then do
    let v' ← (if count > v.cap then reserveM ty bad v count else pure v)
    pushLoop ty r v' (count - v'.len)
  else pure v

/-- vector.h:117-145 `operator=(const Vector&)` for two different objects. -/
def copyAssignM (v other : Vec) : M α Vec :=
  if v.alloc = other.alloc then do
    let v ← reserveM ty bad v other.cap
    let common := min v.len other.len
    stdCopy other.ptr v.ptr common
    (if v.len > other.len then
      forUp common (v.len - common) fun i => destroy v.ptr i
    else if v.len < other.len then
      forUp common (other.len - common) fun i => do
        let x ← load other.ptr i
        construct v.ptr i x
    else pure ())
    return { v with len := other.len }
  else do
    let v ← clear ty v
    copyImpl ty v other

/-- vector.h:460-469 `from_iter` over an iterator that hands out `xs` by value: handing out a value that cannot be moved throws, in the
iterator or on the way into `push_back`'s argument; the vector made so far is destroyed (vector.h:113-115). -/
def fromIterLoopM (v : Vec) : List α → M α (Option Vec)
  | [] => return some v
  | x :: xs =>
    if bad x then do
      let _ ← clear ty v
      return none
    else do
      let p ← pushBackM ty bad true v (.tmp x)
      fromIterLoopM p.2 xs

def fromIterM (xs : List α) : M α (Option Vec) := do
  let v ← newDefault ty
  fromIterLoopM ty bad v xs

/-- vector.h:1009-1020 `next`; `none` if it throws, then the iterator is as before. -/
def IntoIter.nextM (it : IntoIter) : M α (Option (Option α × IntoIter)) :=
  if it.pos < it.len then do
    let o ← takeM ty bad it.vec.ptr it.pos
    match o with
    | none => return none
    | some x => do
      let pos := it.pos + 1
      let vec ← (if pos = it.len then clear ty it.vec else pure it.vec)
      return some (some x, { it with vec, pos })
  else return some (none, it)

/-- vector.h:1042-1052 `VectorIntoIter<T, A, true>::next`. -/
def intoNextReversedM (v : Vec) : M α (Option (Option α × Vec)) :=
  if v.len ≠ 0 then do
    let o ← takeM ty bad v.ptr (v.len - 1)
    match o with
    | none => return none
    | some x => do
      let v ← popBack v
      return some (some x, v)
  else return some (none, v)

/-- `n` calls of `next`, then, or when one of them throws, the iterator is destroyed (vector.h:113-115 for the vector inside). -/
def drainNM (it : IntoIter) : Nat → M α (Option (List (Option α)))
  | 0 => do
    let _ ← clear ty it.vec
    return some []
  | n + 1 => do
    let o ← it.nextM ty bad
    match o with
    | none => do
      let _ ← clear ty it.vec
      return none
    | some r => do
      let rest ← drainNM r.2 n
      return rest.map (r.1 :: ·)

def drainRevNM (v : Vec) : Nat → M α (Option (List (Option α)))
  | 0 => do
    let _ ← clear ty v
    return some []
  | n + 1 => do
    let o ← intoNextReversedM ty bad v
    match o with
    | none => do
      let _ ← clear ty v
      return none
    | some r => do
      let rest ← drainRevNM r.2 n
      return rest.map (r.1 :: ·)

/-- Is the argument handed over as `T&&`? -/
def Arg.own : Arg α → Bool
  | .val _ => true
  | .elem _ _ => false

/-- A member call that returns an iterator: if it throws, the object stays as it is at that moment. -/
def changeP (i : Nat) (f : Vec → M α (Bool × Vec × Option Nat)) : Prog (World α) (Option (Res α)) := do
  let v ← var i
  let p ← inHeap (f v)
  setVar i (some p.2.1)
  return (if p.1 then none else some (.pos p.2.2))

def stepM : Op α → Prog (World α) (Option (Res α))
  | .fromIter i xs => createT i (fromIterM ty bad xs)
  -- vector.h:118-120: `if (&other == this) return *this`
  | .copyAssign i j => if i = j then do
      let r ← step ty (.copyAssign i j)
      return some r
    else do
      let w ← var j
      let r ← change i fun v => copyAssignM ty bad v w
      return some r
  | .reserve i n => do
    let r ← change i fun v => reserveM ty bad v n
    return some r
  | .push i r => do
    let ref ← argRef r
    changeT i (fun v => pushBackM ty bad r.own v ref) .unit
  | .insert i p r => do
    let ref ← argRef r
    changeT i (fun v => insertM ty bad r.own v p ref) (.pos (some p))
  | .emplace i p x => changeT i (fun v => emplaceM ty bad v p x) .unit
  | .insertFill i p n r => do
    let r ← argRef r
    changeT i (fun v => insertFillM ty bad v p n r) (.pos (some p))
  | .insertRange i p xs => changeT i (fun v => insertRangeM ty bad v p xs) (.pos (some p))
  | .erase i p => changeP i fun v => eraseM ty bad v p
  | .eraseRange i lo hi => changeP i fun v => eraseRangeM ty bad v lo hi
  | .resize i n => do
    let r ← change i fun v => resizeFillM ty bad v n (.tmp ty.dflt)
    return some r
  | .resizeFill i n r => do
    let r ← argRef r
    let r ← change i fun v => resizeFillM ty bad v n r
    return some r
  | .drain i n => do
    let v ← var i
    let p := intoIter v
    setVar i (some p.2)
    let rs ← inHeap (drainNM ty bad p.1 n)
    return rs.map .opts
  | .drainRev i n => do
    let v ← var i
    let p := newMove v dfltAlloc
    setVar i (some p.2)
    let rs ← inHeap (drainRevNM ty bad p.1 n)
    return rs.map .opts
  | op => do
    let r ← step ty op
    return some r

def runM : List (Op α) → Prog (World α) (List (Option (Res α)))
  | [] => return []
  | op :: ops => do
    let r ← stepM ty bad op
    let rs ← runM ops
    return r :: rs

end Verif.Model.Vector
