import Verif.Model.Mem
/-!
# Model of include/mstl/collection/vector.h

`Vec` is the object (vector.h:781-787); members are functions from the object to a heap program returning the new
object.  Element references and iterators are indices into the current block (a `ConstIter` argument is its `pos()`,
vector.h:985-987, computed from the pointers stored in the iterator).  `operator[]` is the release build
(`MSTL_DEBUG_ASSERT` off): an index outside the block, or of a raw slot, is undefined.
-/
namespace Verif.Model.Vector
open Verif Verif.Model.Mem

structure Vec where
  len : Nat
  cap : Nat
  ptr : Option Nat
  alloc : Nat
  deriving Repr, DecidableEq

/-- The default-constructed allocator `A{}`. -/
def dfltAlloc : Nat := 0

variable {α : Type} (ty : ElemTy α)

/-- Member initialisers vector.h:782-787 (also `len{0}, cap{0}, alloc(allocator)` of the constructors). -/
def Vec.blank (a : Nat) : Vec := ⟨0, 0, none, a⟩

/-- vector.h:791-795 `deallocate`. -/
def deallocate (v : Vec) : M α Vec := do
  free ty v.alloc v.ptr v.cap
  return { v with ptr := none, len := 0, cap := 0 }

/-- vector.h:798-803 `allocate`. -/
def allocate (v : Vec) (size : Nat) : M α Vec := do
  let b ← alloc ty v.alloc size
  return { v with len := 0, cap := size, ptr := some b }

/-- vector.h:887-892 `destroy_all`. -/
def destroyAll (v : Vec) : M α Vec := do
  forUp 0 v.len fun i => destroy v.ptr i
  return { v with len := 0 }

/-- vector.h:522-525 `clear`. -/
def clear (v : Vec) : M α Vec := do
  let v ← destroyAll v
  deallocate ty v

/-- vector.h:805-816 `allocate_reserve`. -/
def allocateReserve (v : Vec) (size : Nat) : M α Vec := do
  let nArr ← alloc ty v.alloc size
  forUp 0 v.len fun i => do
    let x ← take ty v.ptr i
    construct (some nArr) i x
  let oLen := v.len
  let v ← clear ty v
  return { v with len := oLen, cap := size, ptr := some nArr }

/-- vector.h:495-499 `reserve`. -/
def reserve (v : Vec) (newCap : Nat) : M α Vec :=
  if newCap > v.cap then allocateReserve ty v newCap else pure v

/-- vector.h:877-885 `extend_space`. -/
def extendSpace (v : Vec) : M α Vec :=
  let newCap := if v.cap = 0 then 2 else wrap (2 * v.cap)
  reserve ty v newCap

/-- vector.h:674-680 `push_back(const T&)`, 685-691 `push_back(T&&)`, 697-704 `emplace_back(args...)` (one argument):
the argument is only looked at after a possible reallocation. -/
def pushBack (v : Vec) (r : Ref α) : M α Vec := do
  let v ← (if v.len ≥ v.cap then extendSpace ty v else pure v)
  let x ← deref r
  construct v.ptr v.len x
  return { v with len := v.len + 1 }

/-- vector.h:757-760 `pop_back`. -/
def popBack (v : Vec) : M α Vec := do
  destroy v.ptr (wsub v.len 1)
  return { v with len := wsub v.len 1 }

/-- `while (d > 0) { pop_back(); d--; }` (vector.h:594-597, 714-717, 738-741). -/
def popLoop (v : Vec) : Nat → M α Vec
  | 0 => return v
  | d + 1 => do
    let v ← popBack v
    popLoop v d

/-- `while (d > 0) { push_back(r); d--; }` (vector.h:221-223, 723-726, 747-750). -/
def pushLoop (r : Ref α) (v : Vec) : Nat → M α Vec
  | 0 => return v
  | d + 1 => do
    let v ← pushBack ty v r
    pushLoop r v d

/-- Appending the elements of a list one by one (vector.h:231-233, 464-467). -/
def pushList (v : Vec) : List α → M α Vec
  | [] => return v
  | x :: xs => do
    let v ← pushBack ty v (.tmp x)
    pushList v xs

/-- Constructing the elements of a list from index `i` on (vector.h:660-662, 853-856). -/
def constructList (p : Option Nat) (i : Nat) : List α → M α Unit
  | [] => return ()
  | x :: xs => do
    construct p (wrap i) x
    constructList p (i + 1) xs

/-- vector.h:216-224 `assign(count, val)`. -/
def assignFill (v : Vec) (count : Nat) (r : Ref α) : M α Vec := do
  let v ← destroyAll v
  let v ← reserve ty v count
  pushLoop ty r v count

/-- vector.h:226-234 `assign(list)`. -/
def assignList (v : Vec) (xs : List α) : M α Vec := do
  let v ← destroyAll v
  let v ← reserve ty v xs.length
  pushList ty v xs

/-! ## Constructors -/

/-- vector.h:73-75 `Vector()`. -/
def newDefault : M α Vec := allocate ty (Vec.blank dfltAlloc) 2

/-- vector.h:77-79 `Vector(allocator)`. -/
def newAlloc (a : Nat) : M α Vec := return Vec.blank a

/-- vector.h:83-85 `Vector(count, val, allocator)`. -/
def newFill (count : Nat) (r : Ref α) (a : Nat) : M α Vec := assignFill ty (Vec.blank a) count r

/-- vector.h:81 `Vector(count, allocator)`. -/
def newCount (count a : Nat) : M α Vec := newFill ty count (.tmp ty.dflt) a

/-- vector.h:69-71, 847-857 `Vector(list, allocator)`. -/
def newList (xs : List α) (a : Nat) : M α Vec := do
  let v ← allocate ty (Vec.blank a) xs.length
  let v := { v with len := xs.length }
  constructList v.ptr 0 xs
  return v

/-- vector.h:103-111 `Vector(first, last, allocator)`. -/
def newRange (xs : List α) (a : Nat) : M α Vec := do
  let v ← allocate ty (Vec.blank a) xs.length
  constructList v.ptr 0 xs
  return { v with len := xs.length }

/-- vector.h:838-845 `copy_impl(const Vector&)`. -/
def copyImpl (v r : Vec) : M α Vec := do
  let v ← allocate ty v r.len
  let v := { v with len := r.len }
  forUp 0 v.len fun i => do
    let x ← load r.ptr i
    construct v.ptr i x
  return v

/-- vector.h:87-89 copy constructor. -/
def newCopy (r : Vec) : M α Vec := copyImpl ty (Vec.blank dfltAlloc) r

/-- vector.h:91-93 copy constructor with allocator. -/
def newCopyAlloc (r : Vec) (a : Nat) : M α Vec := copyImpl ty (Vec.blank a) r

/-- vector.h:827-836 `move_impl`: the new target and the new source.  (The moved-from allocator keeps its value.) -/
def moveImpl (_v r : Vec) : Vec × Vec :=
  (⟨r.len, r.cap, r.ptr, r.alloc⟩, ⟨0, 0, none, r.alloc⟩)

/-- vector.h:95-101 move constructors (the allocator argument is overwritten by `move_impl`). -/
def newMove (r : Vec) (a : Nat) : Vec × Vec := moveImpl (Vec.blank a) r

/-- vector.h:460-469 `from_iter` over an iterator that hands out `xs`. -/
def fromIter (xs : List α) : M α Vec := do
  let v ← newDefault ty
  pushList ty v xs

/-! ## Assignment -/

/-- vector.h:117-145 `operator=(const Vector&)` for two different objects. -/
def copyAssign (v other : Vec) : M α Vec :=
  if v.alloc = other.alloc then do
    let v ← reserve ty v other.cap
    let common := min v.len other.len
    stdCopy other.ptr v.ptr common
    (if v.len > other.len then
      forUp common (v.len - common) fun i => destroy v.ptr i
    else if v.len < other.len then
      forUp common (other.len - common) fun i => do
        let x ← load other.ptr i
        construct v.ptr i x
    else pure ())
    return { v with len := other.len }
  else do
    let v ← clear ty v
    copyImpl ty v other

/-- vector.h:147-155 `operator=(Vector&&)` for two different objects: the new target and the new source. -/
def moveAssign (v r : Vec) : M α (Vec × Vec) := do
  let v ← clear ty v
  return moveImpl v r

/-- `construct_at(i, *lo++)` for `i = k, k+1, ...` (vector.h:167-170); running off the list is undefined. -/
def constructFromList (p : Option Nat) (k : Nat) : Nat → List α → M α Unit
  | 0, _ => return ()
  | _ + 1, [] => Prog.ub
  | n + 1, x :: xs => do
    construct p k x
    constructFromList p (k + 1) n xs

/-- `std::copy(list.begin(), list.begin() + n, dst)`. -/
def copyFromList (p : Option Nat) (k : Nat) : Nat → List α → M α Unit
  | 0, _ => return ()
  | _ + 1, [] => Prog.ub
  | n + 1, x :: xs => do
    store p k x
    copyFromList p (k + 1) n xs

/-- vector.h:158-173, everything `operator=(initializer_list)` does before its end. -/
def listAssignBody (v : Vec) (list : List α) : M α Vec := do
  let v ← reserve ty v list.length
  let common := min v.len list.length
  copyFromList v.ptr 0 common list
  (if v.len > list.length then
    forUp common (v.len - common) fun i => destroy v.ptr i
  else if v.len < list.length then
    -- line 167: `lo` starts at the beginning of the list, not at `common`
    constructFromList v.ptr common (list.length - common) list
  else pure ())
  return { v with len := list.length }

/-- vector.h:157-174 `operator=(initializer_list)`: declared to return a reference, it flows off its end (undefined). -/
def listAssign (v : Vec) (list : List α) : M α Vec := do
  let _ ← listAssignBody ty v list
  Prog.ub

/-! ## Access -/

/-- vector.h:188-196 `operator[]`, 275-281 `at_unchecked`, read. -/
def index (v : Vec) (pos : Nat) : M α α := load v.ptr pos

/-- vector.h:188-191 `operator[]` used to assign. -/
def indexSet (v : Vec) (pos : Nat) (x : α) : M α Unit := store v.ptr pos x

/-- vector.h:248-262 `at`; the reference is read. -/
def getAt (v : Vec) (pos : Nat) : M α (Option α) :=
  if pos < v.len then do
    let x ← load v.ptr pos
    return some x
  else return none

/-- vector.h:295-309 `front`. -/
def front (v : Vec) : M α (Option α) :=
  if v.len ≠ 0 then do
    let x ← load v.ptr 0
    return some x
  else return none

/-- vector.h:335-349 `back`. -/
def back (v : Vec) : M α (Option α) :=
  if v.len ≠ 0 then do
    let x ← load v.ptr (v.len - 1)
    return some x
  else return none

/-! ## Insertion and erasure -/

/-- vector.h:869-873, the loop of `move_elements_back`; `hi` is unsigned. -/
def moveBackLoop (p : Option Nat) (count pos hi : Nat) : M α Unit :=
  if hi ≥ pos then do
    let x ← take ty p hi
    construct p (wrap (hi + count)) x
    destroy p hi
    moveBackLoop p count pos (wsub hi 1)
  else pure ()
partial_fixpoint

/-- vector.h:861-875 `move_elements_back`. -/
def moveElementsBack (v : Vec) (pos count : Nat) : M α Vec :=
  if v.len = 0 then return v
  else do
    let v ← (if wrap (v.len + count) > v.cap then reserve ty v (wrap (v.len + count)) else pure v)
    moveBackLoop ty v.ptr count pos (v.len - 1)
    return { v with len := wrap (v.len + count) }

/-- vector.h:543-551 `emplace(pos, x)`: the argument is passed by value. -/
def emplace (v : Vec) (pos : Nat) (x : α) : M α Vec := do
  let v ← (if v.len = v.cap then extendSpace ty v else pure v)
  let v ← moveElementsBack ty v pos 1
  construct v.ptr pos x
  return v

/-- vector.h:608-623 `insert(pos, val)`: copies the argument into the parameter of `emplace`; returns the position. -/
def insert (v : Vec) (pos : Nat) (r : Ref α) : M α (Vec × Nat) := do
  let x ← deref r
  let v ← emplace ty v pos x
  return (v, pos)

/-- vector.h:630-640 `insert(pos, count, val)`. -/
def insertFill (v : Vec) (pos count : Nat) (r : Ref α) : M α (Vec × Nat) := do
  let v ← moveElementsBack ty v pos count
  forUp 0 count fun i => do
    let x ← deref r
    construct v.ptr (wrap (pos + i)) x
  return (v, pos)

/-- vector.h:650-669 `insert(pos, first, last)` and `insert(pos, list)`. -/
def insertRange (v : Vec) (pos : Nat) (xs : List α) : M α (Vec × Nat) := do
  let v ← (if wrap (v.len + xs.length) > v.cap then allocateReserve ty v (wrap (v.len + xs.length)) else pure v)
  let v ← moveElementsBack ty v pos xs.length
  constructList v.ptr pos xs
  return (v, pos)

/-- vector.h:565-577 `erase(pos)`; the result is the position of the returned iterator, `none` for the null one. -/
def erase (v : Vec) (p : Nat) : M α (Vec × Option Nat) :=
  if p = wsub v.len 1 then do
    let v ← popBack v
    return (v, some v.len)
  else if p < wsub v.len 1 then do
    stdMove ty v.ptr (p + 1) v.len p
    let v ← popBack v
    return (v, some p)
  else return (v, none)

/-- vector.h:586-601 `erase(first, last)`. -/
def eraseRange (v : Vec) (lo hi : Nat) : M α (Vec × Option Nat) :=
  if hi > v.len then return (v, none)
  else do
    stdMove ty v.ptr hi v.len lo
    let v ← popLoop v (wsub hi lo)
    return (v, some lo)

/-- vector.h:711-728 `resize(count)` and 735-752 `resize(count, r)` (the former with a value-initialised element). -/
def resizeFill (v : Vec) (count : Nat) (r : Ref α) : M α Vec :=
  if count < v.len then popLoop v (v.len - count)
  else if count > v.len then do
    let v' ← (if count > v.cap then reserve ty v count else pure v)
    pushLoop ty r v' (count - v'.len)
  else pure v

def resize (v : Vec) (count : Nat) : M α Vec := resizeFill ty v count (.tmp ty.dflt)

/-! ## Iterators -/

/-- vector.h:988-991; `cur` and `stop` are offsets in the block. -/
structure Iter where
  ptr : Option Nat
  cur : Nat
  stop : Nat

/-- vector.h:414-435 `iter()`, `begin()`. -/
def iter (v : Vec) : Iter := ⟨v.ptr, 0, v.len⟩

/-- vector.h:911-917 `VectorIter::next`, the reference is read. -/
def Iter.next (it : Iter) : M α (Option α × Iter) :=
  if it.cur ≠ it.stop then do
    let x ← load it.ptr it.cur
    return (some x, { it with cur := it.cur + 1 })
  else return (none, it)

/-- Collecting everything an iterator hands out (`while (true) next()`), equally the range-based `for` over
`begin()..end()` (vector.h:919-930, 975-979). -/
def Iter.drain (it : Iter) (acc : List α) : M α (List α) := do
  let r ← it.next
  match r.1 with
  | none => return acc
  | some x => Iter.drain r.2 (acc ++ [x])
partial_fixpoint

/-- vector.h:994-1026 `VectorIntoIter<T, A, false>`. -/
structure IntoIter where
  vec : Vec
  pos : Nat
  len : Nat

/-- vector.h:391-393, 999 `into_iter()`: the iterator and what is left of the vector. -/
def intoIter (v : Vec) : IntoIter × Vec :=
  let r := newMove v dfltAlloc
  (⟨r.1, 0, r.1.len⟩, r.2)

/-- vector.h:1009-1020 `next`. -/
def IntoIter.next (it : IntoIter) : M α (Option α × IntoIter) :=
  if it.pos < it.len then do
    let x ← take ty it.vec.ptr it.pos
    let pos := it.pos + 1
    let vec ← (if pos = it.len then clear ty it.vec else pure it.vec)
    return (some x, { it with vec, pos })
  else return (none, it)

/-- vector.h:1042-1052 `VectorIntoIter<T, A, true>::next`; the iterator consists of the vector only. -/
def intoNextReversed (v : Vec) : M α (Option α × Vec) :=
  if v.len ≠ 0 then do
    let x ← take ty v.ptr (v.len - 1)
    let v ← popBack v
    return (some x, v)
  else return (none, v)

/-! ## Comparison and printing -/

/-- vector.h:1064-1070, the loop of `operator==`. -/
def equalLoop (eq : α → α → Bool) (l r : Vec) (i : Nat) : Nat → M α Bool
  | 0 => return true
  | n + 1 => do
    let a ← load l.ptr i
    let b ← load r.ptr i
    if eq a b then equalLoop eq l r (i + 1) n else return false

/-- vector.h:1060-1071 `operator==` (`!=` of elements is the negation of `==`). -/
def equal (eq : α → α → Bool) (l r : Vec) : M α Bool :=
  if l.len ≠ r.len then return false else equalLoop eq l r 0 l.len

/-- vector.h:1095-1102, the loop of `operator<=>`; `none`: unordered. -/
def compareLoop (cmp : α → α → Option Ordering) (l r : Vec) (i : Nat) : Nat → M α (Option Ordering)
  | 0 => return some (compare l.len r.len)
  | n + 1 => do
    let a ← load l.ptr i
    let b ← load r.ptr i
    let p := cmp a b
    if p = some .eq then compareLoop cmp l r (i + 1) n else return p

/-- vector.h:1087-1107 `operator<=>`. -/
def threeWay (cmp : α → α → Option Ordering) (l r : Vec) : M α (Option Ordering) :=
  compareLoop cmp l r 0 (min l.len r.len)

/-- vector.h:1076-1081, the loop of `operator<<`. -/
def printLoop (shw : α → String) (v : Vec) (i : Nat) : Nat → M α String
  | 0 => return ""
  | n + 1 => do
    let x ← load v.ptr i
    let rest ← printLoop shw v (i + 1) n
    return shw x ++ (if i ≠ wsub v.len 1 then ", " else "") ++ rest

/-- vector.h:1073-1084 `operator<<`. -/
def print (shw : α → String) (v : Vec) : M α String := do
  let s ← printLoop shw v 0 v.len
  return "Vec [" ++ s ++ "]"

end Verif.Model.Vector
