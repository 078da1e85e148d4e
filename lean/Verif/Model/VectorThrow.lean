import Verif.Model.VectorFault
/-!
# Programs over vectors whose element copies may throw

The calls of `Model/VectorHist.lean` once more, for an element type whose copies may throw: copying (copy construction and copy
assignment) a value `x` with `bad x = true` throws; moving, default construction and destruction do not throw.  A client that
catches the exception goes on with the variables as the call left them.  `none` is the exception, `some r` the result `r`.

Which calls copy: `push_back(const T&)`, `insert(pos, const T&)` and `v[k] = x` copy their argument (the client hands over a
variable); the constructors, `assign`, `resize(count, r)` and the range forms copy one element per element made.  `emplace(pos, x)`,
`resize(count)`, `from_iter` and the draining iterators move or default-construct and do not throw here.
`v = {…}` always ends in undefined behaviour (C10) and is left out.
-/
namespace Verif.Model.Vector
open Verif Verif.Model.Mem

variable {α : Type} (ty : ElemTy α) (bad : α → Bool)

/-- `while (d > 0) { push_back(r); d--; }` (vector.h:221-223, 747-750) up to the first copy that throws. -/
def pushLoopT (r : Ref α) (v : Vec) : Nat → M α (Bool × Vec)
  | 0 => return (false, v)
  | d + 1 => do
    let p ← pushBackT ty bad v r
    if p.1 then return p else pushLoopT r p.2 d

/-- vector.h:216-224 `assign(count, val)`. -/
def assignFillT (v : Vec) (count : Nat) (r : Ref α) : M α (Bool × Vec) := do
  let v ← destroyAll v
  let v ← reserve ty v count
  pushLoopT ty bad r v count

/-- vector.h:83-85 `Vector(count, val, allocator)`, also 81 `Vector(count, allocator)`, which delegates to it.  When a copy throws
there is no object and no destructor call. -/
def newFillT (count : Nat) (r : Ref α) (a : Nat) : M α (Option Vec) := do
  let p ← assignFillT ty bad (Vec.blank a) count r
  return (if p.1 then none else some p.2)

/-- vector.h:103-111 `Vector(first, last, allocator)`. -/
def newRangeT (xs : List α) (a : Nat) : M α (Option Vec) := do
  let v ← allocate ty (Vec.blank a) xs.length
  let t ← constructListT bad v.ptr 0 xs
  return (if t then none else some { v with len := xs.length })

/-- vector.h:87-93 the copy constructors. -/
def newCopyT (r : Vec) (a : Nat) : M α (Option Vec) := do
  let p ← copyImplT ty bad (Vec.blank a) r
  return (if p.1 then none else some p.2)

/-- vector.h:635-637, the loop of `insert(pos, count, val)`, up to the first copy that throws. -/
def fillT (p : Option Nat) (pos : Nat) (r : Ref α) (i : Nat) : Nat → M α Bool
  | 0 => return false
  | n + 1 => do
    let x ← deref r
    if bad x then return true
    else do
      construct p (wrap (pos + i)) x
      fillT p pos r (i + 1) n

/-- vector.h:630-640 `insert(pos, count, val)`: the elements are moved back and `len` is raised before the first copy. -/
def insertFillT (v : Vec) (pos count : Nat) (r : Ref α) : M α (Bool × Vec) := do
  let v ← moveElementsBack ty v pos count
  let t ← fillT bad v.ptr pos r 0 count
  return (t, v)

/-- vector.h:735-752 `resize(count, r)`. -/
def resizeFillT (v : Vec) (count : Nat) (r : Ref α) : M α (Bool × Vec) :=
  if count < v.len then do
    let v ← popLoop v (v.len - count)
    return (false, v)
  else if count > v.len then do
    let v' ← (if count > v.cap then reserve ty v count else pure v)
    pushLoopT ty bad r v' (count - v'.len)
  else return (false, v)

/-- A constructor call: if it throws, the variable does not come into being. -/
def createT (i : Nat) (f : M α (Option Vec)) : Prog (World α) (Option (Res α)) := do
  let o ← inHeap f
  match o with
  | none => return none
  | some v => do
    setVar i (some v)
    return some .unit

/-- A member call: if it throws, the object stays as it is at that moment. -/
def changeT (i : Nat) (f : Vec → M α (Bool × Vec)) (r : Res α) : Prog (World α) (Option (Res α)) := do
  let v ← var i
  let p ← inHeap (f v)
  setVar i (some p.2)
  return (if p.1 then none else some r)

def stepT : Op α → Prog (World α) (Option (Res α))
  | .newFill i n r a => do
    let r ← argRef r
    createT i (newFillT ty bad n r a)
  | .newCount i n a => createT i (newFillT ty bad n (.tmp ty.dflt) a)
  | .newList i xs a => createT i (newListT ty bad xs a)
  | .newRange i xs a => createT i (newRangeT ty bad xs a)
  | .newCopy i j => do
    let v ← var j
    createT i (newCopyT ty bad v dfltAlloc)
  | .newCopyAlloc i j a => do
    let v ← var j
    createT i (newCopyT ty bad v a)
  -- vector.h:118-120: `if (&other == this) return *this`
  | .copyAssign i j => if i = j then do
      let r ← step ty (.copyAssign i j)
      return some r
    else do
      let w ← var j
      changeT i (fun v => copyAssignT ty bad v w) .unit
  | .push i r => do
    let r ← argRef r
    changeT i (fun v => pushBackT ty bad v r) .unit
  | .assignFill i n r => do
    let r ← argRef r
    changeT i (fun v => assignFillT ty bad v n r) .unit
  | .assignList i xs => changeT i (fun v => assignListT ty bad v xs) .unit
  -- the element's own copy assignment
  | .set i k x => if bad x then do
      let _ ← var i
      return none
    else do
      let r ← step ty (.set i k x)
      return some r
  | .insert i p r => do
    let r ← argRef r
    changeT i (fun v => insertT ty bad v p r) (.pos (some p))
  | .insertFill i p n r => do
    let r ← argRef r
    changeT i (fun v => insertFillT ty bad v p n r) (.pos (some p))
  | .insertRange i p xs => changeT i (fun v => insertRangeT ty bad v p xs) (.pos (some p))
  | .resizeFill i n r => do
    let r ← argRef r
    changeT i (fun v => resizeFillT ty bad v n r) .unit
  | op => do
    let r ← step ty op
    return some r

def runT : List (Op α) → Prog (World α) (List (Option (Res α)))
  | [] => return []
  | op :: ops => do
    let r ← stepT ty bad op
    let rs ← runT ops
    return r :: rs

end Verif.Model.Vector
