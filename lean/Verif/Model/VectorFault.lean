import Verif.Model.VectorHist
/-!
# Vector when something fails: refused memory and throwing element copies

The members of vector.h that obtain memory or copy elements, once more, with the failure followed through the code instead of
being an outcome of its own.  `…N`: the allocator's null pointer is stored and used, as the code does.  `…T`: copying (copy
construction and copy assignment) a value `x` with `bad x = true` throws; moving, default construction and destruction do not
throw.  A member that may throw returns whether it threw and the object as it is at that moment.
-/
namespace Verif.Model.Vector
open Verif Verif.Model.Mem

variable {α : Type} (ty : ElemTy α)

/-! ## Refused memory -/

/-- allocator.h:24-43 `allocate<T>(n)`; null when `operator new(nothrow)` fails. -/
def allocN (owner n : Nat) : M α (Option Nat) := fun h =>
  let bytes := wrap (ty.size * n)
  if ty.refuse h.next bytes then .ok (none, { h with next := h.next + 1 })
  else .ok (some h.next, { h with
    blocks := upd h.blocks h.next (some ⟨owner, bytes, List.replicate (bytes / ty.size) none⟩)
    next := h.next + 1
    newBytes := h.newBytes + bytes })

/-- vector.h:798-803 `allocate`. -/
def allocateN (v : Vec) (size : Nat) : M α Vec := do
  let b ← allocN ty v.alloc size
  return { v with len := 0, cap := size, ptr := b }

/-- vector.h:805-816 `allocate_reserve`. -/
def allocateReserveN (v : Vec) (size : Nat) : M α Vec := do
  let nArr ← allocN ty v.alloc size
  forUp 0 v.len fun i => do
    let x ← take ty v.ptr i
    construct nArr i x
  let oLen := v.len
  let v ← clear ty v
  return { v with len := oLen, cap := size, ptr := nArr }

/-- vector.h:495-499 `reserve`. -/
def reserveN (v : Vec) (newCap : Nat) : M α Vec :=
  if newCap > v.cap then allocateReserveN ty v newCap else pure v

/-- vector.h:877-885 `extend_space`. -/
def extendSpaceN (v : Vec) : M α Vec :=
  let newCap := if v.cap = 0 then 2 else wrap (2 * v.cap)
  reserveN ty v newCap

/-- vector.h:674-680, 685-691, 697-704 `push_back`, `emplace_back`. -/
def pushBackN (v : Vec) (r : Ref α) : M α Vec := do
  let v ← (if v.len ≥ v.cap then extendSpaceN ty v else pure v)
  let x ← deref r
  construct v.ptr v.len x
  return { v with len := v.len + 1 }

/-- vector.h:73-75 `Vector()`. -/
def newDefaultN : M α Vec := allocateN ty (Vec.blank dfltAlloc) 2

/-- vector.h:87-89, 838-845 the copy constructor. -/
def newCopyN (r : Vec) : M α Vec := do
  let v ← allocateN ty (Vec.blank dfltAlloc) r.len
  let v := { v with len := r.len }
  forUp 0 v.len fun i => do
    let x ← load r.ptr i
    construct v.ptr i x
  return v

/-! ## Throwing copies -/

variable (bad : α → Bool)

/-- vector.h:674-680 `push_back(const T&)`: `len++` is evaluated before the copy is made. -/
def pushBackT (v : Vec) (r : Ref α) : M α (Bool × Vec) := do
  let v ← (if v.len ≥ v.cap then extendSpace ty v else pure v)
  let x ← deref r
  let v' := { v with len := v.len + 1 }
  if bad x then return (true, v')
  else do
    construct v.ptr v.len x
    return (false, v')

/-- vector.h:231-233, 464-467: `push_back` of the elements of a list, up to the first that throws. -/
def pushListT (v : Vec) : List α → M α (Bool × Vec)
  | [] => return (false, v)
  | x :: xs => do
    let p ← pushBackT ty bad v (.tmp x)
    if p.1 then return p else pushListT p.2 xs

/-- vector.h:226-234 `assign(list)`. -/
def assignListT (v : Vec) (xs : List α) : M α (Bool × Vec) := do
  let v ← destroyAll v
  let v ← reserve ty v xs.length
  pushListT ty bad v xs

/-- Copies into raw slots `i, i + 1, …` up to the first that throws (vector.h:660-662, 853-856). -/
def constructListT (p : Option Nat) (i : Nat) : List α → M α Bool
  | [] => return false
  | x :: xs =>
    if bad x then return true
    else do
      construct p (wrap i) x
      constructListT p (i + 1) xs

/-- vector.h:69-71, 847-857 `Vector(list, allocator)`.  When a copy throws there is no object and no destructor call. -/
def newListT (xs : List α) (a : Nat) : M α (Option Vec) := do
  let v ← allocate ty (Vec.blank a) xs.length
  let t ← constructListT bad v.ptr 0 xs
  return (if t then none else some { v with len := xs.length })

/-- vector.h:608-612, 543-551 `insert(pos, const T&)`: the copy is the by-value parameter of `emplace`; from there it is
moved. -/
def insertT (v : Vec) (pos : Nat) (r : Ref α) : M α (Bool × Vec) := do
  let x ← deref r
  if bad x then return (true, v)
  else do
    let v ← emplace ty v pos x
    return (false, v)

/-- vector.h:650-665 `insert(pos, first, last)`. -/
def insertRangeT (v : Vec) (pos : Nat) (xs : List α) : M α (Bool × Vec) := do
  let v ← (if wrap (v.len + xs.length) > v.cap then allocateReserve ty v (wrap (v.len + xs.length)) else pure v)
  let v ← moveElementsBack ty v pos xs.length
  let t ← constructListT bad v.ptr pos xs
  return (t, v)

/-- `std::copy(src, src + n, dst)` from element `k` on, up to the first copy assignment that throws. -/
def stdCopyT (src dst : Option Nat) (k : Nat) : Nat → M α Bool
  | 0 => return false
  | n + 1 => do
    let x ← load src k
    if bad x then return true
    else do
      store dst k x
      stdCopyT src dst (k + 1) n

/-- vector.h:132-134: copies into raw slots from element `k` on, up to the first that throws. -/
def constructFromT (src dst : Option Nat) (k : Nat) : Nat → M α Bool
  | 0 => return false
  | n + 1 => do
    let x ← load src k
    if bad x then return true
    else do
      construct dst k x
      constructFromT src dst (k + 1) n

/-- vector.h:838-845 `copy_impl(const Vector&)`: `len` is set before the copies are made. -/
def copyImplT (v r : Vec) : M α (Bool × Vec) := do
  let v ← allocate ty v r.len
  let v := { v with len := r.len }
  let t ← constructFromT bad r.ptr v.ptr 0 r.len
  return (t, v)

/-- vector.h:117-145 `operator=(const Vector&)` for two different objects: with equal allocators `len` changes last. -/
def copyAssignT (v other : Vec) : M α (Bool × Vec) :=
  if v.alloc = other.alloc then do
    let v ← reserve ty v other.cap
    let common := min v.len other.len
    let t ← stdCopyT bad other.ptr v.ptr 0 common
    if t then return (true, v)
    else do
      let t ← (if v.len > other.len then do
          forUp common (v.len - common) fun i => destroy v.ptr i
          return false
        else if v.len < other.len then constructFromT bad other.ptr v.ptr common (other.len - common)
        else pure false)
      if t then return (true, v) else return (false, { v with len := other.len })
  else do
    let v ← clear ty v
    copyImplT ty bad v other

end Verif.Model.Vector
