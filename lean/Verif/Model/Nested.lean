import Verif.Model.VectorHist
import Verif.Model.LinkedListHist
import Verif.Model.BString
import Mathlib.Data.Nat.Pairing
/-!
# Vectors and linked lists whose elements are objects that own memory themselves

`Model/Vector.lean` treats an element as a value.  Here an element is an object of a class of its own: it lives at an
address, its constructors, destructor, assignments and members run programs on the state of that class, and those may
allocate, fail or be undefined.  `Cls` is such a class, `vectorCls` makes the class `Vector<T>` out of the class `T`, so
`vectorCls (vectorCls C)` are vectors of vectors, and so on; `linkedCls` makes the classes `List<T>` and `ForwardList<T>`
out of the class `T`, `optionCls` the class `Option<T>`.  At the bottom, `valueVectorCls` is the class of vectors of
plain values of `Model/Vector.lean`, `listCls` the class of linked lists of plain values of `Model/LinkedList.lean`,
`textCls` the class of strings of `Model/BString.lean`.

The addresses of a class are numbers: `slot b k` is the address of slot `k` of block `b` of a vector buffer, `cell a` the
address of the element of node `a` of a linked list, `temp k` the address of the `k`-th temporary object of the statement the client executes.  The buffers themselves only record
which slots hold an object (`Heap Unit`).
-/
namespace Verif.Model.Nested
open Verif Verif.Model.Mem
open Verif.Model.Vector (Vec Vec.blank dfltAlloc moveImpl)

/-- What the client can write down about a class: arguments of its constructors, calls of its members, results. -/
structure Sig where
  Make : Type
  Call : Type
  Ret : Type

/-- A class: its objects are at addresses, its operations run on a state `σ`. -/
structure Cls (S : Sig) (σ : Type) where
  /-- the state before the program starts -/
  start : σ
  /-- constructor at an address -/
  make : S.Make → Nat → Prog σ Unit
  /-- copy constructor: target, source -/
  copy : Nat → Nat → Prog σ Unit
  /-- move constructor: target, source -/
  move : Nat → Nat → Prog σ Unit
  /-- copy assignment: target, source -/
  copyAssign : Nat → Nat → Prog σ Unit
  /-- move assignment: target, source -/
  moveAssign : Nat → Nat → Prog σ Unit
  /-- destructor -/
  drop : Nat → Prog σ Unit
  /-- call of a member -/
  call : S.Call → Nat → Prog σ S.Ret
  /-- as many objects destroyed as constructed and as many bytes returned as obtained, at every level -/
  idle : σ → Prop

/-- Buffers of objects of a class with state `σ`. -/
structure St (σ : Type) where
  heap : Heap Unit
  objs : σ

variable {S : Sig} {σ β : Type}

/-- The address of slot `k` of block `b`. -/
def slot (b k : Nat) : Nat := 2 * Nat.pair b k + 1

/-- The address of the `k`-th temporary. -/
def temp (k : Nat) : Nat := 2 * k

/-- A step on the buffers alone (simplification: the buffers record which slots hold an object, not what is in it). -/
def inBuf (f : M Unit β) : Prog (St σ) β := fun s => f s.heap >>= fun p => .ok (p.1, { s with heap := p.2 })

/-- A call of a member of `T`. -/
def inObjs (f : Prog σ β) : Prog (St σ) β := fun s => f s.objs >>= fun p => .ok (p.1, { s with objs := p.2 })

/-- vector.h:188-196 `beginPtr + k`; the null pointer has no objects. -/
def address (p : Option Nat) (k : Nat) : Prog (St σ) Nat :=
  match p with
  | none => Prog.ub
  | some b => pure (slot b k)

/-- `for (usize k = i; k < i + n; k++) f(k)`. -/
def loopUp (i : Nat) : Nat → (Nat → Prog (St σ) Unit) → Prog (St σ) Unit
  | 0, _ => return ()
  | n + 1, f => do
    f i
    loopUp (i + 1) n f

variable (ty : ElemTy Unit) (C : Cls S σ)

/-- vector.h:818-821 `construct_at(i, src)` with a `const T&`. -/
def copyTo (p : Option Nat) (i src : Nat) : Prog (St σ) Unit := do
  inBuf (construct p i ())
  let d ← address p i
  inObjs (C.copy d src)

/-- vector.h:808, 818-821 `construct_at(i, std::move(src))`. -/
def moveTo (p : Option Nat) (i src : Nat) : Prog (St σ) Unit := do
  inBuf (construct p i ())
  let d ← address p i
  inObjs (C.move d src)

/-- vector.h:823-825 `destroy_at(i)`. -/
def destroyAt (p : Option Nat) (i : Nat) : Prog (St σ) Unit := do
  let d ← address p i
  inObjs (C.drop d)
  inBuf (destroy p i)

/-- vector.h:791-795 `deallocate`. -/
def deallocate (v : Vec) : Prog (St σ) Vec := do
  inBuf (free ty v.alloc v.ptr v.cap)
  return { v with ptr := none, len := 0, cap := 0 }

/-- vector.h:798-803 `allocate`. -/
def allocate (v : Vec) (size : Nat) : Prog (St σ) Vec := do
  let b ← inBuf (alloc ty v.alloc size)
  return { v with len := 0, cap := size, ptr := some b }

/-- vector.h:887-892 `destroy_all`. -/
def destroyAll (v : Vec) : Prog (St σ) Vec := do
  loopUp 0 v.len fun i => destroyAt C v.ptr i
  return { v with len := 0 }

/-- vector.h:522-525 `clear`. -/
def clear (v : Vec) : Prog (St σ) Vec := do
  let v ← destroyAll C v
  deallocate ty v

/-- vector.h:805-816 `allocate_reserve`: the objects are moved to the new buffer, then `clear` destroys what is left of
them in the old one. -/
def allocateReserve (v : Vec) (size : Nat) : Prog (St σ) Vec := do
  let nArr ← inBuf (alloc ty v.alloc size)
  loopUp 0 v.len fun i => do
    let src ← address v.ptr i
    moveTo C (some nArr) i src
  let oLen := v.len
  let v ← clear ty C v
  return { v with len := oLen, cap := size, ptr := some nArr }

/-- vector.h:495-499 `reserve`. -/
def reserve (v : Vec) (newCap : Nat) : Prog (St σ) Vec :=
  if newCap > v.cap then allocateReserve ty C v newCap else pure v

/-- vector.h:877-885 `extend_space`. -/
def extendSpace (v : Vec) : Prog (St σ) Vec :=
  let newCap := if v.cap = 0 then 2 else wrap (2 * v.cap)
  reserve ty C v newCap

/-- vector.h:674-680 `push_back(const T&)`; `src` is the address the reference denotes. -/
def pushCopy (v : Vec) (src : Nat) : Prog (St σ) Vec := do
  let v ← (if v.len ≥ v.cap then extendSpace ty C v else pure v)
  copyTo C v.ptr v.len src
  return { v with len := v.len + 1 }

/-- vector.h:685-691 `push_back(T&&)`. -/
def pushMove (v : Vec) (src : Nat) : Prog (St σ) Vec := do
  let v ← (if v.len ≥ v.cap then extendSpace ty C v else pure v)
  moveTo C v.ptr v.len src
  return { v with len := v.len + 1 }

/-- vector.h:757-760 `pop_back`. -/
def popBack (v : Vec) : Prog (St σ) Vec := do
  destroyAt C v.ptr (wsub v.len 1)
  return { v with len := wsub v.len 1 }

/-- `while (d > 0) { pop_back(); d--; }` (vector.h:738-741). -/
def popLoop (v : Vec) : Nat → Prog (St σ) Vec
  | 0 => return v
  | d + 1 => do
    let v ← popBack C v
    popLoop v d

/-- `while (d > 0) { push_back(val); d--; }` (vector.h:221-223, 747-750). -/
def pushLoop (src : Nat) (v : Vec) : Nat → Prog (St σ) Vec
  | 0 => return v
  | d + 1 => do
    let v ← pushCopy ty C v src
    pushLoop src v d

/-- vector.h:216-224 `assign(count, val)`. -/
def assignFill (v : Vec) (count src : Nat) : Prog (St σ) Vec := do
  let v ← destroyAll C v
  let v ← reserve ty C v count
  pushLoop ty C src v count

/-- vector.h:735-752 `resize(count, val)`. -/
def resizeFill (v : Vec) (count src : Nat) : Prog (St σ) Vec :=
  if count < v.len then popLoop C v (v.len - count)
  else if count > v.len then do
    let v' ← (if count > v.cap then reserve ty C v count else pure v)
    pushLoop ty C src v' (count - v'.len)
  else pure v

/-- vector.h:565-577 `erase(pos)`: the objects behind are move-assigned one place to the left, the last one destroyed. -/
def erase (v : Vec) (p : Nat) : Prog (St σ) (Vec × Option Nat) :=
  if p = wsub v.len 1 then do
    let v ← popBack C v
    return (v, some v.len)
  else if p < wsub v.len 1 then do
    loopUp p (v.len - (p + 1)) fun k => do
      let src ← address v.ptr (k + 1)
      let dst ← address v.ptr k
      inObjs (C.moveAssign dst src)
    let v ← popBack C v
    return (v, some p)
  else return (v, none)

/-- The loop of vector.h:868-873 `while (hi >= pos)`, from the last object down.  `hi` is unsigned: with `pos = 0` it wraps
from 0 to 2^64 - 1 and the loop goes on with an object that does not exist, which is undefined. -/
def moveBackLoop (p : Option Nat) (count pos : Nat) : Nat → Prog (St σ) Unit
  | 0 => if pos ≤ 0 then do
      let src ← address p 0
      moveTo C p (wrap (0 + count)) src
      destroyAt C p 0
      Prog.ub
    else return ()
  | hi + 1 => if pos ≤ hi + 1 then do
      let src ← address p (hi + 1)
      moveTo C p (wrap (hi + 1 + count)) src
      destroyAt C p (hi + 1)
      moveBackLoop p count pos hi
    else return ()

/-- vector.h:861-875 `move_elements_back(pos, count)`. -/
def moveElementsBack (v : Vec) (pos count : Nat) : Prog (St σ) Vec :=
  if v.len = 0 then return v
  else do
    let v ← (if wrap (v.len + count) > v.cap then reserve ty C v (wrap (v.len + count)) else pure v)
    moveBackLoop C v.ptr count pos (v.len - 1)
    return { v with len := wrap (v.len + count) }

/-- vector.h:543-551 `emplace(pos, x)`; `src` is the address of the parameter `x`. -/
def emplace (v : Vec) (pos src : Nat) : Prog (St σ) Vec := do
  let v ← (if v.len = v.cap then extendSpace ty C v else pure v)
  let v ← moveElementsBack ty C v pos 1
  moveTo C v.ptr pos src
  return v

/-- The parameter of `emplace` (vector.h:543 `Args...vs`, by value) is constructed from the argument, used, destroyed. -/
def withParam (init : Nat → Prog σ Unit) (f : Nat → Prog (St σ) Vec) : Prog (St σ) Vec := do
  inObjs (init (temp 1))
  let v ← f (temp 1)
  inObjs (C.drop (temp 1))
  return v

/-- vector.h:630-640 `insert(pos, count, val)`. -/
def insertFill (v : Vec) (pos count src : Nat) : Prog (St σ) Vec := do
  let v ← moveElementsBack ty C v pos count
  loopUp 0 count fun i => copyTo C v.ptr (wrap (pos + i)) src
  return v

/-! ## Constructors and assignments -/

/-- vector.h:73-75 `Vector()`. -/
def newDefault : Prog (St σ) Vec := allocate ty (Vec.blank dfltAlloc) 2

/-- vector.h:838-845 `copy_impl(const Vector&)`. -/
def copyImpl (v r : Vec) : Prog (St σ) Vec := do
  let v ← allocate ty v r.len
  let v := { v with len := r.len }
  loopUp 0 v.len fun i => do
    let src ← address r.ptr i
    copyTo C v.ptr i src
  return v

/-- vector.h:87-89 copy constructor. -/
def newCopy (r : Vec) : Prog (St σ) Vec := copyImpl ty C (Vec.blank dfltAlloc) r

/-- vector.h:95-97 move constructor. -/
def newMove (r : Vec) : Vec × Vec := moveImpl (Vec.blank dfltAlloc) r

/-- The client's temporaries, made in order (the array behind an `initializer_list`). -/
def makeTemps (k : Nat) : List S.Make → Prog (St σ) Unit
  | [] => return ()
  | m :: ms => do
    inObjs (C.make m (temp k))
    makeTemps (k + 1) ms

/-- The first `n` temporaries are destroyed, the last one first. -/
def dropTemps : Nat → Prog (St σ) Unit
  | 0 => return ()
  | n + 1 => do
    inObjs (C.drop (temp n))
    dropTemps n

/-- vector.h:69-71, 847-857 `Vector(list, allocator)`: copies from the array behind the list. -/
def newList (n a : Nat) : Prog (St σ) Vec := do
  let v ← allocate ty (Vec.blank a) n
  let v := { v with len := n }
  loopUp 0 n fun i => copyTo C v.ptr i (temp i)
  return v

/-- vector.h:117-145 `operator=(const Vector&)` for two different objects. -/
def copyAssign (v other : Vec) : Prog (St σ) Vec :=
  if v.alloc = other.alloc then do
    let v ← reserve ty C v other.cap
    let common := min v.len other.len
    loopUp 0 common fun i => do
      let src ← address other.ptr i
      let dst ← address v.ptr i
      inObjs (C.copyAssign dst src)
    (if v.len > other.len then
      loopUp common (v.len - common) fun i => destroyAt C v.ptr i
    else if v.len < other.len then
      loopUp common (other.len - common) fun i => do
        let src ← address other.ptr i
        copyTo C v.ptr i src
    else pure ())
    return { v with len := other.len }
  else do
    let v ← clear ty C v
    copyImpl ty C v other

/-- vector.h:147-155 `operator=(Vector&&)` for two different objects: the new target and the new source. -/
def moveAssign (v r : Vec) : Prog (St σ) (Vec × Vec) := do
  let v ← clear ty C v
  return moveImpl v r

/-! ## The class -/

/-- Constructor arguments of `Vector<T>`; elements are given by the constructor arguments of `T`. -/
inductive VMake (E : Type) where
  /-- `Vector<T>()` -/
  | dflt
  /-- `Vector<T>(allocator)` -/
  | alloc (a : Nat)
  /-- `Vector<T>({T(m₀), T(m₁), ...}, allocator)` -/
  | list (ms : List E) (a : Nat)
  /-- `Vector<T>(n, T(m), allocator)` -/
  | fill (n : Nat) (m : E) (a : Nat)

/-- Calls on one `Vector<T>`. -/
inductive VCall (E D : Type) where
  /-- `v.size()` -/
  | size
  /-- `v.capacity()` -/
  | capacity
  /-- `v.reserve(n)` -/
  | reserve (n : Nat)
  /-- `v.clear()` -/
  | clear
  /-- `v.push_back(T(m))` -/
  | push (m : E)
  /-- `v.push_back(v[k])` -/
  | pushElem (k : Nat)
  /-- `v.pop_back()` -/
  | pop
  /-- `v.erase(v.begin() + p)` -/
  | erase (p : Nat)
  /-- `v.insert(v.begin() + p, T(m))` -/
  | insert (p : Nat) (m : E)
  /-- `v.insert(v.begin() + p, v[k])` -/
  | insertElem (p k : Nat)
  /-- `v.insert(v.begin() + p, n, T(m))` -/
  | insertFill (p n : Nat) (m : E)
  /-- `v.assign(n, T(m))` -/
  | fill (n : Nat) (m : E)
  /-- `v.resize(n, T(m))` -/
  | resize (n : Nat) (m : E)
  /-- `v[k] = v[l]` -/
  | setElem (k l : Nat)
  /-- `v[k] = std::move(v[l])` -/
  | moveElem (k l : Nat)
  /-- `v[k].c(...)`, a call on the element -/
  | elem (k : Nat) (c : D)

/-- Results of these calls; `elem r` is a result of a call on an element. -/
inductive VRet (R : Type) where
  | unit
  | num (n : Nat)
  | pos (p : Option Nat)
  | elem (r : R)

/-- What clients can write down about `Vector<T>` (vector.h:60-891). -/
def vectorSig (S : Sig) : Sig := ⟨VMake S.Make, VCall S.Make S.Call, VRet S.Ret⟩

/-- Buffers and the vector objects at their addresses. -/
structure NWorld (σ : Type) where
  st : St σ
  vars : Nat → Option Vec

/-- A step on buffers and elements. -/
def inSt (f : Prog (St σ) β) : Prog (NWorld σ) β := fun w => f w.st >>= fun p => .ok (p.1, { w with st := p.2 })

/-- The vector at address `i`; an address without vector is undefined. -/
def obj (i : Nat) : Prog (NWorld σ) Vec := fun w =>
  match w.vars i with
  | none => .ub
  | some v => .ok (v, w)

/-- The members of the vector at address `i` after a call; `none` after its destructor. -/
def setObj (i : Nat) (o : Option Vec) : Prog (NWorld σ) Unit := fun w =>
  .ok ((), { w with vars := Vector.bindVar w.vars i o })

/-- A constructor at address `i`. -/
def createAt (i : Nat) (f : Prog (St σ) Vec) : Prog (NWorld σ) Unit := do
  let v ← inSt f
  setObj i (some v)

/-- A member that may change the vector at address `i`. -/
def changeAt (i : Nat) (f : Vec → Prog (St σ) (Vec × β)) : Prog (NWorld σ) β := do
  let v ← obj i
  let p ← inSt (f v)
  setObj i (some p.1)
  return p.2

/-- A statement with one temporary `T(m)` at address `temp 0`. -/
def withTemp (m : S.Make) (f : Nat → Prog (St σ) Vec) : Prog (St σ) Vec := do
  makeTemps C 0 [m]
  let v ← f (temp 0)
  dropTemps C 1
  return v

/-- Constructors (vector.h:69-85). -/
def vmake : VMake S.Make → Nat → Prog (NWorld σ) Unit
  | .dflt, i => createAt i (newDefault ty)
  | .alloc a, i => createAt i (return Vec.blank a)
  | .list ms a, i => createAt i do
    makeTemps C 0 ms
    let v ← newList ty C ms.length a
    dropTemps C ms.length
    return v
  | .fill n m a, i => createAt i (withTemp C m fun t => assignFill ty C (Vec.blank a) n t)

/-- Calls on the vector at address `i`. -/
def vcall : VCall S.Make S.Call → Nat → Prog (NWorld σ) (VRet S.Ret)
  -- vector.h:484-486
  | .size, i => changeAt i fun v => return (v, .num v.len)
  -- vector.h:505-507
  | .capacity, i => changeAt i fun v => return (v, .num v.cap)
  | .reserve n, i => changeAt i fun v => do
    let v ← reserve ty C v n
    return (v, .unit)
  | .clear, i => changeAt i fun v => do
    let v ← clear ty C v
    return (v, .unit)
  | .push m, i => changeAt i fun v => do
    let v ← withTemp C m fun t => pushMove ty C v t
    return (v, .unit)
  | .pushElem k, i => changeAt i fun v => do
    let src ← address v.ptr k
    let v ← pushCopy ty C v src
    return (v, .unit)
  | .pop, i => changeAt i fun v => do
    let v ← popBack C v
    return (v, .unit)
  | .erase p, i => changeAt i fun v => do
    let r ← erase C v p
    return (r.1, .pos r.2)
  -- vector.h:619-623 `insert(pos, T&&)`
  | .insert p m, i => changeAt i fun v => do
    let v ← withTemp C m fun t => withParam C (fun u => C.move u t) fun u => emplace ty C v p u
    return (v, .pos (some p))
  -- vector.h:608-612 `insert(pos, const T&)`
  | .insertElem p k, i => changeAt i fun v => do
    let src ← address v.ptr k
    let v ← withParam C (fun u => C.copy u src) fun u => emplace ty C v p u
    return (v, .pos (some p))
  | .insertFill p n m, i => changeAt i fun v => do
    let v ← withTemp C m fun t => insertFill ty C v p n t
    return (v, .pos (some p))
  | .fill n m, i => changeAt i fun v => do
    let v ← withTemp C m fun t => assignFill ty C v n t
    return (v, .unit)
  | .resize n m, i => changeAt i fun v => do
    let v ← withTemp C m fun t => resizeFill ty C v n t
    return (v, .unit)
  -- vector.h:188-196 `operator[]` gives the address
  | .setElem k l, i => changeAt i fun v => do
    let dst ← address v.ptr k
    let src ← address v.ptr l
    inObjs (C.copyAssign dst src)
    return (v, .unit)
  | .moveElem k l, i => changeAt i fun v => do
    let dst ← address v.ptr k
    let src ← address v.ptr l
    inObjs (C.moveAssign dst src)
    return (v, .unit)
  | .elem k c, i => changeAt i fun v => do
    let a ← address v.ptr k
    let r ← inObjs (C.call c a)
    return (v, .elem r)

/-- The class `Vector<T>` (vector.h:60-893) for the class `T`; `ty` gives the size of a `T` and which allocations fail. -/
def vectorCls : Cls (vectorSig S) (NWorld σ) where
  start := ⟨⟨{}, C.start⟩, fun _ => none⟩
  make := vmake ty C
  copy d e := do
    let v ← obj e
    createAt d (newCopy ty C v)
  move d e := do
    let v ← obj e
    let p := newMove v
    setObj d (some p.1)
    setObj e (some p.2)
  -- vector.h:118-120: `if (&other == this) return *this`
  copyAssign d e := if d = e then changeAt d fun v => return (v, ()) else do
    let w ← obj e
    changeAt d fun v => do
      let v ← copyAssign ty C v w
      return (v, ())
  -- vector.h:148-150
  moveAssign d e := if d = e then changeAt d fun v => return (v, ()) else do
    let v ← obj d
    let w ← obj e
    let p ← inSt (moveAssign ty C v w)
    setObj d (some p.1)
    setObj e (some p.2)
  -- vector.h:113-115 `~Vector`
  drop i := do
    let v ← obj i
    let _ ← inSt (clear ty C v)
    setObj i none
  call := vcall ty C
  idle w := w.st.heap.ctors = w.st.heap.dtors ∧ w.st.heap.newBytes = w.st.heap.freeBytes ∧ C.idle w.st.objs

/-! ## Vectors of plain values, as a class -/

/-- Constructor arguments. -/
inductive BMake (α : Type) where
  | dflt
  | alloc (a : Nat)
  | list (xs : List α) (a : Nat)
  | fill (n : Nat) (x : α) (a : Nat)

/-- Calls on one vector of values. -/
inductive BCall (α : Type) where
  | size
  | capacity
  | reserve (n : Nat)
  | clear
  | push (x : α)
  | pushElem (k : Nat)
  | pop
  | insert (p : Nat) (x : α)
  | erase (p : Nat)
  | set (k : Nat) (x : α)
  | get (k : Nat)
  | at (k : Nat)
  | front
  | back
  | collect

variable {α : Type}

/-- The constructor call, as a call of `Model/VectorHist.lean`. -/
def BMake.op (i : Nat) : BMake α → Vector.Op α
  | .dflt => .newDefault i
  | .alloc a => .newAlloc i a
  | .list xs a => .newList i xs a
  | .fill n x a => .newFill i n (.val x) a

/-- The member call, as a call of `Model/VectorHist.lean`. -/
def BCall.op (i : Nat) : BCall α → Vector.Op α
  | .size => .size i
  | .capacity => .capacity i
  | .reserve n => .reserve i n
  | .clear => .clear i
  | .push x => .push i (.val x)
  | .pushElem k => .push i (.elem i k)
  | .pop => .pop i
  | .insert p x => .insert i p (.val x)
  | .erase p => .erase i p
  | .set k x => .set i k x
  | .get k => .get i k
  | .at k => .at i k
  | .front => .front i
  | .back => .back i
  | .collect => .collect i

/-- What clients can write down about a vector of values. -/
def valueSig (α : Type) : Sig := ⟨BMake α, BCall α, Vector.Res α⟩

/-- A call whose result the client ignores. -/
def quiet (f : Prog (Vector.World α) (Vector.Res α)) : Prog (Vector.World α) Unit := do
  let _ ← f
  return ()

/-- The class `Vector<α>` of vectors of values (vector.h:60-893). -/
def valueVectorCls (ety : ElemTy α) : Cls (valueSig α) (Vector.World α) where
  start := {}
  make m i := quiet (Vector.step ety (m.op i))
  copy d e := quiet (Vector.step ety (.newCopy d e))
  move d e := quiet (Vector.step ety (.newMove d e dfltAlloc))
  copyAssign d e := quiet (Vector.step ety (.copyAssign d e))
  moveAssign d e := quiet (Vector.step ety (.moveAssign d e))
  drop i := quiet (Vector.step ety (.drop i))
  call c i := Vector.step ety (c.op i)
  idle w := w.heap.ctors = w.heap.dtors ∧ w.heap.newBytes = w.heap.freeBytes

/-! ## Linked lists of plain values, as a class -/

/-- Constructor arguments of `List` and `ForwardList`. -/
inductive LMake (α : Type) where
  | alloc (a : Nat)
  | fill (n : Nat) (x : α) (a : Nat)
  | count (n a : Nat)
  | range (xs : List α) (a : Nat)

/-- Calls on one list.  Positions count from `before_begin()`. -/
inductive LCall (α : Type) where
  | moved
  | clear
  | assign (xs : List α)
  | front
  | frontUnchecked
  | back
  | backUnchecked
  | size
  | empty
  | set (p : Nat) (x : α)
  | get (p : Nat)
  | insertAfter (p : Nat) (x : α)
  | insertAfterFill (p n : Nat) (x : α)
  | insertAfterRange (p : Nat) (xs : List α)
  | eraseAfter (p : Nat)
  | eraseAfterRange (lo hi : Nat)
  | insert (p : Nat) (x : α)
  | insertFill (p n : Nat) (x : α)
  | insertRange (p : Nat) (xs : List α)
  | erase (p : Nat)
  | eraseRange (lo hi : Nat)
  | pushFront (x : α)
  | pushFrontElem (k : Nat)
  | popFront
  | pushBack (x : α)
  | pushBackElem (k : Nat)
  | popBack
  | resize (n : Nat)
  | resizeFill (n : Nat) (x : α)
  | remove (eq : α → α → Bool) (x : α)
  | removeElem (eq : α → α → Bool) (k : Nat)
  | removeIf (p : α → Bool)
  | reverse
  | unique (p : α → α → Bool)
  | sort (less : α → α → Bool)
  | traverse
  | traverseBack
  | iter (es : List Spec.End)
  | drain (es : List Spec.End)
  | print (shw : α → String)

/-- The constructor call, as a call of `Model/LinkedListHist.lean`. -/
def LMake.op (i : Nat) : LMake α → LL.Op α
  | .alloc a => .newAlloc i a
  | .fill n x a => .newFill i n (.val x) a
  | .count n a => .newCount i n a
  | .range xs a => .newRange i xs a

/-- The member call, as a call of `Model/LinkedListHist.lean`. -/
def LCall.op (i : Nat) : LCall α → LL.Op α
  | .moved => .moved i
  | .clear => .clear i
  | .assign xs => .listAssign i xs
  | .front => .front i
  | .frontUnchecked => .frontUnchecked i
  | .back => .back i
  | .backUnchecked => .backUnchecked i
  | .size => .size i
  | .empty => .empty i
  | .set p x => .set i p x
  | .get p => .get i p
  | .insertAfter p x => .insertAfter i p (.val x)
  | .insertAfterFill p n x => .insertAfterFill i p n (.val x)
  | .insertAfterRange p xs => .insertAfterRange i p xs
  | .eraseAfter p => .eraseAfter i p
  | .eraseAfterRange lo hi => .eraseAfterRange i lo hi
  | .insert p x => .insert i p (.val x)
  | .insertFill p n x => .insertFill i p n (.val x)
  | .insertRange p xs => .insertRange i p xs
  | .erase p => .erase i p
  | .eraseRange lo hi => .eraseRange i lo hi
  | .pushFront x => .pushFront i (.val x)
  | .pushFrontElem k => .pushFront i (.elem i k)
  | .popFront => .popFront i
  | .pushBack x => .pushBack i (.val x)
  | .pushBackElem k => .pushBack i (.elem i k)
  | .popBack => .popBack i
  | .resize n => .resize i n
  | .resizeFill n x => .resizeFill i n (.val x)
  | .remove eq x => .remove i eq (.val x)
  | .removeElem eq k => .remove i eq (.elem i k)
  | .removeIf p => .removeIf i p
  | .reverse => .reverse i
  | .unique p => .unique i p
  | .sort less => .sort i less
  | .traverse => .traverse i
  | .traverseBack => .traverseBack i
  | .iter es => .iter i es
  | .drain es => .drain i es
  | .print shw => .print i shw

/-- What clients can write down about a linked list of values. -/
def listSig (α : Type) : Sig := ⟨LMake α, LCall α, LL.Res α⟩

/-- A call on lists whose result the client ignores. -/
def hushed (f : Prog (LL.World α) (LL.Res α)) : Prog (LL.World α) Unit := do
  let _ ← f
  return ()

/-- The class `List<α>` (`cfg.dbl`) or `ForwardList<α>` of linked lists of values (linked_list.h:434-1939). -/
def listCls (cfg : LL.Cfg α) : Cls (listSig α) (LL.World α) where
  start := {}
  make m i := hushed (LL.step cfg (m.op i))
  copy d e := hushed (LL.step cfg (.newCopy d e))
  move d e := hushed (LL.step cfg (.newMove d e))
  copyAssign d e := hushed (LL.step cfg (.copyAssign d e))
  moveAssign d e := hushed (LL.step cfg (.moveAssign d e))
  drop i := hushed (LL.step cfg (.drop i))
  call c i := LL.step cfg (c.op i)
  idle w := w.heap.ctors = w.heap.dtors ∧ w.heap.newBytes = w.heap.freeBytes

/-! ## Strings of bytes as elements -/

/-- Constructors of strings (basic_string.h:55-77). -/
inductive TMake where
  | alloc (a : Nat)
  | lit (bs : List UInt8) (a : Nat)

/-- Calls on one string. -/
inductive TCall where
  | pushBack (ch : List UInt8)
  | insert (ch : List UInt8) (idx : Nat)
  | popBack
  | size
  | isCharBoundary (idx : Nat)
  | chars
  | print

/-- The constructor call, as a call of `Model/BString.lean`. -/
def TMake.op (i : Nat) : TMake → BStr.Op
  | .alloc a => .newAlloc i a
  | .lit bs a => .newLit i bs a

/-- The member call, as a call of `Model/BString.lean`. -/
def TCall.op (i : Nat) : TCall → BStr.Op
  | .pushBack ch => .pushBack i ch
  | .insert ch idx => .insert i ch idx
  | .popBack => .popBack i
  | .size => .size i
  | .isCharBoundary idx => .isCharBoundary i idx
  | .chars => .chars i
  | .print => .print i

/-- What clients can write down about a string. -/
def textSig : Sig := ⟨TMake, TCall, BStr.Res⟩

/-- `Allocate::operator=`, which has no `return`, does its job (`Model/BString.lean`); otherwise strings cannot be moved at all. -/
def textCfg (enc : BStr.Enc) (refuse : Nat → Nat → Bool) : BStr.Cfg := ⟨enc, true, refuse⟩

/-- A call on strings whose result the client ignores. -/
def muted (f : Prog BStr.World BStr.Res) : Prog BStr.World Unit := do
  let _ ← f
  return ()

/-- The class `BasicString` (basic_string.h:41-465). -/
def textCls (cfg : BStr.Cfg) : Cls textSig BStr.World where
  start := {}
  make m i := muted (BStr.step cfg (m.op i))
  copy d e := muted (BStr.step cfg (.newCopy d e))
  move d e := muted (BStr.step cfg (.newMove d e))
  copyAssign d e := muted (BStr.step cfg (.copyAssign d e))
  moveAssign d e := muted (BStr.step cfg (.moveAssign d e))
  drop i := muted (BStr.step cfg (.drop i))
  call c i := BStr.step cfg (c.op i)
  idle w := w.heap.newBytes = w.heap.freeBytes

/-! ## Linked lists of objects

The nodes are those of `Model/LinkedList.lean`, which here only record that they hold an element (`LL.Heap Unit`); the element
itself is the object at address `cell a` of the class `T`.  The pointer manipulation is that of `Model/LinkedList.lean`;
the functions that construct or destroy elements are modelled again. -/

/-- Nodes, and the objects in them. -/
structure LSt (σ : Type) where
  nodes : LL.Heap Unit
  objs : σ

/-- The address of the element of node `a` (linked_list.h:304-327 `NodeAllocHelper`). -/
def cell (a : Nat) : Nat := 2 * a + 1

/-- A step on the nodes alone. -/
def inNodes (f : LL.M Unit β) : Prog (LSt σ) β := fun s => f s.nodes >>= fun p => .ok (p.1, { s with nodes := p.2 })

/-- A call of a member of `T`. -/
def inElems (f : Prog σ β) : Prog (LSt σ) β := fun s => f s.objs >>= fun p => .ok (p.1, { s with objs := p.2 })

/-- `*p->data`, as an address. -/
def dataOf (p : LL.Ptr) : Prog (LSt σ) Nat :=
  match p with
  | none => Prog.ub
  | some a => pure (cell a)

variable (lcfg : LL.Cfg Unit)

/-- linked_list.h:1802-1806 `construct_node(args...)`; `init` is the constructor of `T` the arguments select (L347-351, L378-382). -/
def nodeOf (owner : Nat) (init : Nat → Prog σ Unit) : Prog (LSt σ) LL.Ptr := do
  let n ← inNodes (LL.constructNode lcfg owner ())
  let d ← dataOf n
  inElems (init d)
  return n

/-- linked_list.h:1809-1817 `destroy_node`. -/
def killNode (owner : Nat) (p : LL.Ptr) : Prog (LSt σ) Unit := do
  let b ← inNodes (LL.dataNull p)
  if b then inNodes (LL.freeNode owner lcfg.vsize p)
  else do
    let d ← dataOf p
    inElems (C.drop d)
    inNodes (LL.destroyData p)
    inNodes (LL.freeNode owner lcfg.dsize p)

/-- linked_list.h:470-475, 950-954, 1160-1164: `n` nodes, made by `mk`, behind `p`. -/
def chainFill (mk : Prog (LSt σ) LL.Ptr) : Nat → LL.Ptr → Prog (LSt σ) LL.Ptr
  | 0, p => return p
  | n + 1, p => do
    let tmp ← mk
    inNodes (LL.setNext lcfg p tmp)
    chainFill mk n tmp

/-- linked_list.h:514-519, 633-638: copies of the temporaries `k`, `k + 1`, ... behind `p`. -/
def chainTemps (owner : Nat) : Nat → Nat → LL.Ptr → Prog (LSt σ) LL.Ptr
  | 0, _, p => return p
  | n + 1, k, p => do
    let tmp ← nodeOf lcfg owner fun d => C.copy d (temp k)
    inNodes (LL.setNext lcfg p tmp)
    chainTemps owner n (k + 1) tmp

/-- linked_list.h:461-480 `BaseList(count, value, allocator)`. -/
def lnewFill (mk : Prog (LSt σ) LL.Ptr) (n a : Nat) : Prog (LSt σ) LL.Lst :=
  if n = 0 then inNodes (LL.newAlloc lcfg a)
  else do
    let h ← inNodes (LL.buildVirtual lcfg a)
    let t ← inNodes (LL.buildVirtual lcfg a)
    let p ← chainFill lcfg mk n h
    inNodes (LL.setNext lcfg p t)
    inNodes (LL.setNext lcfg t none)
    return ⟨h, t, n, a⟩

/-- linked_list.h:503-524, 589 the initializer-list constructor, for `n` temporaries. -/
def lnewRange (n a : Nat) : Prog (LSt σ) LL.Lst :=
  if n = 0 then inNodes (LL.newAlloc lcfg a)
  else do
    let h ← inNodes (LL.buildVirtual lcfg a)
    let t ← inNodes (LL.buildVirtual lcfg a)
    let p ← chainTemps C lcfg a n 0 h
    inNodes (LL.setNext lcfg p t)
    inNodes (LL.setNext lcfg t none)
    return ⟨h, t, n, a⟩

/-- linked_list.h:1843-1849, the loop of `copy_impl`: the elements are copy-constructed. -/
def lcopyLoop (own : Nat) (stop rp p : LL.Ptr) (n : Nat) : Prog (LSt σ) (LL.Ptr × Nat) :=
  if rp = stop then return (p, n)
  else do
    let src ← dataOf rp
    let tmp ← nodeOf lcfg own fun d => C.copy d src
    let rp' ← inNodes (LL.getNext rp)
    inNodes (LL.setNext lcfg p tmp)
    lcopyLoop own stop rp' tmp (n + 1)
partial_fixpoint

/-- linked_list.h:1828-1854 `copy_impl`. -/
def lcopyImpl (o : LL.Lst) (a : Nat) : Prog (LSt σ) LL.Lst := do
  inNodes (LL.dbgAssert lcfg o.head.isSome)
  if o.len = 0 then do
    let q ← inNodes (LL.initEmpty lcfg a)
    return ⟨q.1, q.2, 0, a⟩
  else do
    let rp ← inNodes (LL.getNext o.head)
    let h ← inNodes (LL.buildVirtual lcfg a)
    let t ← inNodes (LL.buildVirtual lcfg a)
    let q ← lcopyLoop C lcfg a o.tail rp h 0
    inNodes (LL.setNext lcfg q.1 t)
    inNodes (LL.setNext lcfg t none)
    return ⟨h, t, q.2, a⟩

/-- linked_list.h:878-883, 1880-1884: destroy the nodes from `cur` up to `stop`. -/
def ldestroyLoop (own : Nat) (stop cur : LL.Ptr) : Prog (LSt σ) Unit :=
  if cur = stop then return ()
  else do
    let nx ← inNodes (LL.getNext cur)
    killNode C lcfg own cur
    ldestroyLoop own stop nx
partial_fixpoint

/-- linked_list.h:876-887 `clear`. -/
def lclear (l : LL.Lst) : Prog (LSt σ) LL.Lst := do
  let cur ← inNodes (LL.getNext l.head)
  ldestroyLoop C lcfg l.alloc l.tail cur
  inNodes (LL.setNext lcfg l.head l.tail)
  return { l with len := 0 }

/-- linked_list.h:591-599 `~BaseList`. -/
def ldestruct (l : LL.Lst) : Prog (LSt σ) Unit :=
  if l.head = none then return ()
  else do
    let l ← lclear C lcfg l
    killNode C lcfg l.alloc l.head
    killNode C lcfg l.alloc l.tail

/-- linked_list.h:601-610 copy assignment from another list. -/
def lcopyAssign (l o : LL.Lst) : Prog (LSt σ) LL.Lst := do
  ldestruct C lcfg l
  lcopyImpl C lcfg o o.alloc

/-- linked_list.h:612-625 move assignment from another list. -/
def lmoveAssign (l o : LL.Lst) : Prog (LSt σ) (LL.Lst × LL.Lst) := do
  ldestruct C lcfg l
  return (o, LL.husk o)

/-- linked_list.h:627-641 assignment of an initializer list of `n` temporaries. -/
def llistAssign (l : LL.Lst) (n : Nat) : Prog (LSt σ) LL.Lst := do
  let l ← lclear C lcfg l
  let p ← chainTemps C lcfg l.alloc n 0 l.head
  inNodes (LL.setNext lcfg p l.tail)
  return { l with len := n }

/-- linked_list.h:1008-1015 `emplace_after`; `mk` is `construct_node(std::forward<Args>(args)...)`. -/
def lemplaceAfter (l : LL.Lst) (pos : LL.Ptr) (mk : Prog (LSt σ) LL.Ptr) : Prog (LSt σ) (LL.Lst × LL.Ptr) := do
  inNodes (LL.dbgAssert lcfg (pos ≠ l.tail))
  let tmp ← mk
  let nx ← inNodes (LL.getNext pos)
  inNodes (LL.setNext lcfg tmp nx)
  inNodes (LL.setNext lcfg pos tmp)
  return ({ l with len := l.len + 1 }, tmp)

/-- linked_list.h:941-958 `insert_after(pos, count, val)`. -/
def linsertAfterFill (l : LL.Lst) (pos : LL.Ptr) (n : Nat) (mk : Prog (LSt σ) LL.Ptr) : Prog (LSt σ) (LL.Lst × LL.Ptr) := do
  inNodes (LL.dbgAssert lcfg (pos ≠ l.tail))
  if n = 0 then return (l, pos)
  else do
    let t ← inNodes (LL.getNext pos)
    let p ← chainFill lcfg mk n pos
    inNodes (LL.setNext lcfg p t)
    let q ← inNodes (LL.getNext pos)
    return ({ l with len := l.len + n }, q)

/-- linked_list.h:1029-1041 `erase_after(pos)`. -/
def leraseAfter (l : LL.Lst) (pos : LL.Ptr) : Prog (LSt σ) (LL.Lst × LL.Ptr) := do
  inNodes (LL.dbgAssert lcfg (pos ≠ l.tail))
  let nx ← inNodes (LL.getNext pos)
  if nx = l.tail then return (l, l.tail)
  else do
    let tmp ← inNodes (LL.getNext pos)
    let r ← inNodes (LL.getNext tmp)
    inNodes (LL.setNext lcfg pos r)
    killNode C lcfg l.alloc tmp
    return ({ l with len := LL.dec l.len }, r)

/-- linked_list.h:1056-1063 `erase_after(first, last)`. -/
def leraseAfterRange (l : LL.Lst) (first last : LL.Ptr) : Prog (LSt σ) (LL.Lst × LL.Ptr) :=
  if first = last then return (l, last)
  else do
    let nx ← inNodes (LL.getNext first)
    if nx = last then return (l, last)
    else do
      let q ← leraseAfter C lcfg l first
      leraseAfterRange q.1 first last
partial_fixpoint

/-- linked_list.h:1079-1089 `emplace`. -/
def lemplace (l : LL.Lst) (pos : LL.Ptr) (mk : Prog (LSt σ) LL.Ptr) : Prog (LSt σ) (LL.Lst × LL.Ptr) := do
  inNodes (LL.dbgAssert lcfg (pos ≠ l.head))
  let tmp ← mk
  let pv ← inNodes (LL.getPrev pos)
  inNodes (LL.setNext lcfg pv tmp)
  inNodes (LL.setNext lcfg tmp pos)
  return ({ l with len := l.len + 1 }, tmp)

/-- linked_list.h:1151-1169 `insert(pos, count, val)`. -/
def linsertFill (l : LL.Lst) (pos : LL.Ptr) (n : Nat) (mk : Prog (LSt σ) LL.Ptr) : Prog (LSt σ) (LL.Lst × LL.Ptr) := do
  inNodes (LL.dbgAssert lcfg (pos ≠ l.head))
  if n = 0 then return (l, pos)
  else do
    let pv ← inNodes (LL.getPrev pos)
    let p ← chainFill lcfg mk n pv
    inNodes (LL.setNext lcfg p pos)
    let q ← inNodes (LL.getNext pv)
    return ({ l with len := l.len + n }, q)

/-- linked_list.h:1223-1235 `erase(pos)`. -/
def lerase (l : LL.Lst) (pos : LL.Ptr) : Prog (LSt σ) (LL.Lst × LL.Ptr) :=
  if pos = l.tail ∨ pos = l.head then return (l, pos)
  else do
    let pv ← inNodes (LL.getPrev pos)
    let nx ← inNodes (LL.getNext pos)
    inNodes (LL.setNext lcfg pv nx)
    let r ← inNodes (LL.getNext pos)
    killNode C lcfg l.alloc pos
    return ({ l with len := LL.dec l.len }, r)

/-- linked_list.h:1264-1269, the loop of `erase(first, last)`. -/
def leraseLoop (own : Nat) (last first : LL.Ptr) (n : Nat) : Prog (LSt σ) Nat :=
  if first = last then return n
  else do
    let nx ← inNodes (LL.getNext first)
    killNode C lcfg own first
    leraseLoop own last nx (LL.dec n)
partial_fixpoint

/-- linked_list.h:1254-1271 `erase(first, last)`. -/
def leraseRange (l : LL.Lst) (first last : LL.Ptr) : Prog (LSt σ) (LL.Lst × LL.Ptr) :=
  if first = last then return (l, last)
  else do
    let first ← if first = l.head then inNodes (LL.getNext first) else pure first
    let h ← inNodes (LL.getPrev first)
    inNodes (LL.setNext lcfg h last)
    let n ← leraseLoop C lcfg l.alloc last first l.len
    return ({ l with len := n }, last)

/-- linked_list.h:1277-1303 `push_front`, `emplace_front`. -/
def lpushFront (l : LL.Lst) (mk : Prog (LSt σ) LL.Ptr) : Prog (LSt σ) LL.Lst := do
  let node ← mk
  let nx ← inNodes (LL.getNext l.head)
  inNodes (LL.setNext lcfg node nx)
  inNodes (LL.setNext lcfg l.head node)
  return { l with len := l.len + 1 }

/-- linked_list.h:1308-1314 `pop_front`. -/
def lpopFront (l : LL.Lst) : Prog (LSt σ) LL.Lst := do
  let tmp ← inNodes (LL.getNext l.head)
  inNodes (LL.dbgAssert lcfg tmp.isSome)
  let nx ← inNodes (LL.getNext tmp)
  inNodes (LL.setNext lcfg l.head nx)
  killNode C lcfg l.alloc tmp
  return { l with len := LL.dec l.len }

/-- linked_list.h:1324-1361 `push_back`, `emplace_back`. -/
def lpushBack (l : LL.Lst) (mk : Prog (LSt σ) LL.Ptr) : Prog (LSt σ) LL.Lst := do
  let node ← mk
  let pv ← inNodes (LL.getPrev l.tail)
  inNodes (LL.setNext lcfg pv node)
  inNodes (LL.setNext lcfg node l.tail)
  return { l with len := l.len + 1 }

/-- linked_list.h:1368-1376 `pop_back`. -/
def lpopBack (l : LL.Lst) : Prog (LSt σ) LL.Lst := do
  inNodes (LL.dbgAssert lcfg l.head.isSome)
  inNodes (LL.dbgAssert lcfg (l.len ≠ 0))
  let tmp ← inNodes (LL.getPrev l.tail)
  let pv ← inNodes (LL.getPrev tmp)
  inNodes (LL.setNext lcfg pv l.tail)
  killNode C lcfg l.alloc tmp
  return { l with len := LL.dec l.len }

/-- linked_list.h:1856-1886 `shorten`. -/
def lshorten (l : LL.Lst) (count : Nat) : Prog (LSt σ) LL.Lst := do
  let d := l.len - count
  let t ← if lcfg.dbl ∧ d < l.len / 2 then inNodes do
      let t ← LL.getPrev l.tail
      LL.retreat d t
    else inNodes (LL.advance count l.head)
  let p ← inNodes (LL.getNext t)
  inNodes (LL.setNext lcfg t l.tail)
  ldestroyLoop C lcfg l.alloc l.tail p
  return { l with len := count }

/-- linked_list.h:1919-1924, the loop of `extend`. -/
def lextendLoop (tail : LL.Ptr) (mk : Prog (LSt σ) LL.Ptr) : Nat → LL.Ptr → Prog (LSt σ) Unit
  | 0, _ => return ()
  | n + 1, p => do
    let tmp ← mk
    inNodes (LL.setNext lcfg p tmp)
    inNodes (LL.setNext lcfg tmp tail)
    lextendLoop tail mk n tmp

/-- linked_list.h:1908-1926 `extend(count, val)`. -/
def lextend (l : LL.Lst) (count : Nat) (mk : Prog (LSt σ) LL.Ptr) : Prog (LSt σ) LL.Lst := do
  let d := count - l.len
  let p ← if lcfg.dbl then inNodes (LL.getPrev l.tail) else inNodes (LL.advance l.len l.head)
  lextendLoop lcfg l.tail mk d p
  return { l with len := count }

/-- linked_list.h:1400-1410 `resize(count, val)`. -/
def lresizeFill (l : LL.Lst) (count : Nat) (mk : Prog (LSt σ) LL.Ptr) : Prog (LSt σ) LL.Lst :=
  if count = 0 then lclear C lcfg l
  else if count = l.len then return l
  else if count > l.len then lextend lcfg l count mk
  else lshorten C lcfg l count

/-- Constructor arguments of `List<T>` and `ForwardList<T>`; elements are given by the constructor arguments of `T`. -/
inductive EMake (E : Type) where
  /-- `List<T>(allocator)` -/
  | alloc (a : Nat)
  /-- `List<T>(n, T(m), allocator)` -/
  | fill (n : Nat) (m : E) (a : Nat)
  /-- `List<T>({T(m₀), T(m₁), ...}, allocator)` -/
  | range (ms : List E) (a : Nat)

/-- Calls on one list of objects.  Positions count from `before_begin()`. -/
inductive ECall (E D : Type) where
  | moved
  | size
  | empty
  | clear
  /-- `l = {T(m₀), T(m₁), ...}` -/
  | assign (ms : List E)
  /-- `l.push_front(T(m))` -/
  | pushFront (m : E)
  /-- `l.push_front(x)`, where `x` is element `k` of `l` (from 0) -/
  | pushFrontElem (k : Nat)
  | popFront
  /-- `l.push_back(T(m))` -/
  | pushBack (m : E)
  /-- `l.push_back(x)`, where `x` is element `k` of `l` (from 0) -/
  | pushBackElem (k : Nat)
  | popBack
  /-- `l.insert_after(pos, T(m))` -/
  | insertAfter (p : Nat) (m : E)
  /-- `l.insert_after(pos, n, T(m))` -/
  | insertAfterFill (p n : Nat) (m : E)
  | eraseAfter (p : Nat)
  | eraseAfterRange (lo hi : Nat)
  /-- `l.insert(pos, T(m))` -/
  | insert (p : Nat) (m : E)
  /-- `l.insert(pos, n, T(m))` -/
  | insertFill (p n : Nat) (m : E)
  | erase (p : Nat)
  | eraseRange (lo hi : Nat)
  /-- `l.resize(n, T(m))` -/
  | resizeFill (n : Nat) (m : E)
  /-- `l.reverse()` -/
  | reverse
  /-- `(*it).c(...)`, a call on the element at a position -/
  | elem (p : Nat) (c : D)

/-- Results of these calls; `elem r` is a result of a call on an element. -/
inductive ERet (R : Type) where
  | unit
  | num (n : Nat)
  | bool (b : Bool)
  | pos (p : Nat)
  | elem (r : R)

/-- What clients can write down about lists of objects (linked_list.h:434-1939). -/
def linkedSig (S : Sig) : Sig := ⟨EMake S.Make, ECall S.Make S.Call, ERet S.Ret⟩

/-- Nodes, elements, and the list objects at their addresses. -/
structure LWorld (σ : Type) where
  st : LSt σ
  vars : Nat → Option LL.Lst

/-- A step on nodes and elements. -/
def inLSt (f : Prog (LSt σ) β) : Prog (LWorld σ) β := fun w => f w.st >>= fun p => .ok (p.1, { w with st := p.2 })

/-- The list at address `i`; an address without list is undefined. -/
def lobj (i : Nat) : Prog (LWorld σ) LL.Lst := fun w =>
  match w.vars i with
  | none => .ub
  | some l => .ok (l, w)

/-- The members of the list at address `i` after a call; `none` after its destructor. -/
def setLobj (i : Nat) (o : Option LL.Lst) : Prog (LWorld σ) Unit := fun w => .ok ((), { w with vars := LL.upd w.vars i o })

/-- A constructor at address `i`. -/
def lcreate (i : Nat) (f : Prog (LSt σ) LL.Lst) : Prog (LWorld σ) Unit := do
  let l ← inLSt f
  setLobj i (some l)

/-- A member that may change the list at address `i`. -/
def lchange (i : Nat) {R : Type} (f : LL.Lst → Prog (LSt σ) LL.Lst) : Prog (LWorld σ) (ERet R) := do
  let l ← lobj i
  let l' ← inLSt (f l)
  setLobj i (some l')
  return .unit

/-- A member returning an iterator. -/
def lchangeP (i : Nat) {R : Type} (f : LL.Lst → Prog (LSt σ) (LL.Lst × LL.Ptr)) : Prog (LWorld σ) (ERet R) := do
  let l ← lobj i
  let q ← inLSt (f l)
  setLobj i (some q.1)
  let n ← inLSt (inNodes (LL.distFrom q.2 q.1.head 0))
  return .pos n

/-- The client's temporaries, made in order. -/
def lmakeTemps (k : Nat) : List S.Make → Prog (LSt σ) Unit
  | [] => return ()
  | m :: ms => do
    inElems (C.make m (temp k))
    lmakeTemps (k + 1) ms

/-- The first `n` temporaries are destroyed, the last one first. -/
def ldropTemps : Nat → Prog (LSt σ) Unit
  | 0 => return ()
  | n + 1 => do
    inElems (C.drop (temp n))
    ldropTemps n

/-- A statement with temporaries `T(m₀), T(m₁), ...`. -/
def withTemps (ms : List S.Make) (f : Prog (LSt σ) β) : Prog (LSt σ) β := do
  lmakeTemps C 0 ms
  let r ← f
  ldropTemps C ms.length
  return r

/-- `construct_node` with a `const T&` to temporary 0. -/
def copyNode (own : Nat) : Prog (LSt σ) LL.Ptr := nodeOf lcfg own fun d => C.copy d (temp 0)

/-- `construct_node` with temporary 0 as a `T&&`. -/
def moveNode (own : Nat) : Prog (LSt σ) LL.Ptr := nodeOf lcfg own fun d => C.move d (temp 0)

/-- Constructors (linked_list.h:451-589). -/
def emake : EMake S.Make → Nat → Prog (LWorld σ) Unit
  | .alloc a, i => lcreate i (inNodes (LL.newAlloc lcfg a))
  | .fill n m a, i => lcreate i (withTemps C [m] (lnewFill lcfg (copyNode C lcfg a) n a))
  | .range ms a, i => lcreate i (withTemps C ms (lnewRange C lcfg ms.length a))

/-- Calls on the list at address `i`. -/
def ecall : ECall S.Make S.Call → Nat → Prog (LWorld σ) (ERet S.Ret)
  -- linked_list.h:649-651
  | .moved, i => do
    let l ← lobj i
    return .bool (LL.moved l)
  -- linked_list.h:859-861
  | .size, i => do
    let l ← lobj i
    return .num l.len
  -- linked_list.h:851-853
  | .empty, i => do
    let l ← lobj i
    return .bool (l.len == 0)
  | .clear, i => lchange i (lclear C lcfg)
  | .assign ms, i => lchange i fun l => withTemps C ms (llistAssign C lcfg l ms.length)
  -- linked_list.h:1277-1280 `push_front(T&&)`
  | .pushFront m, i => lchange i fun l => withTemps C [m] (lpushFront lcfg l (moveNode C lcfg l.alloc))
  -- linked_list.h:1286-1289 `push_front(const T&)`
  | .pushFrontElem k, i => lchange i fun l => do
    let p ← inNodes (LL.iterAt l (k + 1))
    let src ← dataOf p
    lpushFront lcfg l (nodeOf lcfg l.alloc fun d => C.copy d src)
  | .popFront, i => lchange i (lpopFront C lcfg)
  -- linked_list.h:1324-1327 `push_back(T&&)`
  | .pushBack m, i => lchange i fun l => withTemps C [m] (lpushBack lcfg l (moveNode C lcfg l.alloc))
  -- linked_list.h:1337-1340 `push_back(const T&)`
  | .pushBackElem k, i => lchange i fun l => do
    let p ← inNodes (LL.iterAt l (k + 1))
    let src ← dataOf p
    lpushBack lcfg l (nodeOf lcfg l.alloc fun d => C.copy d src)
  | .popBack, i => lchange i (lpopBack C lcfg)
  -- linked_list.h:926-929 `insert_after(pos, T&&)`
  | .insertAfter p m, i => lchangeP i fun l => do
    let it ← inNodes (LL.iterAt l p)
    withTemps C [m] (lemplaceAfter lcfg l it (moveNode C lcfg l.alloc))
  | .insertAfterFill p n m, i => lchangeP i fun l => do
    let it ← inNodes (LL.iterAt l p)
    withTemps C [m] (linsertAfterFill lcfg l it n (copyNode C lcfg l.alloc))
  | .eraseAfter p, i => lchangeP i fun l => do
    let it ← inNodes (LL.iterAt l p)
    leraseAfter C lcfg l it
  | .eraseAfterRange lo hi, i => lchangeP i fun l => do
    let a ← inNodes (LL.iterAt l lo)
    let b ← inNodes (LL.iterAt l hi)
    leraseAfterRange C lcfg l a b
  -- linked_list.h:1133-1136 `insert(pos, T&&)`
  | .insert p m, i => lchangeP i fun l => do
    let it ← inNodes (LL.iterAt l p)
    withTemps C [m] (lemplace lcfg l it (moveNode C lcfg l.alloc))
  | .insertFill p n m, i => lchangeP i fun l => do
    let it ← inNodes (LL.iterAt l p)
    withTemps C [m] (linsertFill lcfg l it n (copyNode C lcfg l.alloc))
  | .erase p, i => lchangeP i fun l => do
    let it ← inNodes (LL.iterAt l p)
    lerase C lcfg l it
  | .eraseRange lo hi, i => lchangeP i fun l => do
    let a ← inNodes (LL.iterAt l lo)
    let b ← inNodes (LL.iterAt l hi)
    leraseRange C lcfg l a b
  | .resizeFill n m, i => lchange i fun l => withTemps C [m] (lresizeFill C lcfg l n (copyNode C lcfg l.alloc))
  -- linked_list.h:1640-1671: only the links of the nodes change
  | .reverse, i => lchange i fun l => inNodes (LL.reverse lcfg l)
  -- linked_list.h:170-176 `*it`
  | .elem p c, i => do
    let l ← lobj i
    let it ← inLSt (inNodes (LL.iterAt l p))
    let d ← inLSt (dataOf it)
    let r ← inLSt (inElems (C.call c d))
    return .elem r

/-- The class `List<T>` (`lcfg.dbl`) or `ForwardList<T>` (linked_list.h:434-1939) for the class `T`. -/
def linkedCls : Cls (linkedSig S) (LWorld σ) where
  start := ⟨⟨{}, C.start⟩, fun _ => none⟩
  make := emake C lcfg
  copy d e := do
    let l ← lobj e
    lcreate d (lcopyImpl C lcfg l l.alloc)
  move d e := do
    let l ← lobj e
    setLobj d (some (LL.newMove l).1)
    setLobj e (some (LL.newMove l).2)
  -- linked_list.h:603-605 `if (&rhs == this) return *this;`
  copyAssign d e := if d = e then do
      let _ ← lobj d
      return ()
    else do
      let o ← lobj e
      let l ← lobj d
      let l' ← inLSt (lcopyAssign C lcfg l o)
      setLobj d (some l')
  -- linked_list.h:613-615
  moveAssign d e := if d = e then do
      let _ ← lobj d
      return ()
    else do
      let l ← lobj d
      let o ← lobj e
      let q ← inLSt (lmoveAssign C lcfg l o)
      setLobj d (some q.1)
      setLobj e (some q.2)
  drop i := do
    let l ← lobj i
    inLSt (ldestruct C lcfg l)
    setLobj i none
  call := ecall C lcfg
  idle w := w.st.nodes.ctors = w.st.nodes.dtors ∧ w.st.nodes.newBytes = w.st.nodes.freeBytes ∧ C.idle w.st.objs

/-! ## Options of objects

The object in an `Option<T>` at address `i` has address `cell i`. -/

/-- Constructors of options of objects (option.h:20-29, 181-183). -/
inductive OMake (E : Type) where
  /-- `Option<T>::none()` -/
  | none
  /-- `Option<T>::some(T(m))`, also `Option<T>::emplace(...)` -/
  | some (m : E)
  /-- `T t(m); Option<T>::some(t)`, and `t` ends -/
  | someCopy (m : E)

/-- Calls on an option. -/
inductive OCall (D : Type) where
  | isSome
  | isNone
  /-- `o.unwrap();` -/
  | take
  /-- `o.unwrap().c(...)` -/
  | unwrap (c : D)
  /-- `o.as_ref().c(...)` -/
  | asRef (c : D)
  /-- `o.map([](T x) { return x.c(...); })` -/
  | map (c : D)

/-- Results of these calls; `elem r` is a result of a call on the object in the option. -/
inductive ORet (R : Type) where
  | unit
  | bool (b : Bool)
  | elem (r : R)
  | opt (r : Option R)

/-- What clients can write down about options of objects (option.h:14-215). -/
def optionSig (S : Sig) : Sig := ⟨OMake S.Make, OCall S.Call, ORet S.Ret⟩

/-- The fields `hold_value` of the options, and the objects (option.h:207-214). -/
structure OWorld (σ : Type) where
  holds : Nat → Option Bool
  objs : σ

/-- A call of a member of `T`. -/
def inVal (f : Prog σ β) : Prog (OWorld σ) β := fun w => f w.objs >>= fun p => .ok (p.1, { w with objs := p.2 })

/-- `hold_value` of the option at address `i` (option.h:214); undefined if there is none. -/
def held (i : Nat) : Prog (OWorld σ) Bool := fun w =>
  match w.holds i with
  | none => .ub
  | some b => .ok (b, w)

/-- Write `hold_value` (option.h:214); `none`: the option at this address ends. -/
def setHeld (i : Nat) (b : Option Bool) : Prog (OWorld σ) Unit := fun w =>
  .ok ((), { w with holds := fun j => if j = i then b else w.holds j })

/-- option.h:202-206 `reset`. -/
def oreset (i : Nat) : Prog (OWorld σ) Unit := do
  inVal (C.drop (cell i))
  setHeld i (some false)

/-- option.h:44-48 `unwrap_unchecked`; `res` is temporary 0 (simplification: `return res` constructs no further object). -/
def ounwrapUnchecked (i : Nat) : Prog (OWorld σ) Unit := do
  inVal (C.move (temp 0) (cell i))
  oreset C i

/-- option.h:20-29, 181-183 the constructors. -/
def omake : OMake S.Make → Nat → Prog (OWorld σ) Unit
  | .none, i => setHeld i (some false)
  | .some m, i => do
    inVal (C.make m (temp 0))
    inVal (C.move (cell i) (temp 0))
    setHeld i (some true)
    inVal (C.drop (temp 0))
  | .someCopy m, i => do
    inVal (C.make m (temp 0))
    inVal (C.copy (cell i) (temp 0))
    setHeld i (some true)
    inVal (C.drop (temp 0))

/-- The members of options (option.h:31-89). -/
def ocall : OCall S.Call → Nat → Prog (OWorld σ) (ORet S.Ret)
  -- option.h:31
  | .isSome, i => do
    let b ← held i
    return .bool b
  -- option.h:32
  | .isNone, i => do
    let b ← held i
    return .bool (!b)
  -- option.h:35-41
  | .take, i => do
    let b ← held i
    if b then do
      ounwrapUnchecked C i
      inVal (C.drop (temp 0))
      return .unit
    else Prog.panic
  | .unwrap c, i => do
    let b ← held i
    if b then do
      ounwrapUnchecked C i
      let r ← inVal (C.call c (temp 0))
      inVal (C.drop (temp 0))
      return .elem r
    else Prog.panic
  -- option.h:51-57, 69-71
  | .asRef c, i => do
    let b ← held i
    if b then do
      let r ← inVal (C.call c (cell i))
      return .elem r
    else Prog.panic
  -- option.h:82-89; the parameter of the function is temporary 0
  | .map c, i => do
    let b ← held i
    if b then do
      inVal (C.move (temp 0) (cell i))
      let r ← inVal (C.call c (temp 0))
      inVal (C.drop (temp 0))
      return .opt (some r)
    else return .opt none

/-- The class `Option<T>` (option.h:14-215), where `T` is the class `C`. -/
def optionCls : Cls (optionSig S) (OWorld σ) where
  start := ⟨fun _ => none, C.start⟩
  make := omake C
  -- option.h:136-145
  copy d e := do
    let x ← held e
    setHeld d (some x)
    if x then inVal (C.copy (cell d) (cell e)) else return ()
  -- option.h:94-104
  move d e := do
    let x ← held e
    setHeld d (some x)
    if x then do
      inVal (C.move (cell d) (cell e))
      oreset C e
    else return ()
  -- option.h:150-170
  copyAssign d e := if d = e then do
      let _ ← held d
      return ()
    else do
      let t ← held d
      let x ← held e
      if t = x then
        if t then inVal (C.copyAssign (cell d) (cell e)) else return ()
      else do
        setHeld d (some x)
        if x then inVal (C.copy (cell d) (cell e)) else inVal (C.drop (cell d))
  -- option.h:109-131
  moveAssign d e := if d = e then do
      let _ ← held d
      return ()
    else do
      let t ← held d
      let x ← held e
      if t = x then
        if t then inVal (C.moveAssign (cell d) (cell e)) else return ()
      else do
        setHeld d (some x)
        if x then do
          inVal (C.move (cell d) (cell e))
          oreset C e
        else inVal (C.drop (cell d))
  -- option.h:172-178
  drop i := do
    let x ← held i
    if x then inVal (C.drop (cell i)) else pure ()
    setHeld i none
  call := ocall C
  idle w := C.idle w.objs

/-! ## Any depth, and programs -/

/-- `Vector<α>`, `List<α>`, `ForwardList<α>`, `BasicString`, vectors, linked lists and options of these, vectors of options of lists of these, ...;
the numbers of bytes and the failing allocations of each level. -/
inductive Shape (α : Type) where
  | values (ety : ElemTy α)
  | lists (cfg : LL.Cfg α)
  | texts (enc : BStr.Enc) (refuse : Nat → Nat → Bool)
  | vector (ty : ElemTy Unit) (elems : Shape α)
  | linked (cfg : LL.Cfg Unit) (elems : Shape α)
  | option (elem : Shape α)

/-- What clients can write down at this depth. -/
def Shape.sig : Shape α → Sig
  | .values _ => valueSig α
  | .lists _ => listSig α
  | .texts _ _ => textSig
  | .vector _ s => vectorSig s.sig
  | .linked _ s => linkedSig s.sig
  | .option s => optionSig s.sig

/-- The memory of all levels. -/
def Shape.State : Shape α → Type
  | .values _ => Vector.World α
  | .lists _ => LL.World α
  | .texts _ _ => BStr.World
  | .vector _ s => NWorld s.State
  | .linked _ s => LWorld s.State
  | .option s => OWorld s.State

/-- The class at this depth: `Vector` (vector.h:60-893), `List` and `ForwardList` (linked_list.h:434-1939) and `Option` (option.h:14-215)
applied as often as the shape says. -/
def Shape.cls : (s : Shape α) → Cls s.sig s.State
  | .values ety => valueVectorCls ety
  | .lists cfg => listCls cfg
  | .texts enc refuse => textCls (textCfg enc refuse)
  | .vector ty s => vectorCls ty s.cls
  | .linked cfg s => linkedCls s.cls cfg
  | .option s => optionCls s.cls

/-- A program over any number of objects of one class. -/
inductive NOp (S : Sig) where
  /-- `T x_i(m)` -/
  | make (i : Nat) (m : S.Make)
  /-- `T x_i(x_j)` -/
  | copy (i j : Nat)
  /-- `T x_i(std::move(x_j))` -/
  | move (i j : Nat)
  /-- `x_i = x_j` -/
  | copyAssign (i j : Nat)
  /-- `x_i = std::move(x_j)` -/
  | moveAssign (i j : Nat)
  /-- the end of the life of `x_i` -/
  | drop (i : Nat)
  /-- `x_i.c(...)` -/
  | call (i : Nat) (c : S.Call)

/-- One statement; `none` for a statement without result. -/
def nstep : NOp S → Prog σ (Option S.Ret)
  | .make i m => do C.make m i; return none
  | .copy i j => do C.copy i j; return none
  | .move i j => do C.move i j; return none
  | .copyAssign i j => do C.copyAssign i j; return none
  | .moveAssign i j => do C.moveAssign i j; return none
  | .drop i => do C.drop i; return none
  | .call i c => do
    let r ← C.call c i
    return some r

/-- A program: its statements one after the other. -/
def nrun : List (NOp S) → Prog σ (List (Option S.Ret))
  | [] => return []
  | op :: ops => do
    let r ← nstep C op
    let rs ← nrun ops
    return r :: rs

end Verif.Model.Nested
