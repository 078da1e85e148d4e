import Verif.Model.NestedCmp
/-!
# Arrays whose elements are objects that own memory themselves

`Array<T, N>` holds its elements in place: the address of element `k` of the array at address `i` is `slot i k`.
-/
namespace Verif.Model.Nested
open Verif Verif.Model.Mem

variable {S : Sig} {σ β : Type}

/-- Constructors: array.h:164 `Array<T, N> a{}`, array.h:165-178 `Array<T, N> a{e0, e1, ...}` with temporaries `e0`, `e1`, ...;
array.h:179-183 `T raw[N] = {e0, e1, ...}; Array<T, N> a(raw);`, after which `raw` ends. -/
inductive AMake (M : Type) where
  | dflt
  | list (ms : List M)
  | raw (ms : List M)

/-- Calls: array.h:258-271 `a[k].c()`, `a[k] = T(m)`, array.h:274 `size()`. -/
inductive ACall (M C : Type) where
  | at (k : Nat) (c : C)
  | set (k : Nat) (m : M)
  | size

/-- Results of the calls (array.h:258-274). -/
inductive ARet (R : Type) where
  | elem (r : R)
  | unit
  | num (n : Nat)

/-- What clients can write down about an array (array.h:156-298). -/
def arraySig (S : Sig) : Sig := ⟨AMake S.Make, ACall S.Make S.Call, ARet S.Ret⟩

/-- The arrays of a program: which addresses hold one (array.h:156-298), and the elements. -/
structure AWorld (σ : Type) where
  alive : Nat → Bool
  objs : σ

/-- Steps on the elements (array.h:297). -/
def inArrays (f : Prog σ β) : Prog (AWorld σ) β := fun w => f w.objs >>= fun p => .ok (p.1, { w with objs := p.2 })

/-- Members of an array (array.h:156-298) that does not exist are undefined. -/
def theArray (i : Nat) : Prog (AWorld σ) Unit := fun w => if w.alive i then .ok ((), w) else .ub

/-- The life of an array begins or ends (array.h:156-298). -/
def setArray (i : Nat) (b : Bool) : Prog (AWorld σ) Unit := fun w => .ok ((), { w with alive := fun j => if j = i then b else w.alive j })

/-- `for (usize k = i; k < i + n; k++) f(k)`, the loops of array.h:171-216. -/
def upTo (i : Nat) : Nat → (Nat → Prog σ Unit) → Prog σ Unit
  | 0, _ => return ()
  | n + 1, f => do
    f i
    upTo (i + 1) n f

/-- `for (usize k = n; k-- > 0;) f(k)`: arrays (array.h:297) are destroyed from the end. -/
def downFrom : Nat → (Nat → Prog σ Unit) → Prog σ Unit
  | 0, _ => return ()
  | n + 1, f => do
    f n
    downFrom n f

variable (C : Cls S σ) (dm : S.Make) (N : Nat)

/-- array.h:297 `T values[N]`: the elements are default-constructed; `dm` is the default constructor of `T`. -/
def adefault (i : Nat) : Prog σ Unit := upTo 0 N fun k => C.make dm (slot i k)

/-- The elements of a list or a C array (arguments of array.h:165-183), as temporaries 1, 2, ... -/
def atemps (ms : List S.Make) : Prog σ Unit := upTo 0 ms.length fun k => match ms[k]? with
  | some m => C.make m (temp (k + 1))
  | none => Prog.ub

/-- The end of these (arguments of array.h:165-183). -/
def aended (n : Nat) : Prog σ Unit := downFrom n fun k => C.drop (temp (k + 1))

/-- array.h:165-178: the list is made of temporaries (1, 2, ...); each is copied to `ele` (temporary 0), which is move-assigned to the element.
L174-176: the loop ends at `N` elements.  array.h:179-183: the elements are copy-assigned; a C array of another length is another type. -/
def amake : AMake S.Make → Nat → Prog σ Unit
  | .dflt, i => adefault C dm N i
  | .list ms, i => do
    atemps C ms
    adefault C dm N i
    if ms.length > N then Prog.panic
    else do
      upTo 0 ms.length fun k => do
        C.copy (temp 0) (temp (k + 1))
        C.moveAssign (slot i k) (temp 0)
        C.drop (temp 0)
      aended C ms.length
  | .raw ms, i => do
    atemps C ms
    adefault C dm N i
    upTo 0 N fun k => C.copyAssign (slot i k) (temp (k + 1))
    aended C ms.length

/-- array.h:258-271 `operator[]` and a call of a member of the element, or assignment of a temporary to it; array.h:274. -/
def acall (i : Nat) : ACall S.Make S.Call → Prog (AWorld σ) (ARet S.Ret)
  | .at k c => do
    theArray i
    if k ≥ N then Prog.panic
    else do
      let r ← inArrays (C.call c (slot i k))
      return .elem r
  | .set k m => do
    theArray i
    if k ≥ N then Prog.panic
    else do
      inArrays do
        C.make m (temp 0)
        C.moveAssign (slot i k) (temp 0)
        C.drop (temp 0)
      return .unit
  | .size => do
    theArray i
    return .num N

/-- The class `Array<T, N>` (array.h:156-298), where `T` is the class `C`. -/
def arrayCls : Cls (arraySig S) (AWorld σ) where
  start := ⟨fun _ => false, C.start⟩
  make m i := do
    inArrays (amake C dm N m i)
    setArray i true
  -- array.h:185, defaulted: the elements are copied in order
  copy d e := do
    theArray e
    inArrays (upTo 0 N fun k => C.copy (slot d k) (slot e k))
    setArray d true
  -- array.h:201-206: the elements are default-constructed, then move-assigned
  move d e := do
    theArray e
    inArrays (adefault C dm N d)
    inArrays (upTo 0 N fun k => C.moveAssign (slot d k) (slot e k))
    setArray d true
  -- array.h:186-196
  copyAssign d e := do
    theArray d
    theArray e
    if d = e then return ()
    else inArrays (upTo 0 N fun k => C.copyAssign (slot d k) (slot e k))
  -- array.h:207-218
  moveAssign d e := do
    theArray d
    theArray e
    if d = e then return ()
    else inArrays (upTo 0 N fun k => C.moveAssign (slot d k) (slot e k))
  -- implicit destructor
  drop i := do
    theArray i
    inArrays (downFrom N fun k => C.drop (slot i k))
    setArray i false
  call c i := acall C N i c
  idle w := C.idle w.objs

/-- array.h:233-237, the loop of `operator==`, where `eq` is `==` of the elements (and `!=` its negation). -/
def aeqLoop (eq : Nat → Nat → Prog σ Bool) (d e i : Nat) : Nat → Prog σ Bool
  | 0 => return true
  | n + 1 => do
    let t ← eq (slot d i) (slot e i)
    if t then aeqLoop eq d e (i + 1) n else return false

/-- array.h:232-240 `operator==` of the arrays at two addresses. -/
def arrayEq (eq : Nat → Nat → Prog σ Bool) (d e : Nat) : Prog (AWorld σ) Bool := do
  theArray d
  theArray e
  inArrays (aeqLoop eq d e 0 N)

end Verif.Model.Nested
