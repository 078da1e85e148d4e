import Verif.Model.Array
/-!
# Histories of `Array` and of its owning iterator (include/mstl/collection/array.h)

A world of array variables and `ArrayIter` variables.  The length `N` of a variable is fixed when it is declared; operations
between variables of different `N` are different types in C++ and are `ub` here.
-/
namespace Verif.Model.Array
open Verif Verif.Model.Range

variable {α : Type}

/-- `for (pos = 0; pos < N; pos++) dst[pos] = src[pos];` (array.h:34-36, 192-194); `n` iterations are left. -/
def copyLoop (src : Cells α) (pos : Nat) : (n : Nat) → Cells α → Out (Cells α)
  | 0, dst => .ok dst
  | n + 1, dst => do
    let v ← readCell src pos
    let dst ← writeCell dst pos v
    copyLoop src (pos + 1) n dst

/-- `for (pos = 0; pos < N; pos++) dst[pos] = std::move(src[pos]);` (array.h:47-49, 56-58, 203-205, 213-215). -/
def moveLoop (E : Elem α) (pos : Nat) : (n : Nat) → Cells α → Cells α → Out (Cells α × Cells α)
  | 0, src, dst => .ok (src, dst)
  | n + 1, src, dst => do
    let (v, src) ← moveCell E src pos
    let dst ← writeCell dst pos v
    moveLoop E (pos + 1) n src dst

/-- array.h:185 defaulted copy constructor: copies every element. -/
def copyCtor (N : Nat) (src : Cells α) : Out (Cells α) := copyLoop src 0 N (List.replicate N none)

/-- array.h:201-206 move constructor: default-initialises, then move-assigns.  The source comes first in the result. -/
def moveCtor (E : Elem α) (N : Nat) (src : Cells α) : Out (Cells α × Cells α) :=
  moveLoop E 0 N src (List.replicate N E.dflt)

/-- `for (auto x : arr)`: array.h:276-294 `begin`, `end` are pointers into `values`; `n` elements are left. -/
def readLoop (c : Cells α) (pos : Nat) : (n : Nat) → Out (List α)
  | 0 => .ok []
  | n + 1 => do
    let v ← readCell c pos
    let vs ← readLoop c (pos + 1) n
    return v :: vs

/-- array.h:27 defaulted copy constructor of `ArrayIter`. -/
def ArrayIter.copyCtor (N : Nat) (it : ArrayIter α) : Out (ArrayIter α) := do
  let data ← Array.copyCtor N it.data
  return ⟨data, it.range⟩

/-- array.h:28-38 copy assignment of `ArrayIter`: `range` is not assigned. -/
def ArrayIter.copyAssign (N : Nat) (this other : ArrayIter α) : Out (ArrayIter α) := do
  let data ← copyLoop other.data 0 N this.data
  return { this with data }

/-- array.h:43-51 move constructor of `ArrayIter`. -/
def ArrayIter.moveCtor (E : Elem α) (N : Nat) (other : ArrayIter α) : Out (ArrayIter α × ArrayIter α) := do
  let (src, data) ← moveLoop E 0 N other.data (List.replicate N E.dflt)
  return ({ other with data := src }, ⟨data, other.range⟩)

/-- array.h:86-89 `is_empty`. -/
def ArrayIter.isEmpty (it : ArrayIter α) : Bool := it.range.isEmpty

structure World (α : Type) where
  arr : Nat → Option (Nat × Cells α)
  it : Nat → Option (Nat × ArrayIter α)

abbrev M (α : Type) := Prog (World α)

def getArr (i : Nat) : M α (Nat × Cells α) := fun w =>
  match w.arr i with
  | some a => .ok (a, w)
  | none => .ub
def setArr (i N : Nat) (c : Cells α) : M α Unit := fun w =>
  .ok ((), { w with arr := fun k => if k = i then some (N, c) else w.arr k })
def getIt (i : Nat) : M α (Nat × ArrayIter α) := fun w =>
  match w.it i with
  | some a => .ok (a, w)
  | none => .ub
def setIt (i N : Nat) (t : ArrayIter α) : M α Unit := fun w =>
  .ok ((), { w with it := fun k => if k = i then some (N, t) else w.it k })
def fresh (i : Nat) : M α Unit := fun w => if (w.arr i).isNone then .ok ((), w) else .ub
def freshIt (i : Nat) : M α Unit := fun w => if (w.it i).isNone then .ok ((), w) else .ub
def dropArr (i : Nat) : M α Unit := fun w => .ok ((), { w with arr := fun k => if k = i then none else w.arr k })
def dropIt (i : Nat) : M α Unit := fun w => .ok ((), { w with it := fun k => if k = i then none else w.it k })
def lift {β : Type} (x : Out β) : M α β := fun w => x >>= fun b => .ok (b, w)

/-- Calls of a client. -/
inductive Op (α : Type) where
  | newDefault (i N : Nat)
  | newZero (i N : Nat)
  | newList (i N : Nat) (xs : List α)
  | newRaw (i : Nat) (xs : List α)
  | newCopy (i j : Nat)
  | newMove (i j : Nat)
  | copyAssign (i j : Nat)
  | moveAssign (i j : Nat)
  | get (i p : Nat)
  | set (i p : Nat) (x : α)
  | size (i : Nat)
  | eq (i j : Nat)
  | forEach (i : Nat)
  | drop (i : Nat)
  | intoIter (k i : Nat)
  | next (k : Nat)
  | isEmpty (k : Nat)
  | itCopy (k l : Nat)
  | itMove (k l : Nat)
  | itCopyAssign (k l : Nat)
  | itMoveAssign (k l : Nat)
  | itDrop (k : Nat)

inductive Ret (α : Type) where
  | unit
  | num (n : Nat)
  | bool (b : Bool)
  | val (x : α)
  | opt (o : Option α)
  | vals (xs : List α)

def step (E : Elem α) (ne : α → α → Bool) : Op α → M α (Ret α)
  /- array.h:164 `Array() = default`, as in `Array<T, N> a;` -/
  | .newDefault i N => do
    fresh i
    setArr i N (List.replicate N E.dflt)
    return .unit
  /- array.h:164 as in `Array<T, N> a{};`: value-initialisation -/
  | .newZero i N => do
    fresh i
    setArr i N (List.replicate N (some E.zero))
    return .unit
  | .newList i N xs => do
    fresh i
    let c ← lift (ofInitList E N xs)
    setArr i N c
    return .unit
  | .newRaw i xs => do
    fresh i
    setArr i xs.length (ofRaw xs.length xs)
    return .unit
  | .newCopy i j => do
    fresh i
    let (N, src) ← getArr j
    let c ← lift (copyCtor N src)
    setArr i N c
    return .unit
  | .newMove i j => do
    fresh i
    let (N, src) ← getArr j
    let (src, c) ← lift (moveCtor E N src)
    setArr j N src
    setArr i N c
    return .unit
  /- array.h:186-196 -/
  | .copyAssign i j => do
    let (N, dst) ← getArr i
    let (N', src) ← getArr j
    if N ≠ N' then Prog.ub
    else if i = j then return .unit
    else do
      let c ← lift (copyLoop src 0 N dst)
      setArr i N c
      return .unit
  /- array.h:207-218 -/
  | .moveAssign i j => do
    let (N, dst) ← getArr i
    let (N', src) ← getArr j
    if N ≠ N' then Prog.ub
    else if i = j then return .unit
    else do
      let (src, c) ← lift (moveLoop E 0 N src dst)
      setArr j N src
      setArr i N c
      return .unit
  | .get i p => do
    let (N, c) ← getArr i
    let p ← lift (index N p)
    let v ← lift (readCell c p)
    return .val v
  | .set i p x => do
    let (N, c) ← getArr i
    let p ← lift (index N p)
    let c ← lift (writeCell c p x)
    setArr i N c
    return .unit
  /- array.h:273-274 -/
  | .size i => do
    let (N, _) ← getArr i
    return .num N
  | .eq i j => do
    let (N, a) ← getArr i
    let (N', b) ← getArr j
    if N ≠ N' then Prog.ub
    else do
      let b ← lift (eqLoop ne a b)
      return .bool b
  | .forEach i => do
    let (N, c) ← getArr i
    let vs ← lift (readLoop c 0 N)
    return .vals vs
  | .drop i => do
    let _ ← getArr i
    dropArr i
    return .unit
  | .intoIter k i => do
    freshIt k
    let (N, c) ← getArr i
    let (t, c) ← lift (Array.intoIter E N c)
    setArr i N c
    setIt k N t
    return .unit
  | .next k => do
    let (N, t) ← getIt k
    let (x, t) ← lift (t.next E)
    setIt k N t
    return .opt x
  | .isEmpty k => do
    let (_, t) ← getIt k
    return .bool t.isEmpty
  | .itCopy k l => do
    freshIt k
    let (N, t) ← getIt l
    let t ← lift (t.copyCtor N)
    setIt k N t
    return .unit
  | .itMove k l => do
    freshIt k
    let (N, t) ← getIt l
    let (s, t) ← lift (t.moveCtor E N)
    setIt l N s
    setIt k N t
    return .unit
  | .itCopyAssign k l => do
    let (N, t) ← getIt k
    let (N', s) ← getIt l
    if N ≠ N' then Prog.ub
    else if k = l then return .unit
    else do
      let t ← lift (t.copyAssign N s)
      setIt k N t
      return .unit
  /- array.h:52-60: between different objects the function ends without a return statement -/
  | .itMoveAssign k l => do
    let (N, _) ← getIt k
    let (N', _) ← getIt l
    if N ≠ N' then Prog.ub
    else if k = l then return .unit
    else Prog.ub
  | .itDrop k => do
    let _ ← getIt k
    dropIt k
    return .unit

def run (E : Elem α) (ne : α → α → Bool) : List (Op α) → M α (List (Ret α))
  | [] => pure []
  | op :: ops => do
    let r ← step E ne op
    let rs ← run E ne ops
    return r :: rs

def World.init : World α := ⟨fun _ => none, fun _ => none⟩

end Verif.Model.Array
