import Verif.Model.Nested
import Verif.Spec.Vector
import Verif.Spec.LinkedList
import Verif.Spec.BString
/-!
# Specification: vectors, linked lists and options of objects are lists and options of their values

Only signatures and programs are shared with the model.  A `Meaning` says what an object of a class is worth: a value
of type `V`; what value a constructor gives, what copying and moving give and leave behind, what a member answers.
There are no addresses, buffers or allocations here: a copy is a value of its own, a destroyed object is no value.

The meaning of `Vector<T>` is the list of the meanings of its elements, with the two numbers a client can observe, the
capacity and the allocator (`Var`, as for vectors of values).  The meaning of `List<T>` and `ForwardList<T>` is the list of the meanings of
its elements, or nothing after a move, with the allocator (`Spec.LL.Var`, as for lists of values).
-/
namespace Verif.Spec.Nested
open Verif
open Verif.Model.Nested (Sig VMake VCall VRet vectorSig EMake ECall ERet linkedSig OMake OCall ORet optionSig BMake BCall valueSig LMake LCall listSig TMake TCall textSig Shape NOp)
open Verif.Spec.Vector (Var afterPush afterPushes specStep)

/-- What the objects of a class are worth.  `none`: the client may not do that. -/
structure Meaning (S : Sig) (V : Type) where
  /-- a new object -/
  val : S.Make → Option V
  /-- a copy of an object -/
  cp : V → V
  /-- the client may copy such an object -/
  cpOk : V → Bool
  /-- what is left of an object from which another was move-constructed -/
  left : V → V
  /-- what is left of the source (second) of a move assignment to the target (first) -/
  leftInto : V → V → V
  /-- the target (first) after copy assignment from the source (second) -/
  cpAssign : V → V → V
  /-- the client may assign to the target (first) from the source (second), copying or moving; two objects -/
  cpInto : V → V → Bool
  mvInto : V → V → Bool
  /-- a call: result and new value -/
  run : S.Call → V → Option (S.Ret × V)

variable {S : Sig} {V : Type}

/-- A new vector.  The copies in a list or fill constructor are copies of the temporaries. -/
def vval (size : Nat) (μ : Meaning S V) : VMake S.Make → Option (Var V)
  | .dflt => some ⟨[], 2, 0⟩
  | .alloc a => some ⟨[], 0, a⟩
  | .list ms a => (ms.mapM μ.val).bind fun xs =>
    if xs.length * size < wordSize then some ⟨xs.map μ.cp, xs.length, a⟩ else none
  | .fill n m a => (μ.val m).bind fun x =>
    if n * size < wordSize then some ⟨List.replicate n (μ.cp x), n, a⟩ else none

/-- The elements after copy assignment between vectors with the same allocator: elements present on both sides are
assigned, the others copied. -/
def assigned (μ : Meaning S V) : List V → List V → List V
  | t :: ts, x :: xs => μ.cpAssign t x :: assigned μ ts xs
  | [], xs => xs.map μ.cp
  | _, [] => []

/-- The assignments in `assigned` are allowed. -/
def assignedOk (μ : Meaning S V) : List V → List V → Bool
  | t :: ts, x :: xs => μ.cpInto t x && assignedOk μ ts xs
  | _, _ => true

/-- Moving each object but the first one place to the front is allowed. -/
def shiftOk (μ : Meaning S V) : List V → Bool
  | [] => true
  | t :: xs => go t xs
where
  go (t : V) : List V → Bool
    | [] => true
    | x :: xs => μ.mvInto t x && go (μ.leftInto t x) xs

def vrun (size : Nat) (μ : Meaning S V) : VCall S.Make S.Call → Var V → Option (VRet S.Ret × Var V)
  | .size, v => some (.num v.xs.length, v)
  | .capacity, v => some (.num v.cap, v)
  | .reserve n, v => if n * size < wordSize then some (.unit, ⟨v.xs, max v.cap n, v.alloc⟩) else none
  | .clear, v => some (.unit, ⟨[], 0, v.alloc⟩)
  | .push m, v => (μ.val m).bind fun x => some (.unit, ⟨v.xs ++ [x], afterPush v.xs.length v.cap, v.alloc⟩)
  -- only while there is room, see `C122_own_element_fails`
  | .pushElem k, v => v.xs[k]?.bind fun x =>
    if v.xs.length < v.cap ∧ μ.cpOk x = true then some (.unit, ⟨v.xs ++ [μ.cp x], v.cap, v.alloc⟩) else none
  | .pop, v => if v.xs = [] then none else some (.unit, ⟨v.xs.dropLast, v.cap, v.alloc⟩)
  | .erase p, v => if p < v.xs.length ∧ shiftOk μ (v.xs.drop p) = true then some (.pos (some p), ⟨v.xs.eraseIdx p, v.cap, v.alloc⟩) else none
  -- not at the front, see `C122_insert_front_fails`
  | .insert p m, v => (μ.val m).bind fun x => if 1 ≤ p ∧ p ≤ v.xs.length then
      some (.pos (some p), ⟨v.xs.take p ++ x :: v.xs.drop p, afterPush v.xs.length v.cap, v.alloc⟩)
    else none
  | .insertElem p k, v => v.xs[k]?.bind fun x => if (1 ≤ p ∧ p ≤ v.xs.length) ∧ μ.cpOk x = true then
      some (.pos (some p), ⟨v.xs.take p ++ μ.cp x :: v.xs.drop p, afterPush v.xs.length v.cap, v.alloc⟩)
    else none
  | .insertFill p n m, v => (μ.val m).bind fun x =>
    if 1 ≤ p ∧ p ≤ v.xs.length ∧ 1 ≤ n ∧ (v.xs.length + n) * size < wordSize then
      some (.pos (some p), ⟨v.xs.take p ++ (List.replicate n (μ.cp x) ++ v.xs.drop p), max v.cap (v.xs.length + n), v.alloc⟩)
    else none
  | .fill n m, v => (μ.val m).bind fun x =>
    if n * size < wordSize then some (.unit, ⟨List.replicate n (μ.cp x), max v.cap n, v.alloc⟩) else none
  | .resize n m, v => (μ.val m).bind fun x =>
    if n * size < wordSize then
      some (.unit, ⟨v.xs.take n ++ List.replicate (n - v.xs.length) (μ.cp x), max v.cap n, v.alloc⟩)
    else none
  | .setElem k l, v => v.xs[k]?.bind fun t => v.xs[l]?.bind fun x =>
    if μ.cpOk x = false then none
    else if k = l then some (.unit, v)
    else if μ.cpInto t x = false then none
    else some (.unit, ⟨v.xs.set k (μ.cpAssign t x), v.cap, v.alloc⟩)
  | .moveElem k l, v => v.xs[k]?.bind fun t => v.xs[l]?.bind fun x =>
    if k = l then some (.unit, v)
    else if μ.mvInto t x = false then none
    else some (.unit, ⟨(v.xs.set k x).set l (μ.leftInto t x), v.cap, v.alloc⟩)
  | .elem k c, v => v.xs[k]?.bind fun x => (μ.run c x).bind fun p =>
    some (.elem p.1, ⟨v.xs.set k p.2, v.cap, v.alloc⟩)

/-- The meaning of `Vector<T>`; `size` is the number of bytes of a `T`. -/
def vectorMeaning (size : Nat) (μ : Meaning S V) : Meaning (vectorSig S) (Var V) where
  val := vval size μ
  cp w := ⟨w.xs.map μ.cp, w.xs.length, 0⟩
  cpOk w := w.xs.all μ.cpOk
  left w := ⟨[], 0, w.alloc⟩
  leftInto _ w := ⟨[], 0, w.alloc⟩
  cpAssign v w :=
    if v.alloc = w.alloc then ⟨assigned μ v.xs w.xs, max v.cap w.cap, v.alloc⟩
    else ⟨w.xs.map μ.cp, w.xs.length, v.alloc⟩
  cpInto v w := v.alloc != w.alloc || assignedOk μ v.xs w.xs
  mvInto _ _ := true
  run := vrun size μ

/-! ## Linked lists of objects -/

/-- A new linked list.  As for vectors, its elements are copies of the temporaries. -/
def lval (μ : Meaning S V) : EMake S.Make → Option (Spec.LL.Var V)
  | .alloc a => some ⟨some [], a⟩
  | .fill n m a => (μ.val m).map fun x => ⟨some (List.replicate n (μ.cp x)), a⟩
  | .range ms a => (ms.mapM μ.val).map fun xs => ⟨some (xs.map μ.cp), a⟩

/-- A call on a list that was not moved from: result and new contents. -/
def onItems {R : Type} (v : Spec.LL.Var V) (f : List V → Option (R × List V)) : Option (R × Spec.LL.Var V) :=
  v.items.bind fun xs => (f xs).map fun p => (p.1, ⟨some p.2, v.alloc⟩)

/-- Calls on a linked list; `dbl`: it is a `List`, otherwise a `ForwardList`, which has no `push_back`, `pop_back`, `insert` and `erase`.
Positions count from `before_begin()`: 0 is `before_begin()`, `1, …, size()` the elements, `size() + 1` is `end()`. -/
def lrun (dbl : Bool) (μ : Meaning S V) : ECall S.Make S.Call → Spec.LL.Var V → Option (ERet S.Ret × Spec.LL.Var V)
  | .moved, v => some (.bool v.items.isNone, v)
  | .size, v => onItems v fun xs => some (.num xs.length, xs)
  | .empty, v => onItems v fun xs => some (.bool xs.isEmpty, xs)
  | .clear, v => onItems v fun _ => some (.unit, [])
  | .assign ms, v => (ms.mapM μ.val).bind fun ys => onItems v fun _ => some (.unit, ys.map μ.cp)
  | .pushFront m, v => (μ.val m).bind fun x => onItems v fun xs => some (.unit, x :: xs)
  | .pushFrontElem k, v => onItems v fun xs => xs[k]?.bind fun x => if μ.cpOk x = true then some (.unit, μ.cp x :: xs) else none
  | .popFront, v => onItems v fun xs => if xs ≠ [] then some (.unit, xs.tail) else none
  | .pushBack m, v => (μ.val m).bind fun x => onItems v fun xs => if dbl = true then some (.unit, xs ++ [x]) else none
  | .pushBackElem k, v => onItems v fun xs => xs[k]?.bind fun x =>
    if dbl = true ∧ μ.cpOk x = true then some (.unit, xs ++ [μ.cp x]) else none
  | .popBack, v => onItems v fun xs => if dbl = true ∧ xs ≠ [] then some (.unit, xs.dropLast) else none
  | .insertAfter p m, v => (μ.val m).bind fun x => onItems v fun xs =>
    if p ≤ xs.length then some (.pos (p + 1), xs.take p ++ x :: xs.drop p) else none
  | .insertAfterFill p n m, v => (μ.val m).bind fun x => onItems v fun xs =>
    if p ≤ xs.length then some (.pos (if n = 0 then p else p + 1), xs.take p ++ (List.replicate n (μ.cp x) ++ xs.drop p)) else none
  | .eraseAfter p, v => onItems v fun xs => if p ≤ xs.length then some (.pos (p + 1), xs.take p ++ xs.drop (p + 1)) else none
  | .eraseAfterRange lo hi, v => onItems v fun xs => if lo ≤ hi ∧ hi ≤ xs.length + 1 then
      if lo = hi then some (.pos lo, xs) else some (.pos (lo + 1), xs.take lo ++ xs.drop (hi - 1))
    else none
  | .insert p m, v => (μ.val m).bind fun x => onItems v fun xs =>
    if dbl = true ∧ 1 ≤ p ∧ p ≤ xs.length + 1 then some (.pos p, xs.take (p - 1) ++ x :: xs.drop (p - 1)) else none
  | .insertFill p n m, v => (μ.val m).bind fun x => onItems v fun xs =>
    if dbl = true ∧ 1 ≤ p ∧ p ≤ xs.length + 1 then
      some (.pos p, xs.take (p - 1) ++ (List.replicate n (μ.cp x) ++ xs.drop (p - 1))) else none
  | .erase p, v => onItems v fun xs => if dbl = true ∧ p ≤ xs.length + 1 then
      if p = 0 ∨ p = xs.length + 1 then some (.pos p, xs) else some (.pos p, xs.take (p - 1) ++ xs.drop p)
    else none
  | .eraseRange lo hi, v => onItems v fun xs => if dbl = true ∧ 1 ≤ lo ∧ lo ≤ hi ∧ hi ≤ xs.length + 1 then
      some (.pos lo, xs.take (lo - 1) ++ xs.drop (hi - 1)) else none
  | .resizeFill n m, v => (μ.val m).bind fun x => onItems v fun xs =>
    some (.unit, xs.take n ++ List.replicate (n - xs.length) (μ.cp x))
  | .reverse, v => onItems v fun xs => some (.unit, xs.reverse)
  | .elem p c, v => onItems v fun xs => if 1 ≤ p then xs[p - 1]?.bind fun x => (μ.run c x).map fun q =>
      (.elem q.1, xs.set (p - 1) q.2) else none

/-- The meaning of `List<T>` (`dbl`) and `ForwardList<T>`.  A list that was moved from may be assigned to, moved and destroyed, but not
copied. -/
def linkedMeaning (dbl : Bool) (μ : Meaning S V) : Meaning (linkedSig S) (Spec.LL.Var V) where
  val := lval μ
  cp w := ⟨w.items.map fun xs => xs.map μ.cp, w.alloc⟩
  cpOk w := w.items.any fun xs => xs.all μ.cpOk
  left w := ⟨none, w.alloc⟩
  leftInto _ w := ⟨none, w.alloc⟩
  cpAssign _ w := ⟨w.items.map fun xs => xs.map μ.cp, w.alloc⟩
  cpInto _ _ := true
  mvInto _ _ := true
  run := lrun dbl μ

variable {α : Type}

/-- A program state in which only object 0 exists. -/
def alone {X : Type} (o : Option X) : Nat → Option X := fun i => if i = 0 then o else none

/-- The meaning of vectors of values: the specification of histories of vectors, for one vector. -/
def valueMeaning (size : Nat) (dflt : α) : Meaning (valueSig α) (Var α) where
  val m := (specStep false size dflt (m.op 0) (alone none)).bind fun p => p.2 0
  cp w := ⟨w.xs, w.xs.length, 0⟩
  cpOk _ := true
  left w := ⟨[], 0, w.alloc⟩
  leftInto _ w := ⟨[], 0, w.alloc⟩
  cpAssign v w := ⟨w.xs, if v.alloc = w.alloc then max v.cap w.cap else w.xs.length, v.alloc⟩
  cpInto _ _ := true
  mvInto _ _ := true
  run c v := (specStep false size dflt (c.op 0) (alone (some v))).bind fun p => (p.2 0).map fun w => (p.1, w)

/-- The meaning of linked lists of values: the specification of histories of lists, for one list.  A list that was moved from may be
assigned to, moved and destroyed, but not copied. -/
def listMeaning (dbl : Bool) (dflt : α) : Meaning (listSig α) (Spec.LL.Var α) where
  val m := (Spec.LL.specStep false dbl dflt (m.op 0) (alone none)).bind fun p => p.2 0
  cp w := w
  cpOk w := w.items.isSome
  left w := ⟨none, w.alloc⟩
  leftInto _ w := ⟨none, w.alloc⟩
  cpAssign _ w := w
  cpInto _ _ := true
  mvInto _ _ := true
  run c v := (Spec.LL.specStep false dbl dflt (c.op 0) (alone (some v))).bind fun p => (p.2 0).map fun w => (p.1, w)

/-- The meaning of strings: the specification of histories of strings, for one string.  A string that was moved from is empty.  Strings of
16 bytes cannot be assigned, nor assigned to. -/
def textMeaning (enc : Model.BStr.Enc) : Meaning textSig (List UInt8) where
  val m := (Spec.BStr.specStep false true enc (m.op 0) (alone none)).bind fun p => p.2 0
  cp w := w
  cpOk _ := true
  left _ := []
  leftInto _ _ := []
  cpAssign _ w := w
  cpInto v w := v.length != 16 && w.length != 16
  mvInto v w := v.length != 16 && w.length != 16
  run c v := (Spec.BStr.specStep false true enc (c.op 0) (alone (some v))).bind fun p => (p.2 0).map fun w => (p.1, w)

/-! ## Options of objects -/

/-- A new option. -/
def oval (μ : Meaning S V) : OMake S.Make → Option (Option V)
  | .none => some none
  | .some m => (μ.val m).map some
  | .someCopy m => (μ.val m).map fun x => some (μ.cp x)

/-- Calls on an option.  Unwrapping leaves it empty; `map` leaves what a move leaves of the object. -/
def orun (μ : Meaning S V) : OCall S.Call → Option V → Option (ORet S.Ret × Option V)
  | .isSome, v => some (.bool v.isSome, v)
  | .isNone, v => some (.bool v.isNone, v)
  | .take, v => v.map fun _ => (.unit, none)
  | .unwrap c, v => v.bind fun x => (μ.run c x).map fun q => (.elem q.1, none)
  | .asRef c, v => v.bind fun x => (μ.run c x).map fun q => (.elem q.1, some q.2)
  | .map _, none => some (.opt none, none)
  | .map c, some x => (μ.run c x).map fun q => (.opt (some q.1), some (μ.left x))

/-- The meaning of `Option<T>`.  Move construction leaves the source empty; so does move assignment to an empty option, but when both hold an
object, one is assigned to the other and the source keeps what that leaves. -/
def optionMeaning (μ : Meaning S V) : Meaning (optionSig S) (Option V) where
  val := oval μ
  cp w := w.map μ.cp
  cpOk w := w.all μ.cpOk
  left _ := none
  leftInto
    | some t, some x => some (μ.leftInto t x)
    | _, _ => none
  cpAssign
    | some t, some x => some (μ.cpAssign t x)
    | _, w => w.map μ.cp
  cpInto
    | some t, some x => μ.cpInto t x
    | _, _ => true
  mvInto
    | some t, some x => μ.mvInto t x
    | _, _ => true
  run := orun μ

/-- Values of nested vectors, lists and options. -/
def Val : Shape α → Type
  | .values _ => Var α
  | .lists _ => Spec.LL.Var α
  | .texts _ _ => List UInt8
  | .vector _ s => Var (Val s)
  | .linked _ s => Spec.LL.Var (Val s)
  | .option s => Option (Val s)

def meaning : (s : Shape α) → Meaning s.sig (Val s)
  | .values ety => valueMeaning ety.size ety.dflt
  | .lists cfg => listMeaning cfg.dbl cfg.dflt
  | .texts enc _ => textMeaning enc
  | .vector ty s => vectorMeaning ty.size (meaning s)
  | .linked cfg s => linkedMeaning cfg.dbl (meaning s)
  | .option s => optionMeaning (meaning s)

/-- Lists of lists of ... of values or bytes; a linked list that was moved from has no contents. -/
def Tree : Shape α → Type
  | .values _ => List α
  | .lists _ => Option (List α)
  | .texts _ _ => List UInt8
  | .vector _ s => List (Tree s)
  | .linked _ s => Option (List (Tree s))
  | .option s => Option (Tree s)

/-- What is in a nested vector, list or option, without capacities and allocators. -/
def contents : (s : Shape α) → Val s → Tree s
  | .values _, v => v.xs
  | .lists _, v => v.items
  | .texts _ _, v => v
  | .vector _ s, v => v.xs.map (contents s)
  | .linked _ s, v => v.items.map fun xs => xs.map (contents s)
  | .option s, v => v.map (contents s)

/-- The build checks the assertions of linked lists, at every level where there are lists. -/
def Checked : Shape α → Prop
  | .values _ => True
  | .lists cfg => cfg.debug = true
  | .texts _ _ => True
  | .vector _ s => Checked s
  | .linked cfg s => cfg.debug = true ∧ Checked s
  | .option s => Checked s

/-! ## Programs -/

def place (A : Nat → Option V) (i : Nat) (x : Option V) : Nat → Option V := fun j => if j = i then x else A j

def nspecStep (μ : Meaning S V) : NOp S → (Nat → Option V) → Option (Option S.Ret × (Nat → Option V))
  | .make i m, A => if (A i).isNone then (μ.val m).map fun x => (none, place A i (some x)) else none
  | .copy i j, A =>
    if (A i).isNone then (A j).bind fun x => if μ.cpOk x then some (none, place A i (some (μ.cp x))) else none else none
  | .move i j, A =>
    if (A i).isNone then (A j).map fun x => (none, place (place A i (some x)) j (some (μ.left x))) else none
  | .copyAssign i j, A => (A i).bind fun t => (A j).bind fun x =>
    if μ.cpOk x = false then none
    else if i = j then some (none, A)
    else if μ.cpInto t x = false then none
    else some (none, place A i (some (μ.cpAssign t x)))
  | .moveAssign i j, A => (A i).bind fun t => (A j).bind fun x =>
    if i = j then some (none, A)
    else if μ.mvInto t x = false then none
    else some (none, place (place A i (some x)) j (some (μ.leftInto t x)))
  | .drop i, A => (A i).map fun _ => (none, place A i none)
  | .call i c, A => (A i).bind fun x => (μ.run c x).map fun p => (some p.1, place A i (some p.2))

def nspecRun (μ : Meaning S V) : List (NOp S) → (Nat → Option V) → Option (List (Option S.Ret) × (Nat → Option V))
  | [], A => some ([], A)
  | op :: ops, A => (nspecStep μ op A).bind fun p => (nspecRun μ ops p.2).map fun q => (p.1 :: q.1, q.2)

end Verif.Spec.Nested
