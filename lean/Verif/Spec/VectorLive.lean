import Verif.Model.VectorLive
import Verif.Spec.VectorWork
import Verif.Spec.VectorIter
/-!
# Specification: iterators as positions that follow their vector's storage

An ideal iterator is the number of the vector whose storage it points into, a position there, and the size the vector had when the
iterator was taken (where `next()` stops); or it is `gone`.  `whereTo` says what a call on the vectors does to the storage of each vector:
it stays, moves to another vector together with the contents, or is released.  Nothing here mentions pointers or blocks.
-/
namespace Verif.Spec.Vector
open Verif
open Verif.Model.Vector (Op Res Arg LOp Move)

variable {α : Type}

inductive Place where
  | at (i p n : Nat)
  | gone
  deriving DecidableEq

/-- The storage of vector `i` has room for `n` elements, so a call that needs `n` leaves it where it is. -/
def enough (A : Ideal α) (i n : Nat) : Bool := n ≤ capOf A i

/-- Vector `k`'s storage is released if `k` is `i` and `lost`. -/
def lostIf (i : Nat) (lost : Bool) (k : Nat) : Option Nat := if k = i ∧ lost then none else some k

/-- Which vector holds vector `k`'s storage after the call; `none`: nobody, it is released. -/
def whereTo (A : Ideal α) : Op α → Nat → Option Nat
  -- storage that goes with the contents
  | .newMove i j _, k => if k = j then some i else some k
  | .moveAssign i j, k => if i = j then some k else if k = j then some i else if k = i then none else some k
  | .swap i j, k => if k = i then some j else if k = j then some i else some k
  -- storage that is given up
  | .drop i, k | .clear i, k | .drain i _, k | .drainRev i _, k => lostIf i true k
  -- storage that is replaced if it is too small
  | .reserve i n, k => lostIf i (!enough A i n) k
  | .push i _, k | .insert i _ _, k | .emplace i _ _, k => lostIf i (!enough A i (lenOf A i + 1)) k
  | .insertFill i _ n _, k => lostIf i (!enough A i (lenOf A i + n)) k
  | .insertRange i _ ys, k => lostIf i (!enough A i (lenOf A i + ys.length)) k
  | .assignFill i n _, k | .resize i n, k | .resizeFill i n _, k => lostIf i (!enough A i n) k
  | .assignList i xs, k => lostIf i (!enough A i xs.length) k
  | .copyAssign i j, k => if i = j then some k else lostIf i (!(sameAlloc A i j && enough A i (capOf A j))) k
  -- everything else leaves storage alone
  | _, k => some k

def follow (A : Ideal α) (op : Op α) : Place → Place
  | .gone => .gone
  | .at i p n =>
    match whereTo A op i with
    | some j => .at j p n
    | none => .gone

structure LIdeal (α : Type) where
  vecs : Ideal α := fun _ => none
  its : Nat → Option Place := fun _ => none

def putIt (S : LIdeal α) (k : Nat) (x : Place) : LIdeal α := { S with its := fun k' => if k' = k then some x else S.its k' }

/-- Position of iterator `k`, if it is still valid. -/
def placeOf (S : LIdeal α) (k : Nat) : Option (Nat × Nat × Nat) :=
  match S.its k with
  | some (.at i p n) => some (i, p, n)
  | _ => none

def elemAt (S : LIdeal α) (i p : Nat) : Option α := (S.vecs i).bind fun v => v.xs[p]?

/-- A call on the vectors. -/
def vecStep (full : Bool) (size : Nat) (dflt : α) (op : Op α) (S : LIdeal α) : Option (Res α × LIdeal α) :=
  (specStep full size dflt op S.vecs).map fun q => (q.1, ⟨q.2, fun k => (S.its k).map (follow S.vecs op)⟩)

/-- A call on the vectors whose result, the iterator at position `p` of vector `i`, goes to iterator variable `m`. -/
def vecStepTo (full : Bool) (size : Nat) (dflt : α) (op : Op α) (m i p : Nat) (S : LIdeal α) : Option (Res α × LIdeal α) :=
  (vecStep full size dflt op S).map fun q => (.unit, putIt q.2 m (.at i p (lenOf q.2.vecs i)))

def lspecStep (full : Bool) (size : Nat) (dflt : α) : LOp α → LIdeal α → Option (Res α × LIdeal α)
  | .vec op, S => vecStep full size dflt op S
  | .start k i, S => (S.vecs i).map fun v => (.unit, putIt S k (.at i 0 v.xs.length))
  | .stop k i, S => (S.vecs i).map fun v => (.unit, putIt S k (.at i v.xs.length v.xs.length))
  | .copy k l, S => (S.its l).map fun x => (.unit, putIt S k x)
  | .move k m, S => (placeOf S k).bind fun q => (move (capOf S.vecs q.1) m q.2.1).map fun p => (.unit, putIt S k (.at q.1 p q.2.2))
  | .next k, S => (placeOf S k).bind fun q =>
    if q.2.1 = q.2.2 then some (.opt none, S)
    else (elemAt S q.1 q.2.1).map fun x => (.opt (some x), putIt S k (.at q.1 (q.2.1 + 1) q.2.2))
  | .read k, S => (placeOf S k).bind fun q => (elemAt S q.1 q.2.1).map fun x => (.val x, S)
  | .write k x, S => (placeOf S k).bind fun q => (specStep full size dflt (.set q.1 q.2.1 x) S.vecs).map fun r => (.unit, ⟨r.2, S.its⟩)
  | .pos k, S => (placeOf S k).map fun q => (.num q.2.1, S)
  | .dist k l, S => (placeOf S k).bind fun q => (placeOf S l).bind fun r =>
    if q.1 = r.1 then some (.num (if r.2.1 ≤ q.2.1 then q.2.1 - r.2.1 else wordSize - (r.2.1 - q.2.1)), S) else none
  -- iterators taken at different sizes are never equal
  | .eq k l, S => (placeOf S k).bind fun q => (placeOf S l).bind fun r =>
    if q.1 = r.1 then some (.bool (q.2.1 == r.2.1 && q.2.2 == r.2.2), S) else none
  | .cmp k l, S => (placeOf S k).bind fun q => (placeOf S l).bind fun r =>
    if q.1 = r.1 then some (.ord (some (compare q.2.1 r.2.1)), S) else none
  | .insertAt m i k r, S => (placeOf S k).bind fun q =>
    if q.1 = i then vecStepTo full size dflt (.insert i q.2.1 r) m i q.2.1 S else none
  | .eraseAt m i k, S => (placeOf S k).bind fun q =>
    if q.1 = i then vecStepTo full size dflt (.erase i q.2.1) m i q.2.1 S else none
  | .eraseBetween m i k l, S => (placeOf S k).bind fun q => (placeOf S l).bind fun r =>
    if q.1 = i ∧ r.1 = i then vecStepTo full size dflt (.eraseRange i q.2.1 r.2.1) m i q.2.1 S else none

def lspecRun (full : Bool) (size : Nat) (dflt : α) : List (LOp α) → LIdeal α → Option (List (Res α) × LIdeal α)
  | [], S => some ([], S)
  | op :: ops, S =>
    match lspecStep full size dflt op S with
    | none => none
    | some (r, S') =>
      match lspecRun full size dflt ops S' with
      | none => none
      | some (rs, S'') => some (r :: rs, S'')

end Verif.Spec.Vector
