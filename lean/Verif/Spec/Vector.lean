import Verif.Model.VectorHist
/-!
# Specification: vectors as lists

Only the list of calls and of results is shared with the model.  An ideal vector is a list together with two numbers a
client can observe: its capacity and which allocator it uses.  `specStep` answers `none` for calls a client may not
make (no such vector, index out of range, constructing over an existing vector, pop on an empty vector).

The flag `full` selects the histories.  With `full = true` every call the documentation allows is in.  With
`full = false` the calls marked `only` are restricted to the stated condition: these are the conditions under which the
library keeps its promise; the theorems with suffix `_partial` use them, and for each of them another theorem shows a
call outside that goes wrong.
-/
namespace Verif.Spec.Vector
open Verif
open Verif.Model.Vector (Op Res Arg)

variable {α : Type}

structure Var (α : Type) where
  xs : List α
  cap : Nat
  alloc : Nat
  deriving DecidableEq

abbrev Ideal (α : Type) := Nat → Option (Var α)

def put (A : Ideal α) (i : Nat) (x : Option (Var α)) : Ideal α := fun j => if j = i then x else A j

/-- The value a reference argument has when the call is made. -/
def argVal (A : Ideal α) : Arg α → Option α
  | .val x => some x
  | .elem j k => (A j).bind fun v => v.xs[k]?

/-- Does the argument refer into vector `i`? -/
def inside (i : Nat) : Arg α → Bool
  | .val _ => false
  | .elem j _ => j == i

/-- Does the argument refer to an element of vector `i` before position `p`? -/
def insideBefore (i p : Nat) : Arg α → Bool
  | .val _ => false
  | .elem j k => j == i && decide (k < p)

/-- Growth by doubling, from nothing to 2. -/
def doubled (cap : Nat) : Nat := if cap = 0 then 2 else 2 * cap

/-- Capacity after one more element. -/
def afterPush (len cap : Nat) : Nat := if len < cap then cap else doubled cap

/-- Capacity after `n` more elements, one by one. -/
def afterPushes : Nat → Nat → Nat → Nat
  | 0, _, cap => cap
  | n + 1, len, cap => afterPushes n (len + 1) (afterPush len cap)

/-- Element-wise equality. -/
def eqSeq (eq : α → α → Bool) : List α → List α → Bool
  | [], [] => true
  | x :: xs, y :: ys => eq x y && eqSeq eq xs ys
  | _, _ => false

/-- Lexicographic order; `none` is "unordered". -/
def lexSeq (cmp : α → α → Option Ordering) : List α → List α → Option Ordering
  | [], [] => some .eq
  | [], _ :: _ => some .lt
  | _ :: _, [] => some .gt
  | x :: xs, y :: ys => if cmp x y = some .eq then lexSeq cmp xs ys else cmp x y

/-- Elements separated by comma and blank. -/
def joinSeq : List String → String
  | [] => ""
  | [s] => s
  | s :: ss => s ++ ", " ++ joinSeq ss

/-- `only full g x`: the call is in the restricted histories only if `g`. -/
def only (full : Bool) (g : Prop) [Decidable g] (x : Option β) : Option β := if full = true ∨ g then x else none

def born (A : Ideal α) (i : Nat) (v : Var α) : Option (Res α × Ideal α) :=
  if (A i).isNone then some (.unit, put A i (some v)) else none

def upd (A : Ideal α) (i : Nat) (f : Var α → Option (Res α × Var α)) : Option (Res α × Ideal α) :=
  (A i).bind fun v => (f v).map fun p => (p.1, put A i (some p.2))

def ask (A : Ideal α) (i : Nat) (f : Var α → Option (Res α)) : Option (Res α × Ideal α) :=
  (A i).bind fun v => (f v).map fun r => (r, A)

/-- `size` is the number of bytes of an element, `dflt` the value-initialised element. -/
def specStep (full : Bool) (size : Nat) (dflt : α) : Op α → Ideal α → Option (Res α × Ideal α)
  | .newDefault i, A => born A i ⟨[], 2, 0⟩
  | .newAlloc i a, A => born A i ⟨[], 0, a⟩
  | .newFill i n r a, A => (argVal A r).bind fun x =>
    only full (n * size < wordSize) <| born A i ⟨List.replicate n x, n, a⟩
  | .newCount i n a, A => only full (n * size < wordSize) <| born A i ⟨List.replicate n dflt, n, a⟩
  | .newList i xs a, A => only full (xs.length * size < wordSize) <| born A i ⟨xs, xs.length, a⟩
  | .newRange i xs a, A => only full (xs.length * size < wordSize) <| born A i ⟨xs, xs.length, a⟩
  | .newCopy i j, A => (A j).bind fun w => born A i ⟨w.xs, w.xs.length, 0⟩
  | .newCopyAlloc i j a, A => (A j).bind fun w => born A i ⟨w.xs, w.xs.length, a⟩
  | .newMove i j _, A => (A j).bind fun w =>
    if (A i).isNone then some (.unit, put (put A i (some w)) j (some ⟨[], 0, w.alloc⟩)) else none
  | .fromIter i xs, A => born A i ⟨xs, afterPushes xs.length 0 2, 0⟩
  | .copyAssign i j, A => (A j).bind fun w => upd A i fun v =>
    if i = j then some (.unit, v)
    else some (.unit, ⟨w.xs, if v.alloc = w.alloc then max v.cap w.cap else w.xs.length, v.alloc⟩)
  | .moveAssign i j, A => (A i).bind fun _ => (A j).bind fun w =>
    if i = j then some (.unit, A)
    else some (.unit, put (put A i (some w)) j (some ⟨[], 0, w.alloc⟩))
  | .listAssign i xs, A => only full False <| upd A i fun v => some (.unit, ⟨xs, max v.cap xs.length, v.alloc⟩)
  | .swap i j, A => (A i).bind fun v => (A j).bind fun w => some (.unit, put (put A i (some w)) j (some v))
  | .drop i, A => (A i).bind fun _ => some (.unit, put A i none)
  | .clear i, A => upd A i fun v => some (.unit, ⟨[], 0, v.alloc⟩)
  | .reserve i n, A => upd A i fun v => only full (n * size < wordSize) <| some (.unit, ⟨v.xs, max v.cap n, v.alloc⟩)
  | .push i r, A => (argVal A r).bind fun x => upd A i fun v =>
    only full (inside i r = false ∨ v.xs.length < v.cap) <|
      some (.unit, ⟨v.xs ++ [x], afterPush v.xs.length v.cap, v.alloc⟩)
  | .pop i, A => upd A i fun v => if v.xs = [] then none else some (.unit, ⟨v.xs.dropLast, v.cap, v.alloc⟩)
  | .assignFill i n r, A => (argVal A r).bind fun x => upd A i fun v =>
    only full (n * size < wordSize ∧ (n = 0 ∨ inside i r = false)) <|
      some (.unit, ⟨List.replicate n x, max v.cap n, v.alloc⟩)
  | .assignList i xs, A => upd A i fun v =>
    only full (xs.length * size < wordSize) <| some (.unit, ⟨xs, max v.cap xs.length, v.alloc⟩)
  | .set i k x, A => upd A i fun v => if k < v.xs.length then some (.unit, ⟨v.xs.set k x, v.cap, v.alloc⟩) else none
  | .get i k, A => ask A i fun v => v.xs[k]?.map .val
  | .at i k, A => ask A i fun v => some (.opt v.xs[k]?)
  | .front i, A => ask A i fun v => some (.opt v.xs.head?)
  | .back i, A => ask A i fun v => some (.opt v.xs.getLast?)
  | .size i, A => ask A i fun v => some (.num v.xs.length)
  | .capacity i, A => ask A i fun v => some (.num v.cap)
  | .empty i, A => ask A i fun v => some (.bool v.xs.isEmpty)
  | .insert i p r, A => (argVal A r).bind fun x => upd A i fun v =>
    if p ≤ v.xs.length then only full (1 ≤ p) <|
      some (.pos (some p), ⟨v.xs.take p ++ x :: v.xs.drop p, afterPush v.xs.length v.cap, v.alloc⟩)
    else none
  | .emplace i p x, A => upd A i fun v =>
    if p ≤ v.xs.length then only full (1 ≤ p) <|
      some (.unit, ⟨v.xs.take p ++ x :: v.xs.drop p, afterPush v.xs.length v.cap, v.alloc⟩)
    else none
  | .insertFill i p n r, A => (argVal A r).bind fun x => upd A i fun v =>
    if p ≤ v.xs.length then
      only full ((1 ≤ p ∨ (v.xs = [] ∧ n = 0)) ∧ (0 < n ∨ p = v.xs.length) ∧ (v.xs.length + n) * size < wordSize ∧
        (n = 0 ∨ inside i r = false ∨ (v.xs.length + n ≤ v.cap ∧ insideBefore i p r = true))) <|
      some (.pos (some p), ⟨v.xs.take p ++ (List.replicate n x ++ v.xs.drop p), max v.cap (v.xs.length + n), v.alloc⟩)
    else none
  | .insertRange i p ys, A => upd A i fun v =>
    if p ≤ v.xs.length then
      only full ((1 ≤ p ∨ (v.xs = [] ∧ ys = [])) ∧ (0 < ys.length ∨ p = v.xs.length) ∧ (v.xs.length + ys.length) * size < wordSize) <|
      some (.pos (some p), ⟨v.xs.take p ++ (ys ++ v.xs.drop p), max v.cap (v.xs.length + ys.length), v.alloc⟩)
    else none
  | .erase i p, A => upd A i fun v =>
    if p < v.xs.length then some (.pos (some p), ⟨v.xs.take p ++ v.xs.drop (p + 1), v.cap, v.alloc⟩) else none
  | .eraseRange i lo hi, A => upd A i fun v =>
    if lo ≤ hi ∧ hi ≤ v.xs.length then only full (lo < hi ∨ hi = v.xs.length) <|
      some (.pos (some lo), ⟨v.xs.take lo ++ v.xs.drop hi, v.cap, v.alloc⟩)
    else none
  | .resize i n, A => upd A i fun v => only full (n * size < wordSize) <|
    some (.unit, ⟨v.xs.take n ++ List.replicate (n - v.xs.length) dflt, max v.cap n, v.alloc⟩)
  | .resizeFill i n r, A => (argVal A r).bind fun x => upd A i fun v =>
    only full (n * size < wordSize ∧ (n ≤ v.xs.length ∨ inside i r = false ∨ n ≤ v.cap)) <|
      some (.unit, ⟨v.xs.take n ++ List.replicate (n - v.xs.length) x, max v.cap n, v.alloc⟩)
  | .collect i, A => ask A i fun v => some (.seq v.xs)
  | .drain i n, A => upd A i fun v => some (.opts ((List.range n).map fun k => v.xs[k]?), ⟨[], 0, v.alloc⟩)
  | .drainRev i n, A => upd A i fun v => some (.opts ((List.range n).map fun k => v.xs.reverse[k]?), ⟨[], 0, v.alloc⟩)
  | .equal i j eq, A => (A j).bind fun w => ask A i fun v => some (.bool (eqSeq eq v.xs w.xs))
  | .compare i j cmp, A => (A j).bind fun w => ask A i fun v => some (.ord (lexSeq cmp v.xs w.xs))
  | .print i shw, A => ask A i fun v => some (.text ("Vec [" ++ joinSeq (v.xs.map shw) ++ "]"))

def specRun (full : Bool) (size : Nat) (dflt : α) : List (Op α) → Ideal α → Option (List (Res α) × Ideal α)
  | [], A => some ([], A)
  | op :: ops, A =>
    match specStep full size dflt op A with
    | none => none
    | some (r, A') =>
      match specRun full size dflt ops A' with
      | none => none
      | some (rs, A'') => some (r :: rs, A'')

end Verif.Spec.Vector
