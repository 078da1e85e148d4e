import Verif.Model.OptRef
/-!
# Specification: optional references

A client's objects are a partial map `obj` from addresses to values.  A variable of type `Option<T&>` designates one object or
none: `var i = some (some a)`, `some none`; `none` if there is no such variable.  `none` as the answer of `specStep`: the client
may not make this call (an object or option it uses does not exist, or exists already).
-/
namespace Verif.Spec.OptRef
open Verif
open Verif.Model.OptRef (Op Ret)

structure Ideal (α : Type) where
  obj : Nat → Option α
  var : Nat → Option (Option Nat)

variable {α : Type}

def put {β : Type} (m : Nat → β) (i : Nat) (x : β) : Nat → β := fun k => if k = i then x else m k

/-- The object designated by option `i` of a client that reads or writes it: the option must exist; with none the program
panics; the object must (still) exist. -/
def designated (A : Ideal α) (i : Nat) (k : Nat → α → Ret α × Ideal α) : Option (Out (Ret α × Ideal α)) :=
  match A.var i with
  | none => none
  | some none => some .panic
  | some (some a) => (A.obj a).map fun v => .ok (k a v)

def specStep (A : Ideal α) : Op α → Option (Out (Ret α × Ideal α))
  | .newObj a v => if (A.obj a).isNone then some (.ok (.unit, { A with obj := put A.obj a (some v) })) else none
  | .setObj a v => if (A.obj a).isSome then some (.ok (.unit, { A with obj := put A.obj a (some v) })) else none
  | .endObj a => if (A.obj a).isSome then some (.ok (.unit, { A with obj := put A.obj a none })) else none
  | .some i a => if (A.obj a).isSome ∧ (A.var i).isNone then some (.ok (.unit, { A with var := put A.var i (some (some a)) })) else none
  | .none i => if (A.var i).isNone then some (.ok (.unit, { A with var := put A.var i (some none) })) else none
  | .copyCtor i j => if (A.var j).isSome ∧ (A.var i).isNone then some (.ok (.unit, { A with var := put A.var i (A.var j) })) else none
  | .copyAssign i j => if (A.var i).isSome ∧ (A.var j).isSome then some (.ok (.unit, { A with var := put A.var i (A.var j) })) else none
  | .moveCtor i j => if (A.var j).isSome ∧ (A.var i).isNone then
      some (.ok (.unit, { A with var := put (put A.var i (A.var j)) j (some none) })) else none
  | .moveAssign i j => if (A.var i).isSome ∧ (A.var j).isSome then
      if i = j then some (.ok (.unit, A))
      else some (.ok (.unit, { A with var := put (put A.var i (A.var j)) j (some none) }))
    else none
  | .isSome i => (A.var i).map fun o => .ok (.bool (o ≠ none), A)
  | .isNone i => (A.var i).map fun o => .ok (.bool (o = none), A)
  | .read i => designated A i fun _ v => (.val v, A)
  | .write i v => designated A i fun a _ => (.unit, { A with obj := put A.obj a (some v) })
  | .take i => designated A i fun _ v => (.val v, { A with var := put A.var i (some none) })
  | .takeWrite i v => designated A i fun a _ => (.unit, ⟨put A.obj a (some v), put A.var i (some none)⟩)
  | .map i f => match A.var i with
    | none => none
    | some none => some (.ok (.opt none, A))
    | some (some a) => (A.obj a).map fun v => .ok (.opt (some (f v).1), { A with obj := put A.obj a (some (f v).2) })
  | .destroy i => if (A.var i).isSome then some (.ok (.unit, { A with var := put A.var i none })) else none

def specRun : List (Op α) → Ideal α → Option (Out (List (Ret α) × Ideal α))
  | [], A => some (.ok ([], A))
  | op :: ops, A =>
    match specStep A op with
    | some (.ok (r, A')) =>
      match specRun ops A' with
      | some (.ok (rs, A'')) => some (.ok (r :: rs, A''))
      | some .panic => some .panic
      | _ => none
    | some .panic => some .panic
    | _ => none

end Verif.Spec.OptRef
