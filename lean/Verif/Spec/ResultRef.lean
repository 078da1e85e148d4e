import Verif.Model.ResultRef
/-!
# Specification: results that refer to objects

`mem a` is the object at address `a`, `var i` the result variable `i`: the address of the object it refers to, or an error.
`specStep` answers `none` for calls a program may not make: using an object that does not exist, also through a result that
outlived it, or (`only`) assigning between a reference and an error.  Only the list of calls is shared with the model.
-/
namespace Verif.Spec.Res
open Verif
open Verif.Model.Res (RefOp RefRet)

structure RefIdeal (α ε : Type) where
  mem : Nat → Option α
  var : Nat → Option (Nat ⊕ ε)

variable {α ε : Type}

def RefIdeal.setMem (A : RefIdeal α ε) (a : Nat) (x : Option α) : RefIdeal α ε :=
  { A with mem := fun k => if k = a then x else A.mem k }
def RefIdeal.setVar (A : RefIdeal α ε) (i : Nat) (x : Option (Nat ⊕ ε)) : RefIdeal α ε :=
  { A with var := fun k => if k = i then x else A.var k }

/-- A moved-from result still refers to the same object; a moved-from error is `mvE e`. -/
def leftBehind (mvE : ε → ε) : Nat ⊕ ε → Nat ⊕ ε
  | .inl a => .inl a
  | .inr e => .inr (mvE e)

def refSpec (mvE : ε → ε) (eqT : α → α → Bool) (eqE : ε → ε → Bool) :
    RefOp α ε → RefIdeal α ε → Option (Out (RefRet α ε × RefIdeal α ε))
  | .newObj a v, A => match A.mem a with
    | none => some (.ok (.unit, A.setMem a (some v)))
    | some _ => none
  | .setObj a v, A => match A.mem a with
    | none => none
    | some _ => some (.ok (.unit, A.setMem a (some v)))
  | .endObj a, A => match A.mem a with
    | none => none
    | some _ => some (.ok (.unit, A.setMem a none))
  | .mkOk i a, A => match A.var i with
    | none => some (.ok (.unit, A.setVar i (some (.inl a))))
    | some _ => none
  | .mkErr i e, A => match A.var i with
    | none => some (.ok (.unit, A.setVar i (some (.inr e))))
    | some _ => none
  | .copyCtor i j, A => match A.var i, A.var j with
    | none, some s => some (.ok (.unit, A.setVar i (some s)))
    | _, _ => none
  | .moveCtor i j, A => match A.var i, A.var j with
    | none, some s => some (.ok (.unit, (A.setVar j (some (leftBehind mvE s))).setVar i (some s)))
    | _, _ => none
  | .copyAssign i j, A => match A.var i, A.var j with
    | some old, some s => if old.isLeft = s.isLeft then some (.ok (.unit, A.setVar i (some s))) else none
    | _, _ => none
  | .moveAssign i j, A => match A.var i, A.var j with
    | some old, some s =>
      if i = j then some (.ok (.unit, A))
      else if old.isLeft = s.isLeft then
        some (.ok (.unit, (A.setVar j (some (leftBehind mvE s))).setVar i (some s)))
      else none
    | _, _ => none
  | .isOk i, A => match A.var i with
    | none => none
    | some s => some (.ok (.bool s.isLeft, A))
  | .which i, A => match A.var i with
    | none => none
    | some s => some (.ok (.addr s.getLeft?, A))
  | .unwrapErr i, A => match A.var i with
    | none => none
    | some (.inl _) => some .panic
    | some (.inr e) => some (.ok (.valE e, A.setVar i (some (.inr (mvE e)))))
  | .read i, A => match A.var i with
    | none => none
    | some (.inr _) => some .panic
    | some (.inl a) => match A.mem a with
      | none => none
      | some v => some (.ok (.val v, A))
  | .write i v, A => match A.var i with
    | none => none
    | some (.inr _) => some .panic
    | some (.inl a) => match A.mem a with
      | none => none
      | some _ => some (.ok (.unit, A.setMem a (some v)))
  | .eq i j, A => match A.var i, A.var j with
    | some (.inl a), some (.inl b) => match A.mem a, A.mem b with
      | some u, some v => some (.ok (.bool (eqT u v), A))
      | _, _ => none
    | some (.inr d), some (.inr e) => some (.ok (.bool (eqE d e), A))
    | some _, some _ => some (.ok (.bool false, A))
    | _, _ => none
  | .destroy i, A => match A.var i with
    | none => none
    | some _ => some (.ok (.unit, A.setVar i none))

def refSpecRun (mvE : ε → ε) (eqT : α → α → Bool) (eqE : ε → ε → Bool) :
    List (RefOp α ε) → RefIdeal α ε → Option (Out (List (RefRet α ε) × RefIdeal α ε))
  | [], A => some (.ok ([], A))
  | op :: ops, A =>
    match refSpec mvE eqT eqE op A with
    | some (.ok (r, A')) =>
      match refSpecRun mvE eqT eqE ops A' with
      | some (.ok (rs, A'')) => some (.ok (r :: rs, A''))
      | some .panic => some .panic
      | _ => none
    | some .panic => some .panic
    | _ => none

end Verif.Spec.Res
