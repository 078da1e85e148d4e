import Verif.Spec.Nested
import Verif.Model.NestedResult
/-!
# What results of objects are worth

A result is a value or an error: `Except ε V`.
-/
namespace Verif.Spec.Nested
open Verif Verif.Model.Nested

variable {S : Sig} {V ε : Type}

/-- A new result. -/
def rval (μ : Meaning S V) : RMake S.Make ε → Option (Except ε V)
  | .ok m => (μ.val m).map .ok
  | .okCopy m => (μ.val m).map fun x => .ok (μ.cp x)
  | .err e => some (.error e)

/-- Calls on a result.  `unwrap()` refers to the value, which stays in the result; an object constructed from it leaves what a move leaves. -/
def rrun (μ : Meaning S V) : RCall S.Call → Except ε V → Option (RRet S.Ret ε × Except ε V)
  | .isOk, v => some (.bool v.isOk, v)
  | .isErr, v => some (.bool (!v.isOk), v)
  | .unwrap c, .ok x => (μ.run c x).map fun q => (.elem q.1, .ok q.2)
  | .take c, .ok x => (μ.run c x).map fun q => (.elem q.1, .ok (μ.left x))
  | .get c, .ok x => if μ.cpOk x = true then (μ.run c (μ.cp x)).map fun q => (.elem q.1, .ok x) else none
  | .okRef c, .ok x => (μ.run c x).map fun q => (.elem q.1, .ok q.2)
  | .err, .ok x => some (.err none, .ok x)
  | .err, .error e => some (.err (some e), .error e)
  | .unwrapErr, .error e => some (.val e, .error e)
  | _, _ => none

/-- The meaning of `Result<T, E>`.  Moving from a result leaves a result of the same kind.  A value and an error cannot be assigned to each
other (C51, `C126_assign_ok_fails`, `C126_assign_err_fails`). -/
def resultMeaning (ε : Type) (μ : Meaning S V) : Meaning (resultSig ε S) (Except ε V) where
  val := rval μ
  cp w := w.map μ.cp
  cpOk
    | .ok x => μ.cpOk x
    | .error _ => true
  left w := w.map μ.left
  leftInto
    | .ok t, .ok x => .ok (μ.leftInto t x)
    | _, w => w
  cpAssign
    | .ok t, .ok x => .ok (μ.cpAssign t x)
    | _, w => w
  cpInto
    | .ok t, .ok x => μ.cpInto t x
    | .error _, .error _ => true
    | _, _ => false
  mvInto
    | .ok t, .ok x => μ.mvInto t x
    | .error _, .error _ => true
    | _, _ => false
  run := rrun μ

variable {α : Type} (ε)

/-- Values of nested results, vectors, lists and options. -/
def FVal : Full α → Type
  | .base s => Val s
  | .result f => Except ε (FVal f)
  | .vector _ f => Spec.Vector.Var (FVal f)
  | .linked _ f => Spec.LL.Var (FVal f)
  | .option f => Option (FVal f)

def fmeaning : (f : Full α) → Meaning (f.sig ε) (FVal ε f)
  | .base s => meaning s
  | .result f => resultMeaning ε (fmeaning f)
  | .vector ty f => vectorMeaning ty.size (fmeaning f)
  | .linked cfg f => linkedMeaning cfg.dbl (fmeaning f)
  | .option f => optionMeaning (fmeaning f)

end Verif.Spec.Nested
