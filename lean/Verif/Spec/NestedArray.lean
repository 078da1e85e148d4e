import Verif.Spec.NestedResult
import Verif.Model.NestedArray
/-!
# What arrays of objects are worth: `N` values

`dv` is the value of a default-constructed element.
-/
namespace Verif.Spec.Nested
open Verif Verif.Model.Nested

variable {S : Sig} {V : Type}

/-- A new array: default elements, or copies of the elements of the list and then default elements, or what assigning from the
elements of a C array of `N` elements makes of default elements
(only where the client may copy that: new objects can be copied). -/
def aval (μ : Meaning S V) (dv : V) (N : Nat) : AMake S.Make → Option (Fin N → V)
  | .dflt => some fun _ => dv
  | .list ms => if ms.length ≤ N then (ms.mapM μ.val).map fun xs k => ((xs[k.1]?).map μ.cp).getD dv else none
  | .raw ms => if ms.length = N then (ms.mapM μ.val).bind fun xs =>
      if xs.all (fun y => μ.cpInto dv y && μ.cpOk (μ.cpAssign dv y)) then some fun k => ((xs[k.1]?).map (μ.cpAssign dv)).getD dv else none
    else none

/-- The calls. -/
def arun (μ : Meaning S V) (N : Nat) : ACall S.Make S.Call → (Fin N → V) → Option (ARet S.Ret × (Fin N → V))
  | .at k c, x => if h : k < N then (μ.run c (x ⟨k, h⟩)).map fun p => (.elem p.1, fun j => if j.1 = k then p.2 else x j) else none
  | .set k m, x => if h : k < N then (μ.val m).bind fun y =>
      if μ.mvInto (x ⟨k, h⟩) y then some (.unit, fun j => if j.1 = k then y else x j) else none
    else none
  | .size, x => some (.num N, x)

/-- Arrays: everything goes element by element. -/
def arrayMeaning (μ : Meaning S V) (dv : V) (N : Nat) : Meaning (arraySig S) (Fin N → V) where
  val := aval μ dv N
  cp x k := μ.cp (x k)
  cpOk x := decide (∀ k, μ.cpOk (x k) = true)
  left x k := μ.leftInto dv (x k)
  leftInto t x k := μ.leftInto (t k) (x k)
  cpAssign t x k := μ.cpAssign (t k) (x k)
  cpInto t x := decide (∀ k, μ.cpInto (t k) (x k) = true)
  mvInto t x := decide (∀ k, μ.mvInto (t k) (x k) = true)
  run := arun μ N

end Verif.Spec.Nested
