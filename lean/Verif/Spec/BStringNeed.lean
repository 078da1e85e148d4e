import Verif.Spec.BStringView
/-! # Specification: the memory string calls ask for -/
namespace Verif.Spec.BStr
open Verif Verif.Model.BStr

/-- The number of bytes string `i` has room for: 16 in the object itself, or the size of its block. -/
def room (w : World) (i : Nat) : Nat :=
  match w.vars i with
  | none => 0
  | some s => if s.len ≤ 16 then 16 else (memory w.heap s).length

/-- Half as much again. -/
def roomy (n : Nat) : Nat := n + n / 2

/-- The size of the one block a call asks for, if it asks for any. -/
def asks (w : World) : Op → Option Nat
  | .newLit _ lit _ => if lit.length ≤ 16 then none else some (roomy lit.length)
  | .newCopy _ j =>
    match view w j with
    | some ys => if ys.length ≤ 16 then none else some (room w j)
    | none => none
  | .copyAssign i j =>
    match view w i, view w j with
    | some xs, some ys =>
      if i = j ∨ ys.length ≤ 16 then none
      else if xs.length ≤ 16 then some (room w j)
      else if ys.length ≤ room w i then none
      else some (roomy ys.length)
    | _, _ => none
  | .pushBack i ch | .insert i ch _ =>
    match view w i with
    | some xs => if xs.length + ch.length ≤ room w i then none else some (roomy (xs.length + ch.length))
    | none => none
  | _ => none

/-- Number of requests made so far. -/
def requests (w : World) : Nat := w.heap.next

/-- Number of bytes obtained so far. -/
def obtained (w : World) : Nat := w.heap.newBytes

/-- The bytes a growing call adds. -/
def added : Op → List UInt8
  | .pushBack _ ch | .insert _ ch _ => ch
  | _ => []

/-- Calls that make string `i` longer. -/
def Growing (i : Nat) (op : Op) : Prop := (∃ ch, op = .pushBack i ch) ∨ ∃ ch idx, op = .insert i ch idx

end Verif.Spec.BStr
