import Verif.Model.IterOpt
import Verif.Spec.Opt
/-!
# Specification: elements that travel in option objects
-/
namespace Verif.Spec.IterOpt
open Verif
open Verif.Model.IterOpt (Stage)
open Verif.Model.Iter (Pipe)

variable {κ α β γ : Type}

/-- The option objects hold what `A` says, those that `A` does not mention do not exist, and every payload ever constructed in an
object has been destroyed once, except the one it holds. -/
def Holds (A : Opt.Ideal α) (m : Model.Opt.World α) : Prop := ∀ i,
  ((m i).alive = (A i).isSome) ∧ (∀ c, A i = some c → (m i).hold = c.isSome ∧ (m i).cell = c) ∧ (A i = none → (m i).cell = none) ∧
    (m i).ctor = (m i).dtor + (if (m i).cell.isSome then 1 else 0)

/-- No object has a number from `k` on. -/
def Free (A : Opt.Ideal α) (k : Nat) : Prop := ∀ i, k ≤ i → A i = none

/-- Two runs end in the same way; if they return, then with related results. -/
def Same (x : Out β) (y : Out γ) (P : β → γ → Prop) : Prop :=
  match x, y with
  | .ok b, .ok c => P b c
  | .panic, .panic => True
  | .div, .div => True
  | .oom, .oom => True
  | .ub, .ub => True
  | _, _ => False

/-- The pipeline without option objects. -/
def pipe : List (Stage κ α) → Pipe κ α α
  | [] => .source
  | .map f :: st => .map (pipe st) f
  | .filter p :: st => .filter (pipe st) p

end Verif.Spec.IterOpt
