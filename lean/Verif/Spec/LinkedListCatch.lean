import Verif.Model.LinkedListCatch
import Verif.Spec.LinkedListWork
/-!
# Specification: lists in programs that catch the exceptions of element constructors

What becomes of a call during which constructing the element number `m` throws, as a function of the contents and the
arguments.
-/
namespace Verif.Spec.LL
open Verif Verif.Model.LL

variable {α : Type}

/-- Elements never destroyed and bytes never returned. -/
structure Loss where
  elems : Nat
  bytes : Nat
  deriving DecidableEq

instance : Add Loss := ⟨fun a b => ⟨a.elems + b.elems, a.bytes + b.bytes⟩⟩

inductive Fate (α : Type) where
  /-- The exception reaches the caller; the lists are then `A`, and `loss` belongs to no list. -/
  | caught (A : Ideal α) (loss : Loss)
  /-- The program is terminated. -/
  | ends
  /-- The exception reaches the caller, and list `i` can neither be traversed nor destroyed any more. -/
  | damaged (i : Nat)
  /-- The exception reaches the caller, and list `i`, which was moved from, still is but claims to have `n` elements; nothing
  else about the lists changes, `loss` belongs to no list. -/
  | stray (i n : Nat) (loss : Loss)
  /-- Undefined behaviour before the exception reaches the caller. -/
  | undefined

/-- A list without elements in place of list `i`. -/
def emptied (A : Ideal α) (i : Nat) : Ideal α := put A i ((A i).map fun v => ⟨some [], v.alloc⟩)

/-- `vsize` and `dsize` are the sizes of a node without and with an element.  For calls that construct more than `m` elements
in nodes (`work`). -/
def fateC (vsize dsize : Nat) (A : Ideal α) (m : Nat) : Op α → Fate α
  -- no object, and nobody destroys the nodes made so far
  | .newFill _ _ _ _ | .newCount _ _ _ | .newRange _ _ _ | .newCopy _ _ | .newCopyAlloc _ _ _ =>
    .caught A ⟨m, 2 * vsize + (m + 1) * dsize⟩
  | .fromIter _ _ => if m = 0 then .caught A ⟨0, dsize⟩ else .undefined
  | .insertAfter _ _ _ | .insert _ _ _ => .caught A ⟨0, dsize⟩
  | .insertAfterFill i _ _ _ | .insertAfterRange i _ _ | .insertFill i _ _ _ | .insertRange i _ _ =>
    if m = 0 then .caught A ⟨0, dsize⟩ else .damaged i
  | .listAssign i _ => if m = 0 then .caught (emptied A i) ⟨0, dsize⟩ else .damaged i
  -- if `i` was moved from it has no nodes that could be missing
  | .copyAssign i j => if (A i).any fun v => v.items.isNone then
      if m = 0 then .caught (put A i ((A j).map fun v => ⟨none, v.alloc⟩)) ⟨0, 2 * vsize + dsize⟩
      else .stray i m ⟨m, 2 * vsize + (m + 1) * dsize⟩
    else .damaged i
  -- `noexcept`
  | .pushFront _ _ | .pushBack _ _ | .resize _ _ | .resizeFill _ _ _ => .ends
  -- the others construct nothing
  | _ => .undefined

/-- The lists of the program and what has been lost so far. -/
abbrev State (α : Type) := Ideal α × Loss

/-- A call of a program that catches exceptions, if it survives.  The call must be allowed (`specStep`), and if construction
`m` throws there must be one. -/
def specStepC (dbl : Bool) (dflt : α) (vsize dsize : Nat) (op : Op α) (t : Option Nat) (S : State α) : Option (Option (Res α) × State α) :=
  (specStep false dbl dflt op S.1).bind fun p =>
    match t with
    | none => some (some p.1, p.2, S.2)
    | some m => needs (m < (work S.1 op).made) <|
      match fateC vsize dsize S.1 m op with
      | .caught A loss => some (none, A, S.2 + loss)
      | _ => none

def specRunC (dbl : Bool) (dflt : α) (vsize dsize : Nat) : List (Op α × Option Nat) → State α → Option (List (Option (Res α)) × State α)
  | [], S => some ([], S)
  | op :: ops, S =>
    match specStepC dbl dflt vsize dsize op.1 op.2 S with
    | none => none
    | some (r, S') =>
      match specRunC dbl dflt vsize dsize ops S' with
      | none => none
      | some (rs, S'') => some (r :: rs, S'')

/-- No lists, nothing lost. -/
def start : State α := (fun _ => none, ⟨0, 0⟩)

/-- States reached by programs that catch exceptions, all of whose calls survive, with what has been lost. -/
def ReachC (cfg : Cfg α) (loss : Loss) (w : World α) : Prop :=
  ∃ ops rs A rs', specRunC cfg.dbl cfg.dflt cfg.vsize cfg.dsize ops start = some (rs, A, loss) ∧ runC cfg ops {} = .ok (rs', w)

end Verif.Spec.LL
