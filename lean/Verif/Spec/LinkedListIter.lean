import Verif.Model.LinkedListIter
/-!
# Specification: iterators of a list as positions

A list with `n` elements has the positions `0` (before_begin), `1` to `n` (the elements) and `n + 1` (end).
-/
namespace Verif.Spec.LL
open Verif.Model.LL (Move Start)

/-- A position, or nowhere: the iterator moved past one of the ends. -/
inductive Pos where
  | at (k : Nat)
  | off
  deriving DecidableEq, Repr

/-- One step up or down; `none`: not allowed. -/
def up (n : Nat) : Pos → Option Pos
  | .at k => some (if k ≤ n then .at (k + 1) else .off)
  | .off => none

def down : Pos → Option Pos
  | .at 0 => some .off
  | .at (k + 1) => some (.at k)
  | .off => none

def move (n : Nat) : Move → Pos → Option Pos
  | .inc, p => up n p
  | .postInc old, p => (up n p).map fun q => if old then p else q
  | .dec, p => down p
  | .postDec old, p => (down p).map fun q => if old then p else q

def walk (n : Nat) : List Move → Pos → Option Pos
  | [], p => some p
  | m :: ms, p => (move n m p).bind (walk n ms)

def startPos (n : Nat) : Start → Pos
  | .beforeBegin => .at 0
  | .begin => .at 1
  | .fin => .at (n + 1)

/-- The element at a position. -/
def elemAtPos {α : Type} (xs : List α) : Pos → Option α
  | .at (k + 1) => xs[k]?
  | _ => none

/-- Moves a singly linked list has. -/
def forward : Move → Bool
  | .inc | .postInc _ => true
  | _ => false

end Verif.Spec.LL
