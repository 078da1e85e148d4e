import Verif.Model.VectorIter
/-!
# Specification: iterators of a vector as positions

A position is a number; `room` is the capacity.  `walk` follows a client's moves and answers `none` as soon as a move leaves
the vector's storage.
-/
namespace Verif.Spec.Vector
open Verif.Model.Vector (Move)

/-- One step up or down. -/
def up (room p n : Nat) : Option Nat := if p + n ≤ room then some (p + n) else none
def down (p n : Nat) : Option Nat := if n ≤ p then some (p - n) else none

def move (room : Nat) : Move → Nat → Option Nat
  | .inc, p => up room p 1
  | .postInc old, p => (up room p 1).map fun q => if old then p else q
  | .dec, p => down p 1
  | .postDec old, p => (down p 1).map fun q => if old then p else q
  | .plus n, p => up room p n
  | .minus n, p => down p n

def walk (room : Nat) : List Move → Nat → Option Nat
  | [], p => some p
  | m :: ms, p => (move room m p).bind (walk room ms)

end Verif.Spec.Vector
