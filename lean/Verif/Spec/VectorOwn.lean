import Verif.Spec.VectorView
import Verif.Model.VectorOwn
/-!
# Specification: vectors and owning iterators

An iterator is the list of elements it has yet to give.  Making one takes the elements out of the vector; moving one takes
the list over and leaves an iterator that has nothing to give.
-/
namespace Verif.Spec.VectorOwn
open Verif Verif.Spec.Vector
open Verif.Model.Vector (Op Res)
open Verif.Model.VectorOwn (OOp)

variable {α : Type}

inductive It (α : Type) where
  | fwd (rest : List α)
  | rev (rest : List α)
  /-- a forward iterator that has been moved from -/
  | moved
  deriving DecidableEq

structure State (α : Type) where
  vecs : Ideal α
  its : Nat → Option (It α)

def State.setIt (s : State α) (i : Nat) (x : Option (It α)) : State α := { s with its := fun j => if j = i then x else s.its j }
def State.setVec (s : State α) (i : Nat) (x : Option (Var α)) : State α := { s with vecs := put s.vecs i x }

/-- No object is called `i`. -/
def State.free (s : State α) (i : Nat) : Bool := (s.vecs i).isNone && (s.its i).isNone

/-- One call.  `none`: a call a client may not make.  With `full = false` a moved-from iterator is not asked for elements
(it may still be moved and destroyed). -/
def ownStep (full : Bool) (size : Nat) (dflt : α) : OOp α → State α → Option (Res α × State α)
  | .vec op, s =>
    if (writes op).all fun i => (s.its i).isNone then
      (specStep full size dflt op s.vecs).map fun p => (p.1, { s with vecs := p.2 })
    else none
  | .make i j, s => (s.vecs j).bind fun v =>
    if s.free i then some (.unit, (s.setVec j (some ⟨[], 0, v.alloc⟩)).setIt i (some (.fwd v.xs))) else none
  | .makeRev i j, s => (s.vecs j).bind fun v =>
    if s.free i then some (.unit, (s.setVec j (some ⟨[], 0, v.alloc⟩)).setIt i (some (.rev v.xs.reverse))) else none
  | .next i, s => (s.its i).bind fun
    | .fwd xs => some (.opt xs.head?, s.setIt i (some (.fwd xs.tail)))
    | .rev xs => some (.opt xs.head?, s.setIt i (some (.rev xs.tail)))
    | .moved => only full False <| some (.opt none, s)
  | .move i j, s => (s.its j).bind fun it =>
    if s.free i then
      match it with
      | .fwd xs => some (.unit, (s.setIt i (some (.fwd xs))).setIt j (some .moved))
      | .moved => some (.unit, (s.setIt i (some (.fwd []))).setIt j (some .moved))
      | .rev _ => none
    else none
  | .drop i, s => (s.its i).bind fun _ => some (.unit, s.setIt i none)

def ownRun (full : Bool) (size : Nat) (dflt : α) : List (OOp α) → State α → Option (List (Res α) × State α)
  | [], s => some ([], s)
  | op :: ops, s => (ownStep full size dflt op s).bind fun p =>
    (ownRun full size dflt ops p.2).map fun q => (p.1 :: q.1, q.2)

def start : State α := ⟨fun _ => none, fun _ => none⟩

end Verif.Spec.VectorOwn
