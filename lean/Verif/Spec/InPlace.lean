import Verif.Model.InPlace
/-!
# Specification: what functions that receive references do to a list of elements

Only the syntax (`Refs`, `Stages`, `Use`) is shared with the model.  The container is a list of values.
-/
namespace Verif.Spec.InPlace
open Verif
open Verif.Model.InPlace (Refs Stages Use)

variable {κ α β γ ρ : Type}

/-- One element: is it kept, and the value the predicates leave in it.  A predicate is called only if all before accepted. -/
def refs : Refs κ α → α → Prog κ (Bool × α)
  | .source, x => return (true, x)
  | .filter r p, x => do
    let b ← refs r x
    if b.1 then p b.2 else return (false, b.2)

/-- One element: the item that comes out of the last stage, if any, and the value left in the element. -/
def item : {γ : Type} → Stages κ α γ → α → Prog κ (Option γ × α)
  | _, .first r f, x => do
    let b ← refs r x
    if b.1 then do
      let c ← f b.2
      return (some c.1, c.2)
    else return (none, b.2)
  | _, .map s f, x => do
    let b ← item s x
    match b.1 with
    | none => return (none, b.2)
    | some c => do
      let d ← f c
      return (some d, b.2)
  | _, .filter s p, x => do
    let b ← item s x
    match b.1 with
    | none => return (none, b.2)
    | some c => do
      let d ← p c
      if d.1 then return (some d.2, b.2) else return (none, b.2)

/-- From the first element to the last: `g` gets the result so far and the element, and answers the new result and the value
it leaves in the element. -/
def sweep (g : ρ → α → Prog κ (ρ × α)) : ρ → List α → Prog κ (ρ × List α)
  | acc, [] => return (acc, [])
  | acc, x :: xs => do
    let q ← g acc x
    let t ← sweep g q.1 xs
    return (t.1, q.2 :: t.2)

/-- The first kept element that satisfies `p` is given to `f`; the elements behind it are not looked at. -/
def search (r : Refs κ α) (p : α → Prog κ (Bool × α)) (f : α → Prog κ (Unit × α)) : List α → Prog κ (Bool × List α)
  | [] => return (false, [])
  | x :: xs => do
    let b ← refs (.filter r p) x
    if b.1 then do
      let c ← f b.2
      return (true, c.2 :: xs)
    else do
      let t ← search r p f xs
      return (t.1, b.2 :: t.2)

/-- The result of the call and the contents of the container afterwards. -/
def use : {ρ : Type} → Use κ α ρ → List α → Prog κ (ρ × List α)
  | _, .forEachRef r f, xs => sweep (fun _ x => do
      let b ← refs r x
      if b.1 then f b.2 else return ((), b.2)) () xs
  | _, .foldRef r f init, xs => sweep (fun acc x => do
      let b ← refs r x
      if b.1 then f acc b.2 else return (acc, b.2)) init xs
  | _, .forEach s f, xs => sweep (fun _ x => do
      let b ← item s x
      match b.1 with
      | none => return ((), b.2)
      | some c => do
        f c
        return ((), b.2)) () xs
  | _, .fold s f init, xs => sweep (fun acc x => do
      let b ← item s x
      match b.1 with
      | none => return (acc, b.2)
      | some c => do
        let acc ← f acc c
        return (acc, b.2)) init xs
  | _, .findRef r p f, xs => search r p f xs

end Verif.Spec.InPlace
