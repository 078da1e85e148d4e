import Verif.Spec.Consume
import Verif.Spec.LinkedListWork
import Verif.Model.ListConsume
/-!
# Specification: terminals over pipelines that consume a list
-/
namespace Verif.Spec.ListConsume
open Verif
open Verif.Model.LL (Op Cfg World)
open Verif.Spec.LL (view Reach)

variable {κ α β ρ : Type}

/-- The program is in a state it can get into by calls on lists, list `j` holds `xs` and has allocator `a`, and there are no
lists in the variables from `t` on, so these are free for the iterator objects of the expression. -/
structure Before (cfg : Cfg α) (w : World α) (j t : Nat) (xs : List α) (a : Nat) : Prop where
  reach : Reach cfg w
  list : view w j = some ⟨some xs, a⟩
  free : ∀ i, t ≤ i → view w i = none

/-- From `w` to `w'` list `j` has become moved-from and keeps its allocator; every other list has the same contents and
allocator.  In particular there are still no lists from `t` on. -/
structure Consumed (cfg : Cfg α) (w w' : World α) (j a : Nat) : Prop where
  reach : Reach cfg w'
  list : view w' j = some ⟨none, a⟩
  others : ∀ l, l ≠ j → view w' l = view w l

/-- The client's functions on one element after the other, as far as the client is concerned, and the calls on lists this
means: `u` loses its first element before the functions see it, then come the calls the function makes. -/
def visit (u : Nat) (g : α → Prog κ (Option β)) (f : ρ → β → Prog κ (ρ × List (Op α))) : ρ → List α → Prog κ (ρ × List (Op α))
  | acc, [] => return (acc, [])
  | acc, x :: xs => do
    let o ← g x
    match o with
    | none => do
      let q ← visit u g f acc xs
      return (q.1, .popFront u :: q.2)
    | some b => do
      let p ← f acc b
      let q ← visit u g f p.1 xs
      return (q.1, .popFront u :: (p.2 ++ q.2))

/-- The function calls lists, but only lists of variables before `t`. -/
def Keeps (t : Nat) (f : ρ → β → Prog κ (ρ × List (Op α))) : Prop :=
  ∀ acc b c r ops c', f acc b c = .ok ((r, ops), c') → ∀ op, op ∈ ops → ∀ l, l ∈ LL.writes op → l < t

/-- What is left in the iterator after `find`. -/
def left : Option (β × List α) → List α
  | none => []
  | some q => q.2

end Verif.Spec.ListConsume
