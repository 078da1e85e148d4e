import Verif.Spec.VectorOwn
import Verif.Model.VectorConsume
/-!
# Specification: terminals over the owning iterators of a vector
-/
namespace Verif.Spec.VectorConsume
open Verif Verif.Model.Mem Verif.Spec.Vector Verif.Spec.VectorOwn
open Verif.Model.Vector (Op Res)
open Verif.Model.VectorOwn (OOp OWorld orun)
open Verif.Model.VectorConsume (Form)

variable {κ α ρ : Type}

/-- The program has got here by calls on vectors and owning iterators that property C90 covers; `s` says what the vectors contain and what
the iterators have yet to give. -/
def Reached (ty : ElemTy α) (s : State α) (w : OWorld α) : Prop :=
  ∃ ops rs rs', ownRun false ty.size ty.dflt ops start = some (rs, s) ∧ orun ty ops {} = .ok (rs', w)

/-- The order in which the elements come. -/
def order (xs : List α) : Form → List α
  | .direct => xs
  | .directRev => xs.reverse
  | .piped => xs

/-- The client's function on one element after the other.  Result, and which calls on vectors and on the iterator `i` were made:
`next()` before every element and once more at the end, and the function's own. -/
def visit (i : Nat) (f : ρ → α → Prog κ (ρ × List (Op α))) : ρ → List α → Prog κ (ρ × List (OOp α))
  | acc, [] => return (acc, [.next i])
  | acc, x :: xs => do
    let p ← f acc x
    let q ← visit i f p.1 xs
    return (q.1, .next i :: p.2.map .vec ++ q.2)

/-- The first element that satisfies `p` (which may change it), and the elements behind it. -/
def seek (p : α → Prog κ (Bool × α)) : List α → Prog κ (Option α × List α)
  | [] => return (none, [])
  | x :: xs => do
    let c ← p x
    if c.1 then return (some c.2, xs) else seek p xs

end Verif.Spec.VectorConsume
