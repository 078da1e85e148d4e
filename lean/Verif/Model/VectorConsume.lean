import Verif.Model.VectorOwn
import Verif.Model.Collect
/-!
# Model of terminals over the owning iterators of a vector

`fold(v.into_iter(), init, f)`, `v.into_iter() | fold(init, f)`, the same for `for_each`, with `into_iter_reversed()`, and
`collect<Vector>(v.into_iter())`; `find(it, p)` and `last(it)` for an iterator variable.

These iterators cannot be copied.  Therefore they cannot go through an adapter (map.h:27 and filter.h:28, 50 copy the iterator),
`reduce` (reduce.h:22 copies it) or `| collect` (collect.h:28), and reversed ones, whose move constructor does not compile (vector.h:1037-1040),
only into a parameter that is initialised by the call of `into_iter_reversed()` itself.

The iterator objects of an expression are variables `t` and `t + 1` of the program; parameters are destroyed when the function
returns.  The client's function may call vectors; what these calls return is not visible to it here.
-/
namespace Verif.Model.VectorConsume
open Verif Verif.Model.Mem Verif.Model.VectorOwn
open Verif.Model.Vector (Op)
open Verif.Model.Iter (Next)
open Verif.Model.Collect (World onClient onMem)

variable {κ α ρ : Type} (ty : ElemTy α)

/-- The program: the client's own state, and its vectors and iterators. -/
abbrev W (κ α : Type) := World κ (OWorld α)

/-- `next()` of the iterator variable `i` (vector.h:1009-1020, 1043-1053); its state is in the variable. -/
def take (i : Nat) : Next (W κ α) Unit α := fun _ => do
  let r ← onMem (VectorOwn.next ty i)
  match r with
  | .opt o => return (o, ())
  | _ => fun _ => .ub

/-- How the client writes the call. -/
inductive Form where
  /-- `terminal(v.into_iter(), …)`: the iterator is made in the parameter (guaranteed elision) -/
  | direct
  /-- `terminal(v.into_iter_reversed(), …)` -/
  | directRev
  /-- `v.into_iter() | terminal(…)`: the iterator is made in the parameter of `operator|` (include/mstl/iter/utility.h:131-136) and moved
  into the parameter of the terminal (fold.h:39, for_each.h:32) -/
  | piped

/-- The iterator objects before the terminal begins. -/
def Form.enter (j t : Nat) : Form → List (OOp α)
  | .direct => [.make t j]
  | .directRev => [.makeRev t j]
  | .piped => [.make t j, .move (t + 1) t]

/-- The parameter of the terminal. -/
def Form.param (t : Nat) : Form → Nat
  | .direct => t
  | .directRev => t
  | .piped => t + 1

/-- The parameters are destroyed. -/
def Form.leave (t : Nat) : Form → List (OOp α)
  | .direct => [.drop t]
  | .directRev => [.drop t]
  | .piped => [.drop (t + 1), .drop t]

/-- The client's function: it changes the client's state and then calls vectors. -/
def body (f : ρ → α → Prog κ (ρ × List (Op α))) (acc : ρ) (a : α) : Prog (W κ α) ρ := do
  let p ← onClient (f acc a)
  let _ ← onMem (orun ty (p.2.map .vec))
  return p.1

/-- fold.h:13-27, 36-40 `fold`. -/
def fold (form : Form) (j t : Nat) (f : ρ → α → Prog κ (ρ × List (Op α))) (init : ρ) : Prog (W κ α) ρ := do
  let _ ← onMem (orun ty (form.enter j t))
  let r ← Iter.fold (take ty (form.param t)) (body ty f) init ()
  let _ ← onMem (orun ty (form.leave t))
  return r

/-- for_each.h:12-21, 28-33 `for_each`. -/
def forEach (form : Form) (j t : Nat) (f : α → Prog κ (List (Op α))) : Prog (W κ α) Unit := do
  let _ ← onMem (orun ty (form.enter j t))
  Iter.forEach (take ty (form.param t)) (fun a => body ty (fun _ a => do let ops ← f a; return ((), ops)) () a) ()
  let _ ← onMem (orun ty (form.leave t))

/-- collect.h:12-17 `Vector i = collect<Vector>(v.into_iter());`: the parameter `t` of `collect` is moved into the parameter `t + 1`
of `from_iter` (vector.h:460-469), which makes a vector and appends to it; the vector becomes variable `i`. -/
def collect (j t i : Nat) : Prog (W κ α) Unit := do
  let _ ← onMem (orun ty [.make t j, .move (t + 1) t, .vec (.newDefault i)])
  Iter.forEach (take ty (t + 1)) (fun a => do let _ ← onMem (orun ty [.vec (.push i (.val a))])) ()
  let _ ← onMem (orun ty [.drop (t + 1), .drop t])

/-- find.h:12-27 `find(it, p)` for the iterator variable `i`. -/
def find (i : Nat) (p : α → Prog κ (Bool × α)) : Prog (W κ α) (Option α) := do
  let r ← Iter.find (take ty i) (fun a => onClient (p a)) ()
  return r.1

/-- last.h:18-35 `last(it)` for the iterator variable `i`. -/
def last (i : Nat) : Prog (W κ α) (Option α) := do
  let r ← Iter.last (take ty i) ()
  return r.1

end Verif.Model.VectorConsume
