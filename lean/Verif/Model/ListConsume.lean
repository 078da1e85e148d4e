import Verif.Model.Consume
/-!
# Model of terminals over pipelines that consume a list

`fold(l.into_iter() | pipe, init, f)`, `l.into_iter() | pipe | fold(init, f)`, the same for `for_each` and `reduce`,
`l.into_iter() | pipe | find(p)`, and `find(it, p)` and `last(it)` for a variable `auto it = l.into_iter() | pipe;`.

The iterator objects of an expression are list variables of the program from `t` on, as in `Model/Consume.lean`.  The client's
function may call lists; what these calls return is not visible to it here.
-/
namespace Verif.Model.ListConsume
open Verif
open Verif.Model.Iter (Next Pipe)
open Verif.Model.Collect (World onClient onMem lift)
open Verif.Model.Consume (stages adapts next)

variable {κ α β ρ : Type} (cfg : LL.Cfg α)

/-- The program: the client's own state, and its lists. -/
abbrev W (κ α : Type) := World κ (LL.World α)

/-- `l.into_iter() | pipe` for the list `j` (linked_list.h:742-744, 1993): the iterator object is `t + 3 * n` for `n` adapters. -/
def source (j t n : Nat) : List (LL.Op α) := .newMove t j :: adapts t n

/-- `next()` of the iterator a pipeline builds over the iterator object `u` (linked_list.h:1995-2003). -/
def item (pipe : Pipe κ α β) (u : Nat) : Next (W κ α) Unit β := (lift pipe).next fun s => onMem (next cfg u s)

/-- How the client writes the call of a terminal that takes the iterator by value. -/
inductive Form where
  /-- `terminal(l.into_iter() | pipe, …)`: the iterator object is made in the parameter (guaranteed elision) -/
  | direct
  /-- `l.into_iter() | pipe | terminal(…)`: it is made in the parameter of `operator|` (include/mstl/iter/utility.h:131-136) and moved
  into the parameter of the terminal (fold.h:39, for_each.h:32, reduce.h:39) -/
  | piped

def Form.enter (a : Nat) : Form → List (LL.Op α)
  | .direct => []
  | .piped => [.newMove (a + 1) a]

/-- The parameter of the terminal. -/
def Form.param (a : Nat) : Form → Nat
  | .direct => a
  | .piped => a + 1

/-- The parameters are destroyed. -/
def Form.leave (a : Nat) : Form → List (LL.Op α)
  | .direct => [.drop a]
  | .piped => [.drop (a + 1), .drop a]

/-- The client's function: it changes the client's state and then calls lists. -/
def body (f : ρ → β → Prog κ (ρ × List (LL.Op α))) (acc : ρ) (b : β) : Prog (W κ α) ρ := do
  let p ← onClient (f acc b)
  let _ ← onMem (LL.run cfg p.2)
  return p.1

/-- fold.h:13-27, 36-40 `fold`. -/
def fold (form : Form) (j t : Nat) (pipe : Pipe κ α β) (f : ρ → β → Prog κ (ρ × List (LL.Op α))) (init : ρ) : Prog (W κ α) ρ := do
  let a := t + 3 * stages pipe
  let _ ← onMem (LL.run cfg (source j t (stages pipe) ++ form.enter a))
  let r ← Iter.fold (item cfg pipe (form.param a)) (body cfg f) init ()
  let _ ← onMem (LL.run cfg (form.leave a))
  return r

/-- for_each.h:12-21, 28-33 `for_each`. -/
def forEach (form : Form) (j t : Nat) (pipe : Pipe κ α β) (f : β → Prog κ (List (LL.Op α))) : Prog (W κ α) Unit := do
  let a := t + 3 * stages pipe
  let _ ← onMem (LL.run cfg (source j t (stages pipe) ++ form.enter a))
  Iter.forEach (item cfg pipe (form.param a)) (fun b => body cfg (fun _ b => do let ops ← f b; return ((), ops)) () b) ()
  let _ ← onMem (LL.run cfg (form.leave a))

/-- reduce.h:14-26, 35-40 `reduce`: once it has the first element it *copies* the iterator into the parameter of `fold` (reduce.h:22). -/
def reduce (form : Form) (j t : Nat) (pipe : Pipe κ α β) (f : β → β → Prog κ β) : Prog (W κ α) (Option β) := do
  let a := t + 3 * stages pipe
  let u := form.param a
  let _ ← onMem (LL.run cfg (source j t (stages pipe) ++ form.enter a))
  let first ← item cfg pipe u ()
  let r ← match first.1 with
    | some b => do
      let _ ← onMem (LL.run cfg [.newCopy (u + 1) u])
      let v ← Iter.fold (item cfg pipe (u + 1)) (fun acc b => onClient (f acc b)) b ()
      let _ ← onMem (LL.run cfg [.drop (u + 1)])
      pure (some v)
    | none => pure none
  let _ ← onMem (LL.run cfg (form.leave a))
  return r

/-- find.h:12-27 `find(it, p)` for the iterator object `u`; the iterator is taken by reference. -/
def findIn (pipe : Pipe κ α β) (u : Nat) (p : β → Prog κ (Bool × β)) : Prog (W κ α) (Option β) := do
  let r ← Iter.find (item cfg pipe u) (fun b => onClient (p b)) ()
  return r.1

/-- `l.into_iter() | pipe | find(p)`: the parameter of `operator|` (utility.h:131-136) is passed on by reference (find.h:61-63). -/
def find (j t : Nat) (pipe : Pipe κ α β) (p : β → Prog κ (Bool × β)) : Prog (W κ α) (Option β) := do
  let a := t + 3 * stages pipe
  let _ ← onMem (LL.run cfg (source j t (stages pipe)))
  let r ← findIn cfg pipe a p
  let _ ← onMem (LL.run cfg [.drop a])
  return r

/-- last.h:18-35 `last(it)` for the iterator object `u`. -/
def lastIn (pipe : Pipe κ α β) (u : Nat) : Prog (W κ α) (Option β) := do
  let r ← Iter.last (item cfg pipe u) ()
  return r.1

end Verif.Model.ListConsume
