import Verif.Model.Collect
/-!
# Model of `list.into_iter() | map(f) | filter(p) | … | collect<Container>()`

`into_iter()` moves the list into an iterator object (`ListIntoIter`, linked_list.h:1983-2015), whose only member is that list.
The iterator object then passes through the expression by value: it is moved into and out of parameters, and every adapter
copies it into its member.  Copying or moving the iterator copies or moves its list, so here the iterator objects of the
expression are list variables of the program from index `t` on: one for every parameter and member, created and destroyed
where the code does.  An object returned by value is constructed in the place where it is used (guaranteed elision), and
parameters are destroyed when the function returns (a compiler may also do so at the end of the expression).

The functions of the pipeline receive elements as values, as in `Model/Collect.lean`; copying a function object has no effect.
-/
namespace Verif.Model.Consume
open Verif
open Verif.Model.Iter (Next Pipe)
open Verif.Model.Collect (World Memory Kinds Dst onMem lists lift)

variable {κ α β γ : Type}

/-- The adapters of a pipeline. -/
def stages : {α β : Type} → Pipe κ α β → Nat
  | _, _, .source => 0
  | _, _, .map pipe _ => stages pipe + 1
  | _, _, .filter pipe _ => stages pipe + 1

/-- `it | map(f)` or `it | filter(p)` for the iterator object `t`, which is the parameter of `operator|` (include/mstl/iter/utility.h:124-129):
it is moved into the parameter `t + 1` of `to_adapter` (map.h:60-65, filter.h:79-84, 94-99), that one into the parameter `t + 2`
of the adapter's constructor, and this one is *copied* into the member `t + 3` (map.h:27, filter.h:28, 50). -/
def adapt (t : Nat) : List (LL.Op α) :=
  [.newMove (t + 1) t, .newMove (t + 2) (t + 1), .newCopy (t + 3) (t + 2), .drop (t + 2), .drop (t + 1), .drop t]

/-- `n` adapters one after the other; the iterator object ends up in `t + 3 * n`. -/
def adapts : Nat → Nat → List (LL.Op α)
  | _, 0 => []
  | t, n + 1 => adapt t ++ adapts (t + 3) n

/-- How the client calls `collect`. -/
inductive Call where
  /-- `it | collect<C>()`: the iterator object is the parameter of `operator|` (utility.h:131-136), `CollectHolder::call`
  passes it on as an lvalue (collect.h:24-28), so it is copied into the parameter of `collect`, and from there moved into the
  parameter of `from_iter` (collect.h:12-17) -/
  | piped
  /-- `collect<C>(it)`: the iterator object is the parameter of `collect` (collect.h:12-17) and moved into that of `from_iter` -/
  | direct

def Call.enter (a : Nat) : Call → List (LL.Op α)
  | .piped => [.newCopy (a + 1) a, .newMove (a + 2) (a + 1)]
  | .direct => [.newMove (a + 1) a]

/-- The parameter of `from_iter`. -/
def Call.param (a : Nat) : Call → Nat
  | .piped => a + 2
  | .direct => a + 1

/-- The parameters are destroyed. -/
def Call.leave (a : Nat) : Call → List (LL.Op α)
  | .piped => [.drop (a + 2), .drop (a + 1), .drop a]
  | .direct => [.drop (a + 1), .drop a]

/-- linked_list.h:1995-2003 `ListIntoIter::next` of the iterator object `u`. -/
def next (cfg : LL.Cfg α) (u : Nat) : Next (LL.World α) Unit α := fun _ => do
  let l ← LL.var u
  let r ← LL.inHeap (LL.intoNext cfg l)
  LL.setVar u (some r.2)
  return (r.1, ())

/-- `Container d = l.into_iter() | pipe | collect<Container>();` or `Container d = collect<Container>(l.into_iter() | pipe);` for the
list `j` (linked_list.h:742-744, 1993). -/
def run (K : Kinds α β) (j t : Nat) (pipe : Pipe κ α γ) (call : Call) (d : Dst α β γ) : Prog (World κ (Memory α β)) Unit := do
  let a := t + 3 * stages pipe
  let _ ← onMem (lists.on (LL.run K.cfg (.newMove t j :: (adapts t (stages pipe) ++ call.enter a))))
  d.collect K ((lift pipe).next fun s => onMem (lists.on (next K.cfg (call.param a) s))) ()
  let _ ← onMem (lists.on (LL.run K.cfg (call.leave a)))
  return ()

end Verif.Model.Consume
