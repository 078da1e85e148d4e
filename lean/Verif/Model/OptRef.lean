import Verif.Model.Opt
/-!
# Histories of `Option<T&>` (include/mstl/option/option.h:222-338)

The member functions are the `ref…` definitions of `Verif.Model.Opt`.  Here a client creates and destroys both the objects
referred to and the options; using an object (also through an option that outlived it) or an option that does not exist is
`ub`.
-/
namespace Verif.Model.OptRef
open Verif Verif.Model.Opt

/-- `base` holds the client's objects and the pointers of the options; `objs` and `opts` say which of them exist. -/
structure World (α : Type) where
  base : RefWorld α
  objs : Nat → Bool
  opts : Nat → Bool

variable {α : Type}

/-- Runs a member of `Option<T&>`. -/
def on {β : Type} (p : Prog (RefWorld α) β) : Prog (World α) β := fun w =>
  match p w.base with
  | .ok (b, r) => .ok (b, { w with base := r })
  | .panic => .panic
  | .oom => .oom
  | .ub => .ub
  | .div => .div

/-- The object at `a` must exist. -/
def useObj (a : Nat) : Prog (World α) Unit := fun w => if w.objs a then .ok ((), w) else .ub

/-- The option `i` must exist. -/
def useOpt (i : Nat) : Prog (World α) Unit := fun w => if w.opts i then .ok ((), w) else .ub

/-- Storage in which the option `i` is constructed. -/
def newOpt (i : Nat) : Prog (World α) Unit := fun w =>
  if w.opts i then .ub else .ok ((), { w with opts := fun k => if k = i then true else w.opts k })

/-- The client creates an object. -/
def newObj (a : Nat) (v : α) : Prog (World α) Unit := fun w =>
  if w.objs a then .ub
  else .ok ((), { w with objs := fun k => if k = a then true else w.objs k,
                         base := { w.base with mem := fun k => if k = a then v else w.base.mem k } })

/-- The client ends the life of an object. -/
def endObj (a : Nat) : Prog (World α) Unit := fun w =>
  if w.objs a then .ok ((), { w with objs := fun k => if k = a then false else w.objs k }) else .ub

/-- The client ends the life of an option (the destructor is trivial: option.h:222-338 declares none). -/
def endOpt (i : Nat) : Prog (World α) Unit := fun w =>
  if w.opts i then .ok ((), { w with opts := fun k => if k = i then false else w.opts k }) else .ub

/-- Calls of a client. -/
inductive Op (α : Type) where
  | newObj (a : Nat) (v : α)
  | setObj (a : Nat) (v : α)
  | endObj (a : Nat)
  | some (i a : Nat)
  | none (i : Nat)
  | copyCtor (i j : Nat)
  | copyAssign (i j : Nat)
  | moveCtor (i j : Nat)
  | moveAssign (i j : Nat)
  | isSome (i : Nat)
  | isNone (i : Nat)
  | read (i : Nat)
  | write (i : Nat) (v : α)
  | take (i : Nat)
  | takeWrite (i : Nat) (v : α)
  | map (i : Nat) (f : α → α × α)
  | destroy (i : Nat)

inductive Ret (α : Type) where
  | unit
  | bool (b : Bool)
  | val (v : α)
  | opt (o : Option α)

/-- option.h:238-239 `is_some`. -/
def refIsSome (i : Nat) : Prog (RefWorld α) Bool := fun w => .ok ((w.refs i).isSome, w)

/-- option.h:240-241 `is_none`. -/
def refIsNone (i : Nat) : Prog (RefWorld α) Bool := do
  let b ← refIsSome i
  return !b

/-- option.h:293-300 `map`: the object is used only if there is one. -/
def useReferent (i : Nat) : Prog (World α) Unit := fun w =>
  match w.base.refs i with
  | none => .ok ((), w)
  | some a => useObj a w

/-- `read i` is `x = o.as_ref()`, `write i v` is `o.as_ref() = v`, `take i` is `x = o.unwrap()`, `takeWrite i v` is
`o.unwrap() = v`. -/
def step : Op α → Prog (World α) (Ret α)
  | .newObj a v => do newObj a v; return .unit
  | .setObj a v => do useObj a; on (store a v); return .unit
  | .endObj a => do endObj a; return .unit
  | .some i a => do useObj a; newOpt i; on (refSome i a); return .unit
  | .none i => do newOpt i; on (refNone i); return .unit
  | .copyCtor i j => do useOpt j; newOpt i; on (refCopy i j); return .unit
  | .copyAssign i j => do useOpt i; useOpt j; on (refCopy i j); return .unit
  | .moveCtor i j => do useOpt j; newOpt i; on (refMoveCtor i j); return .unit
  | .moveAssign i j => do useOpt i; useOpt j; on (refMoveAssign i j); return .unit
  | .isSome i => do useOpt i; return .bool (← on (refIsSome i))
  | .isNone i => do useOpt i; return .bool (← on (refIsNone i))
  | .read i => do
    useOpt i
    let a ← on (refAsRef i)
    useObj a
    return .val (← on (load a))
  | .write i v => do
    useOpt i
    let a ← on (refAsRef i)
    useObj a
    on (store a v)
    return .unit
  | .take i => do
    useOpt i
    let a ← on (refUnwrap i)
    useObj a
    return .val (← on (load a))
  | .takeWrite i v => do
    useOpt i
    let a ← on (refUnwrap i)
    useObj a
    on (store a v)
    return .unit
  | .map i f => do
    useOpt i
    useReferent i
    return .opt (← on (refMap f i)).down
  | .destroy i => do endOpt i; return .unit

/-- A history of calls. -/
def run : List (Op α) → Prog (World α) (List (Ret α))
  | [] => pure []
  | op :: ops => do
    let r ← step op
    let rs ← run ops
    return r :: rs

/-- Before anything exists. -/
def World.init (mem : Nat → α) (refs : Nat → Option Nat) : World α := ⟨⟨mem, refs⟩, fun _ => false, fun _ => false⟩

end Verif.Model.OptRef
