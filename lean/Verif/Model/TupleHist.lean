import Verif.Base.Out
/-!
# Programs over tuples whose components can throw (include/mstl/utility/tuple.h)

`Model/Tuple` has one tuple at a time and components that never throw.  Here a program has variables and tuple variables.  Values of
all component types are values of `α` (a client whose components have different types takes their sum); `mv` is what a move leaves
behind, `eq` the components' `==`.  A tuple is its first component and the tuple of the rest, so a list.

The copies, moves and calls of the client's function that a call makes are numbered from 0 in the order in which the code makes
them.  With a call comes `x`, the number of the first one that throws, or `none`.  A copy or move that throws changes neither side.
Default construction, destruction and `==` of components do not throw.  A call answers `none` if an exception leaves it; the client
catches it.  A function declared `noexcept` that an exception would leave ends the program (`panic`).  Calls that do not
compile (a name declared twice, tuples of different lengths, a position that is not there) are `ub`.
-/
namespace Verif.Model.TupHist
open Verif

variable {α : Type}

structure World (α : Type) where
  /-- the variables -/
  var : Nat → α
  /-- the components of the tuples that exist -/
  tup : Nat → Option (List α)

/-- A variable as an argument: `x` or `std::move(x)`. -/
structure Arg where
  x : Nat
  moved : Bool
  deriving DecidableEq

inductive Op (α : Type) where
  | assign (x : Nat) (v : α)
  | construct (i : Nat) (args : List Arg)
  | makeTuple (i : Nat) (args : List Arg)
  | makePair (i : Nat) (a b : Arg)
  | makeDefault (i n : Nat)
  | copyCtor (i j : Nat)
  | moveCtor (i j : Nat)
  | copyAssign (i j : Nat)
  | moveAssign (i j : Nat)
  | tie (xs : List Nat) (j : Nat)
  | tieTie (ls : List (Nat × Nat))
  | get (x i p : Nat)
  | take (x i p : Nat)
  | set (i p : Nat) (a : Arg)
  | first (x i : Nat)
  | second (x i : Nat)
  | equal (i j : Nat)
  | forEach (i : Nat) (f : α → α)
  | size (i : Nat)
  | drop (i : Nat)

inductive Ret where
  | unit
  | bool (b : Bool)
  | num (n : Nat)
  deriving DecidableEq

abbrev M (α β : Type) := Prog (World α) β

/-- The copy, move or call that comes next throws. -/
def throwsNow (x : Option Nat) : Bool := x == some 0
/-- The number of the first one that throws, counted from the next one on. -/
def later (x : Option Nat) : Option Nat := x.map (· - 1)

/-- A store to a variable. -/
def store (m : Nat → α) (x : Nat) (v : α) : Nat → α := fun y => if y = x then v else m y

/-- What taking an argument does to the variables. -/
def taken (mv : α → α) (m : Nat → α) (a : Arg) : Nat → α := if a.moved then store m a.x (mv (m a.x)) else m

/-- tuple.h:49-52 the `noexcept` constructor: `f(std::forward<F>(f)), r(std::forward<R>(r)...)`; each argument is copied or moved as
it was passed, the first one first. -/
def build (mv : α → α) : List Arg → Option Nat → (Nat → α) → Out (List α × (Nat → α))
  | [], _, m => .ok ([], m)
  | a :: as, x, m =>
    if throwsNow x then .panic
    else do
      let f := m a.x
      let (r, m) ← build mv as (later x) (taken mv m a)
      return (f :: r, m)

/-- tuple.h:283-287 `make_tuple(v, vs...)`: the arguments are named, so all are lvalues: `Tuple{v, vs...}`. -/
def makeTuple (mv : α → α) (args : List Arg) (x : Option Nat) (m : Nat → α) : Out (List α × (Nat → α)) :=
  build mv (args.map fun a => { a with moved := false }) x m

/-- tuple.h:289-293 `make_tuple<T, Ts...>()`: temporaries `T{}, Ts{}...`, each moved into its component. -/
def makeDefault (dflt : α) : Nat → Option Nat → Out (List α)
  | 0, _ => .ok []
  | n + 1, x =>
    if throwsNow x then .panic
    else do
      let r ← makeDefault dflt n (later x)
      return dflt :: r

/-- tuple.h:54-55 copy constructor, `noexcept`. -/
def copyAll : List α → Option Nat → Out (List α)
  | [], _ => .ok []
  | f :: r, x =>
    if throwsNow x then .panic
    else do
      let r ← copyAll r (later x)
      return f :: r

/-- tuple.h:57-58 move constructor, `noexcept`: the new tuple and what is left in the source. -/
def moveAll (mv : α → α) : List α → Option Nat → Out (List α × List α)
  | [], _ => .ok ([], [])
  | f :: r, x =>
    if throwsNow x then .panic
    else do
      let (r, s) ← moveAll mv r (later x)
      return (f :: r, mv f :: s)

/-- tuple.h:62-70 copy assignment between different tuples, `noexcept`: `f = other.f; r = other.r;`. -/
def assignAll : List α → List α → Option Nat → Out (List α)
  | [], [], _ => .ok []
  | _ :: r, g :: s, x =>
    if throwsNow x then .panic
    else do
      let r ← assignAll r s (later x)
      return g :: r
  | _, _, _ => .ub

/-- tuple.h:72-80 move assignment between different tuples, `noexcept`. -/
def moveAssignAll (mv : α → α) : List α → List α → Option Nat → Out (List α × List α)
  | [], [], _ => .ok ([], [])
  | _ :: r, g :: s, x =>
    if throwsNow x then .panic
    else do
      let (r, s) ← moveAssignAll mv r s (later x)
      return (g :: r, mv g :: s)
  | _, _, _ => .ub

/-- tuple.h:82-88 assignment to a tuple of references (311-315 `tie`) from a tuple of values, not `noexcept`: whether a copy threw,
and the variables then. -/
def tieLoop : List Nat → List α → Option Nat → (Nat → α) → Out (Bool × (Nat → α))
  | [], [], _, m => .ok (false, m)
  | y :: ys, g :: s, x, m =>
    if throwsNow x then .ok (true, m)
    else tieLoop ys s (later x) (store m y g)
  | _, _, _, _ => .ub

/-- tuple.h:82-88 `tie(...) = tie(...)`: pairs of target and source variable. -/
def tieTieLoop : List (Nat × Nat) → Option Nat → (Nat → α) → Bool × (Nat → α)
  | [], _, m => (false, m)
  | (y, z) :: ls, x, m =>
    if throwsNow x then (true, m)
    else tieTieLoop ls (later x) (store m y (m z))

/-- tuple.h:138-156 `get<pos>()`. -/
def component : List α → Nat → Out α
  | [], _ => .ub
  | f :: _, 0 => .ok f
  | _ :: r, p + 1 => component r p

/-- A store through `get<pos>()`. -/
def storeAt : List α → Nat → α → List α
  | [], _, _ => []
  | _ :: r, 0, v => v :: r
  | f :: r, p + 1, v => f :: storeAt r p v

/-- tuple.h:90-94, 210-212 `operator==`. -/
def equal (eq : α → α → Bool) : List α → List α → Out Bool
  | [], [] => .ok true
  | f :: r, g :: s => if eq f g then equal eq r s else .ok false
  | _, _ => .ub

/-- tuple.h:127-131, 214-215 `for_each`: `fun` gets each component by reference; a call that throws leaves its component as it was. -/
def forEachLoop (f : α → α) : List α → Option Nat → Bool × List α
  | [], _ => (false, [])
  | g :: r, x =>
    if throwsNow x then (true, g :: r)
    else
      let (b, r) := forEachLoop f r (later x)
      (b, f g :: r)

def getTup (i : Nat) : M α (List α) := fun w =>
  match w.tup i with
  | some t => .ok (t, w)
  | none => .ub

def fresh (i : Nat) : M α Unit := fun w => if (w.tup i).isSome then .ub else .ok ((), w)

def setTup (i : Nat) (t : Option (List α)) : M α Unit :=
  fun w => .ok ((), { w with tup := fun k => if k = i then t else w.tup k })

def vars : M α (Nat → α) := fun w => .ok (w.var, w)
def setVars (m : Nat → α) : M α Unit := fun w => .ok ((), { w with var := m })
def lift {β : Type} (o : Out β) : M α β := fun w => o >>= fun b => .ok (b, w)

/-- tuple.h:138-156, 162-188 and the component's copy assignment, as in `y = get<p>(t)`. -/
def copyOut (x : Option Nat) (y i p : Nat) : M α (Option Ret) := do
  let t ← getTup i
  let v ← lift (component t p)
  if throwsNow x then return none
  else do
    let m ← vars
    setVars (store m y v)
    return some .unit

/-- One call. -/
def step (mv : α → α) (dflt : α) (eq : α → α → Bool) (x : Option Nat) : Op α → M α (Option Ret)
  /- the client's own store of a value it has -/
  | .assign y v => do
    let m ← vars
    setVars (store m y v)
    return some .unit
  /- tuple.h:49-52 -/
  | .construct i args => do
    fresh i
    let m ← vars
    let (t, m) ← lift (build mv args x m)
    setVars m
    setTup i (some t)
    return some .unit
  /- tuple.h:283-287; `make_tuple()` is the unit (295-298) -/
  | .makeTuple i args => do
    fresh i
    let m ← vars
    let (t, m) ← lift (makeTuple mv args x m)
    setVars m
    setTup i (some t)
    return some .unit
  /- tuple.h:321-324 `make_pair`: forwards to `make_tuple` -/
  | .makePair i a b => do
    fresh i
    let m ← vars
    let (t, m) ← lift (makeTuple mv [a, b] x m)
    setVars m
    setTup i (some t)
    return some .unit
  /- tuple.h:289-293 -/
  | .makeDefault i n => do
    fresh i
    let t ← lift (makeDefault dflt n x)
    setTup i (some t)
    return some .unit
  /- tuple.h:54-55 -/
  | .copyCtor i j => do
    fresh i
    let s ← getTup j
    let t ← lift (copyAll s x)
    setTup i (some t)
    return some .unit
  /- tuple.h:57-58 -/
  | .moveCtor i j => do
    fresh i
    let s ← getTup j
    let (t, s) ← lift (moveAll mv s x)
    setTup j (some s)
    setTup i (some t)
    return some .unit
  /- tuple.h:62-70 -/
  | .copyAssign i j => do
    let t ← getTup i
    let s ← getTup j
    if i = j then return some .unit
    else do
      let t ← lift (assignAll t s x)
      setTup i (some t)
      return some .unit
  /- tuple.h:72-80 -/
  | .moveAssign i j => do
    let t ← getTup i
    let s ← getTup j
    if i = j then return some .unit
    else do
      let (t, s) ← lift (moveAssignAll mv t s x)
      setTup j (some s)
      setTup i (some t)
      return some .unit
  /- tuple.h:311-315, 82-88 -/
  | .tie xs j => do
    let s ← getTup j
    let m ← vars
    let (b, m) ← lift (tieLoop xs s x m)
    setVars m
    return (if b then none else some .unit)
  /- tuple.h:311-315, 82-88 -/
  | .tieTie ls => do
    let m ← vars
    let (b, m) := tieTieLoop ls x m
    setVars m
    return (if b then none else some .unit)
  /- tuple.h:259-267 `get<p>(t)` -/
  | .get y i p => copyOut x y i p
  /- tuple.h:269-272 `y = get<p>(std::move(t))` -/
  | .take y i p => do
    let t ← getTup i
    let v ← lift (component t p)
    if throwsNow x then return none
    else do
      let m ← vars
      setVars (store m y v)
      setTup i (some (storeAt t p (mv v)))
      return some .unit
  /- tuple.h:259-262 `get<p>(t) = y`, `get<p>(t) = std::move(y)` -/
  | .set i p a => do
    let t ← getTup i
    let _ ← lift (component t p)
    if throwsNow x then return none
    else do
      let m ← vars
      setVars (taken mv m a)
      setTup i (some (storeAt t p (m a.x)))
      return some .unit
  /- tuple.h:162-168 -/
  | .first y i => do
    let t ← getTup i
    if t.length ≠ 2 then Prog.ub else copyOut x y i 0
  /- tuple.h:182-188 -/
  | .second y i => do
    let t ← getTup i
    if t.length ≠ 2 then Prog.ub else copyOut x y i 1
  /- tuple.h:90-94 -/
  | .equal i j => do
    let t ← getTup i
    let s ← getTup j
    let b ← lift (equal eq t s)
    return some (.bool b)
  /- tuple.h:127-131 -/
  | .forEach i f => do
    let t ← getTup i
    let (b, t) := forEachLoop f t x
    setTup i (some t)
    return (if b then none else some .unit)
  /- tuple.h:101, 204 -/
  | .size i => do
    let t ← getTup i
    return some (.num t.length)
  /- the end of the tuple's scope -/
  | .drop i => do
    let _ ← getTup i
    setTup i none
    return some .unit

/-- A program that catches the exceptions. -/
def run (mv : α → α) (dflt : α) (eq : α → α → Bool) : List (Op α × Option Nat) → M α (List (Option Ret))
  | [] => pure []
  | (op, x) :: ops => do
    let r ← step mv dflt eq x op
    let rs ← run mv dflt eq ops
    return r :: rs

end Verif.Model.TupHist
