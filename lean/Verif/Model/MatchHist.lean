import Verif.Base.Out
/-!
# Programs that keep matches and match chains (include/mstl/utility/match.h)

`Model/Match` is one expression `match(t).when(...)....finale()` in which nothing throws.  Here a program has variables, `Match` objects
and `MatchMid` objects (chains) with names, and calls their functions in any order.  A `Match` and a chain refer to the variable
they were made for; the variable may get other values or go out of scope in between (a temporary passed to `match` is a variable that goes
out of scope at the end of the full expression).  Comparisons and branch functions may throw; the client catches the exception, and the
call then answers `none`.  A branch function reads and writes a state `ω` of the client; it does not use the chains or write the
targets.  Copies and moves of results do not throw.

As in `Model/Match`, the value compared with and the bounds are of the target's type, chains of void branches do not compile and neither
does `Match::rest` (match.h:110-114).  Calls that do not compile (a name declared twice or never) are `ub`, and so is a read of a
variable that has gone out of scope.
-/
namespace Verif.Model.MatchHist
open Verif

variable {T R ω : Type}

/-- The operators of the target's type; `none` is an exception. -/
structure Cmp (T : Type) where
  eq : T → T → Option Bool
  le : T → T → Option Bool
  lt : T → T → Option Bool

inductive Pat (T : Type) where
  | value (u : T)
  | range (low high : T)

/-- A branch function; `none` is an exception. -/
abbrev Fun (ω R : Type) := ω → Option R × ω

inductive Life (T : Type) where
  | unborn
  | live (t : T)
  | ended

structure World (T R ω : Type) where
  var : Nat → Life T
  /-- match.h:48 the member `target` of the `Match` objects that exist -/
  mat : Nat → Option Nat
  /-- match.h:122-123, the members `target` and `res` of the `MatchMid` objects that exist -/
  mid : Nat → Option (Nat × Option R)
  /-- what the branch functions read and write -/
  env : ω

inductive Op (T R ω : Type) where
  | declare (v : Nat) (t : T)
  | assign (v : Nat) (t : T)
  | leave (v : Nat)
  | makeMatch (i v : Nat)
  | copyMatch (i j : Nat)
  | dropMatch (i : Nat)
  | first (k i : Nat) (p : Pat T) (f : Fun ω R)
  | when (k : Nat) (p : Pat T) (f : Fun ω R)
  | rest (k : Nat) (f : Fun ω R)
  | finale (k : Nat)
  | copyChain (k l : Nat)
  | moveChain (k l : Nat)
  | dropChain (k : Nat)

inductive Ret (R : Type) where
  | unit
  | val (r : R)
  deriving DecidableEq

abbrev M (T R ω β : Type) := Prog (World T R ω) β

def setVar (v : Nat) (l : Life T) : M T R ω Unit :=
  fun w => .ok ((), { w with var := fun x => if x = v then l else w.var x })
def setMat (i : Nat) (m : Option Nat) : M T R ω Unit :=
  fun w => .ok ((), { w with mat := fun x => if x = i then m else w.mat x })
def setMid (k : Nat) (m : Option (Nat × Option R)) : M T R ω Unit :=
  fun w => .ok ((), { w with mid := fun x => if x = k then m else w.mid x })

/-- A read of a variable. -/
def readVar (v : Nat) : M T R ω T := fun w =>
  match w.var v with
  | .live t => .ok (t, w)
  | _ => .ub

def getMat (i : Nat) : M T R ω Nat := fun w =>
  match w.mat i with
  | some v => .ok (v, w)
  | none => .ub

def getMid (k : Nat) : M T R ω (Nat × Option R) := fun w =>
  match w.mid k with
  | some m => .ok (m, w)
  | none => .ub

def freshMat (i : Nat) : M T R ω Unit := fun w => if (w.mat i).isSome then .ub else .ok ((), w)
def freshMid (k : Nat) : M T R ω Unit := fun w => if (w.mid k).isSome then .ub else .ok ((), w)

/-- match.h:73, 146 `u == target`; match.h:98, 170 with range.h:105-107 `low <= item && item < high`. -/
def test (c : Cmp T) (v : Nat) : Pat T → M T R ω (Option Bool)
  | .value u => do
    let t ← readVar v
    return c.eq u t
  | .range low high => do
    let t ← readVar v
    match c.le low t with
    | none => return none
    | some false => return some false
    | some true => return c.lt t high

/-- match.h:201, 147, 171, 185: `Option<R>::some(fun())`. -/
def callFun (f : Fun ω R) : M T R ω (Option R) :=
  fun w => .ok ((f w.env).1, { w with env := (f w.env).2 })

/-- One call. -/
def step (c : Cmp T) : Op T R ω → M T R ω (Option (Ret R))
  /- the client's own variables -/
  | .declare v t => fun w =>
    match w.var v with
    | .unborn => (do setVar v (.live t); return some .unit : M T R ω (Option (Ret R))) w
    | _ => .ub
  | .assign v t => do
    let _ ← readVar v
    setVar v (.live t)
    return some .unit
  | .leave v => do
    let _ ← readVar v
    setVar v .ended
    return some .unit
  /- match.h:260-263, 117 `match(t)` keeps a reference -/
  | .makeMatch i v => do
    freshMat i
    let _ ← readVar v
    setMat i (some v)
    return some .unit
  /- the implicit copy constructor of `Match` -/
  | .copyMatch i j => do
    freshMat i
    let v ← getMat j
    setMat i (some v)
    return some .unit
  | .dropMatch i => do
    let _ ← getMat i
    setMat i none
    return some .unit
  /- match.h:69-77, 94-103 `Match::when`, with the constructors 199-203 -/
  | .first k i p f => do
    freshMid k
    let v ← getMat i
    match ← test c v p with
    | none => return none
    | some true => do
      match ← callFun f with
      | none => return none
      | some r => do
        setMid k (some (v, some r))
        return some .unit
    | some false => do
      setMid k (some (v, none))
      return some .unit
  /- match.h:143-150, 167-175 `MatchMid::when` -/
  | .when k p f => do
    let (v, res) ← getMid k
    if res.isNone then do
      match ← test c v p with
      | none => return none
      | some true => do
        match ← callFun f with
        | none => return none
        | some r => do
          setMid k (some (v, some r))
          return some .unit
      | some false => return some .unit
    else return some .unit
  /- match.h:182-189 `MatchMid::rest` -/
  | .rest k f => do
    let (v, res) ← getMid k
    if res.isNone then do
      match ← callFun f with
      | none => return none
      | some r => do
        setMid k (some (v, some r))
        return some .unit
    else return some .unit
  /- match.h:194-196 `finale`: `res.unwrap()`, which moves the value out and leaves none (option.h:35-48) -/
  | .finale k => do
    let (v, res) ← getMid k
    match res with
    | none => Prog.panic
    | some r => do
      setMid k (some (v, none))
      return some (.val r)
  /- the implicit copy constructor of `MatchMid`, option.h:136-146 -/
  | .copyChain k l => do
    freshMid k
    let (v, res) ← getMid l
    setMid k (some (v, res))
    return some .unit
  /- the implicit move constructor of `MatchMid`, option.h:94-104: the source's result is reset -/
  | .moveChain k l => do
    freshMid k
    let (v, res) ← getMid l
    setMid l (some (v, none))
    setMid k (some (v, res))
    return some .unit
  | .dropChain k => do
    let _ ← getMid k
    setMid k none
    return some .unit

/-- A program that catches the exceptions. -/
def run (c : Cmp T) : List (Op T R ω) → M T R ω (List (Option (Ret R)))
  | [] => pure []
  | op :: ops => do
    let r ← step c op
    let rs ← run c ops
    return r :: rs

/-- Before the first call. -/
def start (e : ω) : World T R ω := ⟨fun _ => .unborn, fun _ => none, fun _ => none, e⟩

end Verif.Model.MatchHist
