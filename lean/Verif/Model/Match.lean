import Verif.Base.Out
/-!
# Model of include/mstl/utility/match.h

`T` is any type with the comparison operators a chain uses (`Cmp`; user-defined operators may be arbitrary, both the
value compared with and the bounds are taken to be of the target's type).  A branch function is a `Prog ω R`: it may
have effects on a state `ω`, so that a chain's observable effects include which functions were evaluated.
-/
namespace Verif.Model.Match
open Verif

/-- The operators used by patterns: `u == target` (match.h:73, 146, 215) and `Range::contains` (range.h:105-107). -/
structure Cmp (T : Type) where
  eq : T → T → Bool
  le : T → T → Bool
  lt : T → T → Bool

inductive Pat (T : Type) where
  | value (u : T)
  | range (low high : T)

variable {T R ω : Type}

/-- match.h:73, 98: the test made for a pattern. -/
def Pat.fits (c : Cmp T) (target : T) : Pat T → Bool
  | .value u => c.eq u target
  | .range low high => c.le low target && c.lt target high

/-- A branch of a chain after the first one. -/
inductive Branch (ω T R : Type) where
  | when (p : Pat T) (f : Prog ω R)
  | rest (f : Prog ω R)

/-- match.h:69-77 and 94-103 `Match::when`: the first branch; the result is the member `res` of the `MatchMid` made
(match.h:123, 199-203). -/
def first (c : Cmp T) (target : T) (p : Pat T) (f : Prog ω R) : Prog ω (Option R) :=
  if p.fits c target then do
    let r ← f
    return some r
  else return none

/-- match.h:143-150, 167-175 `MatchMid::when` and 182-189 `MatchMid::rest`. -/
def mid (c : Cmp T) (target : T) (res : Option R) : Branch ω T R → Prog ω (Option R)
  | .when p f =>
    if res.isNone && p.fits c target then do
      let r ← f
      return some r
    else return res
  | .rest f =>
    if res.isNone then do
      let r ← f
      return some r
    else return res

def mids (c : Cmp T) (target : T) (res : Option R) : List (Branch ω T R) → Prog ω (Option R)
  | [] => return res
  | b :: bs => do
    let res ← mid c target res b
    mids c target res bs

/-- match.h:194-196 `finale`: `res.unwrap()`. -/
def finale : Option R → Prog ω R
  | none => Prog.panic
  | some r => return r

/-- `match(target).when(p, f)....finale()`, and the same with `|` (match.h:307-320 forward to the methods).
A chain that starts with `rest` does not compile (match.h:113 passes `fun()` where a callable is required), and neither
does a chain with `|` that has a single branch: match.h:317-320 takes the `MatchMid` by lvalue reference, and the first
branch returns it by value. -/
def chain (c : Cmp T) (target : T) (p : Pat T) (f : Prog ω R) (bs : List (Branch ω T R)) : Prog ω R := do
  let res ← first c target p f
  let res ← mids c target res bs
  finale res

/-! ## Branches returning void: match.h:206-254

`MatchMid<T, void>` does not befriend `Match<T>` (compare match.h:125), so the private constructors used by
`Match::when` are not accessible and a chain of void branches is rejected by the compiler; the model describes the
code as written, access control aside. -/

/-- match.h:69-77, 94-103 with match.h:248-253: the first branch; the result is the member `reach`. -/
def firstV (c : Cmp T) (target : T) (p : Pat T) (f : Prog ω Unit) : Prog ω Bool :=
  if p.fits c target then do
    f
    return true
  else return false

/-- match.h:212-220 (value: sets `reach`), 222-230 (range: does not) and 232-239 (rest: does not). -/
def midV (c : Cmp T) (target : T) (reach : Bool) : Branch ω T Unit → Prog ω Bool
  | .when (.value u) f =>
    if !reach && Pat.fits c target (.value u) then do
      f
      return true
    else return reach
  | .when (.range lo hi) f =>
    if !reach && Pat.fits c target (.range lo hi) then do
      f
      return reach
    else return reach
  | .rest f =>
    if !reach then do
      f
      return reach
    else return reach

def midsV (c : Cmp T) (target : T) (reach : Bool) : List (Branch ω T Unit) → Prog ω Bool
  | [] => return reach
  | b :: bs => do
    let reach ← midV c target reach b
    midsV c target reach bs

/-- match.h:241-245. -/
def finaleV (reach : Bool) : Prog ω Unit := if reach then return () else Prog.panic

def chainV (c : Cmp T) (target : T) (p : Pat T) (f : Prog ω Unit) (bs : List (Branch ω T Unit)) : Prog ω Unit := do
  let reach ← firstV c target p f
  let reach ← midsV c target reach bs
  finaleV reach

end Verif.Model.Match
