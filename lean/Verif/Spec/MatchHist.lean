import Verif.Model.MatchHist
/-!
# Specification: programs that keep matches and match chains

Nothing here has objects with members.  A program's past is a list of events, the newest first; what a variable, a match or a chain
is worth is found by looking back for the newest event that concerns it.
-/
namespace Verif.Spec.MatH
open Verif
open Verif.Model.MatchHist (Cmp Pat Fun Op Ret)

variable {T R ω : Type}

inductive Ev (T R : Type) where
  /-- variable `v` came into scope with value `t` -/
  | born (v : Nat) (t : T)
  /-- variable `v` got the value `t` -/
  | got (v : Nat) (t : T)
  | left (v : Nat)
  /-- match `i` was made for variable `v` -/
  | matched (i v : Nat)
  | unmatched (i : Nat)
  /-- chain `k` was made for variable `v`, with no result -/
  | began (k v : Nat)
  /-- chain `k` got the result `r` -/
  | decided (k : Nat) (r : R)
  /-- the result of chain `k` was taken -/
  | taken (k : Nat)
  | ended (k : Nat)

/-- The value of a variable that is in scope. -/
def valueOf : List (Ev T R) → Nat → Option T
  | [], _ => none
  | .born v t :: h, x | .got v t :: h, x => if v = x then some t else valueOf h x
  | .left v :: h, x => if v = x then none else valueOf h x
  | _ :: h, x => valueOf h x

/-- The name has been used for a variable. -/
def declared : List (Ev T R) → Nat → Bool
  | [], _ => false
  | .born v _ :: h, x => v == x || declared h x
  | _ :: h, x => declared h x

/-- The variable match `i` refers to. -/
def matchOf : List (Ev T R) → Nat → Option Nat
  | [], _ => none
  | .matched i v :: h, x => if i = x then some v else matchOf h x
  | .unmatched i :: h, x => if i = x then none else matchOf h x
  | _ :: h, x => matchOf h x

/-- The variable chain `k` refers to. -/
def targetOf : List (Ev T R) → Nat → Option Nat
  | [], _ => none
  | .began k v :: h, x => if k = x then some v else targetOf h x
  | .ended k :: h, x => if k = x then none else targetOf h x
  | _ :: h, x => targetOf h x

/-- The result of chain `k`. -/
def resultOf : List (Ev T R) → Nat → Option R
  | [], _ => none
  | .began k _ :: h, x | .taken k :: h, x => if k = x then none else resultOf h x
  | .decided k r :: h, x => if k = x then some r else resultOf h x
  | _ :: h, x => resultOf h x

/-- Whether a pattern fits a value: a value if it is equal, a range if the value is at least the lower and below the upper bound (the
upper one is looked at only if the lower one allows it).  `none`: a comparison throws. -/
inductive Fits (c : Cmp T) (t : T) : Pat T → Option Bool → Prop where
  | value (u : T) : Fits c t (.value u) (c.eq u t)
  | low_throws (lo hi : T) (h : c.le lo t = none) : Fits c t (.range lo hi) none
  | below (lo hi : T) (h : c.le lo t = some false) : Fits c t (.range lo hi) (some false)
  | above (lo hi : T) (h : c.le lo t = some true) : Fits c t (.range lo hi) (c.lt t hi)

/-- The events that give a new chain `k` the result `r`. -/
def withResult (k v : Nat) : Option R → List (Ev T R)
  | none => [.began k v]
  | some r => [.decided k r, .began k v]

/-- `Calls c op h e a es e'`: after the past `h`, with the client's state `e`, the call answers `a` (`none`: an exception), the
events `es` (newest first) happen and the client's state is then `e'`. -/
inductive Calls (c : Cmp T) : Op T R ω → List (Ev T R) → ω → Option (Ret R) → List (Ev T R) → ω → Prop where
  | declare {v t h e} (hv : declared h v = false) : Calls c (.declare v t) h e (some .unit) [.born v t] e
  | assign {v t h e u} (hv : valueOf h v = some u) : Calls c (.assign v t) h e (some .unit) [.got v t] e
  | leave {v h e u} (hv : valueOf h v = some u) : Calls c (.leave v) h e (some .unit) [.left v] e
  | makeMatch {i v h e u} (hi : matchOf h i = none) (hv : valueOf h v = some u) : Calls c (.makeMatch i v) h e (some .unit) [.matched i v] e
  | copyMatch {i j v h e} (hi : matchOf h i = none) (hj : matchOf h j = some v) : Calls c (.copyMatch i j) h e (some .unit) [.matched i v] e
  | dropMatch {i v h e} (hi : matchOf h i = some v) : Calls c (.dropMatch i) h e (some .unit) [.unmatched i] e
  /- the first branch -/
  | first_cmp_throws {k i p f v t h e} (hk : targetOf h k = none) (hi : matchOf h i = some v) (hv : valueOf h v = some t)
      (hf : Fits c t p none) : Calls c (.first k i p f) h e none [] e
  | first_not {k i p f v t h e} (hk : targetOf h k = none) (hi : matchOf h i = some v) (hv : valueOf h v = some t)
      (hf : Fits c t p (some false)) : Calls c (.first k i p f) h e (some .unit) [.began k v] e
  | first_throws {k i p f v t h e e'} (hk : targetOf h k = none) (hi : matchOf h i = some v) (hv : valueOf h v = some t)
      (hf : Fits c t p (some true)) (hr : f e = (none, e')) : Calls c (.first k i p f) h e none [] e'
  | first_fits {k i p f v t h e e' r} (hk : targetOf h k = none) (hi : matchOf h i = some v) (hv : valueOf h v = some t)
      (hf : Fits c t p (some true)) (hr : f e = (some r, e')) :
      Calls c (.first k i p f) h e (some .unit) [.decided k r, .began k v] e'
  /- a later branch of a chain that has a result: nothing is compared or evaluated -/
  | when_decided {k p f v h e r} (hk : targetOf h k = some v) (hr : resultOf h k = some r) : Calls c (.when k p f) h e (some .unit) [] e
  | rest_decided {k f v h e r} (hk : targetOf h k = some v) (hr : resultOf h k = some r) : Calls c (.rest k f) h e (some .unit) [] e
  /- a later branch of a chain without a result: the value the target has now is compared -/
  | when_cmp_throws {k p f v t h e} (hk : targetOf h k = some v) (hn : resultOf h k = none) (hv : valueOf h v = some t)
      (hf : Fits c t p none) : Calls c (.when k p f) h e none [] e
  | when_not {k p f v t h e} (hk : targetOf h k = some v) (hn : resultOf h k = none) (hv : valueOf h v = some t)
      (hf : Fits c t p (some false)) : Calls c (.when k p f) h e (some .unit) [] e
  | when_throws {k p f v t h e e'} (hk : targetOf h k = some v) (hn : resultOf h k = none) (hv : valueOf h v = some t)
      (hf : Fits c t p (some true)) (hr : f e = (none, e')) : Calls c (.when k p f) h e none [] e'
  | when_fits {k p f v t h e e' r} (hk : targetOf h k = some v) (hn : resultOf h k = none) (hv : valueOf h v = some t)
      (hf : Fits c t p (some true)) (hr : f e = (some r, e')) : Calls c (.when k p f) h e (some .unit) [.decided k r] e'
  | rest_throws {k f v h e e'} (hk : targetOf h k = some v) (hn : resultOf h k = none) (hr : f e = (none, e')) :
      Calls c (.rest k f) h e none [] e'
  | rest_runs {k f v h e e' r} (hk : targetOf h k = some v) (hn : resultOf h k = none) (hr : f e = (some r, e')) :
      Calls c (.rest k f) h e (some .unit) [.decided k r] e'
  /- the result is handed out once -/
  | finale {k v h e r} (hk : targetOf h k = some v) (hr : resultOf h k = some r) : Calls c (.finale k) h e (some (.val r)) [.taken k] e
  | copyChain {k l v h e} (hk : targetOf h k = none) (hl : targetOf h l = some v) :
      Calls c (.copyChain k l) h e (some .unit) (withResult k v (resultOf h l)) e
  | moveChain {k l v h e} (hk : targetOf h k = none) (hl : targetOf h l = some v) :
      Calls c (.moveChain k l) h e (some .unit) (withResult k v (resultOf h l) ++ [.taken l]) e
  | dropChain {k v h e} (hk : targetOf h k = some v) : Calls c (.dropChain k) h e (some .unit) [.ended k] e

/-- The calls that panic: `finale` of a chain that has no result. -/
inductive Stops : Op T R ω → List (Ev T R) → Prop where
  | finale {k v h} (hk : targetOf h k = some v) (hn : resultOf h k = none) : Stops (.finale k) h

/-- The calls that compare a target that has gone out of scope. -/
inductive Dangles : Op T R ω → List (Ev T R) → Prop where
  | first {k i p f v h} (hk : targetOf h k = none) (hi : matchOf h i = some v) (hv : valueOf h v = none) : Dangles (.first k i p f) h
  | when {k p f v h} (hk : targetOf h k = some v) (hn : resultOf h k = none) (hv : valueOf h v = none) : Dangles (.when k p f) h

/-- The calls that compile: names are declared before they are used and not twice. -/
def Compiles (h : List (Ev T R)) : Op T R ω → Prop
  | .declare v _ => declared h v = false
  | .assign v _ | .leave v => (valueOf h v).isSome
  | .makeMatch i v => matchOf h i = none ∧ (valueOf h v).isSome
  | .copyMatch i j => matchOf h i = none ∧ (matchOf h j).isSome
  | .dropMatch i => (matchOf h i).isSome
  | .first k i _ _ => targetOf h k = none ∧ (matchOf h i).isSome
  | .when k _ _ | .rest k _ | .finale k | .dropChain k => (targetOf h k).isSome
  | .copyChain k l | .moveChain k l => targetOf h k = none ∧ (targetOf h l).isSome

/-- How a program ends. -/
inductive End (R ω : Type) where
  | done (answers : List (Option (Ret R))) (e : ω)
  | stopped
  | undefined

def End.cons (a : Option (Ret R)) : End R ω → End R ω
  | .done as e => .done (a :: as) e
  | o => o

inductive Run (c : Cmp T) : List (Op T R ω) → List (Ev T R) → ω → End R ω → Prop where
  | nil {h e} : Run c [] h e (.done [] e)
  | call {op ops h e a es e' o} (hc : Calls c op h e a es e') (hr : Run c ops (es ++ h) e' o) : Run c (op :: ops) h e (o.cons a)
  | stops {op ops h e} (hs : Stops op h) : Run c (op :: ops) h e .stopped
  | dangles {op ops h e} (hd : Dangles op h) : Run c (op :: ops) h e .undefined

end Verif.Spec.MatH
