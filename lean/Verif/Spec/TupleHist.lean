import Verif.Model.TupleHist
/-!
# Specification: programs over tuples whose components can throw

A call comes with the number, from 0, of the first copy, move or call of the client's function that throws in it (`none`: none).
`answer` and `after` say what a call does in which nothing throws, `parts` how many copies, moves and calls it makes, `fate` what
happens if number `n` of them throws.  Positions in argument lists and tuples are looked at one by one; nothing here goes through a list in a loop.
-/
namespace Verif.Spec.TupH
open Verif
open Verif.Model.TupHist (Op Ret World Arg)

variable {α : Type}

/-- How often `x` has been moved from by the first `n` arguments. -/
def moves (args : List Arg) (n x : Nat) : Nat := ((args.take n).filter fun a => a.moved && a.x == x).length

/-- `f` done `n` times. -/
def times (f : α → α) : Nat → α → α
  | 0, v => v
  | n + 1, v => times f n (f v)

/-- The value argument number `p` has when its turn comes. -/
def argValue (mv : α → α) (m : Nat → α) (args : List Arg) (p : Nat) (a : Arg) : α := times mv (moves args p a.x) (m a.x)

/-- The last position before `n` at which `ys` has `y`. -/
def lastAt (ys : List Nat) (n y : Nat) : Option Nat :=
  (List.range n).reverse.find? fun p => ys[p]? == some y

/-- The variables after the first `n` targets `ys` got the values `vs`: each has the last value it got, or its old one. -/
def received (m : Nat → α) (ys : List Nat) (vs : List α) (n : Nat) : Nat → α := fun y =>
  match lastAt ys n y with
  | some p => (vs[p]?).getD (m y)
  | none => m y

def World.withTup (w : World α) (i : Nat) (t : Option (List α)) : World α :=
  { w with tup := fun k => if k = i then t else w.tup k }

def World.withVar (w : World α) (y : Nat) (v : α) : World α :=
  { w with var := fun k => if k = y then v else w.var k }

/-- Tuple `i` exists and has `n` components. -/
def Has (w : World α) (i n : Nat) : Prop := ∃ t, w.tup i = some t ∧ t.length = n

/-- The components of tuple `i`. -/
def comps (w : World α) (i : Nat) : List α := (w.tup i).getD []

/-- The calls that compile, and for `tie(...) = tie(...)` that read no variable they have written. -/
def Allowed (w : World α) : Op α → Prop
  | .assign _ _ => True
  | .construct i _ | .makeTuple i _ | .makePair i _ _ | .makeDefault i _ => w.tup i = none
  | .copyCtor i j | .moveCtor i j => w.tup i = none ∧ ∃ n, Has w j n
  | .copyAssign i j | .moveAssign i j | .equal i j => ∃ n, Has w i n ∧ Has w j n
  | .tie xs j => Has w j xs.length
  | .tieTie ls => ∀ p q (hp : p < q) (hq : q < ls.length), (ls[p]).1 ≠ (ls[q]).2
  | .get _ i p | .take _ i p | .set i p _ => ∃ n, Has w i n ∧ p < n
  | .first _ i | .second _ i => Has w i 2
  | .forEach i _ | .size i | .drop i => ∃ n, Has w i n

/-- The copies, moves and calls of the client's function. -/
def parts (w : World α) : Op α → Nat
  | .construct _ args | .makeTuple _ args => args.length
  | .makePair _ _ _ => 2
  | .makeDefault _ n => n
  | .copyCtor _ j | .moveCtor _ j | .tie _ j => (comps w j).length
  | .copyAssign i j | .moveAssign i j => if i = j then 0 else (comps w j).length
  | .tieTie ls => ls.length
  | .get _ _ _ | .take _ _ _ | .set _ _ _ | .first _ _ | .second _ _ => 1
  | .forEach i _ => (comps w i).length
  | _ => 0

def answer (eq : α → α → Bool) (w : World α) : Op α → Ret
  | .equal i j => .bool ((List.range (comps w i).length).all fun p =>
      match (comps w i)[p]?, (comps w j)[p]? with
      | some a, some b => eq a b
      | _, _ => false)
  | .size i => .num (comps w i).length
  | _ => .unit

/-- The world after a call in which nothing throws. -/
def after (mv : α → α) (dflt : α) (w : World α) : Op α → World α
  | .assign y v => World.withVar w y v
  | .construct i args =>
    World.withTup { w with var := fun y => times mv (moves args args.length y) (w.var y) } i
      (some (args.mapIdx fun p a => argValue mv w.var args p a))
  -- `make_tuple` and `make_pair` copy all arguments, `std::move` or not
  | .makeTuple i args => World.withTup w i (some (args.map fun a => w.var a.x))
  | .makePair i a b => World.withTup w i (some [w.var a.x, w.var b.x])
  | .makeDefault i n => World.withTup w i (some (List.replicate n dflt))
  | .copyCtor i j => World.withTup w i (some (comps w j))
  | .moveCtor i j => World.withTup (World.withTup w j (some ((comps w j).map mv))) i (some (comps w j))
  | .copyAssign i j => World.withTup w i (some (comps w j))
  | .moveAssign i j =>
    if i = j then w else World.withTup (World.withTup w j (some ((comps w j).map mv))) i (some (comps w j))
  | .tie xs j => { w with var := received w.var xs (comps w j) xs.length }
  | .tieTie ls => { w with var := received w.var (ls.map (·.1)) (ls.map fun l => w.var l.2) ls.length }
  | .get y i p => World.withVar w y (((comps w i)[p]?).getD dflt)
  | .first y i => World.withVar w y (((comps w i)[0]?).getD dflt)
  | .second y i => World.withVar w y (((comps w i)[1]?).getD dflt)
  | .take y i p =>
    World.withTup (World.withVar w y (((comps w i)[p]?).getD dflt)) i (some ((comps w i).modify p mv))
  | .set i p a =>
    World.withTup (if a.moved then World.withVar w a.x (mv (w.var a.x)) else w) i (some ((comps w i).set p (w.var a.x)))
  | .forEach i f => World.withTup w i (some ((comps w i).map f))
  | .drop i => World.withTup w i none
  | .equal _ _ | .size _ => w

/-- How a call ends in which number `n` throws: `none` if the program is ended, else the world the caller sees. -/
def fate (w : World α) (n : Nat) : Op α → Option (World α)
  -- constructors and assignments of tuples are `noexcept`
  | .construct _ _ | .makeTuple _ _ | .makePair _ _ _ | .makeDefault _ _ | .copyCtor _ _ | .moveCtor _ _ | .copyAssign _ _
  | .moveAssign _ _ => none
  -- the first `n` variables have been assigned
  | .tie xs j => some { w with var := received w.var xs (comps w j) n }
  | .tieTie ls => some { w with var := received w.var (ls.map (·.1)) (ls.map fun l => w.var l.2) n }
  -- the first `n` components have been visited
  | .forEach i f => some (World.withTup w i (some (((comps w i).take n).map f ++ (comps w i).drop n)))
  | _ => some w

/-- One call, if it is allowed: `panic` if the program is ended; the answer `none` is an exception that the client catches. -/
def Call (mv : α → α) (dflt : α) (eq : α → α → Bool) (x : Option Nat) (op : Op α) (w : World α) : Out (Option Ret × World α) → Prop := fun o =>
  Allowed w op ∧
  match x with
  | none => o = .ok (some (answer eq w op), after mv dflt w op)
  | some n =>
    if n < parts w op then
      match fate w n op with
      | none => o = .panic
      | some w' => o = .ok (none, w')
    else o = .ok (some (answer eq w op), after mv dflt w op)

/-- A program, all of whose calls are allowed. -/
def Run (mv : α → α) (dflt : α) (eq : α → α → Bool) : List (Op α × Option Nat) → World α → Out (List (Option Ret) × World α) → Prop
  | [], w, o => o = .ok ([], w)
  | (op, x) :: ops, w, o =>
    Call mv dflt eq x op w .panic ∧ o = .panic ∨
    ∃ r w', Call mv dflt eq x op w (.ok (r, w')) ∧
      ((∃ rs w'', Run mv dflt eq ops w' (.ok (rs, w'')) ∧ o = .ok (r :: rs, w'')) ∨ Run mv dflt eq ops w' .panic ∧ o = .panic)

end Verif.Spec.TupH
