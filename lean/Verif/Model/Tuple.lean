import Verif.Base.Out
/-!
# Model of include/mstl/utility/tuple.h

`Tuple<T0, T1, ...>` is a first component `f` and the tuple `r` of the rest (tuple.h:43-46, 197-216); component types
are arbitrary.  `mv` gives the value a move leaves behind for each type.  Writing through `get<i>()&` is `set`.
-/
namespace Verif.Model.Tuple
open Verif

/-- tuple.h:44-46 (`f`, `r`) and 197-216 (the empty tuple). -/
inductive Tup : List Type → Type 1 where
  | unit : Tup []
  | mk {t : Type} {ts : List Type} (f : t) (r : Tup ts) : Tup (t :: ts)

/-- Constructor arguments / components, by position. -/
abbrev Comps (ts : List Type) := (i : Fin ts.length) → ts.get i

/-- tuple.h:49-52 constructor, 283-298 `make_tuple`: the first argument initialises `f`, the others `r`. -/
def make : (ts : List Type) → Comps ts → Tup ts
  | [], _ => .unit
  | _ :: ts, c => .mk (c ⟨0, by simp⟩) (make ts fun i => c ⟨i.1 + 1, by simp⟩)

/-- tuple.h:101, 204 `size()`. -/
def size (ts : List Type) : Nat :=
  match ts with
  | [] => 0
  | _ :: rest => 1 + rest.length

/-- tuple.h:138-156 `get<pos>()`. -/
def get : {ts : List Type} → Tup ts → (pos : Nat) → (h : pos < ts.length) → ts.get ⟨pos, h⟩
  | _ :: _, .mk f _, 0, _ => f
  | _ :: _, .mk _ r, pos + 1, h => get r pos (by simpa using h)

/-- `get<pos>(t) = v`. -/
def set : {ts : List Type} → Tup ts → (pos : Nat) → (h : pos < ts.length) → ts.get ⟨pos, h⟩ → Tup ts
  | _ :: _, .mk _ r, 0, _, v => .mk v r
  | _ :: _, .mk f r, pos + 1, h, v => .mk f (set r pos (by simpa using h) v)

/-- tuple.h:54-55 copy constructor, 62-70 copy assignment (the old value of the target is irrelevant). -/
def copy : {ts : List Type} → Tup ts → Tup ts
  | [], _ => .unit
  | _ :: _, .mk f r => .mk f (copy r)

/-- tuple.h:57-58 move constructor, 72-80 move assignment between different objects: new value of the target and
what is left in the source. -/
def move (mv : (t : Type) → t → t) : {ts : List Type} → Tup ts → Tup ts × Tup ts
  | [], _ => (.unit, .unit)
  | t :: _, .mk f r => (.mk f (move mv r).1, .mk (mv t f) (move mv r).2)

/-- A component of the target (`t`), one of the source (`u`), and the conversion the assignment `t = u` makes. -/
structure Conv where
  t : Type
  u : Type
  f : u → t

/-- tuple.h:82-88 assignment of a tuple with other component types (by `get_first` and `get_rest`, 107-125): each component by its own
assignment.  (The old value of the target is irrelevant, the source keeps its value.) -/
def convert : (cs : List Conv) → Tup (cs.map Conv.u) → Tup (cs.map Conv.t)
  | [], _ => .unit
  | c :: cs, .mk f r => .mk (c.f f) (convert cs r)

/-- tuple.h:90-94, 210-212 `operator==`; `eq` is the components' `==`. -/
def equal (eq : (t : Type) → t → t → Bool) : {ts : List Type} → Tup ts → Tup ts → Bool
  | [], _, _ => true
  | t :: _, .mk f r, .mk f' r' => eq t f f' && equal eq r r'

/-- tuple.h:127-131, 214-215 `for_each`; the callable sees the component by reference: it may have effects and
leaves a new value. -/
def forEach {ω : Type} (f : (t : Type) → t → ω → Out (t × ω)) : {ts : List Type} → Tup ts → ω → Out (Tup ts × ω)
  | [], _, s => .ok (.unit, s)
  | t :: _, .mk x r, s =>
    (f t x s).bind fun (x', s) =>
    (forEach f r s).bind fun (r', s) =>
    .ok (.mk x' r', s)

/-- tuple.h:162-168 `first()`, 182-188 `second()` of a pair. -/
def first {a b : Type} : Tup [a, b] → a
  | .mk f _ => f
def second {a b : Type} : Tup [a, b] → b
  | .mk _ (.mk f _) => f

/-! `tie(x, y, ...)` (tuple.h:311-315) is a tuple of references.  `V` names the variables, `ty x` is the type of `x`,
`mem` their values. -/

variable {V : Type} [DecidableEq V] {ty : V → Type}

/-- One store through a reference. -/
def store (mem : (x : V) → ty x) (x : V) (v : ty x) : (y : V) → ty y :=
  fun y => if h : y = x then h ▸ v else mem y

/-- tuple.h:82-88 assignment of a tuple of values to a tuple of references: first component first. -/
def tieAssign : (xs : List V) → Tup (xs.map ty) → ((x : V) → ty x) → (x : V) → ty x
  | [], _, mem => mem
  | x :: xs, .mk f r, mem => tieAssign xs r (store mem x f)

/-- One component of `tie(…, dst, …) = tie(…, src, …)`. -/
structure Link (ty : V → Type) where
  dst : V
  src : V
  conv : ty src → ty dst

/-- tuple.h:82-88 assignment of a tuple of references to a tuple of references (neither `std::copyable` nor `std::movable` holds of a
reference, so 62-80 do not apply): each component is read when its turn comes, first component first. -/
def tieTie : List (Link ty) → ((x : V) → ty x) → (x : V) → ty x
  | [], mem => mem
  | l :: ls, mem => tieTie ls (store mem l.dst (l.conv (mem l.src)))

end Verif.Model.Tuple
