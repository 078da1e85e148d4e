import Verif.Model.Iter
/-!
# Model of include/mstl/iter when user functions throw

`Exc ω β` is a call that may leave with an exception: it ends with `some b` when it returned `b` and with `none` when it
threw, in either case after its effects on `ω`.  A function declared `noexcept` which an exception would leave calls
`std::terminate`: that is `panic` (`noexcept` below).  The bodies are those of Model/Iter.lean; what is added is where
exceptions travel.
-/
namespace Verif.Model.IterThrow
open Verif

variable {ω α β γ σ ρ : Type}

/-- A call that returns or throws. -/
abbrev Exc (ω β : Type) : Type := OptionT (Prog ω) β

/-- The exception. -/
def throwing : Exc ω β := OptionT.mk (return none)

/-- A call that cannot throw. -/
def calm (x : Prog ω β) : Exc ω β := OptionT.mk (x >>= fun b => return some b)

/-- What the caller of a function declared `noexcept` sees of its body. -/
def noexcept (x : Exc ω β) : Prog ω β := x.run >>= fun r => match r with
  | some b => return b
  | none => Prog.panic

/-- An iterator whose `next()` may throw. -/
abbrev NextT (ω σ α : Type) := σ → Exc ω (Option α × σ)

/-- map.h:29-38 `MapIter::next() noexcept`. -/
def mapNext (next : NextT ω σ α) (f : α → Exc ω β) : NextT ω σ β := fun s => calm <| noexcept do
  let r ← next s
  match r.1 with
  | some a => do
    let item ← f a
    return (some item, r.2)
  | none => return (none, r.2)

/-- find.h:17-26, 34-49, the body of `find`. -/
def findBody (next : NextT ω σ α) (p : α → Exc ω (Bool × α)) (s : σ) : Exc ω (Option α × σ) := do
  let r ← next s
  match r.1 with
  | none => return (none, r.2)
  | some a => do
    let c ← p a
    if c.1 then return (some c.2, r.2)
    else findBody next p r.2
partial_fixpoint

/-- find.h:12-27, 29-50 `find(iter, predicate) noexcept`. -/
def find (next : NextT ω σ α) (p : α → Exc ω (Bool × α)) (s : σ) : Exc ω (Option α × σ) :=
  calm (noexcept (findBody next p s))

/-- filter.h:30-33, 52-55 `FilterIter::next() noexcept`. -/
def filterNext (next : NextT ω σ α) (p : α → Exc ω (Bool × α)) : NextT ω σ α := fun s =>
  calm (noexcept (find next p s))

/-- fold.h:13-27 `fold(iter, init, lambda)`, not `noexcept`. -/
def fold (next : NextT ω σ α) (f : β → α → Exc ω β) (init : β) (s : σ) : Exc ω β := do
  let r ← next s
  match r.1 with
  | none => return init
  | some a => do
    let init ← f init a
    fold next f init r.2
partial_fixpoint

/-- reduce.h:14-26 `reduce(iter, lambda)`, not `noexcept`. -/
def reduce (next : NextT ω σ α) (f : α → α → Exc ω α) (s : σ) : Exc ω (Option α) := do
  let r ← next s
  match r.1 with
  | some a => do
    let v ← fold next f a r.2
    return some v
  | none => return none

/-- for_each.h:16-20, the body of `for_each`. -/
def forEachBody (next : NextT ω σ α) (f : α → Exc ω Unit) (s : σ) : Exc ω Unit := do
  let r ← next s
  match r.1 with
  | none => return ()
  | some a => do
    f a
    forEachBody next f r.2
partial_fixpoint

/-- for_each.h:12-21 `for_each(iter, lambda) noexcept`. -/
def forEach (next : NextT ω σ α) (f : α → Exc ω Unit) (s : σ) : Exc ω Unit := calm (noexcept (forEachBody next f s))

/-- vector.h:460-467, linked_list.h:754-761, the loop of `from_iter`; the container is the list of its elements, and
appending does not throw. -/
def fromIter (next : NextT ω σ α) (acc : List α) (s : σ) : Exc ω (List α) := do
  let r ← next s
  match r.1 with
  | none => return acc
  | some a => fromIter next (acc ++ [a]) r.2
partial_fixpoint

/-- collect.h:12-17 `collect(iter) noexcept`. -/
def collect (next : NextT ω σ α) (s : σ) : Exc ω (List α) := calm (noexcept (fromIter next [] s))

/-- A pipeline of adapters whose functions may throw (utility.h:124-129). -/
inductive Pipe (ω : Type) : Type → Type → Type 1 where
  | source {α : Type} : Pipe ω α α
  | map {α β γ : Type} (pipe : Pipe ω α β) (f : β → Exc ω γ) : Pipe ω α γ
  | filter {α β : Type} (pipe : Pipe ω α β) (p : β → Exc ω (Bool × β)) : Pipe ω α β

/-- `next()` of the iterator a pipeline builds over a source. -/
def Pipe.next : {α β : Type} → Pipe ω α β → NextT ω σ α → NextT ω σ β
  | _, _, .source, src => src
  | _, _, .map pipe f, src => mapNext (pipe.next src) f
  | _, _, .filter pipe p, src => filterNext (pipe.next src) p

/-- The argument list of `combine(iter, Com, lambda, ..., Ter, args...)`. -/
inductive Args (ω : Type) : Type → Type → Type 1 where
  | done {α : Type} : Args ω α α
  | map {α β γ : Type} (f : α → Exc ω β) (rest : Args ω β γ) : Args ω α γ
  | filter {α γ : Type} (p : α → Exc ω (Bool × α)) (rest : Args ω α γ) : Args ω α γ

/-- utility.h:32-40 and 84-93 `combine(...) noexcept` ending in the terminal `t`. -/
def combine : {α β : Type} → Args ω α β → (NextT ω σ β → σ → Exc ω ρ) → NextT ω σ α → σ → Exc ω ρ
  | _, _, .done, t, it, s => calm (noexcept (t it s))
  | _, _, .map f rest, t, it, s => calm (noexcept (combine rest t (mapNext it f) s))
  | _, _, .filter p rest, t, it, s => calm (noexcept (combine rest t (filterNext it p) s))

end Verif.Model.IterThrow
