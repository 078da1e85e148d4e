import Verif.Base.Out
/-!
# Specification: what an iterator hands out

`Steps next s xs s'`: calling `next` from `s` hands out exactly `xs`, one element per call, and ends in `s'`.
`Produces next s xs s'`: the same, and one further call answers none and ends in `s'`.
Independent of any model of the library.
-/
namespace Verif.Spec
open Verif

inductive Steps {σ : Type u} {α : Type u} (next : σ → Out (Option α × σ)) : σ → List α → σ → Prop
  | nil (s) : Steps next s [] s
  | cons {s s1 s' a as} : next s = .ok (some a, s1) → Steps next s1 as s' → Steps next s (a :: as) s'

inductive Produces {σ : Type u} {α : Type u} (next : σ → Out (Option α × σ)) : σ → List α → σ → Prop
  | nil {s s'} : next s = .ok (none, s') → Produces next s [] s'
  | cons {s s1 s' a as} : next s = .ok (some a, s1) → Produces next s1 as s' → Produces next s (a :: as) s'

end Verif.Spec
