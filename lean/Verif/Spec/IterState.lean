import Verif.Model.IterState
/-!
# Specification: function objects in pipelines

Only the syntax of pipelines (`SPipe`) is shared with the model.
-/
namespace Verif.Spec.IterState
open Verif
open Verif.Model.Iter (SPipe Fn)

variable {ω α β γ τ ρ : Type}

/-- One element on its way through the stages, every object being in the state its previous call left. -/
def one : {β T : Type} → SPipe ω α β T → T → α → Prog ω (Option β × T)
  | _, _, .source, t, a => return (some a, t)
  | _, _, .map pipe f, t, a => do
    let r ← one pipe t.1 a
    match r.1 with
    | none => return (none, (r.2, t.2))
    | some b => do
      let c ← f t.2 b
      return (some c.1, (r.2, c.2))
  | _, _, .filter pipe p, t, a => do
    let r ← one pipe t.1 a
    match r.1 with
    | none => return (none, (r.2, t.2))
    | some b => do
      let c ← p t.2 b
      return (if c.1.1 then some c.1.2 else none, (r.2, c.2))

/-- The same, but whenever a filter lets an element through its object goes back to the state in `t0`. -/
def oneReset : {β T : Type} → SPipe ω α β T → T → T → α → Prog ω (Option β × T)
  | _, _, .source, _, t, a => return (some a, t)
  | _, _, .map pipe f, t0, t, a => do
    let r ← oneReset pipe t0.1 t.1 a
    match r.1 with
    | none => return (none, (r.2, t.2))
    | some b => do
      let c ← f t.2 b
      return (some c.1, (r.2, c.2))
  | _, _, .filter pipe p, t0, t, a => do
    let r ← oneReset pipe t0.1 t.1 a
    match r.1 with
    | none => return (none, (r.2, t.2))
    | some b => do
      let c ← p t.2 b
      return (if c.1.1 then (some c.1.2, (r.2, t0.2)) else (none, (r.2, c.2)))

/-- All elements, one after the other; the survivors.  `g` treats one element, `t` are the states. -/
def all {T : Type} (g : T → α → Prog ω (Option β × T)) : T → List α → Prog ω (List β)
  | _, [] => return []
  | t, a :: as => do
    let r ← g t a
    let rs ← all g r.2 as
    match r.1 with
    | none => return rs
    | some b => return b :: rs

/-- Left fold over the survivors with a function object in state `u`. -/
def foldOver {T : Type} (g : T → α → Prog ω (Option β × T)) (f : τ → ρ → β → Prog ω (ρ × τ)) :
    T → τ → ρ → List α → Prog ω ρ
  | _, _, acc, [] => return acc
  | t, u, acc, a :: as => do
    let r ← g t a
    match r.1 with
    | none => foldOver g f r.2 u acc as
    | some b => do
      let c ← f u acc b
      foldOver g f r.2 c.2 c.1 as

/-- The first survivor starts a left fold over the others. -/
def reduceOver {T : Type} (g : T → α → Prog ω (Option β × T)) (f : τ → β → β → Prog ω (β × τ)) (u : τ) :
    T → List α → Prog ω (Option β)
  | _, [] => return none
  | t, a :: as => do
    let r ← g t a
    match r.1 with
    | none => reduceOver g f u r.2 as
    | some b => do
      let v ← foldOver g f r.2 u b as
      return some v

/-- The first survivor the predicate object accepts. -/
def findOver {T : Type} (g : T → α → Prog ω (Option β × T)) (p : Fn ω τ β (Bool × β)) :
    T → τ → List α → Prog ω (Option β)
  | _, _, [] => return none
  | t, u, a :: as => do
    let r ← g t a
    match r.1 with
    | none => findOver g p r.2 u as
    | some b => do
      let c ← p u b
      if c.1.1 then return some c.1.2 else findOver g p r.2 c.2 as

/-- Every filter object is back in its state of `t` whenever it accepts (in particular: it has no state). -/
def Resets : {β T : Type} → SPipe ω α β T → T → Prop
  | _, _, .source, _ => True
  | _, _, .map pipe _, t => Resets pipe t.1
  | _, _, .filter pipe p, t => Resets pipe t.1 ∧
    ∀ u b w c u' w', p u b w = .ok (((true, c), u'), w') → u' = t.2

end Verif.Spec.IterState
