/-!
# Outcomes of a modelled C++ call

`Out β` lists every way a call of the library can end.  `Prog σ β` is a call that reads and changes a
state `σ` (heap, storage of an object, output stream, ...).  These definitions model no particular
line of `/repo`; they are the meta-language of all models.
-/
open Lean.Order

namespace Verif

/-- How a modelled call ends.
* `ok b`   : returns `b`.
* `panic`  : `MSTL_PANIC` (include/mstl/global.h:45-60), the process exits with code 101.
* `oom`    : the underlying `operator new` cannot deliver the requested number of bytes.
* `ub`     : undefined behaviour of C++ was reached.
* `div`    : the call does not terminate. -/
inductive Out (β : Type u) where
  | div
  | ok (b : β)
  | panic
  | oom
  | ub
  deriving Repr, DecidableEq

namespace Out

/-- Sequencing: anything but `ok` ends the run. -/
@[inline] def bind {β : Type u} {γ : Type v} (x : Out β) (f : β → Out γ) : Out γ :=
  match x with
  | .ok b => f b
  | .div => .div
  | .panic => .panic
  | .oom => .oom
  | .ub => .ub

instance : Monad Out where
  pure := .ok
  bind := bind

@[simp] theorem bind_ok {β γ} (b : β) (f : β → Out γ) : (Out.ok b >>= f) = f b := rfl
@[simp] theorem bind_div {β γ} (f : β → Out γ) : ((Out.div : Out β) >>= f) = .div := rfl
@[simp] theorem bind_panic {β γ} (f : β → Out γ) : ((Out.panic : Out β) >>= f) = .panic := rfl
@[simp] theorem bind_oom {β γ} (f : β → Out γ) : ((Out.oom : Out β) >>= f) = .oom := rfl
@[simp] theorem bind_ub {β γ} (f : β → Out γ) : ((Out.ub : Out β) >>= f) = .ub := rfl
@[simp] theorem pure_eq {β} (b : β) : (pure b : Out β) = .ok b := rfl

/-- The call does not reach undefined behaviour and terminates, and if it returns, the result satisfies
`P`.  (`oom` is always allowed; `panic` is not.) -/
def Safe {β} (x : Out β) (P : β → Prop) : Prop :=
  match x with
  | .ok b => P b
  | .oom => True
  | .div => False
  | .panic => False
  | .ub => False

@[simp] theorem safe_ok {β} {b : β} {P : β → Prop} : Safe (.ok b) P ↔ P b := Iff.rfl
@[simp] theorem safe_oom {β} {P : β → Prop} : Safe (.oom) P ↔ True := Iff.rfl
@[simp] theorem safe_div {β} {P : β → Prop} : Safe (.div) P ↔ False := Iff.rfl
@[simp] theorem safe_panic {β} {P : β → Prop} : Safe (.panic) P ↔ False := Iff.rfl
@[simp] theorem safe_ub {β} {P : β → Prop} : Safe (.ub) P ↔ False := Iff.rfl

theorem Safe.bind {β γ} {x : Out β} {f : β → Out γ} {P : β → Prop} {Q : γ → Prop}
    (h : x.Safe P) (hf : ∀ b, P b → (f b).Safe Q) : (x >>= f).Safe Q := by
  cases x <;> simp_all

theorem Safe.mono {β} {x : Out β} {P Q : β → Prop} (h : x.Safe P) (hpq : ∀ b, P b → Q b) : x.Safe Q := by
  cases x <;> simp_all

/-- The call returns, with a result satisfying `P`, unless the allocator fails, which is possible only if `may`. -/
def SafeIf {β} (may : Prop) (x : Out β) (P : β → Prop) : Prop :=
  match x with
  | .ok b => P b
  | .oom => may
  | .div => False
  | .panic => False
  | .ub => False

@[simp] theorem safeIf_ok {β} {may : Prop} {b : β} {P : β → Prop} : SafeIf may (.ok b) P ↔ P b := Iff.rfl
@[simp] theorem safeIf_oom {β} {may : Prop} {P : β → Prop} : SafeIf may (.oom) P ↔ may := Iff.rfl
@[simp] theorem safeIf_div {β} {may : Prop} {P : β → Prop} : SafeIf may (.div) P ↔ False := Iff.rfl
@[simp] theorem safeIf_panic {β} {may : Prop} {P : β → Prop} : SafeIf may (.panic) P ↔ False := Iff.rfl
@[simp] theorem safeIf_ub {β} {may : Prop} {P : β → Prop} : SafeIf may (.ub) P ↔ False := Iff.rfl

theorem SafeIf.bind {β γ} {may : Prop} {x : Out β} {f : β → Out γ} {P : β → Prop} {Q : γ → Prop}
    (h : x.SafeIf may P) (hf : ∀ b, P b → (f b).SafeIf may Q) : (x >>= f).SafeIf may Q := by
  cases x <;> simp_all

theorem SafeIf.mono {β} {may may' : Prop} {x : Out β} {P Q : β → Prop} (h : x.SafeIf may P) (hm : may → may')
    (hpq : ∀ b, P b → Q b) : x.SafeIf may' Q := by
  cases x <;> simp_all

theorem SafeIf.imp {β} {may : Prop} {x : Out β} {P Q : β → Prop} (h : x.SafeIf may P) (hpq : ∀ b, P b → Q b) : x.SafeIf may Q :=
  h.mono id hpq

theorem SafeIf.and {β} {may : Prop} {x : Out β} {P Q : β → Prop} (h : x.SafeIf may P) (h' : x.SafeIf may Q) :
    x.SafeIf may fun b => P b ∧ Q b := by
  cases x <;> simp_all

theorem SafeIf.ok_of {β} {may : Prop} {x : Out β} {P : β → Prop} (h : x.SafeIf may P) (hm : ¬ may) : ∃ b, x = .ok b ∧ P b := by
  cases x <;> simp_all

/-! Order structure used by `partial_fixpoint`: `div` is below everything. -/

instance : PartialOrder (Out β) := inferInstanceAs (PartialOrder (FlatOrder (Out.div : Out β)))
noncomputable instance : CCPO (Out β) := inferInstanceAs (CCPO (FlatOrder (Out.div : Out β)))

theorem mono_bind {β γ} {a₁ a₂ : Out β} {f₁ f₂ : β → Out γ}
    (h₁ : a₁ ⊑ a₂) (h₂ : ∀ x, f₁ x ⊑ f₂ x) : (a₁ >>= f₁) ⊑ (a₂ >>= f₂) := by
  cases h₁ with
  | bot => exact FlatOrder.rel.bot
  | refl =>
    cases a₁ with
    | ok b => exact h₂ b
    | _ => exact FlatOrder.rel.refl

noncomputable instance : MonoBind Out where
  bind_mono_left h := mono_bind h (fun _ => FlatOrder.rel.refl)
  bind_mono_right h := mono_bind FlatOrder.rel.refl h

end Out

/-- A call that may change a state of type `σ`. -/
def Prog (σ : Type u) (β : Type u) : Type u := σ → Out (β × σ)

namespace Prog
variable {σ β γ : Type u}

@[inline] def pure (b : β) : Prog σ β := fun s => .ok (b, s)
@[inline] def bind (x : Prog σ β) (f : β → Prog σ γ) : Prog σ γ := fun s => x s >>= fun p => f p.1 p.2

instance : Monad (Prog σ) where
  pure := Prog.pure
  bind := Prog.bind

/-- Reads the state. -/
@[inline] def get : Prog σ σ := fun s => .ok (s, s)
/-- Replaces the state. -/
@[inline] def set (s : σ) : Prog σ PUnit := fun _ => .ok (⟨⟩, s)
/-- Ends in undefined behaviour. -/
@[inline] def ub : Prog σ β := fun _ => .ub
@[inline] def panic : Prog σ β := fun _ => .panic
@[inline] def oom : Prog σ β := fun _ => .oom

@[simp] theorem pure_run (b : β) (s : σ) : (Pure.pure b : Prog σ β) s = .ok (b, s) := rfl
@[simp] theorem bind_run (x : Prog σ β) (f : β → Prog σ γ) (s : σ) :
    (x >>= f) s = (x s >>= fun p => f p.1 p.2) := rfl
@[simp] theorem get_run (s : σ) : (get : Prog σ σ) s = .ok (s, s) := rfl
@[simp] theorem set_run (s t : σ) : (set s : Prog σ _) t = .ok (⟨⟩, s) := rfl
@[simp] theorem ub_run (s : σ) : (ub : Prog σ β) s = .ub := rfl
@[simp] theorem panic_run (s : σ) : (panic : Prog σ β) s = .panic := rfl
@[simp] theorem oom_run (s : σ) : (oom : Prog σ β) s = .oom := rfl

instance : PartialOrder (Prog σ β) := inferInstanceAs (PartialOrder (σ → Out (β × σ)))
noncomputable instance : CCPO (Prog σ β) := inferInstanceAs (CCPO (σ → Out (β × σ)))

noncomputable instance : MonoBind (Prog σ) where
  bind_mono_left h := fun s => Out.mono_bind (h s) (fun _ => FlatOrder.rel.refl)
  bind_mono_right h := fun _ => Out.mono_bind FlatOrder.rel.refl (fun p => h p.1 p.2)

end Prog

end Verif
