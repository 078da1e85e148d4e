import Verif.Model.Match
/-! # Properties C63, C64: match -/
namespace Verif.Props
open Verif Verif.Model.Match

variable {T R ω : Type}

/-- When a branch applies: a value pattern when it equals the target, a range when the target lies in it, `rest`
always. -/
def applies (c : Cmp T) (target : T) : Branch ω T R → Bool
  | .when (.value u) _ => c.eq u target
  | .when (.range lo hi) _ => c.le lo target && c.lt target hi
  | .rest _ => true

def branchFun : Branch ω T R → Prog ω R
  | .when _ f => f
  | .rest f => f

/-- What the chain should do: run the function of the first applicable branch, and nothing else; panic if no branch
applies. -/
def firstApplicable (c : Cmp T) (target : T) (bs : List (Branch ω T R)) : Prog ω R :=
  match bs.find? (applies c target) with
  | some b => branchFun b
  | none => Prog.panic

theorem applies_when (c : Cmp T) (target : T) (p : Pat T) (f : Prog ω R) :
    applies c target (.when p f) = p.fits c target := by cases p <;> rfl

theorem mids_some (c : Cmp T) (target : T) (r : R) (bs : List (Branch ω T R)) (s : ω) :
    mids c target (some r) bs s = .ok (some r, s) := by
  induction bs with
  | nil => rfl
  | cons b bs ih => cases b <;> simp [mids, mid, ih]

theorem mids_none (c : Cmp T) (target : T) (bs : List (Branch ω T R)) (s : ω) :
    (mids c target none bs >>= finale) s = firstApplicable c target bs s := by
  induction bs with
  | nil => simp [mids, finale, firstApplicable]
  | cons b bs ih =>
    cases b with
    | when p f =>
      simp only [firstApplicable, List.find?, applies_when, mids, mid, Option.isNone_none, Bool.true_and]
      cases p.fits c target with
      | true =>
        simp
        cases h : f s with
        | ok q => simp [mids_some, finale, h, branchFun]
        | _ => simp [h, branchFun]
      | false => simpa [firstApplicable] using ih
    | rest f =>
      simp only [firstApplicable, List.find?, applies, mids, mid, Option.isNone_none, if_true]
      simp
      cases h : f s with
      | ok q => simp [mids_some, finale, h, branchFun]
      | _ => simp [h, branchFun]

/-- **C63.** For every target, every operators, every chain of value, range and rest branches with arbitrary
(effectful) branch functions: the chain behaves exactly like the function of the first applicable branch, and panics
exactly when no branch applies.  Equality of programs: no other function is evaluated, no effect is added. -/
theorem C63_first_branch_wins (c : Cmp T) (target : T) (p : Pat T) (f : Prog ω R) (bs : List (Branch ω T R)) :
    chain c target p f bs = firstApplicable c target (.when p f :: bs) := by
  funext s
  have h := mids_none c target bs s
  simp only [chain, first, firstApplicable, List.find?, applies_when]
  cases p.fits c target with
  | true =>
    simp
    cases h : f s with
    | ok q => simp [mids_some, finale, h, branchFun]
    | _ => simp [h, branchFun]
  | false => simpa [firstApplicable] using h

def intCmp : Cmp Int := ⟨fun a b => a == b, fun a b => a ≤ b, fun a b => a < b⟩

/-- The example of match.h:26-33: 7 does not equal 1, lies in [2,10), and the third function is not evaluated. -/
example : chain (ω := List Nat) intCmp 7 (.value 1) (fun l => .ok (5, l ++ [1]))
    [.when (.range 2 10) (fun l => .ok (10, l ++ [2])), .rest (fun l => .ok (20, l ++ [3]))] [] = .ok (10, [2]) := rfl

/-- nothing applies: panic -/
example : chain (ω := List Nat) intCmp 11 (.value 1) (fun l => .ok (5, l))
    [.when (.range 2 10) (fun l => .ok (10, l))] [] = .panic := rfl

theorem midsV_true (c : Cmp T) (target : T) (bs : List (Branch ω T Unit)) (s : ω) :
    midsV c target true bs s = .ok (true, s) := by
  induction bs with
  | nil => rfl
  | cons b bs ih =>
    cases b with
    | when p f => cases p <;> simp [midsV, midV, ih]
    | rest f => simp [midsV, midV, ih]

/-- Applicable branches which the void chain handles correctly: value patterns. -/
def isValueBranch : Branch ω T Unit → Bool
  | .when (.value _) _ => true
  | _ => false

theorem midsV_false (c : Cmp T) (target : T) (bs : List (Branch ω T Unit)) (s : ω)
    (h : ∀ b, bs.find? (applies c target) = some b → isValueBranch b = true) :
    (midsV c target false bs >>= finaleV) s = firstApplicable c target bs s := by
  induction bs with
  | nil => simp [midsV, finaleV, firstApplicable]
  | cons b bs ih =>
    cases hb : applies c target b with
    | true =>
      have hv := h b (by simp [List.find?, hb])
      cases b with
      | rest f => simp [isValueBranch] at hv
      | when p f =>
        cases p with
        | range lo hi => simp [isValueBranch] at hv
        | value u =>
          have hf : Pat.fits c target (.value u) = true := hb
          simp [midsV, midV, hf, firstApplicable, List.find?, hb]
          cases h : f s with
          | ok q => simp [midsV_true, finaleV, h, branchFun]
          | _ => simp [h, branchFun]
    | false =>
      have ih' := ih (fun b' hb' => h b' (by simp [List.find?, hb, hb']))
      simp only [firstApplicable, List.find?, hb] at ih' ⊢
      cases b with
      | rest f => simp [applies] at hb
      | when p f =>
        cases p with
        | range lo hi =>
          have hf : Pat.fits c target (.range lo hi) = false := hb
          simpa [midsV, midV, hf] using ih'
        | value u =>
          have hf : Pat.fits c target (.value u) = false := hb
          simpa [midsV, midV, hf] using ih'

/-- **C64 (partial).** A chain of void branches behaves exactly like the first applicable branch whenever that branch
is the first of the chain or a value pattern (and panics, running nothing, when none applies).
Missing: a range that is not the first branch, and `rest` (`C64_fails_rest`, `C64_fails_twice`). -/
theorem C64_void_partial (c : Cmp T) (target : T) (p : Pat T) (f : Prog ω Unit) (bs : List (Branch ω T Unit))
    (h : p.fits c target = true ∨ ∀ b, bs.find? (applies c target) = some b → isValueBranch b = true) :
    chainV c target p f bs = firstApplicable c target (.when p f :: bs) := by
  funext s
  simp only [chainV, firstV, firstApplicable, List.find?, applies_when]
  cases hp : p.fits c target with
  | true =>
    simp
    cases h : f s with
    | ok q => simp [midsV_true, finaleV, h, branchFun]
    | _ => simp [h, branchFun]
  | false =>
    have h' := h.resolve_left (by simp [hp])
    have := midsV_false c target bs s h'
    simpa [firstApplicable] using this

example : chainV (ω := List Nat) intCmp 3 (.range 5 9) (fun l => .ok ((), l ++ [1]))
    [.when (.value 3) (fun l => .ok ((), l ++ [2])), .rest (fun l => .ok ((), l ++ [3]))] [] = .ok ((), [2]) := rfl

/-- **C64 is false**: whenever only the closing `rest` applies, its function runs and `finale` then panics. -/
theorem C64_fails_rest (c : Cmp T) (target : T) (p : Pat T) (f g : Prog ω Unit) (h : p.fits c target = false)
    (s s' : ω) (hg : g s = .ok ((), s')) : chainV c target p f [.rest g] s = .panic ∧
      firstApplicable c target [.when p f, .rest g] s = .ok ((), s') := by
  constructor
  · simp [chainV, firstV, h, midsV, midV, hg, finaleV]
  · have h1 : applies c target (.when p f : Branch ω T Unit) = false := by rw [applies_when, h]
    have h2 : applies c target (.rest g : Branch ω T Unit) = true := rfl
    simp only [firstApplicable, List.find?, h1, h2]
    exact hg

/-- **C64 is false**: whenever the second branch is a range that fits and the third a value that fits as well, and the first does not fit, both
functions are run, the second and then the third, where the first applicable branch alone would run the second only. -/
theorem C64_fails_twice (c : Cmp T) (target : T) (p : Pat T) (lo hi u : T) (f g k : Prog ω Unit) (h : p.fits c target = false)
    (hr : (Pat.range lo hi).fits c target = true) (hu : (Pat.value u).fits c target = true) :
    chainV c target p f [.when (.range lo hi) g, .when (.value u) k] = (do g; k) ∧
      firstApplicable c target [.when p f, .when (.range lo hi) g, .when (.value u) k] = g := by
  constructor
  · funext s
    simp only [chainV, firstV, h, midsV, midV, hr, hu]
    cases hg : g s with
    | ok q =>
      cases hk : k q.2 with
      | ok r => simp [finaleV, hg, hk]
      | _ => simp [finaleV, hg, hk]
    | _ => simp [hg]
  · simp only [firstApplicable, List.find?, applies_when, h, hr, branchFun]

/-- `match(7).when(1, ..).when(range(2, 10), ..).when(7, ..)` runs the second and the third function. -/
example : chainV intCmp 7 (.value 1) (fun l => .ok ((), l ++ [1]))
    [.when (.range 2 10) (fun l => .ok ((), l ++ [2])), .when (.value 7) (fun l => .ok ((), l ++ [3]))] [] = .ok ((), [2, 3]) := by
  exact congrFun (C64_fails_twice (ω := List Nat) intCmp 7 (.value 1) 2 10 7 _ _ _ rfl rfl rfl).1 []

end Verif.Props
