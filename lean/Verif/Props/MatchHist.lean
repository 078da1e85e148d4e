import Verif.Proof.MatchHist
import Verif.Props.Match
/-! # Property C118: match chains that are kept, and branch functions that throw -/
namespace Verif.Props
open Verif Verif.Model.MatchHist Verif.Spec.MatH
open Verif.Proof.MatH (run_ok rep_start)

variable {T R ω : Type}

/-- C118 (partial).  For every target type with any operators, every result type, all branch functions and every program over
variables, matches and chains that catches the exceptions of comparisons and branch functions: every call answers, every branch function is
evaluated or not, and the program panics or compares a target that is gone, exactly as the specification says.
Missing: what one would ask for, that a chain that has a result keeps it (`C118_finale_fails`, `C118_move_fails`) and that it can be used
after `match(temporary)` (`C118_temporary_fails`). -/
theorem C118_history_partial (c : Cmp T) (ops : List (Op T R ω)) (e : ω) (o : End R ω) (h : Run c ops [] e o) :
    match (generalizing := false) o with
    | .done as e' => ∃ w, run c ops (start e) = .ok (as, w) ∧ w.env = e'
    | .stopped => run c ops (start e) = .panic
    | .undefined => run c ops (start e) = .ub := by
  have := run_ok h (rep_start e) (fun _ _ => rfl)
  cases o <;> exact this

theorem fits_decided (c : Cmp T) (t : T) (p : Pat T) : ∃ b, Fits c t p b := by
  cases p with
  | value u => exact ⟨_, .value u⟩
  | range lo hi =>
    cases h : c.le lo t with
    | none => exact ⟨_, .low_throws lo hi h⟩
    | some b => cases b with
      | false => exact ⟨_, .below lo hi h⟩
      | true => exact ⟨_, .above lo hi h⟩

/-- C118: the specification decides every call that compiles, so the history theorem applies to every program of such calls. -/
theorem C118_decided (c : Cmp T) (op : Op T R ω) (h : List (Ev T R)) (e : ω) (hc : Compiles h op) :
    (∃ a es e', Calls c op h e a es e') ∨ Stops op h ∨ Dangles op h := by
  cases op with
  | declare v t => exact .inl ⟨_, _, _, .declare hc⟩
  | assign v t => obtain ⟨u, hu⟩ := Option.isSome_iff_exists.mp hc; exact .inl ⟨_, _, _, .assign hu⟩
  | leave v => obtain ⟨u, hu⟩ := Option.isSome_iff_exists.mp hc; exact .inl ⟨_, _, _, .leave hu⟩
  | makeMatch i v => obtain ⟨u, hu⟩ := Option.isSome_iff_exists.mp hc.2; exact .inl ⟨_, _, _, .makeMatch hc.1 hu⟩
  | copyMatch i j => obtain ⟨u, hu⟩ := Option.isSome_iff_exists.mp hc.2; exact .inl ⟨_, _, _, .copyMatch hc.1 hu⟩
  | dropMatch i => obtain ⟨u, hu⟩ := Option.isSome_iff_exists.mp hc; exact .inl ⟨_, _, _, .dropMatch hu⟩
  | first k i p f =>
    obtain ⟨v, hi⟩ := Option.isSome_iff_exists.mp hc.2
    cases hv : valueOf h v with
    | none => exact .inr (.inr (.first hc.1 hi hv))
    | some t =>
      obtain ⟨b, hb⟩ := fits_decided c t p
      cases b with
      | none => exact .inl ⟨_, _, _, .first_cmp_throws hc.1 hi hv hb⟩
      | some b => cases b with
        | false => exact .inl ⟨_, _, _, .first_not hc.1 hi hv hb⟩
        | true =>
          rcases hr : f e with ⟨_ | r, e'⟩
          · exact .inl ⟨_, _, _, .first_throws hc.1 hi hv hb hr⟩
          · exact .inl ⟨_, _, _, .first_fits hc.1 hi hv hb hr⟩
  | when k p f =>
    obtain ⟨v, hk⟩ := Option.isSome_iff_exists.mp hc
    cases hn : resultOf h k with
    | some r => exact .inl ⟨_, _, _, .when_decided hk hn⟩
    | none =>
      cases hv : valueOf h v with
      | none => exact .inr (.inr (.when hk hn hv))
      | some t =>
        obtain ⟨b, hb⟩ := fits_decided c t p
        cases b with
        | none => exact .inl ⟨_, _, _, .when_cmp_throws hk hn hv hb⟩
        | some b => cases b with
          | false => exact .inl ⟨_, _, _, .when_not hk hn hv hb⟩
          | true =>
            rcases hr : f e with ⟨_ | r, e'⟩
            · exact .inl ⟨_, _, _, .when_throws hk hn hv hb hr⟩
            · exact .inl ⟨_, _, _, .when_fits hk hn hv hb hr⟩
  | rest k f =>
    obtain ⟨v, hk⟩ := Option.isSome_iff_exists.mp hc
    cases hn : resultOf h k with
    | some r => exact .inl ⟨_, _, _, .rest_decided hk hn⟩
    | none =>
      rcases hr : f e with ⟨_ | r, e'⟩
      · exact .inl ⟨_, _, _, .rest_throws hk hn hr⟩
      · exact .inl ⟨_, _, _, .rest_runs hk hn hr⟩
  | finale k =>
    obtain ⟨v, hk⟩ := Option.isSome_iff_exists.mp hc
    cases hn : resultOf h k with
    | some r => exact .inl ⟨_, _, _, .finale hk hn⟩
    | none => exact .inr (.inl (.finale hk hn))
  | copyChain k l => obtain ⟨v, hl⟩ := Option.isSome_iff_exists.mp hc.2; exact .inl ⟨_, _, _, .copyChain hc.1 hl⟩
  | moveChain k l => obtain ⟨v, hl⟩ := Option.isSome_iff_exists.mp hc.2; exact .inl ⟨_, _, _, .moveChain hc.1 hl⟩
  | dropChain k => obtain ⟨v, hk⟩ := Option.isSome_iff_exists.mp hc; exact .inl ⟨_, _, _, .dropChain hk⟩

/-- The calls that take chain `k`'s result or end it. -/
def Takes (k : Nat) : Op T R ω → Prop
  | .finale l | .dropChain l => l = k
  | .moveChain _ l => l = k
  | _ => False

theorem bind_ok_inv {σ β γ : Type} {m : Prog σ β} {g : β → Prog σ γ} {s : σ} {x : γ × σ} (h : (m >>= g) s = .ok x) :
    ∃ b s', m s = .ok (b, s') ∧ g b s' = .ok x := by
  rw [Prog.bind_run] at h
  cases hm : m s with
  | ok p => rw [hm] at h; exact ⟨p.1, p.2, rfl, h⟩
  | _ => rw [hm] at h; cases h

theorem readVar_inv {v : Nat} {w w' : World T R ω} {t : T} (h : readVar v w = .ok (t, w')) : w' = w := by
  simp only [readVar] at h; split at h <;> cases h; rfl
theorem getMat_inv {i v : Nat} {w w' : World T R ω} (h : getMat i w = .ok (v, w')) : w' = w := by
  simp only [getMat] at h; split at h <;> cases h; rfl
theorem getMid_inv {k : Nat} {m : Nat × Option R} {w w' : World T R ω} (h : getMid k w = .ok (m, w')) : w' = w ∧ w.mid k = some m := by
  simp only [getMid] at h; split at h <;> cases h; exact ⟨rfl, by assumption⟩
theorem freshMat_inv {i : Nat} {u : Unit} {w w' : World T R ω} (h : freshMat i w = .ok (u, w')) : w' = w := by
  simp only [freshMat] at h; split at h <;> cases h; rfl
theorem freshMid_inv {k : Nat} {u : Unit} {w w' : World T R ω} (h : freshMid k w = .ok (u, w')) : w' = w ∧ w.mid k = none := by
  simp only [freshMid] at h; split at h <;> cases h
  rename_i hn; exact ⟨rfl, by simpa using hn⟩
theorem test_inv {c : Cmp T} {v : Nat} {p : Pat T} {b : Option Bool} {w w' : World T R ω} (h : test c v p w = .ok (b, w')) : w' = w := by
  cases p with
  | value u =>
    obtain ⟨t, w1, h1, h2⟩ := bind_ok_inv h
    cases readVar_inv h1; cases h2; rfl
  | range lo hi =>
    obtain ⟨t, w1, h1, h2⟩ := bind_ok_inv h
    cases readVar_inv h1
    cases hl : c.le lo t with
    | none => simp [hl] at h2; exact h2.2.symm
    | some b => cases b <;> (simp [hl] at h2; exact h2.2.symm)

/-- What evaluating a branch function and keeping its result does to the chains. -/
theorem keep_inv {k v : Nat} {f : Fun ω R} {a : Option (Ret R)} {w w' : World T R ω}
    (h : (do match ← (callFun f : M T R ω (Option R)) with
             | none => return none
             | some r => do
               setMid k (some (v, some r))
               return some .unit : M T R ω (Option (Ret R))) w = .ok (a, w')) :
    w'.mid = w.mid ∨ ∃ r, w'.mid = fun x => if x = k then some (v, some r) else w.mid x := by
  obtain ⟨r, w1, h1, h2⟩ := bind_ok_inv h
  simp only [callFun, Out.ok.injEq, Prod.mk.injEq] at h1
  cases r with
  | none => cases h2; rw [← h1.2]; exact .inl rfl
  | some r =>
    obtain ⟨_, w2, h3, h4⟩ := bind_ok_inv h2
    simp only [setMid, Out.ok.injEq, Prod.mk.injEq] at h3
    cases h4
    rw [← h3.2, ← h1.2]; exact .inr ⟨r, rfl⟩

theorem step_keep (k : Nat) {c : Cmp T} {op : Op T R ω} {a : Option (Ret R)} {r : R} {v : Nat} {w w' : World T R ω}
    (h : step c op w = .ok (a, w')) (hk : w.mid k = some (v, some r)) (ht : ¬ Takes k op) : w'.mid k = some (v, some r) := by
  have other : ∀ {l} {m : Option (Nat × Option R)}, ¬ l = k → (if k = l then m else w.mid k) = some (v, some r) := by
    intro l m hl; rw [if_neg (fun h => hl h.symm)]; exact hk
  cases op with
  | declare x t =>
    simp only [step] at h; split at h
    · obtain ⟨_, w1, h1, h2⟩ := bind_ok_inv h; cases h1; cases h2; exact hk
    · cases h
  | assign x t =>
    obtain ⟨_, w1, h1, h2⟩ := bind_ok_inv h; cases readVar_inv h1
    obtain ⟨_, w1, h1, h2⟩ := bind_ok_inv h2; cases h1; cases h2; exact hk
  | leave x =>
    obtain ⟨_, w1, h1, h2⟩ := bind_ok_inv h; cases readVar_inv h1
    obtain ⟨_, w1, h1, h2⟩ := bind_ok_inv h2; cases h1; cases h2; exact hk
  | makeMatch i x =>
    obtain ⟨_, w1, h1, h2⟩ := bind_ok_inv h; cases freshMat_inv h1
    obtain ⟨_, w1, h1, h2⟩ := bind_ok_inv h2; cases readVar_inv h1
    obtain ⟨_, w1, h1, h2⟩ := bind_ok_inv h2; cases h1; cases h2; exact hk
  | copyMatch i x =>
    obtain ⟨_, w1, h1, h2⟩ := bind_ok_inv h; cases freshMat_inv h1
    obtain ⟨_, w1, h1, h2⟩ := bind_ok_inv h2; cases getMat_inv h1
    obtain ⟨_, w1, h1, h2⟩ := bind_ok_inv h2; cases h1; cases h2; exact hk
  | dropMatch i =>
    obtain ⟨_, w1, h1, h2⟩ := bind_ok_inv h; cases getMat_inv h1
    obtain ⟨_, w1, h1, h2⟩ := bind_ok_inv h2; cases h1; cases h2; exact hk
  | first l i p f =>
    obtain ⟨_, w1, h1, h2⟩ := bind_ok_inv h; obtain ⟨rfl, hl⟩ := freshMid_inv h1
    have hlk : ¬ l = k := by rintro rfl; rw [hk] at hl; cases hl
    obtain ⟨x, w1, h1, h2⟩ := bind_ok_inv h2; cases getMat_inv h1
    obtain ⟨b, w1, h1, h2⟩ := bind_ok_inv h2; cases test_inv h1
    rcases b with _ | _ | _
    · cases h2; exact hk
    · obtain ⟨_, w1, h1, h2⟩ := bind_ok_inv h2; cases h1; cases h2; exact other hlk
    · rcases keep_inv h2 with h3 | ⟨r', h3⟩
      · rw [h3]; exact hk
      · rw [h3]; exact other hlk
  | when l p f =>
    obtain ⟨⟨x, res⟩, w1, h1, h2⟩ := bind_ok_inv h; obtain ⟨rfl, hl⟩ := getMid_inv h1
    cases res with
    | some r' => cases h2; exact hk
    | none =>
      have hlk : ¬ l = k := by rintro rfl; rw [hk] at hl; cases hl
      obtain ⟨b, w1, h1, h2⟩ := bind_ok_inv h2; cases test_inv h1
      rcases b with _ | _ | _
      · cases h2; exact hk
      · cases h2; exact hk
      · rcases keep_inv h2 with h3 | ⟨r', h3⟩
        · rw [h3]; exact hk
        · rw [h3]; exact other hlk
  | rest l f =>
    obtain ⟨⟨x, res⟩, w1, h1, h2⟩ := bind_ok_inv h; obtain ⟨rfl, hl⟩ := getMid_inv h1
    cases res with
    | some r' => cases h2; exact hk
    | none =>
      have hlk : ¬ l = k := by rintro rfl; rw [hk] at hl; cases hl
      rcases keep_inv h2 with h3 | ⟨r', h3⟩
      · rw [h3]; exact hk
      · rw [h3]; exact other hlk
  | finale l =>
    have hlk : ¬ l = k := ht
    obtain ⟨⟨x, res⟩, w1, h1, h2⟩ := bind_ok_inv h; obtain ⟨rfl, hl⟩ := getMid_inv h1
    cases res with
    | none => cases h2
    | some r' => obtain ⟨_, w1, h1, h2⟩ := bind_ok_inv h2; cases h1; cases h2; exact other hlk
  | copyChain l l' =>
    obtain ⟨_, w1, h1, h2⟩ := bind_ok_inv h; obtain ⟨rfl, hl⟩ := freshMid_inv h1
    have hlk : ¬ l = k := by rintro rfl; rw [hk] at hl; cases hl
    obtain ⟨⟨x, res⟩, w1, h5, h6⟩ := bind_ok_inv h2; obtain ⟨rfl, _⟩ := getMid_inv h5
    simp [setMid] at h6; rw [← h6.2]; exact other hlk
  | moveChain l l' =>
    have hlk' : ¬ l' = k := ht
    obtain ⟨_, w1, h1, h2⟩ := bind_ok_inv h; obtain ⟨rfl, hl⟩ := freshMid_inv h1
    have hlk : ¬ k = l := by rintro rfl; rw [hk] at hl; cases hl
    obtain ⟨⟨x, res⟩, w1, h5, h6⟩ := bind_ok_inv h2; obtain ⟨rfl, _⟩ := getMid_inv h5
    simp [setMid] at h6; rw [← h6.2]
    simp only [if_neg hlk]; exact other hlk'
  | dropChain l =>
    have hlk : ¬ l = k := ht
    obtain ⟨_, w1, h1, h2⟩ := bind_ok_inv h; obtain ⟨rfl, _⟩ := getMid_inv h1
    obtain ⟨_, w1, h1, h2⟩ := bind_ok_inv h2; cases h1; cases h2; exact other hlk

/-- C118: a chain that has a result keeps it through any program, whatever is compared, evaluated or thrown in it, until the result is
taken by `finale` or by moving the chain; `finale` then returns it. -/
theorem C118_result_kept (c : Cmp T) (k v : Nat) (r : R) (ops : List (Op T R ω)) (w w' : World T R ω) (as : List (Option (Ret R)))
    (hk : w.mid k = some (v, some r)) (ht : ∀ op ∈ ops, ¬ Takes k op) (h : run c ops w = .ok (as, w')) :
    ∃ w'', step c (.finale k) w' = .ok (some (.val r), w'') := by
  have : w'.mid k = some (v, some r) := by
    induction ops generalizing w as with
    | nil => cases h; exact hk
    | cons op ops ih =>
      obtain ⟨a, w1, h1, h2⟩ := bind_ok_inv h
      obtain ⟨as', w2, h3, h4⟩ := bind_ok_inv h2
      cases h4
      exact ih w1 as' (step_keep k h1 hk (ht _ List.mem_cons_self)) (fun op ho => ht op (List.mem_cons_of_mem _ ho)) h3
  exact ⟨{ w' with mid := fun x => if x = k then some (v, none) else w'.mid x }, by simp [step, getMid, this, setMid]⟩

/-- C118: a chain that has a result compares and evaluates nothing more: its branches change nothing at all, even if its target is gone. -/
theorem C118_decided_evaluates_nothing (c : Cmp T) (k v : Nat) (r : R) (p : Pat T) (f : Fun ω R) (w : World T R ω)
    (hk : w.mid k = some (v, some r)) :
    step c (.when k p f) w = .ok (some .unit, w) ∧ step c (.rest k f) w = .ok (some .unit, w) := by
  simp [step, getMid, hk]

/-- C118: a branch function that throws decides nothing.  The exception reaches the caller, the chain still has no result, and the
next branch is looked at as if the throwing one had not been there (apart from the function's own effects). -/
theorem C118_throw_decides_nothing (c : Cmp T) (k v : Nat) (t : T) (p : Pat T) (f g : Fun ω R) (r : R) (e1 e2 : ω) (w : World T R ω)
    (hk : w.mid k = some (v, none)) (hv : w.var v = .live t) (hp : Fits c t p (some true)) (hf : f w.env = (none, e1)) (hg : g e1 = (some r, e2)) :
    step c (.when k p f) w = .ok (none, { w with env := e1 }) ∧ step c (.rest k f) w = .ok (none, { w with env := e1 }) ∧
    ∃ w', run c [.when k p f, .rest k g, .finale k] w = .ok ([none, some .unit, some (.val r)], w') ∧ w'.env = e2 := by
  have htest : test c v p w = .ok (some true, w) := by
    cases p with
    | value u =>
      have : c.eq u t = some true := by
        generalize hb : some true = b at hp
        cases hp with
        | value => rfl
      simp [test, readVar, hv, this]
    | range lo hi =>
      have : c.le lo t = some true ∧ c.lt t hi = some true := by
        generalize hb : some true = b at hp
        cases hp with
        | low_throws => cases hb
        | below => cases hb
        | above _ _ h => exact ⟨h.trans hb, rfl⟩
      simp [test, readVar, hv, this]
  refine ⟨by simp [step, getMid, hk, htest, callFun, hf], by simp [step, getMid, hk, callFun, hf], ?_⟩
  refine ⟨_, by simp [run, step, getMid, hk, htest, callFun, hf, hg, setMid]; rfl, rfl⟩

/-- **C118 is false**: `finale` takes the result away.  A second `finale` panics, and a branch added after the first `finale` is evaluated
although the chain had a result, and replaces it. -/
theorem C118_finale_fails (c : Cmp T) (k v : Nat) (r r' : R) (g : Fun ω R) (e' : ω) (w : World T R ω)
    (hk : w.mid k = some (v, some r)) (hg : g w.env = (some r', e')) :
    run c [.finale k, .finale k] w = .panic ∧
    ∃ w', run c [.finale k, .rest k g, .finale k] w = .ok ([some (.val r), some .unit, some (.val r')], w') ∧ w'.env = e' := by
  refine ⟨by simp [run, step, getMid, hk, setMid, Prog.panic], ?_⟩
  refine ⟨_, by simp [run, step, getMid, hk, setMid, callFun, hg]; rfl, rfl⟩

/-- **C118 is false**: a chain that is moved into another one has no result afterwards: its branches are looked at again, `finale`
panics.  A copy takes nothing: both chains have the result. -/
theorem C118_move_fails (c : Cmp T) (k l v : Nat) (r r' : R) (g : Fun ω R) (e' : ω) (w : World T R ω) (hk : w.mid k = none)
    (hl : w.mid l = some (v, some r)) (hg : g w.env = (some r', e')) :
    run c [.moveChain k l, .finale l] w = .panic ∧
    (∃ w', run c [.moveChain k l, .rest l g, .finale l, .finale k] w = .ok ([some .unit, some .unit, some (.val r'), some (.val r)], w')) ∧
    (∃ w', run c [.copyChain k l, .rest l g, .finale l, .finale k] w = .ok ([some .unit, some .unit, some (.val r), some (.val r)], w') ∧
      w'.env = w.env) := by
  have hkl : ¬ k = l := by rintro rfl; rw [hk] at hl; cases hl
  have hlk : ¬ l = k := fun h => hkl h.symm
  refine ⟨by simp [run, step, freshMid, getMid, hk, hl, hlk, setMid, Prog.panic], 
    ⟨{ w with env := e', mid := fun x => if x = k then some (v, none) else if x = l then some (v, none) else w.mid x }, ?_⟩,
    ⟨{ w with mid := fun x => if x = k then some (v, none) else if x = l then some (v, none) else w.mid x }, ?_, rfl⟩⟩
  · simp [run, step, freshMid, getMid, hk, hl, hkl, hlk, setMid, callFun, hg]
    funext x; repeat' split <;> simp_all
  · simp [run, step, freshMid, getMid, hk, hl, hkl, hlk, setMid]
    funext x; repeat' split <;> simp_all

/-- **C118 is false**: a match or a chain made for a temporary (a variable that goes out of scope) cannot be used in a later
statement: the next comparison reads the dead object. -/
theorem C118_temporary_fails (c : Cmp T) (t : T) (p q : Pat T) (f g : Fun ω R) (e : ω) (hp : Fits c t p (some false)) :
    run c [.declare 0 t, .makeMatch 0 0, .leave 0, .first 0 0 p f] (start e) = .ub ∧
    run c [.declare 0 t, .makeMatch 0 0, .first 0 0 p f, .leave 0, .when 0 q g] (start e) = .ub := by
  constructor
  · have h : Run c [.declare 0 t, .makeMatch 0 0, .leave 0, .first 0 0 p f] [] e (.undefined : End R ω) :=
      .call (o := .undefined) (.declare rfl) (.call (o := .undefined) (.makeMatch rfl rfl)
        (.call (o := .undefined) (.leave rfl) (.dangles (.first rfl rfl rfl))))
    exact C118_history_partial c _ e _ h
  · have h : Run c [.declare 0 t, .makeMatch 0 0, .first 0 0 p f, .leave 0, .when 0 q g] [] e (.undefined : End R ω) :=
      .call (o := .undefined) (.declare rfl) (.call (o := .undefined) (.makeMatch rfl rfl)
        (.call (o := .undefined) (.first_not rfl rfl rfl hp) (.call (o := .undefined) (.leave rfl) (.dangles (.when rfl rfl rfl)))))
    exact C118_history_partial c _ e _ h

/-- Operators that do not throw. -/
def calm (c : Model.Match.Cmp T) : Cmp T := ⟨fun a b => some (c.eq a b), fun a b => some (c.le a b), fun a b => some (c.lt a b)⟩
def patOf : Pat T → Model.Match.Pat T
  | .value u => .value u
  | .range lo hi => .range lo hi
/-- A branch, `rest` if there is no pattern, whose function does not throw: as a call on chain 0, and as in `Model/Match`. -/
def branchOp : Option (Pat T) × (ω → R × ω) → Op T R ω
  | (some p, f) => .when 0 p fun e => (some (f e).1, (f e).2)
  | (none, f) => .rest 0 fun e => (some (f e).1, (f e).2)
def branchOf : Option (Pat T) × (ω → R × ω) → Model.Match.Branch ω T R
  | (some p, f) => .when (patOf p) fun e => .ok (f e)
  | (none, f) => .rest fun e => .ok (f e)

theorem test_calm (c : Model.Match.Cmp T) (t : T) (p : Pat T) (w : World T R ω) (hv : w.var 0 = .live t) :
    test (calm c) 0 p w = .ok (some ((patOf p).fits c t), w) := by
  cases p with
  | value u => simp [test, readVar, hv, calm, patOf, Model.Match.Pat.fits]
  | range lo hi => cases h : c.le lo t <;> simp [test, readVar, hv, calm, patOf, Model.Match.Pat.fits, h]

theorem expression_mids (c : Model.Match.Cmp T) (t : T) (bs : List (Option (Pat T) × (ω → R × ω))) :
    ∀ (res : Option R) (w : World T R ω), w.var 0 = .live t → w.mid 0 = some (0, res) →
      match (Model.Match.mids c t res (bs.map branchOf) >>= Model.Match.finale) w.env with
      | .ok (r, e') => ∃ w', run (calm c) (bs.map branchOp ++ [.finale 0]) w =
          .ok (List.replicate bs.length (some .unit) ++ [some (.val r)], w') ∧ w'.env = e'
      | _ => run (calm c) (bs.map branchOp ++ [.finale 0]) w = .panic := by
  induction bs with
  | nil =>
    intro res w hv hm
    cases res with
    | none => simp [Model.Match.mids, Model.Match.finale, run, step, getMid, hm, Prog.panic]
    | some r =>
      simp only [List.map_nil, Model.Match.mids, Model.Match.finale, Prog.bind_run, Prog.pure_run, Out.bind_ok]
      exact ⟨{ w with mid := fun x => if x = 0 then some (0, none) else w.mid x }, by simp [run, step, getMid, hm, setMid], rfl⟩
  | cons b bs ih =>
    intro res w hv hm
    obtain ⟨p, f⟩ := b
    -- the chain keeps `res` and the world
    have keep : step (calm c) (branchOp (p, f)) w = .ok (some .unit, w) →
        Model.Match.mid c t res (branchOf (p, f)) w.env = .ok (res, w.env) →
        match (Model.Match.mids c t res (((p, f) :: bs).map branchOf) >>= Model.Match.finale) w.env with
        | .ok (r, e') => ∃ w', run (calm c) (((p, f) :: bs).map branchOp ++ [.finale 0]) w =
            .ok (List.replicate ((p, f) :: bs).length (some .unit) ++ [some (.val r)], w') ∧ w'.env = e'
        | _ => run (calm c) (((p, f) :: bs).map branchOp ++ [.finale 0]) w = .panic := by
      intro h1 h2
      have := ih res w hv hm
      have he : (Model.Match.mids c t res (((p, f) :: bs).map branchOf) >>= Model.Match.finale) w.env =
          (Model.Match.mids c t res (bs.map branchOf) >>= Model.Match.finale) w.env := by
        simp [Model.Match.mids, h2]
      rw [he]
      cases hx : (Model.Match.mids c t res (bs.map branchOf) >>= Model.Match.finale) w.env with
      | ok q =>
        rw [hx] at this
        obtain ⟨w', hw, hq⟩ := this
        exact ⟨w', by simp [run, h1, hw, List.replicate_succ], hq⟩
      | _ => rw [hx] at this; simp [run, h1, this]
    -- the chain gets a result
    have gets : res = none → step (calm c) (branchOp (p, f)) w =
          .ok (some .unit, { w with env := (f w.env).2, mid := fun x => if x = 0 then some (0, some (f w.env).1) else w.mid x }) →
        Model.Match.mid c t res (branchOf (p, f)) w.env = .ok (some (f w.env).1, (f w.env).2) →
        match (Model.Match.mids c t res (((p, f) :: bs).map branchOf) >>= Model.Match.finale) w.env with
        | .ok (r, e') => ∃ w', run (calm c) (((p, f) :: bs).map branchOp ++ [.finale 0]) w =
            .ok (List.replicate ((p, f) :: bs).length (some .unit) ++ [some (.val r)], w') ∧ w'.env = e'
        | _ => run (calm c) (((p, f) :: bs).map branchOp ++ [.finale 0]) w = .panic := by
      intro _ h1 h2
      have := ih (some (f w.env).1)
        { w with env := (f w.env).2, mid := fun x => if x = 0 then some (0, some (f w.env).1) else w.mid x } hv rfl
      have he : (Model.Match.mids c t res (((p, f) :: bs).map branchOf) >>= Model.Match.finale) w.env =
          (Model.Match.mids c t (some (f w.env).1) (bs.map branchOf) >>= Model.Match.finale) (f w.env).2 := by
        simp [Model.Match.mids, h2]
      rw [he]
      cases hx : (Model.Match.mids c t (some (f w.env).1) (bs.map branchOf) >>= Model.Match.finale) (f w.env).2 with
      | ok q =>
        simp only [hx] at this
        obtain ⟨w', hw, hq⟩ := this
        exact ⟨w', by simp [run, h1, hw, List.replicate_succ], hq⟩
      | _ => simp only [hx] at this; simp [run, h1, this]
    cases res with
    | some r =>
      cases p with
      | none => exact keep (by simp [branchOp, step, getMid, hm]) (by simp [branchOf, Model.Match.mid])
      | some p => exact keep (by simp [branchOp, step, getMid, hm]) (by simp [branchOf, Model.Match.mid])
    | none =>
      cases p with
      | none =>
        exact gets rfl (by simp [branchOp, step, getMid, hm, callFun, setMid]) (by simp [branchOf, Model.Match.mid]; rfl)
      | some p =>
        cases hf : (patOf p).fits c t with
        | true =>
          exact gets rfl (by simp [branchOp, step, getMid, hm, test_calm c t p w hv, hf, callFun, setMid])
            (by simp [branchOf, Model.Match.mid, hf]; rfl)
        | false =>
          exact keep (by simp [branchOp, step, getMid, hm, test_calm c t p w hv, hf]) (by simp [branchOf, Model.Match.mid, hf])

/-- C118: the chain written as one expression.  If nothing throws, making a match and a chain for a variable, adding the branches one by
one and calling `finale` gives what C63 says: the value and the effects of the first applicable branch, or a panic if none applies. -/
theorem C118_expression (c : Model.Match.Cmp T) (t : T) (p : Pat T) (f : ω → R × ω) (bs : List (Option (Pat T) × (ω → R × ω))) (e : ω) :
    match firstApplicable c t (((some p, f) :: bs).map branchOf) e with
    | .ok (r, e') => ∃ w', run (calm c) (.declare 0 t :: .makeMatch 0 0 :: .first 0 0 p (fun e => (some (f e).1, (f e).2)) ::
          (bs.map branchOp ++ [.finale 0])) (start e) = .ok (List.replicate (bs.length + 3) (some .unit) ++ [some (.val r)], w') ∧ w'.env = e'
    | _ => run (calm c) (.declare 0 t :: .makeMatch 0 0 :: .first 0 0 p (fun e => (some (f e).1, (f e).2)) ::
          (bs.map branchOp ++ [.finale 0])) (start e) = .panic := by
  have hb : (((some p, f) :: bs).map branchOf) = .when (patOf p) (fun e => .ok (f e)) :: bs.map branchOf := rfl
  rw [hb, ← C63_first_branch_wins c t (patOf p) (fun e => .ok (f e)) (bs.map branchOf)]
  -- the world in which the first branch is looked at
  generalize hw0 : (World.mk (fun x => if x = 0 then .live t else .unborn) (fun x => if x = 0 then some 0 else none) (fun _ => none) e : World T R ω) = w0
  have hv : w0.var 0 = .live t := by rw [← hw0]; rfl
  have he : w0.env = e := by rw [← hw0]
  have h0 : ∀ ops, run (calm c) (.declare 0 t :: .makeMatch 0 0 :: ops) (start e) =
      (run (calm c) ops w0 >>= fun q => .ok (some .unit :: some .unit :: q.1, q.2)) := by
    intro ops
    have h1 : step (calm c) (.declare 0 t) (start e : World T R ω) =
        .ok (some .unit, ⟨fun x => if x = 0 then .live t else .unborn, fun _ => none, fun _ => none, e⟩) := rfl
    have h2 : step (calm c) (.makeMatch 0 0)
        (⟨fun x => if x = 0 then .live t else .unborn, fun _ => none, fun _ => none, e⟩ : World T R ω) = .ok (some .unit, w0) := by
      rw [← hw0]; rfl
    show (step (calm c) (.declare 0 t) >>= fun r => run (calm c) (.makeMatch 0 0 :: ops) >>= fun rs => pure (r :: rs)) (start e) = _
    rw [Prog.bind_run, h1, Out.bind_ok, Prog.bind_run]
    simp only [run, Prog.bind_run, h2, Out.bind_ok]
    cases run (calm c) ops w0 <;> rfl
  rw [h0]
  have hstep : ∀ res : Option R, ∀ e' : ω, step (calm c) (.first 0 0 p (fun e => (some (f e).1, (f e).2))) w0 =
        .ok (some .unit, { w0 with env := e', mid := fun x => if x = 0 then some (0, res) else w0.mid x }) →
      Model.Match.first c t (patOf p) (fun e => .ok (f e)) e = .ok (res, e') →
      match Model.Match.chain c t (patOf p) (fun e => .ok (f e)) (bs.map branchOf) e with
      | .ok (r, e') => ∃ w', (run (calm c) (.first 0 0 p (fun e => (some (f e).1, (f e).2)) :: (bs.map branchOp ++ [.finale 0])) w0 >>=
          fun q => .ok (some .unit :: some .unit :: q.1, q.2)) =
            .ok (List.replicate (bs.length + 3) (some .unit) ++ [some (.val r)], w') ∧ w'.env = e'
      | _ => (run (calm c) (.first 0 0 p (fun e => (some (f e).1, (f e).2)) :: (bs.map branchOp ++ [.finale 0])) w0 >>=
          fun q => .ok (some .unit :: some .unit :: q.1, q.2)) = .panic := by
    intro res e' h1 h2
    have := expression_mids c t bs res { w0 with env := e', mid := fun x => if x = 0 then some (0, res) else w0.mid x } hv rfl
    have hc : Model.Match.chain c t (patOf p) (fun e => .ok (f e)) (bs.map branchOf) e =
        (Model.Match.mids c t res (bs.map branchOf) >>= Model.Match.finale) e' := by
      simp [Model.Match.chain, h2]
    rw [hc]
    cases hx : (Model.Match.mids c t res (bs.map branchOf) >>= Model.Match.finale) e' with
    | ok q =>
      simp only [hx] at this
      obtain ⟨w', hw, hq⟩ := this
      exact ⟨w', by simp [run, h1, hw, List.replicate_succ], hq⟩
    | _ => simp only [hx] at this; simp [run, h1, this]
  have hm0 : w0.mid 0 = none ∧ w0.mat 0 = some 0 := by rw [← hw0]; exact ⟨rfl, rfl⟩
  cases hf : (patOf p).fits c t with
  | true =>
    exact hstep (some (f e).1) (f e).2
      (by simp [step, freshMid, hm0, getMat, test_calm c t p w0 hv, hf, callFun, setMid, he])
      (by simp [Model.Match.first, hf]; rfl)
  | false =>
    exact hstep none e (by simp [step, freshMid, hm0, getMat, test_calm c t p w0 hv, hf, setMid, ← he])
      (by simp [Model.Match.first, hf])

/-- The operators of `int`. -/
def intOps : Cmp Int := ⟨fun a b => some (a == b), fun a b => some (decide (a ≤ b)), fun a b => some (decide (a < b))⟩

/-- A branch function that notes `n` and returns `r`, or throws. -/
def noting (n : Nat) (r : Option Nat) : Fun (List Nat) Nat := fun l => (r, l ++ [n])

/-- Non-vacuity: the first branch throws, a range does not fit until the target changes, the chain is copied; the copy is decided
differently after `finale`. -/
example : (match run intOps [.declare 0 7, .makeMatch 0 0, .first 0 0 (.value 1) (noting 1 (some 10)), .when 0 (.range 5 9) (noting 2 none),
      .assign 0 20, .when 0 (.range 5 9) (noting 3 (some 30)), .when 0 (.value 20) (noting 4 (some 40)), .leave 0,
      .when 0 (.value 20) (noting 5 (some 50)), .copyChain 1 0, .finale 0, .rest 0 (noting 6 (some 60)), .finale 0, .finale 1]
      (start ([] : List Nat)) with
    | .ok (as, w) => (as == [some .unit, some .unit, some .unit, none, some .unit, some .unit, some .unit, some .unit, some .unit, some .unit,
        some (.val 40), some .unit, some (.val 60), some (.val 40)]) && w.env == [2, 4, 6]
    | _ => false) = true := by decide +kernel

/-- Non-vacuity of the specification: a program to which the history theorem applies. -/
example : Run intOps [.declare 0 7, .makeMatch 0 0, .first 0 0 (.value 1) (noting 1 (some 10)), .when 0 (.range 5 9) (noting 2 none),
      .rest 0 (noting 3 (some 30)), .finale 0, .finale 0] [] ([] : List Nat) .stopped :=
  .call (o := .stopped) (.declare rfl) <| .call (o := .stopped) (.makeMatch rfl rfl) <|
  .call (o := .stopped) (.first_not rfl rfl rfl (.value 1)) <|
  .call (o := .stopped) (.when_throws rfl rfl rfl (.above 5 9 rfl) rfl) <|
  .call (o := .stopped) (.rest_runs rfl rfl rfl) <| .call (o := .stopped) (.finale rfl rfl) <| .stops (.finale rfl rfl)

/-- Non-vacuity: a chain with a result, as asked for by `C118_result_kept`, `C118_decided_evaluates_nothing` and the `_fails`
theorems, and one without, as asked for by `C118_throw_decides_nothing`. -/
example : ∃ w : World Int Nat (List Nat), (∃ as, run intOps [.declare 0 7, .makeMatch 0 0, .first 0 0 (.value 7) (noting 1 (some 10)),
      .first 1 0 (.value 8) (noting 2 (some 20))] (start []) = .ok (as, w)) ∧ w.mid 0 = some (0, some 10) ∧ w.mid 1 = some (0, none) ∧
      w.mid 2 = none ∧ w.var 0 = .live 7 ∧ Fits intOps 7 (.range 7 8) (some true) ∧ noting 1 none w.env = (none, [1, 1]) :=
  ⟨_, ⟨_, rfl⟩, rfl, rfl, rfl, rfl, .above 7 8 rfl, rfl⟩

end Verif.Props
