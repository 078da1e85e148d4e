import Verif.Proof.TupleHist
import Mathlib.Data.List.Nodup
/-! # Property C117: programs over tuples, and what happens when a component throws -/
namespace Verif.Props
open Verif Verif.Model.TupHist Verif.Spec.TupH
open Verif.Proof.TupH (run_ok step_ok step_past step_stop)

variable {α : Type}

/-- C117 (partial).  For every component type, every program over variables and tuples of any length that catches the exceptions, and
every choice, for each call, of the copy, move or call of the client's function that throws in it: each call answers as the
specification says, an exception reaches the caller exactly where it says (`none`), afterwards all variables and all tuples have
the values it gives, for the calls after a caught exception too, and the program ends early exactly where it says.
Missing: what one would ask for, that an exception of a component always reaches the caller and that the call has then changed
nothing.  The code does not do that (`C117_construct_fails`, `C117_copy_fails`, `C117_assign_fails`, `C117_tie_fails`); for access to single components it does
(`C117_access_untouched`). -/
theorem C117_history_partial (mv : α → α) (dflt : α) (eq : α → α → Bool) (ops : List (Op α × Option Nat)) (w : World α)
    (o : Out (List (Option Ret) × World α)) (h : Run mv dflt eq ops w o) : run mv dflt eq ops w = o :=
  run_ok mv dflt eq ops w o h

/-- C117: the specification decides every call that compiles (and for `tie(...) = tie(...)` reads no variable it has written), so
the history theorem applies to every program of such calls: there is exactly one outcome, and it is never undefined. -/
theorem C117_decided (mv : α → α) (dflt : α) (eq : α → α → Bool) (x : Option Nat) (op : Op α) (w : World α) (ha : Allowed w op) :
    ∃ o, Call mv dflt eq x op w o ∧ (o = .panic ∨ ∃ r w', o = .ok (r, w')) ∧ ∀ o', Call mv dflt eq x op w o' → o' = o := by
  cases x with
  | none => exact ⟨_, ⟨ha, rfl⟩, .inr ⟨_, _, rfl⟩, fun o' h => h.2⟩
  | some n =>
    by_cases hn : n < parts w op
    · cases hf : fate w n op with
      | none =>
        refine ⟨.panic, ⟨ha, ?_⟩, .inl rfl, fun o' h => ?_⟩
        · simp [hn, hf]
        · have := h.2; simpa [hn, hf] using this
      | some w' =>
        refine ⟨.ok (none, w'), ⟨ha, ?_⟩, .inr ⟨_, _, rfl⟩, fun o' h => ?_⟩
        · simp [hn, hf]
        · have := h.2; simpa [hn, hf] using this
    · refine ⟨_, ⟨ha, ?_⟩, .inr ⟨some (answer eq w op), after mv dflt w op, rfl⟩, fun o' h => ?_⟩
      · simp [hn]
      · have := h.2; simpa [hn] using this

/-- The tuples a call names as its target or source, and the variables. -/
def tupsOf : Op α → List Nat
  | .construct i _ | .makeTuple i _ | .makePair i _ _ | .makeDefault i _ => [i]
  | .moveCtor i j | .moveAssign i j => [i, j]
  | .copyCtor i _ | .copyAssign i _ => [i]
  | .take _ i _ | .set i _ _ | .forEach i _ | .drop i => [i]
  | _ => []
def varsOf : Op α → List Nat
  | .assign y _ => [y]
  | .construct _ args => (args.filter (·.moved)).map (·.x)
  | .tie xs _ => xs
  | .tieTie ls => ls.map (·.1)
  | .get y _ _ | .take y _ _ | .first y _ | .second y _ => [y]
  | .set _ _ a => if a.moved then [a.x] else []
  | _ => []

theorem times_moves_other (mv : α → α) (args : List Arg) (n y : Nat) (v : α) (h : y ∉ (args.filter (·.moved)).map (·.x)) :
    times mv (moves args n y) v = v := by
  have : moves args n y = 0 := by
    simp only [moves, List.length_eq_zero_iff, List.filter_eq_nil_iff]
    intro a ha he
    simp only [Bool.and_eq_true, beq_iff_eq] at he
    exact h (List.mem_map.mpr ⟨a, List.mem_filter.mpr ⟨List.mem_of_mem_take ha, he.1⟩, he.2⟩)
  rw [this]; rfl

theorem received_other (m : Nat → α) (ys : List Nat) (vs : List α) (n y : Nat) (h : y ∉ ys) : received m ys vs n y = m y := by
  simp only [received]
  cases hl : lastAt ys n y with
  | none => rfl
  | some p => exact absurd (List.mem_of_getElem? (Proof.TupH.lastAt_lt hl).2) h

/-- C117: tuples and variables are independent.  A call, whether it returns or throws, leaves every tuple and every variable that it
is not documented to write as it was: a copy does not change its source, `make_tuple` and `make_pair` change none of their arguments. -/
theorem C117_frame (mv : α → α) (dflt : α) (eq : α → α → Bool) (x : Option Nat) (op : Op α) (w w' : World α) (r : Option Ret)
    (ha : Allowed w op) (h : step mv dflt eq x op w = .ok (r, w')) :
    (∀ i, i ∉ tupsOf op → w'.tup i = w.tup i) ∧ (∀ y, y ∉ varsOf op → w'.var y = w.var y) := by
  have hA : (∀ i, i ∉ tupsOf op → (after mv dflt w op).tup i = w.tup i) ∧
      (∀ y, y ∉ varsOf op → (after mv dflt w op).var y = w.var y) := by
    constructor
    · intro i hi
      cases op <;> simp [tupsOf] at hi <;> simp [after, World.withTup, World.withVar, *] <;> (try split) <;> simp [*]
    · intro y hy
      cases op with
      | construct i args => exact times_moves_other mv args _ y _ hy
      | tie xs j => exact received_other _ _ _ _ _ hy
      | tieTie ls => exact received_other _ _ _ _ _ hy
      | moveAssign i j => simp only [after]; split <;> rfl
      | set i p a =>
        by_cases hm : a.moved
        · simp [varsOf, hm] at hy; simp [after, World.withTup, World.withVar, hm, hy]
        · simp [after, World.withTup, hm]
      | _ => simp [varsOf] at hy <;> simp [after, World.withTup, World.withVar, *]
  have hF : ∀ n w'', fate w n op = some w'' → (∀ i, i ∉ tupsOf op → w''.tup i = w.tup i) ∧
      (∀ y, y ∉ varsOf op → w''.var y = w.var y) := by
    intro n w'' hf
    cases op with
    | tie xs j => simp only [fate, Option.some.injEq] at hf; subst hf; exact ⟨fun _ _ => rfl, fun y hy => received_other _ _ _ _ _ hy⟩
    | tieTie ls => simp only [fate, Option.some.injEq] at hf; subst hf; exact ⟨fun _ _ => rfl, fun y hy => received_other _ _ _ _ _ hy⟩
    | forEach i f =>
      simp only [fate, Option.some.injEq] at hf; subst hf
      exact ⟨fun k hk => by simp [tupsOf] at hk; simp [World.withTup, hk], fun _ _ => rfl⟩
    | _ => simp [fate] at hf <;> (subst hf; exact ⟨fun _ _ => rfl, fun _ _ => rfl⟩)
  cases x with
  | none =>
    rw [step_past mv dflt eq none op w ha (by intro m hm; simp at hm)] at h
    simp only [Out.ok.injEq, Prod.mk.injEq] at h
    rw [← h.2]; exact hA
  | some n =>
    by_cases hn : n < parts w op
    · rw [step_stop mv dflt eq n op w ha hn] at h
      cases hf : fate w n op with
      | none => rw [hf] at h; simp at h
      | some w'' =>
        rw [hf] at h
        simp only [Out.ok.injEq, Prod.mk.injEq] at h
        rw [← h.2]; exact hF n w'' hf
    · rw [step_past mv dflt eq (some n) op w ha (by intro m hm; cases hm; omega)] at h
      simp only [Out.ok.injEq, Prod.mk.injEq] at h
      rw [← h.2]; exact hA

/-- C117: access to one component (`get`, `first`, `second`, by copy or move, in either direction): if the copy or move throws, the
exception reaches the caller and nothing has changed. -/
theorem C117_access_untouched (mv : α → α) (dflt : α) (eq : α → α → Bool) (w : World α) (i p y : Nat) (a : Arg) (t : List α)
    (hi : w.tup i = some t) (hp : p < t.length) :
    step mv dflt eq (some 0) (.get y i p) w = .ok (none, w) ∧ step mv dflt eq (some 0) (.take y i p) w = .ok (none, w) ∧
    step mv dflt eq (some 0) (.set i p a) w = .ok (none, w) ∧
    (t.length = 2 → step mv dflt eq (some 0) (.first y i) w = .ok (none, w) ∧
      step mv dflt eq (some 0) (.second y i) w = .ok (none, w)) := by
  have ha : ∃ n, Has w i n ∧ p < n := ⟨_, ⟨t, hi, rfl⟩, hp⟩
  refine ⟨step_stop mv dflt eq 0 _ w ha (by simp [parts]), step_stop mv dflt eq 0 _ w ha (by simp [parts]),
    step_stop mv dflt eq 0 _ w ha (by simp [parts]), fun h2 => ?_⟩
  exact ⟨step_stop mv dflt eq 0 _ w ⟨t, hi, h2⟩ (by simp [parts]), step_stop mv dflt eq 0 _ w ⟨t, hi, h2⟩ (by simp [parts])⟩

/-- C117 is false for construction from arguments, `make_tuple` and `make_pair`: if copying or moving any argument throws, the program ends. -/
theorem C117_construct_fails (mv : α → α) (dflt : α) (eq : α → α → Bool) (w : World α) (i : Nat) (hi : w.tup i = none)
    (args : List Arg) (n : Nat) (hn : n < args.length) (a b : Arg) (m : Nat) (hm : m < 2) :
    step mv dflt eq (some n) (.construct i args) w = .panic ∧ step mv dflt eq (some n) (.makeTuple i args) w = .panic ∧
    step mv dflt eq (some m) (.makePair i a b) w = .panic :=
  ⟨step_stop mv dflt eq n _ w hi hn, step_stop mv dflt eq n _ w hi hn, step_stop mv dflt eq m _ w hi hm⟩

/-- C117 is false for copying and moving into a new tuple: if any component throws, the program ends. -/
theorem C117_copy_fails (mv : α → α) (dflt : α) (eq : α → α → Bool) (w : World α) (i j : Nat) (hi : w.tup i = none) (t : List α)
    (hj : w.tup j = some t) (n : Nat) (hn : n < t.length) :
    step mv dflt eq (some n) (.copyCtor i j) w = .panic ∧ step mv dflt eq (some n) (.moveCtor i j) w = .panic :=
  ⟨step_stop mv dflt eq n _ w ⟨hi, _, t, hj, rfl⟩ (by simpa [parts, comps, hj] using hn),
    step_stop mv dflt eq n _ w ⟨hi, _, t, hj, rfl⟩ (by simpa [parts, comps, hj] using hn)⟩

/-- C117 is false for assignment between different tuples: if any component throws, the program ends. -/
theorem C117_assign_fails (mv : α → α) (dflt : α) (eq : α → α → Bool) (w : World α) (i j : Nat) (hij : i ≠ j) (s t : List α)
    (hi : w.tup i = some s) (hj : w.tup j = some t) (hl : s.length = t.length) (n : Nat) (hn : n < t.length) :
    step mv dflt eq (some n) (.copyAssign i j) w = .panic ∧ step mv dflt eq (some n) (.moveAssign i j) w = .panic :=
  ⟨step_stop mv dflt eq n _ w ⟨_, ⟨s, hi, hl⟩, t, hj, rfl⟩ (by simpa [parts, comps, hj, hij] using hn),
    step_stop mv dflt eq n _ w ⟨_, ⟨s, hi, hl⟩, t, hj, rfl⟩ (by simpa [parts, comps, hj, hij] using hn)⟩

/-- C117: assigning a tuple to itself, by copy or by move, changes nothing, whatever its components' assignments would do. -/
theorem C117_self_assign (mv : α → α) (dflt : α) (eq : α → α → Bool) (w : World α) (i : Nat) (t : List α) (hi : w.tup i = some t)
    (x : Option Nat) :
    step mv dflt eq x (.copyAssign i i) w = .ok (some .unit, w) ∧ step mv dflt eq x (.moveAssign i i) w = .ok (some .unit, w) := by
  constructor <;> simp [step, Prog.bind_run, Prog.pure_run, getTup, hi]

/-- C117 is false for `tie(x0, x1, ...) = t`: if the copy of component `n` throws, the exception reaches the caller, but the variables
before it have their new values and the others their old ones (for distinct variables). -/
theorem C117_tie_fails (mv : α → α) (dflt : α) (eq : α → α → Bool) (w : World α) (xs : List Nat) (hnd : xs.Nodup) (j : Nat)
    (t : List α) (hj : w.tup j = some t) (hl : t.length = xs.length) (n : Nat) (hn : n < t.length) :
    ∃ w', step mv dflt eq (some n) (.tie xs j) w = .ok (none, w') ∧ w'.tup = w.tup ∧
      ∀ p (h : p < xs.length), w'.var xs[p] = if p < n then t[p]'(by omega) else w.var xs[p] := by
  refine ⟨{ w with var := received w.var xs t n }, ?_, rfl, fun p h => ?_⟩
  · rw [step_stop mv dflt eq n (.tie xs j) w ⟨t, hj, hl⟩ (by simpa [parts, comps, hj] using hn)]
    simp [fate, comps, hj]
  · simp only [received]
    cases hla : lastAt xs n xs[p] with
    | none =>
      have : ¬ p < n := by
        intro hpn
        simp only [lastAt, List.find?_eq_none, List.mem_reverse, List.mem_range] at hla
        exact hla p hpn (by simp [h])
      simp [this]
    | some q =>
      obtain ⟨h1, h2⟩ := Proof.TupH.lastAt_lt hla
      obtain ⟨hq, h2⟩ := List.getElem?_eq_some_iff.mp h2
      have : q = p := (List.Nodup.getElem_inj_iff hnd).mp h2
      subst this
      simp [h1, List.getElem?_eq_getElem (show q < t.length by omega)]

/-- C117: `for_each` with a function whose call number `n` throws: the exception reaches the caller; the components before `n` have been
visited, the others not. -/
theorem C117_for_each_throw (mv : α → α) (dflt : α) (eq : α → α → Bool) (w : World α) (i : Nat) (t : List α) (hi : w.tup i = some t)
    (f : α → α) (n : Nat) (hn : n < t.length) :
    ∃ w', step mv dflt eq (some n) (.forEach i f) w = .ok (none, w') ∧ w'.tup i = some ((t.take n).map f ++ t.drop n) := by
  refine ⟨_, step_stop mv dflt eq n (.forEach i f) w ⟨_, t, hi, rfl⟩ (by simpa [parts, comps, hi] using hn), ?_⟩
  simp [World.withTup, comps, hi]

/-- C117: `make_tuple(std::move(x), ...)` copies: all arguments keep their values, `std::move` or not, while the constructor moves from
those that are passed with `std::move`. -/
theorem C117_make_copies (mv : α → α) (dflt : α) (eq : α → α → Bool) (w : World α) (i : Nat) (hi : w.tup i = none) (args : List Arg) :
    (∃ w', step mv dflt eq none (.makeTuple i args) w = .ok (some .unit, w') ∧ w'.var = w.var ∧
      w'.tup i = some (args.map fun a => w.var a.x)) ∧
    ((args.map (·.x)).Nodup →
      ∃ w', step mv dflt eq none (.construct i args) w = .ok (some .unit, w') ∧ w'.tup i = some (args.map fun a => w.var a.x) ∧
        (∀ a ∈ args, w'.var a.x = if a.moved then mv (w.var a.x) else w.var a.x)) := by
  have hp : ∀ n, Proof.TupH.Past none n := by intro n m hm; simp at hm
  refine ⟨⟨_, step_past mv dflt eq none _ w hi (hp _), rfl, by simp [after, World.withTup]⟩, fun hnd => ?_⟩
  refine ⟨_, step_past mv dflt eq none _ w hi (hp _), ?_, ?_⟩
  · have key : ∀ p (h : p < args.length), argValue mv w.var args p args[p] = w.var (args[p]).x := by
      intro p h
      have : moves args p (args[p]).x = 0 := by
        simp only [moves, List.length_eq_zero_iff, List.filter_eq_nil_iff]
        intro a ha he
        simp only [Bool.and_eq_true, beq_iff_eq] at he
        obtain ⟨q, hq, rfl⟩ := List.getElem_of_mem ha
        simp only [List.length_take] at hq
        simp only [List.getElem_take] at he
        have : q = p := (List.Nodup.getElem_inj_iff hnd (i := q) (j := p) (hi := by simp; omega) (hj := by simpa using h)).mp
          (by simpa using he.2)
        omega
      simp [argValue, this, times]
    simp only [after, World.withTup, if_true, Option.some.injEq]
    apply List.ext_getElem
    · simp
    · intro p h1 h2
      simp only [List.length_mapIdx] at h1
      simp [key p h1]
  · intro a ha
    have one : ∀ (as : List Arg), (as.map (·.x)).Nodup → ∀ b ∈ as, (as.filter fun c => c.moved && c.x == b.x).length = if b.moved then 1 else 0 := by
      intro as
      induction as with
      | nil => intro _ b hb; simp at hb
      | cons c as ih =>
        intro hn b hb
        simp only [List.map_cons, List.nodup_cons] at hn
        rcases List.mem_cons.mp hb with rfl | hb
        · have : as.filter (fun c => c.moved && c.x == b.x) = [] := by
            rw [List.filter_eq_nil_iff]
            intro c hc he
            simp only [Bool.and_eq_true, beq_iff_eq] at he
            exact hn.1 (List.mem_map.mpr ⟨c, hc, he.2⟩)
          by_cases hm : b.moved <;> simp [List.filter_cons, hm, this] <;> simpa [hm] using this
        · have hne : c.x ≠ b.x := fun he => hn.1 (List.mem_map.mpr ⟨b, hb, he.symm⟩)
          simp [List.filter_cons, hne, ih hn.2 b hb]
    simp only [after, World.withTup, moves, List.take_length, one args hnd a ha]
    by_cases hm : a.moved <;> simp [hm, times]

/-! ### The hypotheses are met: a program over three tuples, with two exceptions -/

private def w0 : World Nat := ⟨fun y => 10 * y, fun _ => none⟩

/-- `t0(x1, std::move(x1), x2)`, `t1(t0)`, `tie(x5, x6, x7) = t1` whose second copy throws, `t1 = t1`, `get<0>(t1) = std::move(x2)`:
a moved-from value is 0. -/
example : ∃ rs w, Run (fun _ => 0) 7 (fun a b => a == b)
    [(.construct 0 [⟨1, true⟩, ⟨1, false⟩, ⟨2, false⟩], none), (.copyCtor 1 0, some 3), (.tie [5, 6, 7] 1, some 1),
      (.moveAssign 1 1, some 0), (.set 1 0 ⟨2, true⟩, none), (.equal 0 1, none)] w0
    (.ok (rs, w)) ∧ rs = [some .unit, some .unit, none, some .unit, some .unit, some (.bool false)] ∧
    w.tup 0 = some [10, 0, 20] ∧ w.tup 1 = some [20, 0, 20] ∧ w.var 1 = 0 ∧ w.var 2 = 0 ∧ w.var 5 = 10 ∧ w.var 6 = 60 := by
  exact ⟨_, _, .inr ⟨_, _, ⟨rfl, rfl⟩, .inl ⟨_, _,
    .inr ⟨_, _, ⟨⟨rfl, 3, _, rfl, rfl⟩, rfl⟩, .inl ⟨_, _,
    .inr ⟨_, _, ⟨⟨_, rfl, rfl⟩, rfl⟩, .inl ⟨_, _,
    .inr ⟨_, _, ⟨⟨3, ⟨_, rfl, rfl⟩, _, rfl, rfl⟩, rfl⟩, .inl ⟨_, _,
    .inr ⟨_, _, ⟨⟨3, ⟨_, rfl, rfl⟩, by decide⟩, rfl⟩, .inl ⟨_, _,
    .inr ⟨_, _, ⟨⟨3, ⟨_, rfl, rfl⟩, _, rfl, rfl⟩, rfl⟩, .inl ⟨_, _, rfl, rfl⟩⟩, rfl⟩⟩, rfl⟩⟩, rfl⟩⟩, rfl⟩⟩, rfl⟩⟩, by decide +kernel⟩

/-- and it is what the model does -/
example : (match run (fun _ => 0) 7 (fun a b => a == b)
    [(.construct 0 [⟨1, true⟩, ⟨1, false⟩, ⟨2, false⟩], none), (.copyCtor 1 0, some 3), (.tie [5, 6, 7] 1, some 1),
      (.moveAssign 1 1, some 0), (.set 1 0 ⟨2, true⟩, none), (.equal 0 1, none)] w0 with
    | .ok (rs, w) => rs == [some .unit, some .unit, none, some .unit, some .unit, some (.bool false)] && w.tup 1 == some [20, 0, 20] &&
        w.var 5 == 10 && w.var 6 == 60
    | _ => false) = true := by decide +kernel

/-- a copy of a tuple whose second component throws ends the program -/
example : Run (fun _ => 0) 7 (fun a b => a == b) [(.makeTuple 0 [⟨1, true⟩, ⟨2, false⟩], none), (.copyCtor 1 0, some 1)] w0 .panic := by
  refine .inr ⟨_, _, ⟨rfl, rfl⟩, .inr ⟨.inl ⟨⟨⟨rfl, 2, _, rfl, rfl⟩, rfl⟩, rfl⟩, rfl⟩⟩

end Verif.Props
