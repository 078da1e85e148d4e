import Verif.Spec.TupleHist
/-! # Proofs about programs over tuples (Model/TupleHist, Spec/TupleHist) -/
namespace Verif.Proof.TupH
open Verif Verif.Model.TupHist Verif.Spec.TupH

variable {α : Type}

/-- None of the first `n` copies and moves throws. -/
def Past (x : Option Nat) (n : Nat) : Prop := ∀ m, x = some m → n ≤ m

theorem Past.now {x : Option Nat} {n : Nat} (h : Past x (n + 1)) : throwsNow x = false := by
  cases x with
  | none => rfl
  | some m => have := h m rfl; cases m with
    | zero => omega
    | succ m => rfl

theorem Past.later {x : Option Nat} {n : Nat} (h : Past x (n + 1)) : Past (later x) n := by
  cases x with
  | none => intro m hm; simp [Model.TupHist.later] at hm
  | some k => intro m hm; simp [Model.TupHist.later] at hm; have := h k rfl; omega

theorem later_succ (m : Nat) : later (some (m + 1)) = some m := rfl
theorem now_zero : throwsNow (some 0) = true := rfl
theorem now_succ (m : Nat) : throwsNow (some (m + 1)) = false := rfl

theorem times_moves (mv : α → α) (m : Nat → α) (a : Arg) (as : List Arg) (p y : Nat) :
    times mv (moves (a :: as) (p + 1) y) (m y) = times mv (moves as p y) (taken mv m a y) := by
  simp only [moves, List.take_succ_cons, List.filter_cons, taken]
  by_cases hm : a.moved
  · by_cases hy : a.x = y
    · subst hy; simp [hm, store, times]
    · simp [hm, hy, store, Ne.symm hy]
  · simp [hm]

theorem build_past (mv : α → α) (args : List Arg) : ∀ (x : Option Nat) (m : Nat → α), Past x args.length →
    build mv args x m =
      .ok (args.mapIdx (fun p a => argValue mv m args p a), fun y => times mv (moves args args.length y) (m y)) := by
  induction args with
  | nil => intro x m _; simp [build, moves, times]
  | cons a as ih =>
    intro x m h
    simp only [build, h.now, ih _ _ h.later, List.mapIdx_cons, argValue, List.length_cons, times_moves]
    simp [moves, times]

theorem build_stop (mv : α → α) (args : List Arg) : ∀ (n : Nat) (m : Nat → α), n < args.length →
    build mv args (some n) m = .panic := by
  induction args with
  | nil => intro n m h; simp at h
  | cons a as ih =>
    intro n m h
    cases n with
    | zero => rfl
    | succ n => simp only [build, now_succ, later_succ, ih n _ (by simpa using h)]; rfl

theorem moves_none (args : List Arg) (n y : Nat) :
    moves (args.map fun a => { a with moved := false }) n y = 0 := by
  simp [moves, ← List.map_take, List.filter_map]

theorem makeTuple_past (mv : α → α) (args : List Arg) (x : Option Nat) (m : Nat → α) (h : Past x args.length) :
    Model.TupHist.makeTuple mv args x m = .ok (args.map (fun a => m a.x), m) := by
  rw [Model.TupHist.makeTuple, build_past _ _ _ _ (by simpa using h)]
  simp only [moves_none, times, argValue]
  congr 2
  apply List.ext_getElem <;> simp

theorem makeTuple_stop (mv : α → α) (args : List Arg) (n : Nat) (m : Nat → α) (h : n < args.length) :
    Model.TupHist.makeTuple mv args (some n) m = .panic := by
  rw [Model.TupHist.makeTuple, build_stop _ _ _ _ (by simpa using h)]

theorem makeDefault_past (d : α) : ∀ (n : Nat) (x : Option Nat), Past x n →
    Model.TupHist.makeDefault d n x = .ok (List.replicate n d) := by
  intro n
  induction n with
  | zero => intros; rfl
  | succ n ih => intro x h; simp [Model.TupHist.makeDefault, h.now, ih _ h.later, List.replicate_succ]

theorem makeDefault_stop (d : α) : ∀ (n k : Nat), k < n → Model.TupHist.makeDefault d n (some k) = .panic := by
  intro n
  induction n with
  | zero => intro k h; omega
  | succ n ih =>
    intro k h
    cases k with
    | zero => rfl
    | succ k => simp [Model.TupHist.makeDefault, now_succ, later_succ, ih k (by omega)]

theorem copyAll_past : ∀ (t : List α) (x : Option Nat), Past x t.length → copyAll t x = .ok t := by
  intro t
  induction t with
  | nil => intros; rfl
  | cons f r ih => intro x h; simp [copyAll, Past.now h, ih _ (Past.later h)]

theorem copyAll_stop : ∀ (t : List α) (k : Nat), k < t.length → copyAll t (some k) = .panic := by
  intro t
  induction t with
  | nil => intro k h; simp at h
  | cons f r ih =>
    intro k h
    cases k with
    | zero => rfl
    | succ k => simp [copyAll, now_succ, later_succ, ih k (by simpa using h)]

theorem moveAll_past (mv : α → α) : ∀ (t : List α) (x : Option Nat), Past x t.length →
    moveAll mv t x = .ok (t, t.map mv) := by
  intro t
  induction t with
  | nil => intros; rfl
  | cons f r ih => intro x h; simp [moveAll, Past.now h, ih _ (Past.later h)]

theorem moveAll_stop (mv : α → α) : ∀ (t : List α) (k : Nat), k < t.length → moveAll mv t (some k) = .panic := by
  intro t
  induction t with
  | nil => intro k h; simp at h
  | cons f r ih =>
    intro k h
    cases k with
    | zero => rfl
    | succ k => simp [moveAll, now_succ, later_succ, ih k (by simpa using h)]

theorem assignAll_past : ∀ (t s : List α) (x : Option Nat), t.length = s.length → Past x s.length → assignAll t s x = .ok s := by
  intro t
  induction t with
  | nil => intro s x h _; cases s with
    | nil => rfl
    | cons => simp at h
  | cons f r ih => intro s x hl h; cases s with
    | nil => simp at hl
    | cons g s => simp [assignAll, Past.now h, ih s _ (by simpa using hl) (Past.later h)]

theorem assignAll_stop : ∀ (t s : List α) (k : Nat), t.length = s.length → k < s.length → assignAll t s (some k) = .panic := by
  intro t
  induction t with
  | nil => intro s k h hk; cases s with
    | nil => simp at hk
    | cons => simp at h
  | cons f r ih => intro s k hl h; cases s with
    | nil => simp at hl
    | cons g s =>
      cases k with
      | zero => rfl
      | succ k => simp [assignAll, now_succ, later_succ, ih s k (by simpa using hl) (by simpa using h)]

theorem moveAssignAll_past (mv : α → α) : ∀ (t s : List α) (x : Option Nat), t.length = s.length → Past x s.length →
    moveAssignAll mv t s x = .ok (s, s.map mv) := by
  intro t
  induction t with
  | nil => intro s x h _; cases s with
    | nil => rfl
    | cons => simp at h
  | cons f r ih => intro s x hl h; cases s with
    | nil => simp at hl
    | cons g s => simp [moveAssignAll, Past.now h, ih s _ (by simpa using hl) (Past.later h)]

theorem moveAssignAll_stop (mv : α → α) : ∀ (t s : List α) (k : Nat), t.length = s.length → k < s.length →
    moveAssignAll mv t s (some k) = .panic := by
  intro t
  induction t with
  | nil => intro s k h hk; cases s with
    | nil => simp at hk
    | cons => simp at h
  | cons f r ih => intro s k hl h; cases s with
    | nil => simp at hl
    | cons g s =>
      cases k with
      | zero => rfl
      | succ k => simp [moveAssignAll, now_succ, later_succ, ih s k (by simpa using hl) (by simpa using h)]

theorem lastAt_cons (y : Nat) (ys : List Nat) (n z : Nat) :
    lastAt (y :: ys) (n + 1) z = match lastAt ys n z with
      | some p => some (p + 1)
      | none => if y = z then some 0 else none := by
  have e : List.range (n + 1) = 0 :: (List.range n).map Nat.succ := List.range_succ_eq_map
  simp only [lastAt, e, List.reverse_cons, List.find?_append, ← List.map_reverse, List.find?_map]
  have e2 : ((fun p => (y :: ys)[p]? == some z) ∘ Nat.succ) = fun p => ys[p]? == some z := by
    funext p; simp
  rw [e2]
  cases h : List.find? (fun p => ys[p]? == some z) (List.range n).reverse with
  | some p => simp
  | none => by_cases hz : y = z <;> simp [hz]

theorem lastAt_lt {ys : List Nat} {n z p : Nat} (h : lastAt ys n z = some p) : p < n ∧ ys[p]? = some z := by
  have h1 := List.find?_some h
  have h2 := List.mem_of_find?_eq_some h
  exact ⟨by simpa using h2, by simpa using h1⟩

theorem received_cons (m : Nat → α) (y : Nat) (ys : List Nat) (g : α) (vs : List α) (n : Nat) (hn : n ≤ vs.length) :
    received m (y :: ys) (g :: vs) (n + 1) = received (store m y g) ys vs n := by
  funext z
  simp only [received, lastAt_cons]
  cases h : lastAt ys n z with
  | some p =>
    have := (lastAt_lt h).1
    have hp : p < vs.length := by omega
    simp [List.getElem?_eq_getElem hp]
  | none =>
    by_cases hz : y = z
    · simp [hz, store]
    · simp [hz, store, Ne.symm hz]

theorem received_zero (m : Nat → α) (ys : List Nat) (vs : List α) : received m ys vs 0 = m := by
  funext z; simp [received, lastAt]

theorem tieLoop_past : ∀ (ys : List Nat) (vs : List α) (x : Option Nat) (m : Nat → α), vs.length = ys.length → Past x vs.length →
    tieLoop ys vs x m = .ok (false, received m ys vs ys.length) := by
  intro ys
  induction ys with
  | nil => intro vs x m hl _; cases vs with
    | nil => simp [tieLoop, received_zero]
    | cons => simp at hl
  | cons y ys ih => intro vs x m hl h; cases vs with
    | nil => simp at hl
    | cons g vs =>
      have hl : vs.length = ys.length := by simpa using hl
      simp only [tieLoop, Past.now h, List.length_cons, received_cons m y ys g vs ys.length (by omega)]
      simpa using ih vs _ (store m y g) hl (Past.later h)

theorem tieLoop_stop : ∀ (ys : List Nat) (vs : List α) (n : Nat) (m : Nat → α), vs.length = ys.length → n < vs.length →
    tieLoop ys vs (some n) m = .ok (true, received m ys vs n) := by
  intro ys
  induction ys with
  | nil => intro vs n m hl hn; simp at hl; simp [hl] at hn
  | cons y ys ih => intro vs n m hl h; cases vs with
    | nil => simp at hl
    | cons g vs =>
      have hl : vs.length = ys.length := by simpa using hl
      cases n with
      | zero => simp [tieLoop, now_zero, received_zero]
      | succ n =>
        have h : n < vs.length := by simpa using h
        simp only [tieLoop, now_succ, later_succ, received_cons m y ys g vs n (by omega)]
        simpa using ih vs n (store m y g) hl h

/-- No variable is read after it has been written. -/
def Ordered (ls : List (Nat × Nat)) : Prop := ∀ p q (hp : p < q) (hq : q < ls.length), (ls[p]).1 ≠ (ls[q]).2

theorem ordered_cons {l : Nat × Nat} {ls : List (Nat × Nat)} (h : Ordered (l :: ls)) :
    Ordered ls ∧ ∀ k ∈ ls, k.2 ≠ l.1 := by
  constructor
  · intro p q hp hq
    have := h (p + 1) (q + 1) (by omega) (by simpa using hq)
    simpa using this
  · intro k hk
    obtain ⟨q, hq, rfl⟩ := List.getElem_of_mem hk
    have := h 0 (q + 1) (by omega) (by simpa using hq)
    simpa using this.symm

theorem map_store (m : Nat → α) (y : Nat) (g : α) (ls : List (Nat × Nat)) (h : ∀ k ∈ ls, k.2 ≠ y) :
    ls.map (fun l => store m y g l.2) = ls.map (fun l => m l.2) := by
  apply List.map_congr_left
  intro k hk
  simp [store, h k hk]

theorem tieTie_past : ∀ (ls : List (Nat × Nat)) (x : Option Nat) (m : Nat → α), Ordered ls → Past x ls.length →
    tieTieLoop ls x m = (false, received m (ls.map (·.1)) (ls.map fun l => m l.2) ls.length) := by
  intro ls
  induction ls with
  | nil => intro x m _ _; simp [tieTieLoop, received_zero]
  | cons l ls ih =>
    intro x m ho h
    obtain ⟨y, z⟩ := l
    obtain ⟨ho, hd⟩ := ordered_cons ho
    have := ih (later x) (store m y (m z)) ho (Past.later h)
    rw [map_store m y (m z) ls hd] at this
    simp only [tieTieLoop, Past.now h, List.map_cons, List.length_cons]
    rw [received_cons _ _ _ _ _ _ (by simp)]
    simpa using this

theorem tieTie_stop : ∀ (ls : List (Nat × Nat)) (n : Nat) (m : Nat → α), Ordered ls → n < ls.length →
    tieTieLoop ls (some n) m = (true, received m (ls.map (·.1)) (ls.map fun l => m l.2) n) := by
  intro ls
  induction ls with
  | nil => intro n m _ h; simp at h
  | cons l ls ih =>
    intro n m ho h
    obtain ⟨y, z⟩ := l
    obtain ⟨ho, hd⟩ := ordered_cons ho
    cases n with
    | zero => simp [tieTieLoop, now_zero, received_zero]
    | succ n =>
      have h : n < ls.length := by simpa using h
      have := ih n (store m y (m z)) ho h
      rw [map_store m y (m z) ls hd] at this
      simp only [tieTieLoop, now_succ, later_succ, List.map_cons]
      rw [received_cons _ _ _ _ _ _ (by simp; omega)]
      simpa using this

theorem component_ok : ∀ (t : List α) (p : Nat) (h : p < t.length), component t p = .ok t[p] := by
  intro t
  induction t with
  | nil => intro p h; simp at h
  | cons f r ih => intro p h; cases p with
    | zero => rfl
    | succ p => simpa [component] using ih p (by simpa using h)

theorem storeAt_eq : ∀ (t : List α) (p : Nat) (v : α), storeAt t p v = t.set p v := by
  intro t
  induction t with
  | nil => intros; rfl
  | cons f r ih => intro p v; cases p with
    | zero => rfl
    | succ p => simp [storeAt, ih]

theorem equal_ok (eq : α → α → Bool) : ∀ (t s : List α), t.length = s.length →
    Model.TupHist.equal eq t s = .ok ((List.range t.length).all fun p =>
      match t[p]?, s[p]? with
      | some a, some b => eq a b
      | _, _ => false) := by
  intro t
  induction t with
  | nil => intro s h; cases s with
    | nil => rfl
    | cons => simp at h
  | cons f r ih => intro s h; cases s with
    | nil => simp at h
    | cons g s =>
      have h : r.length = s.length := by simpa using h
      have e : List.range (r.length + 1) = 0 :: (List.range r.length).map Nat.succ := List.range_succ_eq_map
      simp only [Model.TupHist.equal, ih s h, List.length_cons, e, List.all_cons, List.all_map]
      by_cases hfg : eq f g
      · simp [hfg, Function.comp_def]
      · simp [hfg]

theorem forEach_past (f : α → α) : ∀ (t : List α) (x : Option Nat), Past x t.length → forEachLoop f t x = (false, t.map f) := by
  intro t
  induction t with
  | nil => intros; rfl
  | cons g r ih => intro x h; simp [forEachLoop, Past.now h, ih _ (Past.later h)]

theorem forEach_stop (f : α → α) : ∀ (t : List α) (n : Nat), n < t.length →
    forEachLoop f t (some n) = (true, (t.take n).map f ++ t.drop n) := by
  intro t
  induction t with
  | nil => intro n h; simp at h
  | cons g r ih => intro n h; cases n with
    | zero => simp [forEachLoop, now_zero]
    | succ n => simp [forEachLoop, now_succ, later_succ, ih n (by simpa using h)]

theorem getTup_run {w : World α} {i : Nat} {t : List α} (h : w.tup i = some t) : getTup i w = .ok (t, w) := by
  simp [getTup, h]
theorem fresh_run {w : World α} {i : Nat} (h : w.tup i = none) : fresh i w = .ok ((), w) := by simp [fresh, h]
theorem setTup_run (w : World α) (i : Nat) (t : Option (List α)) : setTup i t w = .ok ((), World.withTup w i t) := rfl
theorem vars_run (w : World α) : vars w = .ok (w.var, w) := rfl
theorem setVars_run (w : World α) (m : Nat → α) : setVars m w = .ok ((), { w with var := m }) := rfl
theorem lift_run {β : Type} (w : World α) (b : β) : lift (.ok b) w = .ok (b, w) := rfl
theorem lift_panic {β : Type} (w : World α) : lift (.panic : Out β) w = .panic := rfl

/-- Nothing throws. -/
theorem step_past (mv : α → α) (dflt : α) (eq : α → α → Bool) (x : Option Nat) (op : Op α) (w : World α) (ha : Allowed w op)
    (hx : Past x (parts w op)) : step mv dflt eq x op w = .ok (some (answer eq w op), after mv dflt w op) := by
  cases op with
  | assign y v => rfl
  | construct i args =>
    simp only [parts] at hx
    simp only [step, Prog.bind_run, fresh_run ha, vars_run, Out.bind_ok, build_past mv args x w.var hx, lift_run, setVars_run, setTup_run]
    rfl
  | makeTuple i args =>
    simp only [parts] at hx
    simp only [step, Prog.bind_run, fresh_run ha, vars_run, Out.bind_ok, makeTuple_past mv args x w.var hx, lift_run, setVars_run, setTup_run]
    rfl
  | makePair i a b =>
    simp only [parts] at hx
    simp only [step, Prog.bind_run, fresh_run ha, vars_run, Out.bind_ok, makeTuple_past mv [a, b] x w.var hx, lift_run, setVars_run, setTup_run]
    rfl
  | makeDefault i n =>
    simp only [parts] at hx
    simp only [step, Prog.bind_run, fresh_run ha, Out.bind_ok, makeDefault_past dflt n x hx, lift_run, setTup_run]
    rfl
  | copyCtor i j =>
    obtain ⟨hi, n, s, hj, hn⟩ := ha
    simp only [parts, comps, hj, Option.getD_some] at hx
    simp only [step, Prog.bind_run, fresh_run hi, getTup_run hj, Out.bind_ok, copyAll_past s x hx, lift_run, setTup_run]
    simp [answer, after, comps, hj, Prog.pure_run]
  | moveCtor i j =>
    obtain ⟨hi, n, s, hj, hn⟩ := ha
    simp only [parts, comps, hj, Option.getD_some] at hx
    simp only [step, Prog.bind_run, fresh_run hi, getTup_run hj, Out.bind_ok, moveAll_past mv s x hx, lift_run, setTup_run]
    simp [answer, after, comps, hj, Prog.pure_run]
  | copyAssign i j =>
    obtain ⟨n, ⟨t, hi, ht⟩, s, hj, hs⟩ := ha
    by_cases hij : i = j
    · subst hij
      have e : World.withTup w i (w.tup i) = w := by
        cases w; simp only [World.withTup]; congr 1; funext k; by_cases hk : k = i <;> simp [hk]
      simp only [step, Prog.bind_run, getTup_run hj, Out.bind_ok, if_true]
      simp only [answer, after, comps, hj, Option.getD_some, Prog.pure_run]
      rw [← hj, e]
    · simp only [parts, comps, hj, Option.getD_some, if_neg hij] at hx
      simp only [step, Prog.bind_run, getTup_run hi, getTup_run hj, Out.bind_ok, if_neg hij,
        assignAll_past t s x (by omega) hx, lift_run, setTup_run]
      simp [answer, after, comps, hj, Prog.pure_run]
  | moveAssign i j =>
    obtain ⟨n, ⟨t, hi, ht⟩, s, hj, hs⟩ := ha
    by_cases hij : i = j
    · subst hij
      simp only [step, Prog.bind_run, getTup_run hj, Out.bind_ok, if_true]
      simp [answer, after, Prog.pure_run]
    · simp only [parts, comps, hj, Option.getD_some, if_neg hij] at hx
      simp only [step, Prog.bind_run, getTup_run hi, getTup_run hj, Out.bind_ok, if_neg hij,
        moveAssignAll_past mv t s x (by omega) hx, lift_run, setTup_run]
      simp [answer, after, comps, hj, hij, Prog.pure_run]
  | tie xs j =>
    obtain ⟨s, hj, hs⟩ := ha
    simp only [parts, comps, hj, Option.getD_some] at hx
    simp only [step, Prog.bind_run, getTup_run hj, Out.bind_ok, vars_run, tieLoop_past xs s x w.var hs hx, lift_run, setVars_run]
    simp [answer, after, comps, hj, Prog.pure_run]
  | tieTie ls =>
    simp only [parts] at hx
    simp only [step, Prog.bind_run, Out.bind_ok, vars_run, tieTie_past ls x w.var ha hx, setVars_run]
    simp [answer, after, Prog.pure_run]
  | get y i p =>
    obtain ⟨n, ⟨t, hi, ht⟩, hp⟩ := ha
    have hp : p < t.length := by omega
    simp only [step, copyOut, Prog.bind_run, getTup_run hi, Out.bind_ok, component_ok t p hp, lift_run, hx.now]
    simp [answer, after, comps, hi, hp, Prog.pure_run, Prog.bind_run, vars_run, setVars_run, World.withVar, store]
    rfl
  | take y i p =>
    obtain ⟨n, ⟨t, hi, ht⟩, hp⟩ := ha
    have hp : p < t.length := by omega
    simp only [step, Prog.bind_run, getTup_run hi, Out.bind_ok, component_ok t p hp, lift_run, hx.now]
    simp [answer, after, comps, hi, hp, Prog.pure_run, Prog.bind_run, vars_run, setVars_run, setTup_run, storeAt_eq,
      World.withVar, World.withTup]
    refine ⟨rfl, ?_⟩
    have e : t.set p (mv t[p]) = t.modify p mv := by
      apply List.ext_getElem
      · simp
      · intro k h1 h2; simp only [List.getElem_set, List.getElem_modify]; split <;> simp_all
    rw [e]
  | set i p a =>
    obtain ⟨n, ⟨t, hi, ht⟩, hp⟩ := ha
    have hp : p < t.length := by omega
    simp only [step, Prog.bind_run, getTup_run hi, Out.bind_ok, component_ok t p hp, lift_run, hx.now]
    by_cases hm : a.moved <;>
    · simp [answer, after, comps, hi, hm, Prog.pure_run, Prog.bind_run, vars_run, setVars_run, setTup_run, storeAt_eq,
        World.withVar, World.withTup, taken]
      try rfl
  | first y i =>
    obtain ⟨t, hi, ht⟩ := ha
    have hp : 0 < t.length := by omega
    simp only [step, copyOut, Prog.bind_run, getTup_run hi, Out.bind_ok, ht, ne_eq, not_true, if_false, component_ok t 0 hp, lift_run, hx.now]
    simp [answer, after, comps, hi, hp, Prog.pure_run, Prog.bind_run, vars_run, setVars_run, World.withVar]
    rfl
  | second y i =>
    obtain ⟨t, hi, ht⟩ := ha
    have hp : 1 < t.length := by omega
    simp only [step, copyOut, Prog.bind_run, getTup_run hi, Out.bind_ok, ht, ne_eq, not_true, if_false, component_ok t 1 hp, lift_run, hx.now]
    simp [answer, after, comps, hi, hp, Prog.pure_run, Prog.bind_run, vars_run, setVars_run, World.withVar]
    rfl
  | equal i j =>
    obtain ⟨n, ⟨t, hi, ht⟩, s, hj, hs⟩ := ha
    simp only [step, Prog.bind_run, getTup_run hi, getTup_run hj, Out.bind_ok, equal_ok eq t s (by omega), lift_run]
    simp only [answer, after, comps, hi, hj, Prog.pure_run, Option.getD_some]
    rfl
  | forEach i f =>
    obtain ⟨n, t, hi, ht⟩ := ha
    simp only [parts, comps, hi, Option.getD_some] at hx
    simp only [step, Prog.bind_run, getTup_run hi, Out.bind_ok, forEach_past f t x hx, setTup_run]
    simp [answer, after, comps, hi, Prog.pure_run]
  | size i =>
    obtain ⟨n, t, hi, ht⟩ := ha
    simp [step, Prog.bind_run, getTup_run hi, answer, after, comps, hi, Prog.pure_run]
  | drop i =>
    obtain ⟨n, t, hi, ht⟩ := ha
    simp [step, Prog.bind_run, getTup_run hi, answer, after, Prog.pure_run, setTup_run]

/-- Number `n` throws. -/
theorem step_stop (mv : α → α) (dflt : α) (eq : α → α → Bool) (n : Nat) (op : Op α) (w : World α) (ha : Allowed w op)
    (hn : n < parts w op) :
    step mv dflt eq (some n) op w = match fate w n op with
      | none => .panic
      | some w' => .ok (none, w') := by
  have h1 : ∀ k, n < 1 → throwsNow (some n) = k → k = true := by
    intro k hk he; have : n = 0 := by omega
    subst this; rw [← he]; rfl
  cases op with
  | construct i args =>
    simp only [parts] at hn
    simp only [step, Prog.bind_run, fresh_run ha, vars_run, Out.bind_ok, build_stop mv args n w.var hn, lift_panic]
    rfl
  | makeTuple i args =>
    simp only [parts] at hn
    simp only [step, Prog.bind_run, fresh_run ha, vars_run, Out.bind_ok, makeTuple_stop mv args n w.var hn, lift_panic]
    rfl
  | makePair i a b =>
    simp only [parts] at hn
    simp only [step, Prog.bind_run, fresh_run ha, vars_run, Out.bind_ok, makeTuple_stop mv [a, b] n w.var hn, lift_panic]
    rfl
  | makeDefault i k =>
    simp only [parts] at hn
    simp only [step, Prog.bind_run, fresh_run ha, Out.bind_ok, makeDefault_stop dflt k n hn, lift_panic]
    rfl
  | copyCtor i j =>
    obtain ⟨hi, k, s, hj, hk⟩ := ha
    simp only [parts, comps, hj, Option.getD_some] at hn
    simp only [step, Prog.bind_run, fresh_run hi, getTup_run hj, Out.bind_ok, copyAll_stop s n hn, lift_panic]
    rfl
  | moveCtor i j =>
    obtain ⟨hi, k, s, hj, hk⟩ := ha
    simp only [parts, comps, hj, Option.getD_some] at hn
    simp only [step, Prog.bind_run, fresh_run hi, getTup_run hj, Out.bind_ok, moveAll_stop mv s n hn, lift_panic]
    rfl
  | copyAssign i j =>
    obtain ⟨k, ⟨t, hi, ht⟩, s, hj, hs⟩ := ha
    by_cases hij : i = j
    · simp [parts, hij] at hn
    · simp only [parts, comps, hj, Option.getD_some, if_neg hij] at hn
      simp only [step, Prog.bind_run, getTup_run hi, getTup_run hj, Out.bind_ok, if_neg hij,
        assignAll_stop t s n (by omega) hn, lift_panic]
      rfl
  | moveAssign i j =>
    obtain ⟨k, ⟨t, hi, ht⟩, s, hj, hs⟩ := ha
    by_cases hij : i = j
    · simp [parts, hij] at hn
    · simp only [parts, comps, hj, Option.getD_some, if_neg hij] at hn
      simp only [step, Prog.bind_run, getTup_run hi, getTup_run hj, Out.bind_ok, if_neg hij,
        moveAssignAll_stop mv t s n (by omega) hn, lift_panic]
      rfl
  | tie xs j =>
    obtain ⟨s, hj, hs⟩ := ha
    simp only [parts, comps, hj, Option.getD_some] at hn
    simp only [step, Prog.bind_run, getTup_run hj, Out.bind_ok, vars_run, tieLoop_stop xs s n w.var hs hn, lift_run, setVars_run]
    simp [fate, comps, hj, Prog.pure_run]
  | tieTie ls =>
    simp only [parts] at hn
    simp only [step, Prog.bind_run, Out.bind_ok, vars_run, tieTie_stop ls n w.var ha hn, setVars_run]
    simp [fate, Prog.pure_run]
  | get y i p =>
    obtain ⟨k, ⟨t, hi, ht⟩, hp⟩ := ha
    have hp : p < t.length := by omega
    simp only [step, copyOut, Prog.bind_run, getTup_run hi, Out.bind_ok, component_ok t p hp, lift_run, h1 _ hn rfl, if_true]
    simp [fate, Prog.pure_run]
  | take y i p =>
    obtain ⟨k, ⟨t, hi, ht⟩, hp⟩ := ha
    have hp : p < t.length := by omega
    simp only [step, Prog.bind_run, getTup_run hi, Out.bind_ok, component_ok t p hp, lift_run, h1 _ hn rfl, if_true]
    simp [fate, Prog.pure_run]
  | set i p a =>
    obtain ⟨k, ⟨t, hi, ht⟩, hp⟩ := ha
    have hp : p < t.length := by omega
    simp only [step, Prog.bind_run, getTup_run hi, Out.bind_ok, component_ok t p hp, lift_run, h1 _ hn rfl, if_true]
    simp [fate, Prog.pure_run]
  | first y i =>
    obtain ⟨t, hi, ht⟩ := ha
    have hp : 0 < t.length := by omega
    simp only [step, copyOut, Prog.bind_run, getTup_run hi, Out.bind_ok, ht, ne_eq, not_true, if_false, component_ok t 0 hp, lift_run,
      h1 _ hn rfl, if_true]
    simp [fate, Prog.pure_run]
  | second y i =>
    obtain ⟨t, hi, ht⟩ := ha
    have hp : 1 < t.length := by omega
    simp only [step, copyOut, Prog.bind_run, getTup_run hi, Out.bind_ok, ht, ne_eq, not_true, if_false, component_ok t 1 hp, lift_run,
      h1 _ hn rfl, if_true]
    simp [fate, Prog.pure_run]
  | forEach i f =>
    obtain ⟨k, t, hi, ht⟩ := ha
    simp only [parts, comps, hi, Option.getD_some] at hn
    simp only [step, Prog.bind_run, getTup_run hi, Out.bind_ok, forEach_stop f t n hn, setTup_run]
    simp [fate, comps, hi, Prog.pure_run]
  | _ => simp [parts] at hn

theorem step_ok (mv : α → α) (dflt : α) (eq : α → α → Bool) (x : Option Nat) (op : Op α) (w : World α)
    (o : Out (Option Ret × World α)) (h : Call mv dflt eq x op w o) : step mv dflt eq x op w = o := by
  obtain ⟨ha, h⟩ := h
  cases x with
  | none =>
    simp only at h
    rw [h]
    exact step_past mv dflt eq none op w ha (by intro m hm; simp at hm)
  | some n =>
    simp only at h
    by_cases hn : n < parts w op
    · rw [if_pos hn] at h
      rw [step_stop mv dflt eq n op w ha hn]
      cases hf : fate w n op with
      | none => rw [hf] at h; exact h.symm
      | some w' => rw [hf] at h; exact h.symm
    · rw [if_neg hn] at h
      rw [h]
      exact step_past mv dflt eq (some n) op w ha (by intro m hm; cases hm; omega)

theorem run_ok (mv : α → α) (dflt : α) (eq : α → α → Bool) : ∀ (ops : List (Op α × Option Nat)) (w : World α)
    (o : Out (List (Option Ret) × World α)), Run mv dflt eq ops w o → run mv dflt eq ops w = o := by
  intro ops
  induction ops with
  | nil => intro w o h; simp only [Run] at h; rw [h]; rfl
  | cons op ops ih =>
    intro w o h
    obtain ⟨op, x⟩ := op
    simp only [run, Prog.bind_run]
    rcases h with ⟨h, rfl⟩ | ⟨r, w', h, h2⟩
    · rw [step_ok _ _ _ _ _ _ _ h]; rfl
    · rw [step_ok _ _ _ _ _ _ _ h]
      rcases h2 with ⟨rs, w'', h2, rfl⟩ | ⟨h2, rfl⟩
      · simp only [Out.bind_ok, ih _ _ h2]; rfl
      · simp only [Out.bind_ok, ih _ _ h2]; rfl

end Verif.Proof.TupH
