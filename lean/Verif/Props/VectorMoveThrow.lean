import Verif.Proof.VectorMoveThrow3
import Verif.Props.Vector
/-!
# Property C114: vectors whose element moves may throw

C114 (full statement, refuted by the `_fails` theorems below and, exactly, by `C114_exact`): when moving an element throws during a call
of a vector, the exception reaches the caller, the vectors can be used and destroyed afterwards, and no element and no memory is lost.

Programs catch the exception and go on.  `fate` (Spec/VectorMoveThrow.lean) says of every call what becomes of it.
-/
namespace Verif.Props
open Verif Verif.Model.Mem Verif.Model.Vector Verif.Proof.Mem Verif.Proof.Vector
open Verif.Spec.Vector hiding upd

variable {α : Type} {ty : ElemTy α} {bad : α → Bool}

/-- C114 (partial).  A program over any number of vectors, in which every call that moves an element it cannot move is one the library
survives, runs without undefined behaviour; each call returns what the specification says, or throws where it says; the vectors are
what the specification says, also those a throwing call was working on; nothing is lost.
Missing: the calls that end the program and those that leave damage, see `C114_exact`. -/
theorem C114_history_partial (ops : List (Op α)) {rs : List (Option (Res α))} {A : Ideal α}
    (h : specRunM bad ty.mv ty.size ty.dflt ops (fun _ => none) = some (rs, A)) :
    (runM ty bad ops {}).Safe fun q => q.1 = rs ∧ view q.2 = A ∧ (∀ i, (q.2.vars i).isSome = (A i).isSome) ∧ Intact q.2 ∧
      ((∀ i, A i = none) → (∀ b, q.2.heap.blocks b = none) ∧ q.2.heap.ctors = q.2.heap.dtors ∧
        q.2.heap.newBytes = q.2.heap.freeBytes) := by
  refine (runM_ok ops inv_init h).mono fun q hq => ⟨hq.1, hq.2.view, ?_, hq.2.intact, ?_⟩
  · intro i
    cases ha : A i with
    | none => rw [hq.2.get_none ha]; rfl
    | some a => obtain ⟨v, hv, _⟩ := hq.2.get ha; rw [hv]; rfl
  · intro hall
    have he : ∀ b, q.2.heap.blocks b = none := by
      intro b
      cases hb : q.2.heap.blocks b with
      | none => rfl
      | some blk =>
        obtain ⟨i, v, hv, _⟩ := hq.2.cover b blk hb
        rw [hq.2.get_none (hall i)] at hv; cases hv
    exact ⟨he, hq.2.bal.empty he⟩

/-- 3 cannot be moved. -/
def exStuck : Nat → Bool := (· == 3)

/-- A program with five throwing calls: an insertion, two erasures, of which the second one repeats the first, a collection that is
given up and a draining that is given up. -/
def exMoves : List (Op Nat) :=
  [.newList 0 [1, 2, 4, 3, 5] 0, .erase 0 0, .get 0 2, .eraseRange 0 0 2, .get 0 0, .get 0 1, .fromIter 1 [7, 3], .fromIter 1 [7, 8],
   .drain 0 4, .size 0, .drop 0, .drop 1]

example : (specRunM exStuck exTy.mv exTy.size exTy.dflt exMoves (fun _ => none)).map Prod.fst =
    some [some .unit, none, some (.val 0), none, some (.val 0), some (.val 4), none, some .unit, none, some (.num 0), some .unit,
      some .unit] := rfl

example : isOk (fun q => decide (q.1.length = 12 ∧ q.2.heap.ctors = q.2.heap.dtors)) (runM exTy exStuck exMoves {}) = true := by
  decide +kernel

/-- C114, exactly.  From any state a program gets into, for any allowed call: if `fate` says it is fine, it returns what it returns for
other element types; if `fate` says it ends the program, no exception can be caught; if `fate` says it throws, it does, the vectors are
what `fate` says and nothing is lost; if `fate` says it leaves damage, it throws, the vectors it does not write to are as before, and
a vector counts an element that does not exist, or an element or a block of memory is lost; destroying the vector it was called on is
undefined. -/
theorem C114_exact {w : World α} (hr : ReachM ty bad w) {op : Op α} {r : Res α} {A' : Ideal α}
    (hs : specStep false ty.size ty.dflt op (view w) = some (r, A')) :
    match fate bad ty.mv ty.dflt (view w) op with
    | .fine => (stepM ty bad op w).Safe fun q => q.1 = some r ∧ view q.2 = A' ∧ Intact q.2
    | .ends => stepM ty bad op w = .panic ∨ stepM ty bad op w = .oom
    | .thrown A'' => (stepM ty bad op w).Safe fun q => q.1 = none ∧ view q.2 = A'' ∧ Intact q.2
    | .damaged => (stepM ty bad op w).Safe fun q =>
        q.1 = none ∧ (∀ j, j ∉ writes op → view q.2 j = view w j) ∧ ¬ Intact q.2 ∧
        ∃ i ∈ writes op, stepM ty bad (.drop i) q.2 = .ub := by
  have I := reachM_inv hr
  have key := stepM_fate (bad := bad) op I hs
  cases hc : fate bad ty.mv ty.dflt (view w) op with
  | fine =>
    rw [hc] at key
    simp only [Answer, Same] at key ⊢
    rw [key]
    exact (step_ok op I hs).bind fun q hq => ⟨by simp [hq.1], hq.2.view, hq.2.intact⟩
  | ends => rw [hc] at key; exact key
  | thrown A1 =>
    rw [hc] at key
    exact key.mono fun q hq => ⟨hq.1, hq.2.view, hq.2.intact⟩
  | damaged =>
    rw [hc] at key
    refine key.mono ?_
    rintro q ⟨h1, i, hw, ⟨h2, h3⟩, h4⟩
    refine ⟨h1, fun j hj => h2 j (by rw [hw] at hj; simpa using hj), h3, i, by simp [hw], ?_⟩
    simp only [stepM, Prog.bind_run, h4]
    rfl

theorem reachM_of (ops : List (Op α)) (P : Ideal α → Bool)
    (h1 : (specRunM bad ty.mv ty.size ty.dflt ops (fun _ => none)).any (fun p => P p.2) = true)
    (h2 : isOk (fun _ => true) (runM ty bad ops {}) = true) : ∃ w, ReachM ty bad w ∧ P (view w) = true := by
  obtain ⟨⟨rs', w⟩, he, _⟩ := of_isOk h2
  cases hs : specRunM bad ty.mv ty.size ty.dflt ops (fun _ => none) with
  | none => rw [hs] at h1; cases h1
  | some p =>
    obtain ⟨rs, A⟩ := p
    rw [hs] at h1
    have := runM_ok ops inv_init hs
    rw [he] at this
    exact ⟨w, ⟨ops, rs, A, rs', hs, he⟩, by rw [Inv.view this.2]; simpa using h1⟩

def Fate.isEnds : Fate α → Bool
  | .ends => true
  | _ => false

def Fate.isDamaged : Fate α → Bool
  | .damaged => true
  | _ => false

def Fate.isThrown : Fate α → Bool
  | .thrown _ => true
  | _ => false

/-- After two throwing erasures: growing ends the program, appending a value that cannot be moved leaves damage, erasing throws again. -/
example : ∃ w, ReachM exTy exStuck w ∧ (specStep false exTy.size exTy.dflt (.reserve 0 9) (view w)).isSome ∧
    Fate.isEnds (fate exStuck exTy.mv exTy.dflt (view w) (.reserve 0 9)) = true ∧
    (specStep false exTy.size exTy.dflt (.push 1 (.val 3)) (view w)).isSome ∧
    Fate.isDamaged (fate exStuck exTy.mv exTy.dflt (view w) (.push 1 (.val 3))) = true ∧
    (specStep false exTy.size exTy.dflt (.erase 0 1) (view w)).isSome ∧
    Fate.isThrown (fate exStuck exTy.mv exTy.dflt (view w) (.erase 0 1)) = true := by
  obtain ⟨w, h, hP⟩ := reachM_of (ty := exTy) (bad := exStuck) (exMoves.take 8) (fun A =>
    (specStep false exTy.size exTy.dflt (.reserve 0 9) A).isSome &&
    (Fate.isEnds (fate exStuck exTy.mv exTy.dflt A (.reserve 0 9)) &&
    ((specStep false exTy.size exTy.dflt (.push 1 (.val 3)) A).isSome &&
    (Fate.isDamaged (fate exStuck exTy.mv exTy.dflt A (.push 1 (.val 3))) &&
    ((specStep false exTy.size exTy.dflt (.erase 0 1) A).isSome &&
    Fate.isThrown (fate exStuck exTy.mv exTy.dflt A (.erase 0 1)))))))
    (by decide +kernel) (by decide +kernel)
  simp only [Bool.and_eq_true] at hP
  exact ⟨w, h, hP⟩

/-! ## The calls that do not keep the promise -/

/-- C114 refuted: whenever a vector holds an element that cannot be moved and has to grow, by `reserve`, `resize`, an append or an
insertion, the program is ended; no handler can catch the exception. -/
theorem C114_growing_ends_fails {w : World α} (hr : ReachM ty bad w) {i : Nat} {v : Var α} (hv : view w i = some v)
    (hb : ∃ x ∈ v.xs, bad x = true) :
    (∀ n, v.cap < n → n * ty.size < wordSize →
      (stepM ty bad (.reserve i n) w = .panic ∨ stepM ty bad (.reserve i n) w = .oom) ∧
      (stepM ty bad (.resize i n) w = .panic ∨ stepM ty bad (.resize i n) w = .oom)) ∧
    (∀ x, bad x = false → v.xs.length = v.cap →
      (stepM ty bad (.push i (.val x)) w = .panic ∨ stepM ty bad (.push i (.val x)) w = .oom) ∧
      (∀ p, 1 ≤ p → p ≤ v.xs.length →
        stepM ty bad (.insert i p (.val x)) w = .panic ∨ stepM ty bad (.insert i p (.val x)) w = .oom)) := by
  have hany : v.xs.any bad = true := List.any_eq_true.2 hb
  refine ⟨fun n hn hw => ⟨?_, ?_⟩, fun x hx hl => ⟨?_, fun p h1 h2 => ?_⟩⟩
  · have := C114_exact hr (op := .reserve i n) (r := _) (A' := _) (by simp only [specStep, Spec.Vector.upd, hv, Option.bind_some, only]; rw [if_pos (.inr hw)]; rfl)
    simpa [fate, hv, relocate, hn, hany] using this
  · have := C114_exact hr (op := .resize i n) (r := _) (A' := _) (by simp only [specStep, Spec.Vector.upd, hv, Option.bind_some, only]; rw [if_pos (.inr hw)]; rfl)
    simpa [fate, hv, relocate, hn, hany] using this
  · have := C114_exact hr (op := .push i (.val x)) (r := _) (A' := _) (by
      simp only [specStep, Spec.Vector.upd, hv, argVal, Option.bind_some, only]; rw [if_pos (.inr (.inl rfl))]; rfl)
    simpa [fate, hv, relocate, argVal, hl, hany] using this
  · have := C114_exact hr (op := .insert i p (.val x)) (r := _) (A' := _) (by
      simp only [specStep, Spec.Vector.upd, hv, argVal, Option.bind_some, only]; rw [if_pos h2, if_pos (.inr h1)]; rfl)
    simpa [fate, hv, relocate, argVal, hl, hany, hx] using this

/-- C114 refuted: appending a temporary whose move throws is reported to the caller, but the vector then counts an element that was
never made, and destroying it is undefined. -/
theorem C114_push_damage_fails {w : World α} (hr : ReachM ty bad w) {i : Nat} {v : Var α} (hv : view w i = some v)
    {x : α} (hx : bad x = true) (hl : v.xs.length < v.cap) :
    (stepM ty bad (.push i (.val x)) w).Safe fun q => q.1 = none ∧ ¬ Intact q.2 ∧ stepM ty bad (.drop i) q.2 = .ub := by
  have := C114_exact hr (op := .push i (.val x)) (r := _) (A' := _) (by
    simp only [specStep, Spec.Vector.upd, hv, argVal, Option.bind_some, only]; rw [if_pos (.inr (.inl rfl))]; rfl)
  have hn : ¬ v.cap ≤ v.xs.length := by omega
  simp only [fate, hv, Option.getD_some, relocate, argVal, hx, rvalue, decide_eq_false hn, Bool.false_and, Bool.true_and, if_true,
    Bool.false_eq_true, if_false] at this
  exact this.mono fun q ⟨h1, _, h2, j, hj, h3⟩ => ⟨h1, h2, by simp [writes] at hj; rw [← hj]; exact h3⟩

/-- C114 refuted: so does inserting anything before an element that cannot be moved, unless that is the last one. -/
theorem C114_insert_damage_fails {w : World α} (hr : ReachM ty bad w) {i : Nat} {v : Var α} (hv : view w i = some v) {p : Nat}
    {y z : α} {xs ys zs : List α} (he : v.xs = xs ++ (ys ++ y :: (zs ++ [z]))) (hp : p = xs.length) (hp1 : 1 ≤ p) (hy : bad y = true)
    (hz : bad z = false) {x : α} (hx : bad x = false) (hl : v.xs.length < v.cap) :
    (stepM ty bad (.insert i p (.val x)) w).Safe fun q => q.1 = none ∧ ¬ Intact q.2 ∧ stepM ty bad (.drop i) q.2 = .ub := by
  have hpl : p ≤ v.xs.length := by rw [he, hp]; simp
  have := C114_exact hr (op := .insert i p (.val x)) (r := _) (A' := _) (by
    simp only [specStep, Spec.Vector.upd, hv, argVal, Option.bind_some, only]; rw [if_pos hpl, if_pos (.inr hp1)]; rfl)
  have hn : ¬ v.cap ≤ v.xs.length := by omega
  have hd : v.xs.drop p = (ys ++ y :: zs) ++ [z] := by rw [he, hp]; simp
  have hany : ((ys ++ y :: zs) ++ [z]).any bad = true := by simp [hy]
  simp only [fate, hv, Option.getD_some, relocate, argVal, hx, rvalue, decide_eq_false hn, Bool.false_and, Bool.and_false,
    Bool.false_eq_true, if_false, moveBack, hd, hany, if_true, List.getLast?_concat, Option.any_some, hz] at this
  exact this.mono fun q ⟨h1, _, h2, j, hj, h3⟩ => ⟨h1, h2, by simp [writes] at hj; rw [← hj]; exact h3⟩

/-- C114, what holds: an erasure that throws has lost nothing, the vector has its old length and capacity, the elements before the
position are as before, the others up to the one that cannot be moved have moved up by one. -/
theorem C114_erase {w : World α} (hr : ReachM ty bad w) {i p : Nat} {v : Var α} (hv : view w i = some v) {y x : α}
    {xs ts us : List α} (he : v.xs = xs ++ y :: (ts ++ x :: us)) (hp : p = xs.length) (hts : ∀ t ∈ ts, bad t = false)
    (hx : bad x = true) :
    (stepM ty bad (.erase i p) w).Safe fun q => q.1 = none ∧ Intact q.2 ∧ (∀ j, j ≠ i → view q.2 j = view w j) ∧
      ∃ gap, view q.2 i = some ⟨xs ++ (ts ++ (gap :: x :: us)), v.cap, v.alloc⟩ ∧
        (ts = [] → gap = y) ∧ (∀ ts' t, ts = ts' ++ [t] → gap = ty.mv t) := by
  have hpl : p < v.xs.length := by rw [he, hp]; simp
  have := C114_exact hr (op := .erase i p) (r := _) (A' := _) (by
    simp only [specStep, Spec.Vector.upd, hv, Option.bind_some]; rw [if_pos hpl]; rfl)
  have hd : v.xs.drop (p + 1) = ts ++ x :: us := by rw [he, hp]; simp [List.drop_append]
  have hk : v.xs.take p = xs := by rw [he, hp]; simp
  have hm : (v.xs.take (p + 1)).drop p = [y] := by rw [he, hp]; simp [List.take_append]
  have hany : (ts ++ x :: us).any bad = true := by simp [hx]
  have htw : (ts ++ x :: us).takeWhile (fun x => !bad x) = ts := by
    rw [List.takeWhile_append_of_pos (by simpa using hts)]; simp [hx]
  simp only [fate, hv, Option.getD_some, moveForward, hd, hany, if_true, htw, hk, hm, List.drop_left] at this
  refine this.mono fun q hq => ⟨hq.1, hq.2.2, fun j hj => by rw [hq.2.1]; simp [Spec.Vector.put, hj], ?_⟩
  rcases List.eq_nil_or_concat ts with rfl | ⟨ts', t, rfl⟩
  · refine ⟨y, by rw [hq.2.1]; simp [Spec.Vector.put], fun _ => rfl, fun ts' t h => by simp at h⟩
  · refine ⟨ty.mv t, ?_, fun h => by simp at h, fun ts2 t2 h => ?_⟩
    · rw [hq.2.1]
      have : ([y] ++ (ts'.concat t).map ty.mv).drop (ts'.concat t).length = [ty.mv t] := by
        rw [List.concat_eq_append, List.map_append, List.length_append]
        show (y :: (ts'.map ty.mv ++ [ty.mv t])).drop (ts'.length + 1) = _
        rw [List.drop_succ_cons, List.drop_left' (by simp)]
      rw [this]
      simp [Spec.Vector.put]
    · have := List.append_inj' (h.symm.trans (List.concat_eq_append ..)) rfl
      simp only [List.cons.injEq, and_true] at this
      rw [this.2]

/-- A state as in the four theorems above. -/
example : ∃ w, ReachM exTy exStuck w ∧ view w 0 = some ⟨[1, 2, 4, 3, 5], 5, 0⟩ ∧ view w 1 = some ⟨[1, 2, 3, 4], 6, 0⟩ := by
  obtain ⟨w, h, hP⟩ := reachM_of (ty := exTy) (bad := exStuck)
    [.newList 0 [1, 2, 4, 3, 5] 0, .newAlloc 1 0, .reserve 1 6, .assignList 1 [1, 2, 3, 4]] (fun A =>
      decide (A 0 = some ⟨[1, 2, 4, 3, 5], 5, 0⟩ ∧ A 1 = some ⟨[1, 2, 3, 4], 6, 0⟩))
    (by decide +kernel) (by decide +kernel)
  exact ⟨w, h, by simpa using hP⟩

end Verif.Props
