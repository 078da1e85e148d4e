import Verif.Proof.VectorConsume
import Verif.Props.VectorOwn
/-! # Property C103: terminals over the owning iterators of a vector -/
namespace Verif.Props.VectorConsumes
open Verif Verif.Model.VectorOwn Verif.Spec.VectorOwn Verif.Spec.VectorConsume Verif.Model.VectorConsume
open Verif.Model.Vector (Op Res)
open Verif.Model.Mem (ElemTy)
open Verif.Spec.Vector (Var afterPushes)
open Verif.Proof.VectorConsume
open Verif.Proof.Vector (isOk)

variable {κ α ρ : Type} {ty : ElemTy α} {s s' : State α} {w : OWorld α} {i j t : Nat}

/-- What a reached program state is worth: the vectors have the contents of their ideal lists, and once all objects are
gone every element is destroyed and all memory returned. -/
theorem C103_reached (hr : Reached ty s w) : (∀ i, s.its i = none → Spec.Vector.view w.base i = s.vecs i) ∧
    ((∀ i, s.free i = true) → (∀ b, w.base.heap.blocks b = none) ∧ w.base.heap.ctors = w.base.heap.dtors ∧
      w.base.heap.newBytes = w.base.heap.freeBytes) := by
  obtain ⟨ops, rs, rs', h, hw⟩ := hr
  have := C90_own_partial ops h
  rw [hw] at this
  exact this.2

/-- **C103, `fold`.**  Anywhere in a program, `fold(v.into_iter(), init, f)`, `fold(v.into_iter_reversed(), init, f)` and
`v.into_iter() | fold(init, f)` call `f` with every element the vector had, in order, once each; the result is that of
the ideal fold; the vector is left empty, every other vector and iterator is as before, and the iterator objects of the
expression are gone. -/
theorem C103_fold (hr : Reached ty s w) (form : Form) {v : Var α} (hj : s.vecs j = some v) (ht : s.free t = true)
    (ht' : s.free (t + 1) = true) (f : ρ → α → Prog κ ρ) {init r : ρ} {c c' : κ}
    (hf : (order v.xs form).foldlM f init c = .ok (r, c')) :
    (fold ty form j t (fun acc a => do let r ← f acc a; return (r, [])) init ⟨c, w⟩).Safe fun q =>
      q.1 = r ∧ q.2.client = c' ∧ Reached ty (s.setVec j (some ⟨[], 0, v.alloc⟩)) q.2.mem := by
  have hv := visit_plain (i := form.param t) f (order v.xs form) init c
  rw [hf, Out.bind_ok] at hv
  obtain ⟨rs, hs⟩ := whole_run (ty := ty) form hj ht ht' ((order v.xs form).length + 1)
  have e := fold_eq hr hj form hv hs
  unfold plain at e
  rw [e]
  rcases reached_run hr _ hs with h | ⟨w', h, hr'⟩
  · rw [h]; trivial
  · rw [h]; exact ⟨rfl, rfl, hr'⟩

/-- **C103, `for_each`.** -/
theorem C103_for_each (hr : Reached ty s w) (form : Form) {v : Var α} (hj : s.vecs j = some v) (ht : s.free t = true)
    (ht' : s.free (t + 1) = true) (f : α → Prog κ Unit) {c c' : κ} (hf : (order v.xs form).forM f c = .ok ((), c')) :
    (forEach ty form j t (fun a => do f a; return []) ⟨c, w⟩).Safe fun q =>
      q.2.client = c' ∧ Reached ty (s.setVec j (some ⟨[], 0, v.alloc⟩)) q.2.mem := by
  rw [forEach_eq]
  have e : (fun (_ : Unit) (a : α) => (do let ops ← (do f a; return [] : Prog κ (List (Op α))); return ((), ops) : Prog κ (Unit × List (Op α)))) =
      fun (_ : Unit) a => do let r ← f a; return (r, []) := by
    funext _ a c
    simp only [Prog.bind_run]
    cases f a c <;> rfl
  rw [e]
  have hf' : (order v.xs form).foldlM (fun (_ : Unit) a => f a) () c = .ok ((), c') := by
    have g : ∀ xs : List α, xs.foldlM (fun (_ : Unit) a => f a) () = xs.forM f := by
      intro xs
      induction xs with
      | nil => rfl
      | cons x xs ih =>
        rw [List.foldlM_cons, show (x :: xs).forM f = (f x >>= fun _ => xs.forM f) from rfl]
        congr 1
        funext _
        exact ih
    rw [g]
    exact hf
  exact (C103_fold hr form hj ht ht' (fun _ => f) hf').mono fun q h => h.2

/-- **C103, functions that call vectors.**  The client's function may itself call vectors, also the one that is being consumed: as
long as all the calls made — those that make, ask and destroy the iterator and those of the function, in the order in
which they happen — are calls property C90 covers, everything goes as that list of calls goes. -/
theorem C103_fold_is_calls (hr : Reached ty s w) (form : Form) {v : Var α} (hj : s.vecs j = some v)
    (f : ρ → α → Prog κ (ρ × List (Op α))) {init r : ρ} {calls : List (OOp α)} {c c' : κ} {rs : List (Res α)}
    (hv : visit (form.param t) f init (order v.xs form) c = .ok ((r, calls), c'))
    (hs : ownRun false ty.size ty.dflt (form.enter j t ++ calls ++ form.leave t) s = some (rs, s')) :
    (fold ty form j t f init ⟨c, w⟩).Safe fun q => q.1 = r ∧ q.2.client = c' ∧ Reached ty s' q.2.mem := by
  rw [fold_eq hr hj form hv hs]
  rcases reached_run hr _ hs with h | ⟨w', h, hr'⟩
  · rw [h]; trivial
  · rw [h]; exact ⟨rfl, rfl, hr'⟩

/-- **C103, `collect`.**  `Vector u = collect<Vector>(v.into_iter())` gives a vector with exactly the elements `v` had, in order. -/
theorem C103_collect (hr : Reached ty s w) {v : Var α} (hj : s.vecs j = some v) (ht : s.free t = true) (ht' : s.free (t + 1) = true)
    (hi : s.free i = true) (hit : i ≠ t) (hit' : i ≠ t + 1) (c : κ) :
    (collect ty j t i ⟨c, w⟩).Safe fun q => q.2.client = c ∧
      Reached ty ((s.setVec j (some ⟨[], 0, v.alloc⟩)).setVec i (some ⟨v.xs, afterPushes v.xs.length 0 2, 0⟩)) q.2.mem := by
  obtain ⟨rs, hs⟩ := collect_run (ty := ty) hj ht ht' hi hit hit'
  rw [collect_eq]
  obtain ⟨rs0, s0, hs0, hs1⟩ : ∃ rs0 s0, ownRun false ty.size ty.dflt [.make t j, .move (t + 1) t, .vec (.newDefault i)] s = some (rs0, s0) ∧
      Has s0 (t + 1) v.xs ∧ ∃ rs1 s1 rs2 s2, ownRun false ty.size ty.dflt (filling (t + 1) i v.xs) s0 = some (rs1, s1) ∧
        ownRun false ty.size ty.dflt [.drop (t + 1), .drop t] s1 = some (rs2, s2) ∧
        s2 = (s.setVec j (some ⟨[], 0, v.alloc⟩)).setVec i (some ⟨v.xs, afterPushes v.xs.length 0 2, 0⟩) := by
    rw [ownRun_append] at hs
    simp only [Option.bind_eq_some_iff, Option.map_eq_some_iff] at hs
    obtain ⟨⟨rsa, sa⟩, ha, ⟨rsb, sb⟩, hb, e⟩ := hs
    cases e
    rw [ownRun_append] at ha
    simp only [Option.bind_eq_some_iff, Option.map_eq_some_iff] at ha
    obtain ⟨⟨rsc, sc⟩, hc, ⟨rsd, sd⟩, hd, e⟩ := ha
    cases e
    refine ⟨rsc, sc, hc, ?_, rsd, sd, rsb, _, hd, hb, rfl⟩
    have hc' : ownRun false ty.size ty.dflt ([.make t j, .move (t + 1) t] ++ [.vec (.newDefault i)]) s = some (rsc, sc) := hc
    rw [ownRun_append] at hc'
    simp only [Option.bind_eq_some_iff, Option.map_eq_some_iff] at hc'
    obtain ⟨⟨rse, se⟩, he, ⟨rsf, sf⟩, hf, e⟩ := hc'
    cases e
    have h1 := enter_has (ty := ty) .piped hj he
    have h2 := vecs_its [.newDefault i] hf
    unfold Has at h1 ⊢
    rw [h2]
    exact h1
  obtain ⟨hx, rs1, s1, rs2, s2, h1, h2, e⟩ := hs1
  simp only [Prog.bind_run, Model.Collect.onMem]
  rcases reached_run hr _ hs0 with h | ⟨w0, h, hr0⟩
  · rw [h]; trivial
  · rw [h]
    simp only [Out.bind_ok]
    rw [fold_loop v.xs () s0 w0 c hr0 hx (visit_pushes (t + 1) v.xs c) h1]
    rcases reached_run hr0 _ h1 with h | ⟨w1, h, hr1⟩
    · rw [h]; trivial
    · rw [h]
      simp only [Out.bind_ok]
      rcases reached_run hr1 _ h2 with h | ⟨w2, h, hr2⟩
      · rw [h]; trivial
      · rw [h]
        subst e
        exact ⟨rfl, hr2⟩

/-- **C103, `find`.**  `find(it, p)` for an iterator variable, in either direction: the first element that satisfies `p`; the elements behind it,
and only those, are still to come. -/
theorem C103_find (hr : Reached ty s w) {mk : List α → It α} (hk : mk = .fwd ∨ mk = .rev) {xs : List α} (hi : s.its i = some (mk xs))
    (p : α → Prog κ (Bool × α)) {c c' : κ} {o : Option α} {rest : List α} (hp : seek p xs c = .ok ((o, rest), c')) :
    (find ty i p ⟨c, w⟩).Safe fun q => q.1 = o ∧ q.2.client = c' ∧ Reached ty (s.setIt i (some (mk rest))) q.2.mem := by
  have := find_ok (ty := ty) hk p xs hr hi hp
  rw [find, Prog.bind_run]
  revert this
  cases Model.Iter.find (take ty i) (fun a => Model.Collect.onClient (p a)) () ⟨c, w⟩ <;> exact id

/-- **C103, `last`.**  `last(it)` gives the last element and leaves none. -/
theorem C103_last (hr : Reached ty s w) {mk : List α → It α} (hk : mk = .fwd ∨ mk = .rev) {xs : List α} (hi : s.its i = some (mk xs)) (c : κ) :
    (last ty i ⟨c, w⟩).Safe fun q => q.1 = xs.getLast? ∧ q.2.client = c ∧ Reached ty (s.setIt i (some (mk []))) q.2.mem := by
  have := last_ok (ty := ty) (c := c) hk hr hi
  rw [last, Prog.bind_run]
  revert this
  cases Model.Iter.last (take ty i) () (⟨c, w⟩ : W κ α) <;> exact id

/-- **C103, a function that does not return.**  If the client's function ends the program or does not return on one of the elements, so does the
call (unless a request for memory is refused before): it is never called again afterwards, and no value is made up. -/
theorem C103_function_fails (hr : Reached ty s w) (form : Form) {v : Var α} (hj : s.vecs j = some v) (ht : s.free t = true)
    (ht' : s.free (t + 1) = true) (f : ρ → α → Prog κ ρ) {init : ρ} {c : κ} :
    ((order v.xs form).foldlM f init c = .panic → (let x := fold ty form j t (fun acc a => do let r ← f acc a; return (r, [])) init ⟨c, w⟩; x = .panic ∨ x = .oom)) ∧
    ((order v.xs form).foldlM f init c = .div → (let x := fold ty form j t (fun acc a => do let r ← f acc a; return (r, [])) init ⟨c, w⟩; x = .div ∨ x = .oom)) := by
  obtain ⟨rs, hs⟩ := whole_run (ty := ty) form hj ht ht' 0
  rw [List.append_assoc, ownRun_append] at hs
  simp only [Option.bind_eq_some_iff] at hs
  obtain ⟨⟨rs1, s1⟩, h1, -⟩ := hs
  have key : ∀ e : Out (ρ × κ), (order v.xs form).foldlM f init c = e → (∀ q, e ≠ .ok q) →
      fold ty form j t (plain f) init ⟨c, w⟩ = .oom ∨ fold ty form j t (plain f) init ⟨c, w⟩ = (e >>= fun _ => .oom) := by
    intro e he hne
    simp only [fold, Prog.bind_run, Model.Collect.onMem]
    rcases reached_run hr _ h1 with h | ⟨w1, h, hr1⟩
    · rw [h]; exact .inl rfl
    · rw [h]
      simp only [Out.bind_ok]
      rcases fold_loop_fails (ty := ty) _ init s1 w1 c hr1 (enter_has form hj h1) (by rw [he]; exact hne) with h | h
      · rw [h]; exact .inl rfl
      · rw [h, he]
        cases e with
        | ok q => exact (hne q rfl).elim
        | oom => exact .inl rfl
        | _ => exact .inr rfl
  refine ⟨fun he => ?_, fun he => ?_⟩
  · rcases key _ he (fun q h => by cases h) with h | h
    · exact .inr h
    · exact .inl h
  · rcases key _ he (fun q h => by cases h) with h | h
    · exact .inr h
    · exact .inl h

/-! ## Non-vacuity -/

/-- the state before: a vector `1, 2, 3`, and half-way through another one -/
def exOps : List (OOp Nat) := [.vec (.newList 0 [1, 2, 3] 0), .vec (.newList 1 [7, 8, 9] 0), .make 2 1, .next 2]

def exState : State Nat :=
  (((((start.setVec 0 (some ⟨[1, 2, 3], 3, 0⟩)).setVec 1 (some ⟨[7, 8, 9], 3, 0⟩)).setVec 1 (some ⟨[], 0, 0⟩)).setIt 2 (some (.fwd [7, 8, 9])))).setIt 2
    (some (.fwd [8, 9]))

/-- the hypotheses of all the theorems are met together -/
example : ∃ w, Reached exTy exState w ∧ exState.vecs 0 = some ⟨[1, 2, 3], 3, 0⟩ ∧ exState.free 10 = true ∧ exState.free 11 = true ∧
    exState.free 12 = true ∧ exState.its 2 = some (.fwd [8, 9]) := by
  have h : isOk (fun _ => true) (orun exTy exOps {}) = true := by decide +kernel
  cases hw : orun exTy exOps {} with
  | ok q => exact ⟨q.2, ⟨exOps, [.unit, .unit, .unit, .opt (some 7)], q.1, rfl, hw⟩, rfl, rfl, rfl, rfl, rfl⟩
  | _ => rw [hw] at h; simp [isOk] at h

/-- a function with a log of what it saw -/
def exF (acc a : Nat) : Prog (List Nat) Nat := fun log => if a = 5 then .panic else .ok (10 * acc + a, log ++ [a])

def exP (a : Nat) : Prog (List Nat) (Bool × Nat) := fun log => .ok ((a % 2 == 0, a + 100), log ++ [a])

example : (order [1, 2, 3] .directRev).foldlM exF 0 [] = .ok (321, [3, 2, 1]) ∧
    seek exP [1, 2, 3] [] = .ok ((some 102, [3]), [1, 2]) ∧ (order [1, 5, 3] .piped).foldlM exF 0 [] = .panic :=
  ⟨rfl, rfl, rfl⟩

/-- a function that puts every element into the vector being consumed, and its first element once more -/
def exG (n a : Nat) : Prog (List Nat) (Nat × List (Op Nat)) := fun log => .ok ((n + 1, [.push 0 (.val a), .push 0 (.elem 0 0)]), log)

example : ∃ calls, visit 11 exG 0 [1, 2, 3] [] = .ok ((3, calls), []) ∧
    (ownRun false exTy.size exTy.dflt (Form.piped.enter 0 10 ++ calls ++ Form.piped.leave 10) exState).any
      (fun p => p.2.vecs 0 == some ⟨[1, 1, 2, 1, 3, 1], 8, 0⟩ && (p.2.its 10).isNone) = true :=
  ⟨_, rfl, by decide +kernel⟩

end Verif.Props.VectorConsumes
