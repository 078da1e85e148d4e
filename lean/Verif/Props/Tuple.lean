import Verif.Model.Tuple
/-! # Property C65: Tuple -/
namespace Verif.Props
open Verif Verif.Model.Tuple

/-- **C65, construction and access.** For every list of component types and every arguments, `get<i>` of the tuple made
from them is the `i`-th argument, and the size is their number. -/
theorem C65_get_make (ts : List Type) (c : Comps ts) (i : Nat) (h : i < ts.length) :
    Model.Tuple.get (make ts c) i h = c ⟨i, h⟩ := by
  induction ts generalizing i with
  | nil => simp at h
  | cons t ts ih =>
    cases i with
    | zero => rfl
    | succ i => exact ih (fun j => c ⟨j.1 + 1, by simp⟩) i (by simpa using h)

theorem C65_size (ts : List Type) : size ts = ts.length := by cases ts <;> simp [size]; omega

/-- A tuple has no content besides its components. -/
theorem C65_ext {ts : List Type} (a b : Tup ts) (h : ∀ i (hi : i < ts.length), Model.Tuple.get a i hi = Model.Tuple.get b i hi) : a = b := by
  induction ts with
  | nil => cases a; cases b; rfl
  | cons t ts ih =>
    cases a with | mk a1 a2 =>
    cases b with | mk b1 b2 =>
    have h0 : a1 = b1 := h 0 (by simp)
    have h1 := ih a2 b2 (fun i hi => h (i + 1) (by simpa using hi))
    rw [h1, h0]

/-- **C65, independence.** Writing component `i` changes component `i` to the new value and no other. -/
theorem C65_set {ts : List Type} (t : Tup ts) (i : Nat) (hi : i < ts.length) (v : ts.get ⟨i, hi⟩) :
    Model.Tuple.get (Model.Tuple.set t i hi v) i hi = v ∧ ∀ j (hj : j < ts.length), j ≠ i → Model.Tuple.get (Model.Tuple.set t i hi v) j hj = Model.Tuple.get t j hj := by
  induction ts generalizing i with
  | nil => simp at hi
  | cons a ts ih =>
    cases t with | mk f r =>
    cases i with
    | zero =>
      refine ⟨rfl, fun j hj hne => ?_⟩
      cases j with
      | zero => exact absurd rfl hne
      | succ j => rfl
    | succ i =>
      have := ih r i (by simpa using hi) v
      refine ⟨this.1, fun j hj hne => ?_⟩
      cases j with
      | zero => rfl
      | succ j => exact this.2 j (by simpa using hj) (by omega)

/-- **C65, copy and move.** A copy (by construction or assignment) has the source's components; a move hands over the
source's components and leaves each moved-from. -/
theorem C65_copy_move (mv : (t : Type) → t → t) {ts : List Type} (t : Tup ts) :
    copy t = t ∧ (move mv t).1 = t ∧ ∀ i (hi : i < ts.length), Model.Tuple.get (move mv t).2 i hi = mv _ (Model.Tuple.get t i hi) := by
  induction ts with
  | nil => cases t; exact ⟨rfl, rfl, fun i hi => absurd hi (by simp)⟩
  | cons a ts ih =>
    cases t with | mk f r =>
    obtain ⟨h1, h2, h3⟩ := ih r
    refine ⟨by simp [copy, h1], by simp [move, h2], fun i hi => ?_⟩
    cases i with
    | zero => rfl
    | succ i => exact h3 i (by simpa using hi)

/-- **C65, equality** is equality of all components. -/
theorem C65_equal (eq : (t : Type) → t → t → Bool) {ts : List Type} (a b : Tup ts) :
    equal eq a b = true ↔ ∀ i (hi : i < ts.length), eq _ (Model.Tuple.get a i hi) (Model.Tuple.get b i hi) = true := by
  induction ts with
  | nil => simp [equal]
  | cons t ts ih =>
    cases a with | mk a1 a2 =>
    cases b with | mk b1 b2 =>
    simp only [equal, Bool.and_eq_true, ih]
    constructor
    · rintro ⟨h0, h1⟩ i hi
      cases i with
      | zero => exact h0
      | succ i => exact h1 i (by simpa using hi)
    · intro h
      exact ⟨h 0 (by simp), fun i hi => h (i + 1) (by simpa using hi)⟩

/-- Positions from `i` on, visited in increasing order, each replaced by what the callable leaves: the specification
of `for_each`. -/
def visitFrom {ω : Type} (f : (t : Type) → t → ω → Out (t × ω)) {ts : List Type} (t : Tup ts) (i : Nat) (s : ω) :
    Out (Tup ts × ω) :=
  if h : i < ts.length then
    (f _ (Model.Tuple.get t i h) s).bind fun (v, s) => visitFrom f (Model.Tuple.set t i h v) (i + 1) s
  else .ok (t, s)
termination_by ts.length - i

theorem visitFrom_cons {ω : Type} (f : (t : Type) → t → ω → Out (t × ω)) {a : Type} {ts : List Type} (x : a) (t : Tup ts)
    (i : Nat) (s : ω) :
    visitFrom f (Tup.mk x t) (i + 1) s = (visitFrom f t i s).bind fun (r, s) => .ok (Tup.mk x r, s) := by
  generalize hn : ts.length - i = n
  induction n generalizing i t s with
  | zero =>
    rw [visitFrom, visitFrom]
    have h1 : ¬ i < ts.length := by omega
    have h2 : ¬ i + 1 < (a :: ts).length := by simp; omega
    rw [dif_neg h1, dif_neg h2]; rfl
  | succ n ih =>
    rw [visitFrom, visitFrom]
    have h1 : i < ts.length := by omega
    have h2 : i + 1 < (a :: ts).length := by simp; omega
    rw [dif_pos h1, dif_pos h2]
    show (f (ts.get ⟨i, h1⟩) (Model.Tuple.get t i h1) s).bind _ = _
    cases hf : f (ts.get ⟨i, h1⟩) (Model.Tuple.get t i h1) s with
    | ok q =>
      obtain ⟨v, s'⟩ := q
      exact ih (Model.Tuple.set t i h1 v) (i + 1) s' (by omega)
    | _ => rfl

/-- **C65, for_each** visits the components in order, each exactly once, by reference. -/
theorem C65_for_each {ω : Type} (f : (t : Type) → t → ω → Out (t × ω)) {ts : List Type} (t : Tup ts) (s : ω) :
    forEach f t s = visitFrom f t 0 s := by
  induction ts generalizing s with
  | nil => cases t; rw [visitFrom]; rfl
  | cons a ts ih =>
    cases t with | mk x t =>
    rw [visitFrom]
    have h0 : 0 < (a :: ts).length := by simp
    rw [dif_pos h0]
    show _ = (f a x s).bind _
    simp only [forEach]
    cases hf : f a x s with
    | ok q =>
      obtain ⟨v, s'⟩ := q
      show (forEach f t s').bind _ = visitFrom f (Tup.mk v t) (0 + 1) s'
      rw [visitFrom_cons, ih]
    | _ => rfl

/-- **C65, tie.** Assigning a tuple to `tie(x0, x1, ...)` of distinct variables gives each variable its component and
changes no other variable. -/
theorem C65_tie {V : Type} [DecidableEq V] {ty : V → Type} (xs : List V) (hnd : xs.Nodup) (t : Tup (xs.map ty))
    (mem : (x : V) → ty x) :
    (∀ i (hi : i < xs.length), HEq (tieAssign xs t mem xs[i]) (Model.Tuple.get t i (by simpa using hi))) ∧
    (∀ y, y ∉ xs → tieAssign xs t mem y = mem y) := by
  induction xs generalizing mem with
  | nil => exact ⟨fun i hi => absurd hi (by simp), fun y _ => rfl⟩
  | cons x xs ih =>
    have hnd' := List.nodup_cons.1 hnd
    cases t with | mk f r =>
    obtain ⟨h1, h2⟩ := ih hnd'.2 r (store mem x f)
    constructor
    · intro i hi
      cases i with
      | zero =>
        simp only [List.getElem_cons_zero, tieAssign]
        rw [h2 x hnd'.1]
        simp only [store, dif_pos]
        exact HEq.rfl
      | succ i => exact h1 i (by simpa using hi)
    · intro y hy
      simp only [List.mem_cons, not_or] at hy
      simp only [tieAssign]
      rw [h2 y hy.2]
      simp [store, hy.1]

/-- **C65, tie to tie.** `tie(x0, x1, ...) = tie(y0, y1, ...)` gives each `xi` the old value of `yi` and changes no other variable, if the
`xi` are distinct and none of them is read after it is written (`xi` is not `yj` for `i < j`). -/
theorem C65_tie_tie {V : Type} [DecidableEq V] {ty : V → Type} (ls : List (Link ty))
    (hp : ls.Pairwise fun l l' => l.dst ≠ l'.dst ∧ l.dst ≠ l'.src) (mem : (x : V) → ty x) :
    (∀ l ∈ ls, tieTie ls mem l.dst = l.conv (mem l.src)) ∧ ∀ y, (∀ l ∈ ls, y ≠ l.dst) → tieTie ls mem y = mem y := by
  induction ls generalizing mem with
  | nil => exact ⟨fun l hl => (by cases hl), fun y _ => rfl⟩
  | cons l ls ih =>
    obtain ⟨h1, h2⟩ := List.pairwise_cons.1 hp
    obtain ⟨i1, i2⟩ := ih h2 (store mem l.dst (l.conv (mem l.src)))
    refine ⟨fun l' hl => ?_, fun y hy => ?_⟩
    · rcases List.mem_cons.1 hl with rfl | hl
      · rw [tieTie, i2 _ fun l'' hl'' => (h1 l'' hl'').1]
        simp [store]
      · rw [tieTie, i1 l' hl, store, dif_neg (fun h => (h1 l' hl).2 h.symm)]
    · rw [tieTie, i2 y fun l' hl' => hy l' (List.mem_cons_of_mem _ hl'), store, dif_neg (hy l (List.mem_cons_self ..))]

/-- **C65, tie to tie, the condition is needed.** `tie(x, y) = tie(y, x)` does not exchange the variables: both have the old value of `y`. -/
theorem C65_tie_swap_fails {V τ : Type} [DecidableEq V] {x y : V} (h : x ≠ y) (mem : V → τ) :
    tieTie (ty := fun _ => τ) [⟨x, y, id⟩, ⟨y, x, id⟩] mem x = mem y ∧ tieTie (ty := fun _ => τ) [⟨x, y, id⟩, ⟨y, x, id⟩] mem y = mem y := by
  simp [tieTie, store, h]

/-- **C65, assignment from a tuple of other types** converts each component, independently of the others. -/
theorem C65_convert (cs : List Conv) (t : Tup (cs.map Conv.u)) (i : Nat) (hi : i < cs.length) (x : cs[i].u)
    (hx : HEq (Model.Tuple.get t i (by simpa using hi)) x) : HEq (Model.Tuple.get (convert cs t) i (by simpa using hi)) (cs[i].f x) := by
  induction cs generalizing i with
  | nil => simp at hi
  | cons c cs ih =>
    cases t with | mk f r =>
    cases i with
    | zero => cases eq_of_heq hx; exact HEq.rfl
    | succ i => exact ih r i (by simpa using hi) x hx

/-- pairs -/
theorem C65_pair {a b : Type} (x : a) (y : b) :
    let p : Tup [a, b] := make [a, b] fun i => match i with | ⟨0, _⟩ => x | ⟨1, _⟩ => y
    first p = x ∧ second p = y := ⟨rfl, rfl⟩

example : Model.Tuple.get (ts := [Nat, Bool, String]) (.mk 3 (.mk true (.mk "x" .unit))) 2 (by decide) = "x" := rfl
example : forEach (ω := Nat) (fun _ x n => .ok (x, n + 1)) (ts := [Nat, Bool]) (.mk 3 (.mk true .unit)) 0 =
    .ok (.mk 3 (.mk true .unit), 2) := rfl
example : tieAssign (V := Bool) (ty := fun _ => Nat) [false, true] (.mk 7 (.mk 8 .unit)) (fun _ => 0) true = 8 := rfl
/-- rotating three variables to the left works, exchanging two does not -/
example : let m := tieTie (ty := fun _ : Fin 3 => Nat) [⟨0, 1, id⟩, ⟨1, 2, id⟩] (fun i => 10 + i); (m 0, m 1, m 2) = (11, 12, 12) := rfl
example : let m := tieTie (ty := fun _ : Fin 2 => Nat) [⟨0, 1, id⟩, ⟨1, 0, id⟩] (fun i => 10 + i); (m 0, m 1) = (11, 11) := rfl
example : ([⟨0, 1, id⟩, ⟨1, 2, id⟩] : List (Link fun _ : Fin 3 => Nat)).Pairwise fun l l' => l.dst ≠ l'.dst ∧ l.dst ≠ l'.src := by decide
example : Model.Tuple.get (convert [⟨Int, Nat, Int.ofNat⟩, ⟨Nat, Bool, Bool.toNat⟩] (.mk 3 (.mk true .unit))) 1 (by decide) = (1 : Nat) := rfl

end Verif.Props
