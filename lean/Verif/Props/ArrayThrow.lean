import Verif.Proof.ArrayThrow
import Verif.Props.ArrayHist
/-! # Property C116: arrays and owning iterators whose elements throw when copied or moved -/
namespace Verif.Props
open Verif Verif.Model.Array Verif.Spec.Arr Verif.Spec.ArrT
open Verif.Proof.ArrT (runT_ok stepT_ok)

variable {α : Type}

/-- A history up to some point, in the specification and in the model. -/
theorem reachT (E : Elem α) (ne : α → α → Bool) (ops : List (Op α × Option Nat)) (rs A)
    (hs : Spec.ArrT.runT E ne ops noArrs = some (.ok (rs, A))) :
    ∃ w, Model.Array.runT E ne ops World.init = .ok (rs, w) ∧ Proof.Arr.R A w := by
  have h := runT_ok E ne ops noArrs World.init R_init_arr
  rw [hs] at h
  exact h

theorem agree_of_R (E : Elem α) {A : Ideal α} {w : World α} (h : Proof.Arr.R A w) : ArrAgree E A w := by
  refine ⟨arrContent_eq h, fun k hk => ?_, itContent_eq E h⟩
  have := h.it k
  rw [hk] at this
  exact this

/-- C116 (partial).  For every element type, every inequality `ne`, every program over array variables and owning iterators that catches the
exceptions, and every choice, for each call, of the copy or move of an element that throws in it: each call answers as the
specification says, an exception reaches the caller exactly where it says (`none`), afterwards the arrays have the contents and
the iterators hand out the elements it gives, for the calls after a caught exception too, and the program ends early exactly where it says.
Nothing undefined happens.
Missing: what one would ask for, that a call that throws changes nothing and that no exception ends the program.  The code does not
do that (`C116_copy_assign_fails`, `C116_into_iter_fails`, `C116_next_fails`, `C116_move_fails`, `C116_iterator_move_fails`,
`C116_iterator_copy_assign_fails`); for the other calls it does (`C116_untouched`). -/
theorem C116_history_partial (E : Elem α) (ne : α → α → Bool) (ops : List (Op α × Option Nat)) :
    (∀ rs A, Spec.ArrT.runT E ne ops noArrs = some (.ok (rs, A)) →
      ∃ w, Model.Array.runT E ne ops World.init = .ok (rs, w) ∧ ArrAgree E A w) ∧
    (Spec.ArrT.runT E ne ops noArrs = some .panic → Model.Array.runT E ne ops World.init = .panic) := by
  constructor
  · intro rs A hs
    obtain ⟨w, h1, h2⟩ := reachT E ne ops rs A hs
    exact ⟨w, h1, agree_of_R E h2⟩
  · intro hs
    have h := runT_ok E ne ops noArrs World.init R_init_arr
    rw [hs] at h
    exact h

/-- C116: programs in which nothing throws are those of C72: same answers, same worlds. -/
theorem C116_no_throw (E : Elem α) (ne : α → α → Bool) (ops : List (Op α)) (w : World α) :
    Model.Array.runT E ne (ops.map fun op => (op, none)) w = (run E ne ops w >>= fun p => .ok (p.1.map some, p.2)) := by
  induction ops generalizing w with
  | nil => rfl
  | cons op ops ih =>
    simp only [List.map_cons, Model.Array.runT, run, Prog.bind_run]
    rw [Proof.ArrT.stepT_past E ne none op w (by intro m hm; simp at hm)]
    cases step E ne op w with
    | ok p =>
      obtain ⟨r, w'⟩ := p
      simp only [Out.bind_ok, ih]
      cases run E ne ops w' <;> rfl
    | _ => rfl

/-- The calls that copy into something new, and assignment to one element. -/
def buildsNew : Op α → Bool
  | .newList .. | .newRaw .. | .newCopy .. | .set .. | .itCopy .. => true
  | _ => false

/-- C116: construction from a list, from a raw array and by copying (arrays and owning iterators), and assignment to an element:
after every history, if one of the call's copies or moves throws, the exception reaches the caller and every array and every
iterator is as it was; otherwise the call does what it is documented to do. -/
theorem C116_untouched (E : Elem α) (ne : α → α → Bool) (ops : List (Op α × Option Nat)) (rs A)
    (hs : Spec.ArrT.runT E ne ops noArrs = some (.ok (rs, A))) (op : Op α) (hop : buildsNew op = true) (x : Option Nat) (r : Ret α)
    (A' : Ideal α) (ha : specStep false E ne op A = some (.ok (r, A'))) :
    ∃ w w', Model.Array.runT E ne ops World.init = .ok (rs, w) ∧
      ((stepT E ne x op w = .ok (none, w') ∧ ArrAgree E A w') ∨ (stepT E ne x op w = .ok (some r, w') ∧ ArrAgree E A' w')) := by
  obtain ⟨w, h1, hR⟩ := reachT E ne ops rs A hs
  have key : callT E ne x op A = some (.ok (none, A)) ∨ callT E ne x op A = some (.ok (some r, A')) := by
    simp only [callT, ha]
    cases x with
    | none => exact .inr rfl
    | some n =>
      have hf : fate E A n op = .thrown A ∨ fate E A n op = .fine := by
        cases op with
        | newList i N xs => simp only [fate]; split <;> simp
        | newRaw i xs => simp only [fate]; split <;> simp
        | newCopy i j => simp only [fate]; split <;> simp
        | set i p y => simp only [fate]; split <;> simp
        | itCopy k l => simp only [fate]; split <;> (try split) <;> simp
        | _ => simp [buildsNew] at hop
      rcases hf with hf | hf <;> simp [hf]
  rcases key with hc | hc
  · obtain ⟨w', e1, e2⟩ := stepT_ok E ne x op A w hR _ hc
    exact ⟨w, w', h1, .inl ⟨e1, agree_of_R E e2⟩⟩
  · obtain ⟨w', e1, e2⟩ := stepT_ok E ne x op A w hR _ hc
    exact ⟨w, w', h1, .inr ⟨e1, agree_of_R E e2⟩⟩

theorem values_map (vs : List α) : values (vs.map some) = some vs := by
  induction vs with
  | nil => rfl
  | cons v vs ih => simp [values, ih]

/-- C116 is false for copy assignment: if the copy of element `n` throws, the destination has the first `n` elements of the source
followed by its own old ones: neither what it had nor what was assigned. -/
theorem C116_copy_assign_fails (E : Elem α) (ne : α → α → Bool) (ops : List (Op α × Option Nat)) (rs A)
    (hs : Spec.ArrT.runT E ne ops noArrs = some (.ok (rs, A))) (i j : Nat) (hij : i ≠ j) (d : List (Option α)) (vs : List α)
    (hi : A.arr i = some d) (hj : A.arr j = some (vs.map some)) (hl : d.length = vs.length) (n : Nat) (hn : n < vs.length) :
    ∃ w w', Model.Array.runT E ne ops World.init = .ok (rs, w) ∧ arrContent w i = some d ∧
      stepT E ne (some n) (.copyAssign i j) w = .ok (none, w') ∧ arrContent w' i = some ((vs.take n).map some ++ d.drop n) ∧
      (∀ m, m ≠ i → arrContent w' m = arrContent w m) := by
  obtain ⟨w, h1, hR⟩ := reachT E ne ops rs A hs
  obtain ⟨w', h2, hR'⟩ := stepT_ok E ne (some n) (.copyAssign i j) A w hR
    (.ok (none, A.setArr i (some ((vs.take n).map some ++ d.drop n)))) (by
      simp [callT, specStep, hi, hj, hl, hij, values_map, fate, cells, hn])
  refine ⟨w, w', h1, ?_, h2, ?_, fun m hm => ?_⟩
  · rw [arrContent_eq hR]; exact hi
  · rw [arrContent_eq hR']; simp [Ideal.setArr]
  · rw [arrContent_eq hR', arrContent_eq hR]; simp [Ideal.setArr, hm]

/-- C116 is false for `into_iter`: if the move of element `n` throws, there is no iterator, and the first `n` elements are lost: their
cells hold what the moves left behind. -/
theorem C116_into_iter_fails (E : Elem α) (ne : α → α → Bool) (ops : List (Op α × Option Nat)) (rs A)
    (hs : Spec.ArrT.runT E ne ops noArrs = some (.ok (rs, A))) (k i : Nat) (hk : A.it k = none) (vs : List α)
    (hi : A.arr i = some (vs.map some)) (n : Nat) (hn : n < vs.length) :
    ∃ w w', Model.Array.runT E ne ops World.init = .ok (rs, w) ∧ arrContent w i = some (vs.map some) ∧
      stepT E ne (some n) (.intoIter k i) w = .ok (none, w') ∧
      arrContent w' i = some (((vs.take n).map E.mv ++ vs.drop n).map some) ∧
      (∀ m, m ≠ i → arrContent w' m = arrContent w m) ∧ w'.it k = none := by
  obtain ⟨w, h1, hR⟩ := reachT E ne ops rs A hs
  obtain ⟨w', h2, hR'⟩ := stepT_ok E ne (some n) (.intoIter k i) A w hR
    (.ok (none, A.setArr i (some (((vs.take n).map E.mv ++ vs.drop n).map some)))) (by
      simp [callT, specStep, hk, hi, values_map, fate, cells, hn, Function.comp_def])
  refine ⟨w, w', h1, ?_, h2, ?_, fun m hm => ?_, ?_⟩
  · rw [arrContent_eq hR]; exact hi
  · rw [arrContent_eq hR']; simp [Ideal.setArr]
  · rw [arrContent_eq hR', arrContent_eq hR]; simp [Ideal.setArr, hm]
  · exact (agree_of_R E hR').2.1 k (by simpa [Ideal.setArr] using hk)

/-- C116 is false for `next`: if moving the next element out throws, or moving it into the `Option`, the iterator has passed it: the
calls that follow hand out the elements behind it and never this one. -/
theorem C116_next_fails (E : Elem α) (ne : α → α → Bool) (ops : List (Op α × Option Nat)) (rs A)
    (hs : Spec.ArrT.runT E ne ops noArrs = some (.ok (rs, A))) (k N : Nat) (v : α) (vs : List α)
    (hk : A.it k = some (N, v :: vs)) (n : Nat) (hn : n < 2) :
    ∃ w w' t t', Model.Array.runT E ne ops World.init = .ok (rs, w) ∧ w.it k = some (N, t) ∧ t.drain E = .ok (v :: vs) ∧
      stepT E ne (some n) (.next k) w = .ok (none, w') ∧ w'.it k = some (N, t') ∧ t'.drain E = .ok vs := by
  obtain ⟨w, h1, hR⟩ := reachT E ne ops rs A hs
  obtain ⟨w', h2, hR'⟩ := stepT_ok E ne (some n) (.next k) A w hR (.ok (none, A.setIt k (some (N, vs)))) (by
      simp [callT, specStep, hk, fate, hn])
  obtain ⟨t, a1, a2⟩ := itContent_eq E hR k N (v :: vs) hk
  obtain ⟨t', b1, b2⟩ := itContent_eq E hR' k N vs (by simp [Ideal.setIt])
  exact ⟨w, w', t, t', h1, a1, a2, h2, b1, b2⟩

/-- C116 is false for moving arrays: the move constructor and move assignment are declared `noexcept`, so a move of an element that
throws ends the program. -/
theorem C116_move_fails (E : Elem α) (ne : α → α → Bool) (ops : List (Op α × Option Nat)) (rs A)
    (hs : Spec.ArrT.runT E ne ops noArrs = some (.ok (rs, A))) (j : Nat) (vs : List α) (hj : A.arr j = some (vs.map some))
    (n : Nat) (hn : n < vs.length) :
    ∃ w, Model.Array.runT E ne ops World.init = .ok (rs, w) ∧
      (∀ i, A.arr i = none → stepT E ne (some n) (.newMove i j) w = .panic) ∧
      (∀ i d, i ≠ j → A.arr i = some d → d.length = vs.length → stepT E ne (some n) (.moveAssign i j) w = .panic) := by
  obtain ⟨w, h1, hR⟩ := reachT E ne ops rs A hs
  refine ⟨w, h1, fun i hi => ?_, fun i d hij hi hd => ?_⟩
  · exact stepT_ok E ne (some n) (.newMove i j) A w hR .panic (by
      simp [callT, specStep, hi, hj, values_map, fate, cells, hn])
  · exact stepT_ok E ne (some n) (.moveAssign i j) A w hR .panic (by
      simp [callT, specStep, hi, hj, values_map, fate, cells, hn, hij, hd])

/-- C116 is false for moving an owning iterator: the move constructor is `noexcept` and moves all `N` cells, also those handed out
long ago, so a move that throws ends the program even if the iterator has nothing left to hand out. -/
theorem C116_iterator_move_fails (E : Elem α) (ne : α → α → Bool) (ops : List (Op α × Option Nat)) (rs A)
    (hs : Spec.ArrT.runT E ne ops noArrs = some (.ok (rs, A))) (k l N : Nat) (vs : List α)
    (hl : A.it l = some (N, vs)) (hk : A.it k = none) (n : Nat) (hn : n < N) :
    ∃ w, Model.Array.runT E ne ops World.init = .ok (rs, w) ∧ stepT E ne (some n) (.itMove k l) w = .panic := by
  obtain ⟨w, h1, hR⟩ := reachT E ne ops rs A hs
  exact ⟨w, h1, stepT_ok E ne (some n) (.itMove k l) A w hR .panic (by simp [callT, specStep, hl, hk, fate, hn])⟩

/-- C116 is false for copy assignment of owning iterators (at the same position): if a copy throws, the elements still to come of the
destination are a mixture; the copies of elements already handed out come first. -/
theorem C116_iterator_copy_assign_fails (E : Elem α) (ne : α → α → Bool) (ops : List (Op α × Option Nat)) (rs A)
    (hs : Spec.ArrT.runT E ne ops noArrs = some (.ok (rs, A))) (k l : Nat) (hkl : k ≠ l) (N : Nat) (vs ts : List α)
    (hl : A.it l = some (N, vs)) (hk : A.it k = some (N, ts)) (hlen : ts.length = vs.length) (m : Nat) (hm : m < vs.length) :
    ∃ w w' t t', Model.Array.runT E ne ops World.init = .ok (rs, w) ∧ w.it k = some (N, t) ∧ t.drain E = .ok ts ∧
      stepT E ne (some (N - vs.length + m)) (.itCopyAssign k l) w = .ok (none, w') ∧ w'.it k = some (N, t') ∧
      t'.drain E = .ok (vs.take m ++ ts.drop m) := by
  obtain ⟨w, h1, hR⟩ := reachT E ne ops rs A hs
  have hN : vs.length ≤ N := by
    have := hR.it l
    rw [hl] at this
    obtain ⟨ps, -, h2, -⟩ := this
    omega
  have hf : fate E A (N - vs.length + m) (.itCopyAssign k l) = .thrown (A.setIt k (some (N, vs.take m ++ ts.drop m))) := by
    simp only [fate, hk, hl]
    rw [if_pos ⟨hkl, by omega⟩, show N - vs.length + m - (N - ts.length) = m by omega]
  obtain ⟨w', h2, hR'⟩ := stepT_ok E ne (some (N - vs.length + m)) (.itCopyAssign k l) A w hR
    (.ok (none, A.setIt k (some (N, vs.take m ++ ts.drop m)))) (by simp [callT, specStep, hk, hl, only, hlen, hf])
  obtain ⟨t, a1, a2⟩ := itContent_eq E hR k N ts hk
  obtain ⟨t', b1, b2⟩ := itContent_eq E hR' k N _ (by simp [Ideal.setIt]; rfl)
  exact ⟨w, w', t, t', h1, a1, a2, h2, b1, b2⟩

/-- C116, the exact extent.  After every history, a further allowed call in which something throws ends in an exception that leaves
everything as it was if and only if the specification says so. -/
theorem C116_exact (E : Elem α) (ne : α → α → Bool) (ops : List (Op α × Option Nat)) (rs A)
    (hs : Spec.ArrT.runT E ne ops noArrs = some (.ok (rs, A))) (op : Op α) (n : Nat) (r : Ret α) (A' : Ideal α)
    (ha : specStep false E ne op A = some (.ok (r, A'))) :
    ∃ w, Model.Array.runT E ne ops World.init = .ok (rs, w) ∧
      match fate E A n op with
      | .fine => ∃ w', stepT E ne (some n) op w = .ok (some r, w') ∧ ArrAgree E A' w'
      | .thrown B => ∃ w', stepT E ne (some n) op w = .ok (none, w') ∧ ArrAgree E B w'
      | .ends => stepT E ne (some n) op w = .panic := by
  obtain ⟨w, h1, hR⟩ := reachT E ne ops rs A hs
  refine ⟨w, h1, ?_⟩
  cases hf : fate E A n op with
  | fine =>
    obtain ⟨w', e1, e2⟩ := stepT_ok E ne (some n) op A w hR (.ok (some r, A')) (by simp [callT, ha, hf])
    exact ⟨w', e1, agree_of_R E e2⟩
  | thrown B =>
    obtain ⟨w', e1, e2⟩ := stepT_ok E ne (some n) op A w hR (.ok (none, B)) (by simp [callT, ha, hf])
    exact ⟨w', e1, agree_of_R E e2⟩
  | ends => exact stepT_ok E ne (some n) op A w hR .panic (by simp [callT, ha, hf])

/-- A program with caught exceptions (0 is what a move leaves behind): the list's third copy throws; assigning 0 to 1 throws at
element 2; `into_iter` throws at element 1 and loses element 0; the iterator of the other array loses 2 in `next`; copies of the
iterators throw or succeed. -/
example : ∃ A, Spec.ArrT.runT natElem (fun a b => a != b)
    [(.newList 0 3 [7, 8, 9], some 4), (.newList 0 3 [7, 8, 9], none), (.newRaw 1 [1, 2, 3], some 3), (.copyAssign 1 0, some 2),
      (.forEach 1, none), (.set 1 1 5, some 0), (.set 1 1 2, some 1), (.intoIter 0 0, some 1), (.forEach 0, none), (.intoIter 1 1, none),
      (.next 1, none), (.itCopy 2 1, some 2), (.itCopy 2 1, none), (.next 2, some 0), (.next 2, some 5), (.next 2, some 0), (.itMove 3 1, some 3),
      (.next 3, some 1), (.isEmpty 3, none), (.newCopy 4 1, some 0), (.newMove 4 1, none), (.itCopyAssign 1 1, some 0)] noArrs =
    some (.ok ([none, some .unit, some .unit, none, some (.vals [7, 8, 3]), none, some .unit, none, some (.vals [0, 8, 9]), some .unit,
      some (.opt (some 7)), none, some .unit, none, some (.opt (some 3)), some (.opt none), some .unit, none, some (.bool false), none,
      some .unit, some .unit], A)) := ⟨_, rfl⟩

/-- The hypotheses of the theorems above are met together: two arrays, two iterators at the same position with a common length. -/
example : ∃ rs A, Spec.ArrT.runT natElem (fun a b => a != b)
    [(.newRaw 0 [5, 8, 6], none), (.newRaw 1 [1, 2, 3], none), (.newRaw 2 [4, 5, 6], none), (.newRaw 3 [7, 7, 7], none),
      (.intoIter 0 2, none), (.intoIter 1 3, none), (.next 0, none), (.next 1, some 1)] noArrs =
      some (.ok (rs, A)) ∧ A.arr 0 = some ([5, 8, 6].map some) ∧ A.arr 1 = some ([1, 2, 3].map some) ∧
      A.it 0 = some (3, [5, 6]) ∧ A.it 1 = some (3, [7, 7]) ∧ A.it 5 = none ∧ A.arr 5 = none ∧
      specStep false natElem (fun a b => a != b) (.newCopy 5 0) A = some (.ok (.unit, A.setArr 5 (some ([5, 8, 6].map some)))) :=
  ⟨_, _, rfl, rfl, rfl, rfl, rfl, rfl, rfl, rfl⟩
/-- a program that is ended -/
example : Spec.ArrT.runT natElem (fun a b => a != b) [(.newRaw 0 [5, 8, 6], none), (.newMove 1 0, some 2)] noArrs = some .panic := rfl

end Verif.Props
