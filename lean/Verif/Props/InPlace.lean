import Verif.Proof.InPlace
import Verif.Props.Collect
/-!
# Property C99: functions that change elements through the references an iterator hands out

`useVec j u`, `useList j u`: the client takes `iter()` of vector or list `j` and uses it as `u` says: `for_each`, `fold` or
`find` over any number of filters and maps (Model/InPlace.lean).  `use u xs`: the same on a list of values; it answers the
result and what the elements are afterwards (Spec/InPlace.lean).  `κ` is everything else the functions affect.
-/
namespace Verif.Props
open Verif Verif.Model.InPlace Verif.Spec.InPlace
open Verif.Model.Collect (World)

namespace InPlace

variable {κ α ρ : Type} {u : Use κ α ρ} {k k' : κ} {xs xs' : List α} {r : ρ} {j : Nat}

/-- C99, vectors.  The call does what the specification says, the vector holds the new values of its elements at their old
places (same size, same capacity), and every other vector is as before.  The call cannot fail in any way of its own. -/
theorem C99_vector {ty : Model.Mem.ElemTy α} {w : Model.Vector.World α} {c a : Nat} (hr : Spec.Vector.Reach ty w)
    (hx : Spec.Vector.view w j = some ⟨xs, c, a⟩) (hu : use u xs k = .ok ((r, xs'), k')) :
    ∃ w', useVec j u ⟨k, w⟩ = .ok (r, ⟨k', w'⟩) ∧ Spec.Vector.Reach ty w' ∧
      Spec.Vector.view w' = Spec.Vector.put (Spec.Vector.view w) j (some ⟨xs', c, a⟩) := by
  obtain ⟨v, hv, rp, rfl, rfl⟩ := Proof.Vector.reach_get hr hx
  have hH : Proof.InPlace.VecH ty (Spec.Vector.view w) j v xs w := ⟨hr, hv, by
    funext i; simp only [Spec.Vector.put]; split
    · rename_i e; rw [e, hx]
    · rfl⟩
  have := Proof.InPlace.use_sim (Proof.InPlace.walks_vec ty (Spec.Vector.view w) j v) u (k := k) (s := Model.Vector.iter v) hH rfl
  rw [hu] at this
  have e : useVec j u ⟨k, w⟩ = u.run slots (fun it => Model.Collect.onMem (nextSlot it)) (Model.Vector.iter v) ⟨k, w⟩ := by
    simp only [useVec, Prog.bind_run, Model.Collect.onMem, Model.Vector.var, hv, Out.bind_ok]
  rw [e]
  cases he : u.run slots (fun it => Model.Collect.onMem (nextSlot it)) (Model.Vector.iter v) ⟨k, w⟩ with
  | ok q =>
    rw [he] at this
    obtain ⟨q1, q2, q3⟩ := q
    obtain ⟨h1, h2, h3⟩ := this
    dsimp only at h1 h2 h3
    subst h1 h2
    exact ⟨q3, rfl, h3.reach, h3.view⟩
  | _ => rw [he] at this; exact this.elim

/-- C99, lists. -/
theorem C99_list {cfg : Model.LL.Cfg α} {w : Model.LL.World α} {a : Nat} (hr : Spec.LL.Reach cfg w)
    (hx : Spec.LL.view w j = some ⟨some xs, a⟩) (hu : use u xs k = .ok ((r, xs'), k')) :
    ∃ w', useList j u ⟨k, w⟩ = .ok (r, ⟨k', w'⟩) ∧ Spec.LL.Reach cfg w' ∧
      Spec.LL.view w' = Spec.LL.put (Spec.LL.view w) j (some ⟨some xs', a⟩) := by
  obtain ⟨C, hd, tl, cs, I, hC, rfl, hcs⟩ := Proof.LL.reach_get hr hx
  have rp := I.rep hC
  have hH : Proof.InPlace.ListH cfg (Spec.LL.view w) j hd tl a (cs.map Prod.fst) (Proof.LL.vals cs) w := ⟨hr, by
    rw [I.var hC]; simp [Proof.LL.lst], by
    funext i; simp only [Spec.LL.put]; split
    · rename_i e; rw [e, hx]
    · rfl, cs, hcs, rfl⟩
  have := Proof.InPlace.use_sim (Proof.InPlace.walks_list cfg (Spec.LL.view w) j hd tl a (cs.map Prod.fst)) u (k := k)
    (s := ⟨some (Proof.LL.headOf tl cs), some tl⟩) hH (by cases cs <;> rfl)
  rw [hu] at this
  have e : useList j u ⟨k, w⟩ = u.run nodes (fun it => Model.Collect.onMem (nextNode it)) ⟨some (Proof.LL.headOf tl cs), some tl⟩ ⟨k, w⟩ := by
    simp only [useList, Prog.bind_run, Model.Collect.onMem, Model.LL.var, I.var hC, Out.bind_ok, Model.LL.inHeap, Model.LL.iter,
      show (Proof.LL.lst hd tl cs a).head = some hd from rfl, rp.getNext_hd, Prog.pure_run, show (Proof.LL.lst hd tl cs a).tail = some tl from rfl]
  rw [e]
  cases he : u.run nodes (fun it => Model.Collect.onMem (nextNode it)) ⟨some (Proof.LL.headOf tl cs), some tl⟩ ⟨k, w⟩ with
  | ok q =>
    rw [he] at this
    obtain ⟨q1, q2, q3⟩ := q
    obtain ⟨h1, h2, h3⟩ := this
    dsimp only at h1 h2 h3
    subst h1 h2
    exact ⟨q3, rfl, h3.reach, h3.view⟩
  | _ => rw [he] at this; exact this.elim

/-- C99, vectors: a function that panics, does not return or is undefined makes the whole call do the same; nothing else
does. -/
theorem C99_vector_function_fails {ty : Model.Mem.ElemTy α} {w : Model.Vector.World α} {c a : Nat} (hr : Spec.Vector.Reach ty w)
    (hx : Spec.Vector.view w j = some ⟨xs, c, a⟩) :
    (use u xs k = .panic ↔ useVec j u ⟨k, w⟩ = .panic) ∧ (use u xs k = .div ↔ useVec j u ⟨k, w⟩ = .div) ∧
    (use u xs k = .ub ↔ useVec j u ⟨k, w⟩ = .ub) ∧ (use u xs k = .oom ↔ useVec j u ⟨k, w⟩ = .oom) := by
  obtain ⟨v, hv, rp, rfl, rfl⟩ := Proof.Vector.reach_get hr hx
  have hH : Proof.InPlace.VecH ty (Spec.Vector.view w) j v xs w := ⟨hr, hv, by
    funext i; simp only [Spec.Vector.put]; split
    · rename_i e; rw [e, hx]
    · rfl⟩
  have t := Proof.InPlace.use_sim (Proof.InPlace.walks_vec ty (Spec.Vector.view w) j v) u (k := k) (s := Model.Vector.iter v) hH rfl
  have e : useVec j u ⟨k, w⟩ = u.run slots (fun it => Model.Collect.onMem (nextSlot it)) (Model.Vector.iter v) ⟨k, w⟩ := by
    simp only [useVec, Prog.bind_run, Model.Collect.onMem, Model.Vector.var, hv, Out.bind_ok]
  rw [← e] at t
  cases h1 : use u xs k <;> cases h2 : useVec j u ⟨k, w⟩ <;> rw [h1, h2] at t <;> first | exact t.elim | simp

/-- C99, lists. -/
theorem C99_list_function_fails {cfg : Model.LL.Cfg α} {w : Model.LL.World α} {a : Nat} (hr : Spec.LL.Reach cfg w)
    (hx : Spec.LL.view w j = some ⟨some xs, a⟩) :
    (use u xs k = .panic ↔ useList j u ⟨k, w⟩ = .panic) ∧ (use u xs k = .div ↔ useList j u ⟨k, w⟩ = .div) ∧
    (use u xs k = .ub ↔ useList j u ⟨k, w⟩ = .ub) ∧ (use u xs k = .oom ↔ useList j u ⟨k, w⟩ = .oom) := by
  obtain ⟨C, hd, tl, cs, I, hC, rfl, hcs⟩ := Proof.LL.reach_get hr hx
  have rp := I.rep hC
  have hH : Proof.InPlace.ListH cfg (Spec.LL.view w) j hd tl a (cs.map Prod.fst) (Proof.LL.vals cs) w := ⟨hr, by
    rw [I.var hC]; simp [Proof.LL.lst], by
    funext i; simp only [Spec.LL.put]; split
    · rename_i e; rw [e, hx]
    · rfl, cs, hcs, rfl⟩
  have t := Proof.InPlace.use_sim (Proof.InPlace.walks_list cfg (Spec.LL.view w) j hd tl a (cs.map Prod.fst)) u (k := k)
    (s := ⟨some (Proof.LL.headOf tl cs), some tl⟩) hH (by cases cs <;> rfl)
  have e : useList j u ⟨k, w⟩ = u.run nodes (fun it => Model.Collect.onMem (nextNode it)) ⟨some (Proof.LL.headOf tl cs), some tl⟩ ⟨k, w⟩ := by
    simp only [useList, Prog.bind_run, Model.Collect.onMem, Model.LL.var, I.var hC, Out.bind_ok, Model.LL.inHeap, Model.LL.iter,
      show (Proof.LL.lst hd tl cs a).head = some hd from rfl, rp.getNext_hd, Prog.pure_run, show (Proof.LL.lst hd tl cs a).tail = some tl from rfl]
  rw [← e] at t
  cases h1 : use u (Proof.LL.vals cs) k <;> cases h2 : useList j u ⟨k, w⟩ <;> rw [h1, h2] at t <;> first | exact t.elim | simp

/-! ## What this means for functions without other effects -/

/-- On lists of values: `c.iter() | filter(p) | for_each([](auto& x) { x = f(x); })` changes exactly the elements that satisfy `p`. -/
theorem use_for_each (p : α → Bool) (f : α → α) (xs : List α) (k : κ) :
    use (.forEachRef (.filter .source fun x => return (p x, x)) fun x => return ((), f x)) xs k =
      .ok (((), xs.map fun x => if p x then f x else x), k) := by
  simp only [use]
  induction xs with
  | nil => rfl
  | cons x xs ih =>
    simp only [sweep, refs, Prog.bind_run, Prog.pure_run, Out.bind_ok] at ih ⊢
    cases hp : p x <;> simp [hp, ih]

/-- On lists of values: in `c.iter() | map([](auto& x) { … }) | …` the function is applied to every element once; its results are passed on
in order, and its changes stay in the container. -/
theorem use_map {γ : Type} (f : α → γ × α) (xs : List α) (k : κ) :
    use (.fold (.first .source fun x => return f x) (fun ys y => return ys ++ [y]) []) xs k =
      .ok ((xs.map fun x => (f x).1, xs.map fun x => (f x).2), k) := by
  simp only [use]
  suffices ∀ acc : List γ, sweep (fun acc x => do
      let b ← item (.first .source fun x => return f x : Stages κ α γ) x
      match b.1 with
      | none => return (acc, b.2)
      | some c => do
        let acc ← (return acc ++ [c] : Prog κ (List γ))
        return (acc, b.2)) acc xs k = .ok ((acc ++ xs.map fun x => (f x).1, xs.map fun x => (f x).2), k) 
    from (this []).trans (by simp)
  induction xs with
  | nil => intro acc; simp [sweep, Prog.pure_run]
  | cons x xs ih =>
    intro acc
    have := ih (acc ++ [(f x).1])
    simp only [sweep, item, refs, Prog.bind_run, Prog.pure_run, Out.bind_ok, if_true] at this ⊢
    simp [this]

/-- On lists of values: assigning through the reference `find` answers changes the first element that satisfies `p` and no other. -/
theorem use_find (p : α → Bool) (f : α → α) (xs : List α) (k : κ) :
    use (.findRef .source (fun x => return (p x, x)) fun x => return ((), f x)) xs k =
      .ok ((xs.any p, match xs.findIdx? p with
        | none => xs
        | some i => xs.modify i f), k) := by
  simp only [use]
  induction xs with
  | nil => rfl
  | cons x xs ih =>
    simp only [search, refs, Prog.bind_run, Prog.pure_run, Out.bind_ok, if_true] at ih ⊢
    cases hp : p x with
    | true => simp [hp, List.findIdx?_cons]
    | false =>
      simp only [Bool.false_eq_true, if_false, Prog.bind_run, Prog.pure_run, ih, Out.bind_ok, List.any_cons, hp, Bool.false_or, List.findIdx?_cons]
      cases xs.findIdx? p <;> simp

section
variable {ty : Model.Mem.ElemTy α} {w : Model.Vector.World α} {c a : Nat} {cfg : Model.LL.Cfg α} {l : Model.LL.World α}

/-- C99: `c.iter() | filter(p) | for_each([](auto& x) { x = f(x); })` changes exactly the elements that satisfy `p`; every other
container is as before. -/
theorem C99_for_each (p : α → Bool) (f : α → α) :
    (Spec.Vector.Reach ty w → Spec.Vector.view w j = some ⟨xs, c, a⟩ →
      ∃ w', useVec j (.forEachRef (.filter .source fun x => return (p x, x)) fun x => return ((), f x)) ⟨k, w⟩ = .ok ((), ⟨k, w'⟩) ∧
        Spec.Vector.view w' = Spec.Vector.put (Spec.Vector.view w) j (some ⟨xs.map fun x => if p x then f x else x, c, a⟩)) ∧
    (Spec.LL.Reach cfg l → Spec.LL.view l j = some ⟨some xs, a⟩ →
      ∃ l', useList j (.forEachRef (.filter .source fun x => return (p x, x)) fun x => return ((), f x)) ⟨k, l⟩ = .ok ((), ⟨k, l'⟩) ∧
        Spec.LL.view l' = Spec.LL.put (Spec.LL.view l) j (some ⟨some (xs.map fun x => if p x then f x else x), a⟩)) := by
  refine ⟨fun h1 h2 => ?_, fun h1 h2 => ?_⟩
  · obtain ⟨w', e1, -, e2⟩ := C99_vector h1 h2 (use_for_each p f xs k); exact ⟨w', e1, e2⟩
  · obtain ⟨w', e1, -, e2⟩ := C99_list h1 h2 (use_for_each p f xs k); exact ⟨w', e1, e2⟩

/-- C99: in `c.iter() | map([](auto& x) { … }) | …` the function is applied to every element once; its results are passed on
in order, and its changes stay in the container. -/
theorem C99_map {γ : Type} (f : α → γ × α) :
    (Spec.Vector.Reach ty w → Spec.Vector.view w j = some ⟨xs, c, a⟩ →
      ∃ w', useVec j (.fold (.first .source fun x => return f x) (fun ys y => return ys ++ [y]) []) ⟨k, w⟩ =
          .ok (xs.map fun x => (f x).1, ⟨k, w'⟩) ∧
        Spec.Vector.view w' = Spec.Vector.put (Spec.Vector.view w) j (some ⟨xs.map fun x => (f x).2, c, a⟩)) ∧
    (Spec.LL.Reach cfg l → Spec.LL.view l j = some ⟨some xs, a⟩ →
      ∃ l', useList j (.fold (.first .source fun x => return f x) (fun ys y => return ys ++ [y]) []) ⟨k, l⟩ =
          .ok (xs.map fun x => (f x).1, ⟨k, l'⟩) ∧
        Spec.LL.view l' = Spec.LL.put (Spec.LL.view l) j (some ⟨some (xs.map fun x => (f x).2), a⟩)) := by
  refine ⟨fun h1 h2 => ?_, fun h1 h2 => ?_⟩
  · obtain ⟨w', e1, -, e2⟩ := C99_vector h1 h2 (use_map f xs k); exact ⟨w', e1, e2⟩
  · obtain ⟨w', e1, -, e2⟩ := C99_list h1 h2 (use_map f xs k); exact ⟨w', e1, e2⟩

/-- C99: assigning through the reference `find` answers changes the first element that satisfies `p` and no other. -/
theorem C99_find (p : α → Bool) (f : α → α) {i : Nat} (hi : xs.findIdx? p = some i) :
    (Spec.Vector.Reach ty w → Spec.Vector.view w j = some ⟨xs, c, a⟩ →
      ∃ w', useVec j (.findRef .source (fun x => return (p x, x)) fun x => return ((), f x)) ⟨k, w⟩ = .ok (true, ⟨k, w'⟩) ∧
        Spec.Vector.view w' = Spec.Vector.put (Spec.Vector.view w) j (some ⟨xs.modify i f, c, a⟩)) ∧
    (Spec.LL.Reach cfg l → Spec.LL.view l j = some ⟨some xs, a⟩ →
      ∃ l', useList j (.findRef .source (fun x => return (p x, x)) fun x => return ((), f x)) ⟨k, l⟩ = .ok (true, ⟨k, l'⟩) ∧
        Spec.LL.view l' = Spec.LL.put (Spec.LL.view l) j (some ⟨some (xs.modify i f), a⟩)) := by
  have hany : xs.any p = true := by
    cases h : xs.any p with
    | true => rfl
    | false =>
      have : xs.findIdx? p = none := by simpa [List.findIdx?_eq_none_iff] using h
      rw [this] at hi; cases hi
  have hu := use_find (κ := κ) p f xs k
  rw [hany, hi] at hu
  refine ⟨fun h1 h2 => ?_, fun h1 h2 => ?_⟩
  · obtain ⟨w', e1, -, e2⟩ := C99_vector h1 h2 hu; exact ⟨w', e1, e2⟩
  · obtain ⟨w', e1, -, e2⟩ := C99_list h1 h2 hu; exact ⟨w', e1, e2⟩

end

/-! ## Examples -/

/-- Adds one to the odd elements of the vector `1, 2, 3`. -/
example : ∃ m m', Spec.Vector.Reach exTy m ∧ (Spec.Vector.view m 0).map Spec.Vector.Var.xs = some [1, 2, 3] ∧
    useVec 0 (.forEachRef (.filter .source fun x => return (x % 2 == 1, x)) fun x => return ((), x + 1)) ⟨(), m⟩ = .ok ((), ⟨(), m'⟩) ∧
    (Spec.Vector.view m' 0).map Spec.Vector.Var.xs = some [2, 2, 4] := by
  obtain ⟨v, hv, h0, -⟩ := exReach
  obtain ⟨w', h1, -, h2⟩ := C99_vector (κ := Unit) (k := ()) hv h0 (use_for_each (fun x => x % 2 == 1) (fun x => x + 1) _ _)
  refine ⟨v, w', hv, by simp [h0], h1, ?_⟩
  rw [h2]
  simp [Spec.Vector.put]

/-- Takes the elements of the list `3, 1, 2, 1` out, leaving zeros, and stops with a panic at the first 2. -/
example : ∃ m m', Spec.LL.Reach (Lists.exCfg true) m ∧ Spec.LL.contents (Spec.LL.view m) 0 = some [3, 1, 2, 1] ∧
    useList 0 (.fold (.first .source fun x => return (x, 0)) (fun ys y => return ys ++ [y]) []) ⟨(), m⟩ = .ok ([3, 1, 2, 1], ⟨(), m'⟩) ∧
    Spec.LL.contents (Spec.LL.view m') 0 = some [0, 0, 0, 0] ∧
    useList 0 (.forEachRef .source fun x => if x = 2 then Prog.panic else return ((), x)) ⟨(), m⟩ = .panic := by
  obtain ⟨l, hl, h4⟩ := Lists.exReach true
  have h0 : Spec.LL.view l 0 = some ⟨some [3, 1, 2, 1], 0⟩ := by rw [h4 0 (by decide)]; rfl
  obtain ⟨w', h1, -, h2⟩ := C99_list (κ := Unit) (k := ()) hl h0 (use_map (fun x => (x, 0)) _ _)
  refine ⟨l, w', hl, by simp [Spec.LL.contents, h0], h1, by rw [h2]; simp [Spec.LL.contents, Spec.LL.put], ?_⟩
  exact (C99_list_function_fails (κ := Unit) (k := ()) hl h0).1.1 rfl

end InPlace
end Verif.Props
