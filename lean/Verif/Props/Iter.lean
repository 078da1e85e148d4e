import Verif.Proof.Pipe
import Verif.Model.Range
/-! # Properties C53, C54, C55, C67: iterator pipelines and terminals -/
namespace Verif.Props
open Verif Verif.Model.Iter Verif.Spec.Pipe Verif.Proof.Pipe

variable {ω σ α β γ ρ : Type}

/-! ## C53 -/

/-- **C53.** For every source that hands out `xs`, every pipeline of maps and filters of any depth, collecting gives the
list obtained by mapping and filtering `xs`. -/
theorem C53_collect {α β : Type} (pp : PurePipe α β) {next : σ → Out (Option α × σ)} {s s' : σ} {xs : List α}
    (h : Spec.Produces next s xs s') (w : ω) :
    collect ((pp.toPipe ω).next (quiet next)) [] s w = .ok (pp.onList xs, w) := by
  rw [pipe_next, collect_pull h, all_pure]
  simp

/-- **C53, exhaustion.** A pipeline over a source that stays exhausted stays exhausted, whatever its functions are. -/
theorem C53_exhausted {α β : Type} (pipe : Pipe ω α β) {next : σ → Out (Option α × σ)} {s' : σ}
    (h : next s' = .ok (none, s')) (w : ω) :
    pipe.next (quiet next) s' w = .ok ((none, s'), w) := by
  rw [pipe_next, pull_unfold]
  simp [quiet, h]

/-! ## C55: effects -/

/-- **C55, element by element.** `next()` of any pipeline over any source, with effectful, panicking or non-terminating
functions and sources, is the program that asks the source for one element, pushes it through the stages, calling each
function once and in order, and asks the source again only if the element was dropped. -/
theorem C55_elementwise {α β : Type} (pipe : Pipe ω α β) (src : Next ω σ α) (s : σ) :
    pipe.next src s = pull src (one pipe) s := by rw [pipe_next]

/-- **C55, collect.** Collecting runs the stages of the first element, then those of the second, ... -/
theorem C55_collect {α β : Type} (pipe : Pipe ω α β) {next : σ → Out (Option α × σ)} {s s' : σ} {xs : List α}
    (h : Spec.Produces next s xs s') :
    collect (pipe.next (quiet next)) [] s = all (one pipe) xs := by
  rw [pipe_next, collect_pull h]
  funext w
  simp only [Prog.bind_run]
  cases all (one pipe) xs w <;> simp

/-- **C55, short circuit.** `find` behind any pipeline treats elements one by one up to the first match and none beyond
it: the source is left with exactly the elements after the match still to hand out. -/
theorem C55_find {α β : Type} (pipe : Pipe ω α β) {next : σ → Out (Option α × σ)} {s s' : σ} {xs : List α}
    (h : Spec.Produces next s xs s') (p : β → Prog ω (Bool × β)) :
    ∃ after : List α → σ, (∀ done rest, xs = done ++ rest → done ≠ [] → Spec.Produces next (after rest) rest s') ∧
      find (pipe.next (quiet next)) p s = (findOver (one pipe) p xs >>= fun r => match r with
        | none => return (none, s')
        | some m => return (some m.1, after m.2)) := by
  rw [pipe_next]
  exact find_over h (one pipe) p

/-- **C55, fold, for_each, reduce, last.** The terminal's function runs on each element right after its stages. -/
theorem C55_terminals {α β : Type} (pipe : Pipe ω α β) {next : σ → Out (Option α × σ)} {s s' : σ} {xs : List α}
    (h : Spec.Produces next s xs s') :
    (∀ (f : ρ → β → Prog ω ρ) acc, fold (pipe.next (quiet next)) f acc s = foldOver (one pipe) f acc xs) ∧
    (∀ f : β → Prog ω Unit, forEach (pipe.next (quiet next)) f s = foldOver (one pipe) (fun _ b => f b) () xs) ∧
    (∀ f : β → β → Prog ω β, reduce (pipe.next (quiet next)) f s = reduceOver (one pipe) f xs) ∧
    (next s' = .ok (none, s') → last (pipe.next (quiet next)) s =
      (foldOver (one pipe) (fun _ b => return some b) none xs >>= fun r => return (r, s'))) := by
  rw [pipe_next]
  exact ⟨fun f acc => fold_pull h _ f acc, forEach_pull h _, reduce_pull h _, last_pull h _⟩

/-! ## C54: the list functions -/

/-- **C54, fold.** `fold` is the left fold, also with an effectful function. -/
theorem C54_fold {α β : Type} (pp : PurePipe α β) {next : σ → Out (Option α × σ)} {s s' : σ} {xs : List α}
    (h : Spec.Produces next s xs s') (f : ρ → β → Prog ω ρ) (init : ρ) :
    fold ((pp.toPipe ω).next (quiet next)) f init s = (pp.onList xs).foldlM f init := by
  rw [pipe_next, fold_pull h, foldOver_pure]

/-- **C54, fold of a pure function.** -/
theorem C54_fold_pure {α β : Type} (pp : PurePipe α β) {next : σ → Out (Option α × σ)} {s s' : σ} {xs : List α}
    (h : Spec.Produces next s xs s') (f : ρ → β → ρ) (init : ρ) (w : ω) :
    fold ((pp.toPipe ω).next (quiet next)) (fun r b => return f r b) init s w =
      .ok ((pp.onList xs).foldl f init, w) := by
  rw [C54_fold pp h]
  generalize pp.onList xs = ys
  induction ys generalizing init with
  | nil => rfl
  | cons y ys ih => exact ih (f init y)

/-- **C54, for_each.** The function runs on every element, in order. -/
theorem C54_for_each {α β : Type} (pp : PurePipe α β) {next : σ → Out (Option α × σ)} {s s' : σ} {xs : List α}
    (h : Spec.Produces next s xs s') (f : β → Prog ω Unit) :
    forEach ((pp.toPipe ω).next (quiet next)) f s = (pp.onList xs).foldlM (fun _ b => f b) () := by
  rw [pipe_next, forEach_pull h, foldOver_pure]

theorem reduceOver_pure {α β : Type} (pp : PurePipe α β) (f : β → β → Prog ω β) (xs : List α) :
    reduceOver (one (pp.toPipe ω)) f xs = match pp.onList xs with
      | [] => return none
      | y :: ys => ys.foldlM f y >>= fun v => return some v := by
  rw [onList_eq]
  induction xs with
  | nil => rfl
  | cons a as ih =>
    simp only [reduceOver, one_pure, pure_bind', List.filterMap_cons]
    cases elem pp a with
    | none => exact ih
    | some b => simp only [foldOver_pure, onList_eq]

/-- **C54, reduce.** `reduce` answers none without elements, and otherwise the left fold started at the first. -/
theorem C54_reduce {α β : Type} (pp : PurePipe α β) {next : σ → Out (Option α × σ)} {s s' : σ} {xs : List α}
    (h : Spec.Produces next s xs s') (f : β → β → Prog ω β) :
    reduce ((pp.toPipe ω).next (quiet next)) f s = match pp.onList xs with
      | [] => return none
      | y :: ys => ys.foldlM f y >>= fun v => return some v := by
  rw [pipe_next, reduce_pull h, reduceOver_pure]

/-- **C54, last.** `last` is the last element (the source has to stay exhausted: `last` asks it twice when it is
empty). -/
theorem C54_last {α β : Type} (pp : PurePipe α β) {next : σ → Out (Option α × σ)} {s s' : σ} {xs : List α}
    (h : Spec.Produces next s xs s') (hend : next s' = .ok (none, s')) (w : ω) :
    last ((pp.toPipe ω).next (quiet next)) s w = .ok (((pp.onList xs).getLast?, s'), w) := by
  rw [pipe_next, last_pull h _ hend, foldOver_pure]
  generalize pp.onList xs = ys
  have key : ∀ (ys : List β) (o : Option β), ys.foldlM (fun _ b => (return some b : Prog ω (Option β))) o =
      (return (ys.getLast?.or o) : Prog ω (Option β)) := by
    intro ys
    induction ys with
    | nil => intro o; simp
    | cons y ys ih =>
      intro o
      rw [List.foldlM_cons, pure_bind', ih]
      congr 1
      cases ys with
      | nil => rfl
      | cons z zs =>
        rw [List.getLast?_cons_cons]
        have : ((z :: zs).getLast?).isSome := by simp
        obtain ⟨v, hv⟩ := Option.isSome_iff_exists.1 this
        simp [hv]
  simp [key]

theorem findOver_pure {α β : Type} (pp : PurePipe α β) (p : β → Bool) (xs : List α) (w : ω) :
    ∃ rest, findOver (one (pp.toPipe ω)) (fun b => return (p b, b)) xs w =
      .ok (((pp.onList xs).find? p).map (fun b => (b, rest)), w) ∧
      ∀ b, (pp.onList xs).find? p = some b → ∃ done a, xs = done ++ a :: rest ∧ (pp.onList done).find? p = none ∧
        pp.onList [a] = [b] := by
  simp only [onList_eq]
  induction xs with
  | nil => exact ⟨[], by simp [findOver]⟩
  | cons a as ih =>
    obtain ⟨rest, ih1, ih2⟩ := ih
    cases he : elem pp a with
    | none =>
      refine ⟨rest, ?_, ?_⟩
      · simp only [findOver, one_pure, pure_bind', List.filterMap_cons, he, ih1]
      · intro b hb
        simp only [List.filterMap_cons, he] at hb
        obtain ⟨done, x, h1, h2, h3⟩ := ih2 b hb
        exact ⟨a :: done, x, by simp [h1], by simp only [List.filterMap_cons, he]; exact h2, h3⟩
    | some c =>
      cases hp : p c with
      | true =>
        refine ⟨as, ?_, ?_⟩
        · simp [findOver, one_pure, he, hp]
        · intro b hb
          simp [he, hp] at hb
          subst hb
          exact ⟨[], a, rfl, rfl, by simp [he]⟩
      | false =>
        refine ⟨rest, ?_, ?_⟩
        · simp [findOver, one_pure, he, hp, ih1]
        · intro b hb
          simp only [List.filterMap_cons, he, List.find?_cons, hp] at hb
          obtain ⟨done, x, h1, h2, h3⟩ := ih2 b hb
          exact ⟨a :: done, x, by simp [h1], by simp only [List.filterMap_cons, he, List.find?_cons, hp]; exact h2, h3⟩

/-- **C54, find.** `find` answers the first element of the list that satisfies the predicate; when there is one, the
iterator is left right after the source element it came from, otherwise at its end. -/
theorem C54_find {α β : Type} (pp : PurePipe α β) {next : σ → Out (Option α × σ)} {s s' : σ} {xs : List α}
    (h : Spec.Produces next s xs s') (p : β → Bool) (w : ω) :
    ∃ s1, find ((pp.toPipe ω).next (quiet next)) (fun b => return (p b, b)) s w =
        .ok (((pp.onList xs).find? p, s1), w) ∧
      (((pp.onList xs).find? p = none ∧ s1 = s') ∨
       ∃ b done a rest, (pp.onList xs).find? p = some b ∧ xs = done ++ a :: rest ∧
         (pp.onList done).find? p = none ∧ pp.onList [a] = [b] ∧ Spec.Produces next s1 rest s') := by
  obtain ⟨after, h1, h2⟩ := C55_find (pp.toPipe ω) h (fun b => return (p b, b))
  obtain ⟨rest, h3, h4⟩ := findOver_pure (ω := ω) pp p xs w
  rw [h2]
  simp only [Prog.bind_run, h3]
  cases hf : (pp.onList xs).find? p with
  | none => exact ⟨s', rfl, .inl ⟨rfl, rfl⟩⟩
  | some b =>
    obtain ⟨done, a, he, hn, hb⟩ := h4 b hf
    exact ⟨after rest, rfl, .inr ⟨b, done, a, rest, rfl, he, hn, hb, h1 (done ++ [a]) rest (by simp [he]) (by simp)⟩⟩

/-! ## C67 -/

/-- `it | h₁ | h₂ | ...` for the holders that correspond to the arguments of `combine`: `|` associates to the left
(utility.h:127-131). -/
def barChain : {α β : Type} → Args ω α β → Next ω σ α → Next ω σ β
  | _, _, .done, it => it
  | _, _, .map f rest, it => barChain rest ((Holder.map f).toAdapter it)
  | _, _, .filter p rest, it => barChain rest ((Holder.filter p).toAdapter it)

/-- The pipeline written left to right. -/
def Args.after : {α β γ : Type} → Pipe ω α β → Args ω β γ → Pipe ω α γ
  | _, _, _, pipe, .done => pipe
  | _, _, _, pipe, .map f rest => Args.after (pipe.map f) rest
  | _, _, _, pipe, .filter p rest => Args.after (pipe.filter p) rest

theorem combine_after {α β γ : Type} (pipe : Pipe ω α β) (args : Args ω β γ) (src : Next ω σ α) :
    combine args (pipe.next src) = (Args.after pipe args).next src := by
  induction args with
  | done => simp only [combine, Args.after]
  | map f rest ih => simp only [combine, Args.after, ← ih, Pipe.next]
  | filter p rest ih => simp only [combine, Args.after, ← ih, Pipe.next]

theorem combine_bar {α β : Type} (args : Args ω α β) (src : Next ω σ α) : combine args src = barChain args src := by
  induction args with
  | done => simp only [combine, barChain]
  | map f rest ih => simp only [combine, barChain, ih, Holder.toAdapter]
  | filter p rest ih => simp only [combine, barChain, ih, Holder.toAdapter]

/-- **C67.** `combine(it, Com, f, ...)` and `it | com(f) | ...` are the same iterator: the same program for every
source, state and choice of functions; and with a terminal at the end the same call. -/
theorem C67_combine {α β : Type} (args : Args ω α β) (src : Next ω σ α) (t : Terminal ω σ β ρ) :
    combine args src = barChain args src ∧
    combine args src = (Args.after .source args).next src ∧
    combineTerminal args t src = t (barChain args src) := by
  refine ⟨combine_bar args src, ?_, ?_⟩
  · rw [← combine_after, Pipe.next]
  · induction args with
    | done => funext s; simp only [combineTerminal, barChain]
    | map f rest ih => funext s; simp only [combineTerminal, barChain, ih, Holder.toAdapter]
    | filter p rest ih => funext s; simp only [combineTerminal, barChain, ih, Holder.toAdapter]

/-! ## Concrete cases -/

open Verif.Model.Range in
/-- the library's own range 0..4 hands out 0,1,2,3 and stays exhausted -/
theorem range4 : Spec.Produces (Range.next i32Ty) ⟨0, 4⟩ [0, 1, 2, 3] ⟨4, 4⟩ :=
  .cons (s1 := ⟨1, 4⟩) rfl (.cons (s1 := ⟨2, 4⟩) rfl (.cons (s1 := ⟨3, 4⟩) rfl (.cons (s1 := ⟨4, 4⟩) rfl (.nil rfl))))

open Verif.Model.Range

/-- squares of 0..4 that are not 1 -/
def squares : PurePipe Int Int := (PurePipe.source.map fun x => x * x).filter fun x => x != 1

theorem squares_list : squares.onList [0, 1, 2, 3] = [0, 4, 9] := by
  simp [squares, PurePipe.onList]

example : collect ((squares.toPipe Unit).next (quiet (Range.next i32Ty))) [] ⟨0, 4⟩ () = .ok ([0, 4, 9], ()) :=
  squares_list ▸ C53_collect squares range4 ()
example : (squares.toPipe Unit).next (quiet (Range.next i32Ty)) ⟨4, 4⟩ () = .ok ((none, ⟨4, 4⟩), ()) :=
  C53_exhausted _ rfl ()
example : fold ((squares.toPipe Unit).next (quiet (Range.next i32Ty))) (fun r b => return r * 10 + b) 0 ⟨0, 4⟩ () =
    .ok (49, ()) := by
  rw [C54_fold_pure squares range4 (fun r b => r * 10 + b) 0 (), squares_list]; rfl
example : last ((squares.toPipe Unit).next (quiet (Range.next i32Ty))) ⟨0, 4⟩ () = .ok ((some 9, ⟨4, 4⟩), ()) := by
  rw [C54_last squares range4 rfl (), squares_list]; rfl

/-- a function that logs its calls -/
def logged (tag : Nat) (f : Int → Int) (x : Int) : Prog (List (Nat × Int)) Int := fun w => .ok (f x, w ++ [(tag, x)])
def loggedB (tag : Nat) (f : Int → Bool) (x : Int) : Prog (List (Nat × Int)) (Bool × Int) :=
  fun w => .ok ((f x, x), w ++ [(tag, x)])

/-- The calls interleave element by element, and `find` stops at the match: nothing happens to 3. -/
example : findOver (one ((Pipe.source.filter (loggedB 0 fun x => x != 1)).map (logged 1 fun x => x * x)))
      (loggedB 2 fun x => x == 4) [0, 1, 2, 3] [] =
    .ok (some (4, [3]), [(0, 0), (1, 0), (2, 0), (0, 1), (0, 2), (1, 2), (2, 4)]) := by
  simp [findOver, one, logged, loggedB]

end Verif.Props
