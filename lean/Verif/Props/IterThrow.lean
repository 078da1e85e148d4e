import Verif.Proof.IterThrow
import Verif.Props.Iter
/-! # Property C95: exceptions thrown by the functions of a pipeline -/
namespace Verif.Props
open Verif Verif.Model.IterThrow Verif.Spec.IterThrow

variable {ω σ α β γ ρ : Type}

/-- **C95, the part that holds.** If no stage throws on the elements handed out, an exception of the function given to `fold`
or `reduce` (called with `|` or directly) reaches the caller, after exactly the effects of the elements up to the one it was
thrown for; without an exception the result is that of the specification. -/
theorem C95_fold_partial {α β : Type} (pipe : Pipe ω α β) {next : σ → Out (Option α × σ)} {s s' : σ} {xs : List α}
    (h : Spec.Produces next s xs s') (hn : ∀ a ∈ xs, NoThrow (one pipe a)) :
    (∀ (f : ρ → β → Exc ω ρ) acc, fold (pipe.next (quiet next)) f acc s = foldOver (one pipe) f acc xs) ∧
    (∀ f : β → β → Exc ω β, reduce (pipe.next (quiet next)) f s = reduceOver (one pipe) f xs) := by
  have hg : ∀ a ∈ xs, calm (noexcept (one pipe a)) = one pipe a := fun a ha => Proof.IterThrow.calm_noexcept (hn a ha)
  constructor
  · intro f acc
    rw [Proof.IterThrow.fold_over pipe h, Proof.IterThrow.foldOver_congr hg]
  · intro f
    rw [Proof.IterThrow.reduce_over pipe h, Proof.IterThrow.reduceOver_congr hg]

/-- **C95, the other terminals, while nothing throws.** `collect`, `for_each` and `find` do what the specification says
whenever the specification ends without an exception. -/
theorem C95_calm_partial {α β : Type} (pipe : Pipe ω α β) {next : σ → Out (Option α × σ)} {s s' : σ} {xs : List α}
    (h : Spec.Produces next s xs s') :
    (NoThrow (all (one pipe) xs) → collect (pipe.next (quiet next)) s = all (one pipe) xs) ∧
    (∀ f : β → Exc ω Unit, NoThrow (foldOver (one pipe) (fun _ b => f b) () xs) →
      forEach (pipe.next (quiet next)) f s = foldOver (one pipe) (fun _ b => f b) () xs) ∧
    (∀ p : β → Exc ω (Bool × β), NoThrow (findOver (one pipe) p xs) →
      (find (pipe.next (quiet next)) p s >>= fun r => return r.1) = findOver (one pipe) p xs) := by
  refine ⟨fun hn => ?_, fun f hn => ?_, fun p hn => ?_⟩
  · rw [Proof.IterThrow.collect_eq pipe h, Proof.IterThrow.calm_noexcept hn]
  · rw [Proof.IterThrow.forEach_over pipe h, Proof.IterThrow.calm_noexcept hn]
  · rw [Proof.IterThrow.find_over pipe h, Proof.IterThrow.calm_noexcept hn]

/-- **C95 fails for collect, for_each and find.** Whenever a function of the pipeline or of the terminal throws on the way,
for every pipeline, source and functions, the program is terminated. -/
theorem C95_terminals_fails {α β : Type} (pipe : Pipe ω α β) {next : σ → Out (Option α × σ)} {s s' : σ} {xs : List α}
    (h : Spec.Produces next s xs s') (w w' : ω) :
    ((all (one pipe) xs).run w = .ok (none, w') → (collect (pipe.next (quiet next)) s).run w = .panic) ∧
    (∀ f : β → Exc ω Unit, (foldOver (one pipe) (fun _ b => f b) () xs).run w = .ok (none, w') →
      (forEach (pipe.next (quiet next)) f s).run w = .panic) ∧
    (∀ p : β → Exc ω (Bool × β), (findOver (one pipe) p xs).run w = .ok (none, w') →
      (find (pipe.next (quiet next)) p s).run w = .panic) := by
  refine ⟨fun ht => ?_, fun f ht => ?_, fun p ht => ?_⟩
  · rw [Proof.IterThrow.collect_eq pipe h]
    exact Proof.IterThrow.calm_panic (Proof.IterThrow.noexcept_throw ht)
  · rw [Proof.IterThrow.forEach_over pipe h]
    exact Proof.IterThrow.calm_panic (Proof.IterThrow.noexcept_throw ht)
  · have h1 := congrFun (congrArg OptionT.run (Proof.IterThrow.find_over pipe h p)) w
    rw [Proof.IterThrow.calm_panic (Proof.IterThrow.noexcept_throw ht), find, Proof.IterThrow.calm_bind, Prog.bind_run] at h1
    rw [find]
    cases hx : noexcept (findBody (pipe.next (quiet next)) p s) w with
    | panic => exact Proof.IterThrow.calm_panic hx
    | ok q => rw [hx] at h1; cases h1
    | _ => rw [hx] at h1; cases h1

/-- **C95 fails for stages.** A stage that throws terminates the program, also in front of `fold` and `reduce`: when the
stages and `f` have gone without an exception through the elements `done`, and a stage throws on the next element. -/
theorem C95_stage_fails {α β : Type} (pipe : Pipe ω α β) {next : σ → Out (Option α × σ)} {s s' : σ} {done : List α} {a : α}
    {rest : List α} (h : Spec.Produces next s (done ++ a :: rest) s') (f : ρ → β → Exc ω ρ) (acc r : ρ) (w w1 w2 : ω)
    (hn : ∀ a ∈ done, NoThrow (one pipe a))
    (hd : (foldOver (one pipe) f acc done).run w = .ok (some r, w1)) (ha : (one pipe a).run w1 = .ok (none, w2)) :
    (fold (pipe.next (quiet next)) f acc s).run w = .panic := by
  rw [Proof.IterThrow.fold_over pipe h]
  clear h
  rw [← Proof.IterThrow.foldOver_congr (g := fun a => calm (noexcept (one pipe a)))
    (fun a ha => Proof.IterThrow.calm_noexcept (hn a ha)) f acc] at hd
  clear hn
  induction done generalizing acc w with
  | nil =>
    simp only [foldOver] at hd
    rw [Proof.IterThrow.run_pure, Prog.pure_run] at hd
    cases hd
    rw [List.nil_append, foldOver, Proof.IterThrow.calm_bind, Prog.bind_run, Proof.IterThrow.noexcept_throw ha]
    rfl
  | cons b bs ih =>
    rw [List.cons_append, foldOver, Proof.IterThrow.calm_bind, Prog.bind_run]
    rw [foldOver, Proof.IterThrow.calm_bind, Prog.bind_run] at hd
    cases hb : noexcept (one pipe b) w with
    | ok q =>
      obtain ⟨o, w3⟩ := q
      rw [hb] at hd
      cases o with
      | none => exact ih acc w3 hd
      | some c =>
        simp only [Out.bind_ok, Proof.IterThrow.run_bind, Prog.bind_run] at hd ⊢
        cases hf : (f acc c).run w3 with
        | ok q =>
          obtain ⟨o, w4⟩ := q
          rw [hf] at hd
          cases o with
          | none => cases hd
          | some acc' => exact ih acc' w4 hd
        | _ => rw [hf] at hd; cases hd
    | _ => rw [hb] at hd; cases hd

/-- **C95 fails for `next()`.** No exception ever leaves `next()` of an iterator with a stage, `find`, `for_each`, `collect`
or `combine`, whatever the source and the functions are, even a source that throws. -/
theorem C95_no_exception_leaves_fails {α β γ : Type} (pipe : Pipe ω α β) (src : NextT ω σ α) (s : σ)
    (f : β → Exc ω γ) (p : β → Exc ω (Bool × β)) (g : β → Exc ω Unit) (args : Args ω α β)
    (t : NextT ω σ β → σ → Exc ω ρ) :
    NoThrow ((pipe.map f).next src s) ∧ NoThrow ((pipe.filter p).next src s) ∧ NoThrow (find (pipe.next src) p s) ∧
    NoThrow (forEach (pipe.next src) g s) ∧ NoThrow (collect (pipe.next src) s) ∧ NoThrow (combine args t src s) := by
  refine ⟨?_, ?_, Proof.IterThrow.noThrow_calm _, Proof.IterThrow.noThrow_calm _, Proof.IterThrow.noThrow_calm _, ?_⟩
  · simp only [Pipe.next]; exact Proof.IterThrow.noThrow_calm _
  · simp only [Pipe.next]; exact Proof.IterThrow.noThrow_calm _
  · cases args <;> simp only [combine] <;> exact Proof.IterThrow.noThrow_calm _

/-- **C95 fails for combine.** `combine(it, Com, f, ..., Fold{}, init, f)` is not the same call as
`it | com(f) | ... | fold(init, f)`: where the latter throws, the former terminates the program. -/
theorem C95_combine_fails {α β : Type} (args : Args ω α β) (src : NextT ω σ α) (s : σ) (t : NextT ω σ β → σ → Exc ω ρ)
    (w w' : ω) (h : (t ((Spec.IterThrow.after .source args).next src) s).run w = .ok (none, w')) :
    (combine args t src s).run w = .panic := by
  have := Proof.IterThrow.combine_eq .source args t src s
  rw [show Pipe.next .source src = src from by simp only [Pipe.next]] at this
  rw [this]
  exact Proof.IterThrow.calm_panic (Proof.IterThrow.noexcept_throw h)

/-! ## Concrete cases -/

open Verif.Model.Range

/-- halves even numbers and throws on odd ones; logs its calls -/
def half (x : Int) : Exc (List Int) Int := OptionT.mk fun w =>
  if x % 2 = 0 then .ok (some (x / 2), w ++ [x]) else .ok (none, w ++ [x])
def halves : Pipe (List Int) Int Int := Pipe.source.map half
/-- adds, throws when the element is 2; logs its calls -/
def addT (r x : Int) : Exc (List Int) Int := OptionT.mk fun w =>
  if x = 2 then .ok (none, w ++ [x]) else .ok (some (r + x), w ++ [x])

/-- `[0, 1, 2, 3]` through no stage, and through the stage that halves -/
theorem one_source (x : Int) : one (Pipe.source : Pipe (List Int) Int Int) x = pure (some x) := by simp only [one]
theorem one_halves (x : Int) : (one halves x).run = fun w =>
    if x % 2 = 0 then .ok (some (some (x / 2)), w ++ [x]) else .ok (none, w ++ [x]) := by
  simp only [halves, one, Proof.IterThrow.pure_bindE, Proof.IterThrow.run_bind]
  funext w
  by_cases h : x % 2 = 0
  · simp [half, OptionT.run, OptionT.mk, h, Proof.IterThrow.run_pure]; rfl
  · simp [half, OptionT.run, OptionT.mk, h]; rfl

/-- the function of `fold` throws for 2: the caller catches it, nothing was done for 3 -/
example : (fold ((Pipe.source : Pipe (List Int) Int Int).next (quiet (Range.next i32Ty))) addT 0 ⟨0, 4⟩).run [] =
    .ok (none, [0, 1, 2]) := by
  rw [(C95_fold_partial .source range4 fun a _ => by
    intro w w' h; rw [one_source, Proof.IterThrow.run_pure, Prog.pure_run] at h; cases h).1 addT 0]
  simp only [foldOver, one_source, Proof.IterThrow.pure_bindE]
  rfl

/-- a stage throws for 1: `collect` terminates, and so does `fold` behind the stage -/
example : (collect (halves.next (quiet (Range.next i32Ty))) ⟨0, 4⟩).run [] = .panic :=
  (C95_terminals_fails halves range4 [] [0, 1]).1 (by
    simp only [all, Proof.IterThrow.run_bind, one_halves]
    rfl)
example : (fold (halves.next (quiet (Range.next i32Ty))) addT 0 ⟨0, 4⟩).run [] = .panic :=
  C95_stage_fails (done := [0]) (a := 1) halves range4 addT 0 0 [] [0, 0] [0, 0, 1]
    (by
      intro a ha w w' h
      have : a = 0 := by simpa using ha
      rw [one_halves, this] at h
      simp at h)
    (by simp only [foldOver, Proof.IterThrow.run_bind, one_halves]; rfl)
    (by rw [one_halves]; rfl)
/-- `combine` with the `fold` that throws for 2 -/
example : (combine (Args.done : Args (List Int) Int Int) (fun it s => fold it addT 0 s) (quiet (Range.next i32Ty))
    ⟨0, 4⟩).run [] = .panic :=
  C95_combine_fails _ _ _ _ [] [0, 1, 2] (by
    simp only [Spec.IterThrow.after]
    rw [(C95_fold_partial .source range4 fun a _ => by
      intro w w' h; rw [one_source, Proof.IterThrow.run_pure, Prog.pure_run] at h; cases h).1 addT 0]
    simp only [foldOver, one_source, Proof.IterThrow.pure_bindE]
    rfl)

end Verif.Props
