import Verif.Spec.ListConsume
import Verif.Proof.ConsumeRun
import Verif.Proof.LLNeed
import Verif.Proof.IterOpt
/-! # Terminals over pipelines that consume a list -/
namespace Verif.Proof.ListConsume
open Verif
open Verif.Model.LL (Op Cfg Res)
open Verif.Model.Collect (World onClient onMem lift)
open Verif.Model.Iter (Next Pipe fold find last lastLoop)
open Verif.Model.ListConsume (W item body Form source)
open Verif.Model.Consume (next stages adapts)
open Verif.Spec.Pipe Verif.Spec.ListConsume
open Verif.Spec.LL (view Reach put specRun specStep work workRun)
open Verif.Proof.Pipe

variable {κ α β ρ : Type} {cfg : Cfg α} {w w' : Model.LL.World α} {u a : Nat} {x : α} {xs : List α}

/-! ## Taking an element -/

/-- From `w` to `w'` the list `u` has lost its first `n` elements, `ys` are left. -/
structure Popped (cfg : Cfg α) (w : Model.LL.World α) (u a n : Nat) (ys : List α) (w' : Model.LL.World α) : Prop where
  reach : Reach cfg w'
  now : view w' = put (view w) u (some ⟨some ys, a⟩)
  did : LL.Did w.heap w'.heap ⟨0, n, 0⟩

theorem Popped.none (hr : Reach cfg w) (hv : view w u = some ⟨some xs, a⟩) : Popped cfg w u a 0 xs w := by
  refine ⟨hr, ?_, rfl, rfl, rfl⟩
  funext l
  simp only [put]
  split
  · rename_i h; rw [h, hv]
  · rfl

theorem Popped.at {n : Nat} {ys : List α} (p : Popped cfg w u a n ys w') : view w' u = some ⟨some ys, a⟩ := by
  rw [p.now]; simp [put]

theorem put_put (A : Spec.LL.Ideal α) (i : Nat) (v v' : Option (Spec.LL.Var α)) : put (put A i v) i v' = put A i v' := by
  funext l; simp only [put]; split <;> rfl

theorem Popped.trans {n m : Nat} {ys zs : List α} {w'' : Model.LL.World α} (p : Popped cfg w u a n ys w') (q : Popped cfg w' u a m zs w'') :
    Popped cfg w u a (n + m) zs w'' :=
  ⟨q.reach, by rw [q.now, p.now, put_put], LL.did_of (p.did.trans q.did) (by simp [LL.work_add])⟩

/-- `next()` on the iterator object is `pop_front()` on its list -/
theorem next_pop (hr : Reach cfg w) (hv : view w u = some ⟨some (x :: xs), a⟩) : ∃ w', Model.LL.step cfg (.popFront u) w = .ok (.unit, w') ∧
    next cfg u () w = .ok ((some x, ()), w') ∧ Popped cfg w u a 1 xs w' := by
  obtain ⟨C, hd, tl, cs, I, hC, hx, -⟩ := LL.reach_get hr hv
  cases cs with
  | nil => cases hx
  | cons c cs =>
    obtain ⟨rfl, rfl⟩ : c.2 = x ∧ LL.vals cs = xs := by simpa [LL.vals] using hx
    have s : Consume.Src cfg u hd tl a (c :: cs) w := ⟨I.var hC, I.rep hC, I.bal⟩
    have r := s.rep
    have r' : LL.Rep cfg w.heap hd tl ([] ++ c :: cs) a := r
    have eh : Consume.popHeap cfg hd tl a c cs w.heap = LL.kill cfg (LL.link cfg.dbl w.heap hd (LL.headOf tl cs)) c.1 := by
      simp only [Consume.popHeap, LL.kill, LL.link, LL.poke, LL.upd_upd]
    have e1 : Model.LL.popFront cfg (LL.lst hd tl (c :: cs) a) w.heap = .ok (LL.lst hd tl cs a, Consume.popHeap cfg hd tl a c cs w.heap) := by
      rw [eh]
      simp only [Model.LL.popFront, Prog.bind_run, LL.lst, r.getNext_hd, LL.headOf_cons, Out.bind_ok]
      rw [LL.dbgAssert_run (by simp)]
      simp only [Out.bind_ok, r'.getNext_cell]
      rw [LL.setNext_run r.vhd.live r'.cons_mid.live_headOf]
      simp only [Out.bind_ok]
      rw [LL.destroyNode_elem (h := LL.link cfg.dbl w.heap hd (LL.headOf tl cs)) (r'.elem_at (a := c.1) (x := c.2))]
      simp [LL.dec_length]
    have e2 : Model.LL.step cfg (.popFront u) w = .ok (.unit, Consume.popWorld cfg u hd tl a c cs w) := by
      simp only [Model.LL.step, Model.LL.change, Prog.bind_run, Model.LL.var, s.var, Out.bind_ok, Model.LL.inHeap, e1]
      rfl
    have hs : specStep false cfg.dbl cfg.dflt (.popFront u) (view w) = some (.unit, put (view w) u (some ⟨some (LL.vals cs), a⟩)) := by
      simp [specStep, Spec.LL.edit, hv, Spec.LL.needs]
    have h := LL.reach_step hr hs
    rw [e2] at h
    have hw := LL.reach_work hr hs e2
    exact ⟨_, e2, s.more, h.2.2.1, h.2.1, hw⟩

theorem next_end (hr : Reach cfg w) (hv : view w u = some ⟨some [], a⟩) : next cfg u () w = .ok ((none, ()), w) := by
  obtain ⟨C, hd, tl, cs, I, hC, hx, -⟩ := LL.reach_get hr hv
  cases cs with
  | nil => exact Consume.Src.stop (⟨I.var hC, I.rep hC, I.bal⟩ : Consume.Src cfg u hd tl a [] w)
  | cons c cs => cases hx

/-! ## The loops -/

variable {g : α → Prog κ (Option β)}

/-- one element at a time -/
def pulled (cfg : Cfg α) (g : α → Prog κ (Option β)) (u : Nat) : Next (W κ α) Unit β := pull (fun s => onMem (next cfg u s)) fun a => onClient (g a)

theorem item_eq (pipe : Pipe κ α β) : item cfg pipe u = pulled cfg (one pipe) u := by
  rw [item, pipe_next, pulled]
  congr 1
  exact funext fun a => Collect.one_lift pipe a

theorem pulled_end (hr : Reach cfg w) (hv : view w u = some ⟨some [], a⟩) (c : κ) : pulled cfg g u () ⟨c, w⟩ = .ok ((none, ()), ⟨c, w⟩) := by
  rw [pulled, pull_unfold]
  simp only [Prog.bind_run, onMem, next_end hr hv, Out.bind_ok]
  rfl

theorem pulled_more (h : next cfg u () w = .ok ((some x, ()), w')) (c : κ) : pulled cfg g u () ⟨c, w⟩ =
    g x c >>= fun q => match q.1 with
      | some b => .ok ((some b, ()), ⟨q.2, w'⟩)
      | none => pulled cfg g u () ⟨q.2, w'⟩ := by
  conv_lhs => rw [pulled, pull_unfold]
  simp only [Prog.bind_run, onMem, h, Out.bind_ok, onClient]
  cases g x c with
  | ok q =>
    obtain ⟨o, c1⟩ := q
    cases o with
    | none => rfl
    | some b => rfl
  | _ => rfl

/-- the state after taking `n` elements -/
def gone (cfg : Cfg α) (u : Nat) : Nat → Model.LL.World α → Model.LL.World α
  | 0, w => w
  | n + 1, w => match Model.LL.step cfg (.popFront u) w with
    | .ok q => gone cfg u n q.2
    | _ => w

theorem gone_succ (h : Model.LL.step cfg (.popFront u) w = .ok (.unit, w')) (n : Nat) : gone cfg u (n + 1) w = gone cfg u n w' := by
  rw [gone, h]

theorem gone_popped (pre : List α) : ∀ {w : Model.LL.World α} {ys : List α}, Reach cfg w → view w u = some ⟨some (pre ++ ys), a⟩ →
    Popped cfg w u a pre.length ys (gone cfg u pre.length w) := by
  induction pre with
  | nil => intro w ys hr hv; exact .none hr hv
  | cons x pre ih =>
    intro w ys hr hv
    obtain ⟨w1, h0, h1, p1⟩ := next_pop hr hv
    have := p1.trans (ih p1.reach p1.at)
    rw [List.length_cons, gone_succ h0]
    rwa [Nat.add_comm] at this

theorem fold_plain (f : ρ → β → Prog κ ρ) (xs : List α) : ∀ {w : Model.LL.World α} (acc : ρ) (c : κ), Reach cfg w → view w u = some ⟨some xs, a⟩ →
    fold (pulled cfg g u) (fun acc b => onClient (f acc b)) acc () ⟨c, w⟩ =
      foldOver g f acc xs c >>= fun q => .ok (q.1, ⟨q.2, gone cfg u xs.length w⟩) := by
  induction xs with
  | nil =>
    intro w acc c hr hv
    rw [fold_unfold, Prog.bind_run, pulled_end hr hv]
    rfl
  | cons x xs ih =>
    intro w acc c hr hv
    obtain ⟨w1, h0, h1, p1⟩ := next_pop hr hv
    rw [fold_unfold, Prog.bind_run, pulled_more h1, foldOver, Prog.bind_run, List.length_cons, gone_succ h0]
    cases g x c with
    | ok q =>
      obtain ⟨o, c1⟩ := q
      cases o with
      | none =>
        have := ih acc c1 p1.reach p1.at
        rw [fold_unfold, Prog.bind_run] at this
        exact this
      | some b =>
        simp only [Out.bind_ok, Prog.bind_run, onClient]
        cases f acc b c1 with
        | ok q => exact ih q.1 q.2 p1.reach p1.at
        | _ => rfl
    | _ => rfl

theorem find_plain (p : β → Prog κ (Bool × β)) (xs : List α) : ∀ {w : Model.LL.World α} (c : κ), Reach cfg w → view w u = some ⟨some xs, a⟩ →
    find (pulled cfg g u) (fun b => onClient (p b)) () ⟨c, w⟩ =
      findOver g p xs c >>= fun q => .ok ((q.1.map Prod.fst, ()), ⟨q.2, gone cfg u (xs.length - (left q.1).length) w⟩) := by
  induction xs with
  | nil =>
    intro w c hr hv
    rw [find_unfold, Prog.bind_run, pulled_end hr hv]
    rfl
  | cons x xs ih =>
    intro w c hr hv
    obtain ⟨w1, h0, h1, p1⟩ := next_pop hr hv
    have go : ∀ c1, find (pulled cfg g u) (fun b => onClient (p b)) () ⟨c1, w1⟩ =
        findOver g p xs c1 >>= fun q => .ok ((q.1.map Prod.fst, ()), ⟨q.2, gone cfg u ((x :: xs).length - (left q.1).length) w⟩) := by
      intro c1
      rw [ih c1 p1.reach p1.at]
      cases hf : findOver g p xs c1 with
      | ok q =>
        obtain ⟨o, c2⟩ := q
        have hl : (left o).length ≤ xs.length := by
          cases o with
          | none => simp [left]
          | some m => exact Nat.le_of_lt (findOver_rest hf)
        simp only [Out.bind_ok, List.length_cons]
        rw [show xs.length + 1 - (left o).length = (xs.length - (left o).length) + 1 by omega, gone_succ h0]
      | _ => rfl
    rw [find_unfold, Prog.bind_run, pulled_more h1, findOver, Prog.bind_run]
    cases g x c with
    | ok q =>
      obtain ⟨o, c1⟩ := q
      cases o with
      | none =>
        have := go c1
        rw [find_unfold, Prog.bind_run] at this
        exact this
      | some b =>
        simp only [Out.bind_ok, afterPull]
        rw [Prog.bind_run, Prog.bind_run]
        simp only [onClient]
        cases p b c1 with
        | ok q =>
          obtain ⟨⟨t, b'⟩, c2⟩ := q
          cases t with
          | true =>
            simp only [Out.bind_ok, if_true, Prog.pure_run, left, Option.map_some, List.length_cons]
            rw [show xs.length + 1 - xs.length = 0 + 1 by omega, gone_succ h0]
            rfl
          | false => exact go c2
        | _ => rfl
    | _ => rfl

/-- one survivor -/
theorem pull_plain (xs : List α) : ∀ {w : Model.LL.World α} (c : κ), Reach cfg w → view w u = some ⟨some xs, a⟩ →
    pulled cfg g u () ⟨c, w⟩ = findOver g (fun b => return (true, b)) xs c >>= fun q =>
      .ok ((q.1.map Prod.fst, ()), ⟨q.2, gone cfg u (xs.length - (left q.1).length) w⟩) := by
  intro w c hr hv
  rw [← find_plain _ xs c hr hv, find_unfold, Prog.bind_run]
  cases pulled cfg g u () (⟨c, w⟩ : W κ α) with
  | ok q => obtain ⟨⟨o, _⟩, w2⟩ := q; cases o <;> rfl
  | _ => rfl

theorem reduceOver_eq (f : β → β → Prog κ β) (xs : List α) (c : κ) : reduceOver g f xs c =
    findOver g (fun b => return (true, b)) xs c >>= fun q => match q.1 with
      | none => .ok (none, q.2)
      | some m => foldOver g f m.1 m.2 q.2 >>= fun r => .ok (some r.1, r.2) := by
  induction xs generalizing c with
  | nil => rfl
  | cons x xs ih =>
    rw [reduceOver, findOver, Prog.bind_run, Prog.bind_run]
    cases g x c with
    | ok q =>
      obtain ⟨o, c1⟩ := q
      cases o with
      | none => exact ih c1
      | some b => rfl
    | _ => rfl

theorem lastLoop_plain (xs : List α) : ∀ {w : Model.LL.World α} (prev : Option β) (b : β) (c : κ), Reach cfg w → view w u = some ⟨some xs, a⟩ →
    lastLoop (pulled cfg g u) prev (some b) () ⟨c, w⟩ =
      foldOver g (fun _ b => return some b) (some b) xs c >>= fun q => .ok ((q.1, ()), ⟨q.2, gone cfg u xs.length w⟩) := by
  induction xs with
  | nil =>
    intro w prev b c hr hv
    rw [lastLoop_some, Prog.bind_run, pulled_end hr hv]
    simp only [Out.bind_ok, lastLoop_none]
    rfl
  | cons x xs ih =>
    intro w prev b c hr hv
    obtain ⟨w1, h0, h1, p1⟩ := next_pop hr hv
    rw [lastLoop_some, Prog.bind_run, pulled_more h1, foldOver, Prog.bind_run, List.length_cons, gone_succ h0]
    cases g x c with
    | ok q =>
      obtain ⟨o, c1⟩ := q
      cases o with
      | none =>
        have := ih prev b c1 p1.reach p1.at
        rw [lastLoop_some, Prog.bind_run] at this
        exact this
      | some b' => exact ih (some b) b' c1 p1.reach p1.at
    | _ => rfl

theorem last_plain (xs : List α) : ∀ {w : Model.LL.World α} (c : κ), Reach cfg w → view w u = some ⟨some xs, a⟩ →
    last (pulled cfg g u) () ⟨c, w⟩ =
      foldOver g (fun _ b => return some b) none xs c >>= fun q => .ok ((q.1, ()), ⟨q.2, gone cfg u xs.length w⟩) := by
  induction xs with
  | nil =>
    intro w c hr hv
    rw [last, Prog.bind_run, pulled_end hr hv]
    simp only [Out.bind_ok]
    rw [Prog.bind_run, pulled_end hr hv]
    simp only [Out.bind_ok, lastLoop_none]
    rfl
  | cons x xs ih =>
    intro w c hr hv
    obtain ⟨w1, h0, h1, p1⟩ := next_pop hr hv
    rw [last, Prog.bind_run, pulled_more h1, foldOver, Prog.bind_run, List.length_cons, gone_succ h0]
    cases g x c with
    | ok q =>
      obtain ⟨o, c1⟩ := q
      cases o with
      | none =>
        have := ih c1 p1.reach p1.at
        rw [last, Prog.bind_run] at this
        exact this
      | some b =>
        have := lastLoop_plain (g := g) xs none b c1 p1.reach p1.at
        rw [lastLoop_some] at this
        exact this
    | _ => rfl

/-! ## A function that calls lists -/

theorem run_frame (ops : List (Op α)) : ∀ {w w' : Model.LL.World α} {rs rs' : List (Res α)} {A' : Spec.LL.Ideal α}, Reach cfg w →
    specRun false cfg.dbl cfg.dflt ops (view w) = some (rs, A') → Model.LL.run cfg ops w = .ok (rs', w') →
    (∀ op, op ∈ ops → u ∉ Spec.LL.writes op) → view w' u = view w u := by
  induction ops with
  | nil => intro w w' rs rs' A' hr hs he _; cases he; rfl
  | cons op ops ih =>
    intro w w' rs rs' A' hr hs he hw
    simp only [specRun] at hs
    cases h1 : specStep false cfg.dbl cfg.dflt op (view w) with
    | none => rw [h1] at hs; cases hs
    | some p =>
      obtain ⟨r, A1⟩ := p
      rw [h1] at hs
      simp only at hs
      cases h2 : specRun false cfg.dbl cfg.dflt ops A1 with
      | none => rw [h2] at hs; cases hs
      | some p2 =>
        simp only [Model.LL.run, Prog.bind_run] at he
        have hst := LL.reach_step hr h1
        obtain ⟨C, I⟩ := LL.reach_inv hr
        have hok := LL.step_ok op I (by rw [← I.view]; exact h1)
        cases e1 : Model.LL.step cfg op w with
        | ok q =>
          rw [e1] at he hst hok
          obtain ⟨-, hv, hr1, -⟩ := hst
          obtain ⟨-, C', I', -, hf⟩ := hok
          simp only [Out.bind_ok] at he
          cases e2 : Model.LL.run cfg ops q.2 with
          | ok q2 =>
            rw [e2] at he
            cases he
            have := ih hr1 (by rw [hv]; exact h2) e2 fun o ho => hw o (List.mem_cons_of_mem _ ho)
            rw [this, I'.view, I.view]
            simp only [LL.ideal, hf u (hw op (List.mem_cons_self ..))]
          | _ => rw [e2] at he; cases he
        | _ => rw [e1] at he; cases he

theorem run_append (ops ops' : List (Op α)) (w : Model.LL.World α) : Model.LL.run cfg (ops ++ ops') w =
    Model.LL.run cfg ops w >>= fun q => Model.LL.run cfg ops' q.2 >>= fun q' => .ok (q.1 ++ q'.1, q'.2) := by
  induction ops generalizing w with
  | nil =>
    simp only [List.nil_append, Model.LL.run, Prog.pure_run, Out.bind_ok]
    cases Model.LL.run cfg ops' w <;> rfl
  | cons op ops ih =>
    simp only [List.cons_append, Model.LL.run, Prog.bind_run]
    cases Model.LL.step cfg op w with
    | ok q =>
      simp only [Out.bind_ok, ih]
      cases Model.LL.run cfg ops q.2 with
      | ok q2 =>
        simp only [Out.bind_ok, Prog.pure_run]
        cases Model.LL.run cfg ops' q2.2 <;> rfl
      | _ => rfl
    | _ => rfl

theorem specRun_split {full dbl : Bool} {dflt : α} (ops ops' : List (Op α)) {A A' : Spec.LL.Ideal α} {rs : List (Res α)}
    (h : specRun full dbl dflt (ops ++ ops') A = some (rs, A')) : ∃ rs1 A1 rs2, specRun full dbl dflt ops A = some (rs1, A1) ∧
      specRun full dbl dflt ops' A1 = some (rs2, A') := by
  induction ops generalizing A rs with
  | nil => exact ⟨[], A, rs, rfl, h⟩
  | cons op ops ih =>
    simp only [List.cons_append, specRun] at h ⊢
    cases h1 : specStep full dbl dflt op A with
    | none => rw [h1] at h; cases h
    | some p =>
      rw [h1] at h
      simp only at h ⊢
      cases h2 : specRun full dbl dflt (ops ++ ops') p.2 with
      | none => rw [h2] at h; cases h
      | some p2 =>
        rw [h2] at h
        cases h
        obtain ⟨rs1, A1, rs2, e1, e2⟩ := ih h2
        exact ⟨p.1 :: rs1, A1, rs2, by rw [e1], e2⟩

theorem fold_calls {f : ρ → β → Prog κ (ρ × List (Op α))} {t : Nat} (hk : Keeps t f) (hu : t ≤ u) (xs : List α) :
    ∀ {w : Model.LL.World α} (acc : ρ) (c : κ) {r : ρ} {ops : List (Op α)} {c' : κ} {rs : List (Res α)} {A' : Spec.LL.Ideal α}, Reach cfg w →
      view w u = some ⟨some xs, a⟩ → visit u g f acc xs c = .ok ((r, ops), c') → specRun false cfg.dbl cfg.dflt ops (view w) = some (rs, A') →
      fold (pulled cfg g u) (body cfg f) acc () ⟨c, w⟩ = Model.LL.run cfg ops w >>= fun q => .ok (r, ⟨c', q.2⟩) := by
  induction xs with
  | nil =>
    intro w acc c r ops c' rs A' hr hv hvis hs
    cases hvis
    rw [fold_unfold, Prog.bind_run, pulled_end hr hv]
    rfl
  | cons x xs ih =>
    intro w acc c r ops c' rs A' hr hv hvis hs
    obtain ⟨w1, h0, h1, p1⟩ := next_pop hr hv
    rw [fold_unfold, Prog.bind_run, pulled_more h1]
    rw [visit, Prog.bind_run] at hvis
    cases hg : g x c with
    | ok q =>
      obtain ⟨o, c1⟩ := q
      rw [hg] at hvis
      have tail : ∀ {ops'}, specRun false cfg.dbl cfg.dflt (.popFront u :: ops') (view w) = some (rs, A') →
          ∃ rs', specRun false cfg.dbl cfg.dflt ops' (view w1) = some (rs', A') := by
        intro ops' h
        obtain ⟨rs1, A1, rs2, e1, e2⟩ := specRun_split [.popFront u] ops' h
        have e3 := LL.reach_run hr _ e1
        simp only [Model.LL.run, Prog.bind_run, h0, Out.bind_ok] at e3
        exact ⟨rs2, by rw [show view w1 = A1 from e3.2.1]; exact e2⟩
      have run1 : ∀ ops', Model.LL.run cfg (.popFront u :: ops') w = Model.LL.run cfg ops' w1 >>= fun q => .ok (.unit :: q.1, q.2) := by
        intro ops'
        rw [Model.LL.run, Prog.bind_run, h0]
        rfl
      cases o with
      | none =>
        simp only [Out.bind_ok, Prog.bind_run] at hvis
        cases hq : visit u g f acc xs c1 with
        | ok q =>
          rw [hq] at hvis
          cases hvis
          obtain ⟨rs', hs'⟩ := tail hs
          have := ih acc c1 p1.reach p1.at hq hs'
          rw [fold_unfold, Prog.bind_run] at this
          refine Eq.trans this ?_
          rw [run1]
          cases Model.LL.run cfg q.1.2 w1 <;> rfl
        | _ => rw [hq] at hvis; cases hvis
      | some b =>
        simp only [Out.bind_ok, Prog.bind_run] at hvis
        cases hp : f acc b c1 with
        | ok p =>
          obtain ⟨⟨acc1, ops1⟩, c2⟩ := p
          rw [hp] at hvis
          simp only [Out.bind_ok] at hvis
          cases hq : visit u g f acc1 xs c2 with
          | ok q =>
            rw [hq] at hvis
            cases hvis
            obtain ⟨rs', hs'⟩ := tail hs
            obtain ⟨rs1, A1, rs2, e1, e2⟩ := specRun_split ops1 q.1.2 hs'
            simp only [Out.bind_ok, Prog.bind_run, body, onClient, hp, onMem]
            rw [run1, run_append]
            have e3 := LL.reach_run p1.reach _ e1
            cases e4 : Model.LL.run cfg ops1 w1 with
            | ok m =>
              rw [e4] at e3
              obtain ⟨-, hv3, hr3⟩ := e3
              have hu3 : view m.2 u = some ⟨some xs, a⟩ := by
                rw [← p1.at]
                exact run_frame ops1 p1.reach e1 e4 fun op ho hm => by have := hk _ _ _ _ _ _ hp op ho u hm; omega
              have := ih acc1 c2 hr3 hu3 hq (by rw [hv3]; exact e2)
              refine Eq.trans this ?_
              simp only [Out.bind_ok]
              cases Model.LL.run cfg q.1.2 m.2 <;> rfl
            | _ => rfl
          | _ => rw [hq] at hvis; cases hvis
        | _ => rw [hp] at hvis; cases hvis
    | _ => rw [hg] at hvis; cases hvis

/-! ## Running out of memory -/

theorem lenOf_count (A : Spec.LL.Ideal α) (i : Nat) : Spec.LL.lenOf A i = Spec.LL.count A i := by
  simp only [Spec.LL.lenOf, Spec.LL.count, Spec.LL.contents]
  cases A i with
  | none => rfl
  | some v => obtain ⟨o, b⟩ := v; cases o <;> rfl

theorem nodes_work (A : Spec.LL.Ideal α) (op : Op α) : (work A op).nodes = Spec.LL.nodesFor A op := by
  cases op <;> simp only [work, Spec.LL.nodesFor, lenOf_count] <;> try rfl
  all_goals try split
  all_goals simp [Spec.LL.lose, Spec.LL.build, Spec.LL.add, Spec.LL.nothing, LL.work_add] <;> omega

theorem run_asks (ops : List (Op α)) : ∀ {w : Model.LL.World α} {rs : List (Res α)} {A' : Spec.LL.Ideal α}, Reach cfg w →
    specRun false cfg.dbl cfg.dflt ops (view w) = some (rs, A') → Model.LL.run cfg ops w = .oom →
    Spec.LL.Refused cfg w.heap.next (workRun cfg.dbl cfg.dflt ops (view w)).nodes := by
  induction ops with
  | nil => intro w rs A' hr hs e; cases e
  | cons op ops ih =>
    intro w rs A' hr hs e
    simp only [specRun] at hs
    cases h1 : specStep false cfg.dbl cfg.dflt op (view w) with
    | none => rw [h1] at hs; cases hs
    | some p =>
      obtain ⟨r, A1⟩ := p
      rw [h1] at hs
      simp only at hs
      cases h2 : specRun false cfg.dbl cfg.dflt ops A1 with
      | none => rw [h2] at hs; cases hs
      | some p2 =>
        obtain ⟨C, I⟩ := LL.reach_inv hr
        obtain ⟨a1, a2⟩ := LL.asks_ok op I (by rw [← I.view]; exact h1)
        rw [← I.view, ← nodes_work] at a1 a2
        rw [workRun, h1]
        simp only [Model.LL.run, Prog.bind_run] at e
        have hst := LL.reach_step hr h1
        have hn : ∀ k : Spec.LL.Work, (work (view w) op + k).nodes = (work (view w) op).nodes + k.nodes := fun k => rfl
        simp only [hn]
        cases e1 : Model.LL.step cfg op w with
        | ok q =>
          rw [e1] at e hst
          obtain ⟨-, hv, hr1, -⟩ := hst
          simp only [Out.bind_ok] at e
          have e3 : Model.LL.run cfg ops q.2 = .oom := by
            cases e2 : Model.LL.run cfg ops q.2 with
            | oom => rfl
            | _ => rw [e2] at e; cases e
          obtain ⟨k, k1, k2, k3⟩ := ih hr1 (by rw [hv]; exact h2) e3
          rw [hv] at k2
          have := (a1 q e1).1
          exact ⟨k, by omega, by omega, k3⟩
        | oom =>
          obtain ⟨k, k1, k2, k3⟩ := a2 e1
          exact ⟨k, k1, by omega, k3⟩
        | _ => rw [e1] at e; cases e

/-- a run either ends as the specification says, or a request was refused -/
theorem run_cases (ops : List (Op α)) {rs : List (Res α)} {A' : Spec.LL.Ideal α} (hr : Reach cfg w)
    (hs : specRun false cfg.dbl cfg.dflt ops (view w) = some (rs, A')) :
    (Model.LL.run cfg ops w = .oom ∧ Spec.LL.Refused cfg w.heap.next (workRun cfg.dbl cfg.dflt ops (view w)).nodes) ∨
    ∃ w', Model.LL.run cfg ops w = .ok (rs, w') ∧ Reach cfg w' ∧ view w' = A' ∧ LL.Did w.heap w'.heap (workRun cfg.dbl cfg.dflt ops (view w)) := by
  have h := LL.reach_run hr _ hs
  cases e : Model.LL.run cfg ops w with
  | ok q =>
    rw [e] at h
    obtain ⟨h1, h2, h3⟩ := h
    exact .inr ⟨q.2, by rw [← h1], h3, h2, LL.reach_workRun _ hr hs e⟩
  | oom => exact .inl ⟨rfl, run_asks ops hr hs e⟩
  | _ => rw [e] at h; exact h.elim

/-- a run that needs no memory -/
theorem run_free (ops : List (Op α)) {rs : List (Res α)} {A' : Spec.LL.Ideal α} (hr : Reach cfg w)
    (hs : specRun false cfg.dbl cfg.dflt ops (view w) = some (rs, A')) (hn : (workRun cfg.dbl cfg.dflt ops (view w)).nodes = 0) :
    ∃ w', Model.LL.run cfg ops w = .ok (rs, w') ∧ Reach cfg w' ∧ view w' = A' ∧ LL.Did w.heap w'.heap (workRun cfg.dbl cfg.dflt ops (view w)) := by
  rcases run_cases ops hr hs with ⟨-, k, k1, k2, -⟩ | h
  · omega
  · exact h

/-! ## The calls around the loop -/

/-- the lists when the terminal begins -/
def entered (A : Spec.LL.Ideal α) (j a b : Nat) (xs : List α) : Form → Spec.LL.Ideal α
  | .direct => put (put A j (some ⟨none, a⟩)) b (some ⟨some xs, a⟩)
  | .piped => put (put (put A j (some ⟨none, a⟩)) b (some ⟨none, a⟩)) (b + 1) (some ⟨some xs, a⟩)

section
variable {A : Spec.LL.Ideal α} {dbl : Bool} {dflt : α} {j t : Nat}

theorem source_spec (hj : A j = some ⟨some xs, a⟩) (hn : ∀ i, t ≤ i → A i = none) (n : Nat) :
    (∃ rs, specRun false dbl dflt (source j t n) A = some (rs, entered A j a (t + 3 * n) xs .direct)) ∧
    workRun dbl dflt (source j t n) A = ⟨n * xs.length, n * xs.length, n * (xs.length + 2)⟩ := by
  have hjt : j < t := by
    by_contra h
    rw [hn j (by omega)] at hj; cases hj
  have ht := hn t (Nat.le_refl _)
  have e1 : specStep false dbl dflt (.newMove t j) A = some (.unit, put (put A t (some ⟨some xs, a⟩)) j (some ⟨none, a⟩)) := by
    simp only [specStep, hj, Option.bind_some, Spec.LL.needs, ht]; rfl
  have g1 : put (put A t (some ⟨some xs, a⟩)) j (some ⟨none, a⟩) t = some ⟨some xs, a⟩ := by simp [put, show t ≠ j by omega]
  have g2 : ∀ i, t < i → put (put A t (some ⟨some xs, a⟩)) j (some ⟨none, a⟩) i = none := fun i hi => by
    simp [put, show i ≠ j by omega, show i ≠ t by omega, hn i (by omega)]
  obtain ⟨rs, e2⟩ := Consume.adapts_spec (dbl := dbl) (dflt := dflt) n g1 g2
  constructor
  · refine ⟨.unit :: rs, ?_⟩
    simp only [source, specRun, e1, e2]
    congr 2
    funext l
    simp only [entered, put]
    by_cases h1 : l = t + 3 * n
    · simp only [if_pos h1]
    · simp only [if_neg h1]
      by_cases h2 : l = t
      · rw [if_pos h2, if_neg (by omega), h2, ht]
      · simp only [if_neg h2]
  · rw [source, workRun, e1]
    simp only
    rw [Consume.adapts_work n g1 g2, work, LL.Work.zero_add']

theorem entry_spec (hj : A j = some ⟨some xs, a⟩) (hn : ∀ i, t ≤ i → A i = none) (n : Nat) (form : Form) :
    (∃ rs, specRun false dbl dflt (source j t n ++ form.enter (t + 3 * n)) A = some (rs, entered A j a (t + 3 * n) xs form)) ∧
    workRun dbl dflt (source j t n ++ form.enter (t + 3 * n)) A = ⟨n * xs.length, n * xs.length, n * (xs.length + 2)⟩ := by
  obtain ⟨⟨rs, e⟩, hw⟩ := source_spec (dbl := dbl) (dflt := dflt) hj hn n
  have hjt : j < t := by
    by_contra h
    rw [hn j (by omega)] at hj; cases hj
  cases form with
  | direct => simp only [Form.enter, List.append_nil]; exact ⟨⟨rs, e⟩, hw⟩
  | piped =>
    have e1 : specStep false dbl dflt (.newMove (t + 3 * n + 1) (t + 3 * n)) (entered A j a (t + 3 * n) xs .direct) =
        some (.unit, entered A j a (t + 3 * n) xs .piped) := by
      have h0 : entered A j a (t + 3 * n) xs .direct (t + 3 * n) = some ⟨some xs, a⟩ := by simp [entered, put]
      have h1 : entered A j a (t + 3 * n) xs .direct (t + 3 * n + 1) = none := by
        simp [entered, put, show t + 3 * n + 1 ≠ j by omega, hn (t + 3 * n + 1) (by omega)]
      simp only [specStep, h0, h1, Option.bind_some, Spec.LL.needs, Option.isNone_none, if_true]
      congr 2
      funext l
      simp only [entered, put]
      by_cases h1 : l = t + 3 * n
      · simp [h1]
      · simp [h1]
    constructor
    · exact ⟨_, Consume.specRun_append _ _ e (by simp only [Form.enter, specRun, e1]; rfl)⟩
    · rw [LL.workRun_append dbl dflt _ _ e, hw, Form.enter, workRun, e1]
      simp [workRun, work, Spec.LL.nothing, LL.work_add]

theorem leave_spec (hj : A j = some ⟨some xs, a⟩) (hn : ∀ i, t ≤ i → A i = none) (n : Nat) (form : Form) (ys : List α) :
    (∃ rs, specRun false dbl dflt (form.leave (t + 3 * n)) (put (entered A j a (t + 3 * n) xs form) (form.param (t + 3 * n)) (some ⟨some ys, a⟩)) =
      some (rs, put A j (some ⟨none, a⟩))) ∧
    workRun dbl dflt (form.leave (t + 3 * n)) (put (entered A j a (t + 3 * n) xs form) (form.param (t + 3 * n)) (some ⟨some ys, a⟩)) =
      ⟨0, ys.length, 0⟩ := by
  have hjt : j < t := by
    by_contra h
    rw [hn j (by omega)] at hj; cases hj
  have h0 := hn (t + 3 * n) (by omega)
  have h1 := hn (t + 3 * n + 1) (by omega)
  cases form with
  | direct =>
    constructor
    · refine ⟨[.unit], ?_⟩
      simp only [Form.leave, Form.param, specRun, specStep, entered, put, if_true, Option.bind_some]
      congr 2
      funext l
      simp only [put]
      by_cases e : l = t + 3 * n
      · simp only [if_pos e]; rw [if_neg (by omega), e, h0]
      · simp only [if_neg e]
    · simp [Form.leave, Form.param, workRun, specStep, entered, put, work, Spec.LL.lenOf, Spec.LL.Var.elems, Spec.LL.lose, Spec.LL.nothing, LL.work_add]
  | piped =>
    constructor
    · refine ⟨[.unit, .unit], ?_⟩
      simp [Form.leave, Form.param, specRun, specStep, entered, put]
      funext l
      simp only [put]
      by_cases e : l = t + 3 * n
      · simp only [if_pos e]; rw [if_neg (by omega), e, h0]
      · simp only [if_neg e]
        by_cases e2 : l = t + 3 * n + 1
        · simp only [if_pos e2]; rw [if_neg (by omega), e2, h1]
        · simp only [if_neg e2]
    · simp [Form.leave, Form.param, workRun, specStep, entered, put, work, Spec.LL.lenOf, Spec.LL.Var.elems, Spec.LL.lose, Spec.LL.nothing, LL.work_add]

theorem entered_param (form : Form) (b : Nat) : entered A j a b xs form (form.param b) = some ⟨some xs, a⟩ := by
  cases form <;> simp [entered, Form.param, put]

end

/-! ## The whole expressions -/

section
variable {j t : Nat}

theorem consumed_of (B : Before cfg w j t xs a) (hr : Reach cfg w') (hv : view w' = put (view w) j (some ⟨none, a⟩)) : Consumed cfg w w' j a :=
  ⟨hr, by rw [hv]; simp [put], fun l hl => by rw [hv]; simp [put, hl]⟩

/-- the state when the terminal begins -/
theorem begin_cases (B : Before cfg w j t xs a) (n : Nat) (form : Form) :
    (Model.LL.run cfg (source j t n ++ form.enter (t + 3 * n)) w = .oom ∧ Spec.LL.Refused cfg w.heap.next (n * (xs.length + 2))) ∨
    ∃ rs w1, Model.LL.run cfg (source j t n ++ form.enter (t + 3 * n)) w = .ok (rs, w1) ∧ Reach cfg w1 ∧
      view w1 = entered (view w) j a (t + 3 * n) xs form ∧ view w1 (form.param (t + 3 * n)) = some ⟨some xs, a⟩ ∧
      LL.Did w.heap w1.heap ⟨n * xs.length, n * xs.length, n * (xs.length + 2)⟩ := by
  obtain ⟨⟨rs, e⟩, hw⟩ := entry_spec (dbl := cfg.dbl) (dflt := cfg.dflt) B.list B.free n form
  have := run_cases _ B.reach e
  rw [hw] at this
  rcases this with h | ⟨w1, h1, h2, h3, h4⟩
  · exact .inl h
  · exact .inr ⟨rs, w1, h1, h2, h3, by rw [h3]; exact entered_param form _, h4⟩

theorem leave_view (B : Before cfg w j t xs a) (n : Nat) (form : Form) {w2 : Model.LL.World α} {ys : List α} (hr : Reach cfg w2)
    (h2 : view w2 = put (entered (view w) j a (t + 3 * n) xs form) (form.param (t + 3 * n)) (some ⟨some ys, a⟩)) :
    ∃ rs w3, Model.LL.run cfg (form.leave (t + 3 * n)) w2 = .ok (rs, w3) ∧ Consumed cfg w w3 j a ∧ LL.Did w2.heap w3.heap ⟨0, ys.length, 0⟩ := by
  obtain ⟨⟨rs, e⟩, hw⟩ := leave_spec (dbl := cfg.dbl) (dflt := cfg.dflt) B.list B.free n form ys
  rw [← h2] at e hw
  obtain ⟨w3, h3, h4, h5, h6⟩ := run_free _ hr e (by rw [hw])
  rw [hw] at h6
  exact ⟨rs, w3, h3, consumed_of B h4 h5, h6⟩

/-- the state when the terminal has returned; `k` elements were taken -/
theorem leave_ok (B : Before cfg w j t xs a) (n : Nat) (form : Form) {w1 w2 : Model.LL.World α} {k : Nat} {ys : List α}
    (hv : view w1 = entered (view w) j a (t + 3 * n) xs form) (p : Popped cfg w1 (form.param (t + 3 * n)) a k ys w2) :
    ∃ rs w3, Model.LL.run cfg (form.leave (t + 3 * n)) w2 = .ok (rs, w3) ∧ Consumed cfg w w3 j a ∧ LL.Did w2.heap w3.heap ⟨0, ys.length, 0⟩ := by
  exact leave_view B n form p.reach (by rw [p.now, hv])

/-- a function that does not call lists -/
def plain (f : ρ → β → Prog κ ρ) (acc : ρ) (b : β) : Prog κ (ρ × List (Op α)) := do
  let r ← f acc b
  return (r, [])

theorem body_plain (f : ρ → β → Prog κ ρ) : body cfg (plain f) = fun acc b => onClient (f acc b) := by
  funext acc b w
  simp only [body, plain, Prog.bind_run, onClient, onMem]
  cases f acc b w.client <;> rfl

variable {pipe : Pipe κ α β}

theorem fold_whole (B : Before cfg w j t xs a) (form : Form) (f : ρ → β → Prog κ ρ) (init : ρ) (c : κ) :
    (Spec.LL.Refused cfg w.heap.next (stages pipe * (xs.length + 2)) ∧ Model.ListConsume.fold cfg form j t pipe (plain f) init ⟨c, w⟩ = .oom) ∨
    ∃ w', Consumed cfg w w' j a ∧
      Spec.LL.Costs w.heap w'.heap (stages pipe * xs.length) (stages pipe * xs.length + xs.length) (stages pipe * (xs.length + 2)) ∧
      Model.ListConsume.fold cfg form j t pipe (plain f) init ⟨c, w⟩ = foldOver (one pipe) f init xs c >>= fun q => .ok (q.1, ⟨q.2, w'⟩) := by
  rcases begin_cases B (stages pipe) form with ⟨h, hf⟩ | ⟨rs, w1, h, hr1, hv1, hu, d1⟩
  · refine .inl ⟨hf, ?_⟩
    simp only [Model.ListConsume.fold, Prog.bind_run, onMem, h]
    rfl
  · have p := gone_popped (ys := []) xs hr1 (by rw [List.append_nil]; exact hu)
    obtain ⟨rs3, w3, h3, hc, d3⟩ := leave_ok B (stages pipe) form hv1 p
    refine .inr ⟨w3, hc, ?_, ?_⟩
    · have h := (d1.trans p.did).trans d3
      simpa [LL.Did, LL.work_add] using h
    · simp only [Model.ListConsume.fold, Prog.bind_run, onMem, h, Out.bind_ok, item_eq, body_plain, fold_plain f xs init c hr1 hu]
      cases foldOver (one pipe) f init xs c with
      | ok q => simp only [Out.bind_ok, h3]; rfl
      | _ => rfl

theorem forEach_eq (form : Form) (f : β → Prog κ (List (Op α))) : Model.ListConsume.forEach cfg form j t pipe f =
    Model.ListConsume.fold cfg form j t pipe (fun (_ : Unit) b => do let ops ← f b; return ((), ops)) () := by
  rw [Model.ListConsume.forEach, Model.ListConsume.fold]
  funext w
  simp only [Prog.bind_run]
  congr 1
  funext q
  rw [Proof.IterOpt.forEach_fold]

theorem calls_whole (B : Before cfg w j t xs a) (form : Form) {f : ρ → β → Prog κ (ρ × List (Op α))} (hk : Keeps t f) {init r : ρ} {c c' : κ}
    {ops : List (Op α)} {rs : List (Res α)} {A' : Spec.LL.Ideal α}
    (hv : visit (form.param (t + 3 * stages pipe)) (one pipe) f init xs c = .ok ((r, ops), c'))
    (hs : specRun false cfg.dbl cfg.dflt (source j t (stages pipe) ++ form.enter (t + 3 * stages pipe) ++ ops ++ form.leave (t + 3 * stages pipe)) (view w) =
      some (rs, A')) :
    Model.ListConsume.fold cfg form j t pipe f init ⟨c, w⟩ =
      Model.LL.run cfg (source j t (stages pipe) ++ form.enter (t + 3 * stages pipe) ++ ops ++ form.leave (t + 3 * stages pipe)) w >>= fun q =>
        .ok (r, ⟨c', q.2⟩) := by
  obtain ⟨rs1, A1, rs2, e1, e2⟩ := specRun_split _ _ hs
  obtain ⟨rs3, A3, rs4, e3, e4⟩ := specRun_split _ _ e1
  rw [run_append, run_append]
  simp only [Model.ListConsume.fold, Prog.bind_run, onMem]
  rcases begin_cases B (stages pipe) form with ⟨h, hf⟩ | ⟨rs', w1, h, hr1, hv1, hu, -⟩
  · rw [h]; rfl
  · have h1 := LL.reach_run B.reach _ e3
    rw [h] at h1 ⊢
    have hA : view w1 = A3 := h1.2.1
    simp only [Out.bind_ok, item_eq]
    rw [fold_calls hk (by cases form <;> simp only [Form.param] <;> omega) xs init c hr1 hu hv (by rw [hA]; exact e4)]
    cases Model.LL.run cfg ops w1 with
    | ok q =>
      simp only [Out.bind_ok]
      cases Model.LL.run cfg (form.leave (t + 3 * stages pipe)) q.2 <;> rfl
    | _ => rfl

/-! ### `find` and `last` -/

theorem findOver_left {g : α → Prog κ (Option β)} {p : β → Prog κ (Bool × β)} (xs : List α) : ∀ {c c' : κ} {o : Option (β × List α)},
    findOver g p xs c = .ok (o, c') → ∃ pre, pre ++ left o = xs := by
  induction xs with
  | nil => intro c c' o h; cases h; exact ⟨[], rfl⟩
  | cons x xs ih =>
    intro c c' o h
    rw [findOver, Prog.bind_run] at h
    have more : ∀ {c1}, findOver g p xs c1 = .ok (o, c') → ∃ pre, pre ++ left o = x :: xs := fun h => by
      obtain ⟨pre, e⟩ := ih h
      exact ⟨x :: pre, by rw [List.cons_append, e]⟩
    cases hg : g x c with
    | ok q =>
      obtain ⟨q, c1⟩ := q
      rw [hg] at h
      cases q with
      | none => exact more h
      | some b =>
        simp only [Out.bind_ok, Prog.bind_run] at h
        cases hp : p b c1 with
        | ok m =>
          obtain ⟨⟨y, b'⟩, c2⟩ := m
          rw [hp] at h
          cases y with
          | true => cases h; exact ⟨[x], rfl⟩
          | false => exact more h
        | _ => rw [hp] at h; cases h
    | _ => rw [hg] at h; cases h

theorem findIn_eq (hr : Reach cfg w) (hv : view w u = some ⟨some xs, a⟩) (p : β → Prog κ (Bool × β)) (c : κ) :
    Model.ListConsume.findIn cfg pipe u p ⟨c, w⟩ =
      findOver (one pipe) p xs c >>= fun q => .ok (q.1.map Prod.fst, ⟨q.2, gone cfg u (xs.length - (left q.1).length) w⟩) := by
  rw [Model.ListConsume.findIn, Prog.bind_run, item_eq, find_plain p xs c hr hv]
  cases findOver (one pipe) p xs c <;> rfl

theorem findIn_whole (hr : Reach cfg w) (hv : view w u = some ⟨some xs, a⟩) (p : β → Prog κ (Bool × β)) (c : κ) :
    ∃ fin : Option (β × List α) → Model.LL.World α,
      Model.ListConsume.findIn cfg pipe u p ⟨c, w⟩ = (findOver (one pipe) p xs c >>= fun q => .ok (q.1.map Prod.fst, ⟨q.2, fin q.1⟩)) ∧
      ∀ o c', findOver (one pipe) p xs c = .ok (o, c') → Reach cfg (fin o) ∧ view (fin o) = put (view w) u (some ⟨some (left o), a⟩) := by
  refine ⟨fun o => gone cfg u (xs.length - (left o).length) w, findIn_eq hr hv p c, fun o c' h => ?_⟩
  obtain ⟨pre, rfl⟩ := findOver_left xs h
  have := gone_popped pre hr hv
  dsimp only
  rw [show (pre ++ left o).length - (left o).length = pre.length by simp]
  exact ⟨this.reach, this.now⟩

theorem find_whole (B : Before cfg w j t xs a) (p : β → Prog κ (Bool × β)) (c : κ) :
    (Spec.LL.Refused cfg w.heap.next (stages pipe * (xs.length + 2)) ∧ Model.ListConsume.find cfg j t pipe p ⟨c, w⟩ = .oom) ∨
    ∃ w', Consumed cfg w w' j a ∧
      Spec.LL.Costs w.heap w'.heap (stages pipe * xs.length) (stages pipe * xs.length + xs.length) (stages pipe * (xs.length + 2)) ∧
      Model.ListConsume.find cfg j t pipe p ⟨c, w⟩ = findOver (one pipe) p xs c >>= fun q => .ok (q.1.map Prod.fst, ⟨q.2, w'⟩) := by
  have hbeg := begin_cases B (stages pipe) .direct
  simp only [Form.enter, List.append_nil, Form.param] at hbeg
  rcases hbeg with ⟨h, hf⟩ | ⟨rs, w1, h, hr1, hv1, hu, d1⟩
  · refine .inl ⟨hf, ?_⟩
    simp only [Model.ListConsume.find, Prog.bind_run, onMem, h]
    rfl
  · right
    have fin : ∀ pre ys, pre ++ ys = xs → ∃ rs3 w3, Model.LL.run cfg [.drop (t + 3 * stages pipe)] (gone cfg (t + 3 * stages pipe) pre.length w1) = .ok (rs3, w3) ∧
        Consumed cfg w w3 j a ∧
        Spec.LL.Costs w.heap w3.heap (stages pipe * xs.length) (stages pipe * xs.length + xs.length) (stages pipe * (xs.length + 2)) := by
      intro pre ys e
      have p := gone_popped (ys := ys) pre hr1 (by rw [e]; exact hu)
      obtain ⟨rs3, w3, h3, hc, d3⟩ := leave_ok B (stages pipe) .direct hv1 p
      refine ⟨rs3, w3, h3, hc, ?_⟩
      have := (d1.trans p.did).trans d3
      simpa [LL.Did, LL.work_add, ← e, Nat.add_assoc] using this
    simp only [Model.ListConsume.find, Prog.bind_run, onMem, h, Out.bind_ok, findIn_eq hr1 hu]
    cases hf : findOver (one pipe) p xs c with
    | ok q =>
      obtain ⟨o, c'⟩ := q
      obtain ⟨pre, e⟩ := findOver_left xs hf
      obtain ⟨rs3, w3, h3, hc, hd⟩ := fin pre (left o) e
      refine ⟨w3, hc, hd, ?_⟩
      have e2 : xs.length - (left o).length = pre.length := by rw [← e]; simp
      simp only [Out.bind_ok, e2, h3]
      rfl
    | _ =>
      obtain ⟨rs3, w3, h3, hc, hd⟩ := fin xs [] (by simp)
      exact ⟨w3, hc, hd, rfl⟩

theorem foldOver_last {g : α → Prog κ (Option β)} (xs : List α) : ∀ (acc : Option β) (c : κ),
    foldOver g (fun _ b => return some b) acc xs c = all g xs c >>= fun q => .ok (q.1.getLast? <|> acc, q.2) := by
  induction xs with
  | nil => intro acc c; cases acc <;> rfl
  | cons x xs ih =>
    intro acc c
    rw [foldOver, all, Prog.bind_run, Prog.bind_run]
    cases g x c with
    | ok q =>
      obtain ⟨o, c1⟩ := q
      cases o with
      | none =>
        simp only [Out.bind_ok, Prog.bind_run, ih]
        cases all g xs c1 <;> rfl
      | some b =>
        simp only [Out.bind_ok, Prog.bind_run, Prog.pure_run, ih]
        cases all g xs c1 with
        | ok q =>
          simp only [Out.bind_ok, Prog.pure_run]
          cases hq : q.1 with
          | nil => rfl
          | cons y ys =>
            rw [List.getLast?_cons_cons]
            cases hl : (y :: ys).getLast? with
            | none => simp at hl
            | some z => rfl
        | _ => rfl
    | _ => rfl

theorem lastIn_whole (hr : Reach cfg w) (hv : view w u = some ⟨some xs, a⟩) (c : κ) :
    ∃ w', Reach cfg w' ∧ view w' = put (view w) u (some ⟨some [], a⟩) ∧
      Model.ListConsume.lastIn cfg pipe u ⟨c, w⟩ = all (one pipe) xs c >>= fun q => .ok (q.1.getLast?, ⟨q.2, w'⟩) := by
  have p := gone_popped (ys := []) xs hr (by rw [List.append_nil]; exact hv)
  refine ⟨_, p.reach, p.now, ?_⟩
  rw [Model.ListConsume.lastIn, Prog.bind_run, item_eq, last_plain xs c hr hv, foldOver_last]
  cases all (one pipe) xs c with
  | ok q => simp only [Out.bind_ok, Option.orElse_eq_orElse, Option.orElse_eq_or, Option.or_none]; rfl
  | _ => rfl

/-! ### `reduce` -/

theorem reduce_whole (B : Before cfg w j t xs a) (form : Form) (f : β → β → Prog κ β) (c : κ) :
    (Spec.LL.Refused cfg w.heap.next ((stages pipe + 1) * (xs.length + 2)) ∧ Model.ListConsume.reduce cfg form j t pipe f ⟨c, w⟩ = .oom) ∨
    ∃ w', Consumed cfg w w' j a ∧
      (∀ b rest c', findOver (one pipe) (fun b => return (true, b)) xs c = .ok (some (b, rest), c') →
        Spec.LL.Costs w.heap w'.heap (stages pipe * xs.length + rest.length) (stages pipe * xs.length + xs.length + rest.length)
          (stages pipe * (xs.length + 2) + (rest.length + 2))) ∧
      Model.ListConsume.reduce cfg form j t pipe f ⟨c, w⟩ = reduceOver (one pipe) f xs c >>= fun q => .ok (q.1, ⟨q.2, w'⟩) := by
  rcases begin_cases B (stages pipe) form with ⟨h, hf⟩ | ⟨rs, w1, h, hr1, hv1, hu, d1⟩
  · obtain ⟨k, k1, k2, k3⟩ := hf
    refine .inl ⟨⟨k, k1, by rw [Nat.add_mul]; omega, k3⟩, ?_⟩
    simp only [Model.ListConsume.reduce, Prog.bind_run, onMem, h]
    rfl
  · simp only [Model.ListConsume.reduce, Prog.bind_run, onMem, h, Out.bind_ok, item_eq, pull_plain xs c hr1 hu, reduceOver_eq]
    cases hf : findOver (one pipe) (fun b => return (true, b)) xs c with
    | ok q =>
      obtain ⟨o, c1⟩ := q
      obtain ⟨pre, e⟩ := findOver_left xs hf
      have e2 : xs.length - (left o).length = pre.length := by rw [← e]; simp
      have p := gone_popped (ys := left o) pre hr1 (by rw [e]; exact hu)
      cases o with
      | none =>
        obtain ⟨rs3, w3, h3, hc, d3⟩ := leave_ok B (stages pipe) form hv1 p
        refine .inr ⟨w3, hc, ?_, ?_⟩
        · rintro b rest c' ⟨⟩
        · simp only [Out.bind_ok, e2, Option.map_none]
          rw [Prog.bind_run, Prog.pure_run]
          simp only [Out.bind_ok, Prog.bind_run, onMem, h3]
          rfl
      | some m =>
        obtain ⟨b, rest⟩ := m
        have hu2 : view (gone cfg (form.param (t + 3 * stages pipe)) pre.length w1) (form.param (t + 3 * stages pipe)) = some ⟨some rest, a⟩ := p.at
        have hn2 : view (gone cfg (form.param (t + 3 * stages pipe)) pre.length w1) (form.param (t + 3 * stages pipe) + 1) = none := by
          rw [p.now, hv1]
          have h0 := B.free (t + 3 * stages pipe + 1) (by omega)
          have h1 := B.free (t + 3 * stages pipe + 2) (by omega)
          have hjt : j < t := by
            by_contra h
            have := B.list
            rw [B.free j (by omega)] at this; cases this
          have g0 : t + 3 * stages pipe + 1 ≠ j := by omega
          have g1 : t + 3 * stages pipe + 2 ≠ j := by omega
          have g2 : t + 3 * stages pipe + 1 + 1 ≠ t + 3 * stages pipe := by omega
          cases form <;> simp [entered, Form.param, put, h0, h1, g0, g1, g2]
        have hp2 := p.reach
        have hd2 := d1.trans p.did
        have hnow := p.now
        simp only [Out.bind_ok, e2, Option.map_some, Prog.bind_run, onMem]
        generalize gone cfg (form.param (t + 3 * stages pipe)) pre.length w1 = w2 at hu2 hn2 hp2 hd2 hnow ⊢
        generalize hU : form.param (t + 3 * stages pipe) = u at hu2 hn2 hnow ⊢
        have es : specRun false cfg.dbl cfg.dflt [.newCopy (u + 1) u] (view w2) = some ([.unit], put (view w2) (u + 1) (some ⟨some rest, a⟩)) := by
          simp [specRun, specStep, hu2, hn2, Spec.LL.born, Spec.LL.needs]
        have ew : workRun cfg.dbl cfg.dflt [.newCopy (u + 1) u] (view w2) = ⟨rest.length, 0, rest.length + 2⟩ := by
          simp [workRun, specStep, hu2, hn2, Spec.LL.born, Spec.LL.needs, work, Spec.LL.build, Spec.LL.lenOf, Spec.LL.Var.elems, Spec.LL.nothing, LL.work_add]
        have hlen : pre.length + rest.length = xs.length := by rw [← e]; simp [left]
        rcases run_cases _ hp2 es with ⟨h, hf⟩ | ⟨w4, h4, hr4, hv4, d4⟩
        · rw [ew] at hf
          obtain ⟨k, k1, k2, k3⟩ := hf
          refine .inl ⟨⟨k, ?_, ?_, k3⟩, by simp only [h]; rfl⟩
          · have := hd2.2.2; simp only [LL.work_add] at this; omega
          · have := hd2.2.2
            simp only [LL.work_add] at this
            rw [Nat.add_mul]
            generalize stages pipe * (xs.length + 2) = m at this ⊢
            simp only at k2
            omega
        · rw [ew] at d4
          have hu4 : view w4 (u + 1) = some ⟨some rest, a⟩ := by rw [hv4]; simp [put]
          have p4 := gone_popped (ys := []) rest hr4 (by rw [List.append_nil]; exact hu4)
          have es5 : specRun false cfg.dbl cfg.dflt [.drop (u + 1)] (view (gone cfg (u + 1) rest.length w4)) = some ([.unit], view w2) := by
            rw [p4.now, hv4, put_put]
            simp [specRun, specStep, put]
            funext l
            simp only [put]
            split
            · rename_i h; rw [h, hn2]
            · rfl
          have ew5 : workRun cfg.dbl cfg.dflt [.drop (u + 1)] (view (gone cfg (u + 1) rest.length w4)) = ⟨0, 0, 0⟩ := by
            rw [p4.now]
            simp [workRun, specStep, put, work, Spec.LL.lenOf, Spec.LL.Var.elems, Spec.LL.lose, Spec.LL.nothing, LL.work_add]
          obtain ⟨w5, h5, hr5, hv5, d5⟩ := run_free _ p4.reach es5 (by rw [ew5])
          rw [ew5] at d5
          obtain ⟨rs6, w6, h6, hc, d6⟩ := leave_view B (stages pipe) form (ys := rest) hr5 (by rw [hv5, hnow, hv1, hU]; rfl)
          refine .inr ⟨w6, hc, ?_, ?_⟩
          · intro b' rest' c' hq
            cases hq
            have := (((hd2.trans d4).trans p4.did).trans d5).trans d6
            simp only [LL.work_add, LL.Did] at this
            obtain ⟨q1, q2, q3⟩ := this
            exact ⟨by omega, by omega, by omega⟩
          · simp only [h4, Out.bind_ok, fold_plain f rest b c1 hr4 hu4]
            cases foldOver (one pipe) f b rest c1 with
            | ok q => subst hU; simp only [Out.bind_ok, h5, Prog.pure_run, h6]
            | _ => rfl
    | _ =>
      have p := gone_popped (ys := []) xs hr1 (by rw [List.append_nil]; exact hu)
      obtain ⟨rs3, w3, h3, hc, d3⟩ := leave_ok B (stages pipe) form hv1 p
      exact .inr ⟨w3, hc, (by rintro b rest c' ⟨⟩), rfl⟩

end

end Verif.Proof.ListConsume
