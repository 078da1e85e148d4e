import Verif.Model.Consume
import Verif.Proof.Collect
/-! # Pipelines that consume a list: taking elements and appending elements commute -/
namespace Verif.Proof.Consume
open Verif Verif.Model.Collect
open Verif.Model.Iter (Next Pipe fold)
open Verif.Spec.Pipe
open Verif.Proof.Pipe Verif.Proof.Collect
open Verif.Proof.LL (Cells)

variable {κ M S α β γ σ ρ : Type}

/-! ## A loop that empties one container and fills another -/

/-- After `p`, the memory changes by `f`. -/
def after (p : Out (γ × M)) (f : M → M) : Out (γ × M) := p >>= fun q => .ok (q.1, f q.2)

theorem after_ok (a : γ) (m : M) (f : M → M) : after (.ok (a, m)) f = .ok (a, f m) := rfl
theorem after_after (p : Out (γ × M)) (f g : M → M) : after (after p f) g = after p fun m => g (f m) := by cases p <;> rfl
theorem after_bind (p : Out (γ × M)) (f : M → M) {δ : Type} (k : γ → M → Out (δ × M)) :
    (after p f >>= fun q => k q.1 q.2) = p >>= fun q => k q.1 (f q.2) := by cases p <;> rfl

/-- The elements `cs` are still to be handed out, `r` is being filled; `pop c cs` is what taking `c` off `c :: cs` does to
the memory. -/
structure Takes (next : Next M Unit α) (pop : Nat × α → Cells α → M → M) (push : ρ → β → Prog M ρ) (fin : ρ → Prog M Unit)
    (J : ρ → Cells α → M → Prop) : Prop where
  stop : ∀ {r m}, J r [] m → next () m = .ok ((none, ()), m)
  more : ∀ {r c cs m}, J r (c :: cs) m → next () m = .ok ((some c.2, ()), pop c cs m)
  popped : ∀ {r c cs m}, J r (c :: cs) m → J r cs (pop c cs m)
  pushed : ∀ {r cs m} (b : β), J r cs m → (push r b m).Safe fun q => J q.1 cs q.2
  comm : ∀ {r c cs m} (b : β), J r (c :: cs) m → push r b (pop c cs m) = after (push r b m) (pop c cs)
  fin_comm : ∀ {r c cs m}, J r (c :: cs) m → fin r (pop c cs m) = after (fin r m) (pop c cs)

def pops (pop : Nat × α → Cells α → M → M) : Cells α → M → M
  | [], m => m
  | c :: cs, m => pops pop cs (pop c cs m)

variable {next : Next M Unit α} {pop : Nat × α → Cells α → M → M} {push : ρ → β → Prog M ρ} {fin : ρ → Prog M Unit}
  {J : ρ → Cells α → M → Prop} {g : α → Prog κ (Option β)}

theorem foldlM_safe (T : Takes next pop push fin J) (ys : List β) : ∀ {r cs m}, J r cs m →
    (ys.foldlM push r m).Safe fun q => J q.1 cs q.2 := by
  induction ys with
  | nil => intro r cs m h; exact h
  | cons y ys ih =>
    intro r cs m h
    simp only [List.foldlM_cons, Prog.bind_run]
    have := T.pushed y h
    cases he : push r y m with
    | ok q => rw [he] at this; exact ih this
    | oom => trivial
    | _ => rw [he] at this; exact this.elim

theorem foldlM_comm (T : Takes next pop push fin J) (ys : List β) : ∀ {r c cs m}, J r (c :: cs) m →
    ys.foldlM push r (pop c cs m) = after (ys.foldlM push r m) (pop c cs) := by
  induction ys with
  | nil => intro r c cs m _; rfl
  | cons y ys ih =>
    intro r c cs m h
    simp only [List.foldlM_cons, Prog.bind_run, T.comm y h]
    have := T.pushed y h
    cases he : push r y m with
    | ok q => rw [he] at this; exact ih this
    | _ => rfl

theorem fin_comms (T : Takes next pop push fin J) (cs : Cells α) : ∀ {r m}, J r cs m →
    fin r (pops pop cs m) = after (fin r m) (pops pop cs) := by
  induction cs with
  | nil => intro r m _; simp only [pops, after]; cases fin r m <;> rfl
  | cons c cs ih =>
    intro r m h
    simp only [pops]
    rw [ih (T.popped h), T.fin_comm h, after_after]

theorem loop_takes (T : Takes next pop push fin J) (cs : Cells α) : ∀ {r} {w : World κ M} {ys : List β} {k : κ}, J r cs w.mem →
    all g (LL.vals cs) w.client = .ok (ys, k) →
      fold (pull (fun s => onMem (next s)) fun a => onClient (g a)) (fun r b => onMem (push r b)) r () w =
        ys.foldlM push r w.mem >>= fun q => .ok (q.1, ⟨k, pops pop cs q.2⟩) := by
  induction cs with
  | nil =>
    intro r w ys k h ha
    simp only [LL.vals, List.map_nil, all, Prog.pure_run] at ha
    cases ha
    rw [fold_unfold, pull_unfold]
    simp only [Prog.bind_run, onMem, T.stop h, Out.bind_ok]
    rfl
  | cons c cs ih =>
    intro r w ys k h ha
    simp only [LL.vals, List.map_cons, all, Prog.bind_run] at ha
    rw [fold_unfold, pull_unfold]
    simp only [Prog.bind_run, onMem, T.more h, Out.bind_ok, onClient]
    cases hg : g c.2 w.client with
    | ok q =>
      obtain ⟨o, k1⟩ := q
      rw [hg] at ha
      simp only [Out.bind_ok] at ha
      cases hb : all g (cs.map Prod.snd) k1 with
      | ok p =>
        obtain ⟨zs, k2⟩ := p
        rw [hb] at ha
        cases o with
        | none =>
          simp only [Out.bind_ok, Prog.pure_run] at ha ⊢
          cases ha
          have := ih (w := ⟨k1, pop c cs w.mem⟩) (T.popped h) hb
          rw [fold_unfold] at this
          refine Eq.trans this ?_
          simp only [foldlM_comm T ys h, pops]
          cases ys.foldlM push r w.mem <;> rfl
        | some b =>
          simp only [Out.bind_ok, Prog.pure_run] at ha ⊢
          cases ha
          simp only [List.foldlM_cons, Prog.bind_run]
          have e2 : (onMem (push r b) : Prog (World κ M) ρ) ⟨k1, pop c cs w.mem⟩ =
              (push r b (pop c cs w.mem) >>= fun q => .ok (q.1, ⟨k1, q.2⟩)) := rfl
          rw [T.comm b h] at e2
          have hs := T.pushed b h
          cases he : push r b w.mem with
          | ok q =>
            rw [he] at e2 hs
            simp only [after, Out.bind_ok] at e2
            rw [e2]
            simp only [Out.bind_ok]
            have := ih (w := ⟨k1, pop c cs q.2⟩) (T.popped hs) hb
            refine Eq.trans this ?_
            simp only [foldlM_comm T zs hs, pops]
            cases zs.foldlM push q.1 q.2 <;> rfl
          | _ => rw [he] at e2; rw [e2]; rfl
      | _ => rw [hb] at ha; cases ha
    | _ => rw [hg] at ha; cases ha

/-- a failing function ends the loop, unless memory ran out before -/
theorem loop_fails (T : Takes next pop push fin J) (cs : Cells α) : ∀ {r} {w : World κ M}, J r cs w.mem →
    (∀ q, all g (LL.vals cs) w.client ≠ .ok q) → ∀ f : List β × κ → Out (ρ × World κ M),
      fold (pull (fun s => onMem (next s)) fun a => onClient (g a)) (fun r b => onMem (push r b)) r () w = .oom ∨
      fold (pull (fun s => onMem (next s)) fun a => onClient (g a)) (fun r b => onMem (push r b)) r () w =
        all g (LL.vals cs) w.client >>= f := by
  induction cs with
  | nil => intro r w _ h; exact absurd rfl (h ([], w.client))
  | cons c cs ih =>
    intro r w h ha f
    simp only [LL.vals, List.map_cons, all, Prog.bind_run] at ha ⊢
    rw [fold_unfold, pull_unfold]
    simp only [Prog.bind_run, onMem, T.more h, Out.bind_ok, onClient]
    cases hg : g c.2 w.client with
    | ok q =>
      obtain ⟨o, k1⟩ := q
      rw [hg] at ha
      simp only [Out.bind_ok] at ha ⊢
      have h' : ∀ q, all g (LL.vals cs) k1 ≠ .ok q := by
        intro q e
        rw [show all g (cs.map Prod.snd) k1 = _ from e] at ha
        cases o with
        | none => exact ha _ rfl
        | some b => exact ha _ rfl
      cases o with
      | none =>
        have := ih (w := ⟨k1, pop c cs w.mem⟩) (T.popped h) h' (fun q => f (q.1, q.2))
        rw [fold_unfold] at this
        rcases this with e | e
        · exact .inl e
        · refine .inr (Eq.trans e ?_)
          cases hx : all g (LL.vals cs) k1 with
          | ok q => exact absurd hx (h' q)
          | _ => rfl
      | some b =>
        simp only [Prog.pure_run, Out.bind_ok, Prog.bind_run]
        have e2 : (onMem (push r b) : Prog (World κ M) ρ) ⟨k1, pop c cs w.mem⟩ =
            (push r b (pop c cs w.mem) >>= fun q => .ok (q.1, ⟨k1, q.2⟩)) := rfl
        have hs := T.pushed b (T.popped h)
        cases he : push r b (pop c cs w.mem) with
        | ok q =>
          rw [he] at e2 hs
          simp only [Out.bind_ok] at e2
          rw [e2]
          simp only [Out.bind_ok]
          rcases ih (w := ⟨k1, q.2⟩) hs h' (fun q => f (b :: q.1, q.2)) with e | e
          · exact .inl e
          · refine .inr (Eq.trans e ?_)
            cases hx : all g (LL.vals cs) k1 with
            | ok q => exact absurd hx (h' q)
            | _ => rfl
        | oom => rw [he] at e2; rw [e2]; exact .inl rfl
        | _ => rw [he] at hs; exact hs.elim
    | _ => exact .inr rfl

/-! ## `from_iter` -/

section
variable {F : Part M (Model.Vector.World β)} {ty : Model.Mem.ElemTy β} {i : Nat} {pipe : Pipe κ α β} {cs : Cells α} {w : World κ M}
  {J : Model.Vector.Vec → Cells α → M → Prop}

theorem toVec_takes (hF : Part.Lawful F)
    (T : Takes next pop (fun v x => F.on (Model.Vector.inHeap (Model.Vector.pushBack ty v (.tmp x)))) (fun v => F.on (Model.Vector.setVar i (some v))) J)
    (hst : (F.on (Model.Vector.inHeap (Model.Vector.newDefault ty)) w.mem).Safe fun q => J q.1 cs q.2) {ys : List β} {k : κ}
    (ha : all (one pipe) (LL.vals cs) w.client = .ok (ys, k)) :
    toVec F ty i ((lift pipe).next fun s => onMem (next s)) () w =
      F.on (Model.Vector.step ty (.fromIter i ys) >>= fun _ => pure ()) w.mem >>= fun q => .ok (q.1, ⟨k, pops pop cs q.2⟩) := by
  rw [vec_fromIter_eq hF]
  simp only [toVec, Prog.bind_run, pipe_next, onMem]
  cases he : F.on (Model.Vector.inHeap (Model.Vector.newDefault ty)) w.mem with
  | ok q =>
    rw [he] at hst
    simp only [Out.bind_ok]
    have e1 : (one (lift pipe) : α → Prog (World κ M) (Option β)) = fun a => onClient (one pipe a) := funext fun a => one_lift pipe a
    have h3 := loop_takes (g := one pipe) (w := ⟨w.client, q.2⟩) T cs hst ha
    rw [e1]
    simp only [onMem] at h3
    rw [h3]
    have hs := foldlM_safe T ys hst
    cases hx : ys.foldlM (fun v x => F.on (Model.Vector.inHeap (Model.Vector.pushBack ty v (.tmp x)))) q.1 q.2 with
    | ok p =>
      rw [hx] at hs
      have hf := fin_comms T cs hs
      simp only [Out.bind_ok]
      rw [hf]
      cases F.on (Model.Vector.setVar i (some p.1)) p.2 <;> rfl
    | _ => rfl
  | _ => rfl

theorem toVec_fails
    (T : Takes next pop (fun v x => F.on (Model.Vector.inHeap (Model.Vector.pushBack ty v (.tmp x)))) (fun v => F.on (Model.Vector.setVar i (some v))) J)
    (hst : (F.on (Model.Vector.inHeap (Model.Vector.newDefault ty)) w.mem).Safe fun q => J q.1 cs q.2)
    (ha : ∀ q, all (one pipe) (LL.vals cs) w.client ≠ .ok q) (f : List β × κ → Out (Unit × World κ M)) :
    toVec F ty i ((lift pipe).next fun s => onMem (next s)) () w = .oom ∨
    toVec F ty i ((lift pipe).next fun s => onMem (next s)) () w = all (one pipe) (LL.vals cs) w.client >>= f := by
  simp only [toVec, Prog.bind_run, pipe_next, onMem]
  cases he : F.on (Model.Vector.inHeap (Model.Vector.newDefault ty)) w.mem with
  | ok q =>
    rw [he] at hst
    simp only [Out.bind_ok]
    have e1 : (one (lift pipe) : α → Prog (World κ M) (Option β)) = fun a => onClient (one pipe a) := funext fun a => one_lift pipe a
    have h2 := loop_fails (g := one pipe) (w := ⟨w.client, q.2⟩) T cs hst ha (fun _ => .oom)
    rw [e1]
    simp only [onMem] at h2
    rcases h2 with h2 | h2
    · rw [h2]; exact .inl rfl
    · rw [h2]
      right
      cases hx : all (one pipe) (LL.vals cs) w.client with
      | ok q => exact absurd hx (ha q)
      | _ => rfl
  | oom => exact .inl rfl
  | _ => rw [he] at hst; exact hst.elim

end

section
variable {F : Part M (Model.LL.World β)} {cfg : Model.LL.Cfg β} {i : Nat} {pipe : Pipe κ α β} {cs : Cells α} {w : World κ M}
  {J : Model.LL.Lst → Model.LL.Ptr × Nat → Cells α → M → Prop}

/-- the end of `from_iter` of a list -/
def listFin (F : Part M (Model.LL.World β)) (cfg : Model.LL.Cfg β) (i : Nat) (l : Model.LL.Lst) (q : Model.LL.Ptr × Nat) : Prog M Unit := do
  F.on (Model.LL.inHeap (Model.LL.setNext cfg q.1 l.tail))
  F.on (Model.LL.setVar i (some { l with len := q.2 }))

theorem toList_takes (hF : Part.Lawful F)
    (hst : (F.on (Model.LL.inHeap (Model.LL.newAlloc cfg Model.LL.dfltAlloc)) w.mem).Safe fun q =>
      Takes next pop (fun p x => F.on (Model.LL.inHeap (pushNode cfg q.1.alloc p x))) (listFin F cfg i q.1) (J q.1) ∧
      J q.1 (q.1.head, q.1.len) cs q.2 ∧ q.1.len = 0) {ys : List β} {k : κ}
    (ha : all (one pipe) (LL.vals cs) w.client = .ok (ys, k)) :
    toList F cfg i ((lift pipe).next fun s => onMem (next s)) () w =
      F.on (Model.LL.step cfg (.fromIter i ys) >>= fun _ => pure ()) w.mem >>= fun q => .ok (q.1, ⟨k, pops pop cs q.2⟩) := by
  rw [list_fromIter_eq hF]
  simp only [toList, Prog.bind_run, pipe_next, onMem]
  cases he : F.on (Model.LL.inHeap (Model.LL.newAlloc cfg Model.LL.dfltAlloc)) w.mem with
  | ok q =>
    rw [he] at hst
    obtain ⟨T, hst, hl⟩ := hst
    simp only [Out.bind_ok]
    have e1 : (one (lift pipe) : α → Prog (World κ M) (Option β)) = fun a => onClient (one pipe a) := funext fun a => one_lift pipe a
    have h3 := loop_takes (g := one pipe) (w := ⟨w.client, q.2⟩) T cs hst ha
    rw [e1]
    simp only [onMem] at h3
    rw [h3]
    have hs := foldlM_safe T ys hst
    rw [foldlM_pushNode hF, list_inHeap_bind, on_bind hF, Prog.bind_run] at hs ⊢
    cases hx : F.on (Model.LL.inHeap (Model.LL.rangeLoop cfg q.1.alloc ys q.1.head)) q.2 with
    | ok p =>
      have e4 : F.on (Model.LL.inHeap (pure (p.1, q.1.len + ys.length))) p.2 = .ok ((p.1, q.1.len + ys.length), p.2) := by
        simp only [Part.on, Model.LL.inHeap, Prog.pure_run, Out.bind_ok, hF.put_get]
      rw [hx] at hs
      simp only [Out.bind_ok, e4] at hs ⊢
      have hf := fin_comms T cs hs
      simp only [listFin, Prog.bind_run, hl, Nat.zero_add] at hf ⊢
      have : ∀ m : M, ((onMem (F.on (Model.LL.inHeap (Model.LL.setNext cfg p.1 q.1.tail))) : Prog (World κ M) _) ⟨k, m⟩ >>= fun r =>
          (onMem (F.on (Model.LL.setVar i (some { q.1 with len := ys.length }))) : Prog (World κ M) _) r.2) =
          (F.on (Model.LL.inHeap (Model.LL.setNext cfg p.1 q.1.tail)) m >>= fun r =>
            F.on (Model.LL.setVar i (some { q.1 with len := ys.length })) r.2) >>= fun r => .ok (r.1, ⟨k, r.2⟩) := by
        intro m
        simp only [onMem]
        cases F.on (Model.LL.inHeap (Model.LL.setNext cfg p.1 q.1.tail)) m <;> rfl
      refine Eq.trans (this _) ?_
      rw [hf]
      simp only [after]
      cases F.on (Model.LL.inHeap (Model.LL.setNext cfg p.1 q.1.tail)) p.2 <;> rfl
    | _ => rfl
  | _ => rfl

theorem toList_fails
    (hst : (F.on (Model.LL.inHeap (Model.LL.newAlloc cfg Model.LL.dfltAlloc)) w.mem).Safe fun q =>
      Takes next pop (fun p x => F.on (Model.LL.inHeap (pushNode cfg q.1.alloc p x))) (listFin F cfg i q.1) (J q.1) ∧
      J q.1 (q.1.head, q.1.len) cs q.2 ∧ q.1.len = 0)
    (ha : ∀ q, all (one pipe) (LL.vals cs) w.client ≠ .ok q) (f : List β × κ → Out (Unit × World κ M)) :
    toList F cfg i ((lift pipe).next fun s => onMem (next s)) () w = .oom ∨
    toList F cfg i ((lift pipe).next fun s => onMem (next s)) () w = all (one pipe) (LL.vals cs) w.client >>= f := by
  simp only [toList, Prog.bind_run, pipe_next, onMem]
  cases he : F.on (Model.LL.inHeap (Model.LL.newAlloc cfg Model.LL.dfltAlloc)) w.mem with
  | ok q =>
    rw [he] at hst
    obtain ⟨T, hst, hl⟩ := hst
    simp only [Out.bind_ok]
    have e1 : (one (lift pipe) : α → Prog (World κ M) (Option β)) = fun a => onClient (one pipe a) := funext fun a => one_lift pipe a
    have h2 := loop_fails (g := one pipe) (w := ⟨w.client, q.2⟩) T cs hst ha (fun _ => .oom)
    rw [e1]
    simp only [onMem] at h2
    rcases h2 with h2 | h2
    · rw [h2]; exact .inl rfl
    · rw [h2]
      right
      cases hx : all (one pipe) (LL.vals cs) w.client with
      | ok q => exact absurd hx (ha q)
      | _ => rfl
  | oom => exact .inl rfl
  | _ => rw [he] at hst; exact hst.elim

end

/-! ## Taking an element off a list -/

section
open Verif.Model.LL
open Verif.Proof.LL (Rep Bal Live IsElem lst nodes headOf addrs poke link kill newElem upd_ne)

variable {cfg : Cfg α} {h : Heap α} {hd tl own : Nat} {c : Nat × α} {cs : Cells α}

/-- what `ListIntoIter::next` does to the heap -/
def popHeap (cfg : Cfg α) (hd tl own : Nat) (c : Nat × α) (cs : Cells α) (h : Heap α) : Heap α :=
  kill cfg (link cfg.dbl (poke cfg own h c.1 (cfg.mv c.2)) hd (headOf tl cs)) c.1

theorem intoNext_run (hb : Bal h) (r : Rep cfg h hd tl (c :: cs) own) :
    intoNext cfg (lst hd tl (c :: cs) own) h = .ok ((some c.2, lst hd tl cs own), popHeap cfg hd tl own c cs h) := by
  have ed := LL.Rep.poke_edit (c1 := []) hb r (cfg.mv c.2)
  have r2 : Rep cfg (poke cfg own h c.1 (cfg.mv c.2)) hd tl ([] ++ (c.1, cfg.mv c.2) :: cs) own := ed.rep
  have gn : getNext (some hd) h = .ok (some c.1, h) := r.getNext_hd
  have g2 : getNext (some hd) (poke cfg own h c.1 (cfg.mv c.2)) = .ok (some c.1, poke cfg own h c.1 (cfg.mv c.2)) := r2.getNext_hd
  have g3 : getNext (some c.1) (poke cfg own h c.1 (cfg.mv c.2)) = .ok (some (headOf tl cs), poke cfg own h c.1 (cfg.mv c.2)) :=
    r2.getNext_cell (c := (c.1, cfg.mv c.2))
  unfold intoNext
  rw [if_pos (by simp [lst])]
  simp only [Prog.bind_run, lst, gn, Out.bind_ok, LL.take_run (r.elem_at (c1 := []) (a := c.1) (x := c.2)), popFront, g2]
  rw [LL.dbgAssert_run (by simp)]
  simp only [Out.bind_ok, g3]
  rw [LL.setNext_run r2.vhd.live r2.cons_mid.live_headOf]
  simp only [Out.bind_ok]
  rw [LL.destroyNode_elem (h := link cfg.dbl (poke cfg own h c.1 (cfg.mv c.2)) hd (headOf tl cs)) (r2.elem_at (a := c.1) (x := cfg.mv c.2))]
  simp [LL.dec_length, popHeap]

theorem popHeap_edit (hb : Bal h) (r : Rep cfg h hd tl (c :: cs) own) :
    LL.Edit cfg h hd tl (c :: cs) own (popHeap cfg hd tl own c cs h) cs ⟨0, 1, 0⟩ := by
  obtain ⟨h', e1, e2⟩ := LL.intoNext_ok hb r
  rw [intoNext_run hb r] at e1
  cases e1
  exact e2

theorem upd_comm {δ : Type} (f : Nat → δ) {a b : Nat} (x y : δ) (hn : a ≠ b) : upd (upd f a x) b y = upd (upd f b y) a x := by
  funext e; simp only [upd]; split <;> split <;> simp_all

theorem constructNode_eq (own : Nat) (x : α) (h : Heap α) :
    constructNode cfg own x h = if cfg.refuse h.next cfg.dsize then .oom else .ok (some h.next, newElem cfg own x h) := by
  simp only [constructNode, Prog.bind_run, allocNode]
  split
  · rfl
  · simp [constructData, dataNull, withNode, dbgAssert, Prog.bind_run, newElem]

theorem constructNode_pop (hb : Bal h) (r : Rep cfg h hd tl (c :: cs) own) (own' : Nat) (x : α) :
    constructNode cfg own' x (popHeap cfg hd tl own c cs h) = after (constructNode cfg own' x h) (popHeap cfg hd tl own c cs) := by
  have n1 : c.1 ≠ h.next := hb.ne_next (r.live (by simp [nodes]))
  have n2 : hd ≠ h.next := hb.ne_next (r.live (by simp [nodes]))
  have n3 : headOf tl cs ≠ h.next := hb.ne_next (LL.Rep.live_headOf (c1 := [c]) r)
  rw [constructNode_eq, constructNode_eq]
  simp only [show (popHeap cfg hd tl own c cs h).next = h.next from rfl]
  split
  · rfl
  · rw [after_ok]
    congr 2
    simp only [popHeap, kill, link, poke, newElem, LL.upd_upd]
    simp only [Heap.mk.injEq, true_and]
    refine ⟨upd_comm _ _ _ n1, upd_comm _ _ _ n2, ?_, trivial⟩
    split
    · exact upd_comm _ _ _ n3
    · rfl

theorem setNext_pop (r : Rep cfg h hd tl (c :: cs) own) {p n : Nat} (hp : Live h p) (hn : Live h n) (hpn : p ∉ nodes hd tl (c :: cs))
    (hnn : n ∉ nodes hd tl (c :: cs)) :
    setNext cfg (some p) (some n) (popHeap cfg hd tl own c cs h) = after (setNext cfg (some p) (some n) h) (popHeap cfg hd tl own c cs) := by
  have m1 : c.1 ∈ nodes hd tl (c :: cs) := by simp [nodes]
  have m2 : hd ∈ nodes hd tl (c :: cs) := by simp [nodes]
  have m3 : headOf tl cs ∈ nodes hd tl (c :: cs) := by
    have := LL.headOf_mem tl cs
    simp only [nodes, addrs, List.map_cons, List.cons_append]
    exact List.mem_cons_of_mem _ (List.mem_cons_of_mem _ this)
  have ne : ∀ {x a : Nat}, x ∉ nodes hd tl (c :: cs) → a ∈ nodes hd tl (c :: cs) → a ≠ x := fun h1 h2 e => h1 (e ▸ h2)
  have live : ∀ x, Live h x → x ∉ nodes hd tl (c :: cs) → Live (popHeap cfg hd tl own c cs h) x := by
    intro x hx hm
    have n1 := ne hm m1
    simp only [Live, popHeap, kill, link, poke, LL.upd_upd]
    rw [upd_ne _ _ (Ne.symm n1)]
    exact hx
  rw [LL.setNext_run hp hn, LL.setNext_run (live p hp hpn) (live n hn hnn), after_ok]
  congr 2
  simp only [popHeap, kill, link, poke, LL.upd_upd]
  simp only [Heap.mk.injEq, true_and]
  refine ⟨upd_comm _ _ _ (ne hpn m2), ?_, trivial⟩
  split
  · exact upd_comm _ _ _ (ne hnn m3)
  · rfl

/-! ## The iterator object as a variable of the program -/

/-- The list in variable `u` has the nodes `cs`. -/
structure Src (cfg : Cfg α) (u hd tl own : Nat) (cs : Cells α) (w : Model.LL.World α) : Prop where
  var : w.vars u = some (lst hd tl cs own)
  rep : Rep cfg w.heap hd tl cs own
  bal : Bal w.heap

def popWorld (cfg : Cfg α) (u hd tl own : Nat) (c : Nat × α) (cs : Cells α) (w : Model.LL.World α) : Model.LL.World α :=
  ⟨popHeap cfg hd tl own c cs w.heap, upd w.vars u (some (lst hd tl cs own))⟩

variable {u : Nat} {w : Model.LL.World α}

theorem Src.popped (s : Src cfg u hd tl own (c :: cs) w) : Src cfg u hd tl own cs (popWorld cfg u hd tl own c cs w) := by
  have ed := popHeap_edit s.bal s.rep
  exact ⟨by simp [popWorld], ed.rep, ed.bal⟩

theorem Src.more (s : Src cfg u hd tl own (c :: cs) w) :
    Model.Consume.next cfg u () w = .ok ((some c.2, ()), popWorld cfg u hd tl own c cs w) := by
  simp only [Model.Consume.next, Prog.bind_run, Model.LL.var, s.var, Out.bind_ok, Model.LL.inHeap, intoNext_run s.bal s.rep]
  rfl

theorem Src.stop (s : Src cfg u hd tl own [] w) : Model.Consume.next cfg u () w = .ok ((none, ()), w) := by
  have e : intoNext cfg (lst hd tl ([] : Cells α) own) w.heap = .ok ((none, lst hd tl ([] : Cells α) own), w.heap) := by simp [intoNext, lst]
  have e2 : upd w.vars u (some (lst hd tl ([] : Cells α) own)) = w.vars := by
    funext i
    simp only [upd]
    split
    · rename_i hi; rw [hi, s.var]
    · rfl
  simp only [Model.Consume.next, Prog.bind_run, Model.LL.var, s.var, Out.bind_ok, Model.LL.inHeap, e, Model.LL.setVar, e2]
  rfl

/-- families of containers that do not share memory -/
structure Apart {S T : Type} (F : Part M S) (G : Part M T) : Prop where
  get_put : ∀ m t, F.get (G.put m t) = F.get m
  put_get : ∀ m s, G.get (F.put m s) = G.get m
  put_put : ∀ m s t, F.put (G.put m t) s = G.put (F.put m s) t

theorem on_put {S T : Type} {F : Part M S} {G : Part M T} (hA : Apart F G) (p : Prog S γ) (m : M) (f : T → T) :
    F.on p (G.put m (f (G.get m))) = after (F.on p m) fun m => G.put m (f (G.get m)) := by
  simp only [Part.on, hA.get_put, after]
  cases p (F.get m) with
  | ok q => simp only [Out.bind_ok, hA.put_put, hA.put_get]
  | _ => rfl

variable {G : Part M (Model.LL.World α)}

/-- the iterator of a list and a container of another family -/
theorem takes_apart {S : Type} {F : Part M S} (hA : Apart F G) (hG : Part.Lawful G) {push : ρ → β → Prog S ρ} {fin : ρ → Prog S Unit}
    {J : ρ → S → Prop} (hp : ∀ {r s} (b : β), J r s → (push r b s).Safe fun q => J q.1 q.2) (hF : Part.Lawful F) :
    Takes (fun s => G.on (Model.Consume.next cfg u s)) (fun c cs m => G.put m (popWorld cfg u hd tl own c cs (G.get m)))
      (fun r b => F.on (push r b)) (fun r => F.on (fin r)) (fun r cs m => J r (F.get m) ∧ Src cfg u hd tl own cs (G.get m)) where
  stop := by
    rintro r m ⟨-, s⟩
    simp only [Part.on, s.stop, Out.bind_ok, hG.put_get]
  more := by
    rintro r c cs m ⟨-, s⟩
    simp only [Part.on, s.more, Out.bind_ok]
  popped := by
    rintro r c cs m ⟨hj, s⟩
    refine ⟨by rwa [hA.get_put], ?_⟩
    rw [hG.get_put]
    exact s.popped
  pushed := by
    rintro r cs m b ⟨hj, s⟩
    have := hp b hj
    simp only [Part.on]
    cases he : push r b (F.get m) with
    | ok q =>
      rw [he] at this
      refine ⟨by rw [hF.get_put]; exact this, ?_⟩
      rw [hA.put_get]
      exact s
    | oom => trivial
    | _ => rw [he] at this; exact this.elim
  comm := fun b _ => on_put hA _ _ _
  fin_comm := fun _ => on_put hA _ _ _

/-! ## A list made of elements of the same type -/

/-- a node `p` at the end of the list being made, and its virtual node `t`, apart from the list being emptied -/
structure Both (cfg : Cfg α) (u hd tl own t : Nat) (q : Ptr × Nat) (cs : Cells α) (w : Model.LL.World α) : Prop where
  src : Src cfg u hd tl own cs w
  node : ∃ p, q.1 = some p ∧ Live w.heap p ∧ p ∉ nodes hd tl cs
  tail : Live w.heap t ∧ t ∉ nodes hd tl cs

theorem not_mem_tail {x : Nat} (hx : x ∉ nodes hd tl (c :: cs)) : x ∉ nodes hd tl cs := by
  intro hm; apply hx; rw [LL.mem_nodes] at hm ⊢; rcases hm with h | h | h
  · exact .inl h
  · exact .inr (.inl (List.mem_cons_of_mem _ h))
  · exact .inr (.inr h)

theorem Both.popped {t : Nat} {q : Ptr × Nat} (b : Both cfg u hd tl own t q (c :: cs) w) :
    Both cfg u hd tl own t q cs (popWorld cfg u hd tl own c cs w) := by
  obtain ⟨s, ⟨p, e, hp, hpn⟩, ht, htn⟩ := b
  have st := (popHeap_edit s.bal s.rep).step
  exact ⟨s.popped, ⟨p, e, (st.live hpn hp).2.1, not_mem_tail hpn⟩, (st.live htn ht).2.1, not_mem_tail htn⟩

theorem Both.pushed {t own' : Nat} {q : Ptr × Nat} (b : Both cfg u hd tl own t q cs w) (x : α) :
    (inHeap (pushNode cfg own' q x) w).Safe fun q => Both cfg u hd tl own t q.1 cs q.2 := by
  obtain ⟨_, n⟩ := q
  obtain ⟨s, ⟨p, rfl, hp, hpn⟩, ht, htn⟩ := b
  simp only [inHeap, pushNode, Prog.bind_run]
  have := LL.constructNode_run (cfg := cfg) own' x w.heap
  cases he : constructNode cfg own' x w.heap with
  | ok q =>
    rw [he] at this
    simp only [Out.safeIf_ok] at this
    subst this
    simp only [Out.bind_ok, LL.setNext_run (LL.mk_live hp) LL.isElem_mk.live, Prog.pure_run, Out.safe_ok]
    have s1 : LL.Step w.heap [p] (link cfg.dbl (newElem cfg own' x w.heap) p w.heap.next) [p, w.heap.next] ⟨1, 0, 1⟩ := by
      have st := ((LL.step_mk (cfg := cfg) (own := own') (x := x) s.bal).more [p]).trans
        (LL.step_link (d := cfg.dbl) (a := p) (b := w.heap.next) (l := [w.heap.next] ++ [p]) (LL.bal_mk s.bal) (by simp) (by simp))
      exact (st.congr (m := [p]) (m' := [p, w.heap.next]) (by simp) (by simp; tauto))
    refine ⟨⟨s.var, ?_, s1.bal⟩, ⟨w.heap.next, rfl, LL.isElem_mk.live, fun hm => (s.bal.ne_next (s.rep.live hm)) rfl⟩, ?_, htn⟩
    · exact s.rep.step s1 fun a ha => by
        simp only [List.mem_singleton]
        rintro rfl
        exact hpn ha
    · exact LL.mk_live ht
  | oom => trivial
  | _ => rw [he] at this; exact this.elim

theorem Both.comm {t own' : Nat} {q : Ptr × Nat} (b : Both cfg u hd tl own t q (c :: cs) w) (x : α) :
    inHeap (pushNode cfg own' q x) (popWorld cfg u hd tl own c cs w) =
      after (inHeap (pushNode cfg own' q x) w) (popWorld cfg u hd tl own c cs) := by
  obtain ⟨_, n⟩ := q
  obtain ⟨s, ⟨p, rfl, hp, hpn⟩, ht, htn⟩ := b
  have e1 := constructNode_pop s.bal s.rep own' x
  have e0 := LL.constructNode_run (cfg := cfg) own' x w.heap
  simp only [inHeap, pushNode, Prog.bind_run]
  rw [show (popWorld cfg u hd tl own c cs w).heap = popHeap cfg hd tl own c cs w.heap from rfl, e1]
  cases he : constructNode cfg own' x w.heap with
  | ok q =>
    rw [he] at e0
    simp only [Out.safeIf_ok] at e0
    subst e0
    have r2 : Rep cfg (newElem cfg own' x w.heap) hd tl (c :: cs) own := s.rep.step (LL.step_mk s.bal) (by simp)
    have e2 := setNext_pop r2 (LL.mk_live hp) LL.isElem_mk.live hpn (fun hm => (s.bal.ne_next (s.rep.live hm)) rfl)
    simp only [after_ok, Out.bind_ok, e2]
    rw [LL.setNext_run (LL.mk_live hp) LL.isElem_mk.live]
    rfl
  | _ => rfl

theorem Both.fin_comm {t : Nat} {l : Lst} (hl : l.tail = some t) {q : Ptr × Nat} {i : Nat} (hi : i ≠ u) (b : Both cfg u hd tl own t q (c :: cs) w) :
    (inHeap (setNext cfg q.1 l.tail) >>= fun _ => setVar i (some { l with len := q.2 })) (popWorld cfg u hd tl own c cs w) =
      after ((inHeap (setNext cfg q.1 l.tail) >>= fun _ => setVar i (some { l with len := q.2 })) w) (popWorld cfg u hd tl own c cs) := by
  obtain ⟨_, n⟩ := q
  obtain ⟨s, ⟨p, rfl, hp, hpn⟩, ht, htn⟩ := b
  have e2 := setNext_pop s.rep hp ht hpn htn
  simp only [Prog.bind_run, inHeap, hl]
  rw [show (popWorld cfg u hd tl own c cs w).heap = popHeap cfg hd tl own c cs w.heap from rfl, e2, LL.setNext_run hp ht]
  simp only [after_ok, Out.bind_ok, setVar, popWorld]
  rw [upd_comm _ _ _ (Ne.symm hi)]

theorem takes_both (hG : Part.Lawful G) {t i : Nat} {l : Lst} (hl : l.tail = some t) (hi : i ≠ u) :
    Takes (fun s => G.on (Model.Consume.next cfg u s)) (fun c cs m => G.put m (popWorld cfg u hd tl own c cs (G.get m)))
      (fun q x => G.on (inHeap (pushNode cfg l.alloc q x))) (listFin G cfg i l) (fun q cs m => Both cfg u hd tl own t q cs (G.get m)) where
  stop := by
    intro r m b
    simp only [Part.on, b.src.stop, Out.bind_ok, hG.put_get]
  more := by
    intro r c cs m b
    simp only [Part.on, b.src.more, Out.bind_ok]
  popped := by
    intro r c cs m b
    rw [hG.get_put]
    exact b.popped
  pushed := by
    intro q cs m x b
    have := b.pushed (own' := l.alloc) x
    simp only [Part.on]
    cases he : inHeap (pushNode cfg l.alloc q x) (G.get m) with
    | ok q =>
      rw [he] at this
      simp only [Out.bind_ok, Out.safe_ok]
      rw [hG.get_put]; exact this
    | oom => trivial
    | _ => rw [he] at this; exact this.elim
  comm := by
    intro q c cs m x b
    simp only [Part.on, hG.get_put, b.comm, after]
    cases inHeap (pushNode cfg l.alloc q x) (G.get m) with
    | ok q => simp only [Out.bind_ok, hG.get_put, hG.put_put]
    | _ => rfl
  fin_comm := by
    intro q c cs m b
    simp only [listFin]
    rw [← on_bind hG]
    simp only [Part.on, hG.get_put, b.fin_comm hl hi, after]
    cases (inHeap (setNext cfg q.1 l.tail) >>= fun _ => setVar i (some { l with len := q.2 })) (G.get m) with
    | ok q => simp only [Out.bind_ok, hG.get_put, hG.put_put]
    | _ => rfl

end

end Verif.Proof.Consume
