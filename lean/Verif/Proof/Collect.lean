import Verif.Spec.Collect
import Verif.Proof.Pipe
import Verif.Proof.VectorReach
import Verif.Proof.LLReach
/-! # Pipelines from containers in memory into containers in memory -/
namespace Verif.Proof.Collect
open Verif Verif.Model.Collect
open Verif.Model.Iter (Next Pipe fold)
open Verif.Spec.Pipe
open Verif.Proof.Pipe

variable {κ M S α β γ σ ρ : Type}

/-! ## Calls on one part of the program -/

structure Part.Lawful (F : Part M S) : Prop where
  get_put : ∀ m s, F.get (F.put m s) = s
  put_put : ∀ m s t, F.put (F.put m s) t = F.put m t
  put_get : ∀ m, F.put m (F.get m) = m

theorem lawful_vecs : Part.Lawful (vecs : Part (Memory α β) _) := ⟨fun _ _ => rfl, fun _ _ _ => rfl, fun _ => rfl⟩
theorem lawful_lists : Part.Lawful (lists : Part (Memory α β) _) := ⟨fun _ _ => rfl, fun _ _ _ => rfl, fun _ => rfl⟩
theorem lawful_vecs' : Part.Lawful (vecs' : Part (Memory α β) _) := ⟨fun _ _ => rfl, fun _ _ _ => rfl, fun _ => rfl⟩
theorem lawful_lists' : Part.Lawful (lists' : Part (Memory α β) _) := ⟨fun _ _ => rfl, fun _ _ _ => rfl, fun _ => rfl⟩

theorem on_bind {F : Part M S} (hF : Part.Lawful F) {δ : Type} (x : Prog S γ) (f : γ → Prog S δ) :
    F.on (x >>= f) = F.on x >>= fun a => F.on (f a) := by
  funext m
  simp only [Part.on, Prog.bind_run]
  cases x (F.get m) with
  | ok q => simp only [Out.bind_ok, hF.get_put, hF.put_put]
  | _ => rfl

theorem onMem_bind {δ : Type} (x : Prog M γ) (f : γ → Prog M δ) :
    (onMem (x >>= f) : Prog (World κ M) δ) = onMem x >>= fun a => onMem (f a) := by
  funext m
  simp only [onMem, Prog.bind_run]
  cases x m.mem <;> rfl

theorem onClient_bind {δ : Type} (x : Prog κ γ) (f : γ → Prog κ δ) :
    (onClient (x >>= f) : Prog (World κ M) δ) = onClient x >>= fun a => onClient (f a) := by
  funext m
  simp only [onClient, Prog.bind_run]
  cases x m.client <;> rfl

theorem onClient_pure (a : γ) : (onClient (pure a) : Prog (World κ M) γ) = pure a := rfl

theorem vec_inHeap_bind {δ : Type} (x : Model.Mem.M α γ) (f : γ → Model.Mem.M α δ) :
    Model.Vector.inHeap (x >>= f) = Model.Vector.inHeap x >>= fun a => Model.Vector.inHeap (f a) := by
  funext m
  simp only [Model.Vector.inHeap, Prog.bind_run]
  cases x m.heap <;> rfl

theorem list_inHeap_bind {δ : Type} (x : Model.LL.M α γ) (f : γ → Model.LL.M α δ) :
    Model.LL.inHeap (x >>= f) = Model.LL.inHeap x >>= fun a => Model.LL.inHeap (f a) := by
  funext m
  simp only [Model.LL.inHeap, Prog.bind_run]
  cases x m.heap <;> rfl

theorem one_lift {α β : Type} (pipe : Pipe κ α β) (a : α) :
    one (lift pipe : Pipe (World κ M) α β) a = onClient (one pipe a) := by
  induction pipe with
  | source => simp only [lift, one]; rfl
  | map pipe f ih =>
    simp only [lift, one, ih, onClient_bind]
    refine bind_congr' fun r => ?_
    cases r with
    | none => rfl
    | some b => simp only [onClient_bind]; rfl
  | filter pipe p ih =>
    simp only [lift, one, ih, onClient_bind]
    refine bind_congr' fun r => ?_
    cases r with
    | none => rfl
    | some b =>
      simp only [onClient_bind]
      refine bind_congr' fun c => ?_
      cases c.1 <;> rfl

/-! ## A loop that reads one container and fills another -/

/-- As long as `H` holds of the memory, the iterator at `s` with `P s xs` hands out `xs` and leaves the memory alone. -/
structure Reads (next : Next M σ α) (H : M → Prop) (P : σ → List α → Prop) : Prop where
  stop : ∀ {s m}, H m → P s [] → ∃ s', next s m = .ok ((none, s'), m)
  more : ∀ {s x xs m}, H m → P s (x :: xs) → ∃ s', next s m = .ok ((some x, s'), m) ∧ P s' xs

/-- The append step keeps `K`, and fails only for lack of memory. -/
def Grows (push : ρ → β → Prog M ρ) (K : ρ → M → Prop) : Prop := ∀ r b m, K r m → (push r b m).Safe fun q => K q.1 q.2

variable {next : Next M σ α} {H : M → Prop} {P : σ → List α → Prop} {K : ρ → M → Prop} {push : ρ → β → Prog M ρ}
  {g : α → Prog κ (Option β)}

theorem loop_reads (hr : Reads next H P) (hp : Grows push K) (hK : ∀ r m, K r m → H m) (xs : List α) :
    ∀ (s : σ) (r : ρ) (w : World κ M), P s xs → K r w.mem →
      fold (pull (fun s => onMem (next s)) fun a => onClient (g a)) (fun r b => onMem (push r b)) r s w =
        foldOver (fun a => onClient (g a)) (fun r b => onMem (push r b)) r xs w := by
  induction xs with
  | nil =>
    intro s r w hP hw
    obtain ⟨s', e⟩ := hr.stop (hK _ _ hw) hP
    rw [fold_unfold, pull_unfold]
    simp only [Prog.bind_run, onMem, e, Out.bind_ok, foldOver]
    rfl
  | cons a xs ih =>
    intro s r w hP hw
    obtain ⟨s', e, hP'⟩ := hr.more (hK _ _ hw) hP
    rw [fold_unfold, pull_unfold]
    simp only [Prog.bind_run, onMem, e, Out.bind_ok, foldOver, onClient]
    cases hg : g a w.client with
    | ok q =>
      obtain ⟨o, k⟩ := q
      cases o with
      | none =>
        simp only [Out.bind_ok]
        have := ih s' r { w with client := k } hP' hw
        rw [fold_unfold] at this
        exact this
      | some b =>
        simp only [Out.bind_ok, Prog.pure_run, Prog.bind_run]
        have hg2 := hp r b w.mem hw
        have e2 : (onMem (push r b) : Prog (World κ M) ρ) ⟨k, w.mem⟩ = (push r b w.mem >>= fun q => .ok (q.1, ⟨k, q.2⟩)) := rfl
        cases he : push r b w.mem with
        | ok q =>
          rw [he] at hg2 e2
          simp only [Out.bind_ok] at e2
          rw [e2]
          exact ih s' q.1 ⟨k, q.2⟩ hP' hg2
        | _ => rw [he] at e2; rw [e2]; rfl
    | _ => rfl

/-- the client's functions and the appending do not interfere -/
theorem foldOver_ok (xs : List α) : ∀ (r : ρ) (w : World κ M) {ys : List β} {k : κ}, all g xs w.client = .ok (ys, k) →
    foldOver (fun a => onClient (g a)) (fun r b => onMem (push r b)) r xs w =
      ys.foldlM push r w.mem >>= fun q => .ok (q.1, ⟨k, q.2⟩) := by
  induction xs with
  | nil =>
    intro r w ys k h
    simp only [all, Prog.pure_run] at h
    cases h
    rfl
  | cons a xs ih =>
    intro r w ys k h
    simp only [all, Prog.bind_run] at h
    simp only [foldOver, Prog.bind_run, onClient]
    cases hg : g a w.client with
    | ok q =>
      obtain ⟨o, k1⟩ := q
      rw [hg] at h
      simp only [Out.bind_ok] at h
      cases ha : all g xs k1 with
      | ok p =>
        obtain ⟨zs, k2⟩ := p
        rw [ha] at h
        cases o with
        | none =>
          simp only [Out.bind_ok, Prog.pure_run] at h ⊢
          cases h
          exact ih r { w with client := k1 } ha
        | some b =>
          simp only [Out.bind_ok, Prog.pure_run] at h ⊢
          cases h
          simp only [List.foldlM_cons, Prog.bind_run, onMem]
          cases he : push r b w.mem with
          | ok q =>
            simp only [Out.bind_ok]
            exact ih q.1 ⟨k1, q.2⟩ ha
          | _ => rfl
      | _ => rw [ha] at h; cases h
    | _ => rw [hg] at h; cases h

/-- a failing function ends the loop, unless memory ran out before -/
theorem foldOver_fail (hp : Grows push K) (xs : List α) : ∀ (r : ρ) (w : World κ M), K r w.mem →
    (∀ q, all g xs w.client ≠ .ok q) → ∀ f : List β × κ → Out (ρ × World κ M),
    foldOver (fun a => onClient (g a)) (fun r b => onMem (push r b)) r xs w = .oom ∨
    foldOver (fun a => onClient (g a)) (fun r b => onMem (push r b)) r xs w = all g xs w.client >>= f := by
  induction xs with
  | nil => intro r w _ h; exact absurd rfl (h ([], w.client))
  | cons a xs ih =>
    intro r w hw h f
    simp only [all, Prog.bind_run] at h ⊢
    simp only [foldOver, Prog.bind_run, onClient]
    cases hg : g a w.client with
    | ok q =>
      obtain ⟨o, k1⟩ := q
      rw [hg] at h
      simp only [Out.bind_ok] at h ⊢
      have h' : ∀ q, all g xs k1 ≠ .ok q := by
        intro q e
        rw [e] at h
        cases o with
        | none => exact h _ rfl
        | some b => exact h _ rfl
      cases o with
      | none =>
        rcases ih r { w with client := k1 } hw h' (fun q => f (q.1, q.2)) with e | e
        · exact .inl e
        · refine .inr (e.trans ?_)
          cases all g xs k1 <;> rfl
      | some b =>
        simp only [Prog.bind_run, onMem]
        have hg2 := hp r b w.mem hw
        cases he : push r b w.mem with
        | ok q =>
          rw [he] at hg2
          simp only [Out.bind_ok]
          rcases ih q.1 ⟨k1, q.2⟩ hg2 h' (fun q => f (b :: q.1, q.2)) with e | e
          · exact .inl e
          · refine .inr (e.trans ?_)
            cases ha : all g xs k1 with
            | ok q => exact absurd ha (h' q)
            | _ => rfl
        | oom => exact .inl rfl
        | _ => rw [he] at hg2; exact hg2.elim
    | _ => exact .inr rfl

/-! ## Iterators of containers -/

section
open Verif.Model.Mem (ElemTy)
open Verif.Model.Vector (Vec)
open Verif.Proof.Mem (Bal)

theorem reads_vec {F : Part M (Model.Vector.World α)} (hF : Part.Lawful F) (ty : ElemTy α) (v : Vec) (ws : List α) :
    Reads (fun it => F.on (Model.Vector.inHeap it.next)) (fun m => Proof.Vector.Rep ty (F.get m).heap v ws)
      fun it xs => ∃ zs, it = (⟨v.ptr, zs.length, v.len⟩ : Model.Vector.Iter) ∧ ws = zs ++ xs := by
  constructor
  · rintro _ m rp ⟨zs, rfl, e⟩
    refine ⟨⟨v.ptr, zs.length, v.len⟩, ?_⟩
    have : zs.length = v.len := by rw [rp.len, e, List.append_nil]
    simp only [Part.on, Model.Vector.inHeap, Model.Vector.Iter.next, this, ne_eq, not_true_eq_false, if_false, Prog.pure_run, Out.bind_ok,
      hF.put_get]
  · rintro _ x xs m rp ⟨zs, rfl, e⟩
    refine ⟨⟨v.ptr, zs.length + 1, v.len⟩, ?_, zs ++ [x], by simp, by simp [e]⟩
    have : zs.length ≠ v.len := by rw [rp.len, e]; simp
    have hx : ws[zs.length]? = some x := by rw [e]; simp
    simp only [Part.on, Model.Vector.inHeap, Model.Vector.Iter.next, ne_eq, this, not_false_eq_true, if_true, Prog.bind_run,
      rp.slot hx, Prog.pure_run, Out.bind_ok, hF.put_get]

theorem reads_list {F : Part M (Model.LL.World α)} (hF : Part.Lawful F) (cfg : Model.LL.Cfg α) (hd tl own : Nat) (cs : LL.Cells α) :
    Reads (fun it => F.on (Model.LL.inHeap it.next)) (fun m => LL.Rep cfg (F.get m).heap hd tl cs own)
      fun it xs => ∃ c1 c2, it = (⟨some (LL.headOf tl c2), some tl⟩ : Model.LL.Iter) ∧ cs = c1 ++ c2 ∧ LL.vals c2 = xs := by
  constructor
  · rintro _ m rp ⟨c1, c2, rfl, e, hv⟩
    obtain rfl : c2 = [] := by simpa using hv
    refine ⟨⟨some tl, some tl⟩, ?_⟩
    have e : Model.LL.Iter.next ⟨some tl, some tl⟩ (F.get m).heap = .ok ((none, ⟨some tl, some tl⟩), (F.get m).heap) := by
      rw [Model.LL.Iter.next, if_neg (by simp)]; rfl
    simp only [Part.on, Model.LL.inHeap, LL.headOf_nil, e, Out.bind_ok, hF.put_get]
  · rintro _ x xs m rp ⟨c1, c2, rfl, rfl, hv⟩
    cases c2 with
    | nil => cases hv
    | cons c c2 =>
      obtain ⟨rfl, rfl⟩ := List.cons.inj hv
      refine ⟨⟨some (LL.headOf tl c2), some tl⟩, ?_, c1 ++ [c], c2, rfl, by simp, rfl⟩
      have hne : some c.1 ≠ some tl := by simpa using rp.head_ne_tl
      have e : Model.LL.Iter.next ⟨some c.1, some tl⟩ (F.get m).heap =
          .ok ((some c.2, ⟨some (LL.headOf tl c2), some tl⟩), (F.get m).heap) := by
        rw [Model.LL.Iter.next, if_pos (by simpa using hne)]
        simp only [Prog.bind_run, rp.load_cell (c := c) (by simp), rp.getNext_cell, Prog.pure_run, Out.bind_ok]
      simp only [Part.on, Model.LL.inHeap, LL.headOf_cons, e, Out.bind_ok, hF.put_get]

/-! ## Containers being filled -/

/-- `r` is a vector, and the vector `o` (if any) is apart from it. -/
structure VecGrows (ty : ElemTy α) (o : Option (Vec × List α)) (r : Vec) (w : Model.Vector.World α) : Prop where
  rep : ∃ ys, Proof.Vector.Rep ty w.heap r ys
  bal : Bal w.heap
  keep : ∀ p, o = some p → Proof.Vector.Rep ty w.heap p.1 p.2 ∧ ∀ b, p.1.ptr = some b → r.ptr ≠ some b

theorem vec_keep {ty : ElemTy α} {v r r' : Vec} {ws : List α} {h h' : Model.Mem.Heap α} {k : Proof.Mem.Cost}
    (rp : Proof.Vector.Rep ty h v ws) (hne : ∀ b, v.ptr = some b → r.ptr ≠ some b) (s : Proof.Mem.Step h r.ptr.toList h' r'.ptr.toList k) :
    Proof.Vector.Rep ty h' v ws ∧ ∀ b, v.ptr = some b → r'.ptr ≠ some b := by
  have hn : ∀ b, v.ptr = some b → b ∉ r.ptr.toList := fun b hb => by simpa using hne b hb
  refine ⟨rp.keep s hn, fun b hb e => ?_⟩
  have := s.fresh b (by simp [e]) (hn b hb)
  obtain ⟨blk, hblk⟩ := rp.block hb
  rw [this] at hblk
  cases hblk

theorem grows_vec {F : Part M (Model.Vector.World α)} (hF : Part.Lawful F) (ty : ElemTy α) (o : Option (Vec × List α)) {H' : M → Prop}
    (hH : ∀ m s, H' m → H' (F.put m s)) :
    Grows (fun r b => F.on (Model.Vector.inHeap (Model.Vector.pushBack ty r (.tmp b)))) fun r m => VecGrows ty o r (F.get m) ∧ H' m := by
  rintro r b m ⟨⟨⟨ys, rp⟩, hb, hk⟩, hm⟩
  simp only [Part.on, Model.Vector.inHeap]
  have := Proof.Vector.pushBack_ok (r := .tmp b) rp hb (.inl (Proof.Vector.stable_tmp _ _ b))
  cases he : Model.Vector.pushBack ty r (.tmp b) (F.get m).heap with
  | ok q =>
    rw [he] at this
    simp only [Out.bind_ok, Out.safe_ok]
    refine ⟨?_, hH _ _ hm⟩
    rw [hF.get_put]
    exact ⟨⟨_, this.rep⟩, this.bal, fun p hp => vec_keep (hk p hp).1 (hk p hp).2 this.step⟩
  | oom => trivial
  | _ => rw [he] at this; exact this.elim

theorem foldlM_pushBack {F : Part M (Model.Vector.World α)} (hF : Part.Lawful F) (ty : ElemTy α) (ys : List α) (v : Vec) :
    ys.foldlM (fun v x => F.on (Model.Vector.inHeap (Model.Vector.pushBack ty v (.tmp x)))) v =
      F.on (Model.Vector.inHeap (Model.Vector.pushList ty v ys)) := by
  induction ys generalizing v with
  | nil =>
    funext m
    simp only [List.foldlM_nil, Part.on, Model.Vector.inHeap, Model.Vector.pushList, Prog.pure_run, Out.bind_ok, hF.put_get]
  | cons y ys ih =>
    simp only [List.foldlM_cons, Model.Vector.pushList, ih, vec_inHeap_bind, on_bind hF]

section
variable {F : Part M (Model.Vector.World β)} {ty : ElemTy β} {o : Option (Vec × List β)} {H' : M → Prop} {i : Nat}
  {pipe : Pipe κ α β} {s : σ} {xs : List α} {w : World κ M}

/-- the vector before the loop -/
theorem vec_start (hb : Bal (F.get w.mem).heap) (ho : ∀ p, o = some p → Proof.Vector.Rep ty (F.get w.mem).heap p.1 p.2)
    (hF : Part.Lawful F) (hH : ∀ m s, H' m → H' (F.put m s)) (hm : H' w.mem) :
    (F.on (Model.Vector.inHeap (Model.Vector.newDefault ty)) w.mem).Safe fun q => VecGrows ty o q.1 (F.get q.2) ∧ H' q.2 := by
  simp only [Part.on, Model.Vector.inHeap]
  have := Proof.Vector.newDefault_ok (ty := ty) hb
  cases he : Model.Vector.newDefault ty (F.get w.mem).heap with
  | ok q =>
    rw [he] at this
    simp only [Out.bind_ok, Out.safe_ok]
    refine ⟨?_, hH _ _ hm⟩
    rw [hF.get_put]
    refine ⟨⟨_, this.rep⟩, this.bal, fun p hp => ?_⟩
    exact vec_keep (r := Model.Vector.Vec.blank 0) (ho p hp) (by intro b _; simp [Model.Vector.Vec.blank]) this.step
  | oom => trivial
  | _ => rw [he] at this; exact this.elim

theorem vec_fromIter_eq (hF : Part.Lawful F) (ys : List β) :
    F.on (Model.Vector.step ty (.fromIter i ys) >>= fun _ => pure ()) = (do
      let v ← F.on (Model.Vector.inHeap (Model.Vector.newDefault ty))
      let v ← ys.foldlM (fun v x => F.on (Model.Vector.inHeap (Model.Vector.pushBack ty v (.tmp x)))) v
      F.on (Model.Vector.setVar i (some v))) := by
  simp only [Model.Vector.step, Model.Vector.create, Model.Vector.fromIter, foldlM_pushBack hF, on_bind hF, vec_inHeap_bind, bind_assoc']
  refine bind_congr' fun v => bind_congr' fun v => ?_
  rw [← on_bind hF, ← on_bind hF]
  rfl

theorem toVec_ok (hF : Part.Lawful F) (hr : Reads next H P) (hK : ∀ r m, VecGrows ty o r (F.get m) → H' m → H m)
    (hH : ∀ m s, H' m → H' (F.put m s)) (hb : Bal (F.get w.mem).heap)
    (ho : ∀ p, o = some p → Proof.Vector.Rep ty (F.get w.mem).heap p.1 p.2) (hm : H' w.mem) (hP : P s xs) {ys : List β} {k : κ}
    (ha : all (one pipe) xs w.client = .ok (ys, k)) :
    toVec F ty i ((lift pipe).next fun s => onMem (next s)) s w =
      F.on (Model.Vector.step ty (.fromIter i ys) >>= fun _ => pure ()) w.mem >>= fun q => .ok (q.1, ⟨k, q.2⟩) := by
  have hst := vec_start hb ho hF hH hm
  rw [vec_fromIter_eq hF]
  simp only [toVec, Prog.bind_run, pipe_next, onMem]
  cases he : F.on (Model.Vector.inHeap (Model.Vector.newDefault ty)) w.mem with
  | ok q =>
    rw [he] at hst
    simp only [Out.bind_ok]
    have e1 : (one (lift pipe) : α → Prog (World κ M) (Option β)) = fun a => onClient (one pipe a) := funext fun a => one_lift pipe a
    have h1 := loop_reads (g := one pipe) hr (grows_vec hF ty o hH) (fun r m h => hK r m h.1 h.2) xs s q.1 ⟨w.client, q.2⟩ hP hst
    have h2 := foldOver_ok (g := one pipe) (push := fun v x => F.on (Model.Vector.inHeap (Model.Vector.pushBack ty v (.tmp x)))) xs q.1
      ⟨w.client, q.2⟩ ha
    rw [e1]
    have h3 := h1.trans h2
    simp only [onMem] at h3
    rw [h3]
    cases ys.foldlM (fun v x => F.on (Model.Vector.inHeap (Model.Vector.pushBack ty v (.tmp x)))) q.1 q.2 <;> rfl
  | _ => rfl

theorem toVec_fail (hF : Part.Lawful F) (hr : Reads next H P) (hK : ∀ r m, VecGrows ty o r (F.get m) → H' m → H m)
    (hH : ∀ m s, H' m → H' (F.put m s)) (hb : Bal (F.get w.mem).heap)
    (ho : ∀ p, o = some p → Proof.Vector.Rep ty (F.get w.mem).heap p.1 p.2) (hm : H' w.mem) (hP : P s xs)
    (ha : ∀ q, all (one pipe) xs w.client ≠ .ok q) (f : List β × κ → Out (Unit × World κ M)) :
    toVec F ty i ((lift pipe).next fun s => onMem (next s)) s w = .oom ∨
    toVec F ty i ((lift pipe).next fun s => onMem (next s)) s w = all (one pipe) xs w.client >>= f := by
  have hst := vec_start hb ho hF hH hm
  simp only [toVec, Prog.bind_run, pipe_next, onMem]
  cases he : F.on (Model.Vector.inHeap (Model.Vector.newDefault ty)) w.mem with
  | ok q =>
    rw [he] at hst
    simp only [Out.bind_ok]
    have e1 : (one (lift pipe) : α → Prog (World κ M) (Option β)) = fun a => onClient (one pipe a) := funext fun a => one_lift pipe a
    have h1 := loop_reads (g := one pipe) hr (grows_vec hF ty o hH) (fun r m h => hK r m h.1 h.2) xs s q.1 ⟨w.client, q.2⟩ hP hst
    have h2 := foldOver_fail (g := one pipe) (grows_vec hF ty o hH) xs q.1 ⟨w.client, q.2⟩ hst ha (fun _ => .oom)
    rw [e1]
    rw [← h1] at h2
    simp only [onMem] at h2
    rcases h2 with h2 | h2
    · rw [h2]; exact .inl rfl
    · rw [h2]
      right
      cases hx : all (one pipe) xs w.client with
      | ok q => exact absurd hx (ha q)
      | _ => rfl
  | oom => exact .inl rfl
  | _ => rw [he] at hst; exact hst.elim

end

/-- `q.1` is a node, and the list `o` (if any) does not contain it. -/
structure ListGrows (cfg : Model.LL.Cfg α) (o : Option (Nat × Nat × LL.Cells α × Nat)) (q : Model.LL.Ptr × Nat) (w : Model.LL.World α) :
    Prop where
  node : ∃ p, q.1 = some p ∧ LL.Live w.heap p ∧ ∀ r, o = some r → p ∉ LL.nodes r.1 r.2.1 r.2.2.1
  bal : LL.Bal w.heap
  keep : ∀ r, o = some r → LL.Rep cfg w.heap r.1 r.2.1 r.2.2.1 r.2.2.2

theorem grows_list {F : Part M (Model.LL.World α)} (hF : Part.Lawful F) (cfg : Model.LL.Cfg α) (own : Nat)
    (o : Option (Nat × Nat × LL.Cells α × Nat)) {H' : M → Prop} (hH : ∀ m s, H' m → H' (F.put m s)) :
    Grows (fun q b => F.on (Model.LL.inHeap (pushNode cfg own q b))) fun q m => ListGrows cfg o q (F.get m) ∧ H' m := by
  rintro ⟨_, n⟩ b m ⟨⟨⟨p, rfl, hp, hpn⟩, hb, hk⟩, hm⟩
  simp only [Part.on, Model.LL.inHeap, pushNode, Prog.bind_run]
  have := LL.constructNode_run (cfg := cfg) own b (F.get m).heap
  cases he : Model.LL.constructNode cfg own b (F.get m).heap with
  | ok q =>
    rw [he] at this
    simp only [Out.safeIf_ok] at this
    subst this
    simp only [Out.bind_ok, LL.setNext_run (LL.mk_live hp) LL.isElem_mk.live, Prog.pure_run, Out.safe_ok]
    refine ⟨?_, hH _ _ hm⟩
    rw [hF.get_put]
    have s1 : LL.Step (F.get m).heap [p] (LL.link cfg.dbl (LL.newElem cfg own b (F.get m).heap) p (F.get m).heap.next)
        [p, (F.get m).heap.next] ⟨1, 0, 1⟩ := by
      have s := ((LL.step_mk (cfg := cfg) (own := own) (x := b) hb).more [p]).trans
        (LL.step_link (d := cfg.dbl) (a := p) (b := (F.get m).heap.next) (l := [(F.get m).heap.next] ++ [p]) (LL.bal_mk hb) (by simp) (by simp))
      exact (s.congr (m := [p]) (m' := [p, (F.get m).heap.next]) (by simp) (by simp; tauto))
    refine ⟨⟨(F.get m).heap.next, rfl, LL.isElem_mk.live, fun r hr hmem => ?_⟩, s1.bal, fun r hr => ?_⟩
    · exact (hb.ne_next ((hk r hr).live hmem)) rfl
    · exact (hk r hr).step s1 fun a ha => by
        simp only [List.mem_singleton]
        rintro rfl
        exact hpn r hr ha
  | oom => trivial
  | _ => rw [he] at this; exact this.elim

theorem foldlM_pushNode {F : Part M (Model.LL.World α)} (hF : Part.Lawful F) (cfg : Model.LL.Cfg α) (own : Nat) (ys : List α) (p : Model.LL.Ptr)
    (n : Nat) :
    ys.foldlM (fun q x => F.on (Model.LL.inHeap (pushNode cfg own q x))) (p, n) =
      F.on (Model.LL.inHeap (Model.LL.rangeLoop cfg own ys p >>= fun p => pure (p, n + ys.length))) := by
  induction ys generalizing p n with
  | nil =>
    funext m
    simp only [List.foldlM_nil, Part.on, Model.LL.inHeap, Model.LL.rangeLoop, Prog.pure_run, Prog.bind_run, Out.bind_ok, hF.put_get,
      List.length_nil, Nat.add_zero]
  | cons y ys ih =>
    have ih' : ∀ q : Model.LL.Ptr × Nat, ys.foldlM (fun q x => F.on (Model.LL.inHeap (pushNode cfg own q x))) q =
      F.on (Model.LL.inHeap (Model.LL.rangeLoop cfg own ys q.1 >>= fun p => pure (p, q.2 + ys.length))) := fun q => ih q.1 q.2
    simp only [List.foldlM_cons, ih']
    simp only [Model.LL.rangeLoop, pushNode, list_inHeap_bind, on_bind hF, bind_assoc']
    refine bind_congr' fun t => bind_congr' fun _ => ?_
    funext m
    simp only [Prog.bind_run, Part.on, Model.LL.inHeap, Prog.pure_run, Out.bind_ok, hF.put_get, List.length_cons]
    rw [show n + 1 + ys.length = n + (ys.length + 1) by omega]

section
variable {F : Part M (Model.LL.World β)} {cfg : Model.LL.Cfg β} {o : Option (Nat × Nat × LL.Cells β × Nat)} {H' : M → Prop} {i : Nat}
  {pipe : Pipe κ α β} {s : σ} {xs : List α} {w : World κ M}

/-- the list before the loop -/
theorem list_start (hb : LL.Bal (F.get w.mem).heap)
    (ho : ∀ r, o = some r → LL.Rep cfg (F.get w.mem).heap r.1 r.2.1 r.2.2.1 r.2.2.2)
    (hF : Part.Lawful F) (hH : ∀ m s, H' m → H' (F.put m s)) (hm : H' w.mem) :
    (F.on (Model.LL.inHeap (Model.LL.newAlloc cfg Model.LL.dfltAlloc)) w.mem).Safe fun q =>
      (ListGrows cfg o (q.1.head, q.1.len) (F.get q.2) ∧ H' q.2) ∧ q.1.len = 0 := by
  simp only [Part.on, Model.LL.inHeap]
  have := LL.newAlloc_ok (cfg := cfg) hb Model.LL.dfltAlloc
  cases he : Model.LL.newAlloc cfg Model.LL.dfltAlloc (F.get w.mem).heap with
  | ok q =>
    rw [he] at this
    obtain ⟨hd, tl, e, f⟩ := this
    simp only [Out.bind_ok, Out.safe_ok, e]
    refine ⟨⟨?_, hH _ _ hm⟩, rfl⟩
    rw [hF.get_put]
    refine ⟨⟨hd, rfl, f.rep.vhd.live, fun r hr hmem => ?_⟩, f.step.bal, fun r hr => (ho r hr).step f.step (by simp)⟩
    have := f.step.fresh hd (by simp [LL.nodes]) (by simp)
    exact (ho r hr).live hmem this
  | oom => trivial
  | _ => rw [he] at this; exact this.elim

theorem list_fromIter_eq (hF : Part.Lawful F) (ys : List β) :
    F.on (Model.LL.step cfg (.fromIter i ys) >>= fun _ => pure ()) = (do
      let l ← F.on (Model.LL.inHeap (Model.LL.newAlloc cfg Model.LL.dfltAlloc))
      let p ← F.on (Model.LL.inHeap (Model.LL.rangeLoop cfg l.alloc ys l.head))
      F.on (Model.LL.inHeap (Model.LL.setNext cfg p l.tail))
      F.on (Model.LL.setVar i (some { l with len := ys.length }))) := by
  simp only [Model.LL.step, Model.LL.create, Model.LL.fromIter, on_bind hF, list_inHeap_bind, bind_assoc']
  refine bind_congr' fun l => bind_congr' fun p => bind_congr' fun _ => ?_
  funext m
  simp only [Prog.bind_run, Part.on, Model.LL.inHeap, Model.LL.setVar, Prog.pure_run, Out.bind_ok, hF.put_get, hF.get_put, hF.put_put]

theorem toList_ok (hF : Part.Lawful F) (hr : Reads next H P) (hK : ∀ r m, ListGrows cfg o r (F.get m) → H' m → H m)
    (hH : ∀ m s, H' m → H' (F.put m s)) (hb : LL.Bal (F.get w.mem).heap)
    (ho : ∀ r, o = some r → LL.Rep cfg (F.get w.mem).heap r.1 r.2.1 r.2.2.1 r.2.2.2) (hm : H' w.mem) (hP : P s xs) {ys : List β} {k : κ}
    (ha : all (one pipe) xs w.client = .ok (ys, k)) :
    toList F cfg i ((lift pipe).next fun s => onMem (next s)) s w =
      F.on (Model.LL.step cfg (.fromIter i ys) >>= fun _ => pure ()) w.mem >>= fun q => .ok (q.1, ⟨k, q.2⟩) := by
  have hst := list_start hb ho hF hH hm
  rw [list_fromIter_eq hF]
  simp only [toList, Prog.bind_run, pipe_next, onMem]
  cases he : F.on (Model.LL.inHeap (Model.LL.newAlloc cfg Model.LL.dfltAlloc)) w.mem with
  | ok q =>
    rw [he] at hst
    obtain ⟨hst, hl⟩ := hst
    simp only [Out.bind_ok]
    have e1 : (one (lift pipe) : α → Prog (World κ M) (Option β)) = fun a => onClient (one pipe a) := funext fun a => one_lift pipe a
    have h1 := loop_reads (g := one pipe) hr (grows_list hF cfg q.1.alloc o hH) (fun r m h => hK r m h.1 h.2) xs s (q.1.head, q.1.len)
      ⟨w.client, q.2⟩ hP hst
    have h2 := foldOver_ok (g := one pipe) (push := fun v x => F.on (Model.LL.inHeap (pushNode cfg q.1.alloc v x))) xs (q.1.head, q.1.len)
      ⟨w.client, q.2⟩ ha
    rw [e1]
    have h3 := h1.trans h2
    simp only [onMem, foldlM_pushNode hF, list_inHeap_bind, on_bind hF, Prog.bind_run] at h3
    rw [h3]
    cases F.on (Model.LL.inHeap (Model.LL.rangeLoop cfg q.1.alloc ys q.1.head)) q.2 with
    | ok p =>
      simp only [Out.bind_ok, Part.on, Model.LL.inHeap, Prog.pure_run, hF.put_get, hl, Nat.zero_add]
      cases Model.LL.setNext cfg p.1 q.1.tail (F.get p.2).heap <;> rfl
    | _ => rfl
  | _ => rfl

theorem toList_fail (hF : Part.Lawful F) (hr : Reads next H P) (hK : ∀ r m, ListGrows cfg o r (F.get m) → H' m → H m)
    (hH : ∀ m s, H' m → H' (F.put m s)) (hb : LL.Bal (F.get w.mem).heap)
    (ho : ∀ r, o = some r → LL.Rep cfg (F.get w.mem).heap r.1 r.2.1 r.2.2.1 r.2.2.2) (hm : H' w.mem) (hP : P s xs)
    (ha : ∀ q, all (one pipe) xs w.client ≠ .ok q) (f : List β × κ → Out (Unit × World κ M)) :
    toList F cfg i ((lift pipe).next fun s => onMem (next s)) s w = .oom ∨
    toList F cfg i ((lift pipe).next fun s => onMem (next s)) s w = all (one pipe) xs w.client >>= f := by
  have hst := list_start hb ho hF hH hm
  simp only [toList, Prog.bind_run, pipe_next, onMem]
  cases he : F.on (Model.LL.inHeap (Model.LL.newAlloc cfg Model.LL.dfltAlloc)) w.mem with
  | ok q =>
    rw [he] at hst
    simp only [Out.bind_ok]
    have e1 : (one (lift pipe) : α → Prog (World κ M) (Option β)) = fun a => onClient (one pipe a) := funext fun a => one_lift pipe a
    have h1 := loop_reads (g := one pipe) hr (grows_list hF cfg q.1.alloc o hH) (fun r m h => hK r m h.1 h.2) xs s (q.1.head, q.1.len)
      ⟨w.client, q.2⟩ hP hst.1
    have h2 := foldOver_fail (g := one pipe) (grows_list hF cfg q.1.alloc o hH) xs (q.1.head, q.1.len) ⟨w.client, q.2⟩ hst.1 ha (fun _ => .oom)
    rw [e1]
    rw [← h1] at h2
    simp only [onMem] at h2
    rcases h2 with h2 | h2
    · rw [h2]; exact .inl rfl
    · rw [h2]
      right
      cases hx : all (one pipe) xs w.client with
      | ok q => exact absurd hx (ha q)
      | _ => rfl
  | oom => exact .inl rfl
  | _ => rw [he] at hst; exact hst.elim

end
end

/-! ## Every source into every container -/

section
open Verif.Spec.Collect

variable {K : Kinds α β} {src : Src} {pipe : Pipe κ α γ} {d : Dst α β γ} {w : World κ (Memory α β)} {xs : List α}

theorem run_vec_eq {j : Nat} {v : Model.Vector.Vec} (hv : w.mem.vecs.vars j = some v) :
    run K (.vec j) pipe d w =
      d.collect K ((lift pipe).next fun it => onMem (vecs.on (Model.Vector.inHeap (Model.Vector.Iter.next it)))) (Model.Vector.iter v) w := by
  have : (onMem (vecs.on (Model.Vector.var j)) : Prog (World κ (Memory α β)) _) w = .ok (v, w) := by
    simp [onMem, Part.on, vecs, Model.Vector.var, hv]
  simp only [run, fromVec, Prog.bind_run, this, Out.bind_ok]

theorem run_list_eq {j : Nat} {l : Model.LL.Lst} {it : Model.LL.Iter} (hl : w.mem.lists.vars j = some l)
    (hi : Model.LL.iter l w.mem.lists.heap = .ok (it, w.mem.lists.heap)) :
    run K (.list j) pipe d w =
      d.collect K ((lift pipe).next fun it => onMem (lists.on (Model.LL.inHeap (Model.LL.Iter.next it)))) it w := by
  have h1 : (onMem (lists.on (Model.LL.var j)) : Prog (World κ (Memory α β)) _) w = .ok (l, w) := by
    simp [onMem, Part.on, lists, Model.LL.var, hl]
  have h2 : (onMem (lists.on (Model.LL.inHeap (Model.LL.iter l))) : Prog (World κ (Memory α β)) _) w = .ok (it, w) := by
    simp [onMem, Part.on, lists, Model.LL.inHeap, hi]
  simp only [run, fromList, Prog.bind_run, h1, h2, Out.bind_ok]

theorem vec_src (hg : Good K w.mem) {j : Nat} (hx : items w.mem (.vec j) = some xs) :
    ∃ v, w.mem.vecs.vars j = some v ∧ Vector.Rep K.ty w.mem.vecs.heap v xs := by
  simp only [items, Option.map_eq_some_iff] at hx
  obtain ⟨a, ha, rfl⟩ := hx
  obtain ⟨v, hv, rp, -⟩ := Vector.reach_get hg.vecs ha
  exact ⟨v, hv, rp⟩

theorem list_src (hg : Good K w.mem) {j : Nat} (hx : items w.mem (.list j) = some xs) :
    ∃ hd tl cs own, w.mem.lists.vars j = some (LL.lst hd tl cs own) ∧ LL.Rep K.cfg w.mem.lists.heap hd tl cs own ∧ LL.vals cs = xs ∧
      Model.LL.iter (LL.lst hd tl cs own) w.mem.lists.heap = .ok (⟨some (LL.headOf tl cs), some tl⟩, w.mem.lists.heap) := by
  simp only [items, Option.bind_eq_some_iff] at hx
  obtain ⟨⟨its, a⟩, ha, rfl⟩ := hx
  obtain ⟨C, hd, tl, cs, I, hC, hv, -⟩ := LL.reach_get hg.lists ha
  have rp := I.rep hC
  refine ⟨hd, tl, cs, a, I.var hC, rp, hv, ?_⟩
  simp only [Model.LL.iter, Prog.bind_run, show (LL.lst hd tl cs a).head = some hd from rfl, rp.getNext_hd, Out.bind_ok]
  rfl

theorem list_bal {α : Type} {cfg : Model.LL.Cfg α} {w : Model.LL.World α} (hr : Spec.LL.Reach cfg w) : LL.Bal w.heap := by
  obtain ⟨C, I⟩ := LL.reach_inv hr
  exact I.bal

theorem run_ok (hg : Good K w.mem) (hx : items w.mem src = some xs) {ys : List γ} {k : κ} (ha : all (one pipe) xs w.client = .ok (ys, k)) :
    run K src pipe d w = plain K ys d w.mem >>= fun q => .ok (q.1, ⟨k, q.2⟩) := by
  cases src with
  | vec j =>
    obtain ⟨v, hv, rp⟩ := vec_src hg hx
    rw [run_vec_eq hv]
    have hP : ∃ zs, Model.Vector.iter v = ⟨v.ptr, zs.length, v.len⟩ ∧ xs = zs ++ xs := ⟨[], rfl, rfl⟩
    have hr := reads_vec (lawful_vecs (α := α) (β := β)) K.ty v xs
    cases d with
    | vec i =>
      exact toVec_ok (o := some (v, xs)) (H' := fun _ => True) lawful_vecs hr (fun r m h _ => (h.keep _ rfl).1) (fun _ _ h => h)
        (Vector.reach_bal hg.vecs) (by rintro p ⟨⟩; exact rp) trivial hP ha
    | list i =>
      exact toList_ok (o := none) (H' := fun m : Memory α β => Vector.Rep K.ty m.vecs.heap v xs) lawful_lists hr (fun r m _ h => h) (fun _ _ h => h)
        (list_bal hg.lists) (by rintro p ⟨⟩) rp hP ha
    | vec' i =>
      exact toVec_ok (o := none) (H' := fun m : Memory α β => Vector.Rep K.ty m.vecs.heap v xs) lawful_vecs' hr (fun r m _ h => h) (fun _ _ h => h)
        (Vector.reach_bal hg.vecs') (by rintro p ⟨⟩) rp hP ha
    | list' i =>
      exact toList_ok (o := none) (H' := fun m : Memory α β => Vector.Rep K.ty m.vecs.heap v xs) lawful_lists' hr (fun r m _ h => h) (fun _ _ h => h)
        (list_bal hg.lists') (by rintro p ⟨⟩) rp hP ha
  | list j =>
    obtain ⟨hd, tl, cs, own, hv, rp, hvals, hit⟩ := list_src hg hx
    rw [run_list_eq hv hit]
    have hP : ∃ c1 c2, (⟨some (LL.headOf tl cs), some tl⟩ : Model.LL.Iter) = ⟨some (LL.headOf tl c2), some tl⟩ ∧ cs = c1 ++ c2 ∧ LL.vals c2 = xs :=
      ⟨[], cs, rfl, rfl, hvals⟩
    have hr := reads_list (lawful_lists (α := α) (β := β)) K.cfg hd tl own cs
    cases d with
    | vec i =>
      exact toVec_ok (o := none) (H' := fun m : Memory α β => LL.Rep K.cfg m.lists.heap hd tl cs own) lawful_vecs hr (fun r m _ h => h) (fun _ _ h => h)
        (Vector.reach_bal hg.vecs) (by rintro p ⟨⟩) rp hP ha
    | list i =>
      exact toList_ok (o := some (hd, tl, cs, own)) (H' := fun _ => True) lawful_lists hr (fun r m h _ => h.keep _ rfl) (fun _ _ h => h)
        (list_bal hg.lists) (by rintro p ⟨⟩; exact rp) trivial hP ha
    | vec' i =>
      exact toVec_ok (o := none) (H' := fun m : Memory α β => LL.Rep K.cfg m.lists.heap hd tl cs own) lawful_vecs' hr (fun r m _ h => h) (fun _ _ h => h)
        (Vector.reach_bal hg.vecs') (by rintro p ⟨⟩) rp hP ha
    | list' i =>
      exact toList_ok (o := none) (H' := fun m : Memory α β => LL.Rep K.cfg m.lists.heap hd tl cs own) lawful_lists' hr (fun r m _ h => h) (fun _ _ h => h)
        (list_bal hg.lists') (by rintro p ⟨⟩) rp hP ha

theorem run_fail (hg : Good K w.mem) (hx : items w.mem src = some xs) (ha : ∀ q, all (one pipe) xs w.client ≠ .ok q)
    (f : List γ × κ → Out (Unit × World κ (Memory α β))) :
    run K src pipe d w = .oom ∨ run K src pipe d w = all (one pipe) xs w.client >>= f := by
  cases src with
  | vec j =>
    obtain ⟨v, hv, rp⟩ := vec_src hg hx
    rw [run_vec_eq hv]
    have hP : ∃ zs, Model.Vector.iter v = ⟨v.ptr, zs.length, v.len⟩ ∧ xs = zs ++ xs := ⟨[], rfl, rfl⟩
    have hr := reads_vec (lawful_vecs (α := α) (β := β)) K.ty v xs
    cases d with
    | vec i =>
      exact toVec_fail (o := some (v, xs)) (H' := fun _ => True) lawful_vecs hr (fun r m h _ => (h.keep _ rfl).1) (fun _ _ h => h)
        (Vector.reach_bal hg.vecs) (by rintro p ⟨⟩; exact rp) trivial hP ha f
    | list i =>
      exact toList_fail (o := none) (H' := fun m : Memory α β => Vector.Rep K.ty m.vecs.heap v xs) lawful_lists hr (fun r m _ h => h) (fun _ _ h => h)
        (list_bal hg.lists) (by rintro p ⟨⟩) rp hP ha f
    | vec' i =>
      exact toVec_fail (o := none) (H' := fun m : Memory α β => Vector.Rep K.ty m.vecs.heap v xs) lawful_vecs' hr (fun r m _ h => h) (fun _ _ h => h)
        (Vector.reach_bal hg.vecs') (by rintro p ⟨⟩) rp hP ha f
    | list' i =>
      exact toList_fail (o := none) (H' := fun m : Memory α β => Vector.Rep K.ty m.vecs.heap v xs) lawful_lists' hr (fun r m _ h => h) (fun _ _ h => h)
        (list_bal hg.lists') (by rintro p ⟨⟩) rp hP ha f
  | list j =>
    obtain ⟨hd, tl, cs, own, hv, rp, hvals, hit⟩ := list_src hg hx
    rw [run_list_eq hv hit]
    have hP : ∃ c1 c2, (⟨some (LL.headOf tl cs), some tl⟩ : Model.LL.Iter) = ⟨some (LL.headOf tl c2), some tl⟩ ∧ cs = c1 ++ c2 ∧ LL.vals c2 = xs :=
      ⟨[], cs, rfl, rfl, hvals⟩
    have hr := reads_list (lawful_lists (α := α) (β := β)) K.cfg hd tl own cs
    cases d with
    | vec i =>
      exact toVec_fail (o := none) (H' := fun m : Memory α β => LL.Rep K.cfg m.lists.heap hd tl cs own) lawful_vecs hr (fun r m _ h => h) (fun _ _ h => h)
        (Vector.reach_bal hg.vecs) (by rintro p ⟨⟩) rp hP ha f
    | list i =>
      exact toList_fail (o := some (hd, tl, cs, own)) (H' := fun _ => True) lawful_lists hr (fun r m h _ => h.keep _ rfl) (fun _ _ h => h)
        (list_bal hg.lists) (by rintro p ⟨⟩; exact rp) trivial hP ha f
    | vec' i =>
      exact toVec_fail (o := none) (H' := fun m : Memory α β => LL.Rep K.cfg m.lists.heap hd tl cs own) lawful_vecs' hr (fun r m _ h => h) (fun _ _ h => h)
        (Vector.reach_bal hg.vecs') (by rintro p ⟨⟩) rp hP ha f
    | list' i =>
      exact toList_fail (o := none) (H' := fun m : Memory α β => LL.Rep K.cfg m.lists.heap hd tl cs own) lawful_lists' hr (fun r m _ h => h) (fun _ _ h => h)
        (list_bal hg.lists') (by rintro p ⟨⟩) rp hP ha f

/-- what the plain call does to the containers -/
theorem plain_ok (hg : Good K w.mem) (hd : Unused w.mem d) (ys : List γ) :
    (plain K ys d w.mem).Safe fun q => Good K q.2 ∧ made q.2 d = some ys ∧ Others w.mem q.2 d := by
  cases d with
  | vec i =>
    have hs : Spec.Vector.specStep false K.ty.size K.ty.dflt (.fromIter i ys) (Spec.Vector.view w.mem.vecs) =
        some (.unit, Spec.Vector.put (Spec.Vector.view w.mem.vecs) i (some ⟨ys, Spec.Vector.afterPushes ys.length 0 2, 0⟩)) := by
      simp only [Spec.Vector.specStep, Spec.Vector.born]; rw [if_pos (by rw [show Spec.Vector.view w.mem.vecs i = none from hd]; rfl)]
    have := Vector.reach_step hg.vecs hs
    simp only [plain, Part.on, Prog.bind_run, vecs]
    cases he : Model.Vector.step K.ty (.fromIter i ys) w.mem.vecs with
    | ok q =>
      rw [he] at this
      obtain ⟨-, h1, h2⟩ := this
      simp only [Out.bind_ok, Prog.pure_run, Out.safe_ok]
      refine ⟨⟨h2, hg.lists, hg.vecs', hg.lists'⟩, ?_, ?_, rfl, rfl, rfl⟩
      · simp [made, h1, Spec.Vector.put]
      · intro j hj; simp [h1, Spec.Vector.put, hj]
    | oom => trivial
    | _ => rw [he] at this; exact this.elim
  | vec' i =>
    have hs : Spec.Vector.specStep false K.ty'.size K.ty'.dflt (.fromIter i ys) (Spec.Vector.view w.mem.vecs') =
        some (.unit, Spec.Vector.put (Spec.Vector.view w.mem.vecs') i (some ⟨ys, Spec.Vector.afterPushes ys.length 0 2, 0⟩)) := by
      simp only [Spec.Vector.specStep, Spec.Vector.born]; rw [if_pos (by rw [show Spec.Vector.view w.mem.vecs' i = none from hd]; rfl)]
    have := Vector.reach_step hg.vecs' hs
    simp only [plain, Part.on, Prog.bind_run, vecs']
    cases he : Model.Vector.step K.ty' (.fromIter i ys) w.mem.vecs' with
    | ok q =>
      rw [he] at this
      obtain ⟨-, h1, h2⟩ := this
      simp only [Out.bind_ok, Prog.pure_run, Out.safe_ok]
      refine ⟨⟨hg.vecs, hg.lists, h2, hg.lists'⟩, ?_, ?_, rfl, rfl, rfl⟩
      · simp [made, h1, Spec.Vector.put]
      · intro j hj; simp [h1, Spec.Vector.put, hj]
    | oom => trivial
    | _ => rw [he] at this; exact this.elim
  | list i =>
    have hs : Spec.LL.specStep false K.cfg.dbl K.cfg.dflt (.fromIter i ys) (Spec.LL.view w.mem.lists) =
        some (.unit, Spec.LL.put (Spec.LL.view w.mem.lists) i (some ⟨some ys, 0⟩)) := by
      simp only [Spec.LL.specStep, Spec.LL.born, Spec.LL.needs]; rw [if_pos (by rw [show Spec.LL.view w.mem.lists i = none from hd]; rfl)]
    have := LL.reach_step hg.lists hs
    simp only [plain, Part.on, Prog.bind_run, lists]
    cases he : Model.LL.step K.cfg (.fromIter i ys) w.mem.lists with
    | ok q =>
      rw [he] at this
      obtain ⟨-, h1, h2, -⟩ := this
      simp only [Out.bind_ok, Prog.pure_run, Out.safe_ok]
      refine ⟨⟨hg.vecs, h2, hg.vecs', hg.lists'⟩, ?_, ?_, rfl, rfl, rfl⟩
      · simp [made, h1, Spec.LL.put]
      · intro j hj; simp [h1, Spec.LL.put, hj]
    | oom => trivial
    | _ => rw [he] at this; exact this.elim
  | list' i =>
    have hs : Spec.LL.specStep false K.cfg'.dbl K.cfg'.dflt (.fromIter i ys) (Spec.LL.view w.mem.lists') =
        some (.unit, Spec.LL.put (Spec.LL.view w.mem.lists') i (some ⟨some ys, 0⟩)) := by
      simp only [Spec.LL.specStep, Spec.LL.born, Spec.LL.needs]; rw [if_pos (by rw [show Spec.LL.view w.mem.lists' i = none from hd]; rfl)]
    have := LL.reach_step hg.lists' hs
    simp only [plain, Part.on, Prog.bind_run, lists']
    cases he : Model.LL.step K.cfg' (.fromIter i ys) w.mem.lists' with
    | ok q =>
      rw [he] at this
      obtain ⟨-, h1, h2, -⟩ := this
      simp only [Out.bind_ok, Prog.pure_run, Out.safe_ok]
      refine ⟨⟨hg.vecs, hg.lists, hg.vecs', h2⟩, ?_, ?_, rfl, rfl, rfl⟩
      · simp [made, h1, Spec.LL.put]
      · intro j hj; simp [h1, Spec.LL.put, hj]
    | oom => trivial
    | _ => rw [he] at this; exact this.elim

end

end Verif.Proof.Collect
