import Verif.Proof.VectorMoveThrow2
/-! # Vector: programs whose element moves may throw -/
namespace Verif.Proof.Vector
open Verif Verif.Model.Mem Verif.Model.Vector Verif.Proof.Mem
open Verif.Spec.Vector hiding upd

variable {α : Type} {ty : ElemTy α} {bad : α → Bool}

/-- What a call does, next to what it does when nothing throws. -/
def Answer (ty : ElemTy α) (A : Ideal α) (wr : List Nat) (m : Out (Res α × World α)) (f : Fate α)
    (m' : Out (Option (Res α) × World α)) : Prop :=
  match f with
  | .fine => Same m m'
  | .ends => Ends m'
  | .thrown A' => m'.Safe fun q => q.1 = none ∧ Inv ty A' q.2
  | .damaged => m'.Safe fun q => q.1 = none ∧ ∃ i, wr = [i] ∧ Thrown ty A i none q.2 ∧ step ty (.drop i) q.2 = .ub

/-- destroying up to and including a place without an element -/
theorem destroyLoop_hole {h : Heap α} {p : Option Nat} {cap owner : Nat} {pre post : List (Option α)} (xs : List α) {i n : Nat}
    (ho : Own ty h p cap owner (pre ++ (xs.map some ++ post))) (hi : i = pre.length) (hn : xs.length < n)
    (hh : ∀ x, post.head? ≠ some (some x)) : forUp i n (fun i => destroy p i) h = .ub := by
  induction xs generalizing h pre i n with
  | nil =>
    obtain ⟨n, rfl⟩ : ∃ m, n = m + 1 := ⟨n - 1, by omega⟩
    have e : destroy p i h = .ub := by
      cases p with
      | none => rfl
      | some b =>
        simp only [Own] at ho
        simp only [destroy, access, ho.1]
        have : (pre ++ (([] : List α).map some ++ post))[i]? = post.head? := by
          rw [hi, List.head?_eq_getElem?]; simp [List.getElem?_append_right]
        rw [this]
        cases hp : post.head? with
        | none => rfl
        | some o =>
          cases o with
          | none => rfl
          | some x => exact absurd hp (hh x)
    simp only [forUp, Prog.bind_run, e]
    rfl
  | cons x xs ih =>
    obtain ⟨n, rfl⟩ : ∃ m, n = m + 1 := ⟨n - 1, by omega⟩
    obtain ⟨h1, e1, o1, _⟩ := destroy_ok (pre := pre) (x := x) (by simpa using ho) hi
    have := ih (h := h1) (pre := pre ++ [none]) (i := i + 1) (n := n) (by simpa using o1) (by simp [hi]) (by simp at hn; omega)
    simp only [forUp, Prog.bind_run, e1, Out.bind_ok]
    exact this

theorem hurt_drop {h h' : Heap α} {p : Option Nat} {vars : Nat → Option Vec} {i : Nat} {v' : Vec} (t : Hurt ty h p v' h') :
    step ty (.drop i) ⟨h', bindVar vars i (some v')⟩ = .ub := by
  obtain ⟨xs, post, o, hlt, hh⟩ := t.own
  have := destroyLoop_hole (pre := []) (i := 0) xs o rfl hlt hh
  have e : (⟨h', bindVar vars i (some v')⟩ : World α).vars i = some v' := bindVar_same _ _ _
  simp only [step, Prog.bind_run, run_var e, Out.bind_ok, inHeap_run, clear, destroyAll, this]
  rfl

theorem changeM_hurt {A : Ideal α} {w : World α} (I : Inv ty A w) {i : Nat} {v : Vec} (hv : w.vars i = some v)
    {f : Vec → M α (Bool × Vec)} {r : Res α} (hf : (f v w.heap).Safe fun q => q.1.1 = true ∧ Hurt ty w.heap v.ptr q.1.2 q.2) :
    (changeT i f r w).Safe fun q => q.1 = none ∧ ∃ i', [i] = [i'] ∧ Thrown ty A i' none q.2 ∧ step ty (.drop i') q.2 = .ub :=
  changeT_thrown hv (P := fun w => ∃ i', [i] = [i'] ∧ Thrown ty A i' none w ∧ step ty (.drop i') w = .ub)
    (hf.mono fun _ hq => ⟨hq.1, i, rfl, hurt_thrown I hv hq.2, hurt_drop hq.2⟩)

theorem answer_relocate {A : Ideal α} {wr : List Nat} {m : Out (Res α × World α)} {m' : Out (Option (Res α) × World α)} {next : Fate α}
    {need : Bool} {xs : List α} (h1 : need = true → xs.any bad = true → Ends m')
    (h2 : (need = true → xs.any bad = false) → Answer ty A wr m next m') : Answer ty A wr m (relocate bad need xs next) m' := by
  unfold relocate
  cases hn : need with
  | false => exact h2 (by simp [hn])
  | true =>
    cases hb : xs.any bad with
    | true => exact h1 hn hb
    | false => exact h2 (fun _ => hb)

theorem same_some {w : World α} {i : Nat} {v : Vec} (hv : w.vars i = some v) {f f' : Vec → M α Vec} (hf : f' v w.heap = f v w.heap) :
    Same (change i f w) ((do let r ← change i f'; return some r : Prog (World α) (Option (Res α))) w) := by
  simp only [Same, change, Prog.bind_run, run_var hv, inHeap_run, hf, Out.assoc, Out.bind_ok]
  congr 1

theorem ends_some {w : World α} {i : Nat} {v : Vec} (hv : w.vars i = some v) {f : Vec → M α Vec} (hf : Ends (f v w.heap)) :
    Ends ((do let r ← change i f; return some r : Prog (World α) (Option (Res α))) w) := by
  simp only [change, Prog.bind_run, run_var hv, inHeap_run, Out.bind_ok]
  exact hf.bind.bind.bind

theorem ends_changeT {w : World α} {i : Nat} {v : Vec} (hv : w.vars i = some v) {f : Vec → M α (Bool × Vec)} {r : Res α}
    (hf : Ends (f v w.heap)) : Ends (changeT i f r w) := by
  simp only [changeT, Prog.bind_run, run_var hv, inHeap_run, Out.bind_ok]
  exact hf.bind.bind

theorem same_changeP {w : World α} {i : Nat} {v : Vec} (hv : w.vars i = some v) {f : Vec → M α (Vec × Option Nat)}
    {f' : Vec → M α (Bool × Vec × Option Nat)} (hf : f' v w.heap = (f v w.heap >>= fun q => .ok ((false, q.1), q.2))) :
    Same (change' i f w) (changeP i f' w) := by
  simp only [Same, change', changeP, Prog.bind_run, run_var hv, inHeap_run, hf, Out.assoc, Out.bind_ok]
  congr 1

theorem rebind {w : World α} {i : Nat} {v : Vec} (hv : w.vars i = some v) : (⟨w.heap, bindVar w.vars i (some v)⟩ : World α) = w := by
  have : bindVar w.vars i (some v) = w.vars := by
    funext j; by_cases h : j = i
    · subst h; rw [bindVar_same, hv]
    · rw [bindVar_ne _ _ h]
  rw [this]

/-- the last element that cannot be moved -/
theorem split_last {xs : List α} (h : xs.any bad = true) :
    ∃ ys x zs, xs = ys ++ x :: zs ∧ (∀ y ∈ zs, bad y = false) ∧ bad x = true ∧ (xs.getLast?.any bad = true ↔ zs = []) := by
  obtain ⟨ys, x, zs, h1, h2, h3, _⟩ := split_bad (bad := bad) (xs := xs.reverse) (by
    intro hh
    obtain ⟨x, hx, hb⟩ := List.any_eq_true.1 h
    rw [hh x (by simpa using hx)] at hb; cases hb)
  have e : xs = zs.reverse ++ x :: ys.reverse := by
    have := congrArg List.reverse h1
    simpa using this
  refine ⟨zs.reverse, x, ys.reverse, e, by simpa using h2, h3, ?_⟩
  rw [e]
  cases ys with
  | nil => simp [h3]
  | cons y ys =>
    have : ((zs.reverse ++ x :: (y :: ys).reverse).getLast?) = some y := by
      rw [show zs.reverse ++ x :: (y :: ys).reverse = (zs.reverse ++ x :: ys.reverse) ++ [y] by simp, List.getLast?_concat]
    rw [this]
    simp [h2 y (by simp)]

theorem split_first {xs : List α} (h : xs.any bad = true) :
    ∃ ys x zs, xs = ys ++ x :: zs ∧ (∀ y ∈ ys, bad y = false) ∧ bad x = true ∧ xs.takeWhile (fun x => !bad x) = ys := by
  apply split_bad
  intro hh
  obtain ⟨x, hx, hb⟩ := List.any_eq_true.1 h
  rw [hh x hx] at hb; cases hb

/-- a call that moves elements back inside the memory and fails -/
theorem answer_back {A : Ideal α} {w : World α} (I : Inv ty A w) {i : Nat} {v : Vec} (hv : w.vars i = some v) {m : Out (Res α × World α)}
    {f : Vec → M α (Bool × Vec)} {r : Res α} {ts : List α} {next : Fate α}
    (h1 : ts.any bad = false → Answer ty A [i] m next (changeT i f r w))
    (h2 : ∀ rest x us, ts = rest ++ x :: us → (∀ y ∈ us, bad y = false) → bad x = true →
      ∃ h', f v w.heap = .ok ((true, v), h') ∧ (us = [] → h' = w.heap) ∧ (us ≠ [] → Hurt ty w.heap v.ptr v h')) :
    Answer ty A [i] m (moveBack bad A ts next) (changeT i f r w) := by
  unfold moveBack
  cases hb : ts.any bad with
  | false => exact h1 hb
  | true =>
    obtain ⟨rest, x, us, e, hg, hx, hl⟩ := split_last hb
    obtain ⟨h', e1, h3, h4⟩ := h2 rest x us e hg hx
    simp only [if_true]
    by_cases hu : us = []
    · rw [if_pos (hl.2 hu)]
      refine changeT_thrown hv (P := fun w => Inv ty A w) ?_
      rw [e1, h3 hu]
      exact ⟨rfl, by simp only [rebind hv]; exact I⟩
    · rw [if_neg (fun h => hu (hl.1 h))]
      refine changeM_hurt I hv ?_
      rw [e1]
      exact ⟨rfl, h4 hu⟩

/-- a call that moves elements forward and fails -/
theorem answer_forward {A : Ideal α} {w : World α} (I : Inv ty A w) {i : Nat} {v : Vec} {a : Var α} (ha : A i = some a)
    (hv : w.vars i = some v) (hc : v.cap = a.cap) (hl : v.alloc = a.alloc) {m : Out (Res α × World α)}
    {f : Vec → M α (Bool × Vec × Option Nat)} {lo hi : Nat} {wr : List Nat}
    (h1 : (a.xs.drop hi).any bad = false → Same m (changeP i f w))
    (h2 : ∀ ts x us, a.xs.drop hi = ts ++ x :: us → (∀ y ∈ ts, bad y = false) → bad x = true →
      ∃ h', f v w.heap = .ok ((true, v, none), h') ∧
        Rep ty h' v (a.xs.take lo ++ (ts ++ (((a.xs.take hi).drop lo ++ ts.map ty.mv).drop ts.length ++ x :: us))) ∧
        Step w.heap v.ptr.toList h' v.ptr.toList 0) :
    Answer ty A wr m (moveForward bad ty.mv A i a lo hi) (changeP i f w) := by
  unfold moveForward
  cases hb : (a.xs.drop hi).any bad with
  | false => simp only [hb, Bool.false_eq_true, if_false]; exact h1 hb
  | true =>
    obtain ⟨ts, x, us, e, hg, hx, ht⟩ := split_first hb
    obtain ⟨h', e1, r1, s1⟩ := h2 ts x us e hg hx
    have hd : (a.xs.drop hi).drop ts.length = x :: us := by rw [e]; simp
    simp only [hb, if_true, ht, hd]
    simp only [Answer, changeP, Prog.bind_run, run_var hv, Out.bind_ok, inHeap_run, e1, setVar, if_true, Prog.pure_run, Out.safe_ok,
      true_and]
    exact I.put (i := i) (o' := some v) (a' := some _) (k := 0) (by rw [hv]; exact s1) ⟨r1, hc, hl⟩

theorem rvalue_own (r : Arg α) : Spec.Vector.rvalue r = r.own := by cases r <;> rfl

theorem stepM_fate (op : Op α) {A : Ideal α} {w : World α} (I : Inv ty A w) {r : Res α} {A' : Ideal α}
    (hs : specStep false ty.size ty.dflt op A = some (r, A')) :
    Answer ty A (writes op) (step ty op w) (fate bad ty.mv ty.dflt A op) (stepM ty bad op w) := by
  cases op with
  | fromIter i xs =>
    obtain ⟨hi, hp⟩ := of_born hs; cases hp
    simp only [fate]
    cases hb : xs.any bad with
    | true =>
      simp only [if_true, Answer, stepM]
      refine createT_thrown (P := fun w => Inv ty A w) ?_
      simp only [fromIterM, Prog.bind_run]
      apply (newDefault_ok I.bal).bind
      rintro ⟨v1, h1⟩ t1
      refine (fromIterLoopM_bad xs t1.rep t1.bal rfl hb).mono ?_
      rintro ⟨o, h2⟩ ⟨h3, k, s⟩
      refine ⟨h3, ?_⟩
      have s' := t1.step.trans s
      have hn := I.get_none hi
      have e : w.vars = bindVar w.vars i none := by
        funext j; by_cases h : j = i
        · subst h; rw [bindVar_same, hn]
        · rw [bindVar_ne _ _ h]
      have := I.put (i := i) (o' := none) (a' := none) (h' := h2) (by rw [hn]; exact s') trivial
      have e2 : Spec.Vector.put A i none = A := by
        funext j; simp only [Spec.Vector.put]; split
        · rename_i h; rw [h, hi]
        · rfl
      rw [e2, ← e] at this
      exact this
    | false =>
      simp only [Bool.false_eq_true, if_false, Answer, stepM, step]
      refine same_create ?_
      simp only [fromIterM, fromIter, Prog.bind_run, Out.assoc]
      have key := newDefault_ok (ty := ty) I.bal
      cases he : newDefault ty w.heap with
      | ok q =>
        rw [he] at key
        exact fromIterLoopM_at xs key.rep key.bal rfl hb
      | _ => rfl
  | copyAssign i j =>
    simp only [specStep, Option.bind_eq_some_iff] at hs
    obtain ⟨b, hb, hs⟩ := hs
    obtain ⟨a, r', a', ha, hf, hp⟩ := of_upd hs; cases hp
    obtain ⟨v, hv, rv, hc, hl⟩ := I.get ha
    obtain ⟨u, hu, ru, hc', hl'⟩ := I.get hb
    simp only [fate, ha, hb, Option.getD_some]
    by_cases hij : i = j
    · rw [if_neg (by simp [hij])]
      simp only [stepM, if_pos hij]; rfl
    · simp only [stepM, step, if_neg hij, Prog.bind_run, run_var hu, Out.bind_ok]
      by_cases hal : a.alloc = b.alloc
      · rw [if_pos ⟨hij, hal⟩]
        refine answer_relocate (fun hn hbd => ends_some hv (copyAssignM_ends rv ru I.bal (by omega)
          (by simp only [decide_eq_true_eq] at hn; omega) hbd)) fun hg => ?_
        exact same_some hv (copyAssignM_at rv ru I.bal (fun _ h => hg (by simp; omega)))
      · rw [if_neg (fun h => hal h.2)]
        exact same_some hv (copyAssignM_at rv ru I.bal (fun h _ => absurd (by rw [← hl, ← hl']; exact h) hal))
  | reserve i n =>
    obtain ⟨a, r', a', ha, hf, hp⟩ := of_upd hs; cases hp
    obtain ⟨hw, hf⟩ := of_only hf; cases hf
    obtain ⟨v, hv, rv, hc, hl⟩ := I.get ha
    simp only [fate, ha, Option.getD_some, stepM, step]
    refine answer_relocate (fun hn hbd => ends_some hv (reserveM_ends rv I.bal hw (by simp only [decide_eq_true_eq] at hn; omega) hbd))
      fun hg => same_some hv (reserveM_at rv I.bal hw (fun h => hg (by simp; omega)))
  | resize i n =>
    obtain ⟨a, r', a', ha, hf, hp⟩ := of_upd hs; cases hp
    obtain ⟨hw, hf⟩ := of_only hf; cases hf
    obtain ⟨v, hv, rv, hc, hl⟩ := I.get ha
    simp only [fate, ha, Option.getD_some, stepM, step, resize]
    refine answer_relocate (fun hn hbd => ends_some hv (resizeFillM_ends rv I.bal hw (by simp only [decide_eq_true_eq] at hn; omega) hbd))
      fun hg => same_some hv (resizeFillM_at rv I.bal hw (fun h => hg (by simp; omega)))
  | resizeFill i n rf =>
    simp only [specStep, Option.bind_eq_some_iff] at hs
    obtain ⟨x, hx, hs⟩ := hs
    obtain ⟨a, r', a', ha, hf, hp⟩ := of_upd hs; cases hp
    obtain ⟨hg', hf⟩ := of_only hf; cases hf
    obtain ⟨v, hv, rv, hc, hl⟩ := I.get ha
    obtain ⟨ref, e1, st, ins⟩ := arg_ok I hx
    simp only [fate, ha, Option.getD_some, stepM, step, Prog.bind_run, e1, Out.bind_ok]
    refine answer_relocate (fun hn hbd => ends_some hv (resizeFillM_ends rv I.bal hg'.1 (by simp only [decide_eq_true_eq] at hn; omega) hbd))
      fun hg => same_some hv (resizeFillM_at rv I.bal hg'.1 (fun h => hg (by simp; omega)))
  | push i rf =>
    simp only [specStep, Option.bind_eq_some_iff] at hs
    obtain ⟨x, hx, hs⟩ := hs
    obtain ⟨a, r', a', ha, hf, hp⟩ := of_upd hs; cases hp
    obtain ⟨hg', hf⟩ := of_only hf; cases hf
    obtain ⟨v, hv, rv, hc, hl⟩ := I.get ha
    obtain ⟨ref, e1, st, ins⟩ := arg_ok I hx
    have hrf := push_refs I ha hv (n := a.xs.length + 1) hc st ins (by simpa [Nat.succ_le_iff] using hg')
    simp only [fate, rvalue_own, ha, hx, Option.getD_some, stepM, step, Prog.bind_run, e1, Out.bind_ok]
    refine answer_relocate (fun hn hbd => ends_changeT hv (pushBackM_ends rv I.bal (by simp only [decide_eq_true_eq] at hn; omega) hbd))
      fun hg => ?_
    have hg1 : v.cap ≤ a.xs.length → a.xs.any bad = false := fun h => hg (by simp; omega)
    cases ho : rf.own && bad x with
    | false => exact same_change hv (pushBackM_at rv I.bal ho hg1 hrf)
    | true =>
      simp only [Bool.and_eq_true] at ho
      rw [if_pos rfl, ho.1]
      exact changeM_hurt I hv (pushBackM_hurt rv I.bal ho.2 hg1 hrf)
  | emplace i p x =>
    obtain ⟨a, r', a', ha, hf, hp⟩ := of_upd hs; cases hp
    split at hf
    · rename_i hle
      obtain ⟨h1, hf⟩ := of_only hf; cases hf
      obtain ⟨v, hv, rv, hc, hl⟩ := I.get ha
      obtain ⟨hsp, hne, hpl, hll⟩ := take_drop_split hle h1
      simp only [fate, ha, Option.getD_some, stepM, step]
      refine answer_relocate (fun hn hbd => ends_changeT hv (emplaceM_ends rv I.bal (by simp only [decide_eq_true_eq] at hn; omega) hbd))
        fun hg => ?_
      have hg1 : v.cap ≤ (a.xs.take p ++ a.xs.drop p).length → (a.xs.take p ++ a.xs.drop p).any bad = false := by
        rw [← hsp]; exact fun h => hg (by simp; omega)
      have rv' := rv
      rw [hsp] at rv'
      refine answer_back I hv (fun hb => ?_) (fun rest y us e hgd hy => ?_)
      · cases hx : bad x with
        | false => exact same_change hv (emplaceM_at rv' I.bal hne hpl hg1 hb hx)
        | true => exact changeM_hurt I hv (emplaceM_hurt rv' I.bal hne hpl hg1 hb hx)
      · have hlt : a.xs.length < v.cap := by
          refine Nat.lt_of_not_le fun h => ?_
          have := hg (by simp; omega)
          rw [hsp, e] at this
          simp [hy] at this
        rw [e] at rv'
        exact emplaceM_bad rv' hne hpl (by rw [← e, ← hsp]; exact hlt) hgd hy
    · cases hf
  | insert i p rf =>
    simp only [specStep, Option.bind_eq_some_iff] at hs
    obtain ⟨x, hx, hs⟩ := hs
    obtain ⟨a, r', a', ha, hf, hp⟩ := of_upd hs; cases hp
    split at hf
    · rename_i hle
      obtain ⟨h1, hf⟩ := of_only hf; cases hf
      obtain ⟨v, hv, rv, hc, hl⟩ := I.get ha
      obtain ⟨ref, e1, st, ins⟩ := arg_ok I hx
      have rd : deref ref w.heap = .ok (x, w.heap) := (st none (fun b h => by cases h)).now
      obtain ⟨hsp, hne, hpl, hll⟩ := take_drop_split hle h1
      simp only [fate, rvalue_own, ha, hx, Option.getD_some, stepM, step, Prog.bind_run, e1, Out.bind_ok]
      cases ho : rf.own && bad x with
      | true =>
        simp only [if_true]
        refine changeT_thrown hv (P := fun w => Inv ty A w) ?_
        simp only [insertM, Prog.bind_run, rd, Out.bind_ok, ho, if_true, Prog.pure_run]
        exact ⟨rfl, by simp only [rebind hv]; exact I⟩
      | false =>
        simp only [Bool.false_eq_true, if_false]
        have ei : insertM ty bad rf.own v p ref w.heap = emplaceM ty bad v p x w.heap := by
          simp only [insertM, Prog.bind_run, rd, Out.bind_ok, ho, Bool.false_eq_true, if_false]
        refine answer_relocate (fun hn hbd => ends_changeT hv (by
          rw [ei]; exact emplaceM_ends rv I.bal (by simp only [decide_eq_true_eq] at hn; omega) hbd)) fun hg => ?_
        have hg1 : v.cap ≤ (a.xs.take p ++ a.xs.drop p).length → (a.xs.take p ++ a.xs.drop p).any bad = false := by
          rw [← hsp]; exact fun h => hg (by simp; omega)
        have rv' := rv
        rw [hsp] at rv'
        refine answer_back I hv (fun hb => ?_) (fun rest y us e hgd hy => ?_)
        · cases hxb : bad x with
          | false =>
            refine same_change' hv (f := fun v => Model.Vector.insert ty v p ref) ?_ ?_
            · have e2 := emplaceM_at rv' I.bal hne hpl hg1 hb hxb
              rw [QAt] at e2
              simp only [ei, e2, Model.Vector.insert, Prog.bind_run, rd, Out.bind_ok, Out.assoc, Prog.pure_run]
            · intro q h
              simp only [Model.Vector.insert, Prog.bind_run, rd, Out.bind_ok]
              cases emplace ty v p x w.heap with
              | ok p => intro e; cases e; rfl
              | _ => intro e; cases e
          | true =>
            refine changeM_hurt I hv ?_
            rw [ei]
            exact emplaceM_hurt rv' I.bal hne hpl hg1 hb hxb
        · have hlt : a.xs.length < v.cap := by
            refine Nat.lt_of_not_le fun h => ?_
            have := hg (by simp; omega)
            rw [hsp, e] at this
            simp [hy] at this
          rw [e] at rv'
          rw [ei]
          exact emplaceM_bad rv' hne hpl (by rw [← e, ← hsp]; exact hlt) hgd hy
    · cases hf
  | insertFill i p n rf =>
    simp only [specStep, Option.bind_eq_some_iff] at hs
    obtain ⟨x, hx, hs⟩ := hs
    obtain ⟨a, r', a', ha, hf, hp⟩ := of_upd hs; cases hp
    split at hf
    · rename_i hle
      obtain ⟨⟨h1, hn, hw, hal⟩, hf⟩ := of_only hf; cases hf
      obtain ⟨v, hv, rv, hc, hl⟩ := I.get ha
      obtain ⟨ref, e1, st, ins⟩ := arg_ok I hx
      simp only [fate, ha, Option.getD_some, stepM, step, Prog.bind_run, e1, Out.bind_ok]
      have hret : ∀ q h, insertFill ty v p n ref w.heap = .ok (q, h) → q.2 = p := by
        intro q h
        simp only [insertFill, Prog.bind_run]
        cases moveElementsBack ty v p n w.heap with
        | ok p1 =>
          simp only [Out.bind_ok]
          cases (forUp 0 n fun i => do let x ← deref ref; construct p1.1.ptr (wrap (p + i)) x) p1.2 with
          | ok p => intro e; cases e; rfl
          | _ => intro e; cases e
        | _ => intro e; cases e
      by_cases h0 : a.xs = [] ∧ n = 0
      · obtain ⟨hx0, rfl⟩ := h0
        simp only [hx0, relocate, moveBack, List.any_nil, Bool.and_false, Bool.false_eq_true, if_false, List.drop_nil]
        rw [hx0] at rv
        exact same_change' hv (f := fun v => insertFill ty v p 0 ref) (insertFillM_nil rv.len) hret
      replace h1 : 1 ≤ p := h1.resolve_right h0
      obtain ⟨hsp, hne, hpl, hll⟩ := take_drop_split hle h1
      refine answer_relocate (fun hnn hbd => ends_changeT hv (insertFillM_ends rv I.bal hw
        (by simp only [decide_eq_true_eq] at hnn; omega) hbd)) fun hg => ?_
      have rv' := rv
      rw [hsp] at rv'
      refine answer_back I hv (fun hb => ?_) (fun rest y us e hgd hy => ?_)
      · refine same_change' hv (f := fun v => insertFill ty v p n ref) (insertFillM_at rv' I.bal hne ?_ hpl (by rw [hll]; exact hw) ?_ hb) hret
        · rcases hn with hn | hn
          · exact .inl hn
          · right; rw [hn]; simp
        · rw [hll, ← hsp]; exact fun h => hg (by simp; omega)
      · have hlt : a.xs.length + n ≤ v.cap := by
          refine Nat.le_of_not_lt fun h => ?_
          have := hg (by simp; omega)
          rw [hsp, e] at this
          simp [hy] at this
        have hn0 : 0 < n := hn.resolve_right (fun h => by rw [h] at e; simp at e)
        rw [e] at rv'
        exact insertFillM_bad rv' hne hn0 hpl (by rw [← e, hll]; exact hlt) hgd hy
    · cases hf
  | insertRange i p ys =>
    obtain ⟨a, r', a', ha, hf, hp⟩ := of_upd hs; cases hp
    split at hf
    · rename_i hle
      obtain ⟨⟨h1, hn, hw⟩, hf⟩ := of_only hf; cases hf
      obtain ⟨v, hv, rv, hc, hl⟩ := I.get ha
      simp only [fate, ha, Option.getD_some, stepM, step]
      have hret : ∀ q h, insertRange ty v p ys w.heap = .ok (q, h) → q.2 = p := by
        intro q h
        simp only [insertRange, Prog.bind_run]
        cases (if wrap (v.len + ys.length) > v.cap then allocateReserve ty v (wrap (v.len + ys.length)) else pure v : M α Vec) w.heap with
        | ok p1 =>
          simp only [Out.bind_ok]
          cases moveElementsBack ty p1.1 p ys.length p1.2 with
          | ok p2 =>
            simp only [Out.bind_ok]
            cases constructList p2.1.ptr p ys p2.2 with
            | ok p => intro e; cases e; rfl
            | _ => intro e; cases e
          | _ => intro e; cases e
        | _ => intro e; cases e
      by_cases h0 : a.xs = [] ∧ ys = []
      · obtain ⟨hx0, rfl⟩ := h0
        simp only [hx0, relocate, moveBack, List.any_nil, Bool.and_false, Bool.false_eq_true, if_false, List.drop_nil]
        rw [hx0] at rv
        exact same_change' hv (f := fun v => insertRange ty v p []) (insertRangeM_nil rv) hret
      replace h1 : 1 ≤ p := h1.resolve_right h0
      obtain ⟨hsp, hne, hpl, hll⟩ := take_drop_split hle h1
      refine answer_relocate (fun hnn hbd => ends_changeT hv (insertRangeM_ends rv I.bal hw
        (by simp only [decide_eq_true_eq] at hnn; omega) hbd)) fun hg => ?_
      have rv' := rv
      rw [hsp] at rv'
      refine answer_back I hv (fun hb => ?_) (fun rest y us e hgd hy => ?_)
      · refine same_change' hv (f := fun v => insertRange ty v p ys) (insertRangeM_at rv' I.bal hne ?_ hpl (by rw [hll]; exact hw) ?_ hb) hret
        · rcases hn with hn | hn
          · exact .inl hn
          · right; rw [hn]; simp
        · rw [hll, ← hsp]; exact fun h => hg (by simp; omega)
      · have hlt : a.xs.length + ys.length ≤ v.cap := by
          refine Nat.le_of_not_lt fun h => ?_
          have := hg (by simp; omega)
          rw [hsp, e] at this
          simp [hy] at this
        have hn0 : 0 < ys.length := hn.resolve_right (fun h => by rw [h] at e; simp at e)
        rw [e] at rv'
        exact insertRangeM_bad rv' hne hn0 hpl (by rw [← e, hll]; exact hlt) hgd hy
    · cases hf
  | erase i p =>
    obtain ⟨a, r', a', ha, hf, hp⟩ := of_upd hs; cases hp
    split at hf
    · rename_i hlt
      cases hf
      obtain ⟨v, hv, rv, hc, hl⟩ := I.get ha
      have hsp : a.xs = a.xs.take p ++ a.xs[p] :: a.xs.drop (p + 1) := by simp
      have hpl : p = (a.xs.take p).length := by simp; omega
      have rv' := rv
      rw [hsp] at rv'
      simp only [fate, ha, Option.getD_some, stepM, step]
      refine answer_forward I ha hv hc hl (fun hb => same_changeP hv (eraseM_at rv' hpl hb)) (fun ts x us e hg hx => ?_)
      rw [e] at rv'
      have := eraseM_bad rv' hpl hg hx
      have hm : (a.xs.take (p + 1)).drop p = [a.xs[p]] := by
        rw [List.drop_take, Nat.add_sub_cancel_left, List.drop_eq_getElem_cons hlt]; rfl
      rw [hm]
      exact this
    · cases hf
  | eraseRange i lo hi =>
    obtain ⟨a, r', a', ha, hf, hp⟩ := of_upd hs; cases hp
    split at hf
    · rename_i hle
      obtain ⟨hg, hf⟩ := of_only hf; cases hf
      obtain ⟨v, hv, rv, hc, hl⟩ := I.get ha
      have hsp : a.xs = a.xs.take lo ++ ((a.xs.drop lo).take (hi - lo) ++ a.xs.drop hi) := by
        have h1 : a.xs.drop hi = (a.xs.drop lo).drop (hi - lo) := by rw [List.drop_drop]; congr 1; omega
        rw [h1, List.take_append_drop, List.take_append_drop]
      have hlo : lo = (a.xs.take lo).length := by simp; omega
      have hhi : hi = (a.xs.take lo).length + ((a.xs.drop lo).take (hi - lo)).length := by simp; omega
      have rv' := rv
      rw [hsp] at rv'
      simp only [fate, ha, Option.getD_some, stepM, step]
      refine answer_forward I ha hv hc hl (fun hb => same_changeP hv (eraseRangeM_at rv' hlo hhi ?_ hb)) (fun ts x us e hgd hx => ?_)
      · rcases hg with hg | hg
        · left; intro h
          have := congrArg List.length h
          simp at this
          omega
        · right; rw [hg]; simp
      · rw [e] at rv'
        have hne : (a.xs.drop lo).take (hi - lo) ≠ [] := by
          intro h
          have h2 := congrArg List.length h
          have h3 := congrArg List.length e
          simp at h2 h3
          omega
        have := eraseRangeM_bad rv' hlo hhi hne hgd hx
        rw [List.drop_take]
        exact this
    · cases hf
  | drain i n =>
    obtain ⟨a, r', a', ha, hf, hp⟩ := of_upd hs; cases hp; cases hf
    obtain ⟨v, hv, rv, hc, hl⟩ := I.get ha
    obtain ⟨r1, r2, r3⟩ := intoIter_rep rv
    simp only [fate, ha, Option.getD_some]
    cases hb : (a.xs.take n).any bad with
    | true =>
      obtain ⟨h1, k, e1, s1⟩ := drainNM_bad n r1 I.bal hb
      simp only [if_true, stepM, Prog.bind_run, run_var hv, Out.bind_ok, setVar, inHeap_run, e1, Prog.pure_run, Answer, Out.safe_ok, r2]
      exact ⟨rfl, I.put (i := i) (o' := some (Vec.blank v.alloc)) (a' := some ⟨[], 0, a.alloc⟩) (k := k)
        (by rw [hv]; exact s1) ⟨rep_blank _ _, rfl, hl⟩⟩
    | false =>
      have e1 := drainNM_at n r1 I.bal hb
      simp only [Bool.false_eq_true, if_false, stepM, step, Answer, Same, Prog.bind_run, run_var hv, Out.bind_ok, setVar, inHeap_run, e1,
        Out.assoc, Prog.pure_run]
      rfl
  | drainRev i n =>
    obtain ⟨a, r', a', ha, hf, hp⟩ := of_upd hs; cases hp; cases hf
    obtain ⟨v, hv, rv, hc, hl⟩ := I.get ha
    have hm : (newMove v dfltAlloc) = (v, Vec.blank v.alloc) := rfl
    simp only [fate, ha, Option.getD_some]
    cases hb : (a.xs.reverse.take n).any bad with
    | true =>
      obtain ⟨h1, k, e1, s1⟩ := drainRevNM_bad n rv I.bal hb
      simp only [if_true, stepM, Prog.bind_run, run_var hv, Out.bind_ok, setVar, inHeap_run, hm, e1, Prog.pure_run, Answer, Out.safe_ok]
      exact ⟨rfl, I.put (i := i) (o' := some (Vec.blank v.alloc)) (a' := some ⟨[], 0, a.alloc⟩) (k := k)
        (by rw [hv]; exact s1) ⟨rep_blank _ _, rfl, hl⟩⟩
    | false =>
      have e1 := drainRevNM_at n rv I.bal hb
      simp only [Bool.false_eq_true, if_false, stepM, step, Answer, Same, Prog.bind_run, run_var hv, Out.bind_ok, setVar, inHeap_run, hm, e1,
        Out.assoc, Prog.pure_run]
      rfl
  | _ => rfl

/-! ## Programs -/

theorem stepM_ok (op : Op α) {A : Ideal α} {w : World α} (I : Inv ty A w) {r : Option (Res α)} {A' : Ideal α}
    (hs : specStepM bad ty.mv ty.size ty.dflt op A = some (r, A')) :
    (stepM ty bad op w).Safe fun q => q.1 = r ∧ Inv ty A' q.2 := by
  simp only [specStepM, Option.bind_eq_some_iff] at hs
  obtain ⟨⟨r0, A0⟩, h0, hs⟩ := hs
  have key := stepM_fate (bad := bad) op I h0
  cases hc : fate bad ty.mv ty.dflt A op with
  | fine =>
    rw [hc] at key hs
    cases hs
    simp only [Answer, Same] at key
    rw [key]
    exact (step_ok op I h0).bind fun q hq => ⟨by simp [hq.1], hq.2⟩
  | thrown A1 =>
    rw [hc] at key hs
    cases hs
    exact key
  | ends => rw [hc] at hs; cases hs
  | damaged => rw [hc] at hs; cases hs

theorem runM_ok (ops : List (Op α)) {A : Ideal α} {w : World α} (I : Inv ty A w) {rs : List (Option (Res α))} {A' : Ideal α}
    (hs : specRunM bad ty.mv ty.size ty.dflt ops A = some (rs, A')) :
    (runM ty bad ops w).Safe fun q => q.1 = rs ∧ Inv ty A' q.2 := by
  induction ops generalizing A w rs with
  | nil => cases hs; exact ⟨rfl, I⟩
  | cons op ops ih =>
    simp only [specRunM] at hs
    cases h1 : specStepM bad ty.mv ty.size ty.dflt op A with
    | none => rw [h1] at hs; cases hs
    | some p =>
      obtain ⟨r, A1⟩ := p
      rw [h1] at hs
      simp only at hs
      cases h2 : specRunM bad ty.mv ty.size ty.dflt ops A1 with
      | none => rw [h2] at hs; cases hs
      | some q =>
        obtain ⟨rs', A2⟩ := q
        rw [h2] at hs
        cases hs
        simp only [runM, Prog.bind_run]
        refine (stepM_ok op I h1).bind ?_
        rintro ⟨r', w1⟩ ⟨e1, I1⟩
        simp only at e1 I1 ⊢
        subst e1
        refine (ih I1 h2).bind ?_
        rintro ⟨rs2, w2⟩ ⟨e2, I2⟩
        exact ⟨by simp only at e2; simp [e2], I2⟩

theorem reachM_inv {w : World α} (hr : ReachM ty bad w) : Inv ty (view w) w := by
  obtain ⟨ops, rs, A, rs', hs, he⟩ := hr
  have := runM_ok ops inv_init hs
  rw [he] at this
  rw [Inv.view this.2]
  exact this.2

end Verif.Proof.Vector
