import Verif.Proof.VectorReach
import Verif.Spec.VectorGive
/-! # Moving elements out of vectors: proofs -/
namespace Verif.Proof.VectorGive
open Verif Verif.Model.Mem Verif.Model.Vector Verif.Proof.Mem Verif.Proof.Vector
open Verif.Model.VectorGive hiding insertMove emplaceMove
open Verif.Spec.Vector hiding upd
open Verif.Spec.VectorGive

variable {α : Type} {ty : ElemTy α}

/-- Moving out changes the heap like assigning the moved-from value. -/
theorem take_store {p : Option Nat} {k : Nat} {x : α} {h h' : Heap α} (hl : load p k h = .ok (x, h))
    (hs : store p k (ty.mv x) h = .ok ((), h')) : take ty p k h = .ok (x, h') := by
  unfold load access at hl
  unfold store access at hs
  unfold take access
  cases p with
  | none => cases hl
  | some b =>
    simp only at hl hs ⊢
    cases hb : h.blocks b with
    | none => rw [hb] at hl; cases hl
    | some blk =>
      rw [hb] at hl hs
      simp only at hl hs ⊢
      cases ho : blk.slots[k]? with
      | none => rw [ho] at hl; cases hl
      | some o =>
        rw [ho] at hl hs
        simp only at hl hs ⊢
        cases o with
        | none => simp at hl
        | some y =>
          simp only [Option.map_some, Out.ok.injEq, Prod.mk.injEq] at hl hs ⊢
          exact ⟨hl.1, by rw [hl.1]; exact hs.2⟩

theorem moveOut_some {mv : α → α} {A A1 : Ideal α} {j k : Nat} {x : α} (h : moveOut mv A j k = some (x, A1)) :
    ∃ v, A j = some v ∧ v.xs[k]? = some x ∧ A1 = put A j (some ⟨v.xs.set k (mv x), v.cap, v.alloc⟩) := by
  simp only [moveOut, Option.bind_eq_some_iff, Option.map_eq_some_iff] at h
  obtain ⟨v, hv, y, hy, e⟩ := h
  cases e
  exact ⟨v, hv, hy, rfl⟩

/-- `take` on an element of vector `j`. -/
theorem take_ok {A A1 : Ideal α} {w : World α} (I : Inv ty A w) {j k : Nat} {x : α} (h : moveOut ty.mv A j k = some (x, A1))
    {u : Vec} (hu : w.vars j = some u) :
    ∃ h', take ty u.ptr k w.heap = .ok (x, h') ∧ Inv ty A1 { w with heap := h' } := by
  obtain ⟨v, hv, hx, rfl⟩ := moveOut_some h
  obtain ⟨u', hu', ru, hc, hl⟩ := I.get hv
  rw [hu] at hu'; cases hu'
  have hk : k < v.xs.length := (List.getElem?_eq_some_iff.1 hx).1
  have S := step_ok (ty := ty) (.set j k (ty.mv x)) I (r := .unit) (A' := put A j (some ⟨v.xs.set k (ty.mv x), v.cap, v.alloc⟩))
    (by simp [specStep, Spec.Vector.upd, hv, hk])
  simp only [Agree, step, look, Prog.bind_run, run_var hu, Out.bind_ok, inHeap_run, indexSet, Prog.pure_run] at S
  cases hs : store u.ptr k (ty.mv x) w.heap with
  | ok q =>
    rw [hs] at S
    simp only [Out.bind_ok] at S
    exact ⟨q.2, take_store (ru.slot hx) hs, S.2⟩
  | oom =>
    exfalso
    unfold store access at hs
    repeat' split at hs
    all_goals cases hs
  | div => rw [hs] at S; exact S.elim
  | panic => rw [hs] at S; exact S.elim
  | ub => rw [hs] at S; exact S.elim

theorem put_put (A : Ideal α) (i : Nat) (x y : Option (Var α)) : put (put A i x) i y = put A i y := by
  funext j; simp only [Spec.Vector.put]; split <;> rfl

theorem put_comm (A : Ideal α) {i j : Nat} (h : i ≠ j) (x y : Option (Var α)) : put (put A i x) j y = put (put A j y) i x := by
  funext k; simp only [Spec.Vector.put]; split <;> split <;> simp_all

theorem put_same (A : Ideal α) (i : Nat) (x : Option (Var α)) : put A i x i = x := by simp [Spec.Vector.put]
theorem put_ne (A : Ideal α) {i j : Nat} (h : j ≠ i) (x : Option (Var α)) : put A i x j = A j := by simp [Spec.Vector.put, h]

/-- The room a push makes. -/
theorem room_ok {A : Ideal α} {w : World α} (I : Inv ty A w) {i : Nat} {v : Vec} {a : Var α} (hv : w.vars i = some v)
    (ha : A i = some a) :
    ((if v.len ≥ v.cap then extendSpace ty v else pure v) w.heap).Safe fun q =>
      (a.xs.length < a.cap → q = (v, w.heap)) ∧ q.1.len < q.1.cap ∧
      Inv ty (put A i (some ⟨a.xs, afterPush a.xs.length a.cap, a.alloc⟩)) ⟨q.2, bindVar w.vars i (some q.1)⟩ := by
  obtain ⟨v', hv', rv, hc, hl⟩ := I.get ha
  rw [hv] at hv'; cases hv'
  have hlen := rv.len
  by_cases hf : a.xs.length < a.cap
  · rw [if_neg (by omega)]
    simp only [Prog.pure_run, Out.safe_ok]
    refine ⟨fun _ => trivial, by omega, ?_⟩
    have e1 : bindVar w.vars i (some v) = w.vars := by
      funext j; simp only [bindVar]; split
      · subst_vars; exact hv.symm
      · rfl
    have e2 : put A i (some ⟨a.xs, afterPush a.xs.length a.cap, a.alloc⟩) = A := by
      funext j; simp only [Spec.Vector.put, afterPush, hf, if_true]; split
      · subst_vars; exact ha.symm
      · rfl
    rw [e1, e2]
    exact I
  · rw [if_pos (by omega)]
    refine (extendSpace_ok rv I.bal).mono ?_
    rintro ⟨v1, h1⟩ ⟨t, -⟩
    have hcap := t.cap
    have hle := rv.le
    simp only at t hcap ⊢
    have hg : grown v.cap = afterPush a.xs.length a.cap := by
      simp only [grown, afterPush, hf, if_false, doubled, hc]
    refine ⟨fun h => absurd h hf, ?_, ?_⟩
    · rw [hcap, t.rep.len]
      simp only [grown]
      split <;> omega
    · have st := t.step
      have e : v.ptr.toList = ptrs (w.vars i) := by rw [hv]; rfl
      rw [e] at st
      exact I.put (o' := some v1) st ⟨t.rep, hcap.trans hg, t.alloc.trans hl⟩

theorem step_give (op : GOp α) {A : Ideal α} {w : World α} (I : Inv ty A w) {r : Res α} {A' : Ideal α}
    (hs : giveStep false ty.size ty.dflt ty.mv op A = some (r, A')) : Agree ty (gstep ty op w) r A' := by
  cases op with
  | base op => exact step_ok op I hs
  | takeOut j k =>
    simp only [giveStep, Option.map_eq_some_iff] at hs
    obtain ⟨⟨x, A1⟩, h1, e⟩ := hs
    cases e
    obtain ⟨v, hv, hx, -⟩ := moveOut_some h1
    obtain ⟨u, hu, -⟩ := I.get hv
    obtain ⟨h', e1, I1⟩ := take_ok I h1 hu
    simp only [Agree, gstep, Prog.bind_run, run_var hu, Out.bind_ok, inHeap_run, e1, Prog.pure_run, Out.safe_ok, true_and]
    exact I1
  | setMove i p j k =>
    simp only [giveStep] at hs
    split at hs
    · cases hs
    simp only [Option.bind_eq_some_iff] at hs
    obtain ⟨⟨x, A1⟩, h1, h2⟩ := hs
    obtain ⟨v, hv, hx, -⟩ := moveOut_some h1
    obtain ⟨u, hu, -⟩ := I.get hv
    obtain ⟨h', e1, I1⟩ := take_ok I h1 hu
    have S := step_ok (ty := ty) (.set i p x) I1 (r := r) (A' := A') h2
    simp only at h2
    obtain ⟨b, r', b', hb, -, -⟩ := of_upd h2
    obtain ⟨vi, hvi, -⟩ := I1.get hb
    have hvi' : w.vars i = some vi := hvi
    have hr : r = .unit := by
      simp only [Spec.Vector.upd, hb, Option.bind_some, Option.map_eq_some_iff] at h2
      obtain ⟨q, h3, h4⟩ := h2
      split at h3
      · cases h3; cases h4; rfl
      · cases h3
    simp only [Agree, step, look, Prog.bind_run, var, hvi', Out.bind_ok, inHeap_run, Prog.pure_run] at S
    simp only [Agree, gstep, Prog.bind_run, var, hu, Out.bind_ok, inHeap_run, e1, hvi', Prog.pure_run]
    cases hc : indexSet vi p x h' with
    | ok q => rw [hc] at S; exact S
    | oom => trivial
    | div => rw [hc] at S; exact S.elim
    | panic => rw [hc] at S; exact S.elim
    | ub => rw [hc] at S; exact S.elim
  | pushMove i j k =>
    simp only [giveStep, Option.bind_eq_some_iff] at hs
    obtain ⟨⟨x, A1⟩, h1, h2⟩ := hs
    obtain ⟨v, hv, hx, rfl⟩ := moveOut_some h1
    obtain ⟨u, hu, -⟩ := I.get hv
    simp only at h2
    obtain ⟨b, r', b', hb, hf, hp⟩ := of_upd h2; cases hp
    obtain ⟨hg, hf⟩ := of_only hf; cases hf
    -- the vector pushed to, before the element is moved out
    obtain ⟨a, ha, hbl⟩ : ∃ a, A i = some a ∧ (b.xs.length = a.xs.length ∧ b.cap = a.cap ∧ b.alloc = a.alloc) := by
      by_cases e : i = j
      · subst e; rw [put_same] at hb; cases hb; exact ⟨v, hv, by simp⟩
      · rw [put_ne _ e] at hb; exact ⟨b, hb, rfl, rfl, rfl⟩
    obtain ⟨vi, hvi, ri, hci, hli⟩ := I.get ha
    simp only [gstep, Prog.bind_run, run_var hu, Out.bind_ok, change, run_var hvi, inHeap_run, pushBackMove, Agree]
    refine Out.Safe.bind (P := fun q : Vec × World α => Inv ty (put (put A j (some ⟨v.xs.set k (ty.mv x), v.cap, v.alloc⟩)) i
        (some ⟨b.xs ++ [x], afterPush b.xs.length b.cap, b.alloc⟩)) ⟨q.2.heap, bindVar w.vars i (some q.1)⟩ ∧ q.2.vars = w.vars) ?_ ?_
    rotate_left
    · rintro ⟨v2, w2⟩ ⟨I2, hw2⟩
      simp only at I2 hw2
      simp only [setVar, Out.bind_ok, Prog.pure_run, Out.safe_ok, true_and]
      rw [hw2]
      exact I2
    refine Out.Safe.bind (P := fun q : Vec × Heap α => Inv ty (put (put A j (some ⟨v.xs.set k (ty.mv x), v.cap, v.alloc⟩)) i
        (some ⟨b.xs ++ [x], afterPush b.xs.length b.cap, b.alloc⟩)) ⟨q.2, bindVar w.vars i (some q.1)⟩) ?_ ?_
    rotate_left
    · rintro ⟨v2, h2⟩ I2
      exact ⟨I2, rfl⟩
    refine (room_ok I hvi ha).bind ?_
    rintro ⟨v1, h1'⟩ ⟨hsame, hroom, I1⟩
    simp only at hsame hroom I1 ⊢
    -- the element is moved out of vector `j` as it is now
    have hu1 : bindVar w.vars i (some v1) j = some ⟨u.len, u.cap, u.ptr, u.alloc⟩ ∨ i = j := by
      by_cases e : i = j
      · exact .inr e
      · exact .inl (by rw [bindVar_ne _ _ (Ne.symm e)]; exact hu)
    obtain ⟨u1, hu1, hptr⟩ : ∃ u1, bindVar w.vars i (some v1) j = some u1 ∧ u1.ptr = u.ptr := by
      rcases hu1 with h | e
      · exact ⟨_, h, rfl⟩
      · subst e
        rw [bindVar_same]
        refine ⟨v1, rfl, ?_⟩
        have : a.xs.length < a.cap := by
          rcases hg with h | h
          · exact absurd rfl h
          · omega
        have e1 := hsame this
        rw [hu] at hvi; cases hvi
        simp only [Prod.mk.injEq] at e1
        rw [e1.1]
    have hm : moveOut ty.mv (put A i (some ⟨a.xs, afterPush a.xs.length a.cap, a.alloc⟩)) j k =
        some (x, put (put A j (some ⟨v.xs.set k (ty.mv x), v.cap, v.alloc⟩)) i
          (some ⟨b.xs, afterPush b.xs.length b.cap, b.alloc⟩)) := by
      by_cases e : i = j
      · subst e
        rw [hv] at ha; cases ha
        rw [put_same] at hb; cases hb
        simp only [moveOut, put_same, Option.bind_some, hx, Option.map_some, put_put, List.length_set]
      · rw [put_ne _ e, ha] at hb; cases hb
        simp only [moveOut, put_ne _ (Ne.symm e), hv, Option.bind_some, hx, Option.map_some, put_comm _ e]
    obtain ⟨h2', e2, I2⟩ := take_ok I1 hm hu1
    rw [hptr] at e2
    have S := step_ok (ty := ty) (.push i (.val x)) I2 (r := .unit)
      (A' := put (put A j (some ⟨v.xs.set k (ty.mv x), v.cap, v.alloc⟩)) i
        (some ⟨b.xs ++ [x], afterPush b.xs.length b.cap, b.alloc⟩)) (by
      have hlt : b.xs.length < afterPush b.xs.length b.cap := by
        obtain ⟨v1', hv1', rv1, hc1, -⟩ := I1.get (put_same A i _)
        simp only [bindVar_same, Option.some.injEq] at hv1'
        subst hv1'
        have := rv1.len
        simp only at hc1 this
        rw [hbl.1, hbl.2.1, ← hc1, ← this]
        exact hroom
      have hap : afterPush b.xs.length (afterPush b.xs.length b.cap) = afterPush b.xs.length b.cap := by
        rw [afterPush, if_pos hlt]
      simp only [specStep, argVal, Option.bind_some, Spec.Vector.upd, put_same, only, inside, true_or, or_true, if_true,
        Option.map_some, put_put, hap])
    simp only [e2, Out.bind_ok]
    simp only [Agree, step, argRef, Prog.bind_run, Prog.pure_run, Out.bind_ok, change, var, bindVar_same, inHeap_run, pushBack,
      if_neg (show ¬ v1.len ≥ v1.cap by omega), deref] at S
    cases hc : construct v1.ptr v1.len x h2' with
    | ok q =>
      rw [hc] at S
      simp only [Out.bind_ok, setVar, Prog.pure_run, Out.safe_ok, true_and] at S ⊢
      have e : bindVar (bindVar w.vars i (some v1)) i (some { v1 with len := v1.len + 1 }) =
          bindVar w.vars i (some { v1 with len := v1.len + 1 }) := by
        funext m; simp only [bindVar]; split <;> rfl
      rw [e] at S
      exact S
    | oom => trivial
    | div => rw [hc] at S; exact S.elim
    | panic => rw [hc] at S; exact S.elim
    | ub => rw [hc] at S; exact S.elim
  | insertMove i p j k =>
    simp only [giveStep, Option.bind_eq_some_iff] at hs
    obtain ⟨⟨x, A1⟩, h1, h2⟩ := hs
    obtain ⟨v, hv, hx, -⟩ := moveOut_some h1
    obtain ⟨u, hu, -⟩ := I.get hv
    obtain ⟨h', e1, I1⟩ := take_ok I h1 hu
    simp only at h2
    obtain ⟨b, r', b', hb, hf, hp⟩ := of_upd h2; cases hp
    have S := step_ok (ty := ty) (.insert i p (.val x)) I1 (r := r) (A' := put A1 i (some b')) (by
      simp only [specStep, argVal, Option.bind_some, Spec.Vector.upd, hb]
      rw [hf]; rfl)
    obtain ⟨vi, hvi, -⟩ := I1.get hb
    have hvi' : w.vars i = some vi := hvi
    simp only [Agree, step, argRef, Prog.bind_run, Prog.pure_run, Out.bind_ok, change', var, hvi', inHeap_run, Model.Vector.insert, deref] at S
    simp only [Agree, gstep, Prog.bind_run, run_var hu, Out.bind_ok, change', run_var hvi', inHeap_run, Model.VectorGive.insertMove, e1]
    exact S
  | emplaceMove i p j k =>
    simp only [giveStep, Option.bind_eq_some_iff] at hs
    obtain ⟨⟨x, A1⟩, h1, h2⟩ := hs
    obtain ⟨v, hv, hx, -⟩ := moveOut_some h1
    obtain ⟨u, hu, -⟩ := I.get hv
    obtain ⟨h', e1, I1⟩ := take_ok I h1 hu
    simp only at h2
    obtain ⟨b, r', b', hb, hf, hp⟩ := of_upd h2; cases hp
    have S := step_ok (ty := ty) (.emplace i p x) I1 (r := r) (A' := put A1 i (some b')) (by
      simp only [specStep, Spec.Vector.upd, hb, Option.bind_some]
      rw [hf]; rfl)
    obtain ⟨vi, hvi, -⟩ := I1.get hb
    have hvi' : w.vars i = some vi := hvi
    simp only [Agree, step, Prog.bind_run, Prog.pure_run, Out.bind_ok, change, var, hvi', inHeap_run] at S
    simp only [Agree, gstep, Prog.bind_run, run_var hu, Out.bind_ok, change, run_var hvi', inHeap_run, Model.VectorGive.emplaceMove, e1]
    exact S

theorem run_give (ops : List (GOp α)) {A : Ideal α} {w : World α} (I : Inv ty A w) {rs : List (Res α)} {A' : Ideal α}
    (hs : giveRun false ty.size ty.dflt ty.mv ops A = some (rs, A')) :
    (grun ty ops w).Safe fun q => q.1 = rs ∧ Inv ty A' q.2 := by
  induction ops generalizing A w rs with
  | nil => cases hs; exact ⟨rfl, I⟩
  | cons op ops ih =>
    simp only [giveRun, Option.bind_eq_some_iff, Option.map_eq_some_iff] at hs
    obtain ⟨⟨r, A1⟩, h1, ⟨rs', A2⟩, h2, e⟩ := hs
    cases e
    simp only [grun, Prog.bind_run]
    refine (step_give op I h1).bind ?_
    rintro ⟨r', w1⟩ ⟨hr, I1⟩
    simp only at hr I1 ⊢
    subst hr
    refine (ih I1 h2).bind ?_
    rintro ⟨rs1, w2⟩ ⟨hr, I2⟩
    simp only at hr I2 ⊢
    subst hr
    exact ⟨rfl, I2⟩

/-- Pushing an own element onto a full vector moves from released memory. -/
theorem pushMove_alias {h : Heap α} {v : Vec} {xs : List α} {k : Nat} (rp : Rep ty h v xs) (hb : Bal h) (hk : k < xs.length)
    (hfull : v.len = v.cap) : pushBackMove ty v v.ptr k h = .ub ∨ pushBackMove ty v v.ptr k h = .oom := by
  have hl := rp.len
  obtain ⟨b, hp⟩ : ∃ b, v.ptr = some b := by
    cases hp : v.ptr with
    | none =>
      have := rp.own; rw [hp] at this; simp only [Own] at this
      omega
    | some b => exact ⟨b, rfl⟩
  have key := extendSpace_ok rp hb
  simp only [pushBackMove, Prog.bind_run, if_pos (show v.len ≥ v.cap by omega)]
  cases hq : extendSpace ty v h with
  | ok p =>
    rw [hq] at key
    obtain ⟨t, hne⟩ := key
    left
    have hg : p.2.blocks b = none := t.step.gone b (by simp [hp]) (by
      intro hm; simp at hm; exact hne b hp hm)
    simp only [Out.bind_ok, take, hp, access_gone hg]
    rfl
  | oom => right; rfl
  | div => rw [hq] at key; exact key.elim
  | panic => rw [hq] at key; exact key.elim
  | ub => rw [hq] at key; exact key.elim

end Verif.Proof.VectorGive
