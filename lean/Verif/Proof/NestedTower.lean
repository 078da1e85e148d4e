import Verif.Proof.NestedWorld
import Verif.Proof.NestedOpt
import Verif.Proof.BStringWorld
/-! # Nested vectors: any depth, any program -/
namespace Verif.Proof.Nested
open Verif Verif.Model.Mem Verif.Proof.Mem Verif.Model.Nested Verif.Spec.Nested
open Verif.Model.Vector (Vec Vec.blank dfltAlloc moveImpl bindVar)
open Verif.Spec.Vector (Var specStep ask born only argVal inside afterPush)

variable {α : Type}

theorem quiet_ok {ety : ElemTy α} {op : Model.Vector.Op α} {A A' : Nat → Option (Var α)} {w : Model.Vector.World α}
    {r : Model.Vector.Res α} (I : Vector.Inv ety A w) (hs : specStep false ety.size ety.dflt op A = some (r, A')) :
    (quiet (Model.Vector.step ety op) w).Safe fun q => Vector.Inv ety A' q.2 := by
  simp only [quiet, Prog.bind_run]
  exact (Vector.step_ok op I hs).bind fun q hq => hq.2

/-- a constructor depends on nothing but its arguments -/
theorem make_local (size : Nat) (dflt : α) (m : BMake α) : ∃ o : Option (Var α), ∀ i A, A i = none →
    specStep false size dflt (m.op i) A = o.map fun x => (.unit, place A i (some x)) := by
  cases m with
  | dflt => exact ⟨some ⟨[], 2, 0⟩, fun i A h => by simp [BMake.op, specStep, born, h]; rfl⟩
  | alloc a => exact ⟨some ⟨[], 0, a⟩, fun i A h => by simp [BMake.op, specStep, born, h]; rfl⟩
  | list xs a =>
    refine ⟨if xs.length * size < wordSize then some ⟨xs, xs.length, a⟩ else none, fun i A h => ?_⟩
    simp only [BMake.op, specStep, born, only, h, Option.isNone_none, if_true, Bool.false_eq_true, false_or]
    split <;> rfl
  | fill n x a =>
    refine ⟨if n * size < wordSize then some ⟨List.replicate n x, n, a⟩ else none, fun i A h => ?_⟩
    simp only [BMake.op, specStep, born, only, h, Option.isNone_none, if_true, Bool.false_eq_true, false_or, argVal,
      Option.bind_some]
    split <;> rfl

/-- a call on one vector depends on nothing but that vector -/
theorem call_local (size : Nat) (dflt : α) (c : BCall α) : ∃ f : Var α → Option (Model.Vector.Res α × Var α), ∀ i A v,
    A i = some v → specStep false size dflt (c.op i) A = (f v).map fun p => (p.1, place A i (some p.2)) := by
  have ups : ∀ (f : Var α → Option (Model.Vector.Res α × Var α)) i A v, A i = some v →
      Spec.Vector.upd A i f = (f v).map fun p => (p.1, place A i (some p.2)) := by
    intro f i A v h
    simp only [Spec.Vector.upd, h, Option.bind_some]; rfl
  have asks : ∀ (g : Var α → Option (Model.Vector.Res α)) i A v, A i = some v →
      ask A i g = ((g v).map fun r => (r, v)).map fun p => (p.1, place A i (some p.2)) := by
    intro g i A v h
    simp only [ask, h, Option.bind_some, Option.map_map]
    congr 1
    funext r
    simp only [Function.comp_apply, place_self A h]
  cases c with
  | size => exact ⟨_, fun i A v h => by simp only [BCall.op, specStep]; exact asks _ i A v h⟩
  | capacity => exact ⟨_, fun i A v h => by simp only [BCall.op, specStep]; exact asks _ i A v h⟩
  | get k => exact ⟨_, fun i A v h => by simp only [BCall.op, specStep]; exact asks _ i A v h⟩
  | «at» k => exact ⟨_, fun i A v h => by simp only [BCall.op, specStep]; exact asks _ i A v h⟩
  | front => exact ⟨_, fun i A v h => by simp only [BCall.op, specStep]; exact asks _ i A v h⟩
  | back => exact ⟨_, fun i A v h => by simp only [BCall.op, specStep]; exact asks _ i A v h⟩
  | collect => exact ⟨_, fun i A v h => by simp only [BCall.op, specStep]; exact asks _ i A v h⟩
  | reserve n => exact ⟨_, fun i A v h => by simp only [BCall.op, specStep]; exact ups _ i A v h⟩
  | clear => exact ⟨_, fun i A v h => by simp only [BCall.op, specStep]; exact ups _ i A v h⟩
  | pop => exact ⟨_, fun i A v h => by simp only [BCall.op, specStep]; exact ups _ i A v h⟩
  | erase p => exact ⟨_, fun i A v h => by simp only [BCall.op, specStep]; exact ups _ i A v h⟩
  | set k x => exact ⟨_, fun i A v h => by simp only [BCall.op, specStep]; exact ups _ i A v h⟩
  | push x =>
    exact ⟨_, fun i A v h => by
      simp only [BCall.op, specStep, argVal, Option.bind_some, inside]; exact ups _ i A v h⟩
  | insert p x =>
    exact ⟨_, fun i A v h => by simp only [BCall.op, specStep, argVal, Option.bind_some]; exact ups _ i A v h⟩
  | pushElem k =>
    refine ⟨fun v => v.xs[k]?.bind fun x => only false (True = False ∨ v.xs.length < v.cap)
      (some (.unit, ⟨v.xs ++ [x], afterPush v.xs.length v.cap, v.alloc⟩)), fun i A v h => ?_⟩
    simp only [BCall.op, specStep, argVal, h, Option.bind_some, inside, beq_self_eq_true]
    cases hx : v.xs[k]? with
    | none => rfl
    | some x =>
      simp only [Option.bind_some]
      rw [ups _ i A v h]
      simp [only]

theorem make_spec {size : Nat} {dflt : α} {m : BMake α} {A : Nat → Option (Var α)} {n : Nat} {x : Var α} (hn : A n = none)
    (hm : (valueMeaning size dflt).val m = some x) :
    specStep false size dflt (m.op n) A = some (.unit, place A n (some x)) := by
  obtain ⟨o, h⟩ := make_local size dflt m
  rw [h n A hn]
  simp only [valueMeaning, h 0 (alone none) rfl] at hm
  cases o with
  | none => cases hm
  | some y =>
    simp only [Option.map_some, Option.bind_some, place_same, Option.some.injEq] at hm
    subst hm; rfl

theorem call_spec {size : Nat} {dflt : α} {c : BCall α} {A : Nat → Option (Var α)} {n : Nat} {x y : Var α}
    {r : Model.Vector.Res α} (hn : A n = some x) (hc : (valueMeaning size dflt).run c x = some (r, y)) :
    specStep false size dflt (c.op n) A = some (r, place A n (some y)) := by
  obtain ⟨f, h⟩ := call_local size dflt c
  rw [h n A x hn]
  simp only [valueMeaning, h 0 (alone (some x)) x rfl] at hc
  cases hf : f x with
  | none => rw [hf] at hc; cases hc
  | some p =>
    rw [hf] at hc
    simp only [Option.map_some, Option.bind_some, place_same, Option.some.injEq, Prod.mk.injEq] at hc
    obtain ⟨rfl, rfl⟩ := hc
    rfl

/-- Vectors of values keep their promises. -/
def valueLaw (ety : ElemTy α) : Law (valueVectorCls ety) (valueMeaning ety.size ety.dflt) where
  Inv := Vector.Inv ety
  start := Vector.inv_init
  make I hn hm := quiet_ok I (make_spec hn hm)
  copy {A s d e x} I hd he _ := quiet_ok I (r := .unit) (by
    simp only [specStep, he, Option.bind_some, born, hd, Option.isNone_none, if_true]; rfl)
  copyDead {A s d e} I he := by
    simp only [valueVectorCls, quiet, Model.Vector.step, Prog.bind_run, Model.Vector.var, I.get_none he, Out.bind_ub]
  move {A s d e x} I hd he := quiet_ok I (r := .unit) (by
    simp only [specStep, he, Option.bind_some, hd, Option.isNone_none, if_true]; rfl)
  copyAssign {A s d e t x} I hne hd he _ _ := quiet_ok I (r := .unit) (by
    simp only [specStep, he, Option.bind_some, Spec.Vector.upd, hd, if_neg hne, Option.map_some]; rfl)
  copySelf {A s d t} I hd _ := quiet_ok I (r := .unit) (by
    simp only [specStep, Option.bind_some, Spec.Vector.upd, hd, if_true, Option.map_some, Option.some.injEq, Prod.mk.injEq, true_and]
    exact place_self A hd)
  moveAssign {A s d e t x} I hne hd he _ := quiet_ok I (r := .unit) (by
    simp only [specStep, he, Option.bind_some, hd, if_neg hne]; rfl)
  moveSelf {A s d t} I hd := quiet_ok I (r := .unit) (by
    simp only [specStep, Option.bind_some, hd, if_true])
  drop {A s n x} I hn := quiet_ok I (r := .unit) (by
    simp only [specStep, Option.bind_some, hn]; rfl)
  call I hn hc := Vector.step_ok _ I (call_spec hn hc)
  newOk _ := rfl
  cpOk _ := rfl
  idle := by
    intro A w I hA
    refine I.bal.empty fun b => ?_
    cases h : w.heap.blocks b with
    | none => rfl
    | some blk =>
      obtain ⟨i, v, hv, _⟩ := I.cover b blk h
      rw [I.get_none (hA i)] at hv; cases hv

/-! ## Linked lists -/

theorem hushed_ok {cfg : Model.LL.Cfg α} {op : Model.LL.Op α} {A A' : Nat → Option (Spec.LL.Var α)} {w : Model.LL.World α}
    {r : Model.LL.Res α} (I : LInv cfg A w) (hs : Spec.LL.specStep false cfg.dbl cfg.dflt op A = some (r, A')) :
    (hushed (Model.LL.step cfg op) w).Safe fun q => LInv cfg A' q.2 := by
  simp only [hushed, Prog.bind_run]
  exact (lstep_ok I hs).bind fun q hq => hq.2

/-- a constructor depends on nothing but its arguments, and the list it makes is not moved from -/
theorem lmake_local (dbl : Bool) (dflt : α) (m : LMake α) : ∃ o : Spec.LL.Var α, o.items.isSome = true ∧ ∀ i A, A i = none →
    Spec.LL.specStep false dbl dflt (m.op i) A = some (.unit, place A i (some o)) := by
  cases m with
  | alloc a => exact ⟨_, rfl, fun i A h => by simp [LMake.op, Spec.LL.specStep, Spec.LL.born, Spec.LL.needs, h]; rfl⟩
  | fill n x a => exact ⟨_, rfl, fun i A h => by simp [LMake.op, Spec.LL.specStep, Spec.LL.born, Spec.LL.needs, Spec.LL.argVal, h]; rfl⟩
  | count n a => exact ⟨_, rfl, fun i A h => by simp [LMake.op, Spec.LL.specStep, Spec.LL.born, Spec.LL.needs, h]; rfl⟩
  | range xs a => exact ⟨_, rfl, fun i A h => by simp [LMake.op, Spec.LL.specStep, Spec.LL.born, Spec.LL.needs, h]; rfl⟩

/-- What a call does depends on nothing but the list `v` it is made on. -/
def Local (f : Spec.LL.Var α → Option (Model.LL.Res α × Spec.LL.Var α))
    (g : Nat → (Nat → Option (Spec.LL.Var α)) → Option (Model.LL.Res α × (Nat → Option (Spec.LL.Var α)))) : Prop :=
  ∀ i A v, A i = some v → g i A = (f v).map fun p => (p.1, place A i (some p.2))

theorem local_edit (f : List α → Option (Model.LL.Res α × List α)) :
    Local (fun v => v.items.bind fun xs => (f xs).map fun p => (p.1, ⟨some p.2, v.alloc⟩)) fun i A => Spec.LL.edit A i f := by
  intro i A v h
  simp only [Spec.LL.edit, h, Option.bind_some]
  cases v.items with
  | none => rfl
  | some xs => simp only [Option.bind_some, Option.map_map]; rfl

theorem local_ask (f : List α → Option (Model.LL.Res α)) :
    Local (fun v => v.items.bind fun xs => (f xs).map fun r => (r, v)) fun i A => Spec.LL.ask A i f := by
  intro i A v h
  simp only [Spec.LL.ask, h, Option.bind_some]
  cases v.items with
  | none => rfl
  | some xs =>
    simp only [Option.bind_some, Option.map_map]
    congr 1
    funext r
    simp only [Function.comp_apply, place_self A h]

theorem local_needs {g : Prop} [Decidable g] {f k} (h : Local (α := α) f k) :
    Local (fun v => Spec.LL.needs g (f v)) fun i A => Spec.LL.needs g (k i A) := by
  intro i A v hv
  simp only [Spec.LL.needs]
  split
  · exact h i A v hv
  · rfl

theorem local_elem (k : Nat) {f : α → Spec.LL.Var α → Option (Model.LL.Res α × Spec.LL.Var α)}
    {g : α → Nat → (Nat → Option (Spec.LL.Var α)) → Option (Model.LL.Res α × (Nat → Option (Spec.LL.Var α)))} (h : ∀ x, Local (f x) (g x)) :
    Local (fun v => (v.items.bind fun xs => xs[k]?).bind fun x => f x v) fun i A => (Spec.LL.argVal A (.elem i k)).bind fun x => g x i A := by
  intro i A v hv
  simp only [Spec.LL.argVal, Spec.LL.contents, hv, Option.bind_some]
  cases v.items.bind fun xs => xs[k]? with
  | none => rfl
  | some x => exact h x i A v hv

/-- a call on one list depends on nothing but that list -/
theorem lcall_local (dbl : Bool) (dflt : α) (c : LCall α) : ∃ f, Local f fun i A => Spec.LL.specStep false dbl dflt (c.op i) A := by
  cases c with
  | moved =>
    refine ⟨fun v => some (.bool v.items.isNone, v), fun i A v h => ?_⟩
    simp only [LCall.op, Spec.LL.specStep, h, Option.bind_some, Option.map_some, place_self A h]
  | drain es =>
    refine ⟨fun v => v.items.bind fun xs => Spec.LL.needs (dbl = true ∨ es.all (· == .front) = true) <|
      some (.opts (Spec.takes es xs).1, ⟨none, v.alloc⟩), fun i A v h => ?_⟩
    simp only [LCall.op, Spec.LL.specStep, h, Option.bind_some]
    cases v.items with
    | none => rfl
    | some xs =>
      simp only [Option.bind_some, Spec.LL.needs]
      split <;> rfl
  | removeElem eq k =>
    refine ⟨fun v => (v.items.bind fun xs => xs[k]?).bind fun x => v.items.bind fun xs =>
      (Spec.LL.only false ((k + 1 == xs.length || (xs[k]?.any fun x => !eq x x)) = true) <|
        some (Model.LL.Res.num (xs.filter fun y => eq x y).length, xs.filter fun y => !eq x y)).map fun p =>
          (p.1, ⟨some p.2, v.alloc⟩), fun i A v h => ?_⟩
    simp only [LCall.op, Spec.LL.specStep, Spec.LL.outlives, bne_self_eq_false, Bool.false_or]
    exact local_elem k (fun x => local_edit _) i A v h
  | pushFrontElem k => exact ⟨_, local_elem k fun x => local_edit _⟩
  | pushBackElem k => exact ⟨_, local_needs (local_elem k fun x => local_edit _)⟩
  | clear => exact ⟨_, local_edit _⟩
  | assign xs => exact ⟨_, local_edit _⟩
  | set p x => exact ⟨_, local_edit _⟩
  | insertAfter p x => exact ⟨_, local_edit _⟩
  | insertAfterFill p n x => exact ⟨_, local_edit _⟩
  | insertAfterRange p xs => exact ⟨_, local_edit _⟩
  | eraseAfter p => exact ⟨_, local_edit _⟩
  | eraseAfterRange lo hi => exact ⟨_, local_edit _⟩
  | insert p x => exact ⟨_, local_needs (local_edit _)⟩
  | insertFill p n x => exact ⟨_, local_needs (local_edit _)⟩
  | insertRange p xs => exact ⟨_, local_needs (local_edit _)⟩
  | erase p => exact ⟨_, local_needs (local_edit _)⟩
  | eraseRange lo hi => exact ⟨_, local_needs (local_edit _)⟩
  | pushFront x => exact ⟨_, local_edit _⟩
  | popFront => exact ⟨_, local_edit _⟩
  | pushBack x => exact ⟨_, local_needs (local_edit _)⟩
  | popBack => exact ⟨_, local_needs (local_edit _)⟩
  | resize n => exact ⟨_, local_edit _⟩
  | resizeFill n x => exact ⟨_, local_edit _⟩
  | remove eq x =>
    exact ⟨_, local_edit fun xs => some (.num (xs.filter fun y => eq x y).length, xs.filter fun y => !eq x y)⟩
  | removeIf p => exact ⟨_, local_edit _⟩
  | reverse => exact ⟨_, local_edit _⟩
  | unique p => exact ⟨_, local_edit _⟩
  | sort less => exact ⟨_, local_edit _⟩
  | front => exact ⟨_, local_ask _⟩
  | frontUnchecked => exact ⟨_, local_ask _⟩
  | back => exact ⟨_, local_needs (local_ask _)⟩
  | backUnchecked => exact ⟨_, local_needs (local_ask _)⟩
  | size => exact ⟨_, local_ask _⟩
  | empty => exact ⟨_, local_ask _⟩
  | get p => exact ⟨_, local_ask _⟩
  | traverse => exact ⟨_, local_ask _⟩
  | traverseBack => exact ⟨_, local_needs (local_ask _)⟩
  | iter es => exact ⟨_, local_ask _⟩
  | print shw => exact ⟨_, local_ask _⟩

theorem lcall_spec {dbl : Bool} {dflt : α} {c : LCall α} {A : Nat → Option (Spec.LL.Var α)} {n : Nat} {x y : Spec.LL.Var α}
    {r : Model.LL.Res α} (hn : A n = some x) (hc : (listMeaning dbl dflt).run c x = some (r, y)) :
    Spec.LL.specStep false dbl dflt (c.op n) A = some (r, place A n (some y)) := by
  obtain ⟨f, h⟩ := lcall_local dbl dflt c
  have h1 := h n A x hn
  have h2 := h 0 (alone (some x)) x rfl
  simp only at h1 h2
  rw [h1]
  simp only [listMeaning, h2] at hc
  cases hf : f x with
  | none => rw [hf] at hc; cases hc
  | some p =>
    rw [hf] at hc
    simp only [Option.map_some, Option.bind_some, place_same, Option.some.injEq, Prod.mk.injEq] at hc
    obtain ⟨rfl, rfl⟩ := hc
    rfl

theorem lmake_val {dbl : Bool} {dflt : α} {m : LMake α} {x : Spec.LL.Var α} (hm : (listMeaning dbl dflt).val m = some x) :
    x.items.isSome = true ∧ ∀ (A : Nat → Option (Spec.LL.Var α)) n, A n = none →
      Spec.LL.specStep false dbl dflt (m.op n) A = some (.unit, place A n (some x)) := by
  obtain ⟨o, ho, h⟩ := lmake_local dbl dflt m
  simp only [listMeaning, h 0 (alone none) rfl, Option.bind_some, place_same, Option.some.injEq] at hm
  subst hm
  exact ⟨ho, fun A n hn => h n A hn⟩

/-- Linked lists of values keep their promises. -/
def listLaw (cfg : Model.LL.Cfg α) : Law (listCls cfg) (listMeaning cfg.dbl cfg.dflt) where
  Inv := LInv cfg
  start := ⟨_, LL.inv_init, rfl⟩
  make I hn hm := hushed_ok I ((lmake_val hm).2 _ _ hn)
  copy {A s d e x} I hd he hok := hushed_ok I (r := .unit) (by
    obtain ⟨ys, hy⟩ := Option.isSome_iff_exists.1 hok
    obtain ⟨it, al⟩ := x
    simp only at hy; subst hy
    simp only [Spec.LL.specStep, he, Option.bind_some, Spec.LL.born, Spec.LL.needs, hd, Option.isNone_none, if_true]; rfl)
  copyDead {A s d e} I he := by
    obtain ⟨C, I, rfl⟩ := I
    have : s.vars e = none := by
      rw [I.vars e]
      simp only [LL.ideal, Option.map_eq_none_iff] at he
      rw [he]; rfl
    simp only [listCls, hushed, Model.LL.step, Prog.bind_run, Model.LL.var, this, Out.bind_ub]
  move {A s d e x} I hd he := hushed_ok I (r := .unit) (by
    simp only [Spec.LL.specStep, he, Option.bind_some, hd, Option.isNone_none, if_true, Spec.LL.needs]; rfl)
  copyAssign {A s d e t x} I hne hd he hok _ := hushed_ok I (r := .unit) (by
    obtain ⟨ys, hy⟩ := Option.isSome_iff_exists.1 hok
    obtain ⟨it, al⟩ := x
    simp only at hy; subst hy
    simp only [Spec.LL.specStep, he, Option.bind_some, hd, if_neg hne]; rfl)
  copySelf {A s d t} I hd hok := hushed_ok I (r := .unit) (by
    obtain ⟨ys, hy⟩ := Option.isSome_iff_exists.1 hok
    simp only [Spec.LL.specStep, Option.bind_some, hd, hy, if_true])
  moveAssign {A s d e t x} I hne hd he _ := hushed_ok I (r := .unit) (by
    simp only [Spec.LL.specStep, he, Option.bind_some, hd, if_neg hne]; rfl)
  moveSelf {A s d t} I hd := hushed_ok I (r := .unit) (by
    simp only [Spec.LL.specStep, Option.bind_some, hd, if_true])
  drop {A s n x} I hn := hushed_ok I (r := .unit) (by
    simp only [Spec.LL.specStep, Option.bind_some, hn]; rfl)
  call I hn hc := lstep_ok I (lcall_spec hn hc)
  newOk hm := (lmake_val hm).1
  cpOk h := h
  idle := by
    rintro A w ⟨C, I, rfl⟩ hA
    have := I.ended (fun i => by simpa [LL.ideal] using hA i) LL.amount_none
    exact ⟨this.1, this.2⟩

/-! ## Strings -/

theorem tstep_ok {cfg : Model.BStr.Cfg} {op : Model.BStr.Op} {A A' : Spec.BStr.Ideal} {w : Model.BStr.World}
    {r : Model.BStr.Res} (I : BStr.Inv w A) (hs : Spec.BStr.specStep false cfg.lenient cfg.enc op A = some (r, A')) :
    (Model.BStr.step cfg op w).Safe fun q => q.1 = r ∧ BStr.Inv q.2 A' := by
  have h := BStr.step_ok op I hs
  cases e : Model.BStr.step cfg op w with
  | ok q => rw [e] at h; exact h
  | oom => trivial
  | div => rw [e] at h; exact h.elim
  | panic => rw [e] at h; exact h.elim
  | ub => rw [e] at h; exact h.elim

theorem muted_ok {cfg : Model.BStr.Cfg} {op : Model.BStr.Op} {A A' : Spec.BStr.Ideal} {w : Model.BStr.World}
    {r : Model.BStr.Res} (I : BStr.Inv w A) (hs : Spec.BStr.specStep false cfg.lenient cfg.enc op A = some (r, A')) :
    (muted (Model.BStr.step cfg op) w).Safe fun q => BStr.Inv q.2 A' := by
  simp only [muted, Prog.bind_run]
  exact (tstep_ok I hs).bind fun q hq => hq.2

theorem tmake_spec {enc : Model.BStr.Enc} {m : TMake} {x : List UInt8} (hm : (textMeaning enc).val m = some x)
    {A : Spec.BStr.Ideal} {n : Nat} (hn : A n = none) :
    Spec.BStr.specStep false true enc (m.op n) A = some (.unit, place A n (some x)) := by
  cases m with
  | alloc a =>
    simp only [textMeaning, TMake.op, Spec.BStr.specStep, alone, if_true, Option.bind_some, Spec.BStr.put, Option.some.injEq] at hm
    subst hm
    simp only [TMake.op, Spec.BStr.specStep, hn, if_true]; rfl
  | lit bs a =>
    by_cases hb : bs = []
    · simp [textMeaning, TMake.op, Spec.BStr.specStep, alone, hb] at hm
    · simp [textMeaning, TMake.op, Spec.BStr.specStep, alone, hb, Spec.BStr.put] at hm
      subst hm
      simp only [TMake.op, Spec.BStr.specStep, hn, true_and, if_pos hb, ne_eq, not_false_eq_true]; rfl

/-- a call on one string depends on nothing but that string -/
theorem tcall_local (enc : Model.BStr.Enc) (c : TCall) : ∃ f : List UInt8 → Option (Model.BStr.Res × List UInt8), ∀ i A v,
    A i = some v → Spec.BStr.specStep false true enc (c.op i) A = (f v).map fun p => (p.1, place A i (some p.2)) := by
  cases c with
  | pushBack ch => exact ⟨fun v => some (.unit, v ++ ch), fun i A v h => by simp only [TCall.op, Spec.BStr.specStep, h]; rfl⟩
  | insert ch idx =>
    refine ⟨fun v => if enc = .utf8 ∧ Spec.BStr.boundary v idx = true then some (.unit, Spec.BStr.insertAt v ch idx) else none, fun i A v h => ?_⟩
    simp only [TCall.op, Spec.BStr.specStep, h]
    split <;> rfl
  | popBack =>
    refine ⟨fun v => if enc = .ascii ∧ v.length ≠ 17 then some (.opt (v.getLast?.map fun b => [b]), v.dropLast) else none, fun i A v h => ?_⟩
    simp only [TCall.op, Spec.BStr.specStep, h, Bool.false_or, decide_eq_true_eq]
    split <;> rfl
  | size =>
    refine ⟨fun v => some (.num v.length, v), fun i A v h => ?_⟩
    simp only [TCall.op, Spec.BStr.specStep, h, Option.map_some, place_self A h]
  | isCharBoundary idx =>
    refine ⟨fun v => if enc = .utf8 then some (.bool (Spec.BStr.boundary v idx), v) else none, fun i A v h => ?_⟩
    simp only [TCall.op, Spec.BStr.specStep, h]
    split
    · simp only [Option.map_some, place_self A h]
    · rfl
  | chars =>
    refine ⟨fun v => if enc = .ascii then some (.chars (v.map fun b => [b]), v) else none, fun i A v h => ?_⟩
    simp only [TCall.op, Spec.BStr.specStep, h]
    split
    · simp only [Option.map_some, place_self A h]
    · rfl
  | print =>
    refine ⟨fun v => if v.length ≠ 16 then some (.text v, v) else none, fun i A v h => ?_⟩
    simp only [TCall.op, Spec.BStr.specStep, h, Bool.false_or, decide_eq_true_eq]
    split
    · simp only [Option.map_some, place_self A h]
    · rfl

theorem tcall_spec {enc : Model.BStr.Enc} {c : TCall} {A : Spec.BStr.Ideal} {n : Nat} {x y : List UInt8}
    {r : Model.BStr.Res} (hn : A n = some x) (hc : (textMeaning enc).run c x = some (r, y)) :
    Spec.BStr.specStep false true enc (c.op n) A = some (r, place A n (some y)) := by
  obtain ⟨f, h⟩ := tcall_local enc c
  rw [h n A x hn]
  simp only [textMeaning, h 0 (alone (some x)) x rfl] at hc
  cases hf : f x with
  | none => rw [hf] at hc; cases hc
  | some p =>
    rw [hf] at hc
    simp only [Option.map_some, Option.bind_some, place_same, Option.some.injEq, Prod.mk.injEq] at hc
    obtain ⟨rfl, rfl⟩ := hc
    rfl

/-- Strings keep their promises. -/
def textLaw (enc : Model.BStr.Enc) (refuse : Nat → Nat → Bool) : Law (textCls (textCfg enc refuse)) (textMeaning enc) where
  Inv A w := BStr.Inv w A
  start := BStr.inv_init
  make I hn hm := muted_ok I (tmake_spec hm hn)
  copy {A s d e x} I hd he _ := muted_ok I (r := .unit) (by
    simp only [Spec.BStr.specStep, he, hd]; rfl)
  copyDead {A s d e} I he := by
    simp only [textCls, muted, Model.BStr.step, Prog.bind_run, Model.BStr.var, I.dom e he, Out.bind_ub]
  move {A s d e x} I hd he := muted_ok I (r := .unit) (by
    simp only [Spec.BStr.specStep, he, hd, textCfg, Bool.or_true, if_true]; rfl)
  copyAssign {A s d e t x} I hne hd he _ hin := muted_ok I (r := .unit) (by
    have : Spec.BStr.not16 t x = true := by simpa [Spec.BStr.not16, textMeaning] using hin
    simp only [Spec.BStr.specStep, he, hd, textCfg, this, Bool.and_true, Bool.or_true, Bool.true_or, if_true]; rfl)
  copySelf {A s d t} I hd _ := muted_ok I (r := .unit) (by
    simp only [Spec.BStr.specStep, hd, beq_self_eq_true, Bool.or_true, Bool.true_or, if_true, BStr.put_self hd])
  moveAssign {A s d e t x} I hne hd he hin := muted_ok I (r := .unit) (by
    have : Spec.BStr.not16 t x = true := by simpa [Spec.BStr.not16, textMeaning] using hin
    simp only [Spec.BStr.specStep, he, hd, if_neg hne, textCfg, this, Bool.and_true, Bool.or_true, if_true]; rfl)
  moveSelf {A s d t} I hd := muted_ok I (r := .unit) (by
    simp only [Spec.BStr.specStep, hd, if_true])
  drop {A s n x} I hn := muted_ok I (r := .unit) (by
    simp only [Spec.BStr.specStep, hn]; rfl)
  call I hn hc := tstep_ok I (tcall_spec hn hc)
  newOk _ := rfl
  cpOk _ := rfl
  idle := by
    intro A w I hA
    refine I.bal.empty fun b => ?_
    cases h : w.heap.blk b with
    | none => rfl
    | some k =>
      obtain ⟨i, s, hs, _⟩ := I.cover b (by rw [h]; exact fun h => by cases h)
      rw [I.dom i (hA i)] at hs; cases hs

/-- some value; which one plays no role -/
def blank : (s : Shape α) → Val s
  | .values _ => (⟨[], 0, 0⟩ : Var α)
  | .lists _ => (⟨none, 0⟩ : Spec.LL.Var α)
  | .texts _ _ => ([] : List UInt8)
  | .vector _ s => (⟨[], 0, 0⟩ : Var (Val s))
  | .linked _ s => (⟨none, 0⟩ : Spec.LL.Var (Val s))
  | .option s => (none : Option (Val s))

/-- Vectors and lists of vectors and lists of ... of values keep their promises. -/
def law : (s : Shape α) → Law s.cls (meaning s)
  | .values ety => valueLaw ety
  | .lists cfg => listLaw cfg
  | .texts enc refuse => textLaw enc refuse
  | .vector ty s => vectorLaw ty (law s)
  | .linked cfg s => linkedLaw cfg (blank s) (law s)
  | .option s => optionLaw (law s)

/-! ## Programs -/

section
variable {S : Sig} {σ V : Type} {C : Cls S σ} {μ : Meaning S V}

theorem nstep_ok (L : Law C μ) {op : NOp S} {A A' : Nat → Option V} {s : σ} {r : Option S.Ret} (I : L.Inv A s)
    (hs : nspecStep μ op A = some (r, A')) : (nstep C op s).Safe fun q => q.1 = r ∧ L.Inv A' q.2 := by
  cases op with
  | make i m =>
    simp only [nspecStep] at hs
    split at hs
    · rename_i hn
      simp only [Option.map_eq_some_iff, Prod.mk.injEq] at hs
      obtain ⟨x, hx, rfl, rfl⟩ := hs
      exact (L.make I (by simpa using hn) hx).bind fun q hq => ⟨rfl, hq⟩
    · cases hs
  | copy i j =>
    simp only [nspecStep] at hs
    split at hs
    · rename_i hn
      simp only [Option.bind_eq_some_iff] at hs
      obtain ⟨x, hx, hs⟩ := hs
      split at hs
      swap; · cases hs
      rename_i hok
      simp only [Option.some.injEq, Prod.mk.injEq] at hs
      obtain ⟨rfl, rfl⟩ := hs
      exact (L.copy I (by simpa using hn) hx hok).bind fun q hq => ⟨rfl, hq⟩
    · cases hs
  | move i j =>
    simp only [nspecStep] at hs
    split at hs
    · rename_i hn
      simp only [Option.map_eq_some_iff, Prod.mk.injEq] at hs
      obtain ⟨x, hx, rfl, rfl⟩ := hs
      exact (L.move I (by simpa using hn) hx).bind fun q hq => ⟨rfl, hq⟩
    · cases hs
  | copyAssign i j =>
    simp only [nspecStep, Option.bind_eq_some_iff] at hs
    obtain ⟨t, ht, x, hx, hs⟩ := hs
    split at hs
    · cases hs
    rename_i hok
    have hok : μ.cpOk x = true := by simpa using hok
    split at hs
    · rename_i e; subst e
      have hok' : μ.cpOk t = true := by rw [ht] at hx; injection hx with e; rw [e]; exact hok
      simp only [Option.some.injEq, Prod.mk.injEq] at hs
      obtain ⟨rfl, rfl⟩ := hs
      exact (L.copySelf I ht hok').bind fun q hq => ⟨rfl, hq⟩
    · rename_i hne
      split at hs
      · cases hs
      rename_i hin
      simp only [Option.some.injEq, Prod.mk.injEq] at hs
      obtain ⟨rfl, rfl⟩ := hs
      exact (L.copyAssign I hne ht hx hok (by simpa using hin)).bind fun q hq => ⟨rfl, hq⟩
  | moveAssign i j =>
    simp only [nspecStep, Option.bind_eq_some_iff] at hs
    obtain ⟨t, ht, x, hx, hs⟩ := hs
    split at hs
    · rename_i e; subst e
      simp only [Option.some.injEq, Prod.mk.injEq] at hs
      obtain ⟨rfl, rfl⟩ := hs
      exact (L.moveSelf I ht).bind fun q hq => ⟨rfl, hq⟩
    · rename_i hne
      split at hs
      · cases hs
      rename_i hin
      simp only [Option.some.injEq, Prod.mk.injEq] at hs
      obtain ⟨rfl, rfl⟩ := hs
      exact (L.moveAssign I hne ht hx (by simpa using hin)).bind fun q hq => ⟨rfl, hq⟩
  | drop i =>
    simp only [nspecStep, Option.map_eq_some_iff, Prod.mk.injEq] at hs
    obtain ⟨x, hx, rfl, rfl⟩ := hs
    exact (L.drop I hx).bind fun q hq => ⟨rfl, hq⟩
  | call i c =>
    simp only [nspecStep, Option.bind_eq_some_iff, Option.map_eq_some_iff, Prod.mk.injEq] at hs
    obtain ⟨x, hx, ⟨r0, y⟩, hr, rfl, rfl⟩ := hs
    exact (L.call I hx hr).bind fun q hq => ⟨by rw [← hq.1], hq.2⟩

theorem nrun_ok (L : Law C μ) (ops : List (NOp S)) {A A' : Nat → Option V} {s : σ} {rs : List (Option S.Ret)} (I : L.Inv A s)
    (hs : nspecRun μ ops A = some (rs, A')) : (nrun C ops s).Safe fun q => q.1 = rs ∧ L.Inv A' q.2 := by
  induction ops generalizing A s rs with
  | nil =>
    simp only [nspecRun, Option.some.injEq, Prod.mk.injEq] at hs
    obtain ⟨rfl, rfl⟩ := hs
    exact ⟨rfl, I⟩
  | cons op ops ih =>
    simp only [nspecRun, Option.bind_eq_some_iff, Option.map_eq_some_iff, Prod.mk.injEq] at hs
    obtain ⟨⟨r, A1⟩, h1, ⟨rs', A2⟩, h2, rfl, rfl⟩ := hs
    simp only [nrun, Prog.bind_run]
    apply (nstep_ok L I h1).bind
    rintro ⟨_, s1⟩ ⟨rfl, I1⟩
    apply (ih I1 h2).bind
    rintro ⟨_, s2⟩ ⟨rfl, I2⟩
    exact ⟨rfl, I2⟩


theorem nstep_call_bad {s : σ} {c : S.Call} {i : Nat} (h : C.call c i s = .ub ∨ C.call c i s = .oom) :
    nstep C (.call i c) s = .ub ∨ nstep C (.call i c) s = .oom := by
  simp only [nstep, Prog.bind_run]
  rcases h with e | e <;> rw [e]
  · exact .inl rfl
  · exact .inr rfl

theorem ub_or_oom {β γ : Type} {x : Out β} {f : β → Out γ} {P : β → Prop} (h : x.Safe P) (hf : ∀ q, P q → f q = .ub) :
    (x >>= f) = .ub ∨ (x >>= f) = .oom := by
  cases x with
  | ok q => exact .inl (hf q h)
  | oom => exact .inr rfl
  | div => cases h
  | panic => cases h
  | ub => cases h

/-- `push_back(v[k])` on a full vector reads the element after it was destroyed. -/
theorem pushElem_full (L : Law C μ) {ty : ElemTy Unit} {B : Nat → Option (Var V)} {w : NWorld σ} (I : WInv L ty B w) {i k : Nat}
    {a : Var V} (hi : B i = some a) (hk : k < a.xs.length) (hfull : a.xs.length = a.cap) :
    vcall ty C (.pushElem k) i w = .ub ∨ vcall ty C (.pushElem k) i w = .oom := by
  obtain ⟨A, I⟩ := I
  obtain ⟨v, hv, rp, hc, hal⟩ := I.get hi
  obtain ⟨b, hb, hA⟩ := rp.elem (List.getElem?_eq_getElem hk)
  have hl := rp.len
  have key : pushCopy ty C v (slot b k) w.st = .ub ∨ pushCopy ty C v (slot b k) w.st = .oom := by
    simp only [pushCopy, Prog.bind_run]
    rw [if_pos (show v.len ≥ v.cap by omega)]
    refine ub_or_oom (extendSpace_ok I.ns rp) ?_
    rintro ⟨v1, s1⟩ ⟨A1, t1, hne⟩
    simp only at t1 hne ⊢
    obtain ⟨c, st⟩ := t1.step.step
    have hgone : s1.heap.blocks b = none := st.gone b (by simp [hb]) (by simpa using hne b hb)
    have hdead : A1 (slot b k) = none := t1.ns.housed b k hgone
    have hlt : a.xs.length < v1.cap := by rw [t1.cap]; have := doubled_pos v.cap; omega
    have o := t1.rep.hole hlt
    obtain ⟨b1, hb1⟩ := nown_some o
    have ow := o.own
    rw [hb1] at ow
    simp only [List.map_append, List.map_cons, unit?_none] at ow
    obtain ⟨h2, e, _⟩ := construct_ok (x := ()) (i := v1.len) ow (by simpa using t1.rep.len)
    simp only [copyTo, Prog.bind_run, run_inBuf, run_inObjs, hb1, e, Out.bind_ok, address, Prog.pure_run,
      L.copyDead t1.ns.inv hdead, Out.bind_ub]
  simp only [vcall, changeAt, Prog.bind_run, run_obj hv, Out.bind_ok, run_inSt, hb, address, Prog.pure_run]
  rcases key with h | h <;> rw [h]
  · exact .inl rfl
  · exact .inr rfl

/-- `insert(begin(), T(m))` into a vector that is not empty -/
theorem insert_front (L : Law C μ) {ty : ElemTy Unit} {B : Nat → Option (Var V)} {w : NWorld σ} (I : WInv L ty B w) {i : Nat}
    {a : Var V} {m : S.Make} {x : V} (hi : B i = some a) (hne : a.xs ≠ []) (hx : μ.val m = some x) :
    vcall ty C (.insert 0 m) i w = .ub ∨ vcall ty C (.insert 0 m) i w = .oom := by
  obtain ⟨A, I⟩ := I
  obtain ⟨v, hv, rp, hc, hal⟩ := I.get hi
  simp only [vcall, changeAt, Prog.bind_run, run_obj hv, Out.bind_ok, run_inSt, withTemp]
  apply bad_then
  apply bad_then
  apply bad_then
  refine bad_bind (makeTemps_ok [m] (xs := [x]) (k := 0) I.ns (by simp [hx]) fun j _ => I.free j) ?_
  rintro ⟨_, s1⟩ ⟨A1, n1, h1, hv1, hf1⟩
  simp only at n1 h1 hv1 hf1 ⊢
  apply bad_then
  have hf1' : ∀ m, (∀ j, m ≠ temp j) → A1 m = A m := fun m hm => hf1 m fun j _ _ => hm j
  have h01 : temp 0 ≠ temp 1 := fun e => by have := temp_inj e; omega
  have hz1 : A1 (temp 1) = none := by
    rw [hf1 _ (by intro i _ hi e; have := temp_inj e; simp at hi; omega), I.free]
  simp only [withParam, Prog.bind_run, run_inObjs]
  refine bad_bind (P := fun q => NS L q.2 (place (place A1 (temp 1) (some x)) (temp 0) (some (μ.left x))) ∧ q.2.heap = s1.heap)
    ((L.move n1.inv hz1 (hv1 0 x rfl)).bind fun q hq => ⟨n1.objs hq fun b k _ => by
      rw [place_ne _ _ (fun e => temp_ne_slot _ _ _ e.symm), place_ne _ _ (fun e => temp_ne_slot _ _ _ e.symm)], rfl⟩) ?_
  rintro ⟨_, s2⟩ ⟨n2, h2⟩
  simp only at n2 h2 ⊢
  apply bad_then
  exact emplace_front n2 (rp.temps (h2.trans h1) fun m hm => by rw [place_ne _ _ (hm 0), place_ne _ _ (hm 1), hf1' m hm]) hne

/-! ## Copies of vectors with an element that cannot be copied -/

theorem abort_bind {X Y : Type} {x : Out X} {f : X → Out Y} {P : X → Prop} (h : x.Safe P) (hf : ∀ q, P q → f q = .panic ∨ f q = .oom) :
    (x >>= f) = .panic ∨ (x >>= f) = .oom := by
  cases x with
  | ok q => exact hf q h
  | oom => exact .inr rfl
  | div => cases h
  | panic => cases h
  | ub => cases h

theorem abort_then {X Y : Type} {x : Out X} {f : X → Out Y} (h : x = .panic ∨ x = .oom) : (x >>= f) = .panic ∨ (x >>= f) = .oom := by
  rcases h with rfl | rfl
  · exact .inl rfl
  · exact .inr rfl

theorem loopUp_add {i a b : Nat} {f : Nat → Prog (St σ) Unit} {s : St σ} :
    loopUp i (a + b) f s = (loopUp i a f s >>= fun q => loopUp (i + a) b f q.2) := by
  induction a generalizing i s with
  | zero => simp only [Nat.zero_add, loopUp, Prog.pure_run, Out.bind_ok, Nat.add_zero]
  | succ a ih =>
    rw [show a + 1 + b = (a + b) + 1 by omega]
    simp only [loopUp, Prog.bind_run]
    cases f i s with
    | ok q =>
      simp only [Out.bind_ok]
      rw [ih, show i + 1 + a = i + (a + 1) by omega]
    | _ => rfl

/-- the copy of a vector stops at the first element that aborts when copied -/
theorem copyImpl_abort {L : Law C μ} {ty : ElemTy Unit} {s : St σ} {A : Nat → Option V} {v w : Vec} {pre post : List V} {x : V}
    (n : NS L s A) (r : NRep ty s A w (pre ++ x :: post)) (hok : ∀ y ∈ pre, μ.cpOk y = true)
    (hbad : ∀ A s d e, L.Inv A s → A e = some x → C.copy d e s = .panic ∨ C.copy d e s = .oom) :
    copyImpl ty C v w s = .panic ∨ copyImpl ty C v w s = .oom := by
  have hl := r.len
  have hle := r.le
  have hsm := r.own.own.small
  have hw : w.len * ty.size < wordSize := by
    have h1 : w.len * ty.size ≤ w.cap * ty.size := Nat.mul_le_mul_right _ (by omega)
    have : wordSize = 18446744073709551616 := rfl
    omega
  unfold copyImpl
  simp only [allocate, Prog.bind_run, run_inBuf]
  refine abort_bind (P := fun q => ∃ b, q.1 = ⟨0, w.len, some b, v.alloc⟩ ∧ NS L q.2 A ∧
    NOwn ty q.2.heap A (some b) w.len v.alloc (List.replicate w.len none) ∧
    NStep s A [] q.2 A [b] [] ∧ s.heap.blocks b = none) (Out.Safe.bind (P := fun q => NS L q.2 A ∧
    NOwn ty q.2.heap A (some q.1) w.len v.alloc (List.replicate w.len none) ∧
    NStep s A [] q.2 A [q.1] [] ∧ s.heap.blocks q.1 = none) ((alloc_ok' n hw).bind fun q hq => ⟨hq.1, hq.2⟩)
      fun q hq => ⟨q.1, rfl, hq⟩) ?_
  rintro ⟨v1, s1⟩ ⟨b, e1, n1, o1, t1, hf⟩
  simp only at e1 n1 o1 t1 ⊢
  subst e1
  apply abort_then
  obtain ⟨b', hb', _⟩ := r.elem (k := pre.length) (x := x) (by simp)
  have r1 : NRep ty s1 A w (pre ++ x :: post) := r.keep t1 (by simp) (by simp)
  have ow := r1.own; rw [hb'] at ow
  have hbb : b' ≠ b := by
    rintro rfl
    have o := r.own; rw [hb'] at o
    exact o.block hf
  simp only
  rw [show w.len = pre.length + (post.length + 1) by simpa using hl, loopUp_add]
  rw [show w.len = pre.length + (post.length + 1) by simpa using hl] at o1
  refine abort_bind (copyLoop_ok (ty := ty) (cap := pre.length + (post.length + 1)) (al := v.alloc) (p := some b) (f := fun j a => a = slot b' j)
    (pre := []) (post := List.replicate (post.length + 1) none) ?_ ?_ pre n1 ?_ ?_ hok
    (by simpa using o1) rfl rfl) ?_
  · rintro j s a rfl
    simp only [hb', address, Prog.bind_run, Prog.pure_run, Out.bind_ok]
  · rintro j a c k rfl e e'
    cases e
    exact hbb (slot_inj e').1
  · rintro j a rfl c k e
    obtain ⟨rfl, _⟩ := slot_inj e
    exact ow.block
  · intro k y hk
    obtain ⟨c, hc, h⟩ := r1.elem (k := k) (x := y) (by rw [List.getElem?_append_left (List.getElem?_eq_some_iff.1 hk).1]; exact hk)
    obtain rfl : c = b' := by rw [hb'] at hc; injection hc with h; exact h.symm
    exact ⟨_, rfl, by simpa using h⟩
  · rintro ⟨_, s2⟩ ⟨A2, n2, o2, t2⟩
    simp only at n2 o2 t2 ⊢
    have r2 : NRep ty s2 A2 w (pre ++ x :: post) := r1.keep t2 (by rw [hb']; intro c e; cases e; simpa using hbb) (by simp)
    obtain ⟨c, hc, hx⟩ := r2.elem (k := pre.length) (x := x) (by simp)
    obtain rfl : c = b' := by rw [hb'] at hc; injection hc with h; exact h.symm
    simp only [loopUp, Prog.bind_run]
    apply abort_then
    have ow2 := o2.own
    simp only [List.nil_append, List.map_append, List.replicate_succ, List.map_cons, unit?_none] at ow2
    obtain ⟨h2, e2, _⟩ := construct_ok (x := ()) (i := pre.length) ow2 (by simp)
    simp only [hb', address, Prog.pure_run, Out.bind_ok, copyTo, Prog.bind_run, run_inBuf, Nat.zero_add, e2, run_inObjs]
    apply abort_then
    exact hbad A2 s2.objs _ _ n2.inv hx

theorem first_bad (f : V → Bool) (xs : List V) (h : xs.all f = false) : ∃ pre x post, xs = pre ++ x :: post ∧ (∀ y ∈ pre, f y = true) ∧ f x = false := by
  induction xs with
  | nil => cases h
  | cons x xs ih =>
    cases hx : f x with
    | false => exact ⟨[], x, xs, rfl, by simp, hx⟩
    | true =>
      obtain ⟨pre, y, post, rfl, h1, h2⟩ := ih (by simpa [hx] using h)
      exact ⟨x :: pre, y, post, rfl, by simpa [hx] using h1, h2⟩

/-- what cannot be copied aborts when copied, so does a vector that holds it -/
theorem vector_abort (L : Law C μ) {ty : ElemTy Unit}
    (hbad : ∀ A s d e x, L.Inv A s → A e = some x → μ.cpOk x = false → C.copy d e s = .panic ∨ C.copy d e s = .oom)
    (B : Nat → Option (Var V)) (w : NWorld σ) (d e : Nat) (a : Var V) (I : WInv L ty B w) (he : B e = some a)
    (ha : (vectorMeaning ty.size μ).cpOk a = false) : (vectorCls ty C).copy d e w = .panic ∨ (vectorCls ty C).copy d e w = .oom := by
  obtain ⟨A, I⟩ := I
  obtain ⟨v, hv, rp, hc, hal⟩ := I.get he
  obtain ⟨pre, x, post, e1, h1, h2⟩ := first_bad μ.cpOk a.xs ha
  rw [e1] at rp
  simp only [vectorCls, Prog.bind_run, run_obj hv, Out.bind_ok, createAt, run_inSt, newCopy]
  apply abort_then
  apply abort_then
  exact copyImpl_abort I.ns rp h1 fun A s d e hI he => hbad A s d e x hI he h2

/-! ## Assignments that go wrong -/

/-- What may not be assigned goes wrong when assigned. -/
structure Stuck (L : Law C μ) : Prop where
  copy : ∀ A s d e t x, L.Inv A s → d ≠ e → A d = some t → A e = some x → μ.cpOk x = true → μ.cpInto t x = false →
    C.copyAssign d e s = .ub ∨ C.copyAssign d e s = .oom
  move : ∀ A s d e t x, L.Inv A s → d ≠ e → A d = some t → A e = some x → μ.mvInto t x = false →
    C.moveAssign d e s = .ub ∨ C.moveAssign d e s = .oom

theorem shiftLoop_stuck {L : Law C μ} (K : Stuck L) {ty : ElemTy Unit} {s : St σ} {A : Nat → Option V} {b cap al : Nat}
    {pre post : List (Option V)} (ys : List V) {t : V} {i m : Nat} (n : NS L s A)
    (o : NOwn ty s.heap A (some b) cap al (pre ++ some t :: (ys.map some ++ post))) (hi : i = pre.length) (hm : m = ys.length)
    (hgo : shiftOk.go μ t ys = false) {f : Nat → Prog (St σ) Unit} (hf : f = fun k => do
        let src ← address (some b) (k + 1)
        let dst ← address (some b) k
        inObjs (C.moveAssign dst src)) : loopUp i m f s = .ub ∨ loopUp i m f s = .oom := by
  induction ys generalizing s A i pre m t with
  | nil => cases hgo
  | cons y ys ih =>
    subst hm
    simp only [List.length_cons, loopUp, Prog.bind_run]
    cases hin : μ.mvInto t y with
    | true =>
      simp only [shiftOk.go, hin, Bool.true_and] at hgo
      refine bad_bind (P := fun q => ∃ A', NS L q.2 A' ∧
        NOwn ty q.2.heap A' (some b) cap al ((pre ++ [some y]) ++ some (μ.leftInto t y) :: (ys.map some ++ post)) ∧ NStep s A [b] q.2 A' [b] []) ?_ ?_
      · rw [hf]
        simp only [Prog.bind_run, address, Prog.pure_run, Out.bind_ok]
        exact shift_one n (post := ys.map some ++ post) (by simpa using o) hi hin
      · rintro ⟨_, s1⟩ ⟨A1, n1, o1, t1⟩
        exact ih (pre := pre ++ [some y]) n1 o1 (by simp [hi]) rfl hgo
    | false =>
      apply bad_then
      rw [hf]
      simp only [Prog.bind_run, address, Prog.pure_run, Out.bind_ok, run_inObjs]
      apply bad_then
      refine K.move A s.objs _ _ t y n.inv (by intro e; have := (slot_inj e).2; omega) (o.at (focus_get _ _ _ hi)) (o.at ?_) hin
      subst hi
      rw [List.getElem?_append_right (by omega), show pre.length + 1 - pre.length = 1 by omega]; rfl

theorem erase_stuck {L : Law C μ} (K : Stuck L) {ty : ElemTy Unit} {s : St σ} {A : Nat → Option V} {v : Vec} {xs : List V} {p : Nat}
    (n : NS L s A) (r : NRep ty s A v xs) (hp : p < xs.length) (hsh : shiftOk μ (xs.drop p) = false) :
    erase C v p s = .ub ∨ erase C v p s = .oom := by
  have hl := r.len
  have hle := r.le
  have hc := r.own.own.cap_lt
  have hsub : wsub v.len 1 = xs.length - 1 := by
    rw [hl, wsub_of_le (by omega) (by have : wordSize = 18446744073709551616 := rfl; omega)]
  have hxp : xs[p]? = some xs[p] := List.getElem?_eq_getElem hp
  have hcut : xs = xs.take p ++ xs[p] :: xs.drop (p + 1) := by
    rw [List.getElem_cons_drop, List.take_append_drop]
  have hgo : shiftOk.go μ xs[p] (xs.drop (p + 1)) = false := by
    rw [← List.getElem_cons_drop hp] at hsh; exact hsh
  unfold erase
  rw [hsub]
  have h1 : p ≠ xs.length - 1 := by
    intro e
    rw [List.drop_eq_nil_of_le (by omega)] at hgo; cases hgo
  rw [if_neg h1, if_pos (by omega)]
  obtain ⟨b, hb, _⟩ := r.elem hxp
  have o : NOwn ty s.heap A (some b) v.cap v.alloc ((xs.take p).map some ++ some xs[p] ::
      ((xs.drop (p + 1)).map some ++ List.replicate (v.cap - xs.length) none)) := by
    have h := r.own
    rw [hb] at h
    have e : xs.map some = (xs.take p).map some ++ some xs[p] :: (xs.drop (p + 1)).map some := by
      conv_lhs => rw [hcut]
      simp only [List.map_append, List.map_cons]
    rw [e] at h
    simpa only [List.append_assoc, List.cons_append] using h
  simp only [Prog.bind_run]
  rw [hb]
  apply bad_then
  exact shiftLoop_stuck K (xs.drop (p + 1)) n o (by simp; omega) (by simp; omega) hgo rfl

theorem assignLoop_stuck {L : Law C μ} (K : Stuck L) {ty : ElemTy Unit} {p q : Option Nat} {cap al : Nat} {pre post : List (Option V)}
    (hpq : ∀ b, q = some b → p ≠ some b) (olds xs : List V) {s : St σ} {A : Nat → Option V} {i m : Nat} (n : NS L s A)
    (hx : ∀ k x, xs[k]? = some x → ∃ b', q = some b' ∧ A (slot b' (i + k)) = some x)
    (o : NOwn ty s.heap A p cap al (pre ++ (olds.map some ++ post))) (hi : i = pre.length) (hm : m = xs.length)
    (hok : ∀ x ∈ xs, μ.cpOk x = true) (hinto : assignedOk μ olds xs = false) {f : Nat → Prog (St σ) Unit} (hf : f = fun i => do
        let src ← address q i
        let dst ← address p i
        inObjs (C.copyAssign dst src)) : loopUp i m f s = .ub ∨ loopUp i m f s = .oom := by
  induction xs generalizing s A i pre m olds with
  | nil => cases olds <;> cases hinto
  | cons x xs ih =>
    subst hm
    cases olds with
    | nil => cases hinto
    | cons t olds =>
      obtain ⟨b, rfl⟩ := nown_some (o := some t) (by simpa using o)
      obtain ⟨b', rfl, he⟩ := hx 0 x rfl
      have hbb : b' ≠ b := fun e => hpq b' rfl (by rw [e])
      have hd : A (slot b i) = some t := o.at (by simpa using focus_get _ _ _ hi)
      simp only [List.length_cons, loopUp, Prog.bind_run]
      cases hin : μ.cpInto t x with
      | false =>
        apply bad_then
        rw [hf]
        simp only [Prog.bind_run, address, Prog.pure_run, Out.bind_ok, run_inObjs]
        apply bad_then
        exact K.copy A s.objs _ _ t x n.inv (fun e => hbb (slot_inj e).1.symm) hd he (hok x (by simp)) hin
      | true =>
        simp only [assignedOk, hin, Bool.true_and] at hinto
        refine bad_bind (P := fun q => NS L q.2 (place A (slot b i) (some (μ.cpAssign t x))) ∧
          NOwn ty q.2.heap (place A (slot b i) (some (μ.cpAssign t x))) (some b) cap al
            (pre ++ some (μ.cpAssign t x) :: (olds.map some ++ post)) ∧
          NStep s A [b] q.2 (place A (slot b i) (some (μ.cpAssign t x))) [b] []) ?_ ?_
        · rw [hf]
          simp only [Prog.bind_run, address, Prog.pure_run, Out.bind_ok, run_inObjs]
          exact (L.copyAssign n.inv (fun e => hbb (slot_inj e).1.symm) hd he (hok x (by simp)) hin).bind fun q hq =>
            Out.safe_ok.2 (place_ok n (by simpa using o) hi hq)
        · rintro ⟨_, s1⟩ ⟨n1, o1, t1⟩
          refine ih olds (s := s1) (i := i + 1) (pre := pre ++ [some (μ.cpAssign t x)]) n1 ?_ (by simpa using o1) (by simp [hi])
            rfl (fun y hy => hok y (by simp [hy])) hinto
          intro k y hk
          obtain ⟨b2, e2, h2⟩ := hx (k + 1) y (by simpa using hk)
          refine ⟨b2, e2, ?_⟩
          cases e2
          rw [place_ne _ _ (fun e => hbb (slot_inj e).1), ← h2]
          congr 2; omega

theorem copyAssign_stuck {L : Law C μ} (K : Stuck L) {ty : ElemTy Unit} {s : St σ} {A : Nat → Option V} {v w : Vec} {xs ys : List V}
    (n : NS L s A) (r : NRep ty s A v xs) (rw' : NRep ty s A w ys)
    (hvw : ∀ b, w.ptr = some b → v.ptr ≠ some b) (hok : ∀ x ∈ ys, μ.cpOk x = true) (ha : v.alloc = w.alloc)
    (hinto : assignedOk μ xs ys = false) : copyAssign ty C v w s = .ub ∨ copyAssign ty C v w s = .oom := by
  unfold copyAssign
  have hl := r.len
  have hlw := rw'.len
  rw [if_pos ha]
  have hw : w.cap * ty.size < wordSize := by
    have := rw'.own.own.small; have : wordSize = 18446744073709551616 := rfl; omega
  simp only [Prog.bind_run]
  refine bad_bind (reserve_ok n r hw) ?_
  rintro ⟨v1, s1⟩ ⟨A1, t1, _⟩
  simp only at t1 ⊢
  have rw1 : NRep ty s1 A1 w ys := rw'.keep t1.step (by intro b hb hm; simp at hm; exact hvw b hb hm) (by simp)
  have hvw1 : ∀ b, w.ptr = some b → v1.ptr ≠ some b := by
    intro b hb e
    obtain ⟨k1, st1⟩ := t1.step.step
    have o := rw'.own; rw [hb] at o
    exact o.block (st1.fresh b (by simp [e]) (by simp [hvw b hb]))
  have hl1 := t1.rep.len
  have hsplit : xs = xs.take (min v1.len w.len) ++ xs.drop (min v1.len w.len) := (List.take_append_drop _ _).symm
  have o1 : NOwn ty s1.heap A1 v1.ptr v1.cap v1.alloc
      ([] ++ ((xs.take (min v1.len w.len)).map some ++ ((xs.drop (min v1.len w.len)).map some ++ List.replicate (v1.cap - xs.length) none))) := by
    have := t1.rep.own
    rw [hsplit] at this
    simp only [List.map_append, List.append_assoc, List.nil_append] at this ⊢
    rw [← hsplit] at this
    exact this
  apply bad_then
  refine assignLoop_stuck K hvw1 (xs.take (min v1.len w.len)) (ys.take (min v1.len w.len)) (i := 0) t1.ns ?_ o1 rfl (by simp; omega)
    (fun x hx => hok x (List.mem_of_mem_take hx)) (by rw [assignedOk_take _ _ _ (by omega)]; exact hinto) rfl
  intro k x hk
  obtain ⟨b, hb, h⟩ := rw1.elem (k := k) (x := x) (by
    rw [List.getElem?_take] at hk; split at hk
    · exact hk
    · cases hk)
  exact ⟨b, hb, by simpa using h⟩

theorem vector_stuck {L : Law C μ} (K : Stuck L) (ty : ElemTy Unit) : Stuck (vectorLaw ty L) where
  copy := by
    rintro B w d e a a' ⟨A, I⟩ hne hd he hok hin
    obtain ⟨v, hv, rp, hc, hal⟩ := I.get hd
    obtain ⟨v', hv', rp', hc', hal'⟩ := I.get he
    simp only [vectorMeaning, Bool.or_eq_false_iff, bne_eq_false_iff_eq] at hin
    simp only [vectorCls, if_neg hne, Prog.bind_run, run_obj hv', Out.bind_ok, changeAt, run_obj hv, run_inSt]
    apply bad_then
    apply bad_then
    apply bad_then
    exact copyAssign_stuck K I.ns rp rp' (fun b hb => I.sep e d v' v b (Ne.symm hne) hv' hv hb) (List.all_eq_true.1 hok)
      (by rw [hal, hal']; exact hin.1) hin.2
  move := by
    intro B w d e a a' _ _ _ _ hin
    cases hin

theorem vector_erase_stuck {L : Law C μ} (K : Stuck L) {ty : ElemTy Unit} {B : Nat → Option (Var V)} {w : NWorld σ} {i p : Nat} {a : Var V}
    (I : WInv L ty B w) (hi : B i = some a) (hp : p < a.xs.length) (hsh : shiftOk μ (a.xs.drop p) = false) :
    (vectorCls ty C).call (.erase p) i w = .ub ∨ (vectorCls ty C).call (.erase p) i w = .oom := by
  obtain ⟨A, I⟩ := I
  obtain ⟨v, hv, rp, hc, hal⟩ := I.get hi
  simp only [vectorCls, vcall, changeAt, Prog.bind_run, run_obj hv, Out.bind_ok, run_inSt]
  apply bad_then
  apply bad_then
  apply bad_then
  exact erase_stuck K I.ns rp hp hsh

end

theorem value_stuck (ety : ElemTy α) : Stuck (valueLaw ety) where
  copy := by intro _ _ _ _ _ _ _ _ _ _ _ h; cases h
  move := by intro _ _ _ _ _ _ _ _ _ _ h; cases h

theorem list_stuck (cfg : Model.LL.Cfg α) : Stuck (listLaw cfg) where
  copy := by intro _ _ _ _ _ _ _ _ _ _ _ h; cases h
  move := by intro _ _ _ _ _ _ _ _ _ _ h; cases h

theorem text_stuck (enc : Model.BStr.Enc) (refuse : Nat → Nat → Bool) : Stuck (textLaw enc refuse) where
  copy := by
    intro A w d e t x I hne hd he _ hin
    obtain ⟨s, hs, r⟩ := I.rep d t hd
    obtain ⟨o, ho, ro⟩ := I.rep e x he
    have h16 : t.length = 16 ∨ x.length = 16 := by
      simp only [textMeaning, Bool.and_eq_false_iff, bne_eq_false_iff_eq] at hin; exact hin
    simp only [textCls, muted]
    rw [Prog.bind_run]
    apply bad_then
    simp only [Model.BStr.step]
    rw [BStr.var_bind hs, BStr.var_bind ho, if_neg hne]
    rcases BStr.copyAssign_bad (cfg := textCfg enc refuse) r ro (.inr h16) with h | ⟨h, _⟩
    · left; rw [BStr.inHeap_ub h]
    · right; rw [Prog.bind_run, Model.BStr.inHeap, h]; rfl
  move := by
    intro A w d e t x I hne hd he hin
    obtain ⟨s, hs, r⟩ := I.rep d t hd
    obtain ⟨o, ho, ro⟩ := I.rep e x he
    have h16 : t.length = 16 ∨ x.length = 16 := by
      simp only [textMeaning, Bool.and_eq_false_iff, bne_eq_false_iff_eq] at hin; exact hin
    simp only [textCls, muted]
    rw [Prog.bind_run]
    apply bad_then
    simp only [Model.BStr.step]
    rw [BStr.var_bind hs, BStr.var_bind ho, if_neg hne, BStr.inHeap_ub (BStr.moveAssign_ub (cfg := textCfg enc refuse) r ro (.inr h16))]
    exact .inl rfl

theorem linked_stuck (cfg : Model.LL.Cfg Unit) (x0 : V) (L : Law C μ) : Stuck (linkedLaw cfg x0 L) where
  copy _ _ _ _ _ _ _ _ _ _ _ h := by cases h
  move _ _ _ _ _ _ _ _ _ _ h := by cases h

theorem option_stuck {L : Law C μ} (K : Stuck L) : Stuck (optionLaw L) where
  copy A s d e t x I hne hd he hok hin := by
    have I : OLaw L A s := I
    have hc : cell d ≠ cell e := by unfold cell; omega
    cases t with
    | none => cases hin
    | some t =>
      cases x with
      | none => cases hin
      | some x =>
        simp only [optionCls, if_neg hne, Prog.bind_run, held_run I (holdsOf_some hd), held_run I (holdsOf_some he), Out.bind_ok]
        exact bad_then (K.copy _ _ _ _ t x I.inv hc (by rw [glue_cell]; exact within_some hd) (by rw [glue_cell]; exact within_some he) hok hin)
  move A s d e t x I hne hd he hin := by
    have I : OLaw L A s := I
    have hc : cell d ≠ cell e := by unfold cell; omega
    cases t with
    | none => cases hin
    | some t =>
      cases x with
      | none => cases hin
      | some x =>
        simp only [optionCls, if_neg hne, Prog.bind_run, held_run I (holdsOf_some hd), held_run I (holdsOf_some he), Out.bind_ok]
        exact bad_then (K.move _ _ _ _ t x I.inv hc (by rw [glue_cell]; exact within_some hd) (by rw [glue_cell]; exact within_some he) hin)

theorem shape_stuck : (s : Shape α) → Stuck (law s)
  | .values ety => value_stuck ety
  | .lists cfg => list_stuck cfg
  | .texts enc refuse => text_stuck enc refuse
  | .vector ty s => vector_stuck (shape_stuck s) ty
  | .linked cfg s => linked_stuck cfg (blank s) (law s)
  | .option s => option_stuck (shape_stuck s)

/-- linked lists that were moved from abort when copied, in builds with assertions -/
theorem list_abort {cfg : Model.LL.Cfg α} (hd : cfg.debug = true) (A : Nat → Option (Spec.LL.Var α)) (w : Model.LL.World α) (d e : Nat)
    (x : Spec.LL.Var α) (I : LInv cfg A w) (he : A e = some x) (hx : (listMeaning cfg.dbl cfg.dflt).cpOk x = false) :
    (listCls cfg).copy d e w = .panic ∨ (listCls cfg).copy d e w = .oom := by
  obtain ⟨G, I, rfl⟩ := I
  simp only [LL.ideal, Option.map_eq_some_iff] at he
  obtain ⟨o, ho, rfl⟩ := he
  have hb : o.body = none := by
    cases h : o.body with
    | none => rfl
    | some b => simp [listMeaning, LL.Obj.value, h] at hx
  have hv : w.vars e = some ⟨none, none, 0, o.alloc⟩ := by
    rw [I.vars e, ho]
    simp only [Option.map_some, LL.Obj.fields, hb]
  refine .inl ?_
  simp only [listCls, hushed, Model.LL.step, Prog.bind_run, Model.LL.var, hv, Out.bind_ok, Model.LL.create, Model.LL.inHeap,
    Model.LL.newCopy, Model.LL.copyImpl, Model.LL.dbgAssert, hd]
  rfl

theorem shape_abort : (s : Shape α) → Checked s → ∀ A w d e x, (law s).Inv A w → A e = some x → (meaning s).cpOk x = false →
    s.cls.copy d e w = .panic ∨ s.cls.copy d e w = .oom
  | .values ety, _, _, _, _, _, _, _, _, hx => by cases hx
  | .lists cfg, hs, A, w, d, e, x, I, he, hx => list_abort hs A w d e x I he hx
  | .texts _ _, _, _, _, _, _, _, _, _, hx => by cases hx
  | .vector ty s, hs, A, w, d, e, x, I, he, hx =>
    vector_abort (law s) (fun A s' d e x => shape_abort s hs A s' d e x) A w d e x I he hx
  | .linked cfg s, hs, A, w, d, e, x, I, he, hx =>
    linked_abort (L := law s) hs.1 (fun A s' d e x => shape_abort s hs.2 A s' d e x) A w d e x I he hx
  | .option s, hs, A, w, d, e, x, I, he, hx =>
    option_abort (L := law s) (fun A s' d e x => shape_abort s hs A s' d e x) A w d e x I he hx

end Verif.Proof.Nested
