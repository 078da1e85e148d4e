import Verif.Proof.NestedLinked
/-!
# Options of objects keep their promises if the objects do
-/
namespace Verif.Proof.Nested
open Verif Verif.Model.Nested Verif.Spec.Nested

variable {V : Type} {S : Sig} {σ : Type} {C : Cls S σ} {μ : Meaning S V} {L : Law C μ}

def holdsOf (B : Nat → Option (Option V)) : Nat → Option Bool := fun n => (B n).map Option.isSome
def within (B : Nat → Option (Option V)) : Nat → Option V := fun n => (B n).join

theorem holdsOf_place (B : Nat → Option (Option V)) (n : Nat) (o : Option (Option V)) :
    place (holdsOf B) n (o.map Option.isSome) = holdsOf (place B n o) := by
  funext m; simp only [place, holdsOf]; split <;> rfl

theorem within_place (B : Nat → Option (Option V)) (n : Nat) (o : Option (Option V)) :
    place (within B) n o.join = within (place B n o) := by
  funext m; simp only [place, within]; split <;> rfl

variable (L) in
/-- the options are as the specification says, and there are no objects but theirs and the temporaries `T` -/
structure OInv (T : Nat → Option V) (H : Nat → Option Bool) (E : Nat → Option V) (w : OWorld σ) : Prop where
  holds : w.holds = H
  inv : L.Inv (glue E T) w.objs

section
variable {T E : Nat → Option V} {H : Nat → Option Bool} {w : OWorld σ} {β : Type}

theorem held_run {b : Bool} (I : OInv L T H E w) {n : Nat} (h : H n = some b) : held n w = .ok (b, w) := by
  unfold held; rw [I.holds, h]

theorem setHeld_ok (I : OInv L T H E w) (n : Nat) (b : Option Bool) :
    (setHeld n b w).Safe fun q => OInv L T (place H n b) E q.2 := ⟨by rw [← I.holds]; rfl, I.inv⟩

theorem inVal_ok {f : Prog σ β} {P : β → Prop} {E' T' : Nat → Option V} (I : OInv L T H E w)
    (h : (f w.objs).Safe fun q => P q.1 ∧ L.Inv (glue E' T') q.2) :
    (inVal f w).Safe fun q => P q.1 ∧ OInv L T' H E' q.2 :=
  h.bind fun _ hq => ⟨hq.1, I.holds, hq.2⟩

theorem oMake (I : OInv L T H E w) {m : S.Make} {x : V} {k : Nat} (hn : T k = none) (hm : μ.val m = some x) :
    (inVal (C.make m (temp k)) w).Safe fun q => OInv L (place T k (some x)) H E q.2 :=
  (inVal_ok (P := fun _ => True) I ((L.make I.inv (by rw [glue_temp]; exact hn) hm).mono fun q hq => ⟨trivial, by rwa [place_temp] at hq⟩)).mono fun _ h => h.2

theorem oDropTemp (I : OInv L T H E w) {x : V} {k : Nat} (hn : T k = some x) :
    (inVal (C.drop (temp k)) w).Safe fun q => OInv L (place T k none) H E q.2 :=
  (inVal_ok (P := fun _ => True) I ((L.drop I.inv (by rw [glue_temp]; exact hn)).mono fun q hq => ⟨trivial, by rwa [place_temp] at hq⟩)).mono fun _ h => h.2

theorem oDrop (I : OInv L T H E w) {x : V} {n : Nat} (hn : E n = some x) :
    (inVal (C.drop (cell n)) w).Safe fun q => OInv L T H (place E n none) q.2 :=
  (inVal_ok (P := fun _ => True) I ((L.drop I.inv (by rw [glue_cell]; exact hn)).mono fun q hq => ⟨trivial, by rwa [place_cell] at hq⟩)).mono fun _ h => h.2

theorem oMoveIn (I : OInv L T H E w) {x : V} {n k : Nat} (hn : E n = none) (hk : T k = some x) :
    (inVal (C.move (cell n) (temp k)) w).Safe fun q => OInv L (place T k (some (μ.left x))) H (place E n (some x)) q.2 :=
  (inVal_ok (P := fun _ => True) I ((L.move I.inv (by rw [glue_cell]; exact hn) (by rw [glue_temp]; exact hk)).mono fun q hq =>
    ⟨trivial, by rwa [place_cell, place_temp] at hq⟩)).mono fun _ h => h.2

theorem oCopyIn (I : OInv L T H E w) {x : V} {n k : Nat} (hn : E n = none) (hk : T k = some x) (hok : μ.cpOk x = true) :
    (inVal (C.copy (cell n) (temp k)) w).Safe fun q => OInv L T H (place E n (some (μ.cp x))) q.2 :=
  (inVal_ok (P := fun _ => True) I ((L.copy I.inv (by rw [glue_cell]; exact hn) (by rw [glue_temp]; exact hk) hok).mono fun q hq =>
    ⟨trivial, by rwa [place_cell] at hq⟩)).mono fun _ h => h.2

theorem oMoveOut (I : OInv L T H E w) {x : V} {n k : Nat} (hn : E n = some x) (hk : T k = none) :
    (inVal (C.move (temp k) (cell n)) w).Safe fun q => OInv L (place T k (some x)) H (place E n (some (μ.left x))) q.2 :=
  (inVal_ok (P := fun _ => True) I ((L.move I.inv (by rw [glue_temp]; exact hk) (by rw [glue_cell]; exact hn)).mono fun q hq =>
    ⟨trivial, by rwa [place_temp, place_cell] at hq⟩)).mono fun _ h => h.2

theorem oCopy (I : OInv L T H E w) {x : V} {d e : Nat} (hd : E d = none) (he : E e = some x) (hok : μ.cpOk x = true) :
    (inVal (C.copy (cell d) (cell e)) w).Safe fun q => OInv L T H (place E d (some (μ.cp x))) q.2 :=
  (inVal_ok (P := fun _ => True) I ((L.copy I.inv (by rw [glue_cell]; exact hd) (by rw [glue_cell]; exact he) hok).mono fun q hq =>
    ⟨trivial, by rwa [place_cell] at hq⟩)).mono fun _ h => h.2

theorem oMove (I : OInv L T H E w) {x : V} {d e : Nat} (hd : E d = none) (he : E e = some x) :
    (inVal (C.move (cell d) (cell e)) w).Safe fun q => OInv L T H (place (place E d (some x)) e (some (μ.left x))) q.2 :=
  (inVal_ok (P := fun _ => True) I ((L.move I.inv (by rw [glue_cell]; exact hd) (by rw [glue_cell]; exact he)).mono fun q hq =>
    ⟨trivial, by rwa [place_cell, place_cell] at hq⟩)).mono fun _ h => h.2

theorem oCallTemp (I : OInv L T H E w) {c : S.Call} {r : S.Ret} {x y : V} {k : Nat} (hk : T k = some x) (hc : μ.run c x = some (r, y)) :
    (inVal (C.call c (temp k)) w).Safe fun q => q.1 = r ∧ OInv L (place T k (some y)) H E q.2 :=
  inVal_ok (P := fun a => a = r) I ((L.call I.inv (by rw [glue_temp]; exact hk) hc).mono fun q hq => ⟨hq.1, by rw [← place_temp]; exact hq.2⟩)

theorem oCall (I : OInv L T H E w) {c : S.Call} {r : S.Ret} {x y : V} {n : Nat} (hn : E n = some x) (hc : μ.run c x = some (r, y)) :
    (inVal (C.call c (cell n)) w).Safe fun q => q.1 = r ∧ OInv L T H (place E n (some y)) q.2 :=
  inVal_ok (P := fun a => a = r) I ((L.call I.inv (by rw [glue_cell]; exact hn) hc).mono fun q hq => ⟨hq.1, by rw [← place_cell]; exact hq.2⟩)

theorem oreset_ok (I : OInv L T H E w) {x : V} {n : Nat} (hn : E n = some x) :
    (oreset C n w).Safe fun q => OInv L T (place H n (some false)) (place E n none) q.2 :=
  (oDrop I hn).bind fun _ h => setHeld_ok h n _

theorem OInv.cast {T' E' : Nat → Option V} {H' : Nat → Option Bool} (I : OInv L T H E w) (h1 : T = T') (h2 : H = H') (h3 : E = E') :
    OInv L T' H' E' w := by subst h1; subst h2; subst h3; exact I

end

/-- no temporaries -/
def tnone : Nat → Option V := fun _ => none

variable (L) in
def OLaw (B : Nat → Option (Option V)) (w : OWorld σ) : Prop := OInv L tnone (holdsOf B) (within B) w

local macro "options" : tactic =>
  `(tactic| (funext m; simp only [place, holdsOf, within, tnone]; repeat' split) <;> first | rfl | (simp_all; done) | simp_all [optionMeaning])

theorem holdsOf_some {B : Nat → Option (Option V)} {n : Nat} {x : Option V} (h : B n = some x) : holdsOf B n = some x.isSome := by
  simp [holdsOf, h]
theorem within_some {B : Nat → Option (Option V)} {n : Nat} {x : Option V} (h : B n = some x) : within B n = x := by
  simp [within, h]
theorem within_none {B : Nat → Option (Option V)} {n : Nat} (h : B n = none) : within B n = none := by
  simp [within, h]

section
variable {B : Nat → Option (Option V)} {w : OWorld σ}

theorem omake_ok (I : OLaw L B w) {n : Nat} (hn : B n = none) {m : OMake S.Make} {x : Option V} (hm : oval μ m = some x) :
    (omake C m n w).Safe fun q => OLaw L (place B n (some x)) q.2 := by
  cases m with
  | none =>
    cases hm
    exact (setHeld_ok I n _).mono fun _ h => h.cast rfl (by options) (by options)
  | some m =>
    simp only [oval, Option.map_eq_some_iff] at hm
    obtain ⟨y, hy, rfl⟩ := hm
    simp only [omake, Prog.bind_run]
    refine (oMake I (k := 0) rfl hy).bind fun _ h1 => ?_
    refine (oMoveIn h1 (n := n) (k := 0) (x := y) (within_none hn) (by simp [place])).bind fun _ h2 => ?_
    refine (setHeld_ok h2 n _).bind fun _ h3 => ?_
    refine (oDropTemp h3 (k := 0) (x := μ.left y) (by simp [place])).mono fun _ h4 => h4.cast ?_ ?_ ?_
    all_goals options
  | someCopy m =>
    simp only [oval, Option.map_eq_some_iff] at hm
    obtain ⟨y, hy, rfl⟩ := hm
    simp only [omake, Prog.bind_run]
    refine (oMake I (k := 0) rfl hy).bind fun _ h1 => ?_
    refine (oCopyIn h1 (n := n) (k := 0) (x := y) (within_none hn) (by simp [place]) (L.newOk hy)).bind fun _ h2 => ?_
    refine (setHeld_ok h2 n _).bind fun _ h3 => ?_
    refine (oDropTemp h3 (k := 0) (x := y) (by simp [place])).mono fun _ h4 => h4.cast ?_ ?_ ?_
    all_goals options

theorem ocall_ok (I : OLaw L B w) {n : Nat} {x : Option V} (hn : B n = some x) {c : OCall S.Call} {r : ORet S.Ret} {y : Option V}
    (hc : orun μ c x = some (r, y)) : (ocall C c n w).Safe fun q => q.1 = r ∧ OLaw L (place B n (some y)) q.2 := by
  have hh := held_run I (holdsOf_some hn)
  have hw := within_some hn
  cases c with
  | isSome =>
    cases hc
    simp only [ocall, Prog.bind_run, hh, Out.bind_ok]
    exact ⟨rfl, I.cast rfl (by options) (by options)⟩
  | isNone =>
    cases hc
    simp only [ocall, Prog.bind_run, hh, Out.bind_ok]
    exact ⟨by cases x <;> rfl, I.cast rfl (by options) (by options)⟩
  | take =>
    cases x with
    | none => cases hc
    | some x =>
    cases hc
    simp only [ocall, Prog.bind_run, hh, Out.bind_ok, Option.isSome_some, if_true]
    refine Out.Safe.bind ((oMoveOut I (k := 0) hw rfl).bind fun _ h1 => oreset_ok h1 (x := μ.left x) (by simp [place])) fun _ h2 => ?_
    refine (oDropTemp h2 (k := 0) (x := x) (by simp [place])).bind fun _ h3 => ⟨rfl, h3.cast ?_ ?_ ?_⟩
    all_goals options
  | unwrap c =>
    cases x with
    | none => cases hc
    | some x =>
    simp only [orun, Option.bind_some, Option.map_eq_some_iff] at hc
    obtain ⟨⟨r', y'⟩, hr, hc⟩ := hc
    cases hc
    simp only [ocall, Prog.bind_run, hh, Out.bind_ok, Option.isSome_some, if_true]
    refine Out.Safe.bind ((oMoveOut I (k := 0) hw rfl).bind fun _ h1 => oreset_ok h1 (x := μ.left x) (by simp [place])) fun _ h2 => ?_
    refine (oCallTemp h2 (k := 0) (x := x) (by simp [place]) hr).bind ?_
    rintro ⟨_, w'⟩ ⟨rfl, h3⟩
    refine (oDropTemp h3 (k := 0) (x := y') (by simp [place])).bind fun _ h4 => ⟨rfl, h4.cast ?_ ?_ ?_⟩
    all_goals options
  | asRef c =>
    cases x with
    | none => cases hc
    | some x =>
    simp only [orun, Option.bind_some, Option.map_eq_some_iff] at hc
    obtain ⟨⟨r', y'⟩, hr, hc⟩ := hc
    cases hc
    simp only [ocall, Prog.bind_run, hh, Out.bind_ok, Option.isSome_some, if_true]
    refine (oCall I hw hr).bind ?_
    rintro ⟨_, w'⟩ ⟨rfl, h3⟩
    refine ⟨rfl, h3.cast ?_ ?_ ?_⟩
    all_goals options
  | map c =>
    cases x with
    | none =>
      cases hc
      simp only [ocall, Prog.bind_run, hh, Out.bind_ok]
      exact ⟨rfl, I.cast rfl (by options) (by options)⟩
    | some x =>
    simp only [orun, Option.map_eq_some_iff] at hc
    obtain ⟨⟨r', y'⟩, hr, hc⟩ := hc
    cases hc
    simp only [ocall, Prog.bind_run, hh, Out.bind_ok, Option.isSome_some, if_true]
    refine (oMoveOut I (k := 0) hw rfl).bind fun _ h2 => ?_
    refine (oCallTemp h2 (k := 0) (x := x) (by simp [place]) hr).bind ?_
    rintro ⟨_, w'⟩ ⟨rfl, h3⟩
    refine (oDropTemp h3 (k := 0) (x := y') (by simp [place])).bind fun _ h4 => ⟨rfl, h4.cast ?_ ?_ ?_⟩
    all_goals options

variable {d e n : Nat} {t x : Option V}

theorem ocopy_ok (I : OLaw L B w) (hd : B d = none) (he : B e = some x) (hok : x.all μ.cpOk = true) :
    ((optionCls C).copy d e w).Safe fun q => OLaw L (place B d (some (x.map μ.cp))) q.2 := by
  simp only [optionCls, Prog.bind_run, held_run I (holdsOf_some he), Out.bind_ok]
  refine (setHeld_ok I d _).bind fun _ h1 => ?_
  cases x with
  | none => exact h1.cast rfl (by options) (by options)
  | some x =>
    simp only [Option.isSome_some, if_true]
    refine (oCopy h1 (within_none hd) (within_some he) hok).mono fun _ h2 => h2.cast ?_ ?_ ?_
    all_goals options

theorem omove_ok (I : OLaw L B w) (hd : B d = none) (he : B e = some x) :
    ((optionCls C).move d e w).Safe fun q => OLaw L (place (place B d (some x)) e (some none)) q.2 := by
  have hne : e ≠ d := by rintro rfl; rw [hd] at he; cases he
  simp only [optionCls, Prog.bind_run, held_run I (holdsOf_some he), Out.bind_ok]
  refine (setHeld_ok I d _).bind fun _ h1 => ?_
  cases x with
  | none => exact h1.cast rfl (by options) (by options)
  | some x =>
    simp only [Option.isSome_some, if_true]
    refine (oMove h1 (within_none hd) (within_some he)).bind fun _ h2 => ?_
    refine (oreset_ok h2 (n := e) (x := μ.left x) (by simp [place])).mono fun _ h3 => h3.cast ?_ ?_ ?_
    all_goals options

theorem oAssign {T E : Nat → Option V} {H : Nat → Option Bool} (I : OInv L T H E w) {t x : V} (hne : d ≠ e) (hd : E d = some t)
    (he : E e = some x) (hok : μ.cpOk x = true) (hin : μ.cpInto t x = true) :
    (inVal (C.copyAssign (cell d) (cell e)) w).Safe fun q => OInv L T H (place E d (some (μ.cpAssign t x))) q.2 :=
  (inVal_ok (P := fun _ => True) I ((L.copyAssign I.inv (by unfold cell; omega) (by rw [glue_cell]; exact hd) (by rw [glue_cell]; exact he) hok hin).mono
    fun q hq => ⟨trivial, by rwa [place_cell] at hq⟩)).mono fun _ h => h.2

theorem oMoveAssign {T E : Nat → Option V} {H : Nat → Option Bool} (I : OInv L T H E w) {t x : V} (hne : d ≠ e) (hd : E d = some t)
    (he : E e = some x) (hin : μ.mvInto t x = true) :
    (inVal (C.moveAssign (cell d) (cell e)) w).Safe fun q => OInv L T H (place (place E d (some x)) e (some (μ.leftInto t x))) q.2 :=
  (inVal_ok (P := fun _ => True) I ((L.moveAssign I.inv (by unfold cell; omega) (by rw [glue_cell]; exact hd) (by rw [glue_cell]; exact he) hin).mono
    fun q hq => ⟨trivial, by rwa [place_cell, place_cell] at hq⟩)).mono fun _ h => h.2

theorem ocopyAssign_ok (I : OLaw L B w) (hne : d ≠ e) (hd : B d = some t) (he : B e = some x) (hok : x.all μ.cpOk = true)
    (hin : (optionMeaning μ).cpInto t x = true) :
    ((optionCls C).copyAssign d e w).Safe fun q => OLaw L (place B d (some ((optionMeaning μ).cpAssign t x))) q.2 := by
  have hne' : e ≠ d := Ne.symm hne
  simp only [optionCls, if_neg hne, Prog.bind_run, held_run I (holdsOf_some hd), held_run I (holdsOf_some he), Out.bind_ok]
  cases t with
  | none =>
    cases x with
    | none => exact I.cast rfl (by options) (by options)
    | some x =>
      simp only [Option.isSome_none, Option.isSome_some, Bool.false_eq_true, Bool.true_eq_false, if_true, if_false, Prog.bind_run]
      refine (setHeld_ok I d _).bind fun _ h1 => ?_
      refine (oCopy h1 (within_some hd) (within_some he) hok).mono fun _ h2 => h2.cast ?_ ?_ ?_
      all_goals options
  | some t =>
    cases x with
    | none =>
      simp only [Option.isSome_none, Option.isSome_some, Bool.false_eq_true, Bool.true_eq_false, if_true, if_false, Prog.bind_run]
      refine (setHeld_ok I d _).bind fun _ h1 => ?_
      refine (oDrop h1 (within_some hd)).mono fun _ h2 => h2.cast ?_ ?_ ?_
      all_goals options
    | some x =>
      refine (oAssign I hne (within_some hd) (within_some he) hok hin).mono fun _ h2 => h2.cast ?_ ?_ ?_
      all_goals options

theorem omoveAssign_ok (I : OLaw L B w) (hne : d ≠ e) (hd : B d = some t) (he : B e = some x)
    (hin : (optionMeaning μ).mvInto t x = true) :
    ((optionCls C).moveAssign d e w).Safe fun q => OLaw L (place (place B d (some x)) e (some ((optionMeaning μ).leftInto t x))) q.2 := by
  have hne' : e ≠ d := Ne.symm hne
  simp only [optionCls, if_neg hne, Prog.bind_run, held_run I (holdsOf_some hd), held_run I (holdsOf_some he), Out.bind_ok]
  cases t with
  | none =>
    cases x with
    | none => exact I.cast rfl (by options) (by options)
    | some x =>
      simp only [Option.isSome_none, Option.isSome_some, Bool.false_eq_true, Bool.true_eq_false, if_true, if_false, Prog.bind_run]
      refine (setHeld_ok I d _).bind fun _ h1 => ?_
      refine (oMove h1 (within_some hd) (within_some he)).bind fun _ h2 => ?_
      refine (oreset_ok h2 (n := e) (x := μ.left x) (by simp [place])).mono fun _ h3 => h3.cast ?_ ?_ ?_
      all_goals options
  | some t =>
    cases x with
    | none =>
      simp only [Option.isSome_none, Option.isSome_some, Bool.false_eq_true, Bool.true_eq_false, if_true, if_false, Prog.bind_run]
      refine (setHeld_ok I d _).bind fun _ h1 => ?_
      refine (oDrop h1 (within_some hd)).mono fun _ h2 => h2.cast ?_ ?_ ?_
      all_goals options
    | some x =>
      refine (oMoveAssign I hne (within_some hd) (within_some he) hin).mono fun _ h2 => h2.cast ?_ ?_ ?_
      all_goals options

theorem odrop_ok (I : OLaw L B w) (hn : B n = some x) : ((optionCls C).drop n w).Safe fun q => OLaw L (place B n none) q.2 := by
  simp only [optionCls, Prog.bind_run, held_run I (holdsOf_some hn), Out.bind_ok]
  cases x with
  | none =>
    simp only [Option.isSome_none, Bool.false_eq_true, if_false]
    exact (setHeld_ok I n _).mono fun _ h => h.cast rfl (by options) (by options)
  | some x =>
    simp only [Option.isSome_some, if_true, Prog.bind_run]
    refine (oDrop I (within_some hn)).bind fun _ h1 => (setHeld_ok h1 n _).mono fun _ h2 => h2.cast ?_ ?_ ?_
    all_goals options

end

/-- Options of objects that keep their promises keep theirs. -/
def optionLaw (L : Law C μ) : Law (optionCls C) (optionMeaning μ) where
  Inv := OLaw L
  start := ⟨rfl, cast (congrArg (fun E => L.Inv E C.start) (by funext m; simp only [glue, within, tnone]; split <;> rfl)) L.start⟩
  make I hn hm := omake_ok I hn hm
  copy I hd he hok := ocopy_ok I hd he hok
  copyDead {A s d e} I he := by
    have : s.holds e = none := by rw [I.holds]; simp [holdsOf, he]
    simp only [optionCls, Prog.bind_run, held, this, Out.bind_ub]
  move I hd he := omove_ok I hd he
  copyAssign I hne hd he hok hin := ocopyAssign_ok I hne hd he hok hin
  copySelf {A s d t} I hd hok := by
    simp only [optionCls, if_true, Prog.bind_run, held_run I (holdsOf_some hd), Out.bind_ok]
    exact I
  moveAssign I hne hd he hin := omoveAssign_ok I hne hd he hin
  moveSelf {A s d t} I hd := by
    simp only [optionCls, if_true, Prog.bind_run, held_run I (holdsOf_some hd), Out.bind_ok]
    exact I
  drop I hn := odrop_ok I hn
  call I hn hc := ocall_ok I hn hc
  newOk {m x} hm := by
    cases m with
    | none => cases hm; rfl
    | some m =>
      simp only [optionMeaning, oval, Option.map_eq_some_iff] at hm
      obtain ⟨y, hy, rfl⟩ := hm
      exact L.newOk hy
    | someCopy m =>
      simp only [optionMeaning, oval, Option.map_eq_some_iff] at hm
      obtain ⟨y, hy, rfl⟩ := hm
      exact L.cpOk (L.newOk hy)
  cpOk {x} h := by
    cases x with
    | none => rfl
    | some x => exact L.cpOk h
  idle {A s} I hA := L.idle I.inv fun n => by
    simp only [glue, within, tnone, hA]
    split <;> rfl

/-- when all options are empty, no object is left -/
theorem option_objects {B : Nat → Option (Option V)} {w : OWorld σ} (I : OLaw L B w) (hB : ∀ i v, B i = some v → v = none) : C.idle w.objs :=
  L.idle I.inv fun n => by
    have : within B = fun _ => none := by
      funext m
      unfold within
      cases h : B m with
      | none => rfl
      | some v => rw [hB m v h]; rfl
    simp only [glue, this, tnone]
    split <;> rfl

/-- an option holding what cannot be copied cannot be copied -/
theorem option_abort (hbad : ∀ A s d e x, L.Inv A s → A e = some x → μ.cpOk x = false → C.copy d e s = .panic ∨ C.copy d e s = .oom)
    (B : Nat → Option (Option V)) (w : OWorld σ) (d e : Nat) (x : Option V) (I : OLaw L B w) (he : B e = some x)
    (hx : x.all μ.cpOk = false) : (optionCls C).copy d e w = .panic ∨ (optionCls C).copy d e w = .oom := by
  cases x with
  | none => cases hx
  | some x =>
    simp only [optionCls, Prog.bind_run, held_run I (holdsOf_some he), Out.bind_ok]
    simp only [setHeld, Out.bind_ok, Option.isSome_some, if_true]
    exact stopped (hbad _ _ _ _ x I.inv (by rw [glue_cell]; exact within_some he) hx)

end Verif.Proof.Nested
