import Verif.Proof.NestedTower
import Verif.Spec.NestedResult
/-!
# Results of objects keep their promises if the objects do
-/
namespace Verif.Proof.Nested
open Verif Verif.Model.Nested Verif.Spec.Nested

variable {α V ε : Type} {S : Sig} {σ : Type} {C : Cls S σ} {μ : Meaning S V} {L : Law C μ}

def typesOf (B : Nat → Option (Except ε V)) : Nat → Option Bool := fun n => (B n).map Except.isOk
def okPart : Except ε V → Option V
  | .ok x => some x
  | .error _ => none
def errPart : Except ε V → Option ε
  | .ok _ => none
  | .error e => some e
def valuesOf (B : Nat → Option (Except ε V)) : Nat → Option V := fun n => (B n).bind okPart
def errorsOf (B : Nat → Option (Except ε V)) : Nat → Option ε := fun n => (B n).bind errPart

variable (L) in
/-- the results are as the specification says, and there are no objects but theirs and the temporaries `T` -/
structure RInv (T : Nat → Option V) (K : Nat → Option Bool) (G : Nat → Option ε) (E : Nat → Option V) (w : RWorld ε σ) : Prop where
  types : w.types = K
  errs : w.errs = G
  inv : L.Inv (glue E T) w.objs

section
variable {T E : Nat → Option V} {K : Nat → Option Bool} {G : Nat → Option ε} {w : RWorld ε σ} {β : Type}

theorem typeOf_run {b : Bool} (I : RInv L T K G E w) {n : Nat} (h : K n = some b) : typeOf n w = .ok (b, w) := by
  unfold typeOf; rw [I.types, h]

theorem errOf_run {x : ε} (I : RInv L T K G E w) {n : Nat} (h : G n = some x) : errOf n w = .ok (x, w) := by
  unfold errOf; rw [I.errs, h]

theorem setType_ok (I : RInv L T K G E w) (n : Nat) (b : Option Bool) :
    (setType n b w).Safe fun q => RInv L T (place K n b) G E q.2 := ⟨by rw [← I.types]; rfl, I.errs, I.inv⟩

theorem setErr_ok (I : RInv L T K G E w) (n : Nat) (x : Option ε) :
    (setErr n x w).Safe fun q => RInv L T K (place G n x) E q.2 := ⟨I.types, by rw [← I.errs]; rfl, I.inv⟩

theorem inOk_ok {f : Prog σ β} {P : β → Prop} {E' T' : Nat → Option V} (I : RInv L T K G E w)
    (h : (f w.objs).Safe fun q => P q.1 ∧ L.Inv (glue E' T') q.2) :
    (inOk f w).Safe fun q => P q.1 ∧ RInv L T' K G E' q.2 :=
  h.bind fun _ hq => ⟨hq.1, I.types, I.errs, hq.2⟩

theorem inOk_unit {f : Prog σ β} {E' T' : Nat → Option V} (I : RInv L T K G E w)
    (h : (f w.objs).Safe fun q => L.Inv (glue E' T') q.2) : (inOk f w).Safe fun q => RInv L T' K G E' q.2 :=
  (inOk_ok (P := fun _ => True) I (h.mono fun _ hq => ⟨trivial, hq⟩)).mono fun _ h => h.2

theorem rMake (I : RInv L T K G E w) {m : S.Make} {x : V} {k : Nat} (hn : T k = none) (hm : μ.val m = some x) :
    (inOk (C.make m (temp k)) w).Safe fun q => RInv L (place T k (some x)) K G E q.2 :=
  inOk_unit I ((L.make I.inv (by rw [glue_temp]; exact hn) hm).mono fun q hq => by rwa [place_temp] at hq)

theorem rDropTemp (I : RInv L T K G E w) {x : V} {k : Nat} (hn : T k = some x) :
    (inOk (C.drop (temp k)) w).Safe fun q => RInv L (place T k none) K G E q.2 :=
  inOk_unit I ((L.drop I.inv (by rw [glue_temp]; exact hn)).mono fun q hq => by rwa [place_temp] at hq)

theorem rDrop (I : RInv L T K G E w) {x : V} {n : Nat} (hn : E n = some x) :
    (inOk (C.drop (cell n)) w).Safe fun q => RInv L T K G (place E n none) q.2 :=
  inOk_unit I ((L.drop I.inv (by rw [glue_cell]; exact hn)).mono fun q hq => by rwa [place_cell] at hq)

theorem rMoveIn (I : RInv L T K G E w) {x : V} {n k : Nat} (hn : E n = none) (hk : T k = some x) :
    (inOk (C.move (cell n) (temp k)) w).Safe fun q => RInv L (place T k (some (μ.left x))) K G (place E n (some x)) q.2 :=
  inOk_unit I ((L.move I.inv (by rw [glue_cell]; exact hn) (by rw [glue_temp]; exact hk)).mono fun q hq => by
    rwa [place_cell, place_temp] at hq)

theorem rCopyIn (I : RInv L T K G E w) {x : V} {n k : Nat} (hn : E n = none) (hk : T k = some x) (hok : μ.cpOk x = true) :
    (inOk (C.copy (cell n) (temp k)) w).Safe fun q => RInv L T K G (place E n (some (μ.cp x))) q.2 :=
  inOk_unit I ((L.copy I.inv (by rw [glue_cell]; exact hn) (by rw [glue_temp]; exact hk) hok).mono fun q hq => by
    rwa [place_cell] at hq)

theorem rMoveOut (I : RInv L T K G E w) {x : V} {n k : Nat} (hn : E n = some x) (hk : T k = none) :
    (inOk (C.move (temp k) (cell n)) w).Safe fun q => RInv L (place T k (some x)) K G (place E n (some (μ.left x))) q.2 :=
  inOk_unit I ((L.move I.inv (by rw [glue_temp]; exact hk) (by rw [glue_cell]; exact hn)).mono fun q hq => by
    rwa [place_temp, place_cell] at hq)

theorem rCopyOut (I : RInv L T K G E w) {x : V} {n k : Nat} (hn : E n = some x) (hk : T k = none) (hok : μ.cpOk x = true) :
    (inOk (C.copy (temp k) (cell n)) w).Safe fun q => RInv L (place T k (some (μ.cp x))) K G E q.2 :=
  inOk_unit I ((L.copy I.inv (by rw [glue_temp]; exact hk) (by rw [glue_cell]; exact hn) hok).mono fun q hq => by
    rwa [place_temp] at hq)

theorem rMoveTemp (I : RInv L T K G E w) {x : V} {l k : Nat} (hl : T l = none) (hk : T k = some x) :
    (inOk (C.move (temp l) (temp k)) w).Safe fun q => RInv L (place (place T l (some x)) k (some (μ.left x))) K G E q.2 :=
  inOk_unit I ((L.move I.inv (by rw [glue_temp]; exact hl) (by rw [glue_temp]; exact hk)).mono fun q hq => by
    rwa [place_temp, place_temp] at hq)

theorem rCopy (I : RInv L T K G E w) {x : V} {d e : Nat} (hd : E d = none) (he : E e = some x) (hok : μ.cpOk x = true) :
    (inOk (C.copy (cell d) (cell e)) w).Safe fun q => RInv L T K G (place E d (some (μ.cp x))) q.2 :=
  inOk_unit I ((L.copy I.inv (by rw [glue_cell]; exact hd) (by rw [glue_cell]; exact he) hok).mono fun q hq => by
    rwa [place_cell] at hq)

theorem rMove (I : RInv L T K G E w) {x : V} {d e : Nat} (hd : E d = none) (he : E e = some x) :
    (inOk (C.move (cell d) (cell e)) w).Safe fun q => RInv L T K G (place (place E d (some x)) e (some (μ.left x))) q.2 :=
  inOk_unit I ((L.move I.inv (by rw [glue_cell]; exact hd) (by rw [glue_cell]; exact he)).mono fun q hq => by
    rwa [place_cell, place_cell] at hq)

theorem rCallTemp (I : RInv L T K G E w) {c : S.Call} {r : S.Ret} {x y : V} {k : Nat} (hk : T k = some x) (hc : μ.run c x = some (r, y)) :
    (inOk (C.call c (temp k)) w).Safe fun q => q.1 = r ∧ RInv L (place T k (some y)) K G E q.2 :=
  inOk_ok (P := fun a => a = r) I ((L.call I.inv (by rw [glue_temp]; exact hk) hc).mono fun q hq => ⟨hq.1, by rw [← place_temp]; exact hq.2⟩)

theorem rCall (I : RInv L T K G E w) {c : S.Call} {r : S.Ret} {x y : V} {n : Nat} (hn : E n = some x) (hc : μ.run c x = some (r, y)) :
    (inOk (C.call c (cell n)) w).Safe fun q => q.1 = r ∧ RInv L T K G (place E n (some y)) q.2 :=
  inOk_ok (P := fun a => a = r) I ((L.call I.inv (by rw [glue_cell]; exact hn) hc).mono fun q hq => ⟨hq.1, by rw [← place_cell]; exact hq.2⟩)

theorem rAssign (I : RInv L T K G E w) {t x : V} {d e : Nat} (hne : d ≠ e) (hd : E d = some t)
    (he : E e = some x) (hok : μ.cpOk x = true) (hin : μ.cpInto t x = true) :
    (inOk (C.copyAssign (cell d) (cell e)) w).Safe fun q => RInv L T K G (place E d (some (μ.cpAssign t x))) q.2 :=
  inOk_unit I ((L.copyAssign I.inv (by unfold cell; omega) (by rw [glue_cell]; exact hd) (by rw [glue_cell]; exact he) hok hin).mono
    fun q hq => by rwa [place_cell] at hq)

theorem rMoveAssign (I : RInv L T K G E w) {t x : V} {d e : Nat} (hne : d ≠ e) (hd : E d = some t)
    (he : E e = some x) (hin : μ.mvInto t x = true) :
    (inOk (C.moveAssign (cell d) (cell e)) w).Safe fun q => RInv L T K G (place (place E d (some x)) e (some (μ.leftInto t x))) q.2 :=
  inOk_unit I ((L.moveAssign I.inv (by unfold cell; omega) (by rw [glue_cell]; exact hd) (by rw [glue_cell]; exact he) hin).mono
    fun q hq => by rwa [place_cell, place_cell] at hq)

theorem RInv.cast {T' E' : Nat → Option V} {K' : Nat → Option Bool} {G' : Nat → Option ε} (I : RInv L T K G E w) (h1 : T = T') (h2 : K = K')
    (h3 : G = G') (h4 : E = E') : RInv L T' K' G' E' w := by subst h1; subst h2; subst h3; subst h4; exact I

end

variable (L) in
def RLaw (B : Nat → Option (Except ε V)) (w : RWorld ε σ) : Prop := RInv L tnone (typesOf B) (errorsOf B) (valuesOf B) w

local macro "results" : tactic =>
  `(tactic| (funext m; simp only [place, typesOf, valuesOf, errorsOf, tnone]; repeat' split) <;>
    first | rfl | (simp_all; done) | (simp_all [resultMeaning, Except.map, Except.isOk, Except.toBool, okPart, errPart]; done))

section
variable {B : Nat → Option (Except ε V)} {n : Nat}

theorem typesOf_some {x : Except ε V} (h : B n = some x) : typesOf B n = some x.isOk := by simp [typesOf, h]
theorem typesOf_ok {x : V} (h : B n = some (.ok x)) : typesOf B n = some true := by rw [typesOf_some h]; rfl
theorem typesOf_err {e : ε} (h : B n = some (.error e)) : typesOf B n = some false := by rw [typesOf_some h]; rfl
theorem valuesOf_ok {x : V} (h : B n = some (.ok x)) : valuesOf B n = some x := by simp [valuesOf, h, okPart, errPart]
theorem valuesOf_err {e : ε} (h : B n = some (.error e)) : valuesOf B n = none := by simp [valuesOf, h, okPart, errPart]
theorem valuesOf_none (h : B n = none) : valuesOf B n = none := by simp [valuesOf, h, okPart, errPart]
theorem errorsOf_ok {x : V} (h : B n = some (.ok x)) : errorsOf B n = none := by simp [errorsOf, h, okPart, errPart]
theorem errorsOf_err {e : ε} (h : B n = some (.error e)) : errorsOf B n = some e := by simp [errorsOf, h, okPart, errPart]
theorem errorsOf_none (h : B n = none) : errorsOf B n = none := by simp [errorsOf, h, okPart, errPart]
end

section
variable {B : Nat → Option (Except ε V)} {w : RWorld ε σ}

theorem rmake_ok (I : RLaw L B w) {n : Nat} (hn : B n = none) {m : RMake S.Make ε} {x : Except ε V} (hm : rval μ m = some x) :
    (rmake C m n w).Safe fun q => RLaw L (place B n (some x)) q.2 := by
  cases m with
  | ok m =>
    simp only [rval, Option.map_eq_some_iff] at hm
    obtain ⟨y, hy, rfl⟩ := hm
    simp only [rmake, Prog.bind_run]
    refine (rMake I (k := 0) rfl hy).bind fun _ h1 => ?_
    refine (setType_ok h1 n _).bind fun _ h2 => ?_
    refine (rMoveIn h2 (n := n) (k := 0) (x := y) (valuesOf_none hn) (by simp [place])).bind fun _ h3 => ?_
    refine (rDropTemp h3 (k := 0) (x := μ.left y) (by simp [place])).mono fun _ h4 => h4.cast ?_ ?_ ?_ ?_
    all_goals results
  | okCopy m =>
    simp only [rval, Option.map_eq_some_iff] at hm
    obtain ⟨y, hy, rfl⟩ := hm
    simp only [rmake, Prog.bind_run]
    refine (rMake I (k := 0) rfl hy).bind fun _ h1 => ?_
    refine (setType_ok h1 n _).bind fun _ h2 => ?_
    refine (rCopyIn h2 (n := n) (k := 0) (x := y) (valuesOf_none hn) (by simp [place]) (L.newOk hy)).bind fun _ h3 => ?_
    refine (rDropTemp h3 (k := 0) (x := y) (by simp [place])).mono fun _ h4 => h4.cast ?_ ?_ ?_ ?_
    all_goals results
  | err e =>
    cases hm
    simp only [rmake, Prog.bind_run]
    refine (setType_ok I n _).bind fun _ h1 => (setErr_ok h1 n _).mono fun _ h2 => h2.cast ?_ ?_ ?_ ?_
    all_goals results

theorem rcall_ok (I : RLaw L B w) {n : Nat} {x : Except ε V} (hn : B n = some x) {c : RCall S.Call} {r : RRet S.Ret ε} {y : Except ε V}
    (hc : rrun μ c x = some (r, y)) : (rcall C c n w).Safe fun q => q.1 = r ∧ RLaw L (place B n (some y)) q.2 := by
  have hh := typeOf_run I (typesOf_some hn)
  have hself : place B n (some x) = B := place_self B hn
  cases c with
  | isOk =>
    cases hc
    simp only [rcall, Prog.bind_run, hh, Out.bind_ok]
    exact ⟨rfl, by rw [hself]; exact I⟩
  | isErr =>
    cases hc
    simp only [rcall, Prog.bind_run, hh, Out.bind_ok]
    exact ⟨rfl, by rw [hself]; exact I⟩
  | unwrap c =>
    cases x with
    | error e => cases hc
    | ok x =>
    simp only [rrun, Option.map_eq_some_iff] at hc
    obtain ⟨⟨r', y'⟩, hr, hc⟩ := hc
    cases hc
    simp only [rcall, Prog.bind_run, hh, Out.bind_ok, Except.isOk, Except.toBool, if_true]
    refine (rCall I (valuesOf_ok hn) hr).bind ?_
    rintro ⟨_, w'⟩ ⟨rfl, h3⟩
    refine ⟨rfl, h3.cast ?_ ?_ ?_ ?_⟩
    all_goals results
  | okRef c =>
    cases x with
    | error e => cases hc
    | ok x =>
    simp only [rrun, Option.map_eq_some_iff] at hc
    obtain ⟨⟨r', y'⟩, hr, hc⟩ := hc
    cases hc
    simp only [rcall, Prog.bind_run, hh, Out.bind_ok]
    refine (rCall I (valuesOf_ok hn) hr).bind ?_
    rintro ⟨_, w'⟩ ⟨rfl, h3⟩
    refine ⟨rfl, h3.cast ?_ ?_ ?_ ?_⟩
    all_goals results
  | take c =>
    cases x with
    | error e => cases hc
    | ok x =>
    simp only [rrun, Option.map_eq_some_iff] at hc
    obtain ⟨⟨r', y'⟩, hr, hc⟩ := hc
    cases hc
    simp only [rcall, Prog.bind_run, hh, Out.bind_ok, Except.isOk, Except.toBool, if_true]
    refine (rMoveOut I (k := 0) (valuesOf_ok hn) rfl).bind fun _ h2 => ?_
    refine (rCallTemp h2 (k := 0) (x := x) (by simp [place]) hr).bind ?_
    rintro ⟨_, w'⟩ ⟨rfl, h3⟩
    refine (rDropTemp h3 (k := 0) (x := y') (by simp [place])).bind fun _ h4 => ⟨rfl, h4.cast ?_ ?_ ?_ ?_⟩
    all_goals results
  | get c =>
    cases x with
    | error e => cases hc
    | ok x =>
    simp only [rrun] at hc
    split at hc
    case isFalse => cases hc
    case isTrue hok =>
    simp only [Option.map_eq_some_iff] at hc
    obtain ⟨⟨r', y'⟩, hr, hc⟩ := hc
    cases hc
    simp only [rcall, Prog.bind_run, hh, Out.bind_ok, Except.isOk, Except.toBool, if_true]
    refine (rCopyOut I (k := 0) (valuesOf_ok hn) rfl hok).bind fun _ h1 => ?_
    refine (rMoveTemp h1 (l := 1) (k := 0) (x := μ.cp x) (by simp [place, tnone]) (by simp [place])).bind fun _ h2 => ?_
    refine (rDropTemp h2 (k := 0) (x := μ.left (μ.cp x)) (by simp [place])).bind fun _ h3 => ?_
    refine (rCallTemp h3 (k := 1) (x := μ.cp x) (by simp [place]) hr).bind ?_
    rintro ⟨_, w'⟩ ⟨rfl, h4⟩
    refine (rDropTemp h4 (k := 1) (x := y') (by simp [place])).bind fun _ h5 => ⟨rfl, h5.cast ?_ ?_ ?_ ?_⟩
    all_goals results
  | err =>
    cases x with
    | error e =>
      cases hc
      simp only [rcall, Prog.bind_run, hh, Out.bind_ok, Except.isOk, Except.toBool, Bool.false_eq_true, if_false, errOf_run I (errorsOf_err hn)]
      exact ⟨rfl, by rw [hself]; exact I⟩
    | ok x =>
      cases hc
      simp only [rcall, Prog.bind_run, hh, Out.bind_ok, Except.isOk, Except.toBool, if_true]
      exact ⟨rfl, by rw [hself]; exact I⟩
  | unwrapErr =>
    cases x with
    | ok x => cases hc
    | error e =>
      cases hc
      simp only [rcall, Prog.bind_run, hh, Out.bind_ok, Except.isOk, Except.toBool, Bool.false_eq_true, if_false, errOf_run I (errorsOf_err hn)]
      exact ⟨rfl, by rw [hself]; exact I⟩

variable {d e n : Nat} {t x : Except ε V}

theorem rcopy_ok (I : RLaw L B w) (hd : B d = none) (he : B e = some x) (hok : (resultMeaning ε μ).cpOk x = true) :
    ((resultCls C ε).copy d e w).Safe fun q => RLaw L (place B d (some (x.map μ.cp))) q.2 := by
  have hne : e ≠ d := by rintro rfl; rw [hd] at he; cases he
  cases x with
  | error v =>
    simp only [resultCls, Prog.bind_run, typeOf_run I (typesOf_err he), Out.bind_ok]
    refine (setType_ok I d _).bind fun _ h1 => ?_
    have ht : place (typesOf B) d (some false) e = some false := by rw [place_ne _ _ hne]; exact typesOf_err he
    simp only [rcopyImpl, Prog.bind_run, typeOf_run h1 ht, Out.bind_ok, Bool.false_eq_true, if_false, errOf_run h1 (errorsOf_err he)]
    refine (setErr_ok h1 d _).mono fun _ h2 => h2.cast ?_ ?_ ?_ ?_
    all_goals results
  | ok x =>
    simp only [resultCls, Prog.bind_run, typeOf_run I (typesOf_ok he), Out.bind_ok]
    refine (setType_ok I d _).bind fun _ h1 => ?_
    have ht : place (typesOf B) d (some true) e = some true := by rw [place_ne _ _ hne]; exact typesOf_ok he
    simp only [rcopyImpl, Prog.bind_run, typeOf_run h1 ht, Out.bind_ok, if_true]
    refine (setErr_ok h1 d _).bind fun _ h2 => ?_
    refine (rCopy h2 (valuesOf_none hd) (valuesOf_ok he) hok).mono fun _ h2 => h2.cast ?_ ?_ ?_ ?_
    all_goals results

theorem rmove_ok (I : RLaw L B w) (hd : B d = none) (he : B e = some x) :
    ((resultCls C ε).move d e w).Safe fun q => RLaw L (place (place B d (some x)) e (some (x.map μ.left))) q.2 := by
  have hne : e ≠ d := by rintro rfl; rw [hd] at he; cases he
  cases x with
  | error v =>
    simp only [resultCls, Prog.bind_run, typeOf_run I (typesOf_err he), Out.bind_ok]
    refine (setType_ok I d _).bind fun _ h1 => ?_
    have ht : place (typesOf B) d (some false) e = some false := by rw [place_ne _ _ hne]; exact typesOf_err he
    simp only [rmoveImpl, Prog.bind_run, typeOf_run h1 ht, Out.bind_ok, Bool.false_eq_true, if_false, errOf_run h1 (errorsOf_err he)]
    refine (setErr_ok h1 d _).mono fun _ h2 => h2.cast ?_ ?_ ?_ ?_
    all_goals results
  | ok x =>
    simp only [resultCls, Prog.bind_run, typeOf_run I (typesOf_ok he), Out.bind_ok]
    refine (setType_ok I d _).bind fun _ h1 => ?_
    have ht : place (typesOf B) d (some true) e = some true := by rw [place_ne _ _ hne]; exact typesOf_ok he
    simp only [rmoveImpl, Prog.bind_run, typeOf_run h1 ht, Out.bind_ok, if_true]
    refine (setErr_ok h1 d _).bind fun _ h2 => ?_
    refine (rMove h2 (valuesOf_none hd) (valuesOf_ok he)).mono fun _ h2 => h2.cast ?_ ?_ ?_ ?_
    all_goals results

theorem rcopyAssign_ok (I : RLaw L B w) (hne : d ≠ e) (hd : B d = some t) (he : B e = some x) (hok : (resultMeaning ε μ).cpOk x = true)
    (hin : (resultMeaning ε μ).cpInto t x = true) :
    ((resultCls C ε).copyAssign d e w).Safe fun q => RLaw L (place B d (some ((resultMeaning ε μ).cpAssign t x))) q.2 := by
  have hne' : e ≠ d := Ne.symm hne
  cases t with
  | error u =>
    cases x with
    | ok x => cases hin
    | error v =>
      simp only [resultCls, if_neg hne, Prog.bind_run, typeOf_run I (typesOf_err hd), typeOf_run I (typesOf_err he), Out.bind_ok,
        Bool.false_eq_true, if_true, if_false, errOf_run I (errorsOf_err he)]
      refine (setErr_ok I d _).mono fun _ h2 => h2.cast ?_ ?_ ?_ ?_
      all_goals results
  | ok t =>
    cases x with
    | error v => cases hin
    | ok x =>
      simp only [resultCls, if_neg hne, Prog.bind_run, typeOf_run I (typesOf_ok hd), typeOf_run I (typesOf_ok he), Out.bind_ok, if_true]
      refine (rAssign I hne (valuesOf_ok hd) (valuesOf_ok he) hok hin).mono fun _ h2 => h2.cast ?_ ?_ ?_ ?_
      all_goals results

theorem rmoveAssign_ok (I : RLaw L B w) (hne : d ≠ e) (hd : B d = some t) (he : B e = some x)
    (hin : (resultMeaning ε μ).mvInto t x = true) :
    ((resultCls C ε).moveAssign d e w).Safe fun q =>
      RLaw L (place (place B d (some x)) e (some ((resultMeaning ε μ).leftInto t x))) q.2 := by
  have hne' : e ≠ d := Ne.symm hne
  cases t with
  | error u =>
    cases x with
    | ok x => cases hin
    | error v =>
      simp only [resultCls, if_neg hne, Prog.bind_run, typeOf_run I (typesOf_err hd), typeOf_run I (typesOf_err he), Out.bind_ok,
        Bool.false_eq_true, if_true, if_false, errOf_run I (errorsOf_err he)]
      refine (setErr_ok I d _).mono fun _ h2 => h2.cast ?_ ?_ ?_ ?_
      all_goals results
  | ok t =>
    cases x with
    | error v => cases hin
    | ok x =>
      simp only [resultCls, if_neg hne, Prog.bind_run, typeOf_run I (typesOf_ok hd), typeOf_run I (typesOf_ok he), Out.bind_ok, if_true]
      refine (rMoveAssign I hne (valuesOf_ok hd) (valuesOf_ok he) hin).mono fun _ h2 => h2.cast ?_ ?_ ?_ ?_
      all_goals results

theorem rdrop_ok (I : RLaw L B w) (hn : B n = some x) : ((resultCls C ε).drop n w).Safe fun q => RLaw L (place B n none) q.2 := by
  cases x with
  | error v =>
    simp only [resultCls, Prog.bind_run, typeOf_run I (typesOf_err hn), Out.bind_ok, rdestroy, Bool.false_eq_true, if_false, Prog.pure_run]
    refine (setType_ok I n _).bind fun _ h => (setErr_ok h n _).mono fun _ h => h.cast ?_ ?_ ?_ ?_
    all_goals results
  | ok x =>
    simp only [resultCls, Prog.bind_run, typeOf_run I (typesOf_ok hn), Out.bind_ok, rdestroy, if_true]
    refine (rDrop I (valuesOf_ok hn)).bind fun _ h1 => (setType_ok h1 n _).bind fun _ h => (setErr_ok h n _).mono fun _ h2 => h2.cast ?_ ?_ ?_ ?_
    all_goals results

end

/-- Results of objects that keep their promises keep theirs. -/
def resultLaw (ε : Type) (L : Law C μ) : Law (resultCls C ε) (resultMeaning ε μ) where
  Inv := RLaw L
  start := ⟨rfl, rfl, cast (congrArg (fun E => L.Inv E C.start) (by funext m; simp only [glue, valuesOf, tnone]; split <;> rfl)) L.start⟩
  make I hn hm := rmake_ok I hn hm
  copy I hd he hok := rcopy_ok I hd he hok
  copyDead {A s d e} I he := by
    have : s.types e = none := by rw [I.types]; simp [typesOf, he]
    simp only [resultCls, Prog.bind_run, typeOf, this, Out.bind_ub]
  move I hd he := rmove_ok I hd he
  copyAssign I hne hd he hok hin := rcopyAssign_ok I hne hd he hok hin
  copySelf {A s d t} I hd hok := by
    simp only [resultCls, if_true, Prog.bind_run, typeOf_run I (typesOf_some hd), Out.bind_ok]
    exact I
  moveAssign I hne hd he hin := rmoveAssign_ok I hne hd he hin
  moveSelf {A s d t} I hd := by
    simp only [resultCls, if_true, Prog.bind_run, typeOf_run I (typesOf_some hd), Out.bind_ok]
    exact I
  drop I hn := rdrop_ok I hn
  call I hn hc := rcall_ok I hn hc
  newOk {m x} hm := by
    cases m with
    | ok m =>
      simp only [resultMeaning, rval, Option.map_eq_some_iff] at hm
      obtain ⟨y, hy, rfl⟩ := hm
      exact L.newOk hy
    | okCopy m =>
      simp only [resultMeaning, rval, Option.map_eq_some_iff] at hm
      obtain ⟨y, hy, rfl⟩ := hm
      exact L.cpOk (L.newOk hy)
    | err e => cases hm; rfl
  cpOk {x} h := by
    cases x with
    | error e => rfl
    | ok x => exact L.cpOk h
  idle {A s} I hA := L.idle I.inv fun n => by
    simp only [glue, valuesOf, tnone, hA]
    split <;> rfl

/-! ## Objects that ended cannot be destroyed -/

theorem value_dead (ety : Model.Mem.ElemTy α) {A : Nat → Option (Spec.Vector.Var α)} {w : Model.Vector.World α} {n : Nat}
    (I : Vector.Inv ety A w) (h : A n = none) : (valueVectorCls ety).drop n w = .ub := by
  simp only [valueVectorCls, quiet, Model.Vector.step, Prog.bind_run, Model.Vector.var, I.get_none h, Out.bind_ub]

theorem list_dead (cfg : Model.LL.Cfg α) {A : Nat → Option (Spec.LL.Var α)} {w : Model.LL.World α} {n : Nat}
    (I : LInv cfg A w) (h : A n = none) : (listCls cfg).drop n w = .ub := by
  obtain ⟨G, I, rfl⟩ := I
  have : w.vars n = none := by
    rw [I.vars n]
    simp only [LL.ideal, Option.map_eq_none_iff] at h
    rw [h]; rfl
  simp only [listCls, hushed, Model.LL.step, Prog.bind_run, Model.LL.var, this, Out.bind_ub]

theorem text_dead (enc : Model.BStr.Enc) (refuse : Nat → Nat → Bool) {A : Nat → Option (List UInt8)} {w : Model.BStr.World} {n : Nat}
    (I : (textLaw enc refuse).Inv A w) (h : A n = none) : (textCls (textCfg enc refuse)).drop n w = .ub := by
  simp only [textCls, muted, Model.BStr.step, Prog.bind_run, Model.BStr.var, I.dom n h, Out.bind_ub]

theorem vector_dead (ty : Model.Mem.ElemTy Unit) {B : Nat → Option (Spec.Vector.Var V)} {w : NWorld σ} {n : Nat} (I : WInv L ty B w)
    (h : B n = none) : (vectorCls ty C).drop n w = .ub := by
  obtain ⟨A, I⟩ := I
  simp only [vectorCls, Prog.bind_run, obj, I.get_none h, Out.bind_ub]

theorem linked_dead (cfg : Model.LL.Cfg Unit) (x0 : V) {A : Nat → Option (Spec.LL.Var V)} {w : LWorld σ} {n : Nat} (I : EInv L cfg x0 A w)
    (h : A n = none) : (linkedCls C cfg).drop n w = .ub := by
  obtain ⟨W, hr, G, I, rfl⟩ := I
  have : w.vars n = none := by
    rw [hr.2, I.vars n]
    simp only [LL.ideal, Option.map_eq_none_iff] at h
    rw [h]; rfl
  simp only [linkedCls, Prog.bind_run, lobj, this, Out.bind_ub]

theorem option_dead {A : Nat → Option (Option V)} {w : OWorld σ} {n : Nat} (I : OLaw L A w) (h : A n = none) :
    (optionCls C).drop n w = .ub := by
  have : w.holds n = none := by rw [I.holds]; simp [holdsOf, h]
  simp only [optionCls, Prog.bind_run, held, this, Out.bind_ub]

theorem shape_dead : (s : Shape α) → ∀ A w n, (law s).Inv A w → A n = none → s.cls.drop n w = .ub
  | .values ety, _, _, _, I, h => value_dead ety I h
  | .lists cfg, _, _, _, I, h => list_dead cfg I h
  | .texts enc refuse, _, _, _, I, h => text_dead enc refuse I h
  | .vector ty s, _, _, _, I, h => vector_dead (L := law s) ty I h
  | .linked cfg s, _, _, _, I, h => linked_dead (L := law s) cfg (blank s) I h
  | .option s, _, _, _, I, h => option_dead (L := law s) I h

theorem result_dead {A : Nat → Option (Except ε V)} {w : RWorld ε σ} {n : Nat} (I : RLaw L A w) (h : A n = none) :
    (resultCls C ε).drop n w = .ub := by
  have : w.types n = none := by rw [I.types]; simp [typesOf, h]
  simp only [resultCls, Prog.bind_run, typeOf, this, Out.bind_ub]

/-! ## Any depth -/

variable (ε) in
def fblank : (f : Full α) → FVal ε f
  | .base s => blank s
  | .result f => (.ok (fblank f) : Except ε (FVal ε f))
  | .vector _ f => (⟨[], 0, 0⟩ : Spec.Vector.Var (FVal ε f))
  | .linked _ f => (⟨none, 0⟩ : Spec.LL.Var (FVal ε f))
  | .option f => (none : Option (FVal ε f))

variable (ε) in
def flaw : (f : Full α) → Law (f.cls ε) (fmeaning ε f)
  | .base s => law s
  | .result f => resultLaw ε (flaw f)
  | .vector ty f => vectorLaw ty (flaw f)
  | .linked cfg f => linkedLaw cfg (fblank ε f) (flaw f)
  | .option f => optionLaw (flaw f)

theorem full_dead : (f : Full α) → ∀ A w n, (flaw ε f).Inv A w → A n = none → (f.cls ε).drop n w = .ub
  | .base s, A, w, n, I, h => shape_dead s A w n I h
  | .result f, _, _, _, I, h => result_dead (L := flaw ε f) I h
  | .vector ty f, _, _, _, I, h => vector_dead (L := flaw ε f) ty I h
  | .linked cfg f, _, _, _, I, h => linked_dead (L := flaw ε f) cfg (fblank ε f) I h
  | .option f, _, _, _, I, h => option_dead (L := flaw ε f) I h

/-! ## Assignments between values and errors -/

section
variable {B : Nat → Option (Except ε V)} {w : RWorld ε σ} {d e : Nat} {t x : V} {v u : ε}

/-- an error assigned to a value: the result has no object, but its type says it has -/
theorem rassign_err (I : RLaw L B w) (hne : d ≠ e) (hd : B d = some (.ok t)) (he : B e = some (.error v)) :
    ((resultCls C ε).copyAssign d e w).Safe (fun q =>
        RInv L tnone (typesOf B) (place (errorsOf B) d (some v)) (place (valuesOf B) d none) q.2) ∧
      ((resultCls C ε).moveAssign d e w).Safe (fun q =>
        RInv L tnone (typesOf B) (place (errorsOf B) d (some v)) (place (valuesOf B) d none) q.2) := by
  constructor <;>
  · simp only [resultCls, if_neg hne, Prog.bind_run, typeOf_run I (typesOf_ok hd), typeOf_run I (typesOf_err he), Out.bind_ok, rdestroy, if_true,
      Bool.true_eq_false, if_false]
    refine (rDrop I (valuesOf_ok hd)).bind fun _ h1 => ?_
    simp only [rcopyImpl, rmoveImpl, Prog.bind_run, typeOf_run h1 (typesOf_err he), Out.bind_ok, Bool.false_eq_true, if_false,
      errOf_run h1 (errorsOf_err he)]
    exact setErr_ok h1 d _

/-- a value assigned to an error: the result has an object, but its type says it has none -/
theorem rassign_ok (I : RLaw L B w) (hne : d ≠ e) (hd : B d = some (.error u)) (he : B e = some (.ok x)) :
    (μ.cpOk x = true → ((resultCls C ε).copyAssign d e w).Safe fun q =>
        RInv L tnone (typesOf B) (place (errorsOf B) d none) (place (valuesOf B) d (some (μ.cp x))) q.2) ∧
      ((resultCls C ε).moveAssign d e w).Safe (fun q =>
        RInv L tnone (typesOf B) (place (errorsOf B) d none) (place (place (valuesOf B) d (some x)) e (some (μ.left x))) q.2) := by
  refine ⟨fun hok => ?_, ?_⟩
  · simp only [resultCls, if_neg hne, Prog.bind_run, typeOf_run I (typesOf_err hd), typeOf_run I (typesOf_ok he), Out.bind_ok, rdestroy,
      Bool.false_eq_true, if_false, Prog.pure_run, rcopyImpl, if_true]
    exact (setErr_ok I d _).bind fun _ h1 => rCopy h1 (valuesOf_err hd) (valuesOf_ok he) hok
  · simp only [resultCls, if_neg hne, Prog.bind_run, typeOf_run I (typesOf_err hd), typeOf_run I (typesOf_ok he), Out.bind_ok, rdestroy,
      Bool.false_eq_true, if_false, Prog.pure_run, rmoveImpl, if_true]
    exact (setErr_ok I d _).bind fun _ h1 => rMove h1 (valuesOf_err hd) (valuesOf_ok he)

variable {T E : Nat → Option V} {K : Nat → Option Bool} {G : Nat → Option ε}

theorem isOk_lies {b : Bool} (I : RInv L T K G E w) (h : K d = some b) : (nstep (resultCls C ε) (.call d .isOk) w).Safe fun q =>
    q.1 = some (.bool b) ∧ q.2 = w := by
  have : (resultCls C ε).call .isOk d w = .ok (.bool b, w) := by
    simp only [resultCls, rcall, Prog.bind_run, typeOf_run I h, Out.bind_ok]; rfl
  simp only [nstep]
  rw [Prog.bind_run, this]
  exact ⟨rfl, rfl⟩

/-- no object where the type says there is one: the destructor destroys nothing that lives -/
theorem drop_dead (hdead : ∀ A w n, L.Inv A w → A n = none → C.drop n w = .ub) (I : RInv L T K G E w) (h : K d = some true) (hE : E d = none) :
    nstep (resultCls C ε) (.drop d) w = .ub := by
  simp only [nstep, resultCls, Prog.bind_run, typeOf_run I h, Out.bind_ok, rdestroy, if_true, inOk]
  rw [hdead _ _ _ I.inv (by rw [glue_cell]; exact hE)]
  rfl

/-- an object where the type says there is none: the destructor leaves it -/
theorem drop_leaves (I : RInv L T K G E w) (h : K d = some false) : (nstep (resultCls C ε) (.drop d) w).Safe fun q => q.2.objs = w.objs := by
  simp only [nstep, resultCls, Prog.bind_run, typeOf_run I h, Out.bind_ok, rdestroy, Bool.false_eq_true, if_false, Prog.pure_run]
  rfl

/-- an error whose type is kept, but which is not there -/
theorem err_dead (I : RInv L T K G E w) (h : K d = some false) (hG : G d = none) : nstep (resultCls C ε) (.call d .err) w = .ub := by
  have : (resultCls C ε).call .err d w = .ub := by
    simp only [resultCls, rcall, Prog.bind_run, typeOf_run I h, Out.bind_ok, Bool.false_eq_true, if_false, errOf, I.errs, hG, Out.bind_ub]
    rfl
  simp only [nstep]
  rw [Prog.bind_run, this]
  rfl

end

/-- when no result holds a value, no object is left -/
theorem result_objects {B : Nat → Option (Except ε V)} {w : RWorld ε σ} (I : RLaw L B w) (hB : ∀ i x, B i ≠ some (.ok x)) : C.idle w.objs :=
  L.idle I.inv fun n => by
    have : valuesOf B = fun _ => none := by
      funext m
      unfold valuesOf
      match h : B m with
      | none => rfl
      | some (.error _) => rfl
      | some (.ok x) => exact absurd h (hB m x)
    simp only [glue, this, tnone]
    split <;> rfl

end Verif.Proof.Nested
