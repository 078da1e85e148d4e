import Verif.Model.Unchecked
import Verif.Props.Opt
import Verif.Props.ResultRef
import Verif.Props.Vector
/-!
# Property C87: unchecked accessors, and writing through borrowed payloads

An unchecked accessor does what the checked one does where that succeeds, and is undefined exactly where it does not.
-/
namespace Verif.Props
open Verif

/-! ## Option -/
section
open Verif.Model.Opt Verif.Spec.Opt
variable {α : Type}

/-- C87, Option: after any history, on an option that holds a value `unwrap_unchecked` and `as_ref_uncheck` are `unwrap` and
`as_ref` (which answer that value, C46); on one that holds none they are undefined. -/
theorem C87_option (mv : α → α) (ops : List (Op α)) (rs A) (hs : specRun mv ops (fun _ => none) = some (.ok (rs, A)))
    (i : Nat) (o : Option α) (hi : A i = some o) :
    ∃ w, run mv ops World.init = .ok (rs, w) ∧
      (∀ v, o = some v →
        (∃ w', unwrapUnchecked mv i w = .ok (v, w') ∧ unwrap mv i w = .ok (v, w')) ∧
        asRefUncheckRead i w = .ok (v, w) ∧ asRefRead i w = .ok (v, w) ∧
        ∀ x, ∃ w', asRefUncheckWrite i x w = .ok ((), w') ∧ optContent w' = put A i (some (some x))) ∧
      (o = none → unwrapUnchecked mv i w = .ub ∧ asRefUncheckRead i w = .ub ∧ ∀ x, asRefUncheckWrite i x w = .ub) := by
  obtain ⟨w, h1, hR⟩ := after_history mv hs
  refine ⟨w, h1, ?_, ?_⟩
  · rintro v rfl
    have h := Proof.Opt.objOk_some_some (hi ▸ hR i)
    refine ⟨⟨_, by simp [unwrapUnchecked, obj, h, moveVal, reset, destroyVal, setHold, modObj]; rfl,
      by simp [unwrap, unwrapUnchecked, obj, h, moveVal, reset, destroyVal, setHold, modObj]⟩, ?_, ?_, fun x => ?_⟩
    · simp [asRefUncheckRead, obj, h, readVal]
    · simp [asRefRead, obj, h, readVal]
    · refine ⟨_, by simp [asRefUncheckWrite, obj, h, assignVal]; rfl, ?_⟩
      exact optContent_eq (Proof.Opt.R_put hR (Proof.Opt.objOk_of_some_some (by simp) (by simp) (by simp) (by simp))
        (fun k hk => by simp [Proof.Opt.upd_ne, hk]))
  · rintro rfl
    have h := Proof.Opt.objOk_some_none (hi ▸ hR i)
    simp [unwrapUnchecked, asRefUncheckRead, asRefUncheckWrite, obj, h, moveVal, readVal, assignVal]

example : ∃ rs A, specRun (fun _ : Nat => 0) [.mkNone 0, .mkSome 1 7] (fun _ => none) = some (.ok (rs, A)) ∧
    A 0 = some none ∧ A 1 = some (some 7) := ⟨_, _, rfl, rfl, rfl⟩

/-- C87, `Option<T&>`. -/
theorem C87_option_ref (w : RefWorld α) (i : Nat) :
    (∀ a, w.refs i = some a → refUnwrapUnchecked i w = refUnwrap i w ∧ refAsRefUncheck i w = .ok (a, w) ∧ refAsRef i w = .ok (a, w)) ∧
    (w.refs i = none → refUnwrapUnchecked i w = .ub ∧ refAsRefUncheck i w = .ub) := by
  constructor
  · intro a h; simp [refUnwrapUnchecked, refUnwrap, refAsRefUncheck, refAsRef, h]
  · intro h; simp [refUnwrapUnchecked, refAsRefUncheck, h]

end

/-! ## Result -/
section
open Verif.Model.Res Verif.Spec.Res
variable {τ ε : Type}

/-- C87, Result: after any history, on an ok result the unchecked accessors of the value answer it and are the checked ones, and
those of the error are undefined; on an error the other way round. -/
theorem C87_result (C : Cfg τ ε) (ops : List (Op τ ε)) (rs A)
    (hs : specRun false C.mvT C.mvE ops (fun _ => none) = some (.ok (rs, A))) (i : Nat) (x : τ ⊕ ε) (hi : A i = some x) :
    ∃ w, run C ops World.init = .ok (rs, w) ∧
      (∀ t, x = .inl t →
        (∃ w', unwrapUnchecked C i w = .ok (t, w') ∧ unwrap C i w = .ok (t, w')) ∧
        okUnchecked i w = .ok (t, w) ∧ okOpt i w = .ok (some t, w) ∧
        unwrapErrUnchecked C i w = .ub ∧ errUnchecked i w = .ub ∧ ∀ e, errSetUnchecked i e w = .ub) ∧
      (∀ e, x = .inr e →
        (∃ w', unwrapErrUnchecked C i w = .ok (e, w') ∧ unwrapErr C i w = .ok (e, w')) ∧
        errUnchecked i w = .ok (e, w) ∧ errOpt i w = .ok (some e, w) ∧
        unwrapUnchecked C i w = .ub ∧ okUnchecked i w = .ub ∧ ∀ t, okSetUnchecked i t w = .ub) := by
  obtain ⟨w, h1, hR⟩ := after_history_res C hs
  have h : Proof.Res.ObjOk (w i) (some x) := hi ▸ hR i
  simp only [Proof.Res.ObjOk] at h
  refine ⟨w, h1, ?_, ?_⟩
  · rintro t rfl
    simp [unwrapUnchecked, unwrap, okUnchecked, okOpt, unwrapErrUnchecked, errUnchecked, errSetUnchecked, obj, h, moveT, moveE,
      readT, readE, assignE]
  · rintro e rfl
    simp [unwrapUnchecked, unwrapErr, okUnchecked, errOpt, unwrapErrUnchecked, errUnchecked, okSetUnchecked, obj, h, moveT, moveE,
      readT, readE, assignT]

/-- C87, Result: writing through `ok_ref()` (or `ok_ref_unchecked()`) changes the value of an ok result and nothing else; on an
error `ok_ref()` is none, nothing happens.  Likewise `err_ref()`.  No payload is constructed or destroyed. -/
theorem C87_result_borrow (C : Cfg τ ε) (ops : List (Op τ ε)) (rs A)
    (hs : specRun false C.mvT C.mvE ops (fun _ => none) = some (.ok (rs, A))) (i : Nat) (x : τ ⊕ ε) (hi : A i = some x) (t : τ) (e : ε) :
    ∃ w, run C ops World.init = .ok (rs, w) ∧
      (∃ w', okRefSet i t w = .ok (x.isLeft, w') ∧ resContent w' = (if x.isLeft then put A i (some (.inl t)) else A) ∧
        (x.isLeft → okSetUnchecked i t w = .ok ((), w')) ∧ ∀ k, (w' k).ctor = (w k).ctor ∧ (w' k).dtor = (w k).dtor) ∧
      (∃ w', errRefSet i e w = .ok (x.isRight, w') ∧ resContent w' = (if x.isRight then put A i (some (.inr e)) else A) ∧
        (x.isRight → errSetUnchecked i e w = .ok ((), w')) ∧ ∀ k, (w' k).ctor = (w k).ctor ∧ (w' k).dtor = (w k).dtor) := by
  obtain ⟨w, h1, hR⟩ := after_history_res C hs
  have h : Proof.Res.ObjOk (w i) (some x) := hi ▸ hR i
  simp only [Proof.Res.ObjOk] at h
  refine ⟨w, h1, ?_, ?_⟩
  · cases x with
    | inl t0 =>
      refine ⟨_, by simp [okRefSet, obj, h, assignT]; rfl, ?_, by simp [okSetUnchecked, obj, h, assignT], fun k => ?_⟩
      · simp only [Sum.isLeft_inl, if_true]
        exact resContent_eq (Proof.Res.R_put hR (by simp [Proof.Res.ObjOk]) (fun k hk => by simp [Proof.Res.upd_ne, hk]))
      · by_cases hk : k = i
        · subst hk; simp [h]
        · simp [Proof.Res.upd_ne, hk]
    | inr e0 => exact ⟨w, by simp [okRefSet, obj, h], by simpa using resContent_eq hR, by simp, by simp⟩
  · cases x with
    | inl t0 => exact ⟨w, by simp [errRefSet, obj, h], by simpa using resContent_eq hR, by simp, by simp⟩
    | inr e0 =>
      refine ⟨_, by simp [errRefSet, obj, h, assignE]; rfl, ?_, by simp [errSetUnchecked, obj, h, assignE], fun k => ?_⟩
      · simp only [Sum.isRight_inr, if_true]
        exact resContent_eq (Proof.Res.R_put hR (by simp [Proof.Res.ObjOk]) (fun k hk => by simp [Proof.Res.upd_ne, hk]))
      · by_cases hk : k = i
        · subst hk; simp [h]
        · simp [Proof.Res.upd_ne, hk]

example : ∃ rs A, specRun false exCfg.mvT exCfg.mvE [.mkOk 0 5, .mkErr 1 true] (fun _ => none) = some (.ok (rs, A)) ∧
    A 0 = some (.inl 5) ∧ A 1 = some (.inr true) := ⟨_, _, rfl, rfl, rfl⟩

/-- C87, `Result<T&, E>`: `ok_unchecked()` denotes the object that `unwrap()` denotes; on an error it is undefined. -/
theorem C87_result_ref {α : Type} (classE : Bool) (mvE : ε → ε) (eqT : α → α → Bool) (eqE : ε → ε → Bool) (ops : List (RefOp α ε)) (rs A)
    (hs : refSpecRun mvE eqT eqE ops noRefs = some (.ok (rs, A))) (i : Nat) :
    ∃ w, refRun (refCfg classE mvE) eqT eqE ops RefWorld.init = .ok (rs, w) ∧
      (∀ a, A.var i = some (.inl a) → refOkUnchecked i w = .ok (a, w) ∧ refUnwrap i w = .ok (a, w)) ∧
      (∀ e, A.var i = some (.inr e) → refOkUnchecked i w = .ub) := by
  have h := Proof.Res.ref_run_ok classE mvE eqT eqE ops noRefs RefWorld.init ⟨rfl, fun _ => ⟨rfl, rfl⟩⟩
  rw [hs] at h
  obtain ⟨w, h1, h2, hR⟩ := h
  refine ⟨w, h1, fun a ha => ?_, fun e he => ?_⟩
  · have h : Proof.Res.ObjOk (w.res i) (some (.inl a)) := ha ▸ hR i
    simp only [Proof.Res.ObjOk] at h
    simp [refOkUnchecked, refUnwrap, onRes, obj, readT, h]
  · have h : Proof.Res.ObjOk (w.res i) (some (.inr e)) := he ▸ hR i
    simp only [Proof.Res.ObjOk] at h
    simp [refOkUnchecked, onRes, obj, readT, h]

example : ∃ rs A, refSpecRun (fun e : Bool => e) (fun x y : Nat => x == y) (fun x y => x == y) [.newObj 7 1, .mkOk 0 7, .mkErr 1 true] noRefs =
    some (.ok (rs, A)) ∧ A.var 0 = some (.inl 7) ∧ A.var 1 = some (.inr true) := ⟨_, _, rfl, rfl, rfl⟩

end

/-! ## Vector -/
section
open Verif.Model.Mem Verif.Model.Vector Verif.Proof.Mem Verif.Proof.Vector
open Verif.Spec.Vector hiding upd
variable {α : Type} {ty : ElemTy α}

theorem slot_absent {h : Heap α} {v : Vec} {xs : List α} (r : Rep ty h v xs) {k : Nat} (hk : xs.length ≤ k) {β : Type} {c d : Nat}
    {f : Option α → Option (β × Option α)} (hf : f none = none) : access v.ptr k c d f h = .ub := by
  have ho := r.own
  unfold access
  cases hp : v.ptr with
  | none => rfl
  | some b =>
    rw [hp] at ho
    simp only [Own] at ho
    simp only [ho.1]
    rw [List.getElem?_append_right (by simpa using hk)]
    simp only [List.length_map]
    cases e : (raws (v.cap - xs.length) : List (Option α))[k - xs.length]? with
    | none => rfl
    | some o =>
      obtain ⟨hlt, rfl⟩ := List.getElem?_eq_some_iff.1 e
      simp [raws, hf]

theorem lookAt_run {w : World α} {i : Nat} {v : Vec} (hv : w.vars i = some v) {β : Type} (f : Vec → M α β) :
    lookAt i f w = inHeap (f v) w := by
  simp [lookAt, var, hv]

/-- C87, Vector: `at_unchecked(k)` (and `data()[k]`) is the element of index `k`, and undefined if there is none;
`front_unchecked` and `back_unchecked` are the first and the last element, and undefined on an empty vector. -/
theorem C87_vector {w : World α} (hr : Reach ty w) {i : Nat} {xs : List α} {cap a : Nat} (hv : view w i = some ⟨xs, cap, a⟩) (k : Nat) :
    (∀ x, xs[k]? = some x → lookAt i (atUnchecked · k) w = .ok (x, w)) ∧
    (xs[k]? = none → lookAt i (atUnchecked · k) w = .ub ∧ ∀ x, lookAt i (atSetUnchecked · k x) w = .ub) ∧
    (∀ x, xs.head? = some x → lookAt i frontUnchecked w = .ok (x, w)) ∧
    (∀ x, xs.getLast? = some x → lookAt i backUnchecked w = .ok (x, w)) ∧
    (xs = [] → lookAt i frontUnchecked w = .ub ∧ lookAt i backUnchecked w = .ub) := by
  obtain ⟨v, hw, rep, _, _⟩ := reach_get hr hv
  simp only at rep
  simp only [lookAt_run hw, inHeap]
  refine ⟨fun x hx => ?_, fun hx => ?_, fun x hx => ?_, fun x hx => ?_, fun hx => ?_⟩
  · simp only [atUnchecked, rep.slot hx]; rfl
  · have hk : xs.length ≤ k := by simpa using hx
    constructor
    · simp only [atUnchecked, load]; rw [slot_absent rep hk rfl]; rfl
    · intro x; simp only [atSetUnchecked, store]; rw [slot_absent rep hk rfl]; rfl
  · rw [List.head?_eq_getElem?] at hx
    simp only [frontUnchecked, rep.slot hx]; rfl
  · rw [List.getLast?_eq_getElem?] at hx
    have hl : wsub v.len 1 = xs.length - 1 := by
      have h0 : 0 < xs.length := by
        rw [List.getElem?_eq_some_iff] at hx; obtain ⟨h, -⟩ := hx; omega
      have := rep.own.cap_lt
      have := rep.le
      have hW : wordSize = 18446744073709551616 := rfl
      rw [wsub_of_le (by rw [rep.len]; omega) (by rw [rep.len]; omega), rep.len]
    simp only [backUnchecked, hl, rep.slot hx]; rfl
  · subst hx
    constructor
    · simp only [frontUnchecked, load]; rw [slot_absent rep (by simp) rfl]; rfl
    · simp only [backUnchecked, load]; rw [slot_absent rep (by simp) rfl]; rfl

/-- C87, Vector: writing through `at_unchecked` replaces the element of that index and nothing else, as `operator[]` does. -/
theorem C87_vector_write {w : World α} (hr : Reach ty w) {i : Nat} {xs : List α} {cap a : Nat} (hv : view w i = some ⟨xs, cap, a⟩)
    {k : Nat} (hk : k < xs.length) (x : α) :
    ∃ w', lookAt i (atSetUnchecked · k x) w = .ok ((), w') ∧ step ty (.set i k x) w = .ok (.unit, w') ∧
      view w' = put (view w) i (some ⟨xs.set k x, cap, a⟩) := by
  obtain ⟨v, hw, rep, _, _⟩ := reach_get hr hv
  simp only at rep
  obtain ⟨h1, e1, -⟩ := indexSet_ok (x := x) rep (reach_bal hr) hk
  have hst : step ty (.set i k x) w = .ok (.unit, { w with heap := h1 }) := by
    simp only [step, look, Prog.bind_run, run_var hw, Out.bind_ok, inHeap_run, e1, Prog.pure_run]
  refine ⟨{ w with heap := h1 }, ?_, hst, ?_⟩
  · simp only [lookAt_run hw, inHeap]
    have e1' : atSetUnchecked v k x w.heap = .ok ((), h1) := e1
    rw [e1']; rfl
  · have := reach_step hr (op := .set i k x) (r := .unit) (A' := put (view w) i (some ⟨xs.set k x, cap, a⟩))
      (by simp only [specStep, Spec.Vector.upd, hv, Option.bind_some]; rw [if_pos hk]; rfl)
    rw [hst] at this
    exact this.2.1

example : ∃ w, Reach exTy w ∧ view w 0 = some ⟨[1, 2, 3], 4, 0⟩ ∧ [1, 2, 3][2]? = some 3 ∧ [1, 2, 3][3]? = none ∧ view w 2 = some ⟨[], 2, 7⟩ := by
  obtain ⟨w, h, h0, _, h2, _⟩ := exReach; exact ⟨w, h, h0, rfl, rfl, h2⟩

end
end Verif.Props
