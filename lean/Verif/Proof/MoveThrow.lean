import Verif.Proof.OptThrow
import Verif.Proof.ResultThrow
import Verif.Spec.MoveThrow
namespace Verif.Proof.Opt
open Verif Verif.Model.Opt Verif.Spec.Opt

variable {α : Type} {bad badMove ret : α → Bool} {part : α → α → α} {half mv : α → α}

theorem moveCtorM_eq {A : Ideal α} {w : World α} (hR : R A w) {i j : Nat} {o : Option α} (hi : A i = none) (hj : A j = some o)
    (hb : throws badMove o = false) : moveCtorM badMove mv i j w = moveCtor mv i j w := by
  have hij : j ≠ i := by rintro rfl; rw [hi] at hj; cases hj
  have h := objOk_none (hi ▸ hR i)
  cases o with
  | none =>
    have h' := objOk_some_none (hj ▸ hR j)
    simp [moveCtorM, moveCtor, obj, h', born, h, setHold, modObj]
  | some v =>
    have h' := objOk_some_some (hj ▸ hR j)
    simp only [throws] at hb
    simp [moveCtorM, moveCtor, obj, h', born, h, setHold, modObj, readVal, upd_ne, hij, hb, moveVal]

theorem moveCtorM_bad {A : Ideal α} {w : World α} (hR : R A w) {i j : Nat} {o : Option α} (hi : A i = none) (hj : A j = some o)
    (hb : throws badMove o = true) : moveCtorM badMove mv i j w = .panic := by
  have hij : j ≠ i := by rintro rfl; rw [hi] at hj; cases hj
  have h := objOk_none (hi ▸ hR i)
  cases o with
  | none => cases hb
  | some v =>
    have h' := objOk_some_some (hj ▸ hR j)
    simp only [throws] at hb
    simp [moveCtorM, obj, h', born, h, setHold, modObj, readVal, upd_ne, hij, hb, Prog.panic]

theorem moveAssignM_eq {A : Ideal α} {w : World α} (hR : R A w) {i j : Nat} {old o : Option α} (hi : A i = some old) (hj : A j = some o)
    (hb : i = j ∨ throws badMove o = false) : moveAssignM badMove mv i j w = moveAssign mv i j w := by
  by_cases hij : i = j
  · subst hij
    have h' : (w i).alive = true := by have := (hi ▸ hR i : ObjOk (w i) (some old)).1; simpa using this
    simp [moveAssignM, moveAssign, obj, h']
  have hji : j ≠ i := fun e => hij e.symm
  have hb := hb.resolve_left hij
  cases o with
  | none =>
    have h' := objOk_some_none (hj ▸ hR j)
    cases old with
    | none =>
      have h := objOk_some_none (hi ▸ hR i)
      simp [moveAssignM, moveAssign, obj, h', h, hij]
    | some u =>
      have h := objOk_some_some (hi ▸ hR i)
      simp [moveAssignM, moveAssign, obj, h', h, hij]
  | some v =>
    have h' := objOk_some_some (hj ▸ hR j)
    simp only [throws] at hb
    cases old with
    | none =>
      have h := objOk_some_none (hi ▸ hR i)
      simp [moveAssignM, moveAssign, obj, h', h, hij, setHold, modObj, readVal, upd_ne, hji, hb, moveVal]
    | some u =>
      have h := objOk_some_some (hi ▸ hR i)
      simp [moveAssignM, moveAssign, obj, h', h, hij, setHold, modObj, readVal, upd_ne, hb, moveVal]

theorem moveAssignM_bad {A : Ideal α} {w : World α} (hR : R A w) {i j : Nat} {old o : Option α} (hi : A i = some old) (hj : A j = some o)
    (hij : i ≠ j) (hb : throws badMove o = true) : moveAssignM badMove mv i j w = .panic := by
  have hji : j ≠ i := fun e => hij e.symm
  cases o with
  | none => cases hb
  | some v =>
    have h' := objOk_some_some (hj ▸ hR j)
    simp only [throws] at hb
    cases old with
    | none =>
      have h := objOk_some_none (hi ▸ hR i)
      simp [moveAssignM, obj, h', h, hij, setHold, modObj, readVal, upd_ne, hji, hb, Prog.panic]
    | some u =>
      have h := objOk_some_some (hi ▸ hR i)
      simp [moveAssignM, obj, h', h, hij, readVal, hb, Prog.panic]

theorem stepM_ok (hret : ∀ v, badMove v = false → ret v = false) (op : OpT α) (A : Ideal α) (w : World α) (hR : R A w)
    (s : Out (Option (Res α) × Ideal α)) (hs : specStepM bad badMove part half mv op A = some s) :
    AgreeT (stepM bad badMove ret part half mv op w) s := by
  cases op with
  | plain op =>
    cases op with
    | mkSome i v =>
      simp only [specStepM] at hs
      split at hs <;> simp at hs
      subst hs
      rename_i hA
      have h := objOk_none (hA ▸ hR i)
      cases hb : badMove v
      · simp [AgreeT, stepM, mkSomeM, unborn, born, constructVal, setHold, modObj, h, hb]
        exact R_put hR (objOk_of_some_some (by simp) (by simp) (by simp) (by simp)) (fun k hk => by simp [upd_ne, hk])
      · simp [AgreeT, stepM, mkSomeM, unborn, born, constructVal, setHold, modObj, h, hb]
        exact R_keep hR hA (by simp) (fun k hk => by simp [upd_ne, hk])
    | unwrap i =>
      simp only [specStepM] at hs
      split at hs <;> simp at hs <;> subst hs <;> rename_i hi
      · have h := objOk_some_none (hi ▸ hR i)
        simp [AgreeT, stepM, unwrapM, obj, h, Prog.panic]
      · rename_i v
        have h := objOk_some_some (hi ▸ hR i)
        cases hb : badMove v
        · simp [AgreeT, stepM, unwrapM, obj, h, readVal, hb, moveVal, reset, destroyVal, setHold, modObj, hret v hb]
          exact R_put hR (objOk_of_some_none (by simp [h]) (by simp) (by simp) (by simp [h])) (fun k hk => by simp [upd_ne, hk])
        · simp [AgreeT, stepM, unwrapM, obj, h, readVal, hb, assignVal]
          exact R_put hR (objOk_of_some_some (by simp [h]) (by simp [h]) (by simp) (by simp [h])) (fun k hk => by simp [upd_ne, hk])
    | moveCtor i j =>
      simp only [specStepM] at hs
      split at hs <;> first | (simp at hs; done) | skip
      rename_i o hi hj
      cases hb : throws badMove o
      · have hs : specStepT false bad part mv (.plain (.moveCtor i j)) A = some s := by simpa [hb] using hs
        have := stepT_ok _ A w hR s hs
        have e : stepM bad badMove ret part half mv (.plain (.moveCtor i j)) w = stepT bad part mv (.plain (.moveCtor i j)) w := by
          simp only [stepM, stepT, step, Prog.bind_run, moveCtorM_eq hR hi hj hb]
          cases moveCtor mv i j w <;> rfl
        rw [e]; exact this
      · simp [hb] at hs; subst hs
        simp [AgreeT, stepM, moveCtorM_bad hR hi hj hb]
    | moveAssign i j =>
      simp only [specStepM] at hs
      split at hs <;> first | (simp at hs; done) | skip
      rename_i old o hi hj
      by_cases hb : i ≠ j ∧ throws badMove o = true
      · simp [hb.1, hb.2] at hs; subst hs
        simp [AgreeT, stepM, moveAssignM_bad hR hi hj hb.1 hb.2]
      · have hb' : i = j ∨ throws badMove o = false := by
          by_cases e : i = j
          · exact .inl e
          · exact .inr (by simpa [e] using hb)
        rw [if_neg (by simpa using hb)] at hs
        have := stepT_ok _ A w hR s hs
        have e : stepM bad badMove ret part half mv (.plain (.moveAssign i j)) w = stepT bad part mv (.plain (.moveAssign i j)) w := by
          simp only [stepM, stepT, step, Prog.bind_run, moveAssignM_eq hR hi hj hb']
          cases moveAssign mv i j w <;> rfl
        rw [e]; exact this
    | _ => simp only [specStepM] at hs; exact stepT_ok (bad := bad) (part := part) (mv := mv) _ A w hR s hs
  | _ => simp only [specStepM] at hs; exact stepT_ok (bad := bad) (part := part) (mv := mv) _ A w hR s hs

theorem runM_ok (hret : ∀ v, badMove v = false → ret v = false) (ops : List (OpT α)) (A : Ideal α) (w : World α) (hR : R A w) :
    match specRunM bad badMove part half mv ops A with
    | some (.ok (rs, A')) => ∃ w', runM bad badMove ret part half mv ops w = .ok (rs, w') ∧ R A' w'
    | some .panic => runM bad badMove ret part half mv ops w = .panic
    | _ => True := by
  induction ops generalizing A w with
  | nil => exact ⟨w, rfl, hR⟩
  | cons op ops ih =>
    simp only [specRunM]
    cases hs : specStepM bad badMove part half mv op A with
    | none => trivial
    | some s =>
      have h := stepM_ok (ret := ret) hret op A w hR s hs
      cases s with
      | ok p =>
        obtain ⟨r, A'⟩ := p
        obtain ⟨w', h1, h2⟩ := h
        have := ih A' w' h2
        simp only []
        cases hr : specRunM bad badMove part half mv ops A' with
        | none => trivial
        | some q =>
          rw [hr] at this
          cases q with
          | ok q =>
            obtain ⟨w'', h3, h4⟩ := this
            exact ⟨w'', by simp [runM, h1, h3], h4⟩
          | panic => simp only [] at this ⊢; simp [runM, h1, this]
          | _ => trivial
      | panic => simp only [AgreeT] at h; simp [runM, h]
      | _ => trivial

end Verif.Proof.Opt

namespace Verif.Proof.Res
open Verif Verif.Model.Res Verif.Spec.Res

variable {τ ε : Type} {bad badMove : τ ⊕ ε → Bool} {halfT : τ → τ} {halfE : ε → ε}

theorem stepM_ok (C : Cfg τ ε) (op : OpT τ ε) (A : Ideal τ ε) (w : World τ ε) (hR : R A w)
    (s : Out (Option (Ret τ ε) × Ideal τ ε)) (hs : specStepM bad badMove halfT C.mvT halfE C.mvE op A = some s) :
    AgreeT (stepM bad badMove halfT halfE C op w) s := by
  have get : ∀ i x, A i = x → ObjOk (w i) x := fun i x h => h ▸ hR i
  cases op with
  | plain op =>
    cases op with
    | mkOk i t =>
      simp only [specStepM] at hs
      split at hs <;> simp at hs
      subst hs
      rename_i hA
      have hA : A i = none := by simpa using hA
      have h := get i none hA; simp only [ObjOk] at h
      cases hb : badMove (.inl t)
      · simp [AgreeT, stepM, mkOkM, born, die, construct, h, hb]
        exact R_put hR (by simp [ObjOk]) (fun k hk => by simp [upd_ne, hk])
      · simp [AgreeT, stepM, mkOkM, born, die, construct, h, hb]
        exact R_keep hR hA (by simp) (fun k hk => by simp [upd_ne, hk])
    | mkErr i t =>
      simp only [specStepM] at hs
      split at hs <;> simp at hs
      subst hs
      rename_i hA
      have hA : A i = none := by simpa using hA
      have h := get i none hA; simp only [ObjOk] at h
      cases hb : badMove (.inr t)
      · simp [AgreeT, stepM, mkErrM, born, die, construct, h, hb]
        exact R_put hR (by simp [ObjOk]) (fun k hk => by simp [upd_ne, hk])
      · simp [AgreeT, stepM, mkErrM, born, die, construct, h, hb]
        exact R_keep hR hA (by simp) (fun k hk => by simp [upd_ne, hk])
    | unwrap i =>
      simp only [specStepM] at hs
      split at hs <;> simp at hs <;> subst hs <;> rename_i hi <;> (have h := get i _ hi; simp only [ObjOk] at h)
      · rename_i t
        cases hb : badMove (.inl t) <;> simp [AgreeT, stepM, unwrapM, obj, h, readT, hb, moveT, assignT] <;>
          exact R_put hR (by simp [ObjOk, h]) (fun k hk => by simp [upd_ne, hk])
      · simp [AgreeT, stepM, unwrapM, obj, h, Prog.panic]
    | unwrapErr i =>
      simp only [specStepM] at hs
      split at hs <;> simp at hs <;> subst hs <;> rename_i hi <;> (have h := get i _ hi; simp only [ObjOk] at h)
      · simp [AgreeT, stepM, unwrapErrM, obj, h, Prog.panic]
      · rename_i t
        cases hb : badMove (.inr t) <;> simp [AgreeT, stepM, unwrapErrM, obj, h, readE, hb, moveE, assignE] <;>
          exact R_put hR (by simp [ObjOk, h]) (fun k hk => by simp [upd_ne, hk])
    | moveCtor i j =>
      simp only [specStepM] at hs
      split at hs <;> first | (simp at hs; done) | skip
      rename_i o hi hj
      have hij : j ≠ i := by rintro rfl; rw [hi] at hj; cases hj
      have h := get i _ hi; have h' := get j _ hj
      simp only [ObjOk] at h h'
      cases hb : badMove o
      · have hs : specStepT false bad C.mvT C.mvE (.plain (.moveCtor i j)) A = some s := by simpa [hb] using hs
        have := stepT_ok C _ A w hR s hs
        have e : moveCtorM badMove C i j w = moveCtor C i j w := by
          cases o <;> simp [moveCtorM, moveCtor, moveImplM, moveImpl, obj, h, h', born, upd_ne, hij, readT, readE, moveT, moveE, hb]
        have e : stepM bad badMove halfT halfE C (.plain (.moveCtor i j)) w = stepT bad C (.plain (.moveCtor i j)) w := by
          simp only [stepM, stepT, step, Prog.bind_run, e]
          cases moveCtor C i j w <;> rfl
        rw [e]; exact this
      · simp [hb] at hs; subst hs
        cases o <;> simp [AgreeT, stepM, moveCtorM, moveImplM, obj, h, h', born, upd_ne, hij, readT, readE, hb, Prog.panic]
    | moveAssign i j =>
      simp only [specStepM] at hs
      split at hs <;> first | (simp at hs; done) | skip
      rename_i old o hi hj
      have h := get i _ hi; have h' := get j _ hj
      simp only [ObjOk] at h h'
      by_cases hb : i ≠ j ∧ badMove o = true
      · obtain ⟨hij, hb⟩ := hb
        have hji : j ≠ i := fun e => hij e.symm
        simp [hij, hb] at hs; subst hs
        cases o <;> cases old <;>
          simp [AgreeT, stepM, moveAssignM, moveImplM, obj, h, h', hij, upd_ne, hji, readT, readE, destroyT, destroyE, hb, Prog.panic]
      · rw [if_neg (by simpa using hb)] at hs
        have := stepT_ok C _ A w hR s hs
        have e : moveAssignM badMove C i j w = moveAssign C i j w := by
          by_cases hij : i = j
          · subst hij
            simp [moveAssignM, moveAssign, obj, h]
          · have hji : j ≠ i := fun e => hij e.symm
            have hb : badMove o = false := by simpa [hij] using hb
            cases o <;> cases old <;>
              simp [moveAssignM, moveAssign, moveImplM, moveImpl, obj, h, h', hij, hji, upd_ne, readT, readE, moveT, moveE, destroyT, destroyE, hb]
        have e : stepM bad badMove halfT halfE C (.plain (.moveAssign i j)) w = stepT bad C (.plain (.moveAssign i j)) w := by
          simp only [stepM, stepT, step, Prog.bind_run, e]
          cases moveAssign C i j w <;> rfl
        rw [e]; exact this
    | _ => simp only [specStepM] at hs; exact stepT_ok (bad := bad) C _ A w hR s hs
  | _ => simp only [specStepM] at hs; exact stepT_ok (bad := bad) C _ A w hR s hs

theorem runM_ok (C : Cfg τ ε) (ops : List (OpT τ ε)) (A : Ideal τ ε) (w : World τ ε) (hR : R A w) :
    match specRunM bad badMove halfT C.mvT halfE C.mvE ops A with
    | some (.ok (rs, A')) => ∃ w', runM bad badMove halfT halfE C ops w = .ok (rs, w') ∧ R A' w'
    | some .panic => runM bad badMove halfT halfE C ops w = .panic
    | _ => True := by
  induction ops generalizing A w with
  | nil => exact ⟨w, rfl, hR⟩
  | cons op ops ih =>
    simp only [specRunM]
    cases hs : specStepM bad badMove halfT C.mvT halfE C.mvE op A with
    | none => trivial
    | some s =>
      have h := stepM_ok C op A w hR s hs
      cases s with
      | ok p =>
        obtain ⟨r, A'⟩ := p
        obtain ⟨w', h1, h2⟩ := h
        have := ih A' w' h2
        simp only []
        cases hr : specRunM bad badMove halfT C.mvT halfE C.mvE ops A' with
        | none => trivial
        | some q =>
          rw [hr] at this
          cases q with
          | ok q =>
            obtain ⟨w'', h3, h4⟩ := this
            exact ⟨w'', by simp [runM, h1, h3], h4⟩
          | panic => simp only [] at this ⊢; simp [runM, h1, this]
          | _ => trivial
      | panic => simp only [AgreeT] at h; simp [runM, h]
      | _ => trivial

end Verif.Proof.Res
