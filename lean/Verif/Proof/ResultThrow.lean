import Verif.Proof.Result
import Verif.Spec.ResultThrow
namespace Verif.Proof.Res
open Verif Verif.Model.Res Verif.Spec.Res

variable {τ ε : Type} {bad : τ ⊕ ε → Bool}

def AgreeT (m : Out (Option (Ret τ ε) × World τ ε)) (s : Out (Option (Ret τ ε) × Ideal τ ε)) : Prop :=
  match s with
  | .ok (r, A') => ∃ w', m = .ok (r, w') ∧ R A' w'
  | .panic => m = .panic
  | _ => False

theorem agreeT_plain {m : Prog (World τ ε) (Ret τ ε)} {w : World τ ε} {s : Out (Ret τ ε × Ideal τ ε)} {s' : Out (Option (Ret τ ε) × Ideal τ ε)}
    (h : Agree (m w) s)
    (hs : (match s with | .ok (r, A') => some (Out.ok (some r, A')) | .panic => some .panic | _ => none) = some s') :
    AgreeT ((do let r ← m; return some r : Prog (World τ ε) (Option (Ret τ ε))) w) s' := by
  cases s with
  | ok p =>
    obtain ⟨r, A'⟩ := p
    obtain ⟨w', h1, h2⟩ := h
    simp at hs; subst hs
    exact ⟨w', by simp [h1], h2⟩
  | panic =>
    simp at hs; subst hs
    have h : m w = .panic := h
    simp [AgreeT, h]
  | _ => exact h.elim

macro "resT_run" "[" ts:Lean.Parser.Tactic.simpLemma,* "]" : tactic => `(tactic|
  simp [AgreeT, stepT, mkOkT, mkErrT, copyImplT, copyCtorT, copyAssignT, okOptT, errOptT, born, die, construct, destroyT, destroyE, readT, readE,
    assignT, assignE, obj, Prog.panic, $ts,*])

theorem R_keep {A : Ideal τ ε} {w w' : World τ ε} (hR : R A w) {i : Nat} (hi : A i = none) (h : (w' i).alive = false ∧ (w' i).ctor = (w' i).dtor)
    (hne : ∀ k, k ≠ i → w' k = w k) : R A w' := by
  intro k
  by_cases hk : k = i
  · subst hk; rw [hi]; exact h
  · rw [hne k hk]; exact hR k

theorem stepT_ok (C : Cfg τ ε) (op : OpT τ ε) (A : Ideal τ ε) (w : World τ ε) (hR : R A w)
    (s : Out (Option (Ret τ ε) × Ideal τ ε)) (hs : specStepT false bad C.mvT C.mvE op A = some s) : AgreeT (stepT bad C op w) s := by
  have get : ∀ i x, A i = x → ObjOk (w i) x := fun i x h => h ▸ hR i
  cases op with
  | okCopy i t =>
    simp only [specStepT] at hs
    split at hs <;> simp at hs
    subst hs
    rename_i hA
    have hA : A i = none := by simpa using hA
    have h := get i none hA; simp only [ObjOk] at h
    cases hb : bad (.inl t)
    · resT_run [h, hb]
      exact R_put hR (by simp [ObjOk]) (fun k hk => by simp [upd_ne, hk])
    · resT_run [h, hb]
      exact R_keep hR hA (by simp) (fun k hk => by simp [upd_ne, hk])
  | errCopy i t =>
    simp only [specStepT] at hs
    split at hs <;> simp at hs
    subst hs
    rename_i hA
    have hA : A i = none := by simpa using hA
    have h := get i none hA; simp only [ObjOk] at h
    cases hb : bad (.inr t)
    · resT_run [h, hb]
      exact R_put hR (by simp [ObjOk]) (fun k hk => by simp [upd_ne, hk])
    · resT_run [h, hb]
      exact R_keep hR hA (by simp) (fun k hk => by simp [upd_ne, hk])
  | plain op =>
    cases op with
    | copyCtor i j =>
      simp only [specStepT] at hs
      split at hs <;> first | (simp at hs; done) | skip
      rename_i s hi hj
      have hij : j ≠ i := by rintro rfl; rw [hi] at hj; cases hj
      have h := get i _ hi; have h' := get j _ hj
      simp only [ObjOk] at h h'
      cases hb : bad s <;> simp [hb] at hs <;> subst hs <;> cases s <;> resT_run [h, h', upd_ne, hij, hb] <;>
        exact R_put hR (by simp [ObjOk]) (fun k hk => by simp [upd_ne, hk])
    | copyAssign i j =>
      simp only [specStepT] at hs
      split at hs <;> first | (simp at hs; done) | skip
      rename_i old s hi hj
      have h := get i _ hi; have h' := get j _ hj
      simp only [ObjOk] at h h'
      by_cases hij : i = j
      · subst hij
        simp at hs; subst hs
        resT_run [h]
        exact hR
      have hji : j ≠ i := fun e => hij e.symm
      cases hb : bad s
      · simp [hb, hij] at hs
        obtain ⟨hsame, hs⟩ := hs
        subst hs
        cases old <;> cases s <;> simp at hsame <;> resT_run [h, h', hij, upd_ne, hji, hb] <;>
          exact R_put hR (by simp [ObjOk, h]) (fun k hk => by simp [upd_ne, hk])
      · simp [hb, hij] at hs
        subst hs
        cases old <;> cases s <;> resT_run [h, h', hij, upd_ne, hji, hb]
    | ok i =>
      simp only [specStepT] at hs
      split at hs <;> simp at hs <;> subst hs <;> rename_i hi <;> (have h := get i _ hi; simp only [ObjOk] at h)
      · rename_i t; cases hb : bad (.inl t) <;> resT_run [h, hb] <;> exact hR
      · resT_run [h]; exact hR
    | err i =>
      simp only [specStepT] at hs
      split at hs <;> simp at hs <;> subst hs <;> rename_i hi <;> (have h := get i _ hi; simp only [ObjOk] at h)
      · resT_run [h]; exact hR
      · rename_i t; cases hb : bad (.inr t) <;> resT_run [h, hb] <;> exact hR
    | _ =>
      simp only [specStepT] at hs
      split at hs <;> simp at hs <;> subst hs <;> rename_i e <;>
        exact agreeT_plain (step_ok C _ A w hR _ e) rfl

theorem runT_ok (C : Cfg τ ε) (ops : List (OpT τ ε)) (A : Ideal τ ε) (w : World τ ε) (hR : R A w) :
    match specRunT false bad C.mvT C.mvE ops A with
    | some (.ok (rs, A')) => ∃ w', runT bad C ops w = .ok (rs, w') ∧ R A' w'
    | some .panic => runT bad C ops w = .panic
    | _ => True := by
  induction ops generalizing A w with
  | nil => exact ⟨w, rfl, hR⟩
  | cons op ops ih =>
    simp only [specRunT]
    cases hs : specStepT false bad C.mvT C.mvE op A with
    | none => trivial
    | some s =>
      have h := stepT_ok C op A w hR s hs
      cases s with
      | ok p =>
        obtain ⟨r, A'⟩ := p
        obtain ⟨w', h1, h2⟩ := h
        have := ih A' w' h2
        simp only []
        cases hr : specRunT false bad C.mvT C.mvE ops A' with
        | none => trivial
        | some q =>
          rw [hr] at this
          cases q with
          | ok q =>
            obtain ⟨w'', h3, h4⟩ := this
            exact ⟨w'', by simp [runT, h1, h3], h4⟩
          | panic => simp only [] at this ⊢; simp [runT, h1, this]
          | _ => trivial
      | panic => simp only [AgreeT] at h; simp [runT, h]
      | _ => trivial

end Verif.Proof.Res
