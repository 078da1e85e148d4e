import Verif.Proof.Opt
import Verif.Spec.OptThrow
namespace Verif.Proof.Opt
open Verif Verif.Model.Opt Verif.Spec.Opt

variable {α : Type} {bad : α → Bool} {part : α → α → α} {mv : α → α}

def AgreeT (m : Out (Option (Res α) × World α)) (s : Out (Option (Res α) × Ideal α)) : Prop :=
  match s with
  | .ok (r, A') => ∃ w', m = .ok (r, w') ∧ R A' w'
  | .panic => m = .panic
  | _ => False

theorem agreeT_plain {m : Prog (World α) (Res α)} {w : World α} {s : Out (Res α × Ideal α)} {s' : Out (Option (Res α) × Ideal α)}
    (h : Agree (m w) s)
    (hs : (match s with | .ok (r, A') => some (Out.ok (some r, A')) | .panic => some .panic | _ => none) = some s') :
    AgreeT ((do let r ← m; return some r : Prog (World α) (Option (Res α))) w) s' := by
  cases s with
  | ok p =>
    obtain ⟨r, A'⟩ := p
    obtain ⟨w', h1, h2⟩ := h
    simp at hs; subst hs
    exact ⟨w', by simp [h1], h2⟩
  | panic =>
    simp at hs; subst hs
    have h : m w = .panic := h
    simp [AgreeT, h]
  | _ => exact h.elim

macro "optT_run" "[" ts:Lean.Parser.Tactic.simpLemma,* "]" : tactic => `(tactic|
  simp [AgreeT, stepT, mkSomeT, copyCtorT, copyAssignT, mapT, unborn, born, constructVal, setHold, modObj, obj,
    destroyVal, readVal, assignVal, $ts,*])

theorem R_keep {A : Ideal α} {w w' : World α} (hR : R A w) {i : Nat} (hi : A i = none) (h : (w' i).alive = false ∧ (w' i).cell = none ∧ (w' i).ctor = (w' i).dtor)
    (hne : ∀ k, k ≠ i → w' k = w k) : R A w' := by
  intro k
  by_cases hk : k = i
  · subst hk; rw [hi]; exact objOk_of_none h.1 h.2.1 h.2.2
  · rw [hne k hk]; exact hR k

theorem stepT_ok (op : OpT α) (A : Ideal α) (w : World α) (hR : R A w)
    (s : Out (Option (Res α) × Ideal α)) (hs : specStepT false bad part mv op A = some s) : AgreeT (stepT bad part mv op w) s := by
  cases op with
  | someCopy i v =>
    simp only [specStepT] at hs
    split at hs <;> simp at hs
    subst hs
    rename_i hA
    have h := objOk_none (hA ▸ hR i)
    cases hb : bad v
    · optT_run [h, hb]
      exact R_put hR (objOk_of_some_some (by simp) (by simp) (by simp) (by simp)) (fun k hk => by simp [upd_ne, hk])
    · optT_run [h, hb]
      exact R_keep hR hA (by simp) (fun k hk => by simp [upd_ne, hk])
  | map f i =>
    simp only [specStepT] at hs
    split at hs <;> simp at hs <;> subst hs <;> rename_i hi
    · have h := objOk_some_none (hi ▸ hR i)
      optT_run [h]
      exact hR
    · have h := objOk_some_some (hi ▸ hR i)
      optT_run [h]
      exact ⟨_, ⟨rfl, rfl⟩, R_put hR (objOk_of_some_some (by simp) (by simp) (by simp) (by simp)) (fun k hk => by simp [upd_ne, hk])⟩
  | plain op =>
    cases op with
    | copyCtor i j =>
      simp only [specStepT] at hs
      split at hs <;> simp at hs
      subst hs
      rename_i o hi hj
      have hij : j ≠ i := by rintro rfl; rw [hi] at hj; cases hj
      have h := objOk_none (hi ▸ hR i)
      cases o with
      | none =>
        have h' := objOk_some_none (hj ▸ hR j)
        optT_run [h, h', upd_ne, hij, throws]
        exact R_put hR (objOk_of_some_none (by simp) (by simp) (by simp) (by simp)) (fun k hk => by simp [upd_ne, hk])
      | some v =>
        have h' := objOk_some_some (hj ▸ hR j)
        cases hb : bad v
        · optT_run [h, h', upd_ne, hij, throws, hb]
          exact R_put hR (objOk_of_some_some (by simp) (by simp) (by simp) (by simp)) (fun k hk => by simp [upd_ne, hk])
        · optT_run [h, h', upd_ne, hij, throws, hb]
          exact R_keep hR hi (by simp) (fun k hk => by simp [upd_ne, hk])
    | copyAssign i j =>
      simp only [specStepT] at hs
      split at hs <;> first | (simp at hs; done) | skip
      rename_i old o hi hj
      by_cases hij : i = j
      · subst hij
        simp at hs; subst hs
        rw [hi] at hj; cases hj
        have h' : (w i).alive = true := by have := (hi ▸ hR i : ObjOk (w i) (some old)).1; simpa using this
        optT_run [h']
        exact R_put hR (hi ▸ hR i) (fun _ _ => rfl)
      have hji : j ≠ i := fun e => hij e.symm
      cases old with
      | none =>
        have h := objOk_some_none (hi ▸ hR i)
        cases o with
        | none =>
          simp [throws] at hs; subst hs
          have h' := objOk_some_none (hj ▸ hR j)
          optT_run [h, h', hij]
          exact R_put hR (hi ▸ hR i) (fun k hk => rfl)
        | some v =>
          have h' := objOk_some_some (hj ▸ hR j)
          cases hb : bad v <;> simp [throws, hb, hij] at hs
          subst hs
          optT_run [h, h', hij, upd_ne, hji, hb]
          exact R_put hR (objOk_of_some_some (by simp [h]) (by simp) (by simp) (by simp [h])) (fun k hk => by simp [upd_ne, hk])
      | some u =>
        have h := objOk_some_some (hi ▸ hR i)
        cases o with
        | none =>
          simp [throws] at hs; subst hs
          have h' := objOk_some_none (hj ▸ hR j)
          optT_run [h, h', hij, upd_ne, hji]
          exact R_put hR (objOk_of_some_none (by simp [h]) (by simp) (by simp) (by simp [h])) (fun k hk => by simp [upd_ne, hk])
        | some v =>
          have h' := objOk_some_some (hj ▸ hR j)
          cases hb : bad v <;> simp [throws, hb, hij] at hs <;> subst hs
          · optT_run [h, h', hij, upd_ne, hji, hb]
            exact R_put hR (objOk_of_some_some (by simp [h]) (by simp [h]) (by simp) (by simp [h])) (fun k hk => by simp [upd_ne, hk])
          · optT_run [h, h', hij, upd_ne, hji, hb]
            exact R_put hR (objOk_of_some_some (by simp [h]) (by simp [h]) (by simp) (by simp [h])) (fun k hk => by simp [upd_ne, hk])
    | _ =>
      simp only [specStepT] at hs
      split at hs <;> simp at hs <;> subst hs <;> rename_i e <;>
        exact agreeT_plain (step_ok mv _ A w hR _ e) rfl

theorem runT_ok (ops : List (OpT α)) (A : Ideal α) (w : World α) (hR : R A w) :
    match specRunT false bad part mv ops A with
    | some (.ok (rs, A')) => ∃ w', runT bad part mv ops w = .ok (rs, w') ∧ R A' w'
    | some .panic => runT bad part mv ops w = .panic
    | _ => True := by
  induction ops generalizing A w with
  | nil => exact ⟨w, rfl, hR⟩
  | cons op ops ih =>
    simp only [specRunT]
    cases hs : specStepT false bad part mv op A with
    | none => trivial
    | some s =>
      have h := stepT_ok op A w hR s hs
      cases s with
      | ok p =>
        obtain ⟨r, A'⟩ := p
        obtain ⟨w', h1, h2⟩ := h
        have := ih A' w' h2
        simp only []
        cases hr : specRunT false bad part mv ops A' with
        | none => trivial
        | some q =>
          rw [hr] at this
          cases q with
          | ok q =>
            obtain ⟨w'', h3, h4⟩ := this
            exact ⟨w'', by simp [runT, h1, h3], h4⟩
          | panic => simp only [] at this ⊢; simp [runT, h1, this]
          | _ => trivial
      | panic => simp only [AgreeT] at h; simp [runT, h]
      | _ => trivial

end Verif.Proof.Opt
