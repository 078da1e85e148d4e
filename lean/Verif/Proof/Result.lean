import Verif.Spec.Result
namespace Verif.Proof.Res
open Verif Verif.Model.Res Verif.Spec.Res

variable {τ ε : Type}

def ObjOk (o : Obj τ ε) : Option (τ ⊕ ε) → Prop
  | none => o.alive = false ∧ o.ctor = o.dtor
  | some s => o.alive = true ∧ o.ok = s.isLeft ∧ o.cell = some s ∧ o.ctor = o.dtor + 1

def R (A : Ideal τ ε) (w : World τ ε) : Prop := ∀ i, ObjOk (w i) (A i)

def Agree (m : Out (Ret τ ε × World τ ε)) (s : Out (Ret τ ε × Ideal τ ε)) : Prop :=
  match s with
  | .ok (r, A') => ∃ w', m = .ok (r, w') ∧ R A' w'
  | .panic => m = .panic
  | _ => False

@[simp] theorem upd_same (w : World τ ε) (i : Nat) (o : Obj τ ε) : upd w i o i = o := by simp [upd]
@[simp] theorem upd_upd (w : World τ ε) (i : Nat) (o o' : Obj τ ε) : upd (upd w i o) i o' = upd w i o' := by
  funext k; simp [upd]; split <;> rfl
theorem upd_ne (w : World τ ε) {i j : Nat} (o : Obj τ ε) (h : j ≠ i) : upd w i o j = w j := by simp [upd, h]

theorem R_put {A : Ideal τ ε} {w w' : World τ ε} (hR : R A w) {i : Nat} {x : Option (τ ⊕ ε)}
    (hi : ObjOk (w' i) x) (hne : ∀ k, k ≠ i → w' k = w k) : R (put A i x) w' := by
  intro k
  by_cases hk : k = i
  · subst hk; simpa [put] using hi
  · simp only [put, hk, if_false]; rw [hne k hk]; exact hR k

theorem R_put2 {A : Ideal τ ε} {w w' : World τ ε} (hR : R A w) {i j : Nat} {x y : Option (τ ⊕ ε)}
    (hij : i ≠ j) (hi : ObjOk (w' i) x) (hj : ObjOk (w' j) y) (hne : ∀ k, k ≠ i → k ≠ j → w' k = w k) :
    R (put (put A j y) i x) w' := by
  intro k
  by_cases hk : k = i
  · subst hk; simpa [put] using hi
  · by_cases hk' : k = j
    · subst hk'; simp only [put, hk, if_false, if_true]; exact hj
    · simp only [put, hk, hk', if_false]; rw [hne k hk hk']; exact hR k

macro "res_run" "[" ts:Lean.Parser.Tactic.simpLemma,* "]" : tactic => `(tactic|
  simp [Agree, step, mkOk, mkErr, born, construct, destroyT, destroyE, readT, readE, moveT, moveE, assignT, assignE,
    moveImpl, copyImpl, copyCtor, moveCtor, destroy, die, unwrap, unwrapErr, moveAssign, copyAssign, isOk, isErr, okOpt,
    errOpt, obj, $ts,*])

theorem step_ok (C : Cfg τ ε) (op : Op τ ε) (A : Ideal τ ε) (w : World τ ε) (hR : R A w)
    (s : Out (Ret τ ε × Ideal τ ε)) (hs : specStep false C.mvT C.mvE op A = some s) : Agree (step C op w) s := by
  have get : ∀ i x, A i = x → ObjOk (w i) x := fun i x h => h ▸ hR i
  cases op with
  | mkOk i t =>
    simp only [specStep] at hs
    split at hs <;> simp at hs
    subst hs
    rename_i hA
    have h := get i none (by simpa using hA); simp only [ObjOk] at h
    res_run [h]
    exact R_put hR (by simp [ObjOk]) (fun k hk => by simp [upd_ne, hk])
  | mkErr i t =>
    simp only [specStep] at hs
    split at hs <;> simp at hs
    subst hs
    rename_i hA
    have h := get i none (by simpa using hA); simp only [ObjOk] at h
    res_run [h]
    exact R_put hR (by simp [ObjOk]) (fun k hk => by simp [upd_ne, hk])
  | copyCtor i j =>
    simp only [specStep] at hs
    split at hs <;> simp at hs
    subst hs
    rename_i s hi hj
    have hij : j ≠ i := by rintro rfl; rw [hi] at hj; cases hj
    have h := get i _ hi; have h' := get j _ hj
    simp only [ObjOk] at h h'
    cases s <;> res_run [h, h', upd_ne, hij] <;>
      exact R_put hR (by simp [ObjOk]) (fun k hk => by simp [upd_ne, hk])
  | moveCtor i j =>
    simp only [specStep] at hs
    split at hs <;> simp at hs
    subst hs
    rename_i s hi hj
    have hij : j ≠ i := by rintro rfl; rw [hi] at hj; cases hj
    have h := get i _ hi; have h' := get j _ hj
    simp only [ObjOk] at h h'
    cases s <;> res_run [h, h', upd_ne, hij, hij.symm] <;>
      exact R_put2 hR hij.symm (by simp [ObjOk, upd_ne, hij.symm]) (by simp [ObjOk, upd_ne, hij, movedFrom, h'])
        (fun k hk hk' => by simp [upd_ne, hk, hk'])
  | copyAssign i j =>
    simp only [specStep] at hs
    split at hs <;> first | (simp at hs; done) | skip
    rename_i old s hi hj
    split at hs <;> simp at hs
    subst hs
    rename_i hsame
    simp at hsame
    have h := get i _ hi; have h' := get j _ hj
    simp only [ObjOk] at h h'
    by_cases hij : i = j
    · subst hij
      rw [hi] at hj; cases hj
      res_run [h]
      exact R_put hR (hi ▸ hR i) (fun _ _ => rfl)
    have hji : j ≠ i := fun e => hij e.symm
    cases old <;> cases s <;> simp at hsame <;> res_run [h, h', hij, upd_ne, hji] <;>
      exact R_put hR (by simp [ObjOk, h]) (fun k hk => by simp [upd_ne, hk])
  | moveAssign i j =>
    simp only [specStep] at hs
    split at hs <;> first | (simp at hs; done) | skip
    rename_i old s hi hj
    have h := get i _ hi; have h' := get j _ hj
    simp only [ObjOk] at h h'
    by_cases hij : i = j
    · subst hij
      simp at hs; subst hs
      res_run [h]
      exact hR
    have hji : j ≠ i := fun e => hij e.symm
    simp only [hij, if_false] at hs
    split at hs <;> simp at hs
    subst hs
    rename_i hsame
    simp at hsame
    cases old <;> cases s <;> simp at hsame <;> res_run [h, h', hij, upd_ne, hji] <;>
      exact R_put2 hR hij (by simp [ObjOk, h]) (by simp [ObjOk, upd_ne, hji, movedFrom, h'])
        (fun k hk hk' => by simp [upd_ne, hk, hk'])
  | isOk i =>
    simp only [specStep] at hs
    split at hs <;> simp at hs
    subst hs; rename_i s hi
    have h := get i _ hi; simp only [ObjOk] at h
    res_run [h]; exact hR
  | isErr i =>
    simp only [specStep] at hs
    split at hs <;> simp at hs
    subst hs; rename_i s hi
    have h := get i _ hi; simp only [ObjOk] at h
    cases s <;> res_run [h] <;> exact hR
  | unwrap i =>
    simp only [specStep] at hs
    split at hs <;> simp at hs <;> subst hs <;> rename_i hi <;>
    (have h := get i _ hi; simp only [ObjOk] at h; res_run [h])
    exact R_put hR (by simp [ObjOk, h]) (fun k hk => by simp [upd_ne, hk])
  | unwrapErr i =>
    simp only [specStep] at hs
    split at hs <;> simp at hs <;> subst hs <;> rename_i hi <;>
    (have h := get i _ hi; simp only [ObjOk] at h; res_run [h])
    exact R_put hR (by simp [ObjOk, h]) (fun k hk => by simp [upd_ne, hk])
  | ok i =>
    simp only [specStep] at hs
    split at hs <;> simp at hs
    subst hs; rename_i s hi
    have h := get i _ hi; simp only [ObjOk] at h
    cases s <;> res_run [h] <;> exact hR
  | err i =>
    simp only [specStep] at hs
    split at hs <;> simp at hs
    subst hs; rename_i s hi
    have h := get i _ hi; simp only [ObjOk] at h
    cases s <;> res_run [h] <;> exact hR
  | destroy i =>
    simp only [specStep] at hs
    split at hs <;> simp at hs
    subst hs; rename_i s hi
    have h := get i _ hi; simp only [ObjOk] at h
    cases s <;> res_run [h] <;>
      (refine R_put hR ?_ ?_; · simp [ObjOk, h]
       · intro k hk; simp [upd_ne, hk])

theorem run_ok (C : Cfg τ ε) (ops : List (Op τ ε)) (A : Ideal τ ε) (w : World τ ε) (hR : R A w) :
    match specRun false C.mvT C.mvE ops A with
    | some (.ok (rs, A')) => ∃ w', run C ops w = .ok (rs, w') ∧ R A' w'
    | some .panic => run C ops w = .panic
    | _ => True := by
  induction ops generalizing A w with
  | nil => exact ⟨w, rfl, hR⟩
  | cons op ops ih =>
    simp only [specRun]
    cases hs : specStep false C.mvT C.mvE op A with
    | none => trivial
    | some s =>
      have h := step_ok C op A w hR s hs
      cases s with
      | ok p =>
        obtain ⟨r, A'⟩ := p
        obtain ⟨w', h1, h2⟩ := h
        have := ih A' w' h2
        simp only []
        cases hr : specRun false C.mvT C.mvE ops A' with
        | none => trivial
        | some q =>
          rw [hr] at this
          cases q with
          | ok q =>
            obtain ⟨w'', h3, h4⟩ := this
            exact ⟨w'', by simp [run, h1, h3], h4⟩
          | panic => simp only [] at this ⊢; simp [run, h1, this]
          | _ => trivial
      | panic => simp only [Agree] at h; simp [run, h]
      | _ => trivial

end Verif.Proof.Res
