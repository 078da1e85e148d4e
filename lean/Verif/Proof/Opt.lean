import Verif.Spec.Opt
namespace Verif.Proof.Opt
open Verif Verif.Model.Opt Verif.Spec.Opt

variable {α : Type}

/-- One object agrees with its ideal content, and its payload counters balance. -/
def ObjOk (o : Obj α) (x : Option (Option α)) : Prop :=
  (o.alive = x.isSome) ∧ (∀ c, x = some c → o.hold = c.isSome ∧ o.cell = c) ∧ (x = none → o.cell = none) ∧
  o.ctor = o.dtor + (if o.cell.isSome then 1 else 0)

def R (A : Ideal α) (w : World α) : Prop := ∀ i, ObjOk (w i) (A i)

theorem objOk_none {o : Obj α} (h : ObjOk o none) : o.alive = false ∧ o.cell = none ∧ o.ctor = o.dtor := by
  obtain ⟨h1, h2, h3, h4⟩ := h
  simp [h3 rfl] at h4
  exact ⟨by simpa using h1, h3 rfl, h4⟩

theorem objOk_some_none {o : Obj α} (h : ObjOk o (some none)) :
    o.alive = true ∧ o.hold = false ∧ o.cell = none ∧ o.ctor = o.dtor := by
  obtain ⟨h1, h2, h3, h4⟩ := h
  have := h2 none rfl
  simp [this.2] at h4
  exact ⟨by simpa using h1, by simpa using this.1, this.2, h4⟩

theorem objOk_some_some {o : Obj α} {v : α} (h : ObjOk o (some (some v))) :
    o.alive = true ∧ o.hold = true ∧ o.cell = some v ∧ o.ctor = o.dtor + 1 := by
  obtain ⟨h1, h2, h3, h4⟩ := h
  have := h2 (some v) rfl
  simp [this.2] at h4
  exact ⟨by simpa using h1, by simpa using this.1, this.2, h4⟩

theorem objOk_of_none {o : Obj α} (h1 : o.alive = false) (h2 : o.cell = none) (h3 : o.ctor = o.dtor) : ObjOk o none :=
  ⟨by simp [h1], by simp, by simp [h2], by simp [h2, h3]⟩

theorem objOk_of_some_none {o : Obj α} (h1 : o.alive = true) (h2 : o.hold = false) (h3 : o.cell = none)
    (h4 : o.ctor = o.dtor) : ObjOk o (some none) :=
  ⟨by simp [h1], by simp [h2, h3], by simp, by simp [h3, h4]⟩

theorem objOk_of_some_some {o : Obj α} {v : α} (h1 : o.alive = true) (h2 : o.hold = true) (h3 : o.cell = some v)
    (h4 : o.ctor = o.dtor + 1) : ObjOk o (some (some v)) :=
  ⟨by simp [h1], by simp [h2, h3], by simp, by simp [h3, h4]⟩

/-- A step result agrees with the ideal one. -/
def Agree (m : Out (Res α × World α)) (s : Out (Res α × Ideal α)) : Prop :=
  match s with
  | .ok (r, A') => ∃ w', m = .ok (r, w') ∧ R A' w'
  | .panic => m = .panic
  | _ => False

@[simp] theorem upd_same (w : World α) (i : Nat) (o : Obj α) : upd w i o i = o := by simp [upd]
@[simp] theorem upd_upd (w : World α) (i : Nat) (o o' : Obj α) : upd (upd w i o) i o' = upd w i o' := by
  funext k; simp [upd]; split <;> rfl
theorem upd_ne (w : World α) {i j : Nat} (o : Obj α) (h : j ≠ i) : upd w i o j = w j := by simp [upd, h]

macro "opt_run" "[" ts:Lean.Parser.Tactic.simpLemma,* "]" : tactic => `(tactic|
  simp [Agree, step, mkSome, mkNone, born, constructVal, setHold, modObj, isSome, isNone, obj, unwrap,
    unwrapUnchecked, moveVal, reset, destroyVal, readVal, assignVal, asRefRead, asRefWrite, moveCtor, moveAssign,
    copyCtor, copyAssign, destroy, map, $ts,*])

theorem R_put {A : Ideal α} {w w' : World α} (hR : R A w) {i : Nat} {x : Option (Option α)}
    (hi : ObjOk (w' i) x) (hne : ∀ k, k ≠ i → w' k = w k) : R (put A i x) w' := by
  intro k
  by_cases hk : k = i
  · subst hk; simpa [put] using hi
  · simp only [put, hk, if_false]; rw [hne k hk]; exact hR k

theorem R_put2 {A : Ideal α} {w w' : World α} (hR : R A w) {i j : Nat} {x y : Option (Option α)}
    (hij : i ≠ j) (hi : ObjOk (w' i) x) (hj : ObjOk (w' j) y) (hne : ∀ k, k ≠ i → k ≠ j → w' k = w k) :
    R (put (put A j y) i x) w' := by
  intro k
  by_cases hk : k = i
  · subst hk; simpa [put] using hi
  · by_cases hk' : k = j
    · subst hk'; simp only [put, hk, if_false, if_true]; exact hj
    · simp only [put, hk, hk', if_false]; rw [hne k hk hk']; exact hR k

theorem step_ok (mv : α → α) (op : Op α) (A : Ideal α) (w : World α) (hR : R A w)
    (s : Out (Res α × Ideal α)) (hs : specStep mv op A = some s) : Agree (step mv op w) s := by
  cases op with
  | mkSome i v =>
    simp only [specStep] at hs
    split at hs <;> simp at hs
    subst hs
    rename_i hA
    have h := objOk_none (hA ▸ hR i)
    opt_run [h]
    exact R_put hR (objOk_of_some_some (by simp) (by simp) (by simp) (by simp))
      (fun k hk => by simp [upd_ne, hk])
  | mkNone i =>
    simp only [specStep] at hs
    split at hs <;> simp at hs
    subst hs
    rename_i hA
    have h := objOk_none (hA ▸ hR i)
    opt_run [h]
    exact R_put hR (objOk_of_some_none (by simp) (by simp) (by simp) (by simp))
      (fun k hk => by simp [upd_ne, hk])
  | copyCtor i j =>
    simp only [specStep] at hs
    split at hs <;> simp at hs
    subst hs
    rename_i o hi hj
    have hij : j ≠ i := by rintro rfl; rw [hi] at hj; cases hj
    have h := objOk_none (hi ▸ hR i)
    cases o with
    | none =>
      have h' := objOk_some_none (hj ▸ hR j)
      opt_run [h, h', upd_ne, hij]
      exact R_put hR (objOk_of_some_none (by simp) (by simp) (by simp) (by simp)) (fun k hk => by simp [upd_ne, hk])
    | some v =>
      have h' := objOk_some_some (hj ▸ hR j)
      opt_run [h, h', upd_ne, hij]
      exact R_put hR (objOk_of_some_some (by simp) (by simp) (by simp) (by simp)) (fun k hk => by simp [upd_ne, hk])
  | moveCtor i j =>
    simp only [specStep] at hs
    split at hs <;> simp at hs
    subst hs
    rename_i o hi hj
    have hij : j ≠ i := by rintro rfl; rw [hi] at hj; cases hj
    have h := objOk_none (hi ▸ hR i)
    cases o with
    | none =>
      have h' := objOk_some_none (hj ▸ hR j)
      opt_run [h, h', upd_ne, hij]
      exact R_put2 hR hij.symm (objOk_of_some_none (by simp) (by simp) (by simp) (by simp))
        (objOk_of_some_none (by simp [upd_ne, hij, h']) (by simp [upd_ne, hij, h']) (by simp [upd_ne, hij, h'])
          (by simp [upd_ne, hij, h'])) (fun k hk _ => by simp [upd_ne, hk])
    | some v =>
      have h' := objOk_some_some (hj ▸ hR j)
      opt_run [h, h', upd_ne, hij, hij.symm]
      exact R_put2 hR hij.symm (objOk_of_some_some (by simp [upd_ne, hij.symm]) (by simp [upd_ne, hij.symm])
          (by simp [upd_ne, hij.symm]) (by simp [upd_ne, hij.symm]))
        (objOk_of_some_none (by simp) (by simp) (by simp) (by simp))
        (fun k hk hk' => by simp [upd_ne, hk, hk'])
  | copyAssign i j =>
    simp only [specStep] at hs
    split at hs <;> simp at hs
    subst hs
    rename_i old o hi hj
    by_cases hij : i = j
    · subst hij
      rw [hi] at hj; cases hj
      have h' : (w i).alive = true := by have := (hi ▸ hR i : ObjOk (w i) (some old)).1; simpa using this
      opt_run [h']
      exact R_put hR (hi ▸ hR i) (fun _ _ => rfl)
    have hji : j ≠ i := fun e => hij e.symm
    cases old with
    | none =>
      have h := objOk_some_none (hi ▸ hR i)
      cases o with
      | none =>
        have h' := objOk_some_none (hj ▸ hR j)
        opt_run [h, h', hij]
        exact R_put hR (hi ▸ hR i) (fun k hk => rfl)
      | some v =>
        have h' := objOk_some_some (hj ▸ hR j)
        opt_run [h, h', hij, upd_ne, hji]
        exact R_put hR (objOk_of_some_some (by simp [h]) (by simp) (by simp) (by simp [h])) (fun k hk => by simp [upd_ne, hk])
    | some u =>
      have h := objOk_some_some (hi ▸ hR i)
      cases o with
      | none =>
        have h' := objOk_some_none (hj ▸ hR j)
        opt_run [h, h', hij, upd_ne, hji]
        exact R_put hR (objOk_of_some_none (by simp [h]) (by simp) (by simp) (by simp [h])) (fun k hk => by simp [upd_ne, hk])
      | some v =>
        have h' := objOk_some_some (hj ▸ hR j)
        opt_run [h, h', hij, upd_ne, hji]
        exact R_put hR (objOk_of_some_some (by simp [h]) (by simp [h]) (by simp) (by simp [h])) (fun k hk => by simp [upd_ne, hk])
  | moveAssign i j =>
    simp only [specStep] at hs
    split at hs <;> first | (simp at hs; done) | skip
    rename_i old o hi hj
    by_cases hij : i = j
    · subst hij
      simp at hs; subst hs
      have h' : (w i).alive = true := by have := (hi ▸ hR i : ObjOk (w i) (some old)).1; simpa using this
      opt_run [h']
      exact hR
    simp [hij] at hs; subst hs
    have hji : j ≠ i := fun e => hij e.symm
    cases old with
    | none =>
      have h := objOk_some_none (hi ▸ hR i)
      cases o with
      | none =>
        have h' := objOk_some_none (hj ▸ hR j)
        opt_run [h, h', hij]
        exact R_put2 hR hij (hi ▸ hR i) (hj ▸ hR j) (fun k hk _ => rfl)
      | some v =>
        have h' := objOk_some_some (hj ▸ hR j)
        opt_run [h, h', hij, upd_ne, hji]
        exact R_put2 hR hij (objOk_of_some_some (by simp [upd_ne, hij, h]) (by simp [upd_ne, hij])
          (by simp [upd_ne, hij]) (by simp [upd_ne, hij, h]))
          (objOk_of_some_none (by simp [h']) (by simp) (by simp) (by simp [h']))
          (fun k hk hk' => by simp [upd_ne, hk, hk'])
    | some u =>
      have h := objOk_some_some (hi ▸ hR i)
      cases o with
      | none =>
        have h' := objOk_some_none (hj ▸ hR j)
        opt_run [h, h', hij, upd_ne, hji]
        exact R_put2 hR hij (objOk_of_some_none (by simp [h]) (by simp) (by simp) (by simp [h]))
          (by simpa [upd_ne, hji] using (hj ▸ hR j : ObjOk (w j) (some none)))
          (fun k hk _ => by simp [upd_ne, hk])
      | some v =>
        have h' := objOk_some_some (hj ▸ hR j)
        opt_run [h, h', hij, upd_ne, hji]
        exact R_put2 hR hij (objOk_of_some_some (by simp [h]) (by simp [h]) (by simp) (by simp [h]))
          (objOk_of_some_some (by simp [upd_ne, hji, h']) (by simp [upd_ne, hji, h']) (by simp [upd_ne, hji])
            (by simp [upd_ne, hji, h']))
          (fun k hk hk' => by simp [upd_ne, hk, hk'])
  | unwrap i =>
    simp only [specStep] at hs
    split at hs <;> simp at hs <;> subst hs <;> rename_i hi
    · have h := objOk_some_none (hi ▸ hR i)
      opt_run [h]
    · have h := objOk_some_some (hi ▸ hR i)
      opt_run [h]
      exact R_put hR (objOk_of_some_none (by simp [h]) (by simp) (by simp) (by simp [h])) (fun k hk => by simp [upd_ne, hk])
  | read i =>
    simp only [specStep] at hs
    split at hs <;> simp at hs <;> subst hs <;> rename_i hi
    · have h := objOk_some_none (hi ▸ hR i)
      opt_run [h]
    · have h := objOk_some_some (hi ▸ hR i)
      opt_run [h]
      exact hR
  | write i x =>
    simp only [specStep] at hs
    split at hs <;> simp at hs <;> subst hs <;> rename_i hi
    · have h := objOk_some_none (hi ▸ hR i)
      opt_run [h]
    · have h := objOk_some_some (hi ▸ hR i)
      opt_run [h]
      exact R_put hR (objOk_of_some_some (by simp [h]) (by simp [h]) (by simp) (by simp [h])) (fun k hk => by simp [upd_ne, hk])
  | isSome i =>
    simp only [specStep] at hs
    split at hs <;> simp at hs
    subst hs; rename_i o hi
    have h' := (hi ▸ hR i : ObjOk (w i) (some o))
    have h1 : (w i).alive = true := by simpa using h'.1
    have h2 := (h'.2.1 o rfl).1
    opt_run [h1, h2]
    exact hR
  | isNone i =>
    simp only [specStep] at hs
    split at hs <;> simp at hs
    subst hs; rename_i o hi
    have h' := (hi ▸ hR i : ObjOk (w i) (some o))
    have h1 : (w i).alive = true := by simpa using h'.1
    have h2 := (h'.2.1 o rfl).1
    opt_run [h1, h2]
    exact hR
  | mapSelf f i =>
    simp only [specStep] at hs
    split at hs <;> simp at hs
    subst hs; rename_i o hi
    cases o with
    | none =>
      have h := objOk_some_none (hi ▸ hR i)
      opt_run [h]
      exact R_put hR (hi ▸ hR i) (fun _ _ => rfl)
    | some v =>
      have h := objOk_some_some (hi ▸ hR i)
      opt_run [h]
      exact R_put hR (objOk_of_some_some (by simp [h]) (by simp [h]) (by simp) (by simp [h])) (fun k hk => by simp [upd_ne, hk])
  | destroy i =>
    simp only [specStep] at hs
    split at hs <;> simp at hs
    subst hs; rename_i o hi
    cases o with
    | none =>
      have h := objOk_some_none (hi ▸ hR i)
      opt_run [h]
      exact R_put hR (objOk_of_none (by simp) (by simp [h]) (by simp [h])) (fun k hk => by simp [upd_ne, hk])
    | some v =>
      have h := objOk_some_some (hi ▸ hR i)
      opt_run [h]
      exact R_put hR (objOk_of_none (by simp) (by simp) (by simp [h])) (fun k hk => by simp [upd_ne, hk])

theorem run_ok (mv : α → α) (ops : List (Op α)) (A : Ideal α) (w : World α) (hR : R A w) :
    match specRun mv ops A with
    | some (.ok (rs, A')) => ∃ w', run mv ops w = .ok (rs, w') ∧ R A' w'
    | some .panic => run mv ops w = .panic
    | _ => True := by
  induction ops generalizing A w with
  | nil => exact ⟨w, rfl, hR⟩
  | cons op ops ih =>
    simp only [specRun]
    cases hs : specStep mv op A with
    | none => trivial
    | some s =>
      have h := step_ok mv op A w hR s hs
      cases s with
      | ok p =>
        obtain ⟨r, A'⟩ := p
        obtain ⟨w', h1, h2⟩ := h
        have := ih A' w' h2
        simp only []
        cases hr : specRun mv ops A' with
        | none => trivial
        | some q =>
          rw [hr] at this
          cases q with
          | ok q =>
            obtain ⟨w'', h3, h4⟩ := this
            exact ⟨w'', by simp [run, h1, h3], h4⟩
          | panic => simp only [] at this ⊢; simp [run, h1, this]
          | _ => trivial
      | panic => simp only [Agree] at h; simp [run, h]
      | _ => trivial

end Verif.Proof.Opt
