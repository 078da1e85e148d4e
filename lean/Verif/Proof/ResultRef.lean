import Verif.Proof.Result
import Verif.Spec.ResultRef
namespace Verif.Proof.Res
open Verif Verif.Model.Res Verif.Spec.Res

variable {α ε : Type}

def RR (A : RefIdeal α ε) (w : RefWorld α ε) : Prop := w.mem = A.mem ∧ R A.var w.res

def RAgree (m : Out (RefRet α ε × RefWorld α ε)) (s : Out (RefRet α ε × RefIdeal α ε)) : Prop :=
  match s with
  | .ok (r, A') => ∃ w', m = .ok (r, w') ∧ RR A' w'
  | .panic => m = .panic
  | _ => False

theorem onRes_ok {β : Type} {p : Prog (World Nat ε) β} {w : RefWorld α ε} {b : β} {r : World Nat ε}
    (h : p w.res = .ok (b, r)) : onRes p w = .ok (b, { w with res := r }) := by
  simp [onRes, h]

/-- Drops the wrapping of the answer. -/
theorem strip {C : Cfg Nat ε} {p : Prog (World Nat ε) Unit} {r : World Nat ε} {w : World Nat ε}
    (h : (do p; return Ret.unit : Prog (World Nat ε) (Ret Nat ε)) w = .ok (.unit, r)) : p w = .ok ((), r) := by
  simp only [Prog.bind_run] at h
  cases hp : p w with
  | ok q => rw [hp] at h; obtain ⟨u, w'⟩ := q; simp at h; rw [h]
  | _ => rw [hp] at h; simp at h

theorem ref_of_base {C : Cfg Nat ε} {A : RefIdeal α ε} {w : RefWorld α ε} (hR : RR A w) {op : Op Nat ε}
    {p : Prog (World Nat ε) Unit} (hp : step C op = (do p; return .unit)) {A' : Ideal Nat ε}
    (hs : specStep false C.mvT C.mvE op A.var = some (.ok (.unit, A'))) :
    RAgree ((do onRes p; return .unit : Prog (RefWorld α ε) (RefRet α ε)) w) (.ok (.unit, { A with var := A' })) := by
  obtain ⟨r, h1, h2⟩ := step_ok C op A.var w.res hR.2 _ hs
  rw [hp] at h1
  have h3 := strip (C := C) h1
  exact ⟨{ w with res := r }, by simp [onRes_ok h3], hR.1, h2⟩

theorem leftBehind_eq (mvE : ε → ε) (s : Nat ⊕ ε) : leftBehind mvE s = movedFrom id mvE s := by cases s <;> rfl

theorem ref_step_ok (cE : Bool) (mvE : ε → ε) (eqT : α → α → Bool) (eqE : ε → ε → Bool) (op : RefOp α ε) (A : RefIdeal α ε)
    (w : RefWorld α ε) (hR : RR A w) (s : Out (RefRet α ε × RefIdeal α ε)) (hs : refSpec mvE eqT eqE op A = some s) :
    RAgree (refStep (refCfg cE mvE) eqT eqE op w) s := by
  have get : ∀ i x, A.var i = x → ObjOk (w.res i) x := fun i x h => h ▸ hR.2 i
  obtain ⟨m, rw⟩ := w
  have hm : m = A.mem := hR.1
  subst hm
  cases op with
  | newObj a v =>
    simp only [refSpec] at hs
    split at hs <;> (try simp at hs)
    subst hs; rename_i h
    refine ⟨_, by simp [refStep, newObj, h]; rfl, ?_⟩
    exact ⟨by simp [RefIdeal.setMem], hR.2⟩
  | setObj a v =>
    simp only [refSpec] at hs
    split at hs <;> (try simp at hs)
    subst hs; rename_i h
    refine ⟨_, by simp [refStep, store, h]; rfl, ?_⟩
    exact ⟨by simp [RefIdeal.setMem], hR.2⟩
  | endObj a =>
    simp only [refSpec] at hs
    split at hs <;> (try simp at hs)
    subst hs; rename_i h
    refine ⟨_, by simp [refStep, endObj, h]; rfl, ?_⟩
    exact ⟨by simp [RefIdeal.setMem], hR.2⟩
  | mkOk i a =>
    simp only [refSpec] at hs
    split at hs <;> (try simp at hs)
    subst hs; rename_i h
    exact ref_of_base (C := refCfg cE mvE) hR (op := .mkOk i a) rfl (by simp [specStep, h]; rfl)
  | mkErr i e =>
    simp only [refSpec] at hs
    split at hs <;> (try simp at hs)
    subst hs; rename_i h
    exact ref_of_base (C := refCfg cE mvE) hR (op := .mkErr i e) rfl (by simp [specStep, h]; rfl)
  | copyCtor i j =>
    simp only [refSpec] at hs
    split at hs <;> (try simp at hs)
    subst hs; rename_i h h'
    exact ref_of_base (C := refCfg cE mvE) hR (op := .copyCtor i j) rfl (by simp [specStep, h, h']; rfl)
  | moveCtor i j =>
    simp only [refSpec] at hs
    split at hs <;> (try simp at hs)
    subst hs; rename_i h h'
    rw [leftBehind_eq]
    exact ref_of_base (C := refCfg cE mvE) hR (op := .moveCtor i j) rfl (by simp [specStep, h, h']; rfl)
  | copyAssign i j =>
    simp only [refSpec] at hs
    split at hs <;> (try simp at hs)
    obtain ⟨hv, rfl⟩ := hs; rename_i h h'
    simp only [refStep, refCopyAssign]
    split
    · rename_i hij
      subst hij
      refine ⟨_, rfl, rfl, ?_⟩
      intro k
      by_cases hk : k = i
      · subst hk; simp only [RefIdeal.setVar, if_pos]; exact get _ _ h'
      · simp only [RefIdeal.setVar, if_neg hk]; exact hR.2 k
    · exact ref_of_base (C := refCfg cE mvE) hR (op := .copyAssign i j) rfl (by simp [specStep, h, h', hv]; rfl)
  | moveAssign i j =>
    simp only [refSpec] at hs
    split at hs <;> (try simp at hs)
    rename_i h h'
    simp only [refStep, refMoveAssign]
    split at hs
    · rename_i hij; simp at hs; subst hs
      rw [if_pos hij]
      exact ⟨_, rfl, hR⟩
    · rename_i hij; simp at hs
      obtain ⟨hv, rfl⟩ := hs
      rw [if_neg hij, leftBehind_eq]
      exact ref_of_base (C := refCfg cE mvE) hR (op := .moveAssign i j) rfl (by simp [specStep, h, h', hv, hij]; rfl)
  | isOk i =>
    simp only [refSpec] at hs
    split at hs <;> (try simp at hs)
    subst hs; rename_i h
    have h := get _ _ h; simp only [ObjOk] at h
    exact ⟨_, by simp [refStep, onRes, isOk, obj, h], hR⟩
  | which i =>
    simp only [refSpec] at hs
    split at hs <;> (try simp at hs)
    subst hs; rename_i s h
    have h := get _ _ h; simp only [ObjOk] at h
    cases s <;> exact ⟨_, by simp [refStep, refOkRef, onRes, readT, obj, h], hR⟩
  | unwrapErr i =>
    simp only [refSpec] at hs
    split at hs <;> (try simp at hs)
    · subst hs; rename_i h
      have h := get _ _ h; simp only [ObjOk] at h
      simp [RAgree, refStep, onRes, unwrapErr, obj, h, Prog.panic]
    · subst hs; rename_i e h
      have h := get _ _ h; simp only [ObjOk] at h
      refine ⟨_, by simp [refStep, onRes, unwrapErr, obj, h, moveE]; rfl, ?_⟩
      refine ⟨rfl, ?_⟩
      exact R_put hR.2 (by simp [ObjOk, h, refCfg]) (fun k hk => by simp [upd_ne, hk])
  | read i =>
    simp only [refSpec] at hs
    split at hs <;> (try simp at hs)
    · subst hs; rename_i h
      have h := get _ _ h; simp only [ObjOk] at h
      simp [RAgree, refStep, onRes, refUnwrap, obj, h, Prog.panic]
    · split at hs <;> (try simp at hs)
      subst hs; rename_i h _ _ h'
      have h := get _ _ h; simp only [ObjOk] at h
      exact ⟨_, by simp [refStep, onRes, refUnwrap, readT, obj, h, load, h'], hR⟩
  | write i v =>
    simp only [refSpec] at hs
    split at hs <;> (try simp at hs)
    · subst hs; rename_i h
      have h := get _ _ h; simp only [ObjOk] at h
      simp [RAgree, refStep, onRes, refUnwrap, obj, h, Prog.panic]
    · split at hs <;> (try simp at hs)
      subst hs; rename_i h _ _ h'
      have h := get _ _ h; simp only [ObjOk] at h
      refine ⟨_, by simp [refStep, onRes, refUnwrap, readT, obj, h, store, h']; rfl, ?_⟩
      exact ⟨by simp [RefIdeal.setMem], hR.2⟩
  | eq i j =>
    simp only [refSpec] at hs
    split at hs
    · split at hs <;> (try simp at hs)
      subst hs; rename_i h h' _ _ _ _ hu hv
      have h := get _ _ h; have h' := get _ _ h'; simp only [ObjOk] at h h'
      exact ⟨_, by simp [refStep, onRes, refEq, readT, obj, h, h', load, hu, hv], hR⟩
    · simp at hs
      subst hs; rename_i h h'
      have h := get _ _ h; have h' := get _ _ h'; simp only [ObjOk] at h h'
      exact ⟨_, by simp [refStep, onRes, refEq, readE, obj, h, h'], hR⟩
    · simp at hs
      subst hs; rename_i s t n1 n2 h h'
      have g := get _ _ h; have g' := get _ _ h'; simp only [ObjOk] at g g'
      refine ⟨_, ?_, hR⟩
      cases s <;> cases t
      · exact (n1 _ _ rfl rfl).elim
      · simp [refStep, onRes, refEq, obj, g, g']
      · simp [refStep, onRes, refEq, obj, g, g']
      · exact (n2 _ _ rfl rfl).elim
    · simp at hs
  | destroy i =>
    simp only [refSpec] at hs
    split at hs <;> (try simp at hs)
    subst hs; rename_i h
    exact ref_of_base (C := refCfg cE mvE) hR (op := .destroy i) rfl (by simp [specStep, h]; rfl)

theorem ref_run_ok (cE : Bool) (mvE : ε → ε) (eqT : α → α → Bool) (eqE : ε → ε → Bool) (ops : List (RefOp α ε))
    (A : RefIdeal α ε) (w : RefWorld α ε) (hR : RR A w) :
    match refSpecRun mvE eqT eqE ops A with
    | some (.ok (rs, A')) => ∃ w', refRun (refCfg cE mvE) eqT eqE ops w = .ok (rs, w') ∧ RR A' w'
    | some .panic => refRun (refCfg cE mvE) eqT eqE ops w = .panic
    | _ => True := by
  induction ops generalizing A w with
  | nil => exact ⟨_, rfl, hR⟩
  | cons op ops ih =>
    simp only [refSpecRun]
    cases hs : refSpec mvE eqT eqE op A with
    | none => trivial
    | some s =>
      have h := ref_step_ok cE mvE eqT eqE op A w hR s hs
      cases s with
      | ok p =>
        obtain ⟨r, A'⟩ := p
        obtain ⟨w', h1, h2⟩ := h
        have := ih A' w' h2
        simp only []
        cases hr : refSpecRun mvE eqT eqE ops A' with
        | none => trivial
        | some q =>
          rw [hr] at this
          cases q with
          | ok q =>
            obtain ⟨w'', h3, h4⟩ := this
            exact ⟨w'', by simp [refRun, h1, h3], h4⟩
          | panic => simp only [] at this ⊢; simp [refRun, h1, this]
          | _ => trivial
      | panic => simp only [RAgree] at h; simp [refRun, h]
      | _ => trivial

end Verif.Proof.Res
