import Verif.Proof.NestedList
import Verif.Proof.LLHist
import Verif.Proof.LLCatch
/-!
# Linked lists of objects keep their promises
-/
namespace Verif.Proof.Nested
open Verif Verif.Model.Nested Verif.Spec.Nested
open Verif.Model (LL.Ptr LL.Lst)

/-! ## Linked lists of values -/

section
variable {α : Type}

/-- the lists are as the specification says -/
def LInv (cfg : Model.LL.Cfg α) (A : Nat → Option (Spec.LL.Var α)) (w : Model.LL.World α) : Prop :=
  ∃ C, LL.Inv cfg C w ∧ LL.ideal C = A

theorem lstep_ok {cfg : Model.LL.Cfg α} {op : Model.LL.Op α} {A A' : Nat → Option (Spec.LL.Var α)} {w : Model.LL.World α}
    {r : Model.LL.Res α} (I : LInv cfg A w) (hs : Spec.LL.specStep false cfg.dbl cfg.dflt op A = some (r, A')) :
    (Model.LL.step cfg op w).Safe fun q => q.1 = r ∧ LInv cfg A' q.2 := by
  obtain ⟨C, I, rfl⟩ := I
  have h := LL.step_ok op I hs
  cases e : Model.LL.step cfg op w with
  | ok q => rw [e] at h; obtain ⟨h1, C', h2, h3, _⟩ := h; exact ⟨h1, C', h2, h3⟩
  | oom => trivial
  | div => rw [e] at h; exact h.elim
  | panic => rw [e] at h; exact h.elim
  | ub => rw [e] at h; exact h.elim

end

section
variable {V : Type} {S : Sig} (μ : Meaning S V) (cfg : Model.LL.Cfg V) (bad : Model.LL.M V LL.Ptr)

/-! ## Copies -/

def copyLoopV (own : Nat) (stop rp p : LL.Ptr) (n : Nat) : Model.LL.M V (LL.Ptr × Nat) :=
  if rp = stop then return (p, n)
  else do
    let tmp ← copyV μ cfg bad own rp
    let rp' ← Model.LL.getNext rp
    Model.LL.setNext cfg p tmp
    copyLoopV own stop rp' tmp (n + 1)
partial_fixpoint

def copyImplV (o : LL.Lst) (a : Nat) : Model.LL.M V LL.Lst := do
  Model.LL.dbgAssert cfg o.head.isSome
  if o.len = 0 then do
    let q ← Model.LL.initEmpty cfg a
    return ⟨q.1, q.2, 0, a⟩
  else do
    let rp ← Model.LL.getNext o.head
    let h ← Model.LL.buildVirtual cfg a
    let t ← Model.LL.buildVirtual cfg a
    let q ← copyLoopV μ cfg bad a o.tail rp h 0
    Model.LL.setNext cfg q.1 t
    Model.LL.setNext cfg t none
    return ⟨h, t, q.2, a⟩

end

section
open Verif.Model.LL Verif.Proof.LL
variable {V : Type} {S : Sig} {μ : Meaning S V} {cfg : Cfg V} {bad : M V Ptr} {h : Heap V} {hd tl own p : Nat} {c1 c2 cs : LL.Cells V}

theorem copyLoopV_ok {o : Nat} (hb : Bal h) (hp : Live h p) (r : Rep cfg h hd tl (c1 ++ c2) own) (hpn : p ∉ nodes hd tl (c1 ++ c2)) (n : Nat)
    (hok : ∀ x ∈ vals c2, μ.cpOk x = true) :
    (copyLoopV μ cfg bad o (some tl) (some (headOf tl c2)) (some p) n h).SafeIf (Refuses cfg) fun q =>
      ∃ ns, vals ns = (vals c2).map μ.cp ∧ q.1 = (some (lastOf p ns), n + c2.length) ∧ Built cfg o h p q.2 ns := by
  induction c2 generalizing h p c1 n with
  | nil =>
    rw [copyLoopV]
    rw [headOf_nil, if_pos rfl]
    exact ⟨[], rfl, rfl, Built.nil hb o p⟩
  | cons c c2 ih =>
    have hne : some c.1 ≠ some tl := by simpa using r.head_ne_tl
    rw [copyLoopV]
    rw [headOf_cons, if_neg hne]
    simp only [Prog.bind_run, copyV, load_run (Rep.elem_at (a := c.1) (x := c.2) r), Out.bind_ok, if_pos (hok c.2 (by simp))]
    refine (constructNode_run o (μ.cp c.2) h).bind ?_
    rintro _ rfl
    have s1 := step_mk (cfg := cfg) (own := o) (x := μ.cp c.2) hb
    have r1 := r.step s1 (by simp)
    simp only [r1.getNext_cell, Out.bind_ok, setNext_run (mk_live (h := h) hp) (isElem_mk (h := h)).live]
    have hn : h.next ∉ nodes hd tl (c1 ++ c :: c2) := fun hm => r.live hm (hb.fresh _ (Nat.le_refl _))
    have s2 := step_link (d := cfg.dbl) (l := [p, h.next]) (a := p) (b := h.next) s1.bal (by simp) (by simp)
    have r2 := r1.step s2 (by
      intro a ha hm
      simp only [List.mem_cons, List.not_mem_nil, or_false] at hm
      rcases hm with rfl | rfl
      · exact hpn ha
      · exact hn ha)
    refine (ih (p := h.next) (c1 := c1 ++ [c]) s2.bal isElem_mk.live (by simpa using r2) (by simpa using hn) (n + 1)
      (fun x hx => hok x (List.mem_cons_of_mem _ hx))).imp ?_
    rintro q ⟨ns, e1, e2, bt⟩
    refine ⟨(h.next, μ.cp c.2) :: ns, by simp [e1], ?_, bt.cons hb hp⟩
    rw [e2]; simp [Nat.add_comm, Nat.add_left_comm]

theorem stops {X Y : Type} {x : Out X} {f : X → Out Y} {R : Prop} {P : X → Prop} (h : x.SafeIf R P) (hf : ∀ q, P q → f q = .panic ∨ f q = .oom) :
    (x >>= f) = .panic ∨ (x >>= f) = .oom := by
  cases x with
  | ok q => exact hf q h
  | oom => exact .inr rfl
  | div => cases h
  | panic => cases h
  | ub => cases h

theorem stopped {X Y : Type} {x : Out X} {f : X → Out Y} (h : x = .panic ∨ x = .oom) : (x >>= f) = .panic ∨ (x >>= f) = .oom := by
  rcases h with rfl | rfl
  · exact .inl rfl
  · exact .inr rfl

/-- the copy stops at the first element that may not be copied, if copying that aborts -/
theorem copyLoopV_abort {o : Nat} (hb : Bal h) (hp : Live h p) (r : Rep cfg h hd tl (c1 ++ c2) own) (hpn : p ∉ nodes hd tl (c1 ++ c2)) (n : Nat)
    (hno : (vals c2).all μ.cpOk = false) :
    copyLoopV μ cfg Prog.panic o (some tl) (some (headOf tl c2)) (some p) n h = .panic ∨
      copyLoopV μ cfg Prog.panic o (some tl) (some (headOf tl c2)) (some p) n h = .oom := by
  induction c2 generalizing h p c1 n with
  | nil => cases hno
  | cons c c2 ih =>
    have hne : some c.1 ≠ some tl := by simpa using r.head_ne_tl
    rw [copyLoopV]
    rw [headOf_cons, if_neg hne]
    simp only [Prog.bind_run, copyV, load_run (Rep.elem_at (a := c.1) (x := c.2) r), Out.bind_ok]
    by_cases hok : μ.cpOk c.2 = true
    swap
    · rw [if_neg hok]
      exact .inl rfl
    rw [if_pos hok]
    refine stops (constructNode_run o (μ.cp c.2) h) ?_
    rintro _ rfl
    have s1 := step_mk (cfg := cfg) (own := o) (x := μ.cp c.2) hb
    have r1 := r.step s1 (by simp)
    simp only [r1.getNext_cell, Out.bind_ok, setNext_run (mk_live (h := h) hp) (isElem_mk (h := h)).live]
    have hn : h.next ∉ nodes hd tl (c1 ++ c :: c2) := fun hm => r.live hm (hb.fresh _ (Nat.le_refl _))
    have s2 := step_link (d := cfg.dbl) (l := [p, h.next]) (a := p) (b := h.next) s1.bal (by simp) (by simp)
    have r2 := r1.step s2 (by
      intro a ha hm
      simp only [List.mem_cons, List.not_mem_nil, or_false] at hm
      rcases hm with rfl | rfl
      · exact hpn ha
      · exact hn ha)
    exact ih (p := h.next) (c1 := c1 ++ [c]) s2.bal isElem_mk.live (by simpa using r2) (by simpa using hn) (n + 1)
      (by simpa only [vals, List.map_cons, List.all_cons, hok, Bool.true_and] using hno)

theorem copyImplV_abort (hb : Bal h) (r : Rep cfg h hd tl cs own) (a : Nat) (hno : (vals cs).all μ.cpOk = false) :
    copyImplV μ cfg Prog.panic (lst hd tl cs own) a h = .panic ∨ copyImplV μ cfg Prog.panic (lst hd tl cs own) a h = .oom := by
  unfold copyImplV
  rw [Prog.bind_run, dbgAssert_run (by simp [lst])]
  simp only [Out.bind_ok]
  split
  · rename_i he
    have : cs = [] := by simpa [lst] using he
    subst this
    cases hno
  · rw [Prog.bind_run, show (lst hd tl cs own).head = some hd from rfl, r.getNext_hd]
    simp only [Out.bind_ok, Prog.bind_run]
    refine stops (buildVirtual_run a h) ?_
    rintro _ rfl
    refine stops (buildVirtual_run a _) ?_
    rintro _ rfl
    obtain ⟨s, v1, v2, p1, n2⟩ := two_virtuals (cfg := cfg) hb a
    have r2 := r.step s (by simp)
    have hpn : h.next ∉ nodes hd tl ([] ++ cs) := fun hm => r.live hm (hb.fresh _ (Nat.le_refl _))
    exact stopped (copyLoopV_abort (o := a) (c1 := []) s.bal v1.live r2 hpn 0 hno)

theorem copyImplV_ok (hb : Bal h) (r : Rep cfg h hd tl cs own) (a : Nat) (hok : ∀ x ∈ vals cs, μ.cpOk x = true) :
    (copyImplV μ cfg bad (lst hd tl cs own) a h).SafeIf (Refuses cfg) fun q =>
    ∃ hd' tl' cs', vals cs' = (vals cs).map μ.cp ∧ q.1 = lst hd' tl' cs' a ∧ Fresh cfg h q.2 hd' tl' cs' a ⟨cs.length, 0, cs.length + 2⟩ := by
  unfold copyImplV
  rw [Prog.bind_run, dbgAssert_run (by simp [lst])]
  simp only [Out.bind_ok]
  split
  · rename_i he
    have : cs = [] := by simpa [lst] using he
    subst this
    simp only [Prog.bind_run]
    refine (initEmpty_ok hb a).bind ?_
    rintro ⟨q, h'⟩ ⟨hd', tl', rfl, f⟩
    exact ⟨hd', tl', [], rfl, rfl, f⟩
  · rw [Prog.bind_run, show (lst hd tl cs own).head = some hd from rfl, r.getNext_hd]
    simp only [Out.bind_ok]
    refine virtuals_ok hb a ?_
    obtain ⟨s, v1, v2, p1, n2⟩ := two_virtuals (cfg := cfg) hb a
    have r2 := r.step s (by simp)
    simp only [Prog.bind_run, lst]
    have hpn : h.next ∉ nodes hd tl ([] ++ cs) := fun hm => r.live hm (hb.fresh _ (Nat.le_refl _))
    refine (copyLoopV_ok (o := a) (c1 := []) s.bal v1.live r2 hpn 0 hok).bind ?_
    rintro ⟨_, h'⟩ ⟨ns, h1, rfl, bt⟩
    simp only at bt
    obtain ⟨e1, e2, f⟩ := close_new (l := []) s v1 v2 p1 n2 (by omega) bt (.inr rfl)
    simp only [e1, e2, Out.bind_ok, Prog.pure_run]
    have hl : ns.length = cs.length := by simpa using congrArg List.length h1
    refine ⟨h.next, h.next + 1, ns, h1, by simp [hl], ?_⟩
    have : (⟨0, 0, 2⟩ + ⟨ns.length, 0, ns.length⟩ : Mem.Cost) = ⟨cs.length, 0, cs.length + 2⟩ := by
      rw [hl]; simp [Nat.add_comm]
    rw [← this]; exact f

end

section
variable {V : Type} {S : Sig} {σ : Type} {C : Cls S σ} {μ : Meaning S V} {L : Law C μ} {lcfg : Model.LL.Cfg Unit} {x0 : V}
  {T T' : Nat → Option V} {bad : Model.LL.M V LL.Ptr} {β γ : Type}

theorem sim_copyLoop (hb : Bad L bad) (own : Nat) (stop rp p : LL.Ptr) (n : Nat) :
    Sim (ElemRel L T) (ElemRel L T) id (lcopyLoop C lcfg own stop rp p n) (copyLoopV μ (valued lcfg x0) bad own stop rp p n) := by
  refine copyLoopV.fixpoint_induct μ (valued lcfg x0) bad own stop
    (fun f => ∀ rp p n, Sim (ElemRel L T) (ElemRel L T) id (lcopyLoop C lcfg own stop rp p n) (f rp p n)) ?_ ?_ rp p n
  · exact Lean.Order.admissible_pi_apply
      (fun rp (g : LL.Ptr → Nat → Model.LL.M V (LL.Ptr × Nat)) => ∀ p n, Sim (ElemRel L T) (ElemRel L T) id (lcopyLoop C lcfg own stop rp p n) (g p n))
      fun rp => Lean.Order.admissible_pi_apply
        (fun p (g : Nat → Model.LL.M V (LL.Ptr × Nat)) => ∀ n, Sim (ElemRel L T) (ElemRel L T) id (lcopyLoop C lcfg own stop rp p n) (g n))
        fun p => Lean.Order.admissible_pi_apply
          (fun n (g : Model.LL.M V (LL.Ptr × Nat)) => Sim (ElemRel L T) (ElemRel L T) id (lcopyLoop C lcfg own stop rp p n) g) fun n => Sim.adm
  · intro f ih rp p n
    dsimp only
    rw [lcopyLoop, ← prog_assoc]
    exact Sim.ite Sim.pure ((sim_copyNode hb own rp).bind fun tmp => (sim_getNext _).up.bind fun _ => (sim_setNext _ _).up.bind fun _ => ih _ _ _)

theorem sim_copyImpl (hb : Bad L bad) (o : LL.Lst) (a : Nat) :
    Sim (ElemRel L T) (ElemRel L T) id (lcopyImpl C lcfg o a) (copyImplV μ (valued lcfg x0) bad o a) :=
  (sim_dbg _).up.bind fun _ => Sim.ite ((sim_initEmpty a).up.bind fun _ => Sim.pure) ((sim_getNext _).up.bind fun _ =>
    (sim_buildVirtual a).up.bind fun _ => (sim_buildVirtual a).up.bind fun _ => (sim_copyLoop hb _ _ _ _ _).bind fun _ =>
      (sim_setNext _ _).up.bind fun _ => (sim_setNext _ _).up.bind fun _ => Sim.pure)

theorem sim_copyAssign (hb : Bad L bad) (l o : LL.Lst) :
    Sim (ElemRel L T) (ElemRel L T) id (lcopyAssign C lcfg l o)
      (do Model.LL.destruct (valued lcfg x0) l; copyImplV μ (valued lcfg x0) bad o o.alloc) :=
  (sim_destruct l).bind fun _ => sim_copyImpl hb o _

/-! ## Temporaries -/

theorem follows_oom {σ τ : Type} {R : σ → τ → Prop} {g : β → γ} (o : Out (β × τ)) : Follows R g o .oom := by
  cases o with
  | ok _ => trivial
  | oom => rfl
  | panic => exact .inr rfl
  | ub => trivial
  | div => trivial

/-- a step of the first program alone, before -/
theorem Sim.before {σ τ δ : Type} {R R' R'' : σ → τ → Prop} {g : β → γ} {P : Prog σ δ} {P' : δ → Prog σ γ} {Q : Prog τ β}
    (h : ∀ s t, R s t → (P s).Safe fun q => R' q.2 t) (h' : ∀ r, Sim R' R'' g (P' r) Q) : Sim R R'' g (P >>= P') Q := by
  intro s t hr
  have h1 := h s t hr
  rw [Prog.bind_run]
  cases hp : P s with
  | ok q => rw [hp] at h1; exact h' q.1 q.2 t h1
  | oom => exact follows_oom _
  | _ => rw [hp] at h1; exact h1.elim

/-- a step of the first program alone, afterwards -/
theorem Sim.after {σ τ : Type} {R R' R'' : σ → τ → Prop} {g : β → γ} {P : Prog σ γ} {P' : Prog σ Unit} {Q : Prog τ β}
    (h' : Sim R R' g P Q) (h : ∀ s t, R' s t → (P' s).Safe fun q => R'' q.2 t) :
    Sim R R'' g (P >>= fun r => P' >>= fun _ => Pure.pure r) Q := by
  intro s t hr
  have h1 := h' s t hr
  rw [Prog.bind_run]
  cases hq : Q t with
  | ok q =>
    rw [hq] at h1
    refine Out.Safe.bind h1 ?_
    rintro ⟨r, s'⟩ ⟨e, hr'⟩
    simp only [Prog.bind_run]
    exact (h s' q.2 hr').bind fun p hp => ⟨e, hp⟩
  | oom => rw [hq] at h1; have h1 : P s = .oom := h1; rw [h1]; rfl
  | panic =>
    rw [hq] at h1
    rcases h1 with h1 | h1 <;> rw [h1]
    · exact .inl rfl
    · exact .inr rfl
  | ub => trivial
  | div => trivial

/-- temporaries `xs` -/
def tt (xs : List V) : Nat → Option V := fun k => xs[k]?

theorem tt_snoc (xs : List V) (y : V) : place (tt xs) xs.length (some y) = tt (xs ++ [y]) := by
  funext k
  simp only [place, tt]
  split
  · rename_i e; subst e; simp
  · rename_i e
    rcases Nat.lt_or_ge k xs.length with h | h
    · rw [List.getElem?_append_left h]
    · rw [List.getElem?_eq_none h, List.getElem?_eq_none (by simp; omega)]

theorem tt_pop (xs : List V) (y : V) : place (tt (xs ++ [y])) xs.length none = tt xs := by
  funext k
  simp only [place, tt]
  split
  · rename_i e; subst e; simp
  · rename_i e
    rcases Nat.lt_or_ge k xs.length with h | h
    · rw [List.getElem?_append_left h]
    · rw [List.getElem?_eq_none h, List.getElem?_eq_none (by simp; omega)]

theorem lmakeTemps_ok {s : LSt σ} {H : Model.LL.Heap V} (ms : List S.Make) {xs ys : List V} (r : ElemRel L (tt xs) s H)
    (hm : ms.mapM μ.val = some ys) : (lmakeTemps C xs.length ms s).Safe fun q => ElemRel L (tt (xs ++ ys)) q.2 H := by
  induction ms generalizing xs ys s with
  | nil =>
    simp only [List.mapM_nil, Option.pure_def, Option.some.injEq] at hm
    subst hm
    rw [List.append_nil]
    exact r
  | cons m ms ih =>
    simp only [List.mapM_cons, Option.pure_def, Option.bind_eq_bind, Option.bind_eq_some_iff, Option.some.injEq] at hm
    obtain ⟨y, hy, zs, hz, rfl⟩ := hm
    simp only [lmakeTemps, Prog.bind_run, inElems]
    have h1 := L.make (n := temp xs.length) (m := m) (x := y) r.inv (by rw [glue_temp]; simp [tt]) hy
    rw [place_temp, tt_snoc] at h1
    refine Out.Safe.bind (P := fun q => ElemRel L (tt (xs ++ [y])) q.2 H) (h1.bind fun q hq => ⟨r.bare, hq, r.fresh⟩) ?_
    rintro ⟨_, s'⟩ r'
    have := ih r' hz
    simp only [List.length_append, List.length_singleton, List.append_assoc, List.singleton_append] at this
    exact this

theorem ldropTemps_ok {s : LSt σ} {H : Model.LL.Heap V} {n : Nat} {xs : List V} (hn : n = xs.length) (r : ElemRel L (tt xs) s H) :
    (ldropTemps C n s).Safe fun q => ElemRel L (tt []) q.2 H := by
  subst hn
  induction xs using List.reverseRecOn generalizing s with
  | nil => exact r
  | append_singleton xs y ih =>
    simp only [List.length_append, List.length_singleton, ldropTemps, Prog.bind_run, inElems]
    have h1 := L.drop (n := temp xs.length) (x := y) r.inv (by rw [glue_temp]; simp [tt])
    rw [place_temp, tt_pop] at h1
    refine Out.Safe.bind (P := fun q => ElemRel L (tt xs) q.2 H) (h1.bind fun q hq => ⟨r.bare, hq, r.fresh⟩) ?_
    rintro ⟨_, s'⟩ r'
    exact ih r'

theorem sim_withTemps {ms : List S.Make} {xs ys : List V} (hm : ms.mapM μ.val = some xs) (hl : ys.length = xs.length) {g : β → γ}
    {f : Prog (LSt σ) γ} {Q : Model.LL.M V β} (h : Sim (ElemRel L (tt xs)) (ElemRel L (tt ys)) g f Q) :
    Sim (ElemRel L (tt [])) (ElemRel L (tt [])) g (withTemps C ms f) Q := by
  have hml : ms.length = xs.length := by
    clear h hl
    induction ms generalizing xs with
    | nil => simp only [List.mapM_nil, Option.pure_def, Option.some.injEq] at hm; subst hm; rfl
    | cons m ms ih =>
      simp only [List.mapM_cons, Option.pure_def, Option.bind_eq_bind, Option.bind_eq_some_iff, Option.some.injEq] at hm
      obtain ⟨y, hy, zs, hz, rfl⟩ := hm
      simp [ih hz]
  refine Sim.before (R' := ElemRel L (tt xs)) (fun s t r => ?_) fun _ => Sim.after h fun s t r => ldropTemps_ok (xs := ys) (by omega) r
  have := lmakeTemps_ok (xs := []) ms r hm
  simpa using this

theorem mapM_ok {ms : List S.Make} {xs : List V} (hm : ms.mapM μ.val = some xs) (L : Law C μ) : ∀ x ∈ xs, μ.cpOk x = true := by
  induction ms generalizing xs with
  | nil => simp only [List.mapM_nil, Option.pure_def, Option.some.injEq] at hm; subst hm; simp
  | cons m ms ih =>
    simp only [List.mapM_cons, Option.pure_def, Option.bind_eq_bind, Option.bind_eq_some_iff, Option.some.injEq] at hm
    obtain ⟨y, hy, zs, hz, rfl⟩ := hm
    intro x hx
    rcases List.mem_cons.1 hx with rfl | hx
    · exact L.newOk hy
    · exact ih hz x hx

theorem sim_copyTemp {m : S.Make} {x : V} (hx : μ.val m = some x) (own : Nat) :
    Sim (ElemRel L (tt [x])) (ElemRel L (tt [x])) id (copyNode C lcfg own) (Model.LL.constructNode (valued lcfg x0) own (μ.cp x)) :=
  sim_nodeOf (inits_copyTemp (k := 0) (x := x) rfl (L.newOk hx)) own

theorem sim_moveTemp {x : V} (own : Nat) :
    Sim (ElemRel L (tt [x])) (ElemRel L (tt [μ.left x])) id (moveNode C lcfg own) (Model.LL.constructNode (valued lcfg x0) own x) := by
  have : place (tt [x]) 0 (some (μ.left x)) = tt [μ.left x] := by
    funext k
    simp only [place, tt]
    split
    · rename_i e; subst e; rfl
    · rename_i e; cases k with
      | zero => exact absurd rfl e
      | succ k => rfl
  rw [← this]
  exact sim_nodeOf (inits_moveTemp (k := 0) (x := x) rfl) own

end

/-! ## Whole programs on lists -/

section
variable {V : Type} {S : Sig} {σ : Type} {C : Cls S σ} {μ : Meaning S V}

/-- the memory corresponds, and the list objects are the same -/
def WRel (L : Law C μ) (w : LWorld σ) (W : Model.LL.World V) : Prop := ElemRel L (tt []) w.st W.heap ∧ w.vars = W.vars

variable {L : Law C μ} {lcfg : Model.LL.Cfg Unit} {x0 : V} {bad : Model.LL.M V LL.Ptr} {β γ R : Type}

theorem Sim.inside {Ra Rb : LSt σ → Model.LL.Heap V → Prop} {g : β → γ} {f : Prog (LSt σ) γ} {Q : Model.LL.M V β} (h : Sim Ra Rb g f Q) :
    Sim (fun w W => Ra w.st W.heap ∧ w.vars = W.vars) (fun w W => Rb w.st W.heap ∧ w.vars = W.vars) g (inLSt f) (Model.LL.inHeap Q) := by
  rintro w W ⟨r, hv⟩
  have h1 := h _ _ r
  unfold inLSt Model.LL.inHeap
  cases hq : Q W.heap with
  | ok q =>
    rw [hq] at h1
    exact Out.Safe.bind h1 fun r hr => ⟨hr.1, hr.2, hv⟩
  | oom => rw [hq] at h1; have h1 : f w.st = .oom := h1; rw [h1]; rfl
  | panic =>
    rw [hq] at h1
    rcases h1 with h1 | h1 <;> rw [h1]
    · exact .inl rfl
    · exact .inr rfl
  | ub => trivial
  | div => trivial

theorem sim_obj {Ra : LSt σ → Model.LL.Heap V → Prop} (i : Nat) :
    Sim (fun w W => Ra w.st W.heap ∧ w.vars = W.vars) (fun w W => Ra w.st W.heap ∧ w.vars = W.vars) id (lobj i) (Model.LL.var i) := by
  rintro w W ⟨r, hv⟩
  unfold lobj Model.LL.var
  rw [hv]
  cases W.vars i with
  | none => trivial
  | some l => exact ⟨rfl, r, hv⟩

theorem sim_setObj {Ra : LSt σ → Model.LL.Heap V → Prop} (i : Nat) (o : Option LL.Lst) :
    Sim (fun w W => Ra w.st W.heap ∧ w.vars = W.vars) (fun w W => Ra w.st W.heap ∧ w.vars = W.vars) id (setLobj i o) (Model.LL.setVar i o) := by
  rintro w W ⟨r, hv⟩
  exact ⟨rfl, r, by simp only [hv]⟩

/-- the results of calls, for the caller of a list of objects -/
def eres : Model.LL.Res V → ERet R
  | .num n => .num n
  | .bool b => .bool b
  | .pos p => .pos p
  | _ => .unit

theorem sim_create {f : Prog (LSt σ) LL.Lst} {Q : Model.LL.M V LL.Lst} (h : Sim (ElemRel L (tt [])) (ElemRel L (tt [])) id f Q) (i : Nat) :
    Sim (WRel L) (WRel L) (fun _ => ()) (lcreate i f) (Model.LL.create i Q) :=
  h.inside.bind (R'' := WRel L) (k := fun _ => ()) fun _ w W hr => ⟨rfl, hr.1, by simp only [hr.2, id]⟩

theorem sim_change {f : LL.Lst → Prog (LSt σ) LL.Lst} {Q : LL.Lst → Model.LL.M V LL.Lst}
    (h : ∀ l, Sim (ElemRel L (tt [])) (ElemRel L (tt [])) id (f l) (Q l)) (i : Nat) :
    Sim (WRel L) (WRel L) (eres (R := R)) (lchange i f) (Model.LL.change i Q) :=
  (sim_obj i).bind fun l => (h l).inside.bind fun _ => (sim_setObj i _).bind fun _ => Sim.ret rfl

theorem sim_changeP {f : LL.Lst → Prog (LSt σ) (LL.Lst × LL.Ptr)} {Q : LL.Lst → Model.LL.M V (LL.Lst × LL.Ptr)}
    (h : ∀ l, Sim (ElemRel L (tt [])) (ElemRel L (tt [])) id (f l) (Q l)) (i : Nat) :
    Sim (WRel L) (WRel L) (eres (R := R)) (lchangeP i f) (Model.LL.changeP i Q) :=
  (sim_obj i).bind fun l => (h l).inside.bind fun _ => (sim_setObj i _).bind fun _ => (sim_distFrom _ _ _).up.inside.bind fun _ => Sim.ret rfl

theorem argRef_val (x : V) {β : Type} (f : Model.LL.Ref V → Prog (Model.LL.World V) β) : (Model.LL.argRef (.val x) >>= f) = f (.tmp x) := rfl

/-! ### Constructors -/

/-- the corresponding constructor of a list of values -/
def makeOp (μ : Meaning S V) (i : Nat) : EMake S.Make → Option (Model.LL.Op V)
  | .alloc a => some (.newAlloc i a)
  | .fill n m a => (μ.val m).map fun x => .newFill i n (.val (μ.cp x)) a
  | .range ms a => (ms.mapM μ.val).map fun xs => .newRange i (xs.map μ.cp) a

theorem mapM_length {ms : List S.Make} {xs : List V} (hm : ms.mapM μ.val = some xs) : ms.length = xs.length := by
  induction ms generalizing xs with
  | nil => simp only [List.mapM_nil, Option.pure_def, Option.some.injEq] at hm; subst hm; rfl
  | cons m ms ih =>
    simp only [List.mapM_cons, Option.pure_def, Option.bind_eq_bind, Option.bind_eq_some_iff, Option.some.injEq] at hm
    obtain ⟨y, hy, zs, hz, rfl⟩ := hm
    simp [ih hz]

theorem mapM_one {m : S.Make} {x : V} (h : μ.val m = some x) : [m].mapM μ.val = some [x] := by
  simp [h]

theorem sim_make {m : EMake S.Make} {i : Nat} {op : Model.LL.Op V} (h : makeOp μ i m = some op) :
    Sim (WRel L) (WRel L) (fun _ => ()) (emake C lcfg m i) (Model.LL.step (valued lcfg x0) op) := by
  cases m with
  | alloc a =>
    cases h
    exact sim_create (sim_newAlloc a).up i
  | fill n m a =>
    simp only [makeOp, Option.map_eq_some_iff] at h
    obtain ⟨x, hx, rfl⟩ := h
    exact sim_create (sim_withTemps (mapM_one hx) rfl (sim_newFill (sim_copyTemp hx a) n)) i
  | range ms a =>
    simp only [makeOp, Option.map_eq_some_iff] at h
    obtain ⟨xs, hx, rfl⟩ := h
    refine sim_create (sim_withTemps hx rfl ?_) i
    rw [mapM_length hx]
    exact sim_newRange xs (fun i x h => h) (mapM_ok hx L)

theorem lmake_spec {A : Nat → Option (Spec.LL.Var V)} {n : Nat} {m : EMake S.Make} {v : Spec.LL.Var V} {dbl : Bool} (hn : A n = none)
    (hm : lval μ m = some v) : ∃ op, makeOp μ n m = some op ∧ Spec.LL.specStep false dbl x0 op A = some (.unit, place A n (some v)) := by
  cases m with
  | alloc a =>
    cases hm
    exact ⟨_, rfl, by simp [Spec.LL.specStep, Spec.LL.born, Spec.LL.needs, hn]; rfl⟩
  | fill k m a =>
    simp only [lval, Option.map_eq_some_iff] at hm
    obtain ⟨x, hx, rfl⟩ := hm
    exact ⟨.newFill n k (.val (μ.cp x)) a, by simp [makeOp, hx], by
      simp [Spec.LL.specStep, Spec.LL.born, Spec.LL.needs, Spec.LL.argVal, hn]; rfl⟩
  | range ms a =>
    simp only [lval, Option.map_eq_some_iff] at hm
    obtain ⟨xs, hx, rfl⟩ := hm
    exact ⟨.newRange n (xs.map μ.cp) a, by simp [makeOp, hx], by simp [Spec.LL.specStep, Spec.LL.born, Spec.LL.needs, hn]; rfl⟩

/-! ### Calls -/

theorem edit_spec {A : Nat → Option (Spec.LL.Var V)} {n : Nat} {v y : Spec.LL.Var V} {r : ERet R} {f : List V → Option (ERet R × List V)}
    {f' : List V → Option (Model.LL.Res V × List V)} (hn : A n = some v) (hc : onItems v f = some (r, y))
    (h : ∀ xs ys, f xs = some (r, ys) → ∃ r', eres r' = r ∧ f' xs = some (r', ys)) :
    ∃ r', eres r' = r ∧ Spec.LL.edit A n f' = some (r', place A n (some y)) := by
  simp only [onItems, Option.bind_eq_some_iff, Option.map_eq_some_iff, Prod.mk.injEq] at hc
  obtain ⟨xs, hx, ⟨r1, ys⟩, hf, rfl, rfl⟩ := hc
  obtain ⟨r', h1, h2⟩ := h xs ys hf
  refine ⟨r', h1, ?_⟩
  simp only [Spec.LL.edit, hn, Option.bind_some, hx, h2, Option.map_some]
  rfl

theorem place_own {A : Nat → Option V} {n : Nat} {x : V} (h : A n = some x) : place A n (some x) = A := by
  funext j
  simp only [place]
  split
  · rename_i e; subst e; exact h.symm
  · rfl

theorem ask_spec {A : Nat → Option (Spec.LL.Var V)} {n : Nat} {v y : Spec.LL.Var V} {r : ERet R} {f : List V → ERet R}
    {f' : List V → Model.LL.Res V} (hn : A n = some v) (hc : onItems v (fun xs => some (f xs, xs)) = some (r, y))
    (h : ∀ xs, eres (f' xs) = f xs) : ∃ r', eres r' = r ∧ Spec.LL.ask A n (fun xs => some (f' xs)) = some (r', place A n (some y)) := by
  simp only [onItems, Option.bind_eq_some_iff, Option.map_eq_some_iff, Option.some.injEq, Prod.mk.injEq] at hc
  obtain ⟨xs, hx, ⟨r1, ys⟩, ⟨rfl, rfl⟩, rfl, rfl⟩ := hc
  refine ⟨f' xs, h xs, ?_⟩
  obtain ⟨it, al⟩ := v
  simp only at hx; subst hx
  simp only [Spec.LL.ask, hn, Option.bind_some, Option.map_some, place_own hn]

/-- the invariant of lists of objects -/
def EInv (L : Law C μ) (lcfg : Model.LL.Cfg Unit) (x0 : V) (B : Nat → Option (Spec.LL.Var V)) (w : LWorld σ) : Prop :=
  ∃ W : Model.LL.World V, WRel L w W ∧ LInv (valued lcfg x0) B W

theorem linv_ok {A A' : Nat → Option (Spec.LL.Var V)} {w : LWorld σ} {g : Model.LL.Res V → γ} {P : Prog (LWorld σ) γ}
    {op : Model.LL.Op V} {r : Model.LL.Res V} (I : EInv L lcfg x0 A w) (hsim : Sim (WRel L) (WRel L) g P (Model.LL.step (valued lcfg x0) op))
    (hs : Spec.LL.specStep false lcfg.dbl x0 op A = some (r, A')) : (P w).Safe fun q => q.1 = g r ∧ EInv L lcfg x0 A' q.2 := by
  obtain ⟨W, hr, hi⟩ := I
  refine ((hsim w W hr).safe (lstep_ok hi hs)).mono ?_
  rintro q ⟨q', ⟨h1, h2⟩, h3, h4⟩
  exact ⟨by rw [h3, h1], q'.2, h4, h2⟩

theorem lcall_ok {A A' : Nat → Option (Spec.LL.Var V)} {w : LWorld σ} {P : Prog (LWorld σ) (ERet R)} {r : ERet R}
    (op : Model.LL.Op V) (I : EInv L lcfg x0 A w) (hsim : Sim (WRel L) (WRel L) eres P (Model.LL.step (valued lcfg x0) op))
    (hs : ∃ r', eres r' = r ∧ Spec.LL.specStep false lcfg.dbl x0 op A = some (r', A')) :
    (P w).Safe fun q => q.1 = r ∧ EInv L lcfg x0 A' q.2 := by
  obtain ⟨r', rfl, hs⟩ := hs
  exact linv_ok I hsim hs

theorem sim_at {F : LL.Ptr → Prog (LSt σ) γ} {Q : LL.Ptr → Model.LL.M V β} {g : β → γ} (l : LL.Lst) (p : Nat)
    (h : ∀ it, Sim (ElemRel L (tt [])) (ElemRel L (tt [])) g (F it) (Q it)) :
    Sim (ElemRel L (tt [])) (ElemRel L (tt [])) g (inNodes (Model.LL.iterAt l p) >>= F) (Model.LL.iterAt l p >>= Q) :=
  (sim_iterAt l p).up.bind h

/-- an element in its node -/
theorem elem_known {cfg : Model.LL.Cfg V} {A : Nat → Option (Spec.LL.Var V)} {W : Model.LL.World V} {n k : Nat} {xs : List V} {v : Spec.LL.Var V} {x : V}
    (I : LInv cfg A W) (hn : A n = some v) (hv : v.items = some xs) (hk : xs[k]? = some x) :
    ∃ l a, W.vars n = some l ∧ Model.LL.iterAt l (k + 1) W.heap = .ok (some a, W.heap) ∧ Model.LL.load (some a) W.heap = .ok (x, W.heap) ∧
      ∃ own b, W.heap.info a = some ⟨own, b, .live x⟩ := by
  obtain ⟨G, I, rfl⟩ := I
  obtain ⟨hd, tl, cs, hg, rfl⟩ := LL.ideal_full hn hv
  obtain ⟨c1, a, c2, rfl, rfl⟩ := LL.cell_at hk
  have r := I.rep hg
  exact ⟨_, a, I.var hg, LL.iterAt_next r, LL.load_run r.elem_at, _, _, r.elem_at⟩

/-- a copy of an element, made before anything else -/
theorem sim_copyElem {l : LL.Lst} {k a : Nat} {x : V} {H : Model.LL.Heap V} (h1 : Model.LL.iterAt l (k + 1) H = .ok (some a, H))
    (h2 : Model.LL.load (some a) H = .ok (x, H)) (hok : μ.cpOk x = true) :
    Sim (fun s t => ElemRel L (tt []) s t ∧ t = H) (ElemRel L (tt [])) id
      (do let p ← inNodes (Model.LL.iterAt l (k + 1))
          let src ← dataOf p
          nodeOf lcfg l.alloc fun d => C.copy d src) (Model.LL.constructNode (valued lcfg x0) l.alloc (μ.cp x)) := by
  rintro s t ⟨r, rfl⟩
  have h := sim_at (L := L) l (k + 1) (fun it => sim_copyNode (lcfg := lcfg) (x0 := x0) (T := tt []) (.inl rfl) l.alloc it) s t r
  rw [Prog.bind_run, h1] at h
  simp only [Out.bind_ok, copyV, Prog.bind_run, h2] at h
  rw [if_pos hok] at h
  exact h

theorem pushFront_assoc {l : LL.Lst} {δ : Type} {P : Prog (LSt σ) δ} {N : δ → Prog (LSt σ) LL.Ptr} :
    (P >>= fun d => lpushFront lcfg l (N d)) = lpushFront lcfg l (P >>= N) := by
  unfold lpushFront
  funext s
  simp only [Prog.bind_run]
  cases P s <;> rfl

theorem pushBack_assoc {l : LL.Lst} {δ : Type} {P : Prog (LSt σ) δ} {N : δ → Prog (LSt σ) LL.Ptr} :
    (P >>= fun d => lpushBack lcfg l (N d)) = lpushBack lcfg l (P >>= N) := by
  unfold lpushBack
  funext s
  simp only [Prog.bind_run]
  cases P s <;> rfl

/-- a member of list `n` in one known state -/
theorem change_known {w : LWorld σ} {W : Model.LL.World V} {n : Nat} {l : LL.Lst} {f : LL.Lst → Prog (LSt σ) LL.Lst} {Q : LL.Lst → Model.LL.M V LL.Lst}
    (hr : WRel L w W) (hl : W.vars n = some l) (h : Sim (fun s t => ElemRel L (tt []) s t ∧ t = W.heap) (ElemRel L (tt [])) id (f l) (Q l)) :
    Follows (WRel L) (eres (R := R)) (Model.LL.change n Q W) (lchange n f w) := by
  have h1 : Model.LL.var n W = .ok (l, W) := by unfold Model.LL.var; rw [hl]
  have h2 : lobj n w = .ok (l, w) := by unfold lobj; rw [hr.2, hl]
  unfold Model.LL.change lchange
  rw [Prog.bind_run, Prog.bind_run, h1, h2]
  simp only [Out.bind_ok]
  have k : ∀ l' : LL.Lst, Sim (WRel L) (WRel L) (eres (R := R)) (do setLobj n (some l'); return .unit)
      (do Model.LL.setVar n (some l'); return (.unit : Model.LL.Res V)) := fun l' => (sim_setObj n _).bind fun _ => Sim.ret rfl
  exact Sim.bind (R' := WRel L) (R'' := WRel L) (P' := fun l' => do setLobj n (some l'); return (.unit : ERet R)) h.inside (fun b => k b) w W
    ⟨⟨hr.1, rfl⟩, hr.2⟩

/-- A call on one list of objects does what the specification says. -/
theorem ecall_ok {A : Nat → Option (Spec.LL.Var V)} {w : LWorld σ} {n : Nat} {v y : Spec.LL.Var V} {c : ECall S.Make S.Call} {r : ERet S.Ret}
    (I : EInv L lcfg x0 A w) (hn : A n = some v) (hc : lrun lcfg.dbl μ c v = some (r, y)) :
    (ecall C lcfg c n w).Safe fun q => q.1 = r ∧ EInv L lcfg x0 (place A n (some y)) q.2 := by
  cases c with
  | moved =>
    refine lcall_ok (.moved n) I ((sim_obj n).bind fun l => ?_) ?_
    · exact Sim.ret rfl
    · simp only [lrun, Option.some.injEq, Prod.mk.injEq] at hc
      obtain ⟨rfl, rfl⟩ := hc
      exact ⟨.bool v.items.isNone, rfl, by simp only [Spec.LL.specStep, hn, Option.bind_some, place_own hn]⟩
  | size =>
    exact lcall_ok (.size n) I ((sim_obj n).bind fun l => Sim.ret rfl) (ask_spec (f' := fun xs => .num xs.length) hn hc fun _ => rfl)
  | empty =>
    exact lcall_ok (.empty n) I ((sim_obj n).bind fun l => Sim.ret rfl) (ask_spec (f' := fun xs => .bool xs.isEmpty) hn hc fun _ => rfl)
  | clear =>
    exact lcall_ok (.clear n) I (sim_change (fun l => sim_clear l) n) (edit_spec hn hc fun xs ys h => by
      simp only [Option.some.injEq, Prod.mk.injEq] at h; exact ⟨.unit, h.1, by rw [h.2]⟩)
  | assign ms =>
    simp only [lrun, Option.bind_eq_some_iff] at hc
    obtain ⟨xs, hx, hc⟩ := hc
    refine lcall_ok (.listAssign n (xs.map μ.cp)) I (sim_change (fun l => sim_withTemps hx rfl ?_) n) (edit_spec hn hc fun xs ys h => by
      simp only [Option.some.injEq, Prod.mk.injEq] at h; exact ⟨.unit, h.1, by rw [h.2]⟩)
    rw [mapM_length hx]
    exact sim_listAssign l xs (fun i x h => h) (mapM_ok hx L)
  | pushFront m =>
    simp only [lrun, Option.bind_eq_some_iff] at hc
    obtain ⟨x, hx, hc⟩ := hc
    exact lcall_ok (.pushFront n (.val x)) I (sim_change (fun l => sim_withTemps (ys := [μ.left x]) (mapM_one hx) rfl (sim_pushFront (sim_moveTemp l.alloc))) n)
      (edit_spec hn hc fun xs ys h => by simp only [Option.some.injEq, Prod.mk.injEq] at h; exact ⟨.unit, h.1, by rw [h.2]⟩)
  | pushFrontElem k =>
    obtain ⟨W, hr, hi⟩ := I
    simp only [lrun, onItems, Option.bind_eq_some_iff, Option.map_eq_some_iff] at hc
    obtain ⟨xs, hv, ⟨r1, ys⟩, ⟨x, hk, hc⟩, e⟩ := hc
    split at hc
    swap; · cases hc
    rename_i hok
    simp only [Option.some.injEq, Prod.mk.injEq] at hc e
    obtain ⟨rfl, rfl⟩ := hc
    obtain ⟨rfl, rfl⟩ := e
    obtain ⟨l, a, hl, h1, h2, own, b, hinf⟩ := elem_known hi hn hv hk
    have hs : Spec.LL.specStep false (valued lcfg x0).dbl (valued lcfg x0).dflt (.pushFront n (.val (μ.cp x))) A =
        some (.unit, place A n (some ⟨some (μ.cp x :: xs), v.alloc⟩)) := by
      simp only [Spec.LL.specStep, Spec.LL.argVal, Spec.LL.edit, Option.bind_some, hn, hv, Option.map_some]; rfl
    refine ((change_known (R := S.Ret) (Q := fun l => Model.LL.pushFront (valued lcfg x0) l (.tmp (μ.cp x))) hr hl ?_).safe
      (lstep_ok hi hs)).mono ?_
    · have := sim_pushFront (lcfg := lcfg) (x0 := x0) (sim_copyElem (L := L) (lcfg := lcfg) (x0 := x0) h1 h2 hok)
      rw [← pushFront_assoc] at this
      simp only [← pushFront_assoc] at this
      exact this
    · rintro q ⟨q', ⟨h1, h2⟩, h3, h4⟩
      exact ⟨by rw [h3, h1]; rfl, q'.2, h4, h2⟩
  | reverse =>
    exact lcall_ok (.reverse n) I (sim_change (fun l => (sim_reverse l).up) n) (edit_spec hn hc fun xs ys h => by
      simp only [Option.some.injEq, Prod.mk.injEq] at h; exact ⟨.unit, h.1, by rw [h.2]⟩)
  | popFront =>
    exact lcall_ok (.popFront n) I (sim_change (fun l => sim_popFront l) n) (edit_spec hn hc fun xs ys h => by
      simp only [Spec.LL.needs]
      split at h
      · rename_i g; rw [if_pos g]; simp only [Option.some.injEq, Prod.mk.injEq] at h; exact ⟨.unit, h.1, by rw [h.2]⟩
      · cases h)
  | pushBack m =>
    simp only [lrun, Option.bind_eq_some_iff] at hc
    obtain ⟨x, hx, hc⟩ := hc
    by_cases hd : lcfg.dbl = true
    swap; · simp [onItems, hd] at hc
    refine lcall_ok (.pushBack n (.val x)) I (sim_change (fun l => sim_withTemps (ys := [μ.left x]) (mapM_one hx) rfl (sim_pushBack (sim_moveTemp l.alloc))) n) ?_
    simp only [Spec.LL.specStep, Spec.LL.needs, if_pos hd, Spec.LL.argVal, Option.bind_some]
    simp only [if_pos hd] at hc
    exact edit_spec hn hc fun xs ys h => by simp only [Option.some.injEq, Prod.mk.injEq] at h; exact ⟨.unit, h.1, by rw [h.2]⟩
  | pushBackElem k =>
    obtain ⟨W, hr, hi⟩ := I
    simp only [lrun, onItems, Option.bind_eq_some_iff, Option.map_eq_some_iff] at hc
    obtain ⟨xs, hv, ⟨r1, ys⟩, ⟨x, hk, hc⟩, e⟩ := hc
    split at hc
    swap; · cases hc
    rename_i hok
    obtain ⟨hd, hok⟩ := hok
    simp only [Option.some.injEq, Prod.mk.injEq] at hc e
    obtain ⟨rfl, rfl⟩ := hc
    obtain ⟨rfl, rfl⟩ := e
    obtain ⟨l, a, hl, h1, h2, own, b, hinf⟩ := elem_known hi hn hv hk
    have hs : Spec.LL.specStep false (valued lcfg x0).dbl (valued lcfg x0).dflt (.pushBack n (.val (μ.cp x))) A =
        some (.unit, place A n (some ⟨some (xs ++ [μ.cp x]), v.alloc⟩)) := by
      simp only [Spec.LL.specStep, Spec.LL.needs]
      rw [if_pos (show (valued lcfg x0).dbl = true from hd)]
      simp only [Spec.LL.argVal, Spec.LL.edit, Option.bind_some, hn, hv, Option.map_some]; rfl
    refine ((change_known (R := S.Ret) (Q := fun l => Model.LL.pushBack (valued lcfg x0) l (.tmp (μ.cp x))) hr hl ?_).safe
      (lstep_ok hi hs)).mono ?_
    · have := sim_pushBack (lcfg := lcfg) (x0 := x0) (sim_copyElem (L := L) (lcfg := lcfg) (x0 := x0) h1 h2 hok)
      rw [← pushBack_assoc] at this
      simp only [← pushBack_assoc] at this
      exact this
    · rintro q ⟨q', ⟨h1, h2⟩, h3, h4⟩
      exact ⟨by rw [h3, h1]; rfl, q'.2, h4, h2⟩
  | popBack =>
    by_cases hd : lcfg.dbl = true
    swap; · simp [lrun, onItems, hd] at hc
    refine lcall_ok (.popBack n) I (sim_change (fun l => sim_popBack l) n) ?_
    simp only [Spec.LL.specStep, Spec.LL.needs, if_pos hd]
    exact edit_spec hn hc fun xs ys h => by
      split at h
      · rename_i g; rw [if_pos g.2]; simp only [Option.some.injEq, Prod.mk.injEq] at h; exact ⟨.unit, h.1, by rw [h.2]⟩
      · cases h
  | insertAfter p m =>
    simp only [lrun, Option.bind_eq_some_iff] at hc
    obtain ⟨x, hx, hc⟩ := hc
    exact lcall_ok (.insertAfter n p (.val x)) I
      (sim_changeP (fun l => sim_at l p fun it => sim_withTemps (ys := [μ.left x]) (mapM_one hx) rfl (sim_emplaceAfter (sim_moveTemp l.alloc) it)) n)
      (edit_spec hn hc fun xs ys h => by
        simp only [Spec.LL.needs]
        split at h
        · rename_i g; rw [if_pos g]; simp only [Option.some.injEq, Prod.mk.injEq] at h; exact ⟨.pos _, h.1, by rw [h.2]⟩
        · cases h)
  | insertAfterFill p k m =>
    simp only [lrun, Option.bind_eq_some_iff] at hc
    obtain ⟨x, hx, hc⟩ := hc
    exact lcall_ok (.insertAfterFill n p k (.val (μ.cp x))) I
      (sim_changeP (fun l => sim_at l p fun it => sim_withTemps (mapM_one hx) rfl (sim_insertAfterFill (sim_copyTemp hx l.alloc) it k)) n)
      (edit_spec hn hc fun xs ys h => by
        simp only [Spec.LL.needs]
        split at h
        · rename_i g; rw [if_pos g]; simp only [Option.some.injEq, Prod.mk.injEq] at h; exact ⟨.pos _, h.1, by rw [h.2]⟩
        · cases h)
  | eraseAfter p =>
    exact lcall_ok (.eraseAfter n p) I (sim_changeP (fun l => sim_at l p fun it => sim_eraseAfter l it) n)
      (edit_spec hn hc fun xs ys h => by
        simp only [Spec.LL.needs]
        split at h
        · rename_i g; rw [if_pos g]; simp only [Option.some.injEq, Prod.mk.injEq] at h; exact ⟨.pos _, h.1, by rw [h.2]⟩
        · cases h)
  | eraseAfterRange lo hi =>
    exact lcall_ok (.eraseAfterRange n lo hi) I
      (sim_changeP (fun l => sim_at l lo fun a => sim_at l hi fun b => sim_eraseAfterRange l a b) n)
      (edit_spec hn hc fun xs ys h => by
        simp only [Spec.LL.needs]
        split at h
        · rename_i g; rw [if_pos g]
          split at h
          · rename_i g; rw [if_pos g]; simp only [Option.some.injEq, Prod.mk.injEq] at h; exact ⟨.pos _, h.1, by rw [h.2]⟩
          · rename_i g; rw [if_neg g]; simp only [Option.some.injEq, Prod.mk.injEq] at h; exact ⟨.pos _, h.1, by rw [h.2]⟩
        · cases h)
  | insert p m =>
    simp only [lrun, Option.bind_eq_some_iff] at hc
    obtain ⟨x, hx, hc⟩ := hc
    by_cases hd : lcfg.dbl = true
    swap; · simp [onItems, hd] at hc
    refine lcall_ok (.insert n p (.val x)) I
      (sim_changeP (fun l => sim_at l p fun it => sim_withTemps (ys := [μ.left x]) (mapM_one hx) rfl (sim_emplace (sim_moveTemp l.alloc) it)) n) ?_
    simp only [Spec.LL.specStep, Spec.LL.needs, if_pos hd, Spec.LL.argVal, Option.bind_some]
    exact edit_spec hn hc fun xs ys h => by
      split at h
      · rename_i g; rw [if_pos g.2]; simp only [Option.some.injEq, Prod.mk.injEq] at h; exact ⟨.pos _, h.1, by rw [h.2]⟩
      · cases h
  | insertFill p k m =>
    simp only [lrun, Option.bind_eq_some_iff] at hc
    obtain ⟨x, hx, hc⟩ := hc
    by_cases hd : lcfg.dbl = true
    swap; · simp [onItems, hd] at hc
    refine lcall_ok (.insertFill n p k (.val (μ.cp x))) I
      (sim_changeP (fun l => sim_at l p fun it => sim_withTemps (mapM_one hx) rfl (sim_insertFill (sim_copyTemp hx l.alloc) it k)) n) ?_
    simp only [Spec.LL.specStep, Spec.LL.needs, if_pos hd, Spec.LL.argVal, Option.bind_some]
    exact edit_spec hn hc fun xs ys h => by
      split at h
      · rename_i g; rw [if_pos g.2]; simp only [Option.some.injEq, Prod.mk.injEq] at h; exact ⟨.pos _, h.1, by rw [h.2]⟩
      · cases h
  | erase p =>
    by_cases hd : lcfg.dbl = true
    swap; · simp [lrun, onItems, hd] at hc
    refine lcall_ok (.erase n p) I (sim_changeP (fun l => sim_at l p fun it => sim_erase l it) n) ?_
    simp only [Spec.LL.specStep, Spec.LL.needs, if_pos hd]
    exact edit_spec hn hc fun xs ys h => by
      split at h
      · rename_i g; rw [if_pos g.2]
        split at h
        · rename_i g; rw [if_pos g]; simp only [Option.some.injEq, Prod.mk.injEq] at h; exact ⟨.pos _, h.1, by rw [h.2]⟩
        · rename_i g; rw [if_neg g]; simp only [Option.some.injEq, Prod.mk.injEq] at h; exact ⟨.pos _, h.1, by rw [h.2]⟩
      · cases h
  | eraseRange lo hi =>
    by_cases hd : lcfg.dbl = true
    swap; · simp [lrun, onItems, hd] at hc
    refine lcall_ok (.eraseRange n lo hi) I (sim_changeP (fun l => sim_at l lo fun a => sim_at l hi fun b => sim_eraseRange l a b) n) ?_
    simp only [Spec.LL.specStep, Spec.LL.needs, if_pos hd]
    exact edit_spec hn hc fun xs ys h => by
      split at h
      · rename_i g; rw [if_pos g.2]; simp only [Option.some.injEq, Prod.mk.injEq] at h; exact ⟨.pos _, h.1, by rw [h.2]⟩
      · cases h
  | resizeFill k m =>
    simp only [lrun, Option.bind_eq_some_iff] at hc
    obtain ⟨x, hx, hc⟩ := hc
    exact lcall_ok (.resizeFill n k (.val (μ.cp x))) I
      (sim_change (fun l => sim_withTemps (mapM_one hx) rfl (sim_resizeFill (sim_copyTemp hx l.alloc) k)) n)
      (edit_spec hn hc fun xs ys h => by simp only [Option.some.injEq, Prod.mk.injEq] at h; exact ⟨.unit, h.1, by rw [h.2]⟩)
  | elem p c =>
    obtain ⟨W, hr, hi⟩ := I
    simp only [lrun, onItems, Option.bind_eq_some_iff, Option.map_eq_some_iff] at hc
    obtain ⟨xs, hv, ⟨r1, ys⟩, hc, e⟩ := hc
    split at hc
    swap; · cases hc
    rename_i hp
    simp only [Option.bind_eq_some_iff, Option.map_eq_some_iff, Prod.mk.injEq] at hc e
    obtain ⟨x, hk, ⟨r2, y2⟩, hrun, rfl, rfl⟩ := hc
    obtain ⟨rfl, rfl⟩ := e
    obtain ⟨l, a, hl, h1, h2, own, b, hinf⟩ := elem_known hi hn hv hk
    rw [Nat.sub_add_cancel hp] at h1
    have hlt : p - 1 < xs.length := (List.getElem?_eq_some_iff.1 hk).1
    have hs : Spec.LL.specStep false (valued lcfg x0).dbl (valued lcfg x0).dflt (.set n p y2) A =
        some (.unit, place A n (some ⟨some (xs.set (p - 1) y2), v.alloc⟩)) := by
      simp only [Spec.LL.specStep, Spec.LL.edit, Option.bind_some, hn, hv, Spec.LL.needs]
      rw [if_pos (by omega)]
      rfl
    have hst := lstep_ok hi hs
    have hvar : Model.LL.var n W = .ok (l, W) := by unfold Model.LL.var; rw [hl]
    have hobj : lobj n w = .ok (l, w) := by unfold lobj; rw [hr.2, hl]
    have hset : Model.LL.step (valued lcfg x0) (.set n p y2) W =
        .ok (.unit, ⟨{ W.heap with info := Model.LL.upd W.heap.info a (some ⟨own, b, .live y2⟩) }, W.vars⟩) := by
      simp only [Model.LL.step, Model.LL.look, Prog.bind_run, hvar, Out.bind_ok, Model.LL.inHeap, h1, Model.LL.store, Model.LL.withNode, hinf]
      rfl
    rw [hset] at hst
    have hit : (inNodes (Model.LL.iterAt l p) w.st).Safe fun q => q.1 = some a ∧ ElemRel L (tt []) q.2 W.heap := by
      have := (sim_iterAt l p).up (L := L) (T := tt []) w.st W.heap hr.1
      rw [h1] at this
      exact this
    simp only [ecall, Prog.bind_run, hobj, Out.bind_ok]
    refine Out.Safe.bind (P := fun q => q.1 = some a ∧ ElemRel L (tt []) q.2.st W.heap ∧ q.2.vars = w.vars)
      (hit.bind fun q hq => ⟨hq.1, hq.2, rfl⟩) ?_
    rintro ⟨_, w1⟩ ⟨rfl, r1, hv1⟩
    simp only at r1 hv1
    show ((inLSt (inElems (C.call c (cell a))) w1) >>= fun q => .ok (ERet.elem q.1, q.2)).Safe _
    have he : elems W.heap a = some x := by unfold elems; rw [hinf]; rfl
    have hcall := L.call (n := cell a) (c := c) r1.inv (by rw [glue_cell]; exact he) hrun
    refine Out.Safe.bind (P := fun q => q.1 = r2 ∧ q.2.st.nodes = w1.st.nodes ∧ q.2.vars = w1.vars ∧
      L.Inv (place (glue (elems W.heap) (tt [])) (cell a) (some y2)) q.2.st.objs)
      (Out.Safe.bind (P := fun q => q.1 = r2 ∧ q.2.nodes = w1.st.nodes ∧
        L.Inv (place (glue (elems W.heap) (tt [])) (cell a) (some y2)) q.2.objs)
        (hcall.bind fun q hq => ⟨hq.1, rfl, hq.2⟩) fun q hq => ⟨hq.1, hq.2.1, rfl, hq.2.2⟩) ?_
    rintro ⟨_, w2⟩ ⟨rfl, hn2, hv2, i2⟩
    simp only at hn2 hv2 i2
    refine ⟨rfl, _, ⟨⟨?_, ?_, ?_⟩, ?_⟩, hst.2⟩
    · show w2.st.nodes = _
      rw [hn2, r1.bare]
      unfold bareHeap
      congr 1
      funext j
      show _ = bareInfo (Model.LL.upd W.heap.info a (some ⟨own, b, .live y2⟩) j)
      unfold Model.LL.upd
      split
      · rename_i e; subst e; rw [hinf]; rfl
      · rfl
    · rw [place_cell] at i2
      refine cast (congrArg (fun E => L.Inv (glue E (tt [])) w2.st.objs) ?_) i2
      funext j
      unfold elems
      simp only [place, Model.LL.upd]
      split <;> rfl
    · intro j hj
      show Model.LL.upd W.heap.info a _ j = none
      have h := r1.fresh j hj
      unfold Model.LL.upd
      split
      · rename_i e; subst e; rw [hinf] at h; cases h
      · exact h
    · show w2.vars = W.vars
      rw [hv2, hv1, hr.2]

/-! ### Copies -/

theorem lcopy_ok {A : Nat → Option (Spec.LL.Var V)} {w : LWorld σ} {d e : Nat} {x : Spec.LL.Var V} (I : EInv L lcfg x0 A w) (hd : A d = none)
    (he : A e = some x) (hok : (linkedMeaning lcfg.dbl μ).cpOk x = true) :
    ((linkedCls C lcfg).copy d e w).Safe fun q => EInv L lcfg x0 (place A d (some ((linkedMeaning lcfg.dbl μ).cp x))) q.2 := by
  obtain ⟨W, hr, G, I, rfl⟩ := I
  obtain ⟨it, al⟩ := x
  cases it with
  | none => cases hok
  | some xs =>
  have hok : xs.all μ.cpOk = true := hok
  obtain ⟨hd1, tl1, cs, hg, rfl⟩ := LL.ideal_full he rfl
  have hi : G d = none := by simpa [LL.ideal] using hd
  have hsim : Sim (WRel L) (WRel L) (fun _ => ()) ((linkedCls C lcfg).copy d e)
      (do let l ← Model.LL.var e
          Model.LL.create d (copyImplV μ (valued lcfg x0) Prog.ub l l.alloc)) :=
    (sim_obj e).bind fun l => sim_create (sim_copyImpl (.inl rfl) l l.alloc) d
  have hq := LL.create_ok (P := fun cs' _ => LL.vals cs' = (LL.vals cs).map μ.cp) (own := al) I hi
    ((copyImplV_ok (μ := μ) (bad := Prog.ub) I.bal (I.rep hg) al (List.all_eq_true.1 hok)).imp fun q hq => by
      obtain ⟨h', t', c', e1, e2, e3⟩ := hq
      exact ⟨h', t', c', _, e2, e3, e1⟩)
  have hs : ((do let l ← Model.LL.var e
                 Model.LL.create d (copyImplV μ (valued lcfg x0) Prog.ub l l.alloc) : Prog (Model.LL.World V) _) W).Safe fun q =>
      LInv (valued lcfg x0) (place (LL.ideal G) d (some ⟨some ((LL.vals cs).map μ.cp), al⟩)) q.2 := by
    rw [Prog.bind_run, LL.var_run (I.var hg)]
    simp only [Out.bind_ok]
    show (Model.LL.create d (copyImplV μ (valued lcfg x0) Prog.ub (LL.lst hd1 tl1 cs al) al) W).Safe _
    generalize Model.LL.create d (copyImplV μ (valued lcfg x0) Prog.ub (LL.lst hd1 tl1 cs al) al) W = o at hq
    cases o with
    | ok q =>
      obtain ⟨_, h', t', c', e1, e2⟩ := hq
      refine ⟨_, e1, ?_⟩
      rw [LL.ideal_put, ← e2]
      rfl
    | oom => trivial
    | _ => exact hq.elim
  refine ((hsim w W hr).safe hs).mono ?_
  rintro q ⟨q', h1, h2, h3⟩
  exact ⟨q'.2, h3, h1⟩

theorem lcopyAssign_ok {A : Nat → Option (Spec.LL.Var V)} {w : LWorld σ} {d e : Nat} {t x : Spec.LL.Var V} (I : EInv L lcfg x0 A w) (hne : d ≠ e)
    (hd : A d = some t) (he : A e = some x) (hok : (linkedMeaning lcfg.dbl μ).cpOk x = true) :
    ((linkedCls C lcfg).copyAssign d e w).Safe fun q => EInv L lcfg x0 (place A d (some ((linkedMeaning lcfg.dbl μ).cp x))) q.2 := by
  obtain ⟨W, hr, G, I, rfl⟩ := I
  obtain ⟨it, al⟩ := x
  cases it with
  | none => cases hok
  | some xs =>
  have hok : xs.all μ.cpOk = true := hok
  obtain ⟨hd1, tl1, cs, hg, rfl⟩ := LL.ideal_full he rfl
  obtain ⟨o, ho, hov⟩ := LL.ideal_some hd
  let Q : Prog (Model.LL.World V) Unit := do
    let o ← Model.LL.var e
    let l ← Model.LL.var d
    let l' ← Model.LL.inHeap (do Model.LL.destruct (valued lcfg x0) l; copyImplV μ (valued lcfg x0) Prog.ub o o.alloc)
    Model.LL.setVar d (some l')
  have hsim : Sim (WRel L) (WRel L) (fun _ => ()) ((linkedCls C lcfg).copyAssign d e) Q := by
    show Sim (WRel L) (WRel L) (fun _ => ()) (if d = e then _ else _) Q
    rw [if_neg hne]
    exact (sim_obj e).bind fun o => (sim_obj d).bind fun l => (sim_copyAssign (.inl rfl) l o).inside.bind fun _ => sim_setObj d _
  have hv : W.vars d = some o.fields := by rw [I.vars, ho]; rfl
  obtain ⟨h', k, e1, e2, hk⟩ := LL.destruct_obj I ho
  have rj : LL.Rep (valued lcfg x0) h' hd1 tl1 cs al := by
    refine (I.rep hg).step e2 ?_
    have := I.sep e d (Ne.symm hne)
    rw [ho, hg] at this
    exact this
  have hc := copyImplV_ok (μ := μ) (bad := Prog.ub) e2.bal rj al (List.all_eq_true.1 hok)
  have hs : (Q W).Safe fun q => LInv (valued lcfg x0) (place (LL.ideal G) d (some ⟨some ((LL.vals cs).map μ.cp), al⟩)) q.2 := by
    simp only [Q, Prog.bind_run, LL.var_run (I.var hg), LL.var_run hv, Out.bind_ok, LL.inHeap_run, e1]
    show ((copyImplV μ (valued lcfg x0) Prog.ub (LL.lst hd1 tl1 cs al) al h' >>= _) >>= _).Safe _
    cases ho2 : copyImplV μ (valued lcfg x0) Prog.ub (LL.lst hd1 tl1 cs al) al h' with
    | ok q =>
      rw [ho2] at hc
      obtain ⟨hd', tl', cs', h1, h2, h3⟩ := hc
      obtain ⟨ql, qh⟩ := q
      simp only at h2 h3
      subst h2
      refine ⟨_, I.put1 d (o := some (LL.full hd' tl' cs' al)) (h' := qh) (by rw [ho]; exact e2.trans h3.step) ?_, ?_⟩
      · rintro x hx; cases hx; exact h3.rep
      · rw [LL.ideal_put, ← h1]
        rfl
    | oom => trivial
    | _ => rw [ho2] at hc; exact hc.elim
  refine ((hsim w W hr).safe hs).mono ?_
  rintro q ⟨q', h1, h2, h3⟩
  exact ⟨q'.2, h3, h1⟩

/-- Linked lists of objects keep their promises. -/
def linkedLaw (lcfg : Model.LL.Cfg Unit) (x0 : V) (L : Law C μ) : Law (linkedCls C lcfg) (linkedMeaning lcfg.dbl μ) where
  Inv := EInv L lcfg x0
  start := by
    refine ⟨{}, ⟨⟨rfl, ?_, fun _ _ => rfl⟩, rfl⟩, _, LL.inv_init, rfl⟩
    have := L.start
    refine cast (congrArg (fun E => L.Inv E C.start) ?_) this
    funext m
    simp only [glue]
    split <;> rfl
  make {A s n m x} I hn hm := by
    obtain ⟨op, h1, h2⟩ := lmake_spec (x0 := x0) (dbl := lcfg.dbl) hn hm
    exact (linv_ok I (sim_make h1) h2).mono fun q hq => hq.2
  copy I hd he hok := lcopy_ok I hd he hok
  copyDead {A s d e} I he := by
    obtain ⟨W, hr, G, I, rfl⟩ := I
    have : s.vars e = none := by
      rw [hr.2, I.vars e]
      simp only [LL.ideal, Option.map_eq_none_iff] at he
      rw [he]; rfl
    simp only [linkedCls, Prog.bind_run, lobj, this, Out.bind_ub]
  move {A s d e x} I hd he := by
    refine (linv_ok (g := fun _ => ()) (op := .newMove d e) (r := .unit) I ?_ ?_).mono fun q hq => hq.2
    · exact (sim_obj e).bind fun l => (sim_setObj d _).bind fun _ => fun w W hr => ⟨rfl, hr.1, by simp only [hr.2, id]⟩
    · simp only [Spec.LL.specStep, he, Option.bind_some, hd, Option.isNone_none, if_true, Spec.LL.needs]; rfl
  copyAssign I hne hd he hok _ := lcopyAssign_ok I hne hd he hok
  copySelf {A s d t} I hd hok := by
    refine (linv_ok (g := fun _ => ()) (op := .moveAssign d d) (r := .unit) I ?_ ?_).mono fun q hq => hq.2
    · simp only [linkedCls, Model.LL.step, if_true, Model.LL.look]
      exact (sim_obj d).bind fun l => fun w W hr => ⟨rfl, hr⟩
    · simp only [Spec.LL.specStep, Option.bind_some, hd, if_true]
  moveAssign {A s d e t x} I hne hd he _ := by
    refine (linv_ok (g := fun _ => ()) (op := .moveAssign d e) (r := .unit) I ?_ ?_).mono fun q hq => hq.2
    · simp only [linkedCls, Model.LL.step, if_neg hne, Model.LL.change2]
      exact (sim_obj d).bind fun l => (sim_obj e).bind fun o => (sim_moveAssign l o).inside.bind fun q =>
        (sim_setObj d _).bind fun _ => fun w W hr => ⟨rfl, hr.1, by simp only [hr.2, id]⟩
    · simp only [Spec.LL.specStep, he, Option.bind_some, hd, if_neg hne]; rfl
  moveSelf {A s d t} I hd := by
    refine (linv_ok (g := fun _ => ()) (op := .moveAssign d d) (r := .unit) I ?_ ?_).mono fun q hq => hq.2
    · simp only [linkedCls, Model.LL.step, if_true, Model.LL.look]
      exact (sim_obj d).bind fun l => fun w W hr => ⟨rfl, hr⟩
    · simp only [Spec.LL.specStep, Option.bind_some, hd, if_true]
  drop {A s n x} I hn := by
    refine (linv_ok (g := fun _ => ()) (op := .drop n) (r := .unit) I ?_ ?_).mono fun q hq => hq.2
    · exact (sim_obj n).bind fun l => (sim_destruct l).inside.bind fun _ => fun w W hr => ⟨rfl, hr.1, by simp only [hr.2]⟩
    · simp only [Spec.LL.specStep, Option.bind_some, hn]; rfl
  call I hn hc := ecall_ok I hn hc
  newOk {m x} hm := by
    cases m with
    | alloc a => cases hm; rfl
    | fill n m a =>
      simp only [linkedMeaning, lval, Option.map_eq_some_iff] at hm
      obtain ⟨x, hx, rfl⟩ := hm
      have := L.cpOk (L.newOk hx)
      simp [linkedMeaning, this]
    | range ms a =>
      simp only [linkedMeaning, lval, Option.map_eq_some_iff] at hm
      obtain ⟨xs, hx, rfl⟩ := hm
      have := mapM_ok hx L
      simp only [linkedMeaning, Option.any_some, List.all_map, List.all_eq_true, Function.comp_apply]
      exact fun x hx => L.cpOk (this x hx)
  cpOk {x} h := by
    obtain ⟨it, al⟩ := x
    cases it with
    | none => cases h
    | some xs =>
      simp only [linkedMeaning, Option.any_some, Option.map_some, List.all_map, List.all_eq_true, Function.comp_apply] at h ⊢
      exact fun x hx => L.cpOk (h x hx)
  idle := by
    rintro A w ⟨W, hr, G, I, rfl⟩ hA
    have hG : ∀ i, G i = none := fun i => by simpa [LL.ideal] using hA i
    have h := I.ended hG LL.amount_none
    have hi : ∀ a, W.heap.info a = none := by
      intro a
      cases hh : W.heap.info a with
      | none => rfl
      | some i =>
        obtain ⟨j, hj⟩ := LL.Inv.cover I a (by intro e; rw [hh] at e; cases e)
        rw [hG j] at hj; cases hj
    refine ⟨?_, ?_, L.idle hr.1.inv fun m => ?_⟩
    · rw [hr.1.bare]; exact h.1
    · rw [hr.1.bare]; exact h.2
    · simp only [glue, elems, hi]
      split <;> rfl

/-- what cannot be copied aborts when copied, so does a list that holds it, and a list that was moved from -/
theorem linked_abort {lcfg : Model.LL.Cfg Unit} {x0 : V} (hdbg : lcfg.debug = true)
    (hbad : ∀ A s d e x, L.Inv A s → A e = some x → μ.cpOk x = false → C.copy d e s = .panic ∨ C.copy d e s = .oom)
    (B : Nat → Option (Spec.LL.Var V)) (w : LWorld σ) (d e : Nat) (x : Spec.LL.Var V) (I : EInv L lcfg x0 B w) (he : B e = some x)
    (hx : (linkedMeaning lcfg.dbl μ).cpOk x = false) : (linkedCls C lcfg).copy d e w = .panic ∨ (linkedCls C lcfg).copy d e w = .oom := by
  obtain ⟨W, hr, G, I, rfl⟩ := I
  obtain ⟨it, al⟩ := x
  cases it with
  | none =>
    obtain ⟨o, ho, hov⟩ := LL.ideal_some he
    have hb : o.body = none := by
      cases h : o.body with
      | none => rfl
      | some b => simp [LL.Obj.value, h] at hov
    have hv : w.vars e = some ⟨none, none, 0, o.alloc⟩ := by
      rw [hr.2, I.vars e, ho]
      simp only [Option.map_some, LL.Obj.fields, hb]
    refine .inl ?_
    simp only [linkedCls, Prog.bind_run, lobj, hv, Out.bind_ok, lcreate, inLSt, lcopyImpl, inNodes, Model.LL.dbgAssert, hdbg]
    rfl
  | some xs =>
    have hno : xs.all μ.cpOk = false := hx
    obtain ⟨hd1, tl1, cs, hg, rfl⟩ := LL.ideal_full he rfl
    have hsim : Sim (WRel L) (WRel L) (fun _ => ()) ((linkedCls C lcfg).copy d e)
        (do let l ← Model.LL.var e
            Model.LL.create d (copyImplV μ (valued lcfg x0) Prog.panic l l.alloc)) :=
      (sim_obj e).bind fun l => sim_create (sim_copyImpl (.inr ⟨rfl, hbad⟩) l l.alloc) d
    have hs : ((do let l ← Model.LL.var e
                   Model.LL.create d (copyImplV μ (valued lcfg x0) Prog.panic l l.alloc) : Prog (Model.LL.World V) _) W) = .panic ∨
        ((do let l ← Model.LL.var e
             Model.LL.create d (copyImplV μ (valued lcfg x0) Prog.panic l l.alloc) : Prog (Model.LL.World V) _) W) = .oom := by
      rw [Prog.bind_run, LL.var_run (I.var hg)]
      simp only [Out.bind_ok, Model.LL.create, Prog.bind_run, LL.inHeap_run]
      exact stopped (stopped (copyImplV_abort I.bal (I.rep hg) al hno))
    have h := hsim w W hr
    rcases hs with hs | hs <;> rw [hs] at h
    · exact h
    · exact .inr h

/-- when all lists are empty or moved from, no element is left -/
theorem linked_elements {lcfg : Model.LL.Cfg Unit} {x0 : V} {B : Nat → Option (Spec.LL.Var V)} {w : LWorld σ} (I : EInv L lcfg x0 B w)
    (hB : ∀ i v, B i = some v → v.items = none ∨ v.items = some []) : C.idle w.st.objs := by
  obtain ⟨W, hr, G, I, rfl⟩ := I
  have hi : ∀ a, elems W.heap a = none := by
    intro a
    unfold elems
    cases hh : W.heap.info a with
    | none => rfl
    | some i =>
      obtain ⟨j, hj⟩ := LL.Inv.cover I a (by intro e; rw [hh] at e; cases e)
      cases hg : G j with
      | none => rw [hg] at hj; cases hj
      | some o =>
        have hv := hB j o.value (by simp [LL.ideal, hg])
        have hok := I.ok j o hg
        rw [hg] at hj
        obtain ⟨b, al⟩ := o
        cases b with
        | none => cases hj
        | some b =>
          obtain ⟨hd, tl, cs⟩ := b
          have hcs : cs = [] := by simpa [LL.Obj.value, LL.vals] using hv
          subst hcs
          have hrep : LL.Rep (valued lcfg x0) W.heap hd tl [] al := hok
          have hj' : a = hd ∨ a = tl := by simpa [LL.onodes, LL.Obj.nodes, LL.nodes, LL.addrs] using hj
          rcases hj' with rfl | rfl
          · rw [← hh, show W.heap.info a = _ from hrep.vhd]; rfl
          · rw [← hh, show W.heap.info a = _ from hrep.vtl]; rfl
  refine L.idle hr.1.inv fun m => ?_
  simp only [glue, hi]
  split <;> rfl

end

end Verif.Proof.Nested
