import Verif.Spec.MatchHist
/-! # Proofs about programs that keep matches and match chains -/
namespace Verif.Proof.MatH
open Verif Verif.Model.MatchHist Verif.Spec.MatH

variable {T R ω : Type}

def lifeOf (h : List (Ev T R)) (v : Nat) : Life T :=
  match valueOf h v with
  | some t => .live t
  | none => if declared h v then .ended else .unborn

/-- The objects are what the past says. -/
structure Rep (h : List (Ev T R)) (e : ω) (w : World T R ω) : Prop where
  var : ∀ v, w.var v = lifeOf h v
  mat : ∀ i, w.mat i = matchOf h i
  mid : ∀ k, w.mid k = (targetOf h k).map fun v => (v, resultOf h k)
  env : w.env = e

theorem rep_start (e : ω) : Rep ([] : List (Ev T R)) e (start e) :=
  ⟨fun _ => rfl, fun _ => rfl, fun _ => rfl, rfl⟩

theorem read_live {h : List (Ev T R)} {e : ω} {w : World T R ω} (hw : Rep h e w) {v : Nat} {t : T} (hv : valueOf h v = some t) :
    readVar v w = .ok (t, w) := by simp [readVar, hw.var v, lifeOf, hv]

theorem read_ended {h : List (Ev T R)} {e : ω} {w : World T R ω} (hw : Rep h e w) {v : Nat} (hv : valueOf h v = none) :
    readVar v w = .ub := by
  simp only [readVar, hw.var v, lifeOf, hv]; split
  · rename_i he; split at he <;> cases he
  · rfl

theorem getMat_ok {h : List (Ev T R)} {e : ω} {w : World T R ω} (hw : Rep h e w) {i v : Nat} (hi : matchOf h i = some v) :
    getMat i w = .ok (v, w) := by simp [getMat, hw.mat i, hi]

theorem freshMat_ok {h : List (Ev T R)} {e : ω} {w : World T R ω} (hw : Rep h e w) {i : Nat} (hi : matchOf h i = none) :
    freshMat i w = .ok ((), w) := by simp [freshMat, hw.mat i, hi]

theorem getMid_ok {h : List (Ev T R)} {e : ω} {w : World T R ω} (hw : Rep h e w) {k v : Nat} (hk : targetOf h k = some v) :
    getMid k w = .ok ((v, resultOf h k), w) := by simp [getMid, hw.mid k, hk]

theorem freshMid_ok {h : List (Ev T R)} {e : ω} {w : World T R ω} (hw : Rep h e w) {k : Nat} (hk : targetOf h k = none) :
    freshMid k w = .ok ((), w) := by simp [freshMid, hw.mid k, hk]

theorem test_ok {c : Cmp T} {h : List (Ev T R)} {e : ω} {w : World T R ω} (hw : Rep h e w) {v : Nat} {t : T} {p : Pat T} {b : Option Bool}
    (hv : valueOf h v = some t) (hf : Fits c t p b) : test c v p w = .ok (b, w) := by
  cases hf with
  | value u => simp [test, read_live hw hv]
  | low_throws lo hi hl => simp [test, read_live hw hv, hl]
  | below lo hi hl => simp [test, read_live hw hv, hl]
  | above lo hi hl => simp [test, read_live hw hv, hl]

theorem test_ub {c : Cmp T} {h : List (Ev T R)} {e : ω} {w : World T R ω} (hw : Rep h e w) {v : Nat} {p : Pat T}
    (hv : valueOf h v = none) : test c v p w = .ub := by
  cases p <;> simp [test, read_ended hw hv]

theorem callFun_ok {h : List (Ev T R)} {e e' : ω} {w : World T R ω} (hw : Rep h e w) {f : Fun ω R} {r : Option R} (hr : f e = (r, e')) :
    callFun f w = .ok (r, { w with env := e' }) := by simp [callFun, hw.env, hr]

theorem Rep.withEnv {h : List (Ev T R)} {e e' : ω} {w : World T R ω} (hw : Rep h e w) : Rep h e' { w with env := e' } :=
  ⟨hw.var, hw.mat, hw.mid, rfl⟩

theorem rep_decided {h : List (Ev T R)} {e : ω} {w : World T R ω} (hw : Rep h e w) {k v : Nat} {r : R} (hk : targetOf h k = some v) :
    Rep (.decided k r :: h) e { w with mid := fun x => if x = k then some (v, some r) else w.mid x } := by
  refine ⟨fun v => ?_, fun i => ?_, fun x => ?_, hw.env⟩
  · exact hw.var v
  · simp [hw.mat, matchOf]
  · by_cases hx : x = k
    · subst hx; simp [targetOf, resultOf, hk]
    · have hx' : ¬ k = x := fun h => hx h.symm
      simp [targetOf, resultOf, hx, hx', hw.mid]

theorem rep_taken {h : List (Ev T R)} {e : ω} {w : World T R ω} (hw : Rep h e w) {k v : Nat} (hk : targetOf h k = some v) :
    Rep (.taken k :: h) e { w with mid := fun x => if x = k then some (v, none) else w.mid x } := by
  refine ⟨fun v => ?_, fun i => ?_, fun x => ?_, hw.env⟩
  · exact hw.var v
  · simp [hw.mat, matchOf]
  · by_cases hx : x = k
    · subst hx; simp [targetOf, resultOf, hk]
    · have hx' : ¬ k = x := fun h => hx h.symm
      simp [targetOf, resultOf, hx, hx', hw.mid]

theorem rep_withResult {h : List (Ev T R)} {e : ω} {w : World T R ω} (hw : Rep h e w) (k v : Nat) (res : Option R) :
    Rep (withResult k v res ++ h) e { w with mid := fun x => if x = k then some (v, res) else w.mid x } := by
  cases res with
  | none =>
    refine ⟨fun v => ?_, fun i => ?_, fun x => ?_, hw.env⟩
    · exact hw.var v
    · simp [hw.mat, matchOf, withResult]
    · by_cases hx : x = k
      · subst hx; simp [targetOf, resultOf, withResult]
      · have hx' : ¬ k = x := fun h => hx h.symm
        simp [targetOf, resultOf, hx, hx', hw.mid, withResult]
  | some r =>
    refine ⟨fun v => ?_, fun i => ?_, fun x => ?_, hw.env⟩
    · exact hw.var v
    · simp [hw.mat, matchOf, withResult]
    · by_cases hx : x = k
      · subst hx; simp [targetOf, resultOf, withResult]
      · have hx' : ¬ k = x := fun h => hx h.symm
        simp [targetOf, resultOf, hx, hx', hw.mid, withResult]

/-- Only declared variables have values. -/
def Sane (h : List (Ev T R)) : Prop := ∀ v, declared h v = false → valueOf h v = none

theorem calls_ok {c : Cmp T} {op : Op T R ω} {h : List (Ev T R)} {e e' : ω} {a : Option (Ret R)} {es : List (Ev T R)} {w : World T R ω}
    (hc : Calls c op h e a es e') (hw : Rep h e w) (hs : Sane h) :
    ∃ w', step c op w = .ok (a, w') ∧ Rep (es ++ h) e' w' ∧ Sane (es ++ h) := by
  cases hc with
  | @declare v t _ _ hv =>
    have hu : w.var v = .unborn := by rw [hw.var]; simp only [lifeOf]; rw [hs v hv]; simp [hv]
    refine ⟨{ w with var := fun x => if x = v then .live t else w.var x }, by simp [step, hu, setVar], ⟨fun x => ?_, fun i => hw.mat i, fun k => hw.mid k, hw.env⟩, fun x hx => ?_⟩
    · by_cases hx : x = v
      · subst hx; simp [lifeOf, valueOf]
      · have hx' : ¬ v = x := fun h => hx h.symm
        simp only [hx, if_false, hw.var, lifeOf, List.singleton_append, valueOf, declared, hx', beq_iff_eq, Bool.or_eq_true, false_or]
    · simp only [List.singleton_append, declared, Bool.or_eq_false_iff, beq_eq_false_iff_ne] at hx
      simp [valueOf, hx.1, hs x hx.2]
  | @assign v t _ _ u hv =>
    have hd : declared h v = true := by
      cases hd : declared h v with
      | true => rfl
      | false => rw [hs v hd] at hv; cases hv
    refine ⟨{ w with var := fun x => if x = v then .live t else w.var x }, by simp [step, read_live hw hv, setVar], ⟨fun x => ?_, fun i => hw.mat i, fun k => hw.mid k, hw.env⟩, fun x hx => ?_⟩
    · by_cases hx : x = v
      · subst hx; simp [lifeOf, valueOf]
      · have hx' : ¬ v = x := fun h => hx h.symm
        simp only [hx, if_false, hw.var, lifeOf, List.singleton_append, valueOf, declared, hx', beq_iff_eq, Bool.or_eq_true, false_or]
    · simp only [List.singleton_append, declared] at hx
      have : ¬ v = x := by rintro rfl; rw [hd] at hx; cases hx
      simp [valueOf, this, hs x hx]
  | @leave v _ _ u hv =>
    have hd : declared h v = true := by
      cases hd : declared h v with
      | true => rfl
      | false => rw [hs v hd] at hv; cases hv
    refine ⟨{ w with var := fun x => if x = v then .ended else w.var x }, by simp [step, read_live hw hv, setVar], ⟨fun x => ?_, fun i => hw.mat i, fun k => hw.mid k, hw.env⟩, fun x hx => ?_⟩
    · by_cases hx : x = v
      · subst hx; simp [lifeOf, valueOf, declared, hd]
      · have hx' : ¬ v = x := fun h => hx h.symm
        simp only [hx, if_false, hw.var, lifeOf, List.singleton_append, valueOf, declared, hx', beq_iff_eq, Bool.or_eq_true, false_or]
    · simp only [List.singleton_append, declared] at hx
      simp [valueOf, hs x hx]
  | @makeMatch i v _ _ u hi hv =>
    refine ⟨{ w with mat := fun x => if x = i then some v else w.mat x }, by simp [step, freshMat_ok hw hi, read_live hw hv, setMat], ⟨fun x => hw.var x, fun x => ?_, fun k => hw.mid k, hw.env⟩, hs⟩
    by_cases hx : x = i
    · subst hx; simp [matchOf]
    · have hx' : ¬ i = x := fun h => hx h.symm
      simp [matchOf, hx, hx', hw.mat]
  | @copyMatch i j v _ _ hi hj =>
    refine ⟨{ w with mat := fun x => if x = i then some v else w.mat x }, by simp [step, freshMat_ok hw hi, getMat_ok hw hj, setMat], ⟨fun x => hw.var x, fun x => ?_, fun k => hw.mid k, hw.env⟩, hs⟩
    by_cases hx : x = i
    · subst hx; simp [matchOf]
    · have hx' : ¬ i = x := fun h => hx h.symm
      simp [matchOf, hx, hx', hw.mat]
  | @dropMatch i v _ _ hi =>
    refine ⟨{ w with mat := fun x => if x = i then none else w.mat x }, by simp [step, getMat_ok hw hi, setMat], ⟨fun x => hw.var x, fun x => ?_, fun k => hw.mid k, hw.env⟩, hs⟩
    by_cases hx : x = i
    · subst hx; simp [matchOf]
    · have hx' : ¬ i = x := fun h => hx h.symm
      simp [matchOf, hx, hx', hw.mat]
  | first_cmp_throws hk hi hv hf =>
    exact ⟨w, by simp [step, freshMid_ok hw hk, getMat_ok hw hi, test_ok hw hv hf], hw, hs⟩
  | @first_not k i p f v t _ _ hk hi hv hf =>
    exact ⟨_, by simp [step, freshMid_ok hw hk, getMat_ok hw hi, test_ok hw hv hf, setMid], rep_withResult hw k v none, hs⟩
  | first_throws hk hi hv hf hr =>
    exact ⟨_, by simp [step, freshMid_ok hw hk, getMat_ok hw hi, test_ok hw hv hf, callFun_ok hw hr], hw.withEnv, hs⟩
  | @first_fits k i p f v t _ _ _ r hk hi hv hf hr =>
    exact ⟨_, by simp [step, freshMid_ok hw hk, getMat_ok hw hi, test_ok hw hv hf, callFun_ok hw hr, setMid],
      rep_withResult (hw.withEnv (e' := e')) k v (some r), hs⟩
  | when_decided hk hr => exact ⟨w, by simp [step, getMid_ok hw hk, hr], hw, hs⟩
  | rest_decided hk hr => exact ⟨w, by simp [step, getMid_ok hw hk, hr], hw, hs⟩
  | when_cmp_throws hk hn hv hf => exact ⟨w, by simp [step, getMid_ok hw hk, hn, test_ok hw hv hf], hw, hs⟩
  | when_not hk hn hv hf => exact ⟨w, by simp [step, getMid_ok hw hk, hn, test_ok hw hv hf], hw, hs⟩
  | when_throws hk hn hv hf hr =>
    exact ⟨_, by simp [step, getMid_ok hw hk, hn, test_ok hw hv hf, callFun_ok hw hr], hw.withEnv, hs⟩
  | when_fits hk hn hv hf hr =>
    exact ⟨_, by simp [step, getMid_ok hw hk, hn, test_ok hw hv hf, callFun_ok hw hr, setMid], rep_decided hw.withEnv hk, hs⟩
  | rest_throws hk hn hr => exact ⟨_, by simp [step, getMid_ok hw hk, hn, callFun_ok hw hr], hw.withEnv, hs⟩
  | rest_runs hk hn hr =>
    exact ⟨_, by simp [step, getMid_ok hw hk, hn, callFun_ok hw hr, setMid], rep_decided hw.withEnv hk, hs⟩
  | finale hk hr => exact ⟨_, by simp [step, getMid_ok hw hk, hr, setMid], rep_taken hw hk, hs⟩
  | @copyChain k l v _ _ hk hl =>
    refine ⟨_, by simp [step, freshMid_ok hw hk, getMid_ok hw hl, setMid], rep_withResult hw k v _, ?_⟩
    cases resultOf h l <;> exact hs
  | @moveChain k l v _ _ hk hl =>
    refine ⟨_, by simp [step, freshMid_ok hw hk, getMid_ok hw hl, setMid]; rfl, ?_, ?_⟩
    · rw [List.append_assoc]; exact rep_withResult (rep_taken hw hl) k v _
    · cases resultOf h l <;> exact hs
  | @dropChain k v _ _ hk =>
    refine ⟨{ w with mid := fun x => if x = k then none else w.mid x }, by simp [step, getMid_ok hw hk, setMid], ⟨fun x => hw.var x, fun x => hw.mat x, fun x => ?_, hw.env⟩, hs⟩
    by_cases hx : x = k
    · subst hx; simp [targetOf]
    · have hx' : ¬ k = x := fun h => hx h.symm
      simp [targetOf, resultOf, hx, hx', hw.mid]

theorem stops_ok {c : Cmp T} {op : Op T R ω} {h : List (Ev T R)} {e : ω} {w : World T R ω} (hc : Stops op h) (hw : Rep h e w) :
    step c op w = .panic := by
  cases hc with
  | finale hk hn => simp [step, getMid_ok hw hk, hn, Prog.panic]

theorem dangles_ok {c : Cmp T} {op : Op T R ω} {h : List (Ev T R)} {e : ω} {w : World T R ω} (hc : Dangles op h) (hw : Rep h e w) :
    step c op w = .ub := by
  cases hc with
  | first hk hi hv => simp [step, freshMid_ok hw hk, getMat_ok hw hi, test_ub hw hv]
  | when hk hn hv => simp [step, getMid_ok hw hk, hn, test_ub hw hv]

/-- What the model's outcome has to be. -/
def Ends (o : End R ω) (x : Out (List (Option (Ret R)) × World T R ω)) : Prop :=
  match o with
  | .done as e => ∃ w, x = .ok (as, w) ∧ w.env = e
  | .stopped => x = .panic
  | .undefined => x = .ub

theorem run_ok {c : Cmp T} {ops : List (Op T R ω)} {h : List (Ev T R)} {e : ω} {o : End R ω} (hr : Run c ops h e o) :
    ∀ {w : World T R ω}, Rep h e w → Sane h → Ends o (run c ops w) := by
  induction hr with
  | nil => intro w hw _; exact ⟨w, rfl, hw.env⟩
  | @call op ops h e a es e' o hc _ ih =>
    intro w hw hs
    obtain ⟨w', h1, h2, h3⟩ := calls_ok hc hw hs
    have := ih h2 h3
    cases o with
    | done as e'' =>
      obtain ⟨w'', hw'', he⟩ := this
      exact ⟨w'', by simp [run, h1, hw''], he⟩
    | stopped => have hp : run c ops w' = .panic := this; show run c (op :: ops) w = .panic; simp [run, h1, hp]
    | undefined => have hp : run c ops w' = .ub := this; show run c (op :: ops) w = .ub; simp [run, h1, hp]
  | stops hs' => intro w hw _; show run c _ w = .panic; simp [run, stops_ok hs' hw]
  | dangles hd => intro w hw _; show run c _ w = .ub; simp [run, dangles_ok hd hw]

end Verif.Proof.MatH
