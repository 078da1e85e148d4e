import Verif.Spec.Threads
/-! # Threads: proofs -/
namespace Verif.Proof.Threads
open Verif Verif.Spec.Threads

variable {V Op Res β : Type}

/-- What `f` does is determined by the objects in `W` and `R`, and it changes those in `W` only. -/
def Framed (W R : List Nat) (f : (Nat → Option V) → Option (Res × (Nat → Option V))) : Prop :=
  ∀ A B, (∀ i, i ∈ W ∨ i ∈ R → A i = B i) → ∀ r A', f A = some (r, A') →
    ∃ B', f B = some (r, B') ∧ (∀ i ∈ W, B' i = A' i) ∧ ∀ i, i ∉ W → A' i = A i ∧ B' i = B i

variable {W R : List Nat} {f g : (Nat → Option V) → Option (Res × (Nat → Option V))}

theorem Framed.none : Framed W R (fun _ : Nat → Option V => (Option.none : Option (Res × (Nat → Option V)))) := by
  intro A B _ r A' h; cases h

theorem Framed.pure (r : Res) : Framed W R (fun A : Nat → Option V => some (r, A)) := by
  intro A B hab r A' h
  cases h
  exact ⟨B, rfl, fun i hi => (hab i (Or.inl hi)).symm, fun _ _ => ⟨rfl, rfl⟩⟩

theorem Framed.put {i : Nat} (hi : i ∈ W) (r : Res) (x : Option V) : Framed W R (fun A => some (r, fun j => if j = i then x else A j)) := by
  intro A B hab r A' h
  cases h
  refine ⟨_, rfl, fun j hj => ?_, fun j hj => ?_⟩
  · dsimp only; split
    · rfl
    · exact (hab j (Or.inl hj)).symm
  · have : j ≠ i := fun e => hj (e ▸ hi)
    simp [this]

theorem Framed.put2 {i k : Nat} (hi : i ∈ W) (hk : k ∈ W) (r : Res) (x y : Option V) :
    Framed W R (fun A => some (r, fun j => if j = k then y else (fun j => if j = i then x else A j) j)) := by
  intro A B hab r A' h
  cases h
  refine ⟨_, rfl, fun j hj => ?_, fun j hj => ?_⟩
  · dsimp only; split
    · rfl
    · split
      · rfl
      · exact (hab j (Or.inl hj)).symm
  · have : j ≠ i := fun e => hj (e ▸ hi)
    have h2 : j ≠ k := fun e => hj (e ▸ hk)
    simp [this, h2]

theorem Framed.var {j : Nat} (hj : j ∈ W ∨ j ∈ R) {g : Option V → (Nat → Option V) → Option (Res × (Nat → Option V))}
    (h : ∀ o, Framed W R (g o)) : Framed W R (fun A => g (A j) A) := by
  intro A B hab r A' e
  dsimp only at e ⊢
  rw [← hab j hj]
  exact h _ A B hab r A' e

theorem Framed.ofBind (o : Option β) {g : β → (Nat → Option V) → Option (Res × (Nat → Option V))} (h : ∀ x, Framed W R (g x)) :
    Framed W R (fun A => o.bind fun x => g x A) := by
  cases o with
  | none => exact Framed.none
  | some x => exact h x

theorem Framed.ofMap (o : Option β) {g : β → (Nat → Option V) → Res × (Nat → Option V)} (h : ∀ x, Framed W R (fun A => some (g x A))) :
    Framed W R (fun A => o.map fun x => g x A) := by
  cases o with
  | none => exact Framed.none
  | some x => exact h x

theorem Framed.cond (p : Prop) [Decidable p] (hf : Framed W R f) (hg : Framed W R g) : Framed W R (fun A => if p then f A else g A) := by
  by_cases hp : p
  · simp only [if_pos hp]; exact hf
  · simp only [if_neg hp]; exact hg

/-- The generic run of a specification. -/
def runWith (step : Op → (Nat → Option V) → Option (Res × (Nat → Option V))) : List Op → (Nat → Option V) → Option (List Res × (Nat → Option V))
  | [], A => some ([], A)
  | op :: ops, A =>
    match step op A with
    | none => none
    | some (r, A') =>
      match runWith step ops A' with
      | none => none
      | some (rs, A'') => some (r :: rs, A'')

theorem runWith_cons {step : Op → (Nat → Option V) → Option (Res × (Nat → Option V))} {op : Op} {ops : List Op} {A A2 : Nat → Option V}
    {rs : List Res} (h : runWith step (op :: ops) A = some (rs, A2)) :
    ∃ r A1 rs', step op A = some (r, A1) ∧ runWith step ops A1 = some (rs', A2) ∧ rs = r :: rs' := by
  simp only [runWith] at h
  split at h
  · cases h
  · rename_i r A1 h1
    split at h
    · cases h
    · rename_i rs' A2' h2
      cases h
      exact ⟨r, A1, rs', h1, h2, rfl⟩

theorem runWith_append {step : Op → (Nat → Option V) → Option (Res × (Nat → Option V))} {ops ops' : List Op} {A A1 A2 : Nat → Option V}
    {rs rs' : List Res} (h : runWith step ops A = some (rs, A1)) (h' : runWith step ops' A1 = some (rs', A2)) :
    runWith step (ops ++ ops') A = some (rs ++ rs', A2) ∧ rs.length = ops.length := by
  induction ops generalizing A rs with
  | nil => cases h; exact ⟨h', rfl⟩
  | cons op ops ih =>
    obtain ⟨r, A3, rs1, h1, h2, rfl⟩ := runWith_cons h
    have := ih h2
    simp only [List.cons_append, runWith, h1, this.1, List.length_cons, this.2, and_self]

theorem calls_cons (t : Nat) (c : Nat × Op) (s : Schedule Op) : calls t (c :: s) = if c.1 = t then c.2 :: calls t s else calls t s := by
  unfold calls
  by_cases h : c.1 = t <;> simp [h]

theorem answers_cons (t : Nat) (c : Nat × Op) (s : Schedule Op) (r : Res) (rs : List Res) :
    answers t (c :: s) (r :: rs) = if c.1 = t then r :: answers t s rs else answers t s rs := by
  unfold answers
  by_cases h : c.1 = t <;> simp [h]

/-- Every schedule gives every thread what it would get alone. -/
theorem interleave {step : Op → (Nat → Option V) → Option (Res × (Nat → Option V))} {writes reads : Op → List Nat}
    (F : ∀ op, Framed (writes op) (reads op) (step op)) {owner : Owner} (s : Schedule Op) (hs : Behaved owner writes reads s)
    (A : Nat → Option V) (At : Nat → Nat → Option V) (hown : ∀ t i, owner i = some t ∨ owner i = none → A i = At t i)
    {rs : Nat → List Res} {E : Nat → Nat → Option V} (hrun : ∀ t, runWith step (calls t s) (At t) = some (rs t, E t)) :
    ∃ rs' A', runWith step (s.map Prod.snd) A = some (rs', A') ∧ (∀ t, answers t s rs' = rs t) ∧
      (∀ t i, owner i = some t → A' i = E t i) ∧ ∀ i, owner i = none → A' i = A i := by
  induction s generalizing A At rs with
  | nil =>
    refine ⟨[], A, rfl, fun t => ?_, fun t i hi => ?_, fun _ _ => rfl⟩
    · have e : some (([] : List Res), At t) = some (rs t, E t) := hrun t
      exact congrArg Prod.fst (Option.some.inj e)
    · have e : some (([] : List Res), At t) = some (rs t, E t) := hrun t
      rw [hown t i (Or.inl hi)]
      exact congrFun (congrArg Prod.snd (Option.some.inj e)) i
  | cons c s ih =>
    obtain ⟨t, op⟩ := c
    have hc := hs (t, op) (List.mem_cons_self ..)
    have ht := hrun t
    rw [calls_cons, if_pos rfl] at ht
    obtain ⟨r, A1, rs1, h1, h2, h3⟩ := runWith_cons ht
    obtain ⟨A', e, hw, hn⟩ := F op (At t) A (fun i hi => by
      refine (hown t i ?_).symm
      rcases hi with hi | hi
      · exact Or.inl (hc.1 i hi)
      · exact hc.2 i hi) r A1 h1
    have := ih (fun c hc => hs c (List.mem_cons_of_mem _ hc)) A' (fun u => if u = t then A1 else At u) (fun u i hi => by
      by_cases hin : i ∈ writes op
      · have ho := hc.1 i hin
        rw [ho] at hi
        have : u = t := by rcases hi with hi | hi <;> cases hi; rfl
        subst this
        rw [if_pos rfl]; exact hw i hin
      · have h0 := hown u i hi
        by_cases hu : u = t
        · subst hu
          rw [if_pos rfl, (hn i hin).1, (hn i hin).2, h0]
        · rw [if_neg hu, (hn i hin).2, h0])
      (rs := fun u => if u = t then rs1 else rs u) (fun u => by
        by_cases hu : u = t
        · subst hu; simpa using h2
        · have := hrun u
          rw [calls_cons, if_neg (fun e => hu e.symm)] at this
          simpa [hu] using this)
    obtain ⟨rs', A2, g1, g2, g3, g4⟩ := this
    refine ⟨r :: rs', A2, ?_, fun u => ?_, g3, fun i hi => ?_⟩
    · simp only [List.map_cons, runWith, e, g1]
    · rw [answers_cons, g2 u]
      by_cases hu : t = u
      · subst hu; simp [h3]
      · simp [hu, Ne.symm hu]
    · rw [g4 i hi]
      refine (hn i fun hin => ?_).2
      have := hc.1 i hin
      rw [hi] at this; cases this

/-! ## The specifications -/

section vector
open Verif.Spec.Vector
variable {α : Type}

theorem vArg {W : List Nat} (r : Model.Vector.Arg α) {R : List Nat} (hr : ∀ i ∈ argReads r, i ∈ R)
    {g : α → Ideal α → Option (Model.Vector.Res α × Ideal α)} (h : ∀ x, Framed W R (g x)) :
    Framed W R (fun A => (argVal A r).bind fun x => g x A) := by
  cases r with
  | val x => exact h x
  | elem j k =>
    simp only [argVal]
    exact Framed.var (j := j) (Or.inr (hr j (by simp [argReads]))) (g := fun o A => ((o.bind fun v => v.xs[k]?)).bind fun x => g x A)
      fun o => Framed.ofBind _ h

theorem vVar {W R : List Nat} {j : Nat} (hj : j ∈ W ∨ j ∈ R) {g : Var α → Ideal α → Option (Model.Vector.Res α × Ideal α)}
    (h : ∀ x, Framed W R (g x)) : Framed W R (fun A => (A j).bind fun x => g x A) :=
  Framed.var hj (g := fun o A => o.bind fun x => g x A) fun _ => Framed.ofBind _ h

theorem vBorn {W R : List Nat} {i : Nat} (hi : i ∈ W) (v : Var α) : Framed W R (fun A => born A i v) :=
  Framed.var (Or.inl hi) (g := fun o A => if o.isNone then some (Model.Vector.Res.unit, put A i (some v)) else none) fun _ =>
    Framed.cond _ (Framed.put hi _ _) Framed.none

theorem vUpd {W R : List Nat} {i : Nat} (hi : i ∈ W) (f : Var α → Option (Model.Vector.Res α × Var α)) : Framed W R (fun A => upd A i f) :=
  vVar (Or.inl hi) fun _ => Framed.ofMap _ fun _ => Framed.put hi _ _

theorem vAsk {W R : List Nat} {i : Nat} (hi : i ∈ R) (f : Var α → Option (Model.Vector.Res α)) : Framed W R (fun A => ask A i f) :=
  vVar (Or.inr hi) fun _ => Framed.ofMap _ fun _ => Framed.pure _

theorem vector_framed (full : Bool) (size : Nat) (dflt : α) (op : Model.Vector.Op α) :
    Framed (writes op) (reads op) (specStep full size dflt op) := by
  cases op <;> simp only [writes, reads] <;> unfold specStep <;> try simp only [only]
  case newFill => exact vArg _ (fun _ h => h) fun _ => Framed.cond _ (vBorn (by simp) _) Framed.none
  case newCount | newList | newRange => exact Framed.cond _ (vBorn (by simp) _) Framed.none
  case newDefault | newAlloc | fromIter => exact vBorn (by simp) _
  case newCopy | newCopyAlloc => exact vVar (by simp) fun _ => vBorn (by simp) _
  case newMove i j a =>
    refine vVar (by simp) fun w => ?_
    exact Framed.var (j := i) (by simp) (g := fun o A => if o.isNone then some (Model.Vector.Res.unit, put (put A i (some w)) j (some ⟨[], 0, w.alloc⟩)) else none)
      fun _ => Framed.cond _ (Framed.put2 (by simp) (by simp) _ _ _) Framed.none
  case copyAssign => exact vVar (by simp) fun _ => vUpd (by simp) _
  case moveAssign =>
    exact vVar (by simp) fun _ => vVar (by simp) fun _ => Framed.cond _ (Framed.pure _) (Framed.put2 (by simp) (by simp) _ _ _)
  case swap => exact vVar (by simp) fun _ => vVar (by simp) fun _ => Framed.put2 (by simp) (by simp) _ _ _
  case drop => exact vVar (by simp) fun _ => Framed.put (by simp) _ _
  case listAssign => exact Framed.cond _ (vUpd (by simp) _) Framed.none
  case push | assignFill | insert | insertFill | resizeFill => exact vArg _ (fun _ h => h) fun _ => vUpd (by simp) _
  case equal | compare => exact vVar (by simp) fun _ => vAsk (by simp) _
  all_goals first | exact vUpd (by simp) _ | exact vAsk (by simp) _

theorem vector_run (full : Bool) (size : Nat) (dflt : α) (ops : List (Model.Vector.Op α)) (A : Ideal α) :
    specRun full size dflt ops A = runWith (specStep full size dflt) ops A := by
  induction ops generalizing A with
  | nil => rfl
  | cons op ops ih =>
    simp only [specRun, runWith, ih]
    cases specStep full size dflt op A with
    | none => rfl
    | some p => cases h : runWith (specStep full size dflt) ops p.2 <;> simp only [h]

end vector

section lists
open Verif.Spec.LL
variable {α : Type}

theorem lVar {W R : List Nat} {j : Nat} (hj : j ∈ W ∨ j ∈ R) {g : Var α → Ideal α → Option (Model.LL.Res α × Ideal α)}
    (h : ∀ x, Framed W R (g x)) : Framed W R (fun A => (A j).bind fun x => g x A) :=
  Framed.var hj (g := fun o A => o.bind fun x => g x A) fun _ => Framed.ofBind _ h

theorem lArg {W : List Nat} (r : Model.LL.Arg α) {R : List Nat} (hr : ∀ i ∈ argReads r, i ∈ R)
    {g : α → Ideal α → Option (Model.LL.Res α × Ideal α)} (h : ∀ x, Framed W R (g x)) :
    Framed W R (fun A => (argVal A r).bind fun x => g x A) := by
  cases r with
  | val x => exact h x
  | elem j k =>
    simp only [argVal, contents]
    exact Framed.var (j := j) (Or.inr (hr j (by simp [argReads])))
      (g := fun o A => (((o.bind fun v => v.items).bind fun xs => xs[k]?)).bind fun x => g x A) fun o => Framed.ofBind _ h

theorem lNeeds {W R : List Nat} (p : Prop) [Decidable p] {f : Ideal α → Option (Model.LL.Res α × Ideal α)} (h : Framed W R f) :
    Framed W R (fun A => needs p (f A)) := Framed.cond p h Framed.none

theorem lOnly {W R : List Nat} (full : Bool) (p : Prop) [Decidable p] {f : Ideal α → Option (Model.LL.Res α × Ideal α)} (h : Framed W R f) :
    Framed W R (fun A => only full p (f A)) := Framed.cond _ h Framed.none

theorem lNew {W R : List Nat} {i : Nat} (hi : i ∈ W) {f : Ideal α → Option (Model.LL.Res α × Ideal α)} (h : Framed W R f) :
    Framed W R (fun A => needs ((A i).isNone) (f A)) :=
  Framed.var (Or.inl hi) (g := fun o A => if o.isNone then f A else none) fun _ => Framed.cond _ h Framed.none

theorem lBorn {W R : List Nat} {i : Nat} (hi : i ∈ W) (v : Var α) : Framed W R (fun A => born A i v) := lNew hi (Framed.put hi _ _)

theorem lEdit {W R : List Nat} {i : Nat} (hi : i ∈ W) (f : List α → Option (Model.LL.Res α × List α)) : Framed W R (fun A => edit A i f) :=
  lVar (Or.inl hi) fun _ => Framed.ofBind _ fun _ => Framed.ofMap _ fun _ => Framed.put hi _ _

theorem lAsk {W R : List Nat} {i : Nat} (hi : i ∈ W ∨ i ∈ R) (f : List α → Option (Model.LL.Res α)) : Framed W R (fun A => ask A i f) :=
  lVar hi fun _ => Framed.ofBind _ fun _ => Framed.ofMap _ fun _ => Framed.pure _

theorem lEdit2 {W R : List Nat} {i j : Nat} (hi : i ∈ W) (hj : j ∈ W) (f : List α → List α → Option (List α × Option (List α))) :
    Framed W R (fun A => edit2 A i j f) :=
  lVar (Or.inl hi) fun _ => Framed.ofBind _ fun _ => lVar (Or.inl hj) fun _ => Framed.ofBind _ fun _ => lNeeds _ <|
    Framed.ofMap _ fun _ => Framed.put2 hi hj _ _ _

theorem list_framed (full dbl : Bool) (dflt : α) (op : Model.LL.Op α) : Framed (writes op) (reads op) (specStep full dbl dflt op) := by
  cases op <;> simp only [writes, reads] <;> unfold specStep
  case newFill => exact lArg _ (fun _ h => h) fun _ => lBorn (by simp) _
  case newMove => exact lVar (by simp) fun _ => lNew (by simp) (Framed.put2 (by simp) (by simp) _ _ _)
  case newMoveAlloc =>
    exact lVar (by simp) fun _ => Framed.ofBind _ fun _ => lNew (by simp) (lOnly _ _ (Framed.put2 (by simp) (by simp) _ _ _))
  case newCopy | newCopyAlloc => exact lVar (by simp) fun _ => Framed.ofBind _ fun _ => lBorn (by simp) _
  case copyAssign =>
    exact lVar (by simp) fun _ => lVar (by simp) fun _ => Framed.ofBind _ fun _ => Framed.cond _ (Framed.pure _) (Framed.put (by simp) _ _)
  case moveAssign =>
    exact lVar (by simp) fun _ => lVar (by simp) fun _ => Framed.cond _ (Framed.pure _) (Framed.put2 (by simp) (by simp) _ _ _)
  case swap => exact lVar (by simp) fun _ => lVar (by simp) fun _ => Framed.put2 (by simp) (by simp) _ _ _
  case drop => exact lVar (by simp) fun _ => Framed.put (by simp) _ _
  case moved => exact lVar (by simp) fun _ => Framed.pure _
  case merge | mergeMove => exact Framed.cond _ (lAsk (by simp) _) (lEdit2 (by simp) (by simp) _)
  case drain => exact lVar (by simp) fun _ => Framed.ofBind _ fun _ => lNeeds _ (Framed.put (by simp) _ _)
  all_goals first
    | exact lBorn (by simp) _
    | exact lEdit (by simp) _
    | exact lAsk (by simp) _
    | exact lEdit2 (by simp) (by simp) _
    | exact lArg _ (fun _ h => h) fun _ => lEdit (by simp) _
    | exact lNeeds _ (lEdit (by simp) _)
    | exact lNeeds _ (lAsk (by simp) _)
    | exact lNeeds _ (lEdit2 (by simp) (by simp) _)
    | exact lNeeds _ (lArg _ (fun _ h => h) fun _ => lEdit (by simp) _)

theorem list_run (full dbl : Bool) (dflt : α) (ops : List (Model.LL.Op α)) (A : Ideal α) :
    specRun full dbl dflt ops A = runWith (specStep full dbl dflt) ops A := by
  induction ops generalizing A with
  | nil => rfl
  | cons op ops ih =>
    simp only [specRun, runWith, ih]
    cases specStep full dbl dflt op A with
    | none => rfl
    | some p => cases h : runWith (specStep full dbl dflt) ops p.2 <;> simp only [h]

end lists

section strings
open Verif.Spec.BStr
open Verif.Model.BStr (Enc)

theorem string_framed (full lenient : Bool) (enc : Enc) (op : Model.BStr.Op) :
    Framed (writes op) (reads op) (specStep full lenient enc op) := by
  cases op <;> simp only [writes, reads] <;> unfold specStep <;> dsimp only
  case newAlloc i a =>
    exact Framed.var (W := [i]) (R := []) (j := i) (by simp) (g := fun (o : Option (List UInt8)) (A : Ideal) => if o = none then some (Model.BStr.Res.unit, put A i (some [])) else none) fun _ =>
      Framed.cond _ (Framed.put (by simp) _ _) Framed.none
  case newLit i lit a =>
    exact Framed.var (W := [i]) (R := []) (j := i) (by simp) (g := fun (o : Option (List UInt8)) (A : Ideal) => if o = none ∧ lit ≠ [] then some (Model.BStr.Res.unit, put A i (some lit)) else none) fun _ =>
      Framed.cond _ (Framed.put (by simp) _ _) Framed.none
  case newCopy i j =>
    refine Framed.var (W := [i]) (R := [j]) (j := i) (by simp) (g := fun (o : Option (List UInt8)) (A : Ideal) => match o, A j with
      | none, some ys => some (Model.BStr.Res.unit, put A i (some ys)) | _, _ => none) fun o => ?_
    refine Framed.var (W := [i]) (R := [j]) (j := j) (by simp) (g := fun (p : Option (List UInt8)) (A : Ideal) => match o, p with
      | none, some ys => some (Model.BStr.Res.unit, put A i (some ys)) | _, _ => none) fun p => ?_
    cases o <;> cases p <;> dsimp only
    case none.some => exact Framed.put (by simp) _ _
    all_goals exact Framed.none
  case newMove i j =>
    refine Framed.var (W := [i,j]) (R := []) (j := i) (by simp) (g := fun (o : Option (List UInt8)) (A : Ideal) => match o, A j with
      | none, some ys => if full || lenient then some (Model.BStr.Res.unit, put (put A i (some ys)) j (some [])) else none | _, _ => none) fun o => ?_
    refine Framed.var (W := [i,j]) (R := []) (j := j) (by simp) (g := fun (p : Option (List UInt8)) (A : Ideal) => match o, p with
      | none, some ys => if full || lenient then some (Model.BStr.Res.unit, put (put A i (some ys)) j (some [])) else none | _, _ => none) fun p => ?_
    cases o <;> cases p <;> dsimp only
    case none.some => exact Framed.cond _ (Framed.put2 (by simp) (by simp) _ _ _) Framed.none
    all_goals exact Framed.none
  case copyAssign i j =>
    refine Framed.var (W := [i]) (R := [j]) (j := i) (by simp) (g := fun (o : Option (List UInt8)) (A : Ideal) => match o, A j with
      | some xs, some ys =>
        if full || i == j || (lenient && not16 xs ys) || (decide (16 < ys.length) && decide (ys.length ≤ xs.length)) then
          some (Model.BStr.Res.unit, put A i (some ys)) else none
      | _, _ => none) fun o => ?_
    refine Framed.var (W := [i]) (R := [j]) (j := j) (by simp) (g := fun (p : Option (List UInt8)) (A : Ideal) => match o, p with
      | some xs, some ys =>
        if full || i == j || (lenient && not16 xs ys) || (decide (16 < ys.length) && decide (ys.length ≤ xs.length)) then
          some (Model.BStr.Res.unit, put A i (some ys)) else none
      | _, _ => none) fun p => ?_
    cases o <;> cases p <;> dsimp only
    case some.some => exact Framed.cond _ (Framed.put (by simp) _ _) Framed.none
    all_goals exact Framed.none
  case moveAssign i j =>
    refine Framed.var (W := [i,j]) (R := []) (j := i) (by simp) (g := fun (o : Option (List UInt8)) (A : Ideal) => match o, A j with
      | some xs, some ys => if i = j then some (Model.BStr.Res.unit, A)
        else if full || (lenient && not16 xs ys) then some (Model.BStr.Res.unit, put (put A i (some ys)) j (some [])) else none
      | _, _ => none) fun o => ?_
    refine Framed.var (W := [i,j]) (R := []) (j := j) (by simp) (g := fun (p : Option (List UInt8)) (A : Ideal) => match o, p with
      | some xs, some ys => if i = j then some (Model.BStr.Res.unit, A)
        else if full || (lenient && not16 xs ys) then some (Model.BStr.Res.unit, put (put A i (some ys)) j (some [])) else none
      | _, _ => none) fun p => ?_
    cases o <;> cases p <;> dsimp only
    case some.some => exact Framed.cond _ (Framed.pure _) (Framed.cond _ (Framed.put2 (by simp) (by simp) _ _ _) Framed.none)
    all_goals exact Framed.none
  case drop i =>
    refine Framed.var (W := [i]) (R := []) (j := i) (by simp) (g := fun (o : Option (List UInt8)) (A : Ideal) => match o with | some _ => some (Model.BStr.Res.unit, put A i none) | none => none) fun o => ?_
    cases o <;> dsimp only
    · exact Framed.none
    · exact Framed.put (by simp) _ _
  case pushBack i ch =>
    refine Framed.var (W := [i]) (R := []) (j := i) (by simp) (g := fun (o : Option (List UInt8)) (A : Ideal) => match o with | some xs => some (Model.BStr.Res.unit, put A i (some (xs ++ ch))) | none => none) fun o => ?_
    cases o <;> dsimp only
    · exact Framed.none
    · exact Framed.put (by simp) _ _
  case insert i ch idx =>
    refine Framed.var (W := [i]) (R := []) (j := i) (by simp) (g := fun (o : Option (List UInt8)) (A : Ideal) => match o with
      | some xs => if enc = .utf8 ∧ boundary xs idx then some (Model.BStr.Res.unit, put A i (some (insertAt xs ch idx))) else none | none => none) fun o => ?_
    cases o <;> dsimp only
    · exact Framed.none
    · exact Framed.cond _ (Framed.put (by simp) _ _) Framed.none
  case popBack i =>
    refine Framed.var (W := [i]) (R := []) (j := i) (by simp) (g := fun (o : Option (List UInt8)) (A : Ideal) => match o with
      | some xs => if enc = .ascii ∧ (full || decide (xs.length ≠ 17)) then
          some (Model.BStr.Res.opt (xs.getLast?.map fun b => [b]), put A i (some xs.dropLast)) else none
      | none => none) fun o => ?_
    cases o <;> dsimp only
    · exact Framed.none
    · exact Framed.cond _ (Framed.put (by simp) _ _) Framed.none
  case size i =>
    refine Framed.var (W := []) (R := [i]) (j := i) (by simp) (g := fun (o : Option (List UInt8)) (A : Ideal) => match o with | some xs => some (Model.BStr.Res.num xs.length, A) | none => none) fun o => ?_
    cases o <;> dsimp only
    · exact Framed.none
    · exact Framed.pure _
  case isCharBoundary i idx =>
    refine Framed.var (W := []) (R := [i]) (j := i) (by simp) (g := fun (o : Option (List UInt8)) (A : Ideal) => match o with
      | some xs => if enc = .utf8 then some (Model.BStr.Res.bool (boundary xs idx), A) else none | none => none) fun o => ?_
    cases o <;> dsimp only
    · exact Framed.none
    · exact Framed.cond _ (Framed.pure _) Framed.none
  case chars i =>
    refine Framed.var (W := []) (R := [i]) (j := i) (by simp) (g := fun (o : Option (List UInt8)) (A : Ideal) => match o with
      | some xs => if enc = .ascii then some (Model.BStr.Res.chars (xs.map fun b => [b]), A) else none | none => none) fun o => ?_
    cases o <;> dsimp only
    · exact Framed.none
    · exact Framed.cond _ (Framed.pure _) Framed.none
  case print i =>
    refine Framed.var (W := []) (R := [i]) (j := i) (by simp) (g := fun (o : Option (List UInt8)) (A : Ideal) => match o with
      | some xs => if full || decide (xs.length ≠ 16) then some (Model.BStr.Res.text xs, A) else none | none => none) fun o => ?_
    cases o <;> dsimp only
    · exact Framed.none
    · exact Framed.cond _ (Framed.pure _) Framed.none

theorem string_run (full lenient : Bool) (enc : Enc) (ops : List Model.BStr.Op) (A : Ideal) :
    specRun full lenient enc ops A = runWith (specStep full lenient enc) ops A := by
  induction ops generalizing A with
  | nil => rfl
  | cons op ops ih =>
    simp only [specRun, runWith, ih]
    cases specStep full lenient enc op A with
    | none => rfl
    | some p => cases h : runWith (specStep full lenient enc) ops p.2 <;> simp only [h]

end strings

end Verif.Proof.Threads
