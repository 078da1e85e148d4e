import Verif.Spec.Array
import Verif.Props.Array
namespace Verif.Proof.Arr
open Verif Verif.Model.Array Verif.Spec.Arr

variable {α : Type}

theorem values_some {c : List (Option α)} {vs : List α} (h : values c = some vs) : c = vs.map some := by
  induction c generalizing vs with
  | nil => simp [values] at h; subst h; rfl
  | cons a c ih =>
    cases a with
    | none => simp [values] at h
    | some v =>
      simp only [values] at h
      split at h <;> simp at h
      subst h; rename_i h1; simp [ih h1]

theorem readCell_map (vs : List α) (p : Nat) (h : p < vs.length) : readCell (vs.map some) p = .ok vs[p] := by
  simp [readCell, h]

theorem copyLoop_ok (vs : List α) : ∀ (n p : Nat) (dst : Cells α), p + n = vs.length → dst.length = vs.length →
    copyLoop (vs.map some) p n dst = .ok (dst.take p ++ (vs.drop p).map some) := by
  intro n
  induction n with
  | zero =>
    intro p dst h hd
    have : dst.take p = dst := List.take_of_length_le (by omega)
    simp [copyLoop, this, show vs.drop p = [] from List.drop_eq_nil_of_le (by omega)]
  | succ n ih =>
    intro p dst h hd
    have hp : p < vs.length := by omega
    simp only [copyLoop, readCell_map vs p hp, Out.bind_ok, writeCell, if_pos (show p < dst.length by omega)]
    rw [ih (p + 1) _ (by omega) (by simpa using hd)]
    congr 1
    rw [List.take_succ_eq_append_getElem (by simp; omega)]
    simp [List.take_set_of_le, -List.map_drop]
    rw [List.drop_eq_getElem_cons hp]; rfl

theorem copyLoop_all (vs : List α) (dst : Cells α) (h : dst.length = vs.length) :
    copyLoop (vs.map some) 0 vs.length dst = .ok (vs.map some) := by
  rw [copyLoop_ok vs _ 0 dst (by simp) h]; simp

theorem moveLoop_ok (E : Elem α) (vs : List α) : ∀ (n p : Nat) (src dst : Cells α), p + n = vs.length → dst.length = vs.length →
    src.length = vs.length → src.drop p = (vs.drop p).map some →
    moveLoop E p n src dst = .ok (src.take p ++ (vs.drop p).map (fun v => some (E.mv v)), dst.take p ++ (vs.drop p).map some) := by
  intro n
  induction n with
  | zero =>
    intro p src dst h hd hs hx
    have e : vs.drop p = [] := List.drop_eq_nil_of_le (by omega)
    simp [moveLoop, e, List.take_of_length_le (show dst.length ≤ p by omega), List.take_of_length_le (show src.length ≤ p by omega)]
  | succ n ih =>
    intro p src dst h hd hs hx
    have hp : p < vs.length := by omega
    have hps : p < src.length := by omega
    rw [List.drop_eq_getElem_cons hp, List.drop_eq_getElem_cons hps] at hx
    simp only [List.map_cons, List.cons.injEq] at hx
    have hr : readCell src p = .ok vs[p] := by
      simp [readCell, List.getElem?_eq_getElem hps, hx.1]
    simp only [moveLoop, moveCell, hr, Out.bind_ok, Out.pure_eq, writeCell, if_pos (show p < dst.length by omega)]
    rw [ih (p + 1) _ _ (by omega) (by simpa using hd) (by simpa using hs)
      (by rw [List.drop_set_of_lt (by omega)]; exact hx.2)]
    congr 1
    rw [List.take_succ_eq_append_getElem (by simp; omega), List.take_succ_eq_append_getElem (by simp; omega)]
    simp [List.take_set_of_le, -List.map_drop]
    rw [List.drop_eq_getElem_cons hp]; exact ⟨rfl, rfl⟩

theorem moveLoop_all (E : Elem α) (vs : List α) (dst : Cells α) (h : dst.length = vs.length) :
    moveLoop E 0 vs.length (vs.map some) dst = .ok (vs.map (fun v => some (E.mv v)), vs.map some) := by
  rw [moveLoop_ok E vs _ 0 _ dst (by simp) h (by simp) (by simp)]; simp

theorem readLoop_ok (vs : List α) : ∀ (n p : Nat), p + n = vs.length → readLoop (vs.map some) p n = .ok (vs.drop p) := by
  intro n
  induction n with
  | zero => intro p h; simp [readLoop, List.drop_eq_nil_of_le (show vs.length ≤ p by omega)]
  | succ n ih =>
    intro p h
    have hp : p < vs.length := by omega
    rw [List.drop_eq_getElem_cons hp]
    simp [readLoop, readCell_map vs p hp, ih (p + 1) (by omega)]

theorem eqLoop_ok (ne : α → α → Bool) (xs ys : List α) (h : xs.length = ys.length) :
    eqLoop ne (xs.map some) (ys.map some) = .ok ((xs.zip ys).all fun p => !ne p.1 p.2) := by
  induction xs generalizing ys with
  | nil => cases ys with | nil => rfl | cons => simp at h
  | cons x xs ih =>
    cases ys with
    | nil => simp at h
    | cons y ys =>
      simp at h
      simp only [List.map_cons, eqLoop, ih ys h]
      cases hne : ne x y <;> simp [hne]

/-- An iterator of an `N` element array with `vs` to come; `ps` are the cells passed. -/
def mkIt (ps vs : List α) : ArrayIter α := ⟨(ps ++ vs).map some, ⟨ps.length, (ps ++ vs).length⟩⟩

theorem next_nil (E : Elem α) (ps : List α) : (mkIt ps []).next E = .ok (none, mkIt ps []) := by
  simp [ArrayIter.next, mkIt, Model.Range.Range.next]

theorem next_cons (E : Elem α) (ps vs : List α) (v : α) (h : (ps ++ v :: vs).length < 18446744073709551616) :
    (mkIt ps (v :: vs)).next E = .ok (some v, mkIt (ps ++ [E.mv v]) vs) := by
  simp at h
  simp only [ArrayIter.next, mkIt, Model.Range.Range.next]
  have h1 : ¬ ((ps.length : Int) = ((ps ++ v :: vs).length : Nat)) := by simp; omega
  simp only [h1, if_false, Model.Range.IntTy.inc]
  rw [if_pos (by simp [Model.Range.usizeTy]; omega)]
  simp [moveCell, readCell]

def ItOk (o : Option (Nat × ArrayIter α)) : Option (Nat × List α) → Prop
  | none => o = none
  | some (N, vs) => ∃ ps, o = some (N, mkIt ps vs) ∧ ps.length + vs.length = N ∧ N < 18446744073709551616

structure R (A : Ideal α) (w : World α) : Prop where
  arr : ∀ i, w.arr i = (A.arr i).map fun c => (c.length, c)
  len : ∀ i c, A.arr i = some c → okLen c.length = true
  it : ∀ k, ItOk (w.it k) (A.it k)

def Agree (m : Out (Ret α × World α)) (s : Out (Ret α × Ideal α)) : Prop :=
  match s with
  | .ok (r, A') => ∃ w', m = .ok (r, w') ∧ R A' w'
  | .panic => m = .panic
  | _ => False

theorem getArr_run {A : Ideal α} {w : World α} (hR : R A w) {i : Nat} {c : List (Option α)} (h : A.arr i = some c) :
    getArr i w = .ok ((c.length, c), w) := by simp [getArr, hR.arr i, h]

theorem fresh_run {A : Ideal α} {w : World α} (hR : R A w) {i : Nat} (h : A.arr i = none) : fresh i w = .ok ((), w) := by
  simp [fresh, hR.arr i, h]

theorem freshIt_run {A : Ideal α} {w : World α} (hR : R A w) {k : Nat} (h : A.it k = none) : freshIt k w = .ok ((), w) := by
  have := hR.it k
  rw [h] at this
  simp [freshIt, show w.it k = none from this]

theorem getIt_run {A : Ideal α} {w : World α} (hR : R A w) {k N : Nat} {vs : List α} (h : A.it k = some (N, vs)) :
    ∃ ps, getIt k w = .ok ((N, mkIt ps vs), w) ∧ ps.length + vs.length = N ∧ N < 18446744073709551616 := by
  have := hR.it k
  rw [h] at this
  obtain ⟨ps, h1, h2⟩ := this
  exact ⟨ps, by simp [getIt, h1], h2⟩

theorem R_setArr {A : Ideal α} {w : World α} (hR : R A w) (i : Nat) (c : List (Option α)) (h : okLen c.length = true) :
    R (A.setArr i (some c)) { w with arr := fun k => if k = i then some (c.length, c) else w.arr k } where
  arr k := by
    by_cases hk : k = i
    · simp [Ideal.setArr, hk]
    · simp [Ideal.setArr, hk, hR.arr k]
  len k d hd := by
    by_cases hk : k = i
    · simp [Ideal.setArr, hk] at hd; subst hd; exact h
    · simp [Ideal.setArr, hk] at hd; exact hR.len k d hd
  it := hR.it

theorem R_setIt {A : Ideal α} {w : World α} (hR : R A w) (k : Nat) (ps vs : List α)
    (h : (ps ++ vs).length < 18446744073709551616) :
    R (A.setIt k (some ((ps ++ vs).length, vs)))
      { w with it := fun l => if l = k then some ((ps ++ vs).length, mkIt ps vs) else w.it l } where
  arr := hR.arr
  len := hR.len
  it l := by
    by_cases hl : l = k
    · simp only [Ideal.setIt, hl, if_true]; exact ⟨ps, rfl, by simp, h⟩
    · simp only [Ideal.setIt, hl, if_false]; exact hR.it l

theorem step_ok (E : Elem α) (ne : α → α → Bool) (op : Op α) (A : Ideal α) (w : World α) (hR : R A w)
    (s : Out (Ret α × Ideal α)) (hs : specStep false E ne op A = some s) : Agree (step E ne op w) s := by
  cases op with
  | newDefault i N =>
    simp only [specStep] at hs
    split at hs <;> simp at hs
    subst hs; rename_i h
    simp only [Option.isNone_iff_eq_none] at h
    refine ⟨_, by simp [step, fresh_run hR h.2, setArr]; rfl, ?_⟩
    simpa using R_setArr hR i (List.replicate N E.dflt) (by simpa using h.1)
  | newZero i N =>
    simp only [specStep] at hs
    split at hs <;> simp at hs
    subst hs; rename_i h
    simp only [Option.isNone_iff_eq_none] at h
    refine ⟨_, by simp [step, fresh_run hR h.2, setArr]; rfl, ?_⟩
    simpa using R_setArr hR i (List.replicate N (some E.zero)) (by simpa using h.1)
  | newList i N xs =>
    simp only [specStep] at hs
    split at hs <;> try (simp at hs)
    rename_i h
    simp only [Option.isNone_iff_eq_none] at h
    have hN : 0 < N := by have := h.1; simp [okLen] at this; omega
    have e := Props.C58_init_list E N hN xs
    split at hs <;> simp at hs <;> rename_i hlt <;> subst hs
    · rw [if_pos hlt] at e
      simp [Agree, step, fresh_run hR h.2, lift, e]
    · rw [if_neg hlt] at e
      refine ⟨_, by simp [step, fresh_run hR h.2, lift, e, setArr]; rfl, ?_⟩
      have hl : (xs.map some ++ List.replicate (N - xs.length) E.dflt).length = N := by simp; omega
      have := R_setArr hR i (xs.map some ++ List.replicate (N - xs.length) E.dflt) (by rw [hl]; exact h.1)
      rw [hl] at this
      exact this
  | newRaw i xs =>
    simp only [specStep] at hs
    split at hs <;> simp at hs
    subst hs; rename_i h
    simp only [Option.isNone_iff_eq_none] at h
    refine ⟨_, by simp [step, fresh_run hR h.2, setArr, ofRaw]; rfl, ?_⟩
    simpa using R_setArr hR i (xs.map some) (by simpa using h.1)
  | newCopy i j =>
    simp only [specStep] at hs
    split at hs <;> try (simp at hs)
    rename_i c hi hj
    split at hs <;> simp at hs
    subst hs; rename_i vs hv
    have hc := values_some hv
    subst hc
    have hl := hR.len j _ hj
    refine ⟨_, by simp [step, fresh_run hR hi, getArr_run hR hj, lift, copyCtor, copyLoop_all vs, setArr]; rfl, ?_⟩
    simpa using R_setArr hR i (vs.map some) hl
  | newMove i j =>
    simp only [specStep] at hs
    split at hs <;> try (simp at hs)
    rename_i c hi hj
    split at hs <;> simp at hs
    subst hs; rename_i vs hv
    have hc := values_some hv
    subst hc
    have hl := hR.len j _ hj
    refine ⟨_, by simp [step, fresh_run hR hi, getArr_run hR hj, lift, moveCtor, moveLoop_all E vs, setArr]; rfl, ?_⟩
    have h1 := R_setArr hR j (vs.map fun v => some (E.mv v)) (by simpa using hl)
    simpa using R_setArr h1 i (vs.map some) hl
  | copyAssign i j =>
    simp only [specStep] at hs
    split at hs <;> try (simp at hs)
    rename_i d c hi hj
    obtain ⟨hdc, hs⟩ := hs
    split at hs
    · rename_i hij; simp at hs; subst hs
      exact ⟨w, by simp [step, getArr_run hR hi, getArr_run hR hj, hdc, hij], hR⟩
    · rename_i hij
      split at hs <;> simp at hs
      subst hs; rename_i vs hv
      have hc := values_some hv
      subst hc
      have hl := hR.len j _ hj
      simp at hdc
      refine ⟨_, by simp [step, getArr_run hR hi, getArr_run hR hj, hij, hdc, lift, copyLoop_all vs d hdc, setArr]; rfl, ?_⟩
      simpa using R_setArr hR i (vs.map some) hl
  | moveAssign i j =>
    simp only [specStep] at hs
    split at hs <;> try (simp at hs)
    rename_i d c hi hj
    obtain ⟨hdc, hs⟩ := hs
    split at hs
    · rename_i hij; simp at hs; subst hs
      exact ⟨w, by simp [step, getArr_run hR hi, getArr_run hR hj, hdc, hij], hR⟩
    · rename_i hij
      split at hs <;> simp at hs
      subst hs; rename_i vs hv
      have hc := values_some hv
      subst hc
      have hl := hR.len j _ hj
      simp at hdc
      refine ⟨_, by simp [step, getArr_run hR hi, getArr_run hR hj, hij, hdc, lift, moveLoop_all E vs d hdc, setArr]; rfl, ?_⟩
      have h1 := R_setArr hR j (vs.map fun v => some (E.mv v)) (by simpa using hl)
      simpa using R_setArr h1 i (vs.map some) hl
  | get i p =>
    simp only [specStep] at hs
    split at hs <;> try (simp at hs)
    rename_i c hi
    split at hs <;> simp at hs <;> subst hs <;> rename_i hp
    · simp at hp
      simp [Agree, step, getArr_run hR hi, lift, index, hp]
    · have hlt := (List.getElem?_eq_some_iff.1 hp).1
      exact ⟨w, by simp [step, getArr_run hR hi, lift, index, Nat.not_le.2 hlt, readCell, hp], hR⟩
  | set i p x =>
    simp only [specStep] at hs
    split at hs <;> try (simp at hs)
    rename_i c hi
    split at hs <;> simp at hs <;> subst hs <;> rename_i hp
    · refine ⟨_, by simp [step, getArr_run hR hi, lift, index, Nat.not_le.2 hp, writeCell, hp, setArr]; rfl, ?_⟩
      simpa using R_setArr hR i (c.set p (some x)) (by simpa using hR.len i c hi)
    · simp at hp
      simp [Agree, step, getArr_run hR hi, lift, index, hp]
  | size i =>
    simp only [specStep] at hs
    split at hs <;> simp at hs
    subst hs; rename_i c hi
    exact ⟨w, by simp [step, getArr_run hR hi], hR⟩
  | eq i j =>
    simp only [specStep] at hs
    split at hs <;> try (simp at hs)
    rename_i c d hi hj
    split at hs <;> try (simp at hs)
    rename_i xs ys hx hy
    obtain ⟨hl, rfl⟩ := hs
    have hc := values_some hx; subst hc
    have hd := values_some hy; subst hd
    exact ⟨w, by simp [step, getArr_run hR hi, getArr_run hR hj, hl, lift, eqLoop_ok ne xs ys hl], hR⟩
  | forEach i =>
    simp only [specStep] at hs
    split at hs <;> try (simp at hs)
    rename_i c hi
    split at hs <;> simp at hs
    subst hs; rename_i vs hv
    have hc := values_some hv; subst hc
    exact ⟨w, by simp [step, getArr_run hR hi, lift, readLoop_ok vs vs.length 0], hR⟩
  | drop i =>
    simp only [specStep] at hs
    split at hs <;> simp at hs
    subst hs; rename_i c hi
    refine ⟨_, by simp [step, getArr_run hR hi, dropArr]; rfl, ?_⟩
    constructor
    · intro k
      by_cases hk : k = i
      · simp [Ideal.setArr, hk]
      · simp [Ideal.setArr, hk, hR.arr k]
    · intro k d hd
      by_cases hk : k = i
      · simp [Ideal.setArr, hk] at hd
      · simp [Ideal.setArr, hk] at hd; exact hR.len k d hd
    · exact hR.it
  | intoIter k i =>
    simp only [specStep] at hs
    split at hs <;> try (simp at hs)
    rename_i c hk hi
    split at hs <;> simp at hs
    subst hs; rename_i vs hv
    have hc := values_some hv; subst hc
    have hl := hR.len i _ hi
    have hm := Props.moveAll_ok E [] [] _ vs rfl
    simp at hm
    refine ⟨_, by simp [step, freshIt_run hR hk, getArr_run hR hi, lift, Model.Array.intoIter, hm, setArr, setIt]; rfl, ?_⟩
    have h1 := R_setArr hR i (vs.map fun v => some (E.mv v)) (by simpa using hl)
    have h2 := R_setIt h1 k [] vs (by simp [okLen] at hl; simpa using hl.2)
    simpa [mkIt] using h2
  | next k =>
    simp only [specStep] at hs
    split at hs <;> simp at hs <;> subst hs
    · rename_i N hk
      obtain ⟨ps, h1, h2, h3⟩ := getIt_run hR hk
      refine ⟨_, by simp [step, h1, lift, next_nil, setIt]; rfl, ?_⟩
      refine ⟨hR.arr, hR.len, fun l => ?_⟩
      by_cases hl : l = k
      · subst hl; simp only [hk, if_true]; exact ⟨ps, rfl, h2, h3⟩
      · simp only [hl, if_false]; exact hR.it l
    · rename_i N v vs hk
      obtain ⟨ps, h1, h2, h3⟩ := getIt_run hR hk
      subst h2
      refine ⟨_, by simp [step, h1, lift, next_cons E ps vs v (by simpa using h3), setIt]; rfl, ?_⟩
      have := R_setIt hR k (ps ++ [E.mv v]) vs (by simp at h3 ⊢; omega)
      have hl : (ps ++ [E.mv v] ++ vs).length = ps.length + (vs.length + 1) := by simp
      rw [hl] at this
      simpa using this
  | isEmpty k =>
    simp only [specStep] at hs
    split at hs <;> simp at hs
    subst hs; rename_i N vs hk
    obtain ⟨ps, h1, h2, h3⟩ := getIt_run hR hk
    refine ⟨w, ?_, hR⟩
    simp [step, h1, ArrayIter.isEmpty, Model.Range.Range.isEmpty, mkIt]
    cases vs <;> simp; omega
  | itCopy k l =>
    simp only [specStep] at hs
    split at hs <;> simp at hs
    subst hs; rename_i s hk hl
    obtain ⟨N, vs⟩ := s
    obtain ⟨ps, h1, h2, h3⟩ := getIt_run hR hl
    subst h2
    have e := copyLoop_all (ps ++ vs) (List.replicate (ps.length + vs.length) none) (by simp)
    simp only [List.length_append] at e
    refine ⟨_, by
      simp only [step, Prog.bind_run, freshIt_run hR hk, Out.bind_ok, h1, lift, ArrayIter.copyCtor, copyCtor, mkIt, e, setIt,
        Out.pure_eq, Prog.pure_run]
      rfl, ?_⟩
    have := R_setIt hR k ps vs (by simpa using h3)
    simpa [mkIt] using this
  | itMove k l =>
    simp only [specStep] at hs
    split at hs <;> simp at hs
    subst hs; rename_i N vs hk hl
    obtain ⟨ps, h1, h2, h3⟩ := getIt_run hR hl
    subst h2
    have e := moveLoop_all E (ps ++ vs) (List.replicate (ps.length + vs.length) E.dflt) (by simp)
    simp only [List.length_append] at e
    refine ⟨_, by
      simp only [step, Prog.bind_run, freshIt_run hR hk, Out.bind_ok, h1, lift, ArrayIter.moveCtor, mkIt, e, setIt,
        Out.pure_eq, Prog.pure_run]
      rfl, ?_⟩
    have h4 := R_setIt hR l (ps.map E.mv) (vs.map E.mv) (by simpa using h3)
    have := R_setIt h4 k ps vs (by simpa using h3)
    simpa [mkIt, Function.comp_def] using this
  | itCopyAssign k l =>
    simp only [specStep] at hs
    split at hs <;> try (simp at hs)
    rename_i N ts N' vs hk hl
    obtain ⟨rfl, hs⟩ := hs
    simp only [only, Bool.false_or] at hs
    split at hs <;> simp at hs
    subst hs; rename_i hor
    simp at hor
    obtain ⟨ps, h1, h2, h3⟩ := getIt_run hR hl
    obtain ⟨qs, g1, g2, g3⟩ := getIt_run hR hk
    by_cases hkl : k = l
    · subst hkl
      refine ⟨w, by simp [step, h1], ?_⟩
      refine ⟨hR.arr, hR.len, fun m => ?_⟩
      by_cases hm : m = k
      · subst hm; have := hR.it m; rw [hl] at this; simpa [Ideal.setIt] using this
      · simp only [Ideal.setIt, hm, if_false]; exact hR.it m
    · have hlen : ts.length = vs.length := by rcases hor with h | h; exact absurd h hkl; exact h
      have hq : qs.length = ps.length := by omega
      have e := copyLoop_all (ps ++ vs) ((qs ++ ts).map some) (by simp; omega)
      simp only [List.length_append, h2] at e
      refine ⟨_, by
        simp only [step, Prog.bind_run, Out.bind_ok, h1, g1, lift, ArrayIter.copyAssign, mkIt, e, setIt, hkl, if_false,
          ne_eq, not_true_eq_false, Out.pure_eq, Prog.pure_run]
        rfl, ?_⟩
      have := R_setIt hR k ps vs (by simp; omega)
      simp only [List.length_append, h2, mkIt] at this
      simpa [hlen, hq, h2, show ps.length + vs.length = N from h2] using this
  | itMoveAssign k l =>
    simp only [specStep] at hs
    split at hs <;> try (simp at hs)
    rename_i N ts N' vs hk hl
    obtain ⟨rfl, hs⟩ := hs
    simp only [only, Bool.false_or] at hs
    split at hs <;> simp at hs
    subst hs; rename_i hkl
    subst hkl
    obtain ⟨ps, h1, h2, h3⟩ := getIt_run hR hl
    exact ⟨w, by simp [step, h1], hR⟩
  | itDrop k =>
    simp only [specStep] at hs
    split at hs <;> simp at hs
    subst hs; rename_i s hk
    obtain ⟨N, vs⟩ := s
    obtain ⟨ps, h1, h2, h3⟩ := getIt_run hR hk
    refine ⟨_, by simp [step, h1, dropIt]; rfl, ?_⟩
    refine ⟨hR.arr, hR.len, fun m => ?_⟩
    by_cases hm : m = k
    · simp [Ideal.setIt, hm, ItOk]
    · simp only [Ideal.setIt, hm, if_false]; exact hR.it m

theorem run_ok (E : Elem α) (ne : α → α → Bool) (ops : List (Op α)) (A : Ideal α) (w : World α) (hR : R A w) :
    match specRun false E ne ops A with
    | some (.ok (rs, A')) => ∃ w', run E ne ops w = .ok (rs, w') ∧ R A' w'
    | some .panic => run E ne ops w = .panic
    | _ => True := by
  induction ops generalizing A w with
  | nil => exact ⟨w, rfl, hR⟩
  | cons op ops ih =>
    simp only [specRun]
    cases hs : specStep false E ne op A with
    | none => trivial
    | some s =>
      have h := step_ok E ne op A w hR s hs
      cases s with
      | ok p =>
        obtain ⟨r, A'⟩ := p
        obtain ⟨w', h1, h2⟩ := h
        have := ih A' w' h2
        simp only []
        cases hr : specRun false E ne ops A' with
        | none => trivial
        | some q =>
          rw [hr] at this
          cases q with
          | ok q =>
            obtain ⟨w'', h3, h4⟩ := this
            exact ⟨w'', by simp [run, h1, h3], h4⟩
          | panic => simp only [] at this ⊢; simp [run, h1, this]
          | _ => trivial
      | panic => simp only [Agree] at h; simp [run, h]
      | _ => trivial

end Verif.Proof.Arr
