import Verif.Proof.VectorFlow
import Verif.Proof.VectorIter
/-! # What each call does to the storage of the vectors -/
namespace Verif.Proof.Vector
open Verif Verif.Model.Mem Verif.Model.Vector Verif.Proof.Mem
open Verif.Spec.Vector hiding upd

variable {α β γ : Type} {ty : ElemTy α}

def Moved (A : Ideal α) (op : Op α) (w w' : World α) : Prop :=
  (∀ i v, w.vars i = some v → match whereTo A op i with
    | some j => ∃ v', w'.vars j = some v' ∧ v'.ptr = v.ptr ∧ v'.cap = v.cap
    | none => ∀ j v', w'.vars j = some v' → v'.ptr = v.ptr → v.ptr = none) ∧
  (∀ j v' b, w'.vars j = some v' → v'.ptr = some b → b < w.heap.next → ∃ i v, w.vars i = some v ∧ v.ptr = some b)

theorem Inv.ptr_lt {A : Ideal α} {w : World α} (I : Inv ty A w) {i : Nat} {v : Vec} (hv : w.vars i = some v) {b : Nat}
    (hb : v.ptr = some b) : b < w.heap.next := by
  obtain ⟨a, -, r, -⟩ := I.rep_of hv
  obtain ⟨blk, h⟩ := r.block hb
  exact I.bal.lt h

theorem moved_same {A : Ideal α} {op : Op α} {w w' : World α} (hw : w'.vars = w.vars) (ht : ∀ k, whereTo A op k = some k) : Moved A op w w' := by
  refine ⟨fun i v hv => ?_, fun j v' b hv hb _ => ⟨j, v', by rw [← hw]; exact hv, hb⟩⟩
  rw [ht]
  exact ⟨v, by rw [hw]; exact hv, rfl, rfl⟩

theorem moved_one {A : Ideal α} {op : Op α} {w w' : World α} (I : Inv ty A w) {i : Nat} {v v' : Vec} (hv : w.vars i = some v)
    (hw : w'.vars = bindVar w.vars i (some v')) (c : Bool) (ht : ∀ k, whereTo A op k = lostIf i c k)
    (keep : c = false → v'.ptr = v.ptr ∧ v'.cap = v.cap) (lost : c = true → ∃ b, w.heap.next ≤ b ∧ v'.ptr = some b) : Moved A op w w' := by
  refine ⟨fun k u hu => ?_, fun j u b hu hb hlt => ?_⟩
  · rw [ht]
    unfold lostIf
    by_cases hk : k = i
    · subst hk
      rw [hv] at hu; cases hu
      cases c with
      | false => simp only [Bool.false_eq_true, and_false, if_false]; exact ⟨v', by rw [hw, bindVar_same], keep rfl⟩
      | true =>
        simp only [and_self, if_true]
        intro j u hj hp
        obtain ⟨b, hb, e⟩ := lost rfl
        by_cases hji : j = k
        · subst hji
          rw [hw, bindVar_same] at hj; cases hj
          have := I.ptr_lt hv (hp.symm.trans e)
          omega
        · rw [hw, bindVar_ne _ _ hji] at hj
          cases hq : v.ptr with
          | none => rfl
          | some b' => exact (I.sep k j v u b' (Ne.symm hji) hv hj hq (hp.trans hq)).elim
    · simp only [hk, false_and, if_false]
      exact ⟨u, by rw [hw, bindVar_ne _ _ hk]; exact hu, rfl, rfl⟩
  · by_cases hji : j = i
    · subst hji
      rw [hw, bindVar_same] at hu; cases hu
      cases c with
      | false => exact ⟨j, v, hv, (keep rfl).1.symm.trans hb⟩
      | true =>
        obtain ⟨b', h1, h2⟩ := lost rfl
        rw [hb] at h2; cases h2; omega
    · rw [hw, bindVar_ne _ _ hji] at hu
      exact ⟨j, u, hu, hb⟩

theorem moved_create {A : Ideal α} {op : Op α} {w w' : World α} {i : Nat} {v' : Vec} (hn : w.vars i = none)
    (hw : w'.vars = bindVar w.vars i (some v')) (ht : ∀ k, whereTo A op k = some k)
    (hp : v'.ptr = none ∨ ∃ b, w.heap.next ≤ b ∧ v'.ptr = some b) : Moved A op w w' := by
  refine ⟨fun k u hu => ?_, fun j u b hu hb hlt => ?_⟩
  · rw [ht]
    refine ⟨u, ?_, rfl, rfl⟩
    rw [hw, bindVar_ne]
    · exact hu
    · rintro rfl; rw [hn] at hu; cases hu
  · by_cases hji : j = i
    · subst hji
      rw [hw, bindVar_same] at hu; cases hu
      rcases hp with h | ⟨b', h1, h2⟩
      · rw [h] at hb; cases hb
      · rw [hb] at h2; cases h2; omega
    · rw [hw, bindVar_ne _ _ hji] at hu
      exact ⟨j, u, hu, hb⟩

theorem moved_gone {A : Ideal α} {op : Op α} {w w' : World α} (I : Inv ty A w) {i : Nat} {o : Option Vec}
    (hw : w'.vars = bindVar w.vars i o) (ht : ∀ k, whereTo A op k = lostIf i true k) (ho : ∀ v', o = some v' → v'.ptr = none) :
    Moved A op w w' := by
  refine ⟨fun k u hu => ?_, fun j u b hu hb hlt => ?_⟩
  · rw [ht]
    unfold lostIf
    by_cases hk : k = i
    · subst hk
      simp only [and_self, if_true]
      intro j u' hj hp
      by_cases hji : j = k
      · subst hji
        rw [hw, bindVar_same] at hj
        rw [← hp]; exact ho _ hj
      · rw [hw, bindVar_ne _ _ hji] at hj
        cases hq : u.ptr with
        | none => rfl
        | some b' => exact (I.sep k j u u' b' (Ne.symm hji) hu hj hq (hp.trans hq)).elim
    · simp only [hk, false_and, if_false]
      exact ⟨u, by rw [hw, bindVar_ne _ _ hk]; exact hu, rfl, rfl⟩
  · by_cases hji : j = i
    · subst hji
      rw [hw, bindVar_same] at hu
      rw [ho _ hu] at hb; cases hb
    · rw [hw, bindVar_ne _ _ hji] at hu
      exact ⟨j, u, hu, hb⟩

/-! ## What a call leaves in the variables -/

theorem inHeap_inv {p : M α β} {w w' : World α} {b : β} (he : inHeap p w = .ok (b, w')) :
    w'.vars = w.vars ∧ p w.heap = .ok (b, w'.heap) := by
  unfold inHeap at he
  cases hq : p w.heap with
  | ok q => rw [hq] at he; cases he; exact ⟨rfl, rfl⟩
  | _ => rw [hq] at he; cases he

theorem create_inv {i : Nat} {f : M α Vec} {w : World α} {q : Res α × World α} (he : create i f w = .ok q) :
    ∃ v', f w.heap = .ok (v', q.2.heap) ∧ q.2.vars = bindVar w.vars i (some v') := by
  obtain ⟨v, w1, h1, h2⟩ := bind_inv he
  obtain ⟨e1, e2⟩ := inHeap_inv h1
  cases h2
  exact ⟨v, e2, by rw [← e1]⟩

theorem var_inv {i : Nat} {w w' : World α} {v : Vec} (he : var i w = .ok (v, w')) : w.vars i = some v ∧ w' = w := by
  unfold var at he
  split at he
  · cases he
  · rename_i u hu
    cases he
    exact ⟨hu, rfl⟩

theorem change_inv {i : Nat} {f : Vec → M α Vec} {w : World α} {q : Res α × World α} (he : change i f w = .ok q) :
    ∃ v v', w.vars i = some v ∧ f v w.heap = .ok (v', q.2.heap) ∧ q.2.vars = bindVar w.vars i (some v') := by
  obtain ⟨v, w1, h1, h2⟩ := bind_inv he
  obtain ⟨hv, rfl⟩ := var_inv h1
  obtain ⟨v', w2, h3, h4⟩ := bind_inv h2
  obtain ⟨e1, e2⟩ := inHeap_inv h3
  cases h4
  exact ⟨v, v', hv, e2, by rw [← e1]⟩

theorem change'_inv {i : Nat} {f : Vec → M α (Vec × Option Nat)} {w : World α} {q : Res α × World α} (he : change' i f w = .ok q) :
    ∃ v p, w.vars i = some v ∧ f v w.heap = .ok (p, q.2.heap) ∧ q.2.vars = bindVar w.vars i (some p.1) := by
  obtain ⟨v, w1, h1, h2⟩ := bind_inv he
  obtain ⟨hv, rfl⟩ := var_inv h1
  obtain ⟨v', w2, h3, h4⟩ := bind_inv h2
  obtain ⟨e1, e2⟩ := inHeap_inv h3
  cases h4
  exact ⟨v, v', hv, e2, by rw [← e1]⟩

theorem look_inv {i : Nat} {f : Vec → M α (Res α)} {w : World α} {q : Res α × World α} (he : look i f w = .ok q) :
    q.2.vars = w.vars := by
  obtain ⟨v, w1, h1, h2⟩ := bind_inv he
  obtain ⟨hv, rfl⟩ := var_inv h1
  exact (inHeap_inv h2).1

theorem put_same (A : Ideal α) (i : Nat) (x : Option (Var α)) : put A i x i = x := by simp [put]

/-- A member that keeps the block or takes a new one: which of the two is decided by the number of new blocks and the capacity. -/
theorem moved_flows {A A' : Ideal α} {op : Op α} {w w' : World α} (I : Inv ty A w) (I' : Inv ty A' w') {i : Nat} {v v' : Vec}
    (hv : w.vars i = some v) (hw : w'.vars = bindVar w.vars i (some v')) {a a' : Var α} (ha : A i = some a) (hA : A' = put A i (some a'))
    (fl : (v'.ptr = v.ptr ∧ v'.cap = v.cap) ∨ ∃ b, w.heap.next ≤ b ∧ v'.ptr = some b) (t : Tally w.heap w'.heap (work A op))
    (c : Bool) (ht : ∀ k, whereTo A op k = lostIf i c k) (keep : c = false → (work A op).blocks = 0) (lost : c = true → a'.cap ≠ a.cap) :
    Moved A op w w' := by
  have hv' : w'.vars i = some v' := by rw [hw, bindVar_same]
  refine moved_one I hv hw c ht (fun hc => ?_) fun hc => ?_
  · rcases fl with h | ⟨b, h1, h2⟩
    · exact h
    · have h3 := I'.ptr_lt hv' h2
      have h4 := t.2.2
      rw [keep hc] at h4
      omega
  · rcases fl with h | h
    · obtain ⟨x, hx, -, hxc, -⟩ := I.rep_of hv
      obtain ⟨y, hy, -, hyc, -⟩ := I'.rep_of hv'
      rw [ha] at hx; cases hx
      rw [hA, put_same] at hy; cases hy
      exact (lost hc (by rw [← hxc, ← hyc, h.2])).elim
    · exact h

theorem moved_change {A A' : Ideal α} {op : Op α} {w : World α} {q : Res α × World α} (I : Inv ty A w) (I' : Inv ty A' q.2) {i : Nat}
    {f : Vec → M α Vec} (he : change i f w = .ok q) (hf : ∀ v, w.vars i = some v → Flows id v (f v)) {a a' : Var α} (ha : A i = some a)
    (hA : A' = put A i (some a')) (t : Tally w.heap q.2.heap (work A op)) (c : Bool) (ht : ∀ k, whereTo A op k = lostIf i c k)
    (keep : c = false → (work A op).blocks = 0) (lost : c = true → a'.cap ≠ a.cap) : Moved A op w q.2 := by
  obtain ⟨v, v', hv, e, hw⟩ := change_inv he
  exact moved_flows I I' hv hw ha hA ((hf v hv) _ _ _ e).2 t c ht keep lost

theorem moved_change' {A A' : Ideal α} {op : Op α} {w : World α} {q : Res α × World α} (I : Inv ty A w) (I' : Inv ty A' q.2) {i : Nat}
    {f : Vec → M α (Vec × Option Nat)} (he : change' i f w = .ok q) (hf : ∀ v, w.vars i = some v → Flows (fun p => p.1) v (f v))
    {a a' : Var α} (ha : A i = some a)
    (hA : A' = put A i (some a')) (t : Tally w.heap q.2.heap (work A op)) (c : Bool) (ht : ∀ k, whereTo A op k = lostIf i c k)
    (keep : c = false → (work A op).blocks = 0) (lost : c = true → a'.cap ≠ a.cap) : Moved A op w q.2 := by
  obtain ⟨v, v', hv, e, hw⟩ := change'_inv he
  exact moved_flows I I' hv hw ha hA ((hf v hv) _ _ _ e).2 t c ht keep lost

theorem kept (k i : Nat) : some k = lostIf i false k := by simp [lostIf]

theorem room_blocks {len cap n : Nat} (h : n ≤ cap) : (room len cap n).blocks = 0 := by simp [room, h, nothing]

theorem capOf_eq {A : Ideal α} {i : Nat} {a : Var α} (h : A i = some a) : capOf A i = a.cap := by simp [capOf, h]
theorem lenOf_eq {A : Ideal α} {i : Nat} {a : Var α} (h : A i = some a) : lenOf A i = a.xs.length := by simp [lenOf, h]

theorem Inv.lens {A : Ideal α} {w : World α} (I : Inv ty A w) {i : Nat} {v : Vec} (hv : w.vars i = some v) {a : Var α} (ha : A i = some a) :
    v.len = a.xs.length ∧ v.len < wordSize ∧ a.xs.length ≤ a.cap := by
  obtain ⟨x, hx, r, hc, -⟩ := I.rep_of hv
  rw [ha] at hx; cases hx
  have h1 := r.len
  have h2 := r.le
  have h3 := r.own.cap_lt
  have : wordSize = 18446744073709551616 := rfl
  omega

theorem enough_false {A : Ideal α} {i n : Nat} {a : Var α} (ha : A i = some a) (h : (!enough A i n) = false) : n ≤ a.cap := by
  simp only [enough, capOf_eq ha, Bool.not_eq_false', decide_eq_true_eq] at h
  exact h

theorem enough_true {A : Ideal α} {i n : Nat} {a : Var α} (ha : A i = some a) (h : (!enough A i n) = true) : a.cap < n := by
  simp only [enough, capOf_eq ha, Bool.not_eq_true', decide_eq_false_iff_not] at h
  omega

theorem doubled_gt (c : Nat) : c < doubled c := by unfold doubled; split <;> omega

theorem step_moved {w : World α} (hr : Reach ty w) {op : Op α} {r : Res α} {A' : Ideal α}
    (hs : specStep false ty.size ty.dflt op (view w) = some (r, A')) {q : Res α × World α} (he : step ty op w = .ok q) :
    Moved (view w) op w q.2 := by
  have I := reach_inv hr
  have I' : Inv ty A' q.2 := by
    have := step_ok op I hs
    rw [he] at this
    exact this.2
  have t := step_work hr hs he
  cases op with
  | newDefault i =>
    obtain ⟨hi, -⟩ := of_born hs
    obtain ⟨v', e, hw⟩ := create_inv he
    exact moved_create (I.get_none hi) hw (fun _ => rfl) (.inr ((fresh_allocate _ _) _ _ _ e).2)
  | newAlloc i a =>
    obtain ⟨hi, -⟩ := of_born hs
    obtain ⟨v', e, hw⟩ := create_inv he
    have e : v' = Vec.blank a := by
      have := congrArg (fun o : Out (Vec × Heap α) => match o with | .ok p => p.1 | _ => v') e
      exact this.symm
    exact moved_create (I.get_none hi) hw (fun _ => rfl) (.inl (by rw [e]; rfl))
  | newFill i n rf a =>
    obtain ⟨x, -, h2⟩ := bind_some' hs
    obtain ⟨hi, -⟩ := of_born (only_false h2).2
    obtain ⟨r', he⟩ := arg_work he
    obtain ⟨v', e, hw⟩ := create_inv he
    exact moved_create (I.get_none hi) hw (fun _ => rfl) (((flows_assignFill _ _ _) _ _ _ e).2.imp (fun h => h.1) id)
  | newCount i n a =>
    obtain ⟨hi, -⟩ := of_born (only_false hs).2
    obtain ⟨v', e, hw⟩ := create_inv he
    exact moved_create (I.get_none hi) hw (fun _ => rfl) (((flows_assignFill _ _ _) _ _ _ e).2.imp (fun h => h.1) id)
  | newList i xs a =>
    obtain ⟨hi, -⟩ := of_born (only_false hs).2
    obtain ⟨v', e, hw⟩ := create_inv he
    exact moved_create (I.get_none hi) hw (fun _ => rfl) (.inr ((fresh_newList _ _) _ _ _ e).2)
  | newRange i xs a =>
    obtain ⟨hi, -⟩ := of_born (only_false hs).2
    obtain ⟨v', e, hw⟩ := create_inv he
    exact moved_create (I.get_none hi) hw (fun _ => rfl) (.inr ((fresh_newRange _ _) _ _ _ e).2)
  | newCopy i j | newCopyAlloc i j a =>
    obtain ⟨v, h1, h2⟩ := bind_some' hs
    obtain ⟨hi, -⟩ := of_born h2
    obtain ⟨v1, w1, h3, h4⟩ := bind_inv he
    obtain ⟨hv, rfl⟩ := var_inv h3
    obtain ⟨v', e, hw⟩ := create_inv h4
    exact moved_create (I.get_none hi) hw (fun _ => rfl) (.inr ((fresh_copyImpl _ _) _ _ _ e).2)
  | newMove i j a =>
    obtain ⟨b, h1, h2⟩ := bind_some' hs
    have hi : view w i = none := by
      split at h2
      · rename_i h; simpa using h
      · cases h2
    obtain ⟨v1, w1, h3, h4⟩ := bind_inv he
    obtain ⟨hv, rfl⟩ := var_inv h3
    have hw : q.2.vars = bindVar (bindVar w1.vars i (some (newMove v1 a).1)) j (some (newMove v1 a).2) := by cases h4; rfl
    have hn := I.get_none hi
    have hij : i ≠ j := by rintro rfl; rw [hn] at hv; cases hv
    refine ⟨fun k u hu => ?_, fun k u b' hu hb hlt => ?_⟩
    · have hki : k ≠ i := by rintro rfl; rw [hn] at hu; cases hu
      simp only [whereTo]
      by_cases hk : k = j
      · subst hk
        rw [hv] at hu; cases hu
        rw [if_pos rfl]
        exact ⟨(newMove v1 a).1, by rw [hw, bindVar_ne _ _ hij, bindVar_same], rfl, rfl⟩
      · rw [if_neg hk]
        exact ⟨u, by rw [hw, bindVar_ne _ _ hk, bindVar_ne _ _ hki]; exact hu, rfl, rfl⟩
    · rw [hw] at hu
      by_cases hk : k = j
      · subst hk
        rw [bindVar_same] at hu; cases hu; cases hb
      · rw [bindVar_ne _ _ hk] at hu
        by_cases hki : k = i
        · subst hki
          rw [bindVar_same] at hu; cases hu
          exact ⟨j, v1, hv, hb⟩
        · rw [bindVar_ne _ _ hki] at hu
          exact ⟨k, u, hu, hb⟩
  | fromIter i xs =>
    obtain ⟨hi, -⟩ := of_born hs
    obtain ⟨v', e, hw⟩ := create_inv he
    exact moved_create (I.get_none hi) hw (fun _ => rfl) (.inr ((fresh_fromIter _) _ _ _ e).2)
  | copyAssign i j =>
    by_cases hij : i = j
    · have he' : (if i = j then look i fun _ => return .unit else do
          let w ← var j
          change i fun v => copyAssign ty v w : Prog (World α) (Res α)) w = .ok q := he
      rw [if_pos hij] at he'
      exact moved_same (look_inv he') fun k => by simp [whereTo, hij]
    · have he' : (if i = j then look i fun _ => return .unit else do
          let w ← var j
          change i fun v => copyAssign ty v w : Prog (World α) (Res α)) w = .ok q := he
      rw [if_neg hij] at he'
      obtain ⟨b, h1, h2⟩ := bind_some' hs
      obtain ⟨a, ha, a', h3, hA⟩ : ∃ a, view w i = some a ∧ ∃ a', a' = (⟨b.xs, if a.alloc = b.alloc then max a.cap b.cap else b.xs.length, a.alloc⟩ : Var α) ∧
          A' = put (view w) i (some a') := by
        obtain ⟨a, ha, h4⟩ := bind_some' h2
        dsimp only at h4
        rw [if_neg hij] at h4
        cases h4
        exact ⟨a, ha, _, rfl, rfl⟩
      obtain ⟨o, w1, h3', h4⟩ := bind_inv he'
      obtain ⟨ho, rfl⟩ := var_inv h3'
      obtain ⟨v, v', hv, e, hw⟩ := change_inv h4
      obtain ⟨x, hx, -, -, hxa⟩ := I.rep_of hv
      rw [ha] at hx; cases hx
      obtain ⟨y, hy, -, -, hya⟩ := I.rep_of ho
      rw [h1] at hy; cases hy
      by_cases hal : a.alloc = b.alloc
      · have hsame : sameAlloc (view w1) i j = true := by simp [sameAlloc, ha, h1, hal]
        refine moved_flows I I' hv hw ha hA ((flows_copyAssign v o) _ _ _ e).2 t (!enough (view w1) i (capOf (view w1) j))
          (fun k => by simp [whereTo, hij, hsame]) (fun hc => ?_) fun hc => ?_
        · have := enough_false ha hc
          simp only [work, if_neg hij, hsame, if_true, Work.add_blocks]
          rw [room_blocks (by rw [capOf_eq ha]; exact this)]
        · have := enough_true ha hc
          rw [capOf_eq h1] at this
          rw [h3, if_pos hal]
          simp only
          omega
      · have hsame : sameAlloc (view w1) i j = false := by simp [sameAlloc, ha, h1, hal]
        refine moved_one I hv hw true (fun k => by simp [whereTo, hij, hsame]) (by simp) fun _ => ?_
        exact ((fresh_copyAssign v o (by rw [hxa, hya]; exact hal)) _ _ _ e).2
  | moveAssign i j =>
    by_cases hij : i = j
    · have he' : (if i = j then look i fun _ => return .unit else do
          let v ← var i
          let w ← var j
          let p ← inHeap (moveAssign ty v w)
          setVar i (some p.1)
          setVar j (some p.2)
          return .unit : Prog (World α) (Res α)) w = .ok q := he
      rw [if_pos hij] at he'
      exact moved_same (look_inv he') fun k => by simp [whereTo, hij]
    · have he' : (if i = j then look i fun _ => return .unit else do
          let v ← var i
          let w ← var j
          let p ← inHeap (moveAssign ty v w)
          setVar i (some p.1)
          setVar j (some p.2)
          return .unit : Prog (World α) (Res α)) w = .ok q := he
      rw [if_neg hij] at he'
      obtain ⟨v, w1, h3, h4⟩ := bind_inv he'
      obtain ⟨hv, rfl⟩ := var_inv h3
      obtain ⟨u, w2, h5, h6⟩ := bind_inv h4
      obtain ⟨hu, rfl⟩ := var_inv h5
      obtain ⟨p, w3, h7, h8⟩ := bind_inv h6
      obtain ⟨e1, e2⟩ := inHeap_inv h7
      obtain ⟨vc, hc, e3, e4⟩ := split_ok e2
      cases e4
      have hw : q.2.vars = bindVar (bindVar w2.vars i (some (moveImpl vc u).1)) j (some (moveImpl vc u).2) := by rw [← e1]; cases h8; rfl
      refine ⟨fun k x hx => ?_, fun k x b' hx hb hlt => ?_⟩
      · simp only [whereTo, if_neg hij]
        by_cases hk : k = j
        · subst hk
          rw [hu] at hx; cases hx
          rw [if_pos rfl]
          exact ⟨(moveImpl vc u).1, by rw [hw, bindVar_ne _ _ hij, bindVar_same], rfl, rfl⟩
        · rw [if_neg hk]
          by_cases hki : k = i
          · subst hki
            rw [hv] at hx; cases hx
            rw [if_pos rfl]
            simp only
            intro m y hy hp
            rw [hw] at hy
            by_cases hm : m = j
            · subst hm
              rw [bindVar_same] at hy; cases hy
              exact hp.symm
            · rw [bindVar_ne _ _ hm] at hy
              by_cases hmk : m = k
              · subst hmk
                rw [bindVar_same] at hy; cases hy
                cases hq : v.ptr with
                | none => rfl
                | some b' => exact (I.sep m j v u b' hij hv hu hq (hp.trans hq)).elim
              · rw [bindVar_ne _ _ hmk] at hy
                cases hq : v.ptr with
                | none => rfl
                | some b' => exact (I.sep k m v y b' (Ne.symm hmk) hv hy hq (hp.trans hq)).elim
          · rw [if_neg hki]
            exact ⟨x, by rw [hw, bindVar_ne _ _ hk, bindVar_ne _ _ hki]; exact hx, rfl, rfl⟩
      · rw [hw] at hx
        by_cases hk : k = j
        · subst hk
          rw [bindVar_same] at hx; cases hx; cases hb
        · rw [bindVar_ne _ _ hk] at hx
          by_cases hki : k = i
          · subst hki
            rw [bindVar_same] at hx; cases hx
            exact ⟨j, u, hu, hb⟩
          · rw [bindVar_ne _ _ hki] at hx
            exact ⟨k, x, hx, hb⟩
  | listAssign i xs => exact (only_false hs).1.elim
  | swap i j =>
    obtain ⟨v, w1, h3, h4⟩ := bind_inv he
    obtain ⟨hv, rfl⟩ := var_inv h3
    obtain ⟨u, w2, h5, h6⟩ := bind_inv h4
    obtain ⟨hu, rfl⟩ := var_inv h5
    have hw : q.2.vars = bindVar (bindVar w2.vars i (some u)) j (some v) := by cases h6; rfl
    refine ⟨fun k x hx => ?_, fun k x b' hx hb hlt => ?_⟩
    · simp only [whereTo]
      by_cases hk : k = i
      · subst hk
        rw [hv] at hx; cases hx
        rw [if_pos rfl]
        exact ⟨v, by rw [hw, bindVar_same], rfl, rfl⟩
      · rw [if_neg hk]
        by_cases hkj : k = j
        · subst hkj
          rw [hu] at hx; cases hx
          rw [if_pos rfl]
          exact ⟨u, by rw [hw, bindVar_ne _ _ (Ne.symm hk), bindVar_same], rfl, rfl⟩
        · rw [if_neg hkj]
          exact ⟨x, by rw [hw, bindVar_ne _ _ hkj, bindVar_ne _ _ hk]; exact hx, rfl, rfl⟩
    · rw [hw] at hx
      by_cases hk : k = j
      · subst hk
        rw [bindVar_same] at hx; cases hx
        exact ⟨i, v, hv, hb⟩
      · rw [bindVar_ne _ _ hk] at hx
        by_cases hki : k = i
        · subst hki
          rw [bindVar_same] at hx; cases hx
          exact ⟨j, u, hu, hb⟩
        · rw [bindVar_ne _ _ hki] at hx
          exact ⟨k, x, hx, hb⟩
  | drop i =>
    obtain ⟨v, w1, h3, h4⟩ := bind_inv he
    obtain ⟨hv, rfl⟩ := var_inv h3
    obtain ⟨u, w2, h5, h6⟩ := bind_inv h4
    obtain ⟨e1, e2⟩ := inHeap_inv h5
    cases h6
    exact moved_gone I (o := none) (by simp only [e1]) (fun _ => rfl) (by simp)
  | clear i =>
    obtain ⟨v, v', hv, e, hw⟩ := change_inv he
    obtain ⟨k, ⟨rfl, -⟩, -⟩ := does_clear v _ _ _ e
    exact moved_gone I hw (fun _ => rfl) (by rintro _ ⟨⟩; rfl)
  | reserve i n =>
    obtain ⟨a, ha, h2⟩ := bind_some' hs
    obtain ⟨p, h3, h4⟩ := Option.map_eq_some_iff.1 h2
    have h3 := (only_false h3).2
    cases h3; cases h4
    refine moved_change I I' he (fun v _ => flows_reserve v n) ha rfl t (!enough (view w) i n) (fun _ => rfl) (fun hc => ?_) fun hc => ?_
    · simp only [work]
      exact room_blocks (by rw [capOf_eq ha]; exact enough_false ha hc)
    · have := enough_true ha hc
      simp only
      omega
  | push i rf =>
    obtain ⟨x, -, h2⟩ := bind_some' hs
    obtain ⟨a, ha, h2⟩ := bind_some' h2
    obtain ⟨p, h3, h4⟩ := Option.map_eq_some_iff.1 h2
    have h3 := (only_false h3).2
    cases h3; cases h4
    obtain ⟨r', he⟩ := arg_work he
    refine moved_change I I' he (fun v _ => flows_pushBack v r') ha rfl t (!enough (view w) i (lenOf (view w) i + 1)) (fun _ => rfl)
      (fun hc => ?_) fun hc => ?_
    · simp only [work, append, Work.add_blocks]
      rw [room_blocks (by rw [capOf_eq ha]; exact enough_false ha hc)]
    · have := enough_true ha hc
      rw [lenOf_eq ha] at this
      have := doubled_gt a.cap
      simp only [afterPush]
      rw [if_neg (by omega)]
      omega
  | pop i =>
    obtain ⟨a, ha, h2⟩ := bind_some' hs
    obtain ⟨p, h3, h4⟩ := Option.map_eq_some_iff.1 h2
    dsimp only at h3
    split at h3
    · cases h3
    cases h3; cases h4
    exact moved_change I I' he (fun v _ => flows_popBack v) ha rfl t false (fun k => kept k i) (fun _ => rfl) (by simp)
  | assignFill i n rf =>
    obtain ⟨x, -, h2⟩ := bind_some' hs
    obtain ⟨a, ha, h2⟩ := bind_some' h2
    obtain ⟨p, h3, h4⟩ := Option.map_eq_some_iff.1 h2
    have h3 := (only_false h3).2
    cases h3; cases h4
    obtain ⟨r', he⟩ := arg_work he
    refine moved_change I I' he (fun v _ => flows_assignFill v n r') ha rfl t (!enough (view w) i n) (fun _ => rfl) (fun hc => ?_) fun hc => ?_
    · simp only [work, Work.add_blocks]
      rw [room_blocks (by rw [capOf_eq ha]; exact enough_false ha hc)]
    · have := enough_true ha hc
      simp only
      omega
  | assignList i xs =>
    obtain ⟨a, ha, h2⟩ := bind_some' hs
    obtain ⟨p, h3, h4⟩ := Option.map_eq_some_iff.1 h2
    have h3 := (only_false h3).2
    cases h3; cases h4
    refine moved_change I I' he (fun v _ => flows_assignList v xs) ha rfl t (!enough (view w) i xs.length) (fun _ => rfl) (fun hc => ?_) fun hc => ?_
    · simp only [work, Work.add_blocks]
      rw [room_blocks (by rw [capOf_eq ha]; exact enough_false ha hc)]
    · have := enough_true ha hc
      simp only
      omega
  | set i k x => exact moved_same (look_inv he) fun _ => rfl
  | get i k => exact moved_same (look_inv he) fun _ => rfl
  | «at» i k => exact moved_same (look_inv he) fun _ => rfl
  | front i => exact moved_same (look_inv he) fun _ => rfl
  | back i => exact moved_same (look_inv he) fun _ => rfl
  | size i => exact moved_same (look_inv he) fun _ => rfl
  | capacity i => exact moved_same (look_inv he) fun _ => rfl
  | empty i => exact moved_same (look_inv he) fun _ => rfl
  | collect i => exact moved_same (look_inv he) fun _ => rfl
  | print i shw => exact moved_same (look_inv he) fun _ => rfl
  | equal i j eq =>
    obtain ⟨v, w1, h3, h4⟩ := bind_inv he
    obtain ⟨hv, rfl⟩ := var_inv h3
    exact moved_same (look_inv h4) fun _ => rfl
  | compare i j cmp =>
    obtain ⟨v, w1, h3, h4⟩ := bind_inv he
    obtain ⟨hv, rfl⟩ := var_inv h3
    exact moved_same (look_inv h4) fun _ => rfl
  | insert i p rf =>
    obtain ⟨x, -, h2⟩ := bind_some' hs
    obtain ⟨a, ha, h2⟩ := bind_some' h2
    obtain ⟨p', h3, h4⟩ := Option.map_eq_some_iff.1 h2
    dsimp only at h3
    split at h3
    case isFalse => cases h3
    obtain ⟨hp, h3⟩ := only_false h3
    cases h3; cases h4
    obtain ⟨r', he⟩ := arg_work he
    refine moved_change' I I' he (fun v hv => (flows_insert v p r' (by omega) (I.lens hv ha).2.1).bind fun _ => flows_pure rfl rfl) ha rfl t
      (!enough (view w) i (lenOf (view w) i + 1)) (fun _ => rfl) (fun hc => ?_) fun hc => ?_
    · simp only [work, Work.add_blocks]
      rw [room_blocks (by rw [capOf_eq ha]; exact enough_false ha hc)]
      rfl
    · have := enough_true ha hc
      rw [lenOf_eq ha] at this
      have := doubled_gt a.cap
      simp only [afterPush]
      rw [if_neg (by omega)]
      omega
  | emplace i p x =>
    obtain ⟨a, ha, h2⟩ := bind_some' hs
    obtain ⟨p', h3, h4⟩ := Option.map_eq_some_iff.1 h2
    dsimp only at h3
    split at h3
    case isFalse => cases h3
    obtain ⟨hp, h3⟩ := only_false h3
    cases h3; cases h4
    refine moved_change I I' he (fun v hv => flows_emplace v p x (by omega) (I.lens hv ha).2.1) ha rfl t
      (!enough (view w) i (lenOf (view w) i + 1)) (fun _ => rfl) (fun hc => ?_) fun hc => ?_
    · simp only [work, Work.add_blocks]
      rw [room_blocks (by rw [capOf_eq ha]; exact enough_false ha hc)]
      rfl
    · have := enough_true ha hc
      rw [lenOf_eq ha] at this
      have := doubled_gt a.cap
      simp only [afterPush]
      rw [if_neg (by omega)]
      omega
  | insertFill i p n rf =>
    obtain ⟨x, -, h2⟩ := bind_some' hs
    obtain ⟨a, ha, h2⟩ := bind_some' h2
    obtain ⟨p', h3, h4⟩ := Option.map_eq_some_iff.1 h2
    dsimp only at h3
    split at h3
    case isFalse => cases h3
    obtain ⟨hp, h3⟩ := only_false h3
    cases h3; cases h4
    obtain ⟨r', he⟩ := arg_work he
    refine moved_change' I I' he (fun v hv => (flows_insertFill v p n r' ?_ (I.lens hv ha).2.1).bind fun _ => flows_pure rfl rfl) ha rfl t
      (!enough (view w) i (lenOf (view w) i + n)) (fun _ => rfl) (fun hc => ?_) fun hc => ?_
    · have := (I.lens hv ha).1
      rcases hp.1 with h | h
      · exact .inl (by omega)
      · rw [h.1] at this; exact .inr this
    · simp only [work, Work.add_blocks]
      rw [room_blocks (by rw [capOf_eq ha]; exact enough_false ha hc)]
      rfl
    · have := enough_true ha hc
      rw [lenOf_eq ha] at this
      simp only
      omega
  | insertRange i p ys =>
    obtain ⟨a, ha, h2⟩ := bind_some' hs
    obtain ⟨p', h3, h4⟩ := Option.map_eq_some_iff.1 h2
    dsimp only at h3
    split at h3
    case isFalse => cases h3
    obtain ⟨hp, h3⟩ := only_false h3
    cases h3; cases h4
    refine moved_change' I I' he (fun v hv => (flows_insertRange v p ys ?_ (I.lens hv ha).2.1).bind fun _ => flows_pure rfl rfl) ha rfl t
      (!enough (view w) i (lenOf (view w) i + ys.length)) (fun _ => rfl) (fun hc => ?_) fun hc => ?_
    · have := (I.lens hv ha).1
      rcases hp.1 with h | h
      · exact .inl (by omega)
      · rw [h.1] at this; exact .inr this
    · simp only [work, Work.add_blocks]
      rw [room_blocks (by rw [capOf_eq ha]; exact enough_false ha hc)]
      rfl
    · have := enough_true ha hc
      rw [lenOf_eq ha] at this
      simp only
      omega
  | erase i p =>
    obtain ⟨a, ha, h2⟩ := bind_some' hs
    obtain ⟨p', h3, h4⟩ := Option.map_eq_some_iff.1 h2
    dsimp only at h3
    split at h3
    case isFalse => cases h3
    cases h3; cases h4
    exact moved_change' I I' he (fun v hv => flows_erase v p) ha rfl t false (fun k => kept k i) (fun _ => rfl) (by simp)
  | eraseRange i lo hi =>
    obtain ⟨a, ha, h2⟩ := bind_some' hs
    obtain ⟨p', h3, h4⟩ := Option.map_eq_some_iff.1 h2
    dsimp only at h3
    split at h3
    case isFalse => cases h3
    have h3 := (only_false h3).2
    cases h3; cases h4
    exact moved_change' I I' he (fun v hv => flows_eraseRange v lo hi) ha rfl t false (fun k => kept k i) (fun _ => rfl) (by simp)
  | resize i n =>
    obtain ⟨a, ha, h2⟩ := bind_some' hs
    obtain ⟨p, h3, h4⟩ := Option.map_eq_some_iff.1 h2
    have h3 := (only_false h3).2
    cases h3; cases h4
    refine moved_change I I' he (fun v _ => flows_resizeFill v n _) ha rfl t (!enough (view w) i n) (fun _ => rfl) (fun hc => ?_) fun hc => ?_
    · simp only [work]
      split
      · rfl
      · rw [Work.add_blocks, room_blocks (by rw [capOf_eq ha]; exact enough_false ha hc)]
        rfl
    · have := enough_true ha hc
      simp only
      omega
  | resizeFill i n rf =>
    obtain ⟨x, -, h2⟩ := bind_some' hs
    obtain ⟨a, ha, h2⟩ := bind_some' h2
    obtain ⟨p, h3, h4⟩ := Option.map_eq_some_iff.1 h2
    have h3 := (only_false h3).2
    cases h3; cases h4
    obtain ⟨r', he⟩ := arg_work he
    refine moved_change I I' he (fun v _ => flows_resizeFill v n _) ha rfl t (!enough (view w) i n) (fun _ => rfl) (fun hc => ?_) fun hc => ?_
    · simp only [work]
      split
      · rfl
      · rw [Work.add_blocks, room_blocks (by rw [capOf_eq ha]; exact enough_false ha hc)]
        rfl
    · have := enough_true ha hc
      simp only
      omega
  | drain i n =>
    obtain ⟨v, w1, h3, h4⟩ := bind_inv he
    obtain ⟨hv, rfl⟩ := var_inv h3
    obtain ⟨u, w2, h5, h6⟩ := bind_inv h4
    cases h5
    obtain ⟨rs, w3, h7, h8⟩ := bind_inv h6
    obtain ⟨e1, -⟩ := inHeap_inv h7
    cases h8
    exact moved_gone I (i := i) (o := some (intoIter v).2) e1 (fun _ => rfl) (by rintro _ ⟨⟩; rfl)
  | drainRev i n =>
    obtain ⟨v, w1, h3, h4⟩ := bind_inv he
    obtain ⟨hv, rfl⟩ := var_inv h3
    obtain ⟨u, w2, h5, h6⟩ := bind_inv h4
    cases h5
    obtain ⟨rs, w3, h7, h8⟩ := bind_inv h6
    obtain ⟨e1, -⟩ := inHeap_inv h7
    cases h8
    exact moved_gone I (i := i) (o := some (newMove v dfltAlloc).2) e1 (fun _ => rfl) (by rintro _ ⟨⟩; rfl)

end Verif.Proof.Vector
