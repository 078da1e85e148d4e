import Verif.Proof.VectorReach
import Verif.Model.VectorFault
/-! # Vector: refused memory and throwing copies -/
namespace Verif.Proof.Vector
open Verif Verif.Model.Mem Verif.Model.Vector Verif.Proof.Mem

variable {α : Type} {ty : ElemTy α}

/-! ## Refused memory -/

theorem allocN_refused {h : Heap α} {o n : Nat} (hr : ty.refuse h.next (wrap (ty.size * n)) = true) :
    allocN ty o n h = .ok (none, { h with next := h.next + 1 }) := by simp [allocN, hr]

theorem allocN_granted {h : Heap α} {o n b : Nat} {h' : Heap α} (ha : alloc ty o n h = .ok (b, h')) :
    allocN ty o n h = .ok (some b, h') := by
  unfold alloc at ha
  unfold allocN
  by_cases hr : ty.refuse h.next (wrap (ty.size * n)) = true
  · simp [hr] at ha
  · simp only [hr] at ha ⊢
    simp at ha ⊢
    exact ha

/-- `p'` does the same as `p` unless `p` runs out of memory. -/
def SameBut {β : Type} (p p' : M α β) : Prop := ∀ h, p h = .oom ∨ p' h = p h

theorem SameBut.refl {β : Type} (p : M α β) : SameBut p p := fun _ => .inr rfl

theorem SameBut.bind {β γ : Type} {p p' : M α β} {f f' : β → M α γ} (h : SameBut p p') (hf : ∀ b, SameBut (f b) (f' b)) :
    SameBut (p >>= f) (p' >>= f') := by
  intro s
  simp only [Prog.bind_run]
  rcases h s with e | e
  · left; rw [e]; rfl
  · rw [e]
    cases he : p s with
    | ok b => exact hf b.1 b.2
    | oom => left; rfl
    | _ => right; rfl

theorem allocN_agree {β : Type} (o n : Nat) {f : Nat → M α β} {f' : Option Nat → M α β} (hf : ∀ b, SameBut (f b) (f' (some b))) :
    SameBut (alloc ty o n >>= f) (allocN ty o n >>= f') := by
  intro s
  simp only [Prog.bind_run]
  cases he : alloc ty o n s with
  | ok b => rw [allocN_granted he]; exact hf b.1 b.2
  | oom => left; rfl
  | _ => simp only [alloc] at he; split at he <;> cases he

theorem allocateReserveN_agree (v : Vec) (n : Nat) : SameBut (allocateReserve ty v n) (allocateReserveN ty v n) :=
  allocN_agree _ _ fun _ => SameBut.refl _

theorem reserveN_agree (v : Vec) (n : Nat) : SameBut (reserve ty v n) (reserveN ty v n) := by
  unfold reserve reserveN; split
  · exact allocateReserveN_agree v n
  · exact SameBut.refl _

theorem pushBackN_agree (v : Vec) (r : Ref α) : SameBut (pushBack ty v r) (pushBackN ty v r) := by
  unfold pushBack pushBackN
  refine SameBut.bind ?_ fun _ => SameBut.refl _
  split
  · exact reserveN_agree _ _
  · exact SameBut.refl _

theorem newDefaultN_agree : SameBut (newDefault ty) (newDefaultN ty) := allocN_agree _ _ fun _ => SameBut.refl _

theorem newCopyN_agree (r : Vec) : SameBut (newCopy ty r) (newCopyN ty r) :=
  SameBut.bind (allocN_agree _ _ fun _ => SameBut.refl _) fun _ => SameBut.refl _

theorem Rep.next {h : Heap α} {v : Vec} {xs : List α} (r : Rep ty h v xs) (n : Nat) : Rep ty { h with next := n } v xs :=
  ⟨r.len, by have := r.own; unfold Own at *; exact this⟩

theorem construct_null {h : Heap α} {i : Nat} {x : α} : construct none i x h = .ub := rfl

theorem allocateReserveN_refused {h : Heap α} {v : Vec} {x : α} {xs : List α} (r : Rep ty h v (x :: xs)) {n : Nat}
    (hr : ty.refuse h.next (wrap (ty.size * n)) = true) : allocateReserveN ty v n h = .ub := by
  have r1 := r.next (h.next + 1)
  obtain ⟨h1, e1, _, _⟩ := take_ok (ty := ty) (h := { h with next := h.next + 1 }) (ptr := v.ptr) (i := 0) (cap := v.cap)
    (owner := v.alloc) (pre := []) (x := x) (post := xs.map some ++ raws (v.cap - (x :: xs).length)) (by simpa using r1.own) rfl
  have hl : v.len = xs.length + 1 := by simpa using r.len
  simp only [allocateReserveN, Prog.bind_run, allocN_refused hr, Out.bind_ok, hl, forUp, e1, construct_null]
  rfl

theorem allocateReserveN_refused_empty {h : Heap α} {v : Vec} (r : Rep ty h v []) {n : Nat}
    (hr : ty.refuse h.next (wrap (ty.size * n)) = true) :
    ∃ h', allocateReserveN ty v n h = .ok (⟨0, n, none, v.alloc⟩, h') := by
  have r1 := r.next (h.next + 1)
  have hl : v.len = 0 := by simpa using r.len
  obtain ⟨h2, e2, _⟩ := free_own r1.own (by simp)
  refine ⟨h2, ?_⟩
  simp only [allocateReserveN, Prog.bind_run, allocN_refused hr, Out.bind_ok, hl, forUp, Prog.pure_run, clear, destroyAll,
    deallocate, e2]

theorem pushBackN_null {h : Heap α} {n a : Nat} (hn : 0 < n) (x : α) : pushBackN ty ⟨0, n, none, a⟩ (.tmp x) h = .ub := by
  simp only [pushBackN, Prog.bind_run, show ¬ 0 ≥ n by omega, if_false, Prog.pure_run, Out.bind_ok, deref, construct_null]
  rfl

/-! ## Throwing copies -/

/-- Destroying one slot too many. -/
theorem destroy_past {h : Heap α} {p : Option Nat} {cap owner : Nat} {pre post : List (Option α)} (xs : List α) {i n : Nat}
    (ho : Own ty h p cap owner (pre ++ (xs.map some ++ post))) (hi : i = pre.length) (hn : xs.length < n)
    (hp : ∀ x, post.head? ≠ some (some x)) : forUp i n (fun i => destroy p i) h = .ub := by
  induction xs generalizing h i pre n with
  | nil =>
    cases n with
    | zero => simp at hn
    | succ n =>
      simp only [List.map_nil, List.nil_append] at ho
      have e : destroy p i h = .ub := by
        cases p with
        | none => rfl
        | some b =>
          simp only [Own] at ho
          simp only [destroy, access, ho.1]
          subst hi
          rw [List.getElem?_append_right (Nat.le_refl _), Nat.sub_self]
          cases post with
          | nil => rfl
          | cons o post =>
            cases o with
            | none => rfl
            | some x => exact absurd rfl (hp x)
      simp only [forUp, Prog.bind_run, e]
      rfl
  | cons x xs ih =>
    cases n with
    | zero => simp at hn
    | succ n =>
      obtain ⟨h1, e1, o1, s1⟩ := destroy_ok (pre := pre) (by simpa using ho) hi
      simp only [forUp, Prog.bind_run, e1, Out.bind_ok]
      exact ih (pre := pre ++ [none]) (by simpa using o1) (by simp [hi]) (by simpa using hn)

theorem raws_head (n : Nat) (x : α) : (raws n : List (Option α)).head? ≠ some (some x) := by
  cases n <;> simp [raws, List.replicate_succ]

/-- destroying an object that counts a raw slot as an element -/
theorem clear_past {h : Heap α} {v : Vec} {xs : List α} {post : List (Option α)} (ho : Own ty h v.ptr v.cap v.alloc (xs.map some ++ post))
    (hn : xs.length < v.len) (hp : ∀ x, post.head? ≠ some (some x)) : clear ty v h = .ub := by
  have e : forUp 0 v.len (fun i => destroy v.ptr i) h = .ub := destroy_past (pre := []) xs (by simpa using ho) rfl hn hp
  simp only [clear, destroyAll, Prog.bind_run, e]
  rfl

variable {bad : α → Bool}

theorem pushBackT_good (v : Vec) {r : Ref α} {x : α} {h : Heap α} (hx : bad x = false)
    (hr : ∀ h', deref r h' = .ok (x, h')) : pushBackT ty bad v r h = (pushBack ty v r h >>= fun p => .ok ((false, p.1), p.2)) := by
  simp only [pushBackT, pushBack, Prog.bind_run]
  generalize ((if v.len ≥ v.cap then extendSpace ty v else pure v) : M α Vec) h = o
  cases o with
  | ok b =>
    simp only [Out.bind_ok, hr, hx, Bool.false_eq_true, if_false, Prog.bind_run]
    cases construct b.1.ptr b.1.len x b.2 <;> rfl
  | _ => rfl

/-- a throwing `push_back`: the vector counts an element that does not exist -/
theorem pushBackT_bad {h : Heap α} {v : Vec} {xs : List α} (rp : Rep ty h v xs) (hb : Bal h) {r : Ref α} {x : α} (hx : bad x = true)
    (hr : Stable h v.ptr r x ∨ (xs.length < v.cap ∧ RefIs h v xs r x)) :
    (pushBackT ty bad v r h).Safe fun q => q.1.1 = true ∧ q.1.2.len = xs.length + 1 ∧
      Own ty q.2 q.1.2.ptr q.1.2.cap q.1.2.alloc (xs.map some ++ raws (q.1.2.cap - xs.length)) := by
  simp only [pushBackT, Prog.bind_run]
  by_cases hlt : xs.length < v.cap
  · have e : deref r h = .ok (x, h) := by
      rcases hr with s | ⟨_, s⟩
      · exact s.now
      · exact s.now rp
    have := rp.len
    rw [if_neg (by omega)]
    simp only [Prog.pure_run, Out.bind_ok, e, hx, if_true, Out.safe_ok]
    exact ⟨trivial, by omega, rp.own⟩
  · have s : Stable h v.ptr r x := by
      rcases hr with s | ⟨hh, _⟩
      · exact s
      · exact absurd hh hlt
    rw [if_pos (by have := rp.len; omega)]
    apply (extendSpace_ok rp hb).bind
    rintro ⟨v1, h1⟩ ⟨t1, _⟩
    simp only at t1
    simp only [(s.step t1.step).now, Out.bind_ok, hx, if_true, Prog.pure_run, Out.safe_ok]
    exact ⟨trivial, by rw [t1.rep.len], t1.rep.own⟩

theorem pushListT_bad {h : Heap α} {v : Vec} {xs : List α} (ys : List α) (rp : Rep ty h v xs) (hb : Bal h) {x : α} {zs : List α}
    (hg : ∀ y ∈ ys, bad y = false) (hx : bad x = true) :
    (pushListT ty bad v (ys ++ x :: zs) h).Safe fun q => q.1.1 = true ∧ q.1.2.len = (xs ++ ys).length + 1 ∧
      Own ty q.2 q.1.2.ptr q.1.2.cap q.1.2.alloc ((xs ++ ys).map some ++ raws (q.1.2.cap - (xs ++ ys).length)) := by
  induction ys generalizing h v xs with
  | nil =>
    simp only [List.nil_append, pushListT, Prog.bind_run, List.append_nil]
    apply (pushBackT_bad rp hb hx (.inl (stable_tmp h _ x))).bind
    rintro ⟨⟨t, v1⟩, h1⟩ ⟨rfl, h3, h4⟩
    simp only [if_true, Prog.pure_run, Out.safe_ok]
    exact ⟨trivial, h3, h4⟩
  | cons y ys ih =>
    simp only [List.cons_append, pushListT, Prog.bind_run]
    rw [pushBackT_good v (hg y (by simp)) (fun _ => rfl)]
    have := pushBack_ok rp hb (.inl (stable_tmp h v.ptr y))
    cases he : pushBack ty v (.tmp y) h with
    | ok p =>
      rw [he] at this
      simp only [Out.safe_ok] at this
      simp only [Out.bind_ok, Bool.false_eq_true, if_false]
      have := ih (xs := xs ++ [y]) this.rep this.bal (fun z hz => hg z (by simp [hz]))
      simpa using this
    | oom => trivial
    | _ => rw [he] at this; exact this.elim

theorem assignListT_bad {h : Heap α} {v : Vec} {xs : List α} (rp : Rep ty h v xs) (hb : Bal h) {ys zs : List α} {x : α}
    (hw : (ys ++ x :: zs).length * ty.size < wordSize) (hg : ∀ y ∈ ys, bad y = false) (hx : bad x = true) :
    (assignListT ty bad v (ys ++ x :: zs) h).Safe fun q => q.1.1 = true ∧ q.1.2.len = ys.length + 1 ∧
      Own ty q.2 q.1.2.ptr q.1.2.cap q.1.2.alloc (ys.map some ++ raws (q.1.2.cap - ys.length)) := by
  simp only [assignListT, Prog.bind_run]
  obtain ⟨h1, e1, t1⟩ := destroyAll_ok rp hb
  rw [e1, Out.bind_ok]
  apply (reserve_ok t1.rep t1.bal hw).bind
  rintro ⟨v2, h2⟩ ⟨t2, _⟩
  simpa using pushListT_bad (xs := []) ys t2.rep t2.bal hg hx

theorem constructListT_bad {h : Heap α} {q : Option Nat} {cap owner : Nat} {pre post : List (Option α)} (ys : List α) {x : α} {zs : List α}
    {i : Nat} (ho : Own ty h q cap owner (pre ++ (raws ys.length ++ post))) (hi : i = pre.length) (hg : ∀ y ∈ ys, bad y = false)
    (hx : bad x = true) :
    ∃ h', constructListT bad q i (ys ++ x :: zs) h = .ok (true, h') ∧
      Own ty h' q cap owner (pre ++ (ys.map some ++ post)) ∧ Step h q.toList h' q.toList ⟨ys.length, 0, 0⟩ := by
  induction ys generalizing h i pre with
  | nil => exact ⟨h, by simp [constructListT, hx], by simpa [raws] using ho, Step.refl _ _⟩
  | cons y ys ih =>
    have hlt : i < wordSize := by
      have h1 := ho.length; have h2 := ho.cap_lt
      simp at h1; have : wordSize = 18446744073709551616 := rfl
      omega
    obtain ⟨h2, e2, o2, s2⟩ := construct_ok (pre := pre) (x := y) (by simpa [raws_succ] using ho) hi
    obtain ⟨h3, e3, o3, s3⟩ := ih (h := h2) (i := i + 1) (pre := pre ++ [some y]) (by simpa using o2) (by simp [hi])
      (fun z hz => hg z (by simp [hz]))
    refine ⟨h3, ?_, by simpa using o3, ?_⟩
    · simp only [List.cons_append, constructListT, hg y (by simp), Bool.false_eq_true, if_false, Prog.bind_run, wrap_of_lt hlt, e2,
        Out.bind_ok, e3]
    · have := s2.trans s3
      simp only [Cost.add_mk] at this
      simpa [Nat.add_comm] using this

/-- a constructor that throws keeps the block and the copies made so far -/
theorem newListT_bad {h : Heap α} (hb : Bal h) {ys zs : List α} {x : α} {a : Nat} (hw : (ys ++ x :: zs).length * ty.size < wordSize)
    (hg : ∀ y ∈ ys, bad y = false) (hx : bad x = true) :
    (newListT ty bad (ys ++ x :: zs) a h).Safe fun q => q.1 = none ∧ ∃ b, h.blocks b = none ∧
      q.2.blocks b = some ⟨a, (ys ++ x :: zs).length * ty.size, ys.map some ++ raws (zs.length + 1)⟩ ∧
      q.2.ctors = h.ctors + ys.length ∧ q.2.dtors = h.dtors ∧ Bal q.2 := by
  simp only [newListT, allocate, Prog.bind_run]
  have ha := alloc_ok ty h a _ hb hw
  simp only [Vec.blank]
  cases he : alloc ty a (ys ++ x :: zs).length h with
  | ok p =>
    obtain ⟨b, h1⟩ := p
    rw [he] at ha
    obtain ⟨hblk, hlim, s1⟩ := ha
    simp only at hblk hlim s1
    have ho : Own ty h1 (some b) (ys ++ x :: zs).length a ([] ++ (raws ys.length ++ raws (zs.length + 1))) := by
      simp only [Own, List.nil_append, raws_append]
      refine ⟨?_, by simp, hlim⟩
      rw [hblk]; simp [raws]
    obtain ⟨h2, e2, o2, s2⟩ := constructListT_bad (bad := bad) (x := x) (zs := zs) (i := 0) ys ho rfl hg hx
    simp only [Out.bind_ok, Prog.pure_run, e2, if_true, Out.safe_ok]
    simp only [Own, List.nil_append] at o2
    refine ⟨trivial, b, s1.fresh b (by simp) (by simp), o2.1, ?_, ?_, s2.bal (s1.bal hb)⟩
    · rw [s2.ctors, s1.ctors]; rfl
    · rw [s2.dtors, s1.dtors]; rfl
  | oom => trivial
  | _ => rw [he] at ha; exact ha.elim

theorem insertRangeT_bad {h : Heap α} {v : Vec} {zs ts : List α} (rp : Rep ty h v (zs ++ ts)) (hb : Bal h) (hz : zs ≠ [])
    {ys us : List α} {x : α} (hw : (zs.length + ts.length + (ys ++ x :: us).length) * ty.size < wordSize) (hg : ∀ y ∈ ys, bad y = false)
    (hx : bad x = true) :
    (insertRangeT ty bad v zs.length (ys ++ x :: us) h).Safe fun q => q.1.1 = true ∧
      q.1.2.len = zs.length + ts.length + (ys ++ x :: us).length ∧ ∃ post, (∀ x, post.head? ≠ some (some x)) ∧
      Own ty q.2 q.1.2.ptr q.1.2.cap q.1.2.alloc ((zs ++ ys).map some ++ post) := by
  have hl : v.len = zs.length + ts.length := by simpa using rp.len
  have hlt : zs.length + ts.length + (ys ++ x :: us).length < wordSize :=
    Nat.lt_of_le_of_lt (Nat.le_mul_of_pos_right _ ty.size_pos) hw
  simp only [insertRangeT, Prog.bind_run]
  rw [hl, wrap_of_lt hlt]
  have key : ((if zs.length + ts.length + (ys ++ x :: us).length > v.cap then
      allocateReserve ty v (zs.length + ts.length + (ys ++ x :: us).length) else pure v) h : Out _).Safe fun q =>
      Rep ty q.2 q.1 (zs ++ ts) ∧ Bal q.2 := by
    split
    · exact (allocateReserve_ok rp hb (by simp; omega) hw).mono fun q hq => ⟨hq.1.rep, hq.1.bal⟩
    · exact ⟨rp, hb⟩
  apply key.bind
  rintro ⟨v1, h1⟩ ⟨r1, b1⟩
  simp only at r1 b1 ⊢
  apply (moveElementsBack_ok r1 b1 hz (.inl (by simp; omega)) rfl hw).bind
  rintro ⟨v2, h2⟩ ⟨k2, g, _⟩
  simp only at g ⊢
  obtain ⟨h3, e3, o3, s3⟩ := constructListT_bad (ty := ty) (bad := bad) (h := h2) (q := v2.ptr) (cap := v2.cap) (owner := v2.alloc)
    (pre := zs.map some) (post := raws (us.length + 1) ++ (ts.map some ++ raws (v2.cap - (zs.length + (ys ++ x :: us).length + ts.length))))
    (x := x) (zs := us) (i := zs.length) ys (by
      have := g.own
      rw [← List.append_assoc (raws ys.length), raws_append]
      rw [show ys.length + (us.length + 1) = (ys ++ x :: us).length by simp]
      simpa using this) (by simp) hg hx
  simp only [e3, Out.bind_ok, Prog.pure_run, Out.safe_ok]
  refine ⟨trivial, by rw [g.len]; omega, _, ?_, by simpa using o3⟩
  intro y; simp [raws, List.replicate_succ]

theorem constructFromT_bad {h : Heap α} {q : Option Nat} {cap owner : Nat} {pre : List (Option α)} {r : Vec} {rs : List α}
    (hr : Rep ty h r rs) (hpq : ∀ b, q = some b → r.ptr ≠ some b) (zs ys us : List α) {x : α} {i n m : Nat}
    (hrs : rs = zs ++ (ys ++ x :: us)) (ho : Own ty h q cap owner (pre ++ raws (ys.length + m))) (hi : i = zs.length)
    (hi' : i = pre.length) (hn : ys.length < n) (hg : ∀ y ∈ ys, bad y = false) (hx : bad x = true) :
    ∃ h', constructFromT bad r.ptr q i n h = .ok (true, h') ∧
      Own ty h' q cap owner (pre ++ (ys.map some ++ raws m)) ∧ Step h q.toList h' q.toList ⟨ys.length, 0, 0⟩ := by
  induction ys generalizing h i zs pre n with
  | nil =>
    cases n with
    | zero => simp at hn
    | succ n =>
      have e1 : load r.ptr i h = .ok (x, h) := hr.slot (by rw [hrs]; exact focus_get _ _ _ hi)
      exact ⟨h, by simp only [constructFromT, Prog.bind_run, e1, Out.bind_ok, hx, if_true, Prog.pure_run], by simpa using ho, Step.refl _ _⟩
  | cons y ys ih =>
    cases n with
    | zero => simp at hn
    | succ n =>
      have e1 : load r.ptr i h = .ok (y, h) := hr.slot (by rw [hrs]; exact focus_get _ _ _ hi)
      have hq : Own ty h q cap owner (pre ++ none :: raws (ys.length + m)) := by
        rw [show (y :: ys).length + m = (ys.length + m) + 1 by simp; omega, raws_succ] at ho
        exact ho
      obtain ⟨h2, e2, o2, s2⟩ := construct_ok (x := y) hq hi'
      obtain ⟨h3, e3, o3, s3⟩ := ih (h := h2) (i := i + 1) (zs := zs ++ [y]) (pre := pre ++ [some y]) (n := n)
        (hr.keep s2 (by intro b hb hm; simp at hm; exact hpq b hm hb)) (by simp [hrs]) (by simpa using o2) (by simp [hi])
        (by simp [hi']) (by simpa using hn) (fun z hz => hg z (by simp [hz]))
      refine ⟨h3, ?_, by simpa using o3, ?_⟩
      · simp only [constructFromT, Prog.bind_run, e1, Out.bind_ok, hg y (by simp), Bool.false_eq_true, if_false, e2, e3]
      · have := s2.trans s3
        simp only [Cost.add_mk] at this
        simpa [Nat.add_comm] using this

theorem stdCopyT_good {h : Heap α} {q : Option Nat} {cap owner : Nat} {pre post : List (Option α)} {r : Vec} {rs : List α}
    (hr : Rep ty h r rs) (hpq : ∀ b, q = some b → r.ptr ≠ some b) (zs ys us old : List α) {i n : Nat}
    (hrs : rs = zs ++ (ys ++ us)) (ho : Own ty h q cap owner (pre ++ (old.map some ++ post))) (hi : i = zs.length)
    (hi' : i = pre.length) (hn : n = ys.length) (hold : n = old.length) (hg : ∀ y ∈ ys, bad y = false) :
    ∃ h', stdCopyT bad r.ptr q i n h = .ok (false, h') ∧
      Own ty h' q cap owner (pre ++ (ys.map some ++ post)) ∧ Step h q.toList h' q.toList 0 := by
  induction ys generalizing h i zs pre n old with
  | nil =>
    subst hn
    have : old = [] := by cases old <;> simp_all
    subst this
    exact ⟨h, rfl, by simpa using ho, Step.refl _ _⟩
  | cons y ys ih =>
    subst hn
    cases old with
    | nil => simp at hold
    | cons o old =>
      have e1 : load r.ptr i h = .ok (y, h) := hr.slot (by rw [hrs]; exact focus_get _ _ _ hi)
      obtain ⟨h2, e2, o2, s2⟩ := store_ok (pre := pre) (y := y) (by simpa using ho) hi'
      obtain ⟨h3, e3, o3, s3⟩ := ih (h := h2) (i := i + 1) (zs := zs ++ [y]) (pre := pre ++ [some y]) (old := old)
        (hr.keep s2 (by intro b hb hm; simp at hm; exact hpq b hm hb)) (by simp [hrs]) (by simpa using o2) (by simp [hi])
        (by simp [hi']) rfl (by simpa using hold) (fun z hz => hg z (by simp [hz]))
      refine ⟨h3, ?_, by simpa using o3, s2.trans s3⟩
      simp only [List.length_cons, stdCopyT, Prog.bind_run, e1, Out.bind_ok, hg y (by simp), Bool.false_eq_true, if_false, e2, e3]

theorem copyImplT_bad {h : Heap α} {r : Vec} {ys us : List α} {x : α} (a : Nat) (hr : Rep ty h r (ys ++ x :: us)) (hb : Bal h)
    (hg : ∀ y ∈ ys, bad y = false) (hx : bad x = true) :
    (copyImplT ty bad (Vec.blank a) r h).Safe fun q => q.1.1 = true ∧ q.1.2.len = (ys ++ x :: us).length ∧
      Own ty q.2 q.1.2.ptr q.1.2.cap q.1.2.alloc (ys.map some ++ raws (us.length + 1)) ∧
      Step h [] q.2 q.1.2.ptr.toList ⟨ys.length, 0, 1⟩ := by
  simp only [copyImplT, Prog.bind_run]
  have hle := hr.le
  have hw : r.len * ty.size < wordSize := by
    have h1 := hr.own.small
    have h2 : r.len * ty.size ≤ r.cap * ty.size := Nat.mul_le_mul_right _ (by rw [hr.len]; exact hle)
    have : wordSize = 18446744073709551616 := rfl
    omega
  apply (allocate_ok hb a r.len hw).bind
  rintro ⟨v1, h1⟩ ⟨t1, hv⟩
  have hcap : v1.cap = (ys ++ x :: us).length := by rw [← hr.len]; exact t1.cap
  have r1 := hr.keep t1.step (by simp)
  have hne : ∀ b, v1.ptr = some b → r.ptr ≠ some b := by
    intro b hb1 hb2
    have h3 := t1.step.fresh b (by simp [hb1]) (by simp)
    have h4 := hr.own
    rw [hb2] at h4; simp only [Own] at h4
    rw [h3] at h4; simp at h4
  obtain ⟨h2, e2, o2, s2⟩ := constructFromT_bad (ty := ty) (bad := bad) (h := h1) (q := v1.ptr) (cap := v1.cap) (owner := v1.alloc)
    (pre := []) r1 hne [] ys us (x := x) (i := 0) (n := r.len) (m := us.length + 1) rfl (by simpa [hcap] using t1.rep.own) rfl rfl
    (by rw [hr.len]; simp) hg hx
  simp only [e2, Out.bind_ok, Prog.pure_run, Out.safe_ok]
  have s := t1.step.trans s2
  exact ⟨trivial, hr.len, by simpa using o2, by simpa using s⟩

/-- a throw while the surplus elements are being copied: they are never destroyed -/
theorem copyAssignT_bad {h : Heap α} {v w : Vec} {xs ys us : List α} {x : α} (rv : Rep ty h v xs) (rw' : Rep ty h w (ys ++ x :: us))
    (hb : Bal h) (hne : ∀ b, v.ptr = some b → w.ptr ≠ some b) (ha : v.alloc = w.alloc) (hlt : xs.length ≤ ys.length)
    (hg : ∀ y ∈ ys, bad y = false) (hx : bad x = true) :
    (copyAssignT ty bad v w h).Safe fun q => q.1.1 = true ∧ q.1.2.len = xs.length ∧ ∃ h', clear ty q.1.2 q.2 = .ok (Vec.blank v.alloc, h') ∧
      h'.ctors + h.dtors + xs.length = h'.dtors + h.ctors + (ys.length - xs.length) := by
  unfold copyAssignT
  rw [if_pos ha]
  simp only [Prog.bind_run]
  have hw : w.cap * ty.size < wordSize := by
    have := rw'.own.small; have : wordSize = 18446744073709551616 := rfl; omega
  apply (reserve_ok rv hb hw).bind
  rintro ⟨v1, h1⟩ ⟨t1, hlow, hhigh⟩
  simp only at t1
  have rw1 := rw'.keep t1.step (by intro b hb1 hm; simp at hm; exact hne b hm hb1)
  have hne1 : ∀ b, v1.ptr = some b → w.ptr ≠ some b := by
    intro b hb1 hb2
    by_cases hp : v.ptr = some b
    · exact hne b hp hb2
    · have h3 := t1.step.fresh b (by simp [hb1]) (by simp [hp])
      have h4 := rw'.own
      rw [hb2] at h4; simp only [Own] at h4
      rw [h3] at h4; simp at h4
  have hl1 := t1.rep.len
  have hl2 := rw1.len
  have hcap : v1.cap = max v.cap w.cap := t1.cap
  have hle2 := rw1.le
  have hle2' : ys.length + (us.length + 1) ≤ w.cap := by simpa using hle2
  have hl2' : w.len = ys.length + (us.length + 1) := by simpa using hl2
  have hys : ys = ys.take xs.length ++ ys.drop xs.length := (List.take_append_drop _ _).symm
  have hmin : min v1.len w.len = xs.length := by rw [hl1, hl2']; omega
  obtain ⟨h2, e2, o2, s2⟩ := stdCopyT_good (bad := bad) (pre := []) rw1 hne1 [] (ys.take xs.length) (ys.drop xs.length ++ x :: us) xs
    (i := 0) (n := xs.length) (by rw [List.nil_append, ← List.append_assoc, ← hys]) t1.rep.own rfl rfl (by simp [Nat.min_eq_left hlt]) rfl
    (fun y hy => hg y (List.mem_of_mem_take hy))
  rw [hmin, e2, Out.bind_ok]
  simp only [Bool.false_eq_true, if_false, Prog.bind_run]
  rw [if_neg (by omega), if_pos (by omega)]
  have rw2 := rw1.keep s2 (by intro b hb1 hm; simp at hm; exact hne1 b hm hb1)
  obtain ⟨h3, e3, o3, s3⟩ := constructFromT_bad (ty := ty) (bad := bad) (h := h2) (q := v1.ptr) (cap := v1.cap) (owner := v1.alloc)
    (pre := (ys.take xs.length).map some) rw2 hne1 (ys.take xs.length) (ys.drop xs.length) us (x := x) (i := xs.length)
    (n := w.len - xs.length) (m := v1.cap - ys.length) (by rw [← List.append_assoc, ← hys])
    (by
      rw [show (ys.drop xs.length).length + (v1.cap - ys.length) = v1.cap - xs.length by simp; omega]
      simpa using o2)
    (by simp [Nat.min_eq_left hlt]) (by simp [Nat.min_eq_left hlt]) (by simp; omega)
    (fun y hy => hg y (List.mem_of_mem_drop hy)) hx
  rw [e3, Out.bind_ok]
  simp only [if_true, Prog.pure_run, Out.safe_ok]
  refine ⟨trivial, hl1, ?_⟩
  obtain ⟨h4, e4, o4, s4⟩ := destroy_loop (pre := []) (i := 0) (n := xs.length) (ys.take xs.length)
    (post := (ys.drop xs.length).map some ++ raws (v1.cap - ys.length)) (by simpa using o3) rfl (by simp [Nat.min_eq_left hlt])
  have hfree : ∃ h5, free ty v1.alloc v1.ptr v1.cap h4 = .ok ((), h5) ∧ h5.ctors = h4.ctors ∧ h5.dtors = h4.dtors := by
    cases hp : v1.ptr with
    | none => exact ⟨h4, rfl, rfl, rfl⟩
    | some b =>
      rw [hp] at o4
      simp only [Own] at o4
      refine ⟨{ h4 with blocks := upd h4.blocks b none, freeBytes := h4.freeBytes + v1.cap * ty.size }, ?_, rfl, rfl⟩
      have : wrap (v1.cap * ty.size) = v1.cap * ty.size := wrap_of_lt (by
        have := o4.2.2; have : wordSize = 18446744073709551616 := rfl; omega)
      simp only [free, o4.1, this, and_self, if_true]
  obtain ⟨h5, e5, c5, d5⟩ := hfree
  refine ⟨h5, ?_, ?_⟩
  · simp only [clear, destroyAll, deallocate, Prog.bind_run, hl1, e4, Out.bind_ok, Prog.pure_run, e5]
    rw [t1.alloc]; rfl
  · have a1 := t1.step.ctors; have a2 := s2.ctors; have a3 := s3.ctors; have a4 := s4.ctors
    have b1 := t1.step.dtors; have b2 := s2.dtors; have b3 := s3.dtors; have b4 := s4.dtors
    rw [c5, d5]
    have c0 : ∀ k : Cost, k = (if w.cap ≤ v.cap then 0 else ⟨xs.length, xs.length, 1⟩) → k.c = k.d := by
      intro k hk; subst hk; split <;> rfl
    have c1 := c0 _ rfl
    rw [c1] at a1
    have z1 : (0 : Cost).c = 0 := rfl
    have z2 : (0 : Cost).d = 0 := rfl
    simp at a2 a3 a4 b2 b3 b4
    omega

/-! ## When nothing throws -/

theorem Out.assoc {β γ δ : Type} (x : Out β) (f : β → Out γ) (g : γ → Out δ) : ((x >>= f) >>= g) = x >>= fun b => f b >>= g := by
  cases x <;> rfl

/-- `p'` does what `p` does and reports that nothing was thrown. -/
def Quiet {β : Type} (p : M α β) (p' : M α (Bool × β)) : Prop := ∀ h, p' h = (p h >>= fun q => .ok ((false, q.1), q.2))

theorem Quiet.bind {β γ : Type} (p : M α β) {f : β → M α γ} {f' : β → M α (Bool × γ)} (hf : ∀ b, Quiet (f b) (f' b)) :
    Quiet (p >>= f) (p >>= f') := by
  intro h
  simp only [Prog.bind_run, Out.assoc]
  congr 1; funext q; exact hf q.1 q.2

theorem Quiet.andThen {β γ : Type} {p : M α β} {p' : M α (Bool × β)} (hp : Quiet p p') {f : β → M α γ} {f' : Bool × β → M α (Bool × γ)}
    (hf : ∀ b, Quiet (f b) (f' (false, b))) : Quiet (p >>= f) (p' >>= f') := by
  intro h
  simp only [Prog.bind_run, hp h, Out.assoc, Out.bind_ok]
  congr 1; funext q; exact hf q.1 q.2

/-- the same for steps that return nothing -/
def QuietU (p : M α Unit) (p' : M α Bool) : Prop := ∀ h, p' h = (p h >>= fun q => .ok (false, q.2))

theorem QuietU.bind {β : Type} (p : M α β) {f : β → M α Unit} {f' : β → M α Bool} (hf : ∀ b, QuietU (f b) (f' b)) :
    QuietU (p >>= f) (p >>= f') := by
  intro h
  simp only [Prog.bind_run, Out.assoc]
  congr 1; funext q; exact hf q.1 q.2

theorem QuietU.andThen {γ : Type} {p : M α Unit} {p' : M α Bool} (hp : QuietU p p') {f : Unit → M α γ} {f' : Bool → M α (Bool × γ)}
    (hf : Quiet (f ()) (f' false)) : Quiet (p >>= f) (p' >>= f') := by
  intro h
  simp only [Prog.bind_run, hp h, Out.assoc, Out.bind_ok]
  congr 1; funext q; exact hf q.2

theorem quiet_pure {β : Type} (b : β) : Quiet (pure b : M α β) (pure (false, b)) := fun _ => rfl

variable (hno : ∀ x, bad x = false)
include hno

theorem pushBackT_quiet (v : Vec) (r : Ref α) : Quiet (pushBack ty v r) (pushBackT ty bad v r) := by
  unfold pushBack pushBackT
  refine Quiet.bind _ fun v => Quiet.bind _ fun x => ?_
  simp only [hno, Bool.false_eq_true, if_false]
  exact Quiet.bind _ fun _ => quiet_pure _

theorem pushListT_quiet (v : Vec) (xs : List α) : Quiet (pushList ty v xs) (pushListT ty bad v xs) := by
  induction xs generalizing v with
  | nil => exact quiet_pure _
  | cons x xs ih =>
    unfold pushList pushListT
    refine (pushBackT_quiet hno v (.tmp x)).andThen fun b => ?_
    simp only [Bool.false_eq_true, if_false]
    exact ih b

theorem assignListT_quiet (v : Vec) (xs : List α) : Quiet (assignList ty v xs) (assignListT ty bad v xs) :=
  Quiet.bind _ fun _ => Quiet.bind _ fun _ => pushListT_quiet hno _ xs

theorem constructListT_quiet (p : Option Nat) (i : Nat) (xs : List α) : QuietU (constructList p i xs) (constructListT bad p i xs) := by
  induction xs generalizing i with
  | nil => exact fun _ => rfl
  | cons x xs ih =>
    unfold constructList constructListT
    simp only [hno, Bool.false_eq_true, if_false]
    exact QuietU.bind _ fun _ => ih _

theorem constructFromT_quiet (p q : Option Nat) (i n : Nat) :
    QuietU (forUp i n fun i => do let x ← load p i; construct q i x) (constructFromT bad p q i n) := by
  induction n generalizing i with
  | zero => exact fun _ => rfl
  | succ n ih =>
    intro h
    simp only [forUp, constructFromT, Prog.bind_run, hno, Bool.false_eq_true, if_false, Out.assoc, ih _ _]

theorem stdCopyT_quiet (p q : Option Nat) (n : Nat) : QuietU (stdCopy p q n) (stdCopyT bad p q 0 n) := by
  unfold stdCopy
  generalize 0 = i
  induction n generalizing i with
  | zero => exact fun _ => rfl
  | succ n ih =>
    intro h
    simp only [forUp, stdCopyT, Prog.bind_run, hno, Bool.false_eq_true, if_false, Out.assoc, ih _ _]

theorem newListT_quiet (xs : List α) (a : Nat) (h : Heap α) :
    newListT ty bad xs a h = (newList ty xs a h >>= fun q => .ok (some q.1, q.2)) := by
  simp only [newListT, newList, Prog.bind_run, constructListT_quiet hno _ _ _ _, Out.assoc, Out.bind_ok, Prog.pure_run,
    Bool.false_eq_true, if_false]

theorem insertT_quiet (v : Vec) (pos : Nat) (r : Ref α) (h : Heap α) :
    insertT ty bad v pos r h = (insert ty v pos r h >>= fun q => .ok ((false, q.1.1), q.2)) := by
  simp only [insertT, Model.Vector.insert, Prog.bind_run, hno, Out.assoc, Out.bind_ok, Prog.pure_run, Bool.false_eq_true, if_false]

theorem insertRangeT_quiet (v : Vec) (pos : Nat) (xs : List α) (h : Heap α) :
    insertRangeT ty bad v pos xs h = (insertRange ty v pos xs h >>= fun q => .ok ((false, q.1.1), q.2)) := by
  simp only [insertRangeT, insertRange, Prog.bind_run, constructListT_quiet hno _ _ _ _, Out.assoc, Out.bind_ok, Prog.pure_run]

theorem copyImplT_quiet (v r : Vec) : Quiet (copyImpl ty v r) (copyImplT ty bad v r) :=
  Quiet.bind _ fun _ => (constructFromT_quiet hno _ _ _ _).andThen (quiet_pure _)

theorem copyAssignT_quiet (v r : Vec) : Quiet (copyAssign ty v r) (copyAssignT ty bad v r) := by
  unfold copyAssign copyAssignT
  split
  · refine Quiet.bind _ fun v => (stdCopyT_quiet hno _ _ _).andThen ?_
    simp only [Bool.false_eq_true, if_false]
    refine QuietU.andThen ?_ (by simpa using quiet_pure _)
    split
    · exact fun _ => rfl
    · split
      · exact constructFromT_quiet hno _ _ _ _
      · exact fun _ => rfl
  · exact Quiet.bind _ fun _ => copyImplT_quiet hno _ _

end Verif.Proof.Vector
