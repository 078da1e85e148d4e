import Verif.Model.Vector
import Verif.Proof.Mem
/-! # Vector: what every member does to a well-formed vector -/
namespace Verif.Proof.Vector
open Verif Verif.Model.Mem Verif.Model.Vector Verif.Proof.Mem

variable {α : Type} {ty : ElemTy α}

def raws (n : Nat) : List (Option α) := List.replicate n none

theorem raws_succ (n : Nat) : (raws (n + 1) : List (Option α)) = none :: raws n := rfl
theorem raws_zero : (raws 0 : List (Option α)) = [] := rfl
@[simp] theorem raws_length (n : Nat) : (raws n : List (Option α)).length = n := by simp [raws]
@[simp] theorem liveSlots_raws (n : Nat) : liveSlots (raws n : List (Option α)) = 0 := by simp [raws]
theorem raws_snoc (n : Nat) : (raws n ++ none :: l : List (Option α)) = none :: raws n ++ l := by
  induction n with
  | zero => rfl
  | succ n ih => simp only [raws_succ, List.cons_append, ih]
theorem raws_append (n m : Nat) : (raws n ++ raws m : List (Option α)) = raws (n + m) := by
  simp [raws]

/-- A well-formed vector with contents `xs`. -/
structure Rep (ty : ElemTy α) (h : Heap α) (v : Vec) (xs : List α) : Prop where
  len : v.len = xs.length
  own : Own ty h v.ptr v.cap v.alloc (xs.map some ++ raws (v.cap - xs.length))

theorem Rep.le {h : Heap α} {v : Vec} {xs : List α} (r : Rep ty h v xs) : xs.length ≤ v.cap := by
  have := r.own.length; simp at this; omega

theorem Rep.slot {h : Heap α} {v : Vec} {xs : List α} (r : Rep ty h v xs) {i : Nat} {x : α} (hi : xs[i]? = some x) :
    load v.ptr i h = .ok (x, h) := by
  apply load_ok r.own
  have hlt : i < xs.length := by rw [List.getElem?_eq_some_iff] at hi; exact hi.1
  rw [List.getElem?_append_left (by simpa using hlt), List.getElem?_map, hi]
  rfl

theorem Rep.keep {h h' : Heap α} {v : Vec} {xs : List α} {l l' : List Nat} {k : Cost} (r : Rep ty h v xs)
    (s : Step h l h' l' k) (hn : ∀ b, v.ptr = some b → b ∉ l) : Rep ty h' v xs := ⟨r.len, r.own.keep s hn⟩

/-- The result of a member that turns the buffer `p` of heap `h` into vector `v'` of heap `h'`. -/
structure To (ty : ElemTy α) (h : Heap α) (p : Option Nat) (xs : List α) (cap alloc : Nat) (k : Cost) (v' : Vec)
    (h' : Heap α) : Prop where
  rep : Rep ty h' v' xs
  step : Step h p.toList h' v'.ptr.toList k
  bal : Bal h'
  cap : v'.cap = cap
  alloc : v'.alloc = alloc

theorem To.same {h : Heap α} {v : Vec} {xs : List α} (r : Rep ty h v xs) (hb : Bal h) :
    To ty h v.ptr xs v.cap v.alloc 0 v h := ⟨r, Step.refl _ _, hb, rfl, rfl⟩

theorem To.trans {h h' h'' : Heap α} {p : Option Nat} {v v' : Vec} {xs ys : List α} {c a c' a' : Nat} {k k' : Cost}
    (t : To ty h p xs c a k v h') (t' : To ty h' v.ptr ys c' a' k' v' h'') : To ty h p ys c' a' (k + k') v' h'' :=
  ⟨t'.rep, t.step.trans t'.step, t'.bal, t'.cap, t'.alloc⟩

theorem To.cast {h h' : Heap α} {p : Option Nat} {v : Vec} {xs ys : List α} {c a c' a' : Nat} {k k' : Cost}
    (t : To ty h p xs c a k v h') (hx : xs = ys) (hc : c = c') (ha : a = a') (hk : k = k') : To ty h p ys c' a' k' v h' := by
  subst hx hc ha hk; exact t

/-! ## Loops -/

theorem destroy_loop {h : Heap α} {ptr : Option Nat} {cap owner : Nat} {pre post : List (Option α)} (xs : List α) {i n : Nat}
    (ho : Own ty h ptr cap owner (pre ++ (xs.map some ++ post))) (hi : i = pre.length) (hn : n = xs.length) :
    ∃ h', forUp i n (fun i => destroy ptr i) h = .ok ((), h') ∧
      Own ty h' ptr cap owner (pre ++ (raws n ++ post)) ∧ Step h ptr.toList h' ptr.toList ⟨0, n, 0⟩ := by
  induction xs generalizing h i pre n with
  | nil => subst hn; exact ⟨h, rfl, by simpa [raws] using ho, Step.refl _ _⟩
  | cons x xs ih =>
    subst hn
    obtain ⟨h1, e1, o1, s1⟩ := destroy_ok (pre := pre) (by simpa using ho) hi
    obtain ⟨h2, e2, o2, s2⟩ := ih (h := h1) (i := i + 1) (pre := pre ++ [none]) (by simpa using o1) (by simp [hi]) rfl
    refine ⟨h2, ?_, ?_, ?_⟩
    · simp only [List.length_cons, forUp, Prog.bind_run, e1, Out.bind_ok, e2]
    · simpa [raws_succ] using o2
    · have := s1.trans s2; simp only [Cost.add_mk] at this
      simpa [Nat.add_comm] using this

/-- the loop of allocate_reserve -/
theorem move_loop {h : Heap α} {p q : Option Nat} {cap cap' owner owner' : Nat} {pre post pre' : List (Option α)}
    (hpq : ∀ b, p = some b → q ≠ some b) (xs : List α) {i n m : Nat}
    (ho : Own ty h p cap owner (pre ++ (xs.map some ++ post)))
    (ho' : Own ty h q cap' owner' (pre' ++ raws (n + m))) (hi : i = pre.length) (hi' : i = pre'.length) (hn : n = xs.length) :
    ∃ h', forUp i n (fun i => do
        let x ← take ty p i
        construct q i x) h = .ok ((), h') ∧
      Own ty h' p cap owner (pre ++ ((xs.map ty.mv).map some ++ post)) ∧
      Own ty h' q cap' owner' (pre' ++ (xs.map some ++ raws m)) ∧
      Step h (p.toList ++ q.toList) h' (p.toList ++ q.toList) ⟨n, 0, 0⟩ := by
  induction xs generalizing h i pre pre' n with
  | nil =>
    subst hn
    exact ⟨h, rfl, by simpa using ho, by simpa using ho', Step.refl _ _⟩
  | cons x xs ih =>
    subst hn
    obtain ⟨h1, e1, o1, s1⟩ := take_ok (pre := pre) (by simpa using ho) hi
    have hq : Own ty h1 q cap' owner' (pre' ++ none :: raws (xs.length + m)) := by
      have := ho'.keep s1 (by intro b hb hm; simp at hm; exact hpq b hm hb)
      rw [show (x :: xs).length + m = (xs.length + m) + 1 by simp; omega, raws_succ] at this
      exact this
    obtain ⟨h2, e2, o2, s2⟩ := construct_ok (x := x) hq hi'
    have hp : Own ty h2 p cap owner (pre ++ some (ty.mv x) :: (xs.map some ++ post)) :=
      o1.keep s2 (by intro b hb hm; simp at hm; exact hpq b hb hm)
    obtain ⟨h3, e3, o3, o3', s3⟩ := ih (h := h2) (i := i + 1) (pre := pre ++ [some (ty.mv x)]) (pre' := pre' ++ [some x])
      (by simpa using hp) (by simpa using o2) (by simp [hi]) (by simp [hi']) rfl
    refine ⟨h3, ?_, by simpa using o3, by simpa using o3', ?_⟩
    · simp only [List.length_cons, forUp, Prog.bind_run, e1, e2, Out.bind_ok, e3]
    · have := (s1.weaken' q.toList).trans ((s2.weaken p.toList).trans s3)
      simp only [Cost.zero_def, Cost.add_mk] at this
      simpa [Nat.add_comm] using this

/-- copy-constructing from another buffer -/
theorem copy_loop {h : Heap α} {q : Option Nat} {cap' owner' : Nat} {pre' : List (Option α)} {r : Vec} {ys : List α}
    (hr : Rep ty h r ys) (hpq : ∀ b, q = some b → r.ptr ≠ some b) (zs xs : List α) {i n m : Nat}
    (hys : ys = zs ++ xs) (ho' : Own ty h q cap' owner' (pre' ++ raws (n + m))) (hi : i = zs.length)
    (hi' : i = pre'.length) (hn : n = xs.length) :
    ∃ h', forUp i n (fun i => do
        let x ← load r.ptr i
        construct q i x) h = .ok ((), h') ∧
      Own ty h' q cap' owner' (pre' ++ (xs.map some ++ raws m)) ∧ Step h q.toList h' q.toList ⟨n, 0, 0⟩ := by
  induction xs generalizing h i zs pre' n with
  | nil => subst hn; exact ⟨h, rfl, by simpa using ho', Step.refl _ _⟩
  | cons x xs ih =>
    subst hn
    have e1 : load r.ptr i h = .ok (x, h) := hr.slot (by rw [hys]; exact focus_get _ _ _ hi)
    have hq : Own ty h q cap' owner' (pre' ++ none :: raws (xs.length + m)) := by
      rw [show (x :: xs).length + m = (xs.length + m) + 1 by simp; omega, raws_succ] at ho'
      exact ho'
    obtain ⟨h2, e2, o2, s2⟩ := construct_ok (x := x) hq hi'
    obtain ⟨h3, e3, o3, s3⟩ := ih (h := h2) (i := i + 1) (zs := zs ++ [x]) (pre' := pre' ++ [some x])
      (hr.keep s2 (by intro b hb hm; simp at hm; exact hpq b hm hb)) (by simp [hys]) (by simpa using o2) (by simp [hi])
      (by simp [hi']) rfl
    refine ⟨h3, ?_, by simpa using o3, ?_⟩
    · simp only [List.length_cons, forUp, Prog.bind_run, e1, e2, Out.bind_ok, e3]
    · have := s2.trans s3
      simp only [Cost.add_mk] at this
      simpa [Nat.add_comm] using this

/-- assigning from another buffer -/
theorem stdCopy_loop {h : Heap α} {q : Option Nat} {cap' owner' : Nat} {pre' post : List (Option α)} {r : Vec} {ys : List α}
    (hr : Rep ty h r ys) (hpq : ∀ b, q = some b → r.ptr ≠ some b) (zs xs xs2 old : List α) {i n : Nat}
    (hys : ys = zs ++ (xs ++ xs2)) (ho' : Own ty h q cap' owner' (pre' ++ (old.map some ++ post))) (hi : i = zs.length)
    (hi' : i = pre'.length) (hn : n = xs.length) (hold : n = old.length) :
    ∃ h', forUp i n (fun k => do
        let x ← load r.ptr k
        store q k x) h = .ok ((), h') ∧
      Own ty h' q cap' owner' (pre' ++ (xs.map some ++ post)) ∧ Step h q.toList h' q.toList 0 := by
  induction xs generalizing h i zs pre' n old with
  | nil =>
    subst hn
    have : old = [] := by cases old <;> simp_all
    subst this
    exact ⟨h, rfl, by simpa using ho', Step.refl _ _⟩
  | cons x xs ih =>
    subst hn
    cases old with
    | nil => simp at hold
    | cons o old =>
      have e1 : load r.ptr i h = .ok (x, h) := hr.slot (by rw [hys]; exact focus_get _ _ _ hi)
      obtain ⟨h2, e2, o2, s2⟩ := store_ok (pre := pre') (y := x) (by simpa using ho') hi'
      obtain ⟨h3, e3, o3, s3⟩ := ih (h := h2) (i := i + 1) (zs := zs ++ [x]) (pre' := pre' ++ [some x]) (old := old)
        (hr.keep s2 (by intro b hb hm; simp at hm; exact hpq b hm hb)) (by simp [hys]) (by simpa using o2) (by simp [hi])
        (by simp [hi']) rfl (by simpa using hold)
      refine ⟨h3, ?_, by simpa using o3, ?_⟩
      · simp only [List.length_cons, forUp, Prog.bind_run, e1, e2, Out.bind_ok, e3]
      · exact s2.trans s3

theorem constructList_loop {h : Heap α} {q : Option Nat} {cap owner : Nat} {pre post : List (Option α)} (xs : List α) {i : Nat}
    (ho : Own ty h q cap owner (pre ++ (raws xs.length ++ post))) (hi : i = pre.length) :
    ∃ h', constructList q i xs h = .ok ((), h') ∧
      Own ty h' q cap owner (pre ++ (xs.map some ++ post)) ∧ Step h q.toList h' q.toList ⟨xs.length, 0, 0⟩ := by
  induction xs generalizing h i pre with
  | nil => exact ⟨h, rfl, by simpa [raws] using ho, Step.refl _ _⟩
  | cons x xs ih =>
    have hlt : i < wordSize := by
      have h1 := ho.length; have h2 := ho.cap_lt
      simp at h1; have : wordSize = 18446744073709551616 := rfl
      omega
    obtain ⟨h2, e2, o2, s2⟩ := construct_ok (pre := pre) (x := x) (by simpa [raws_succ] using ho) hi
    obtain ⟨h3, e3, o3, s3⟩ := ih (h := h2) (i := i + 1) (pre := pre ++ [some x]) (by simpa using o2) (by simp [hi])
    refine ⟨h3, ?_, by simpa using o3, ?_⟩
    · simp only [constructList, Prog.bind_run, wrap_of_lt hlt, e2, Out.bind_ok, e3]
    · have := s2.trans s3
      simp only [Cost.add_mk] at this
      simpa [Nat.add_comm] using this

/-! ## clear, reserve -/

theorem destroyAll_ok {h : Heap α} {v : Vec} {xs : List α} (r : Rep ty h v xs) (hb : Bal h) :
    ∃ h', destroyAll v h = .ok ({ v with len := 0 }, h') ∧
      To ty h v.ptr [] v.cap v.alloc ⟨0, xs.length, 0⟩ { v with len := 0 } h' := by
  obtain ⟨h1, e1, o1, s1⟩ := destroy_loop (pre := []) (i := 0) xs r.own rfl rfl
  refine ⟨h1, ?_, ⟨⟨rfl, ?_⟩, s1, s1.bal hb, rfl, rfl⟩⟩
  · simp only [destroyAll, Prog.bind_run, r.len, e1, Out.bind_ok, Prog.pure_run]
  · have hle := r.le
    simp only [List.nil_append, raws_append] at o1
    rw [show xs.length + (v.cap - xs.length) = v.cap by omega] at o1
    simpa using o1

theorem free_own {h : Heap α} {ptr : Option Nat} {cap owner : Nat} {sl : List (Option α)} (ho : Own ty h ptr cap owner sl)
    (hraw : liveSlots sl = 0) : ∃ h', free ty owner ptr cap h = .ok ((), h') ∧ Step h ptr.toList h' [] 0 := by
  cases ptr with
  | none => exact ⟨h, rfl, Step.refl _ _⟩
  | some b =>
    simp only [Own] at ho
    exact free_ok ty ho.1 rfl (by have := ho.2.2; have : wordSize = 18446744073709551616 := rfl; omega) hraw

theorem clear_ok {h : Heap α} {v : Vec} {xs : List α} (r : Rep ty h v xs) (hb : Bal h) :
    ∃ h', clear ty v h = .ok (Vec.blank v.alloc, h') ∧
      To ty h v.ptr [] 0 v.alloc ⟨0, xs.length, 0⟩ (Vec.blank v.alloc) h' := by
  obtain ⟨h1, e1, t1⟩ := destroyAll_ok r hb
  obtain ⟨h2, e2, s2⟩ := free_own t1.rep.own (by simp)
  have s := t1.step.trans s2
  refine ⟨h2, ?_, ⟨⟨rfl, by simp [Vec.blank, Own, raws]⟩, s, s.bal hb, rfl, rfl⟩⟩
  simp only [clear, deallocate, Prog.bind_run, e1, Out.bind_ok, e2, Prog.pure_run]
  rfl

theorem allocateReserve_ok {h : Heap α} {v : Vec} {xs : List α} (r : Rep ty h v xs) (hb : Bal h) {n : Nat} (hn : v.len ≤ n)
    (hw : n * ty.size < wordSize) :
    (allocateReserve ty v n h).Safe fun q => To ty h v.ptr xs n v.alloc ⟨xs.length, xs.length, 1⟩ q.1 q.2 ∧
      n * ty.size < 9223372036854775808 ∧ (∀ b, v.ptr = some b → q.1.ptr ≠ some b) := by
  unfold allocateReserve
  simp only [Prog.bind_run]
  apply (alloc_ok ty h v.alloc n hb hw).bind
  rintro ⟨b, h1⟩ ⟨hblk, hlim, s1⟩
  simp only at hblk s1 ⊢
  have r1 : Rep ty h1 v xs := r.keep s1 (by simp)
  have ho' : Own ty h1 (some b) n v.alloc ([] ++ raws (xs.length + (n - xs.length))) := by
    have := r.len
    rw [show xs.length + (n - xs.length) = n by omega]
    simp only [Own]
    exact ⟨by simpa [raws] using hblk, by simp, hlim⟩
  have hne : ∀ b', v.ptr = some b' → some b ≠ some b' := by
    intro b' hb' heq
    cases heq
    have h3 := s1.fresh b (by simp) (by simp)
    have h4 := r.own
    rw [hb'] at h4; simp only [Own] at h4
    rw [h3] at h4; simp at h4
  obtain ⟨h2, e2, o2, o2', s2⟩ := move_loop (pre := []) (i := 0) (post := raws (v.cap - xs.length)) hne xs
    (by simpa using r1.own) ho' rfl rfl rfl
  rw [r.len, e2, Out.bind_ok]
  have r2 : Rep ty h2 v (xs.map ty.mv) := ⟨by simp [r.len], by simpa using o2⟩
  obtain ⟨h3, e3, t3⟩ := clear_ok r2 (s2.bal (s1.bal hb))
  simp only [e3, Out.bind_ok, Prog.pure_run, Out.safe_ok]
  have o3 : Own ty h3 (some b) n v.alloc (xs.map some ++ raws (n - xs.length)) :=
    (by simpa using o2' : Own ty h2 (some b) n v.alloc _).keep t3.step (by
      intro b' hb' hm
      cases hb'
      simp at hm
      exact hne b hm rfl)
  refine ⟨⟨⟨rfl, o3⟩, ?_, t3.bal, rfl, rfl⟩, hlim, hne⟩
  have s3 : Step h2 (v.ptr.toList ++ [b]) h3 ([] ++ [b]) _ := t3.step.weaken' [b]
  have := (s1.weaken v.ptr.toList).trans (s2.trans s3)
  simpa [Vec.blank] using this

/-- what `reserve(n)` does to the capacity -/
theorem reserve_ok {h : Heap α} {v : Vec} {xs : List α} (r : Rep ty h v xs) (hb : Bal h) {n : Nat}
    (hw : n * ty.size < wordSize) :
    (reserve ty v n h).Safe fun q =>
      To ty h v.ptr xs (max v.cap n) v.alloc (if n ≤ v.cap then 0 else ⟨xs.length, xs.length, 1⟩) q.1 q.2 ∧
      (n ≤ v.cap → q.1 = v ∧ q.2 = h) ∧ (v.cap < n → ∀ b, v.ptr = some b → q.1.ptr ≠ some b) := by
  unfold reserve
  by_cases hc : n > v.cap
  · rw [if_pos hc, if_neg (by omega)]
    apply (allocateReserve_ok r hb (by have := r.le; have := r.len; omega) hw).mono
    rintro q ⟨t, _, hne⟩
    rw [Nat.max_eq_right (by omega)]
    exact ⟨t, fun h => by omega, fun _ => hne⟩
  · rw [if_neg hc, if_pos (by omega), Nat.max_eq_left (by omega)]
    exact ⟨To.same r hb, fun _ => ⟨rfl, rfl⟩, fun h => by omega⟩

def grown (cap : Nat) : Nat := if cap = 0 then 2 else 2 * cap

theorem extendSpace_ok {h : Heap α} {v : Vec} {xs : List α} (r : Rep ty h v xs) (hb : Bal h) :
    (extendSpace ty v h).Safe fun q => To ty h v.ptr xs (grown v.cap) v.alloc ⟨xs.length, xs.length, 1⟩ q.1 q.2 ∧
      (∀ b, v.ptr = some b → q.1.ptr ≠ some b) := by
  have hsm := r.own.small
  have hcl := r.own.cap_lt
  have hW : wordSize = 18446744073709551616 := rfl
  have hwr : wrap (2 * v.cap) = 2 * v.cap := wrap_of_lt (by omega)
  simp only [extendSpace, hwr]
  have hg : (if v.cap = 0 then 2 else 2 * v.cap) = grown v.cap := rfl
  rw [hg]
  have hgt : grown v.cap > v.cap := by unfold grown; split <;> omega
  have hw : grown v.cap * ty.size < wordSize := by
    unfold grown; split
    · have := ty.size_lt; omega
    · rw [Nat.mul_assoc]; omega
  simp only [reserve, if_pos hgt]
  apply (allocateReserve_ok r hb (by have := r.le; have := r.len; omega) hw).mono
  exact fun q h => ⟨h.1, h.2.2⟩

/-! ## Appending -/

/-- Reference `r` keeps denoting `x` whatever is done to the buffer `p`. -/
def Stable (h : Heap α) (p : Option Nat) (r : Ref α) (x : α) : Prop :=
  ∀ h' l' k, Step h p.toList h' l' k → deref r h' = .ok (x, h')

theorem Stable.step {h h' : Heap α} {p p' : Option Nat} {r : Ref α} {x : α} {k : Cost} (s : Stable h p r x)
    (st : Step h p.toList h' p'.toList k) : Stable h' p' r x := fun _ _ _ st' => s _ _ _ (st.trans st')

theorem Stable.now {h : Heap α} {p : Option Nat} {r : Ref α} {x : α} (s : Stable h p r x) : deref r h = .ok (x, h) :=
  s _ _ _ (Step.refl _ _)

theorem stable_tmp (h : Heap α) (p : Option Nat) (x : α) : Stable h p (.tmp x) x := fun _ _ _ _ => rfl

theorem stable_other {h : Heap α} {p : Option Nat} {w : Vec} {ys : List α} (r : Rep ty h w ys) {i : Nat} {x : α}
    (hi : ys[i]? = some x) (hne : ∀ b, w.ptr = some b → p ≠ some b) : Stable h p (.slot w.ptr i) x := by
  intro h' l' k s
  exact (r.keep s (by intro b hb hm; simp at hm; exact hne b hb hm)).slot hi

/-- Reference `r` denotes `x` as long as vector `v` is not reallocated. -/
inductive RefIs (h : Heap α) (v : Vec) (xs : List α) (r : Ref α) (x : α) : Prop
  | stable (s : Stable h v.ptr r x)
  | self (i : Nat) (hr : r = .slot v.ptr i) (hi : xs[i]? = some x)

theorem RefIs.now {h : Heap α} {v : Vec} {xs : List α} {r : Ref α} {x : α} (ri : RefIs h v xs r x) (rp : Rep ty h v xs) :
    deref r h = .ok (x, h) := by
  cases ri with
  | stable s => exact s.now
  | self i hr hi => subst hr; exact rp.slot hi

def pushCap (len cap : Nat) : Nat := if len < cap then cap else grown cap
def pushCost (len cap : Nat) : Cost := if len < cap then ⟨1, 0, 0⟩ else ⟨len + 1, len, 1⟩

theorem append_one {h : Heap α} {v : Vec} {xs : List α} (rp : Rep ty h v xs) (hb : Bal h) (x : α) (hlt : xs.length < v.cap) :
    ∃ h', construct v.ptr v.len x h = .ok ((), h') ∧
      To ty h v.ptr (xs ++ [x]) v.cap v.alloc ⟨1, 0, 0⟩ { v with len := v.len + 1 } h' := by
  obtain ⟨h1, e1, o1, s1⟩ := construct_ok (ty := ty) (h := h) (ptr := v.ptr) (i := v.len) (cap := v.cap) (owner := v.alloc)
    (pre := xs.map some) (post := raws (v.cap - xs.length - 1)) (x := x)
    (by rw [← raws_succ, show v.cap - xs.length - 1 + 1 = v.cap - xs.length by omega]; exact rp.own) (by simp [rp.len])
  refine ⟨h1, e1, ⟨⟨by simp [rp.len], ?_⟩, s1, s1.bal hb, rfl, rfl⟩⟩
  simpa [Nat.sub_sub] using o1

theorem pushBack_fit {h : Heap α} {v : Vec} {xs : List α} {r : Ref α} {x : α} (rp : Rep ty h v xs) (hb : Bal h)
    (ri : RefIs h v xs r x) (hlt : xs.length < v.cap) :
    ∃ h', pushBack ty v r h = .ok ({ v with len := v.len + 1 }, h') ∧
      To ty h v.ptr (xs ++ [x]) v.cap v.alloc ⟨1, 0, 0⟩ { v with len := v.len + 1 } h' ∧
      RefIs h' { v with len := v.len + 1 } (xs ++ [x]) r x := by
  obtain ⟨h1, e1, t1⟩ := append_one rp hb x hlt
  refine ⟨h1, ?_, t1, ?_⟩
  · have := rp.len
    simp only [pushBack, Prog.bind_run, show ¬ v.len ≥ v.cap by omega, if_false, Prog.pure_run, Out.bind_ok, ri.now rp, e1]
  · cases ri with
    | stable s => exact .stable (s.step t1.step)
    | self i hr hi =>
      refine .self i hr ?_
      have hl : i < xs.length := by rw [List.getElem?_eq_some_iff] at hi; exact hi.1
      rw [List.getElem?_append_left hl, hi]

theorem pushBack_ok {h : Heap α} {v : Vec} {xs : List α} {r : Ref α} {x : α} (rp : Rep ty h v xs) (hb : Bal h)
    (ri : Stable h v.ptr r x ∨ (xs.length < v.cap ∧ RefIs h v xs r x)) :
    (pushBack ty v r h).Safe fun q =>
      To ty h v.ptr (xs ++ [x]) (pushCap xs.length v.cap) v.alloc (pushCost xs.length v.cap) q.1 q.2 := by
  by_cases hlt : xs.length < v.cap
  · have ri' : RefIs h v xs r x := by
      rcases ri with s | ⟨_, s⟩
      · exact .stable s
      · exact s
    obtain ⟨h1, e1, t1, _⟩ := pushBack_fit rp hb ri' hlt
    rw [e1]
    simp only [Out.safe_ok, pushCap, pushCost, if_pos hlt]
    exact t1
  · have s : Stable h v.ptr r x := by
      rcases ri with s | ⟨hh, _⟩
      · exact s
      · exact absurd hh hlt
    simp only [pushBack, Prog.bind_run, pushCap, pushCost, if_neg hlt]
    rw [if_pos (by have := rp.len; omega)]
    apply (extendSpace_ok rp hb).bind
    rintro ⟨v1, h1⟩ ⟨t1, _⟩
    simp only at t1
    have s1 := s.step t1.step
    have hg : xs.length < v1.cap := by
      rw [t1.cap]; have := rp.le; unfold grown; split <;> omega
    obtain ⟨h2, e2, t2⟩ := append_one t1.rep t1.bal x hg
    simp only [s1.now, Out.bind_ok, e2, Prog.pure_run, Out.safe_ok]
    exact (t1.trans t2).cast rfl t1.cap t1.alloc (by simp)

theorem pushLoop_fit {h : Heap α} {v : Vec} {xs : List α} {r : Ref α} {x : α} (n : Nat) (rp : Rep ty h v xs) (hb : Bal h)
    (ri : n = 0 ∨ RefIs h v xs r x) (hfit : xs.length + n ≤ v.cap) :
    ∃ v' h', pushLoop ty r v n h = .ok (v', h') ∧
      To ty h v.ptr (xs ++ List.replicate n x) v.cap v.alloc ⟨n, 0, 0⟩ v' h' ∧ v'.ptr = v.ptr := by
  induction n generalizing h v xs with
  | zero => exact ⟨v, h, rfl, (To.same rp hb).cast (by simp) rfl rfl rfl, rfl⟩
  | succ n ih =>
    obtain ⟨h1, e1, t1, ri1⟩ := pushBack_fit rp hb (ri.resolve_left (by simp)) (by omega)
    obtain ⟨v2, h2, e2, t2, hp⟩ := ih t1.rep t1.bal (.inr ri1) (by simp; omega)
    refine ⟨v2, h2, ?_, ?_, hp⟩
    · simp only [pushLoop, Prog.bind_run, e1, Out.bind_ok, e2]
    · have := t1.trans t2
      simpa [List.replicate_succ, Nat.add_comm] using this

theorem pushList_fit {h : Heap α} {v : Vec} {xs : List α} (ys : List α) (rp : Rep ty h v xs) (hb : Bal h)
    (hfit : xs.length + ys.length ≤ v.cap) :
    ∃ v' h', pushList ty v ys h = .ok (v', h') ∧
      To ty h v.ptr (xs ++ ys) v.cap v.alloc ⟨ys.length, 0, 0⟩ v' h' ∧ v'.ptr = v.ptr := by
  induction ys generalizing h v xs with
  | nil => exact ⟨v, h, rfl, (To.same rp hb).cast (by simp) rfl rfl rfl, rfl⟩
  | cons y ys ih =>
    obtain ⟨h1, e1, t1, _⟩ := pushBack_fit rp hb (.stable (stable_tmp _ _ y)) (by simp at hfit; omega)
    obtain ⟨v2, h2, e2, t2, hp⟩ := ih t1.rep t1.bal (by simp at hfit ⊢; omega)
    refine ⟨v2, h2, ?_, ?_, hp⟩
    · simp only [pushList, Prog.bind_run, e1, Out.bind_ok, e2]
    · have := t1.trans t2
      simpa [Nat.add_comm] using this

/-- capacity and cost after `n` more appends -/
def growCap : Nat → Nat → Nat → Nat
  | 0, _, cap => cap
  | n + 1, len, cap => growCap n (len + 1) (pushCap len cap)

def growCost : Nat → Nat → Nat → Cost
  | 0, _, _ => 0
  | n + 1, len, cap => pushCost len cap + growCost n (len + 1) (pushCap len cap)

theorem pushList_ok {h : Heap α} {v : Vec} {xs : List α} (ys : List α) (rp : Rep ty h v xs) (hb : Bal h) :
    (pushList ty v ys h).Safe fun q =>
      To ty h v.ptr (xs ++ ys) (growCap ys.length xs.length v.cap) v.alloc (growCost ys.length xs.length v.cap) q.1 q.2 := by
  induction ys generalizing h v xs with
  | nil => simpa [pushList, growCap, growCost] using To.same rp hb
  | cons y ys ih =>
    simp only [pushList, Prog.bind_run]
    apply (pushBack_ok rp hb (.inl (stable_tmp _ _ y))).bind
    rintro ⟨v1, h1⟩ t1
    apply (ih t1.rep t1.bal).mono
    rintro ⟨v2, h2⟩ t2
    have hc : v1.cap = pushCap xs.length v.cap := t1.cap
    exact (t1.trans t2).cast (by simp) (by simp [growCap, hc]) t1.alloc (by simp [growCost, hc])

/-! ## Removing at the end -/

theorem popBack_ok {h : Heap α} {v : Vec} {xs : List α} {x : α} (rp : Rep ty h v (xs ++ [x])) (hb : Bal h) :
    ∃ h', popBack v h = .ok ({ v with len := xs.length }, h') ∧
      To ty h v.ptr xs v.cap v.alloc ⟨0, 1, 0⟩ { v with len := xs.length } h' := by
  have hl : v.len = xs.length + 1 := by simpa using rp.len
  have hcl := rp.own.cap_lt
  have hle := rp.le
  have hw : wsub v.len 1 = xs.length := by
    rw [wsub_of_le (by omega) (by have : wordSize = 18446744073709551616 := rfl; simp at hle; omega)]; omega
  obtain ⟨h1, e1, o1, s1⟩ := destroy_ok (ty := ty) (h := h) (ptr := v.ptr) (i := xs.length) (cap := v.cap) (owner := v.alloc)
    (pre := xs.map some) (x := x) (post := raws (v.cap - (xs ++ [x]).length)) (by simpa using rp.own) (by simp)
  refine ⟨h1, ?_, ⟨⟨rfl, ?_⟩, s1, s1.bal hb, rfl, rfl⟩⟩
  · simp only [popBack, Prog.bind_run, hw, e1, Out.bind_ok, Prog.pure_run]
  · rw [← raws_succ] at o1
    simp at o1 hle
    rw [show v.cap - (xs.length + 1) + 1 = v.cap - xs.length by omega] at o1
    exact o1

theorem popLoop_ok {h : Heap α} {v : Vec} {xs : List α} (ys : List α) (rp : Rep ty h v (xs ++ ys)) (hb : Bal h) {n : Nat}
    (hn : n = ys.length) :
    ∃ h', popLoop v n h = .ok ({ v with len := xs.length }, h') ∧
      To ty h v.ptr xs v.cap v.alloc ⟨0, n, 0⟩ { v with len := xs.length } h' := by
  induction n generalizing h v ys with
  | zero =>
    have : ys = [] := by cases ys <;> simp_all
    subst this
    have hl : v.len = xs.length := by simpa using rp.len
    have hv : { v with len := xs.length } = v := by rw [← hl]
    rw [hv]
    exact ⟨h, rfl, To.same (by simpa using rp) hb⟩
  | succ n ih =>
    have hne : ys ≠ [] := by intro hh; subst hh; simp at hn
    rcases List.eq_nil_or_concat ys with rfl | ⟨zs, y, rfl⟩
    · exact absurd rfl hne
    · simp only [List.concat_eq_append] at rp hn hne ⊢
      obtain ⟨h1, e1, t1⟩ := popBack_ok (xs := xs ++ zs) (x := y) (by simpa using rp) hb
      obtain ⟨h2, e2, t2⟩ := ih zs t1.rep t1.bal (by simpa using hn)
      refine ⟨h2, ?_, ?_⟩
      · simp only [popLoop, Prog.bind_run, e1, Out.bind_ok, e2]
      · have := t1.trans t2
        simpa [Nat.add_comm] using this

end Verif.Proof.Vector
