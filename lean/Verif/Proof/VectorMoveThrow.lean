import Verif.Proof.VectorThrow3
import Verif.Spec.VectorMoveThrow
/-! # Vector: element moves that throw -/
namespace Verif.Proof.Vector
open Verif Verif.Model.Mem Verif.Model.Vector Verif.Proof.Mem
open Verif.Spec.Vector hiding upd

variable {α : Type} {ty : ElemTy α} {bad : α → Bool}

/-- The program ends. -/
def Ends {β : Type} (x : Out β) : Prop := x = .panic ∨ x = .oom

theorem Ends.bind {β γ : Type} {x : Out β} {f : β → Out γ} (h : Ends x) : Ends (x >>= f) := by
  rcases h with h | h
  · left; rw [h]; rfl
  · right; rw [h]; rfl

theorem takeM_good {h : Heap α} {ptr : Option Nat} {i cap owner : Nat} {pre post : List (Option α)} {x : α}
    (ho : Own ty h ptr cap owner (pre ++ some x :: post)) (hi : i = pre.length) (hx : bad x = false) :
    takeM ty bad ptr i h = (take ty ptr i h >>= fun q => .ok (some q.1, q.2)) := by
  simp only [takeM, Prog.bind_run, load_ok ho (focus_get pre (some x) post hi), Out.bind_ok, hx, Bool.false_eq_true, if_false,
    Prog.pure_run]

theorem takeM_bad {h : Heap α} {ptr : Option Nat} {i cap owner : Nat} {pre post : List (Option α)} {x : α}
    (ho : Own ty h ptr cap owner (pre ++ some x :: post)) (hi : i = pre.length) (hx : bad x = true) :
    takeM ty bad ptr i h = .ok (none, h) := by
  simp only [takeM, Prog.bind_run, load_ok ho (focus_get pre (some x) post hi), Out.bind_ok, hx, if_true, Prog.pure_run]

/-! ## New memory -/

theorem relocLoop_at {h : Heap α} {p q : Option Nat} {cap cap' owner owner' : Nat} {pre post pre' : List (Option α)}
    (hpq : ∀ b, p = some b → q ≠ some b) (xs : List α) {i m : Nat}
    (ho : Own ty h p cap owner (pre ++ (xs.map some ++ post)))
    (ho' : Own ty h q cap' owner' (pre' ++ raws (xs.length + m))) (hi : i = pre.length) (hi' : i = pre'.length)
    (hg : ∀ x ∈ xs, bad x = false) :
    forUp i xs.length (fun i => relocM ty bad p q i) h = forUp i xs.length (fun i => do
        let x ← take ty p i
        construct q i x) h := by
  induction xs generalizing h i pre pre' with
  | nil => rfl
  | cons x xs ih =>
    obtain ⟨h1, e1, o1, s1⟩ := take_ok (pre := pre) (by simpa using ho) hi
    have e1' := takeM_good (bad := bad) (pre := pre) (by simpa using ho) hi (hg x (by simp))
    rw [e1, Out.bind_ok] at e1'
    have hq : Own ty h1 q cap' owner' (pre' ++ none :: raws (xs.length + m)) := by
      have := ho'.keep s1 (by intro b hb hm; simp at hm; exact hpq b hm hb)
      rw [show (x :: xs).length + m = (xs.length + m) + 1 by simp; omega, raws_succ] at this
      exact this
    obtain ⟨h2, e2, o2, s2⟩ := construct_ok (x := x) hq hi'
    have hp : Own ty h2 p cap owner (pre ++ some (ty.mv x) :: (xs.map some ++ post)) :=
      o1.keep s2 (by intro b hb hm; simp at hm; exact hpq b hb hm)
    have := ih (h := h2) (i := i + 1) (pre := pre ++ [some (ty.mv x)]) (pre' := pre' ++ [some x])
      (by simpa using hp) (by simpa using o2) (by simp [hi]) (by simp [hi']) (fun y hy => hg y (by simp [hy]))
    simp only [List.length_cons, forUp, relocM, Prog.bind_run, e1, e1', e2, Out.bind_ok]
    exact this

theorem relocLoop_ends {h : Heap α} {p q : Option Nat} {cap cap' owner owner' : Nat} {pre post pre' : List (Option α)}
    (hpq : ∀ b, p = some b → q ≠ some b) (xs : List α) {i m : Nat}
    (ho : Own ty h p cap owner (pre ++ (xs.map some ++ post)))
    (ho' : Own ty h q cap' owner' (pre' ++ raws (xs.length + m))) (hi : i = pre.length) (hi' : i = pre'.length)
    (hg : xs.any bad = true) :
    forUp i xs.length (fun i => relocM ty bad p q i) h = .panic := by
  induction xs generalizing h i pre pre' with
  | nil => simp at hg
  | cons x xs ih =>
    cases hx : bad x with
    | true =>
      have e1' := takeM_bad (bad := bad) (pre := pre) (by simpa using ho) hi hx
      simp only [List.length_cons, forUp, relocM, Prog.bind_run, e1', Out.bind_ok]
      rfl
    | false =>
      obtain ⟨h1, e1, o1, s1⟩ := take_ok (pre := pre) (by simpa using ho) hi
      have e1' := takeM_good (bad := bad) (pre := pre) (by simpa using ho) hi hx
      rw [e1, Out.bind_ok] at e1'
      have hq : Own ty h1 q cap' owner' (pre' ++ none :: raws (xs.length + m)) := by
        have := ho'.keep s1 (by intro b hb hm; simp at hm; exact hpq b hm hb)
        rw [show (x :: xs).length + m = (xs.length + m) + 1 by simp; omega, raws_succ] at this
        exact this
      obtain ⟨h2, e2, o2, s2⟩ := construct_ok (x := x) hq hi'
      have hp : Own ty h2 p cap owner (pre ++ some (ty.mv x) :: (xs.map some ++ post)) :=
        o1.keep s2 (by intro b hb hm; simp at hm; exact hpq b hb hm)
      have := ih (h := h2) (i := i + 1) (pre := pre ++ [some (ty.mv x)]) (pre' := pre' ++ [some x])
        (by simpa using hp) (by simpa using o2) (by simp [hi]) (by simp [hi']) (by simpa [hx] using hg)
      simp only [List.length_cons, forUp, relocM, Prog.bind_run, e1', e2, Out.bind_ok]
      exact this

/-- the new block of `allocate_reserve` -/
theorem reserve_setting {h : Heap α} {v : Vec} {xs : List α} (r : Rep ty h v xs) (hb : Bal h) {n : Nat} (hn : v.len ≤ n)
    (hw : n * ty.size < wordSize) :
    (alloc ty v.alloc n h).Safe fun q => (∀ b', v.ptr = some b' → some q.1 ≠ some b') ∧
      Own ty q.2 v.ptr v.cap v.alloc ([] ++ (xs.map some ++ raws (v.cap - xs.length))) ∧
      Own ty q.2 (some q.1) n v.alloc ([] ++ raws (xs.length + (n - xs.length))) := by
  refine (alloc_ok ty h v.alloc n hb hw).mono ?_
  rintro ⟨b, h1⟩ ⟨hblk, hlim, s1⟩
  simp only at hblk s1 ⊢
  have r1 : Rep ty h1 v xs := r.keep s1 (by simp)
  refine ⟨?_, by simpa using r1.own, ?_⟩
  · intro b' hb' heq
    cases heq
    have h3 := s1.fresh b (by simp) (by simp)
    have h4 := r.own
    rw [hb'] at h4; simp only [Own] at h4
    rw [h3] at h4; simp at h4
  · have := r.len
    rw [show xs.length + (n - xs.length) = n by omega]
    simp only [Own]
    exact ⟨by simpa [raws] using hblk, by simp, hlim⟩

theorem any_false {xs : List α} (h : xs.any bad = false) : ∀ x ∈ xs, bad x = false := by
  simpa [List.any_eq_false] using h

theorem allocateReserveM_at {h : Heap α} {v : Vec} {xs : List α} (r : Rep ty h v xs) (hb : Bal h) {n : Nat} (hn : v.len ≤ n)
    (hw : n * ty.size < wordSize) (hg : xs.any bad = false) :
    allocateReserveM ty bad v n h = allocateReserve ty v n h := by
  simp only [allocateReserveM, allocateReserve, Prog.bind_run]
  have := reserve_setting r hb hn hw
  cases he : alloc ty v.alloc n h with
  | ok q =>
    rw [he] at this
    obtain ⟨h1, h2, h3⟩ := this
    simp only [Out.bind_ok]
    rw [r.len, relocLoop_at (i := 0) h1 xs h2 h3 rfl rfl (any_false hg)]
  | _ => rfl

theorem allocateReserveM_ends {h : Heap α} {v : Vec} {xs : List α} (r : Rep ty h v xs) (hb : Bal h) {n : Nat} (hn : v.len ≤ n)
    (hw : n * ty.size < wordSize) (hg : xs.any bad = true) : Ends (allocateReserveM ty bad v n h) := by
  simp only [allocateReserveM, Prog.bind_run]
  have := reserve_setting r hb hn hw
  cases he : alloc ty v.alloc n h with
  | ok q =>
    rw [he] at this
    obtain ⟨h1, h2, h3⟩ := this
    simp only [Out.bind_ok]
    rw [r.len, relocLoop_ends (i := 0) h1 xs h2 h3 rfl rfl hg]
    exact .inl rfl
  | oom => exact .inr rfl
  | _ => rw [he] at this; exact this.elim

theorem reserveM_at {h : Heap α} {v : Vec} {xs : List α} (r : Rep ty h v xs) (hb : Bal h) {n : Nat}
    (hw : n * ty.size < wordSize) (hg : v.cap < n → xs.any bad = false) : reserveM ty bad v n h = reserve ty v n h := by
  unfold reserveM reserve
  by_cases hc : n > v.cap
  · rw [if_pos hc, if_pos hc]
    exact allocateReserveM_at r hb (by have := r.le; have := r.len; omega) hw (hg hc)
  · rw [if_neg hc, if_neg hc]

theorem reserveM_ends {h : Heap α} {v : Vec} {xs : List α} (r : Rep ty h v xs) (hb : Bal h) {n : Nat}
    (hw : n * ty.size < wordSize) (hc : v.cap < n) (hg : xs.any bad = true) : Ends (reserveM ty bad v n h) := by
  unfold reserveM
  rw [if_pos hc]
  exact allocateReserveM_ends r hb (by have := r.le; have := r.len; omega) hw hg

/-- the size `extend_space` asks for -/
theorem extend_size {h : Heap α} {v : Vec} {xs : List α} (r : Rep ty h v xs) :
    (if v.cap = 0 then 2 else wrap (2 * v.cap)) = grown v.cap ∧ grown v.cap > v.cap ∧ grown v.cap * ty.size < wordSize := by
  have hsm := r.own.small
  have hcl := r.own.cap_lt
  have hW : wordSize = 18446744073709551616 := rfl
  have hwr : wrap (2 * v.cap) = 2 * v.cap := wrap_of_lt (by omega)
  refine ⟨by rw [hwr]; rfl, by unfold grown; split <;> omega, ?_⟩
  unfold grown; split
  · have := ty.size_lt; omega
  · rw [Nat.mul_assoc]; omega

theorem extendSpaceM_at {h : Heap α} {v : Vec} {xs : List α} (r : Rep ty h v xs) (hb : Bal h) (hg : xs.any bad = false) :
    extendSpaceM ty bad v h = extendSpace ty v h := by
  obtain ⟨e, _, hw⟩ := extend_size r
  simp only [extendSpaceM, extendSpace, e]
  exact reserveM_at r hb hw (fun _ => hg)

theorem extendSpaceM_ends {h : Heap α} {v : Vec} {xs : List α} (r : Rep ty h v xs) (hb : Bal h) (hg : xs.any bad = true) :
    Ends (extendSpaceM ty bad v h) := by
  obtain ⟨e, hlt, hw⟩ := extend_size r
  simp only [extendSpaceM, e]
  exact reserveM_ends r hb hw hlt hg

/-! ## Appending -/

theorem pushBackM_at {h : Heap α} {v : Vec} {xs : List α} {r : Ref α} {x : α} {own : Bool} (rp : Rep ty h v xs) (hb : Bal h)
    (hx : (own && bad x) = false) (hg : v.cap ≤ xs.length → xs.any bad = false)
    (ri : Stable h v.ptr r x ∨ (xs.length < v.cap ∧ RefIs h v xs r x)) : QAt (pushBack ty v r) (pushBackM ty bad own v r) h := by
  simp only [QAt, pushBackM, pushBack, Prog.bind_run]
  have hl := rp.len
  by_cases hlt : xs.length < v.cap
  · have e : deref r h = .ok (x, h) := by
      rcases ri with s | ⟨_, s⟩
      · exact s.now
      · exact s.now rp
    rw [if_neg (by omega), if_neg (by omega)]
    simp only [Prog.pure_run, Out.bind_ok, e, hx, Bool.false_eq_true, if_false, Prog.bind_run]
    cases construct v.ptr v.len x h <;> rfl
  · have s : Stable h v.ptr r x := by
      rcases ri with s | ⟨hh, _⟩
      · exact s
      · exact absurd hh hlt
    rw [if_pos (by omega), if_pos (by omega), extendSpaceM_at rp hb (hg (by omega))]
    have := extendSpace_ok rp hb
    cases he : extendSpace ty v h with
    | ok p =>
      rw [he] at this
      simp only [Out.bind_ok, (s.step this.1.step).now, hx, Bool.false_eq_true, if_false, Prog.bind_run]
      cases construct p.1.ptr p.1.len x p.2 <;> rfl
    | _ => rfl

theorem pushBackM_ends {h : Heap α} {v : Vec} {xs : List α} {r : Ref α} {own : Bool} (rp : Rep ty h v xs) (hb : Bal h)
    (hc : v.cap ≤ xs.length) (hg : xs.any bad = true) : Ends (pushBackM ty bad own v r h) := by
  have hl := rp.len
  simp only [pushBackM, Prog.bind_run]
  rw [if_pos (by omega)]
  exact (extendSpaceM_ends rp hb hg).bind

theorem pushBackM_hurt {h : Heap α} {v : Vec} {xs : List α} (rp : Rep ty h v xs) (hb : Bal h) {r : Ref α} {x : α} (hx : bad x = true)
    (hg : v.cap ≤ xs.length → xs.any bad = false)
    (hr : Stable h v.ptr r x ∨ (xs.length < v.cap ∧ RefIs h v xs r x)) :
    (pushBackM ty bad true v r h).Safe fun q => q.1.1 = true ∧ Hurt ty h v.ptr q.1.2 q.2 := by
  have e : pushBackM ty bad true v r h = pushBackT ty bad v r h := by
    have hl := rp.len
    simp only [pushBackM, pushBackT, Prog.bind_run, Bool.true_and]
    by_cases hlt : v.len ≥ v.cap
    · rw [if_pos hlt, if_pos hlt, extendSpaceM_at rp hb (hg (by omega))]
    · rw [if_neg hlt, if_neg hlt]
  rw [e]
  exact pushBackT_hurt rp hb hx hr

/-! ## Moving back -/

theorem moveBackLoopM_at {h : Heap α} {p : Option Nat} {cap owner c pos : Nat} {post : List (Option α)} (zs : List α) (hz : zs ≠ [])
    (hc : 0 < c) (n : Nat) (rest moved : List α) (hn : n = rest.length) {hi : Nat} (hhi : hi + 1 = zs.length + rest.length)
    (hpos : pos = zs.length)
    (ho : Own ty h p cap owner (zs.map some ++ (rest.map some ++ (raws c ++ (moved.map some ++ post)))))
    (hg : ∀ x ∈ rest, bad x = false) : QAtU (moveBackLoop ty p c pos hi) (moveBackLoopM ty bad p c pos hi) h := by
  induction n generalizing h rest moved hi with
  | zero =>
    have : rest = [] := List.length_eq_zero_iff.1 hn.symm
    subst this
    have hlt : ¬ hi ≥ pos := by have := List.length_pos_iff.2 hz; simp at hhi; omega
    rw [QAtU, moveBackLoop, if_neg hlt, moveBackLoopM, if_neg hlt]
    rfl
  | succ n ih =>
    rcases List.eq_nil_or_concat rest with rfl | ⟨rest', x, rfl⟩
    · simp at hn
    · simp only [List.concat_eq_append] at *
      simp only [List.length_append, List.length_cons, List.length_nil] at hhi
      have hhi2 : hi = zs.length + rest'.length := by omega
      have hzp := List.length_pos_iff.2 hz
      have hlen := ho.length
      have hcl := ho.cap_lt
      have hW : wordSize = 18446744073709551616 := rfl
      simp only [List.length_append, List.length_map, raws_length, List.length_cons, List.length_nil] at hlen
      obtain ⟨h1, e1, o1, s1⟩ := take_ok (ty := ty) (h := h) (ptr := p) (i := hi) (cap := cap) (owner := owner)
        (pre := zs.map some ++ rest'.map some) (x := x) (post := raws c ++ (moved.map some ++ post))
        (by simpa using ho) (by simp [hhi2])
      have e1' := takeM_good (bad := bad) (h := h) (ptr := p) (i := hi) (cap := cap) (owner := owner)
        (pre := zs.map some ++ rest'.map some) (x := x) (post := raws c ++ (moved.map some ++ post))
        (by simpa using ho) (by simp [hhi2]) (hg x (by simp))
      rw [e1, Out.bind_ok] at e1'
      obtain ⟨h2, e2, o2, s2⟩ := construct_ok (ty := ty) (h := h1) (ptr := p) (i := wrap (hi + c)) (cap := cap) (owner := owner)
        (pre := zs.map some ++ rest'.map some ++ some (ty.mv x) :: raws (c - 1)) (x := x) (post := moved.map some ++ post)
        (by
          rw [show c = c - 1 + 1 by omega, raws_last] at o1
          simpa using o1)
        (by rw [wrap_of_lt (by omega)]; simp [hhi2]; omega)
      obtain ⟨h3, e3, o3, s3⟩ := destroy_ok (ty := ty) (h := h2) (ptr := p) (i := hi) (cap := cap) (owner := owner)
        (pre := zs.map some ++ rest'.map some) (x := ty.mv x) (post := raws (c - 1) ++ (some x :: (moved.map some ++ post)))
        (by simpa using o2) (by simp [hhi2])
      have := ih (h := h3) rest' (x :: moved) (by simpa using hn) (hi := wsub hi 1)
        (by rw [wsub_of_le (by omega) (by omega)]; omega) (by
          have : (none : Option α) :: raws (c - 1) = raws c := by rw [← raws_succ]; congr 1; omega
          rw [List.append_assoc, ← List.cons_append, this] at o3
          simpa using o3) (fun y hy => hg y (by simp [hy]))
      rw [QAtU, moveBackLoop, moveBackLoopM, if_pos (by omega), if_pos (by omega)]
      simp only [Prog.bind_run, e1, e1', e2, e3, Out.bind_ok]
      exact this

theorem moveBackLoopM_bad {h : Heap α} {p : Option Nat} {cap owner c pos : Nat} {post : List (Option α)} (zs : List α) (hz : zs ≠ [])
    (hc : 0 < c) (n : Nat) (rest ts moved : List α) {x : α} (hn : n = ts.length) {hi : Nat}
    (hhi : hi + 1 = zs.length + (rest ++ x :: ts).length) (hpos : pos = zs.length)
    (ho : Own ty h p cap owner (zs.map some ++ ((rest ++ x :: ts).map some ++ (raws c ++ (moved.map some ++ post)))))
    (hg : ∀ y ∈ ts, bad y = false) (hx : bad x = true) :
    ∃ h', moveBackLoopM ty bad p c pos hi h = .ok (true, h') ∧
      Own ty h' p cap owner (zs.map some ++ ((rest ++ [x]).map some ++ (raws c ++ ((ts ++ moved).map some ++ post)))) ∧
      (∃ k, Step h p.toList h' p.toList k) ∧ (ts = [] → h' = h) := by
  induction n generalizing h ts moved hi with
  | zero =>
    have : ts = [] := List.length_eq_zero_iff.1 hn.symm
    subst this
    simp only [List.length_append, List.length_cons, List.length_nil] at hhi
    have e1' := takeM_bad (bad := bad) (h := h) (ptr := p) (i := hi) (cap := cap) (owner := owner)
      (pre := zs.map some ++ rest.map some) (x := x) (post := raws c ++ (moved.map some ++ post))
      (by simpa using ho) (by simp; omega) hx
    refine ⟨h, ?_, by simpa using ho, ⟨_, Step.refl _ _⟩, fun _ => rfl⟩
    rw [moveBackLoopM, if_pos (by omega)]
    simp only [Prog.bind_run, e1', Out.bind_ok]
    rfl
  | succ n ih =>
    rcases List.eq_nil_or_concat ts with rfl | ⟨ts', y, rfl⟩
    · simp at hn
    · simp only [List.concat_eq_append] at *
      simp only [List.length_append, List.length_cons, List.length_nil] at hhi
      have hhi2 : hi = zs.length + (rest.length + (ts'.length + 1)) := by omega
      have hzp := List.length_pos_iff.2 hz
      have hlen := ho.length
      have hcl := ho.cap_lt
      have hW : wordSize = 18446744073709551616 := rfl
      simp only [List.length_append, List.length_map, raws_length, List.length_cons, List.length_nil] at hlen
      obtain ⟨h1, e1, o1, s1⟩ := take_ok (ty := ty) (h := h) (ptr := p) (i := hi) (cap := cap) (owner := owner)
        (pre := zs.map some ++ (rest ++ x :: ts').map some) (x := y) (post := raws c ++ (moved.map some ++ post))
        (by simpa using ho) (by simp [hhi2])
      have e1' := takeM_good (bad := bad) (h := h) (ptr := p) (i := hi) (cap := cap) (owner := owner)
        (pre := zs.map some ++ (rest ++ x :: ts').map some) (x := y) (post := raws c ++ (moved.map some ++ post))
        (by simpa using ho) (by simp [hhi2]) (hg y (by simp))
      rw [e1, Out.bind_ok] at e1'
      obtain ⟨h2, e2, o2, s2⟩ := construct_ok (ty := ty) (h := h1) (ptr := p) (i := wrap (hi + c)) (cap := cap) (owner := owner)
        (pre := zs.map some ++ (rest ++ x :: ts').map some ++ some (ty.mv y) :: raws (c - 1)) (x := y) (post := moved.map some ++ post)
        (by
          rw [show c = c - 1 + 1 by omega, raws_last] at o1
          simpa using o1)
        (by rw [wrap_of_lt (by omega)]; simp [hhi2]; omega)
      obtain ⟨h3, e3, o3, s3⟩ := destroy_ok (ty := ty) (h := h2) (ptr := p) (i := hi) (cap := cap) (owner := owner)
        (pre := zs.map some ++ (rest ++ x :: ts').map some) (x := ty.mv y) (post := raws (c - 1) ++ (some y :: (moved.map some ++ post)))
        (by simpa using o2) (by simp [hhi2])
      obtain ⟨h4, e4, o4, ⟨k, s4⟩, _⟩ := ih (h := h3) ts' (y :: moved) (by simpa using hn) (hi := wsub hi 1)
        (by rw [wsub_of_le (by omega) (by omega)]; simp; omega) (by
          have : (none : Option α) :: raws (c - 1) = raws c := by rw [← raws_succ]; congr 1; omega
          rw [List.append_assoc, ← List.cons_append, this] at o3
          simpa using o3) (fun y hy => hg y (by simp [hy]))
      refine ⟨h4, ?_, by simpa using o4, ⟨_, s1.trans (s2.trans (s3.trans s4))⟩, by simp⟩
      rw [moveBackLoopM, if_pos (by omega)]
      simp only [Prog.bind_run, e1', e2, e3, Out.bind_ok, e4]

theorem moveElementsBackM_at {h : Heap α} {v : Vec} {zs ts : List α} {c pos : Nat} (rp : Rep ty h v (zs ++ ts)) (hb : Bal h)
    (hz : zs ≠ []) (hc : 0 < c ∨ ts = []) (hpos : pos = zs.length)
    (hw : (zs.length + ts.length + c) * ty.size < wordSize)
    (hg1 : v.cap < zs.length + ts.length + c → (zs ++ ts).any bad = false) (hg2 : ts.any bad = false) :
    QAt (moveElementsBack ty v pos c) (moveElementsBackM ty bad v pos c) h := by
  have hl : v.len = zs.length + ts.length := by simpa using rp.len
  have hzp := List.length_pos_iff.2 hz
  have hlt : zs.length + ts.length + c < wordSize :=
    Nat.lt_of_le_of_lt (Nat.le_mul_of_pos_right _ ty.size_pos) hw
  simp only [QAt, moveElementsBack, moveElementsBackM]
  have hl0 : v.len ≠ 0 := by omega
  simp only [if_neg hl0, Prog.bind_run]
  have hwr : wrap (v.len + c) = zs.length + ts.length + c := by rw [hl, wrap_of_lt hlt]
  rw [hwr]
  have e : ((if zs.length + ts.length + c > v.cap then reserveM ty bad v (zs.length + ts.length + c) else pure v) h : Out _) =
      (if zs.length + ts.length + c > v.cap then reserve ty v (zs.length + ts.length + c) else pure v) h := by
    split
    · exact reserveM_at rp hb hw hg1
    · rfl
  rw [e]
  have key : ((if zs.length + ts.length + c > v.cap then reserve ty v (zs.length + ts.length + c) else pure v) h : Out _).Safe
      fun q => ∃ k, To ty h v.ptr (zs ++ ts) (max v.cap (zs.length + ts.length + c)) v.alloc k q.1 q.2 := by
    by_cases hgt : zs.length + ts.length + c > v.cap
    · rw [if_pos hgt]
      exact (reserve_ok rp hb hw).mono fun q hq => ⟨_, hq.1⟩
    · rw [if_neg hgt]
      exact ⟨_, (To.same rp hb).cast rfl (by omega) rfl rfl⟩
  cases he : ((if zs.length + ts.length + c > v.cap then reserve ty v (zs.length + ts.length + c) else pure v) h : Out _) with
  | ok q =>
    rw [he] at key
    obtain ⟨v1, h1⟩ := q
    obtain ⟨k, t1⟩ := key
    simp only at t1
    simp only [Out.bind_ok]
    have hcap : v1.cap = max v.cap (zs.length + ts.length + c) := t1.cap
    have hl1 : v1.len = zs.length + ts.length := by simpa using t1.rep.len
    have ho := t1.rep.own
    have e2 : QAtU (moveBackLoop ty v1.ptr c pos (v1.len - 1)) (moveBackLoopM ty bad v1.ptr c pos (v1.len - 1)) h1 := by
      by_cases hts : ts = []
      · subst hts
        have hlt : ¬ (v1.len - 1 ≥ pos) := by simp at hl1; omega
        rw [QAtU, moveBackLoop, if_neg hlt, moveBackLoopM, if_neg hlt]
        rfl
      · have hc' : 0 < c := hc.resolve_right hts
        exact moveBackLoopM_at (ty := ty) (h := h1) (p := v1.ptr) (cap := v1.cap) (owner := v1.alloc) (c := c)
          (post := raws (v1.cap - (zs.length + c + ts.length))) zs hz hc' ts.length ts [] rfl (hi := v1.len - 1) (by omega) hpos (by
            simp only [List.map_append, List.append_assoc, List.length_append] at ho
            rw [show v1.cap - (zs.length + ts.length) = c + (v1.cap - (zs.length + c + ts.length)) by omega, ← raws_append] at ho
            simpa using ho) (any_false hg2)
    rw [QAtU] at e2
    rw [e2]
    simp only [Out.assoc, Out.bind_ok, Bool.false_eq_true, if_false, Prog.pure_run]
  | _ => rfl

theorem moveElementsBackM_ends {h : Heap α} {v : Vec} {xs : List α} {c pos : Nat} (rp : Rep ty h v xs) (hb : Bal h)
    (hw : (xs.length + c) * ty.size < wordSize) (hc : v.cap < xs.length + c) (hg : xs.any bad = true) :
    Ends (moveElementsBackM ty bad v pos c h) := by
  have hl := rp.len
  have hne : xs ≠ [] := by intro e; subst e; simp at hg
  have hp := List.length_pos_iff.2 hne
  have hlt : xs.length + c < wordSize := Nat.lt_of_le_of_lt (Nat.le_mul_of_pos_right _ ty.size_pos) hw
  unfold moveElementsBackM
  rw [if_neg (by omega)]
  simp only [Prog.bind_run]
  have hwr : wrap (v.len + c) = xs.length + c := by rw [hl, wrap_of_lt hlt]
  rw [hwr, if_pos hc]
  exact (reserveM_ends rp hb hw hc hg).bind

/-- what is left when moving back throws -/
theorem moveElementsBackM_bad {h : Heap α} {v : Vec} {zs rest ts : List α} {x : α} {c pos : Nat}
    (rp : Rep ty h v (zs ++ (rest ++ x :: ts))) (hz : zs ≠ []) (hc : 0 < c) (hpos : pos = zs.length)
    (hfit : zs.length + (rest ++ x :: ts).length + c ≤ v.cap) (hg : ∀ y ∈ ts, bad y = false) (hx : bad x = true) :
    ∃ h', moveElementsBackM ty bad v pos c h = .ok ((true, v), h') ∧ (ts = [] → h' = h) ∧ (ts ≠ [] → Hurt ty h v.ptr v h') := by
  have hl : v.len = zs.length + (rest ++ x :: ts).length := by rw [rp.len, List.length_append]
  have hcl := rp.own.cap_lt
  have hW : wordSize = 18446744073709551616 := rfl
  have hwr : wrap (v.len + c) = v.len + c := wrap_of_lt (by omega)
  have ho := rp.own
  obtain ⟨h1, e1, o1, s1, hh⟩ := moveBackLoopM_bad (bad := bad) (ty := ty) (h := h) (p := v.ptr) (cap := v.cap) (owner := v.alloc) (c := c)
    (post := raws (v.cap - (zs.length + c + (rest ++ x :: ts).length))) zs hz hc ts.length rest ts [] rfl (hi := v.len - 1)
    (by have := List.length_pos_iff.2 hz; omega) hpos (by
      simp only [List.map_append, List.append_assoc] at ho
      rw [show v.cap - (zs ++ (rest ++ x :: ts)).length = c + (v.cap - (zs.length + c + (rest ++ x :: ts).length)) by
        rw [List.length_append]; omega, ← raws_append] at ho
      simpa using ho) hg hx
  have hlen : v.len ≠ 0 := by have := List.length_pos_iff.2 hz; omega
  refine ⟨h1, ?_, hh, fun hts => ⟨⟨zs ++ (rest ++ [x]), _, by simpa using o1, ?_, ?_⟩, s1, ?_⟩⟩
  · unfold moveElementsBackM
    rw [if_neg hlen]
    simp only [Prog.bind_run]
    rw [hwr, if_neg (by omega)]
    simp only [Prog.pure_run, Out.bind_ok, e1, if_true]
  · have := List.length_pos_iff.2 hts
    rw [hl]; simp; omega
  · intro y
    obtain ⟨c, rfl⟩ : ∃ m, c = m + 1 := ⟨c - 1, by omega⟩
    simp [raws, List.replicate_succ]
  · omega

end Verif.Proof.Vector
