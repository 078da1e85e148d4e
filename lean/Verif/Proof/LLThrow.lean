import Mathlib.Data.List.Perm.Subperm
import Verif.Proof.LLFail
import Verif.Model.LinkedListThrow
import Verif.Proof.LLFault
/-! # Linked lists: comparison functions that throw -/
namespace Verif.Proof.LL
open Verif Verif.Model.LL
open Verif.Spec.LL hiding sorted
open Verif.Proof.Mem (Cost)

variable {α β : Type} {cfg : Cfg α} {h h' h1 h2 : Heap α} {own hd tl hd2 tl2 : Nat} {cs ds a b u v ps c1 c2 : Cells α} {c d x y : Nat × α}
  {e ea eb : Ptr} {less : α → α → Bool} {thr : Nat → Bool} {k : Nat}

/-! ### Chains that end elsewhere -/

/-- the nodes `l`, each followed by the next one, the last followed by `e` -/
def Ends (h : Heap α) (e : Ptr) : List Nat → Prop
  | [] => False
  | [a] => h.nxt a = some e
  | a :: b :: l => h.nxt a = some (some b) ∧ Ends h e (b :: l)

theorem Ends.congr {l : List Nat} (d : Ends h e l) (hn : ∀ a ∈ l, h'.nxt a = h.nxt a) : Ends h' e l := by
  induction l with
  | nil => exact d.elim
  | cons a l ih =>
    cases l with
    | nil => simp only [Ends] at d ⊢; rw [hn a (by simp)]; exact d
    | cons b l => exact ⟨by rw [hn a (by simp)]; exact d.1, ih d.2 fun c hc => hn c (List.mem_cons_of_mem _ hc)⟩

theorem walk_null (acc : List α) : walk (some tl) none acc h = .ub := by
  rw [walk, if_neg (by simp)]; rfl

theorem destroyLoop_null : destroyLoop cfg own (some tl) none h = .ub := by
  rw [destroyLoop, if_neg (by simp)]; rfl

theorem walk_nullEnd {l : List Nat} {a : Nat} (d : Ends h none (a :: l)) (ht : tl ∉ a :: l) (acc : List α) : walk (some tl) (some a) acc h = .ub := by
  induction l generalizing a acc with
  | nil =>
    rw [walk, if_neg (by simp at ht ⊢; exact fun e => ht e.symm)]
    simp only [Prog.bind_run]
    rcases load_cases (h := h) (some a) with e | ⟨x, e⟩ <;> rw [e]
    · rfl
    · simp only [Out.bind_ok]
      rcases getNext_cases (show h.nxt a = some none from d) with e | e <;> rw [e]
      · rfl
      · exact walk_null _
  | cons b l ih =>
    rw [walk, if_neg (by simp at ht ⊢; exact fun e => ht.1 e.symm)]
    simp only [Prog.bind_run]
    rcases load_cases (h := h) (some a) with e | ⟨x, e⟩ <;> rw [e]
    · rfl
    · simp only [Out.bind_ok]
      rcases getNext_cases d.1 with e | e <;> rw [e]
      · rfl
      · exact ih d.2 (fun hm => ht (List.mem_cons_of_mem _ hm)) _

theorem destroyLoop_nullEnd {l : List Nat} {a : Nat} (d : Ends h none (a :: l)) (ht : tl ∉ a :: l) :
    destroyLoop cfg own (some tl) (some a) h = .ub := by
  induction l generalizing a h with
  | nil =>
    rw [destroyLoop, if_neg (by simp at ht ⊢; exact fun e => ht e.symm)]
    simp only [Prog.bind_run]
    rcases getNext_cases (show h.nxt a = some none from d) with e | e <;> rw [e]
    · rfl
    · simp only [Out.bind_ok]
      rcases destroyNode_cases (cfg := cfg) (own := own) (h := h) (some a) with e | ⟨h', e, hn⟩ <;> rw [e]
      · rfl
      · exact destroyLoop_null
  | cons b l ih =>
    rw [destroyLoop, if_neg (by simp at ht ⊢; exact fun e => ht.1 e.symm)]
    simp only [Prog.bind_run]
    rcases getNext_cases d.1 with e | e <;> rw [e]
    · rfl
    · simp only [Out.bind_ok]
      rcases destroyNode_cases (cfg := cfg) (own := own) (h := h) (some a) with e | ⟨h', e, hn⟩ <;> rw [e]
      · rfl
      · exact ih (d.2.congr fun c _ => by rw [hn]) (fun hm => ht (List.mem_cons_of_mem _ hm))

/-- a list whose chain ends in null can neither be traversed nor destroyed -/
theorem nullBroken {l : List Nat} {len a : Nat} (d : Ends h none (hd :: l)) (hl : l ≠ []) (ht : tl ∉ l) :
    traverse ⟨some hd, some tl, len, a⟩ h = .ub ∧ destruct cfg ⟨some hd, some tl, len, a⟩ h = .ub := by
  cases l with
  | nil => exact absurd rfl hl
  | cons b l =>
    constructor
    · simp only [traverse, Prog.bind_run]
      rcases getNext_cases d.1 with e | e <;> rw [e]
      · rfl
      · exact walk_nullEnd d.2 ht []
    · simp only [destruct, clear, Prog.bind_run]
      rw [if_neg (by simp)]
      simp only [Prog.bind_run]
      rcases getNext_cases d.1 with e | e <;> rw [e]
      · rfl
      · simp only [Out.bind_ok]; rw [destroyLoop_nullEnd d.2 ht]; rfl

/-- following `next` from `x` stays in `S` until it reaches `e` -/
def Doomed (h : Heap α) (e : Ptr) (S : List Nat) (x : Nat) : Prop := ∃ l, Ends h e (x :: l) ∧ ∀ y ∈ x :: l, y ∈ S

theorem Doomed.mono {S S' : List Nat} {x : Nat} (d : Doomed h e S x) (hs : ∀ y ∈ S, y ∈ S') : Doomed h e S' x := by
  obtain ⟨l, h1, h2⟩ := d
  exact ⟨l, h1, fun y hy => hs y (h2 y hy)⟩

theorem Doomed.relink {S S' : List Nat} {x : Nat} (d : Doomed h e S x) (rl : Relink S' h h') (hd : ∀ y ∈ S, y ∉ S') : Doomed h' e S x := by
  obtain ⟨l, h1, h2⟩ := d
  exact ⟨l, h1.congr fun y hy => rl.nxt y (hd y (h2 y hy)), h2⟩

theorem Doomed.cons {S : List Nat} {x y : Nat} (d : Doomed h e S y) (hn : h.nxt x = some (some y)) (hx : x ∈ S) : Doomed h e S x := by
  obtain ⟨l, h1, h2⟩ := d
  exact ⟨y :: l, ⟨hn, h1⟩, by simp only [List.mem_cons, forall_eq_or_imp] at h2 ⊢; exact ⟨hx, h2⟩⟩

theorem Seg.doomed (s : Seg cfg own h (u ++ c :: v) e) : Doomed h e (addrs (c :: v)) c.1 := by
  induction v generalizing u c with
  | nil => exact ⟨[], by have := s.nxt; simpa [Ends] using this, by simp⟩
  | cons d v ih =>
    have s' : Seg cfg own h ((u ++ [c]) ++ d :: v) e := by simpa using s
    exact ((ih s').mono (S' := addrs (c :: d :: v)) (fun y hy => by simp at hy ⊢; tauto)).cons s.nxt (by simp)

theorem Seg.doomed_mem (s : Seg cfg own h cs e) {z : Nat} (hz : z ∈ addrs cs) : Doomed h e (addrs cs) z := by
  obtain ⟨q, hq, rfl⟩ := List.mem_map.1 hz
  obtain ⟨u, v, rfl⟩ := List.append_of_mem hq
  exact s.doomed.mono fun y hy => by simp at hy ⊢; tauto

/-! ### The loop of `merge` -/

/-- one turn of the loop: the left chain gives its first node -/
theorem mergeLoop_left (ec : IsElem cfg own h c.1 c.2) (sa : Seg cfg own h (x :: a) ea) (sb : Seg cfg own h (y :: b) eb)
    (ha : EndP cfg h ea) (hb : EndP cfg h eb) (cx : c.1 ≠ x.1) (hl : less x.2 y.2 = true) :
    mergeLoop cfg less (some x.1) (some y.1) (some c.1) h = mergeLoop cfg less (startOf ea a) (some y.1) (some x.1) (link cfg.dbl h c.1 x.1) ∧
    (thr k = false → mergeLoopT cfg less thr (some x.1) (some y.1) (some c.1) k h =
      mergeLoopT cfg less thr (startOf ea a) (some y.1) (some x.1) (k + 1) (link cfg.dbl h c.1 x.1)) := by
  have ex : IsElem cfg own h x.1 x.2 := Seg.elem (u := []) sa
  have ey : IsElem cfg own h y.1 y.2 := Seg.elem (u := []) sb
  have nx : h.nxt x.1 = some (startOf ea a) := Seg.nxt (u := []) sa
  have i1 : isEnd (some x.1) h = .ok (false, h) := sa.isEnd ha
  have i2 : isEnd (some y.1) h = .ok (false, h) := sb.isEnd hb
  have g1 : getNext (some x.1) (link cfg.dbl h c.1 x.1) = .ok (startOf ea a, link cfg.dbl h c.1 x.1) :=
    getNext_run (h := link cfg.dbl h c.1 x.1) ex.live (by rw [link_nxt_ne cx.symm]; exact nx)
  have g2 : getNext (some c.1) (link cfg.dbl h c.1 x.1) = .ok (some x.1, link cfg.dbl h c.1 x.1) :=
    getNext_run (h := link cfg.dbl h c.1 x.1) ec.live link_nxt_same
  constructor
  · rw [mergeLoop]
    simp only [Prog.bind_run, i1, i2, Out.bind_ok, Bool.false_eq_true, if_false, load_run ex, load_run ey, hl, if_true,
      setNext_run ec.live ex.live, g1, g2]
  · intro ht
    rw [mergeLoopT]
    simp only [Prog.bind_run, i1, i2, Out.bind_ok, Bool.false_eq_true, if_false, load_run ex, load_run ey, hl, if_true, ht,
      setNext_run ec.live ex.live, g1, g2]

/-- one turn of the loop: the right chain gives its first node -/
theorem mergeLoop_right (ec : IsElem cfg own h c.1 c.2) (sa : Seg cfg own h (x :: a) ea) (sb : Seg cfg own h (y :: b) eb)
    (ha : EndP cfg h ea) (hb : EndP cfg h eb) (cy : c.1 ≠ y.1) (hl : less x.2 y.2 = false) :
    mergeLoop cfg less (some x.1) (some y.1) (some c.1) h = mergeLoop cfg less (some x.1) (startOf eb b) (some y.1) (link cfg.dbl h c.1 y.1) ∧
    (thr k = false → mergeLoopT cfg less thr (some x.1) (some y.1) (some c.1) k h =
      mergeLoopT cfg less thr (some x.1) (startOf eb b) (some y.1) (k + 1) (link cfg.dbl h c.1 y.1)) := by
  have ex : IsElem cfg own h x.1 x.2 := Seg.elem (u := []) sa
  have ey : IsElem cfg own h y.1 y.2 := Seg.elem (u := []) sb
  have ny : h.nxt y.1 = some (startOf eb b) := Seg.nxt (u := []) sb
  have i1 : isEnd (some x.1) h = .ok (false, h) := sa.isEnd ha
  have i2 : isEnd (some y.1) h = .ok (false, h) := sb.isEnd hb
  have g1 : getNext (some y.1) (link cfg.dbl h c.1 y.1) = .ok (startOf eb b, link cfg.dbl h c.1 y.1) :=
    getNext_run (h := link cfg.dbl h c.1 y.1) ey.live (by rw [link_nxt_ne cy.symm]; exact ny)
  have g2 : getNext (some c.1) (link cfg.dbl h c.1 y.1) = .ok (some y.1, link cfg.dbl h c.1 y.1) :=
    getNext_run (h := link cfg.dbl h c.1 y.1) ec.live link_nxt_same
  constructor
  · rw [mergeLoop]
    simp only [Prog.bind_run, i1, i2, Out.bind_ok, Bool.false_eq_true, if_false, load_run ex, load_run ey, hl,
      setNext_run ec.live ey.live, g1, g2]
  · intro ht
    rw [mergeLoopT]
    simp only [Prog.bind_run, i1, i2, Out.bind_ok, Bool.false_eq_true, if_false, load_run ex, load_run ey, hl, ht,
      setNext_run ec.live ey.live, g1, g2]

/-- the predicate threw: nothing but links of `S` changed; every node of `S` leads to one of the ends, and some node to the
second one; it was one of the first `k + n` calls -/
structure Threw (thr : Nat → Bool) (k n : Nat) (S : List Nat) (ea eb : Ptr) (h h' : Heap α) : Prop where
  relink : Relink S h h'
  fate : ∀ z ∈ S, Doomed h' ea S z ∨ Doomed h' eb S z
  lost : ∃ z ∈ S, Doomed h' eb S z
  cause : ∃ j < k + n, thr j = true

theorem Threw.trans {S S' : List Nat} {k' n n' : Nat} (r : Relink S' h h1) (t : Threw thr k n S ea eb h1 h') (e : ∀ z, z ∈ S ↔ z ∈ S')
    (hn : k + n ≤ k' + n') : Threw thr k' n' S' ea eb h h' :=
  ⟨r.trans (t.relink.mono fun z hz => (e z).1 hz),
    fun z hz => (t.fate z ((e z).2 hz)).imp (·.mono fun y hy => (e y).1 hy) (·.mono fun y hy => (e y).1 hy),
    t.lost.imp fun z hz => ⟨(e z).1 hz.1, hz.2.mono fun y hy => (e y).1 hy⟩,
    t.cause.imp fun j hj => ⟨by omega, hj.2⟩⟩

theorem Threw.doomed {S : List Nat} {n : Nat} (t : Threw thr k n S none none h h') {z : Nat} (hz : z ∈ S) : Doomed h' none S z := (t.fate z hz).elim id id

/-- the loop either throws or does what the loop without exceptions does -/
theorem mergeLoopT_ok (hc : Chain cfg.dbl h (addrs (ps ++ [c]))) (hcells : ∀ x ∈ ps ++ [c], IsElem cfg own h x.1 x.2)
    (sa : Seg cfg own h a ea) (sb : Seg cfg own h b eb) (ha : EndP cfg h ea) (hb : EndP cfg h eb)
    (hn : (addrs (ps ++ [c]) ++ (addrs a ++ addrs b)).Nodup)
    (hs : h.nxt c.1 = some (startOf ea a) ∨ h.nxt c.1 = some (startOf eb b)) :
    (∃ r k' h', mergeLoopT cfg less thr (startOf ea a) (startOf eb b) (some c.1) k h = .ok ((some r, k'), h') ∧
      mergeLoop cfg less (startOf ea a) (startOf eb b) (some c.1) h = .ok (r, h') ∧ k' ≤ k + (a.length + b.length - 1)) ∨
    (∃ k' h', mergeLoopT cfg less thr (startOf ea a) (startOf eb b) (some c.1) k h = .ok ((none, k'), h') ∧
      Threw thr k (a.length + b.length - 1) (addrs (ps ++ [c]) ++ (addrs a ++ addrs b)) ea eb h h') := by
  induction hk : a.length + b.length using Nat.strongRecOn generalizing h ps c a b k with
  | _ m ih =>
    cases a with
    | nil =>
      refine .inl ⟨(ea, startOf eb b, some c.1), k, h, ?_, ?_, Nat.le_add_right _ _⟩
      · rw [mergeLoopT, Prog.bind_run, sa.isEnd ha]; rfl
      · rw [mergeLoop, Prog.bind_run, sa.isEnd ha]; rfl
    | cons x a =>
      cases b with
      | nil =>
        refine .inl ⟨(startOf ea (x :: a), eb, some c.1), k, h, ?_, ?_, Nat.le_add_right _ _⟩
        · rw [mergeLoopT, Prog.bind_run, sa.isEnd ha]
          simp only [Out.bind_ok, List.isEmpty_cons, Bool.false_eq_true, if_false]
          rw [Prog.bind_run, sb.isEnd hb]; rfl
        · rw [mergeLoop, Prog.bind_run, sa.isEnd ha]
          simp only [Out.bind_ok, List.isEmpty_cons, Bool.false_eq_true, if_false]
          rw [Prog.bind_run, sb.isEnd hb]; rfl
      | cons y b =>
        have ex : IsElem cfg own h x.1 x.2 := Seg.elem (u := []) sa
        have ey : IsElem cfg own h y.1 y.2 := Seg.elem (u := []) sb
        have ec : IsElem cfg own h c.1 c.2 := hcells c (by simp)
        have hn' := List.nodup_append.1 hn
        have hn2 := List.nodup_append.1 hn'.2.1
        have mc : c.1 ∈ addrs (ps ++ [c]) := by simp
        have cx : c.1 ≠ x.1 := fun e => hn'.2.2 c.1 mc x.1 (by simp) e
        have cy : c.1 ≠ y.1 := fun e => hn'.2.2 c.1 mc y.1 (by simp) e
        simp only [startOf_cons]
        cases ht : thr k with
        | true =>
          refine .inr ⟨k + 1, h, ?_, ?_⟩
          · have i1 : isEnd (some x.1) h = .ok (false, h) := sa.isEnd ha
            have i2 : isEnd (some y.1) h = .ok (false, h) := sb.isEnd hb
            rw [mergeLoopT]
            simp only [Prog.bind_run, i1, i2, Out.bind_ok, Bool.false_eq_true, if_false, load_run ex, load_run ey, ht, if_true]
            rfl
          · have ma : ∀ z ∈ addrs (x :: a), Doomed h ea (addrs (ps ++ [c]) ++ (addrs (x :: a) ++ addrs (y :: b))) z := fun z hz =>
              (sa.doomed_mem hz).mono fun w hw => List.mem_append_right _ (List.mem_append_left _ hw)
            have mb : ∀ z ∈ addrs (y :: b), Doomed h eb (addrs (ps ++ [c]) ++ (addrs (x :: a) ++ addrs (y :: b))) z := fun z hz =>
              (sb.doomed_mem hz).mono fun w hw => List.mem_append_right _ (List.mem_append_right _ hw)
            have mp : ∀ e, Doomed h e (addrs (ps ++ [c]) ++ (addrs (x :: a) ++ addrs (y :: b))) c.1 → ∀ (qs : Cells α), ∀ rs, ps = rs ++ qs →
                ∀ z ∈ addrs (qs ++ [c]), Doomed h e (addrs (ps ++ [c]) ++ (addrs (x :: a) ++ addrs (y :: b))) z := by
              intro e mcd qs
              induction qs with
              | nil => intro rs _ z hz; simp at hz; subst hz; exact mcd
              | cons q qs ihq =>
                intro rs hrs z hz
                have ih' := ihq (rs ++ [q]) (by simp [hrs])
                simp only [List.cons_append, addrs, List.map_cons, List.mem_cons] at hz
                rcases hz with rfl | hz
                · have hch : Chain cfg.dbl h (addrs rs ++ q.1 :: addrs (qs ++ [c])) := by
                    have e0 : addrs (ps ++ [c]) = addrs rs ++ q.1 :: addrs (qs ++ [c]) := by rw [hrs]; simp
                    rw [← e0]; exact hc
                  cases qs with
                  | nil => exact mcd.cons (Chain.nxt hch) (by rw [hrs]; simp)
                  | cons q2 qs => exact (ih' q2.1 (by simp)).cons (Chain.nxt hch) (by rw [hrs]; simp)
                · exact ih' z hz
            refine ⟨Relink.refl _ _, fun z hz => ?_, ⟨y.1, by simp, mb y.1 (by simp)⟩, ⟨k, by simp only [List.length_cons] at hk; omega, ht⟩⟩
            rcases List.mem_append.1 hz with hz | hz
            · rcases hs with hs | hs
              · exact .inl (mp ea ((ma x.1 (by simp)).cons hs (List.mem_append_left _ mc)) ps [] rfl z hz)
              · exact .inr (mp eb ((mb y.1 (by simp)).cons hs (List.mem_append_left _ mc)) ps [] rfl z hz)
            · rcases List.mem_append.1 hz with hz | hz
              · exact .inl (ma z hz)
              · exact .inr (mb z hz)
        | false =>
          cases hl : less x.2 y.2 with
          | true =>
            obtain ⟨st1, st2⟩ := mergeLoop_left (thr := thr) (k := k) ec sa sb ha hb cx hl
            rw [st1, st2 ht]
            have t1 : Seg cfg own (link cfg.dbl h c.1 x.1) a ea := by
              refine (Seg.right (u := [x]) sa).frame rfl (fun z hz => link_nxt_ne ?_) (fun z hz => link_prv_ne ?_)
              · rintro rfl; exact hn'.2.2 _ mc _ (by simp at hz ⊢; tauto) rfl
              · rintro rfl
                have := (List.nodup_cons.1 hn2.1).1
                exact this (List.mem_of_mem_tail hz)
            have t2 : Seg cfg own (link cfg.dbl h c.1 x.1) (y :: b) eb := by
              refine sb.frame rfl (fun z hz => link_nxt_ne ?_) (fun z hz => link_prv_ne ?_)
              · rintro rfl; exact hn'.2.2 _ mc _ (List.mem_append_right _ hz) rfl
              · rintro rfl; exact hn2.2.2 x.1 (by simp) x.1 (List.mem_of_mem_tail hz) rfl
            have t3 : Chain cfg.dbl (link cfg.dbl h c.1 x.1) (addrs ((ps ++ [c]) ++ [x])) := by
              have e1 : addrs ((ps ++ [c]) ++ [x]) = addrs ps ++ c.1 :: x.1 :: [] := by simp
              rw [e1]
              refine chain_join ?_ (.singleton _) ?_
              · simpa using hc
              · rw [← e1]
                exact ((perm_left ps c x a (y :: b)).nodup_iff.2 hn).sublist (List.sublist_append_left _ _)
            have := ih (a.length + (y :: b).length) (by simp at hk ⊢; omega)
              (h := link cfg.dbl h c.1 x.1) (ps := ps ++ [c]) (c := x) (a := a) (b := y :: b) (k := k + 1) t3 (by
                intro z hz
                rcases List.mem_append.1 hz with hz | hz
                · exact hcells z hz
                · simp at hz; subst hz; exact ex) t1 t2 ha hb ((perm_left ps c x a (y :: b)).nodup_iff.2 hn)
              (.inl (by rw [link_nxt_ne cx.symm]; exact Seg.nxt (u := []) sa)) rfl
            refine this.imp (fun ⟨r, k', h', e1, e2, e3⟩ => ⟨r, k', h', e1, e2, by simp only [List.length_cons] at e3 hk; omega⟩) ?_
            rintro ⟨k', h', e1, e2⟩
            exact ⟨k', h', e1, e2.trans (relink_link (List.mem_append_left _ mc) (by simp)) (fun z => (perm_left ps c x a (y :: b)).mem_iff)
              (by simp only [List.length_cons] at hk ⊢; omega)⟩
          | false =>
            obtain ⟨st1, st2⟩ := mergeLoop_right (thr := thr) (k := k) ec sa sb ha hb cy hl
            rw [st1, st2 ht]
            have t1 : Seg cfg own (link cfg.dbl h c.1 y.1) b eb := by
              refine (Seg.right (u := [y]) sb).frame rfl (fun z hz => link_nxt_ne ?_) (fun z hz => link_prv_ne ?_)
              · rintro rfl; exact hn'.2.2 _ mc _ (by simp at hz ⊢; tauto) rfl
              · rintro rfl
                have := (List.nodup_cons.1 hn2.2.1).1
                exact this (List.mem_of_mem_tail hz)
            have t2 : Seg cfg own (link cfg.dbl h c.1 y.1) (x :: a) ea := by
              refine sa.frame rfl (fun z hz => link_nxt_ne ?_) (fun z hz => link_prv_ne ?_)
              · rintro rfl; exact hn'.2.2 _ mc _ (List.mem_append_left _ hz) rfl
              · rintro rfl; exact hn2.2.2 y.1 (List.mem_of_mem_tail hz) y.1 (by simp) rfl
            have t3 : Chain cfg.dbl (link cfg.dbl h c.1 y.1) (addrs ((ps ++ [c]) ++ [y])) := by
              have e1 : addrs ((ps ++ [c]) ++ [y]) = addrs ps ++ c.1 :: y.1 :: [] := by simp
              rw [e1]
              refine chain_join ?_ (.singleton _) ?_
              · simpa using hc
              · rw [← e1]
                exact ((perm_right ps c y (x :: a) b).nodup_iff.2 hn).sublist (List.sublist_append_left _ _)
            have := ih ((x :: a).length + b.length) (by simp at hk ⊢; omega)
              (h := link cfg.dbl h c.1 y.1) (ps := ps ++ [c]) (c := y) (a := x :: a) (b := b) (k := k + 1) t3 (by
                intro z hz
                rcases List.mem_append.1 hz with hz | hz
                · exact hcells z hz
                · simp at hz; subst hz; exact ey) t2 t1 ha hb ((perm_right ps c y (x :: a) b).nodup_iff.2 hn)
              (.inr (by rw [link_nxt_ne cy.symm]; exact Seg.nxt (u := []) sb)) rfl
            refine this.imp (fun ⟨r, k', h', e1, e2, e3⟩ => ⟨r, k', h', e1, e2, by simp only [List.length_cons] at e3 hk; omega⟩) ?_
            rintro ⟨k', h', e1, e2⟩
            exact ⟨k', h', e1, e2.trans (relink_link (List.mem_append_left _ mc) (by simp)) (fun z => (perm_right ps c y (x :: a) b).mem_iff)
              (by simp only [List.length_cons] at hk ⊢; omega)⟩

/-- `q` does what `p` does and says that nothing was thrown -/
def Lift (k : Nat) (p : M α β) (q : M α (Option β × Nat)) : Prop := ∀ h r h', p h = .ok (r, h') → q h = .ok ((some r, k), h')

theorem Lift.ok {p : M α β} {q : M α (Option β × Nat)} {r : β} (l : Lift k p q) (e : p h = .ok (r, h')) : q h = .ok ((some r, k), h') := l h r h' e

theorem Lift.bind {γ : Type} {x : M α γ} {f : γ → M α β} {g : γ → M α (Option β × Nat)} (l : ∀ b, Lift k (f b) (g b)) :
    Lift k (x >>= f) (x >>= g) := by
  intro h r h' e
  rw [Prog.bind_run] at e ⊢
  cases hx : x h with
  | ok p => rw [hx] at e; exact l _ _ _ _ e
  | _ => rw [hx] at e; cases e

theorem Lift.pure {r : β} : Lift (α := α) k (Pure.pure r) (Pure.pure (some r, k)) := by
  intro h r' h' e
  cases e; rfl

/-- `merge` either throws or does what it does without exceptions -/
theorem mergeRestT_ok (hc : IsElem cfg own h c.1 c.2) (sa : Seg cfg own h a ea) (sb : Seg cfg own h b eb) (ha : EndP cfg h ea) (hb : EndP cfg h eb)
    (hn : (c.1 :: (addrs a ++ addrs b)).Nodup) (hs : h.nxt c.1 = some (startOf ea a) ∨ h.nxt c.1 = some (startOf eb b)) (hab : a ≠ [] ∨ b ≠ []) :
    (∃ r k' h', mergeRestT cfg less thr (some c.1) (startOf ea a) (startOf eb b) k h = .ok ((some r, k'), h') ∧
      mergeRest cfg less (some c.1) (startOf ea a) (startOf eb b) h = .ok (r, h') ∧ k' ≤ k + (a.length + b.length - 1)) ∨
    (∃ k' h', mergeRestT cfg less thr (some c.1) (startOf ea a) (startOf eb b) k h = .ok ((none, k'), h') ∧
      Threw thr k (a.length + b.length - 1) (c.1 :: (addrs a ++ addrs b)) ea eb h h') := by
  rcases mergeLoopT_ok (less := less) (thr := thr) (k := k) (ps := []) (c := c) (.singleton _)
    (by intro x hx; simp at hx; subst hx; exact hc) sa sb ha hb (by simpa using hn) hs with ⟨r, k', h1, e1, e2, e3⟩ | ⟨k', h1, e1, e2⟩
  · left
    obtain ⟨h', f1, -⟩ := mergeRest_ok (less := less) hc sa sb ha hb hn hab
    refine ⟨_, k', h', ?_, f1, e3⟩
    obtain ⟨p, q, s⟩ := r
    rw [mergeRest, Prog.bind_run, e2, Out.bind_ok] at f1
    rw [mergeRestT, Prog.bind_run, e1, Out.bind_ok]
    refine Lift.ok (k := k') ?_ f1
    refine .bind fun ea => ?_
    cases ea
    · exact .bind fun _ => .bind fun _ => .pure
    · refine .bind fun eb => ?_
      cases eb
      · exact .bind fun _ => .bind fun _ => .pure
      · exact .bind fun _ => .pure
  · right
    refine ⟨k', h1, ?_, by simpa using e2⟩
    simp only [mergeRestT, Prog.bind_run, e1, Out.bind_ok]
    rfl

theorem mergeChainsT_ok (sa : Seg cfg own h a ea) (sb : Seg cfg own h b eb) (ha : EndP cfg h ea) (hb : EndP cfg h eb)
    (hn : (addrs a ++ addrs b).Nodup) (hane : a ≠ []) (hbne : b ≠ []) :
    (∃ r k' h', mergeChainsT cfg less thr (startOf ea a) (startOf eb b) k h = .ok ((some r, k'), h') ∧
      mergeChains cfg less (startOf ea a) (startOf eb b) h = .ok (r, h') ∧ thr k = false ∧
      k' ≤ k + (a.length + b.length - 1)) ∨
    (∃ k' h', mergeChainsT cfg less thr (startOf ea a) (startOf eb b) k h = .ok ((none, k'), h') ∧
      Threw thr k (a.length + b.length - 1) (addrs a ++ addrs b) ea eb h h') := by
  obtain ⟨x, a, rfl⟩ := List.exists_cons_of_ne_nil hane
  obtain ⟨y, b, rfl⟩ := List.exists_cons_of_ne_nil hbne
  have ex : IsElem cfg own h x.1 x.2 := Seg.elem (u := []) sa
  have ey : IsElem cfg own h y.1 y.2 := Seg.elem (u := []) sb
  have nx : h.nxt x.1 = some (startOf ea a) := Seg.nxt (u := []) sa
  have ny : h.nxt y.1 = some (startOf eb b) := Seg.nxt (u := []) sb
  have ie1 : isEnd (some x.1) h = .ok (false, h) := sa.isEnd ha
  have ie2 : isEnd (some y.1) h = .ok (false, h) := sb.isEnd hb
  have pm : (y.1 :: (addrs (x :: a) ++ addrs b)).Perm (addrs (x :: a) ++ addrs (y :: b)) := List.perm_middle.symm
  cases ht : thr k with
  | true =>
    refine .inr ⟨k + 1, h, ?_, ?_⟩
    · unfold mergeChainsT
      simp only [startOf_cons, Prog.bind_run, ie1, ie2, Out.bind_ok, Bool.false_eq_true, if_false, load_run ex, load_run ey, ht, if_true]
      rfl
    · have mb : ∀ z ∈ addrs (y :: b), Doomed h eb (addrs (x :: a) ++ addrs (y :: b)) z := fun z hz =>
        (sb.doomed_mem hz).mono fun w hw => List.mem_append_right _ hw
      refine ⟨Relink.refl _ _, fun z hz => ?_, ⟨y.1, by simp, mb y.1 (by simp)⟩, ⟨k, by simp only [List.length_cons]; omega, ht⟩⟩
      rcases List.mem_append.1 hz with hz | hz
      · exact .inl ((sa.doomed_mem hz).mono fun w hw => List.mem_append_left _ hw)
      · exact .inr (mb z hz)
  | false =>
    unfold mergeChainsT mergeChains
    simp only [startOf_cons, Prog.bind_run, ie1, ie2, Out.bind_ok, Bool.false_eq_true, if_false, load_run ex, load_run ey, ht]
    cases hl : less x.2 y.2 with
    | true =>
      have := mergeRestT_ok (less := less) (thr := thr) (k := k + 1) ex (Seg.right (u := [x]) sa) sb ha hb hn (.inl nx) (.inr (by simp))
      simp only [startOf_cons] at this
      simp only [if_true, Prog.bind_run, getNext_run ex.live nx, Out.bind_ok, Prog.pure_run]
      exact this.imp (fun ⟨r, k', h', e1, e2, e3⟩ => ⟨r, k', h', e1, e2, trivial, by simp only [List.length_cons] at e3 ⊢; omega⟩)
        fun ⟨k', h', e1, e2⟩ => ⟨k', h', e1, e2.trans (Relink.refl _ _) (fun z => Iff.rfl) (by simp only [List.length_cons]; omega)⟩
    | false =>
      have := mergeRestT_ok (less := less) (thr := thr) (k := k + 1) ey sa (Seg.right (u := [y]) sb) ha hb (pm.nodup_iff.2 hn) (.inr ny) (.inl (by simp))
      simp only [startOf_cons] at this
      simp only [Bool.false_eq_true, if_false, Prog.bind_run, getNext_run ey.live ny, Out.bind_ok, Prog.pure_run]
      refine this.imp (fun ⟨r, k', h', e1, e2, e3⟩ => ⟨r, k', h', e1, e2, trivial, by simp only [List.length_cons] at e3 ⊢; omega⟩) ?_
      rintro ⟨k', h', e1, e2⟩
      exact ⟨k', h', e1, e2.trans (Relink.refl _ _) (fun z => pm.mem_iff) (by simp only [List.length_cons]; omega)⟩

/-! ### `sort` -/

/-- the calls of the predicate a merge sort of `n` elements makes at most -/
def sortCost (n : Nat) : Nat := if n ≤ 1 then 0 else sortCost ((n + 1) / 2) + sortCost (n / 2) + (n - 1)
termination_by n
decreasing_by all_goals omega

theorem sortCost_step {n : Nat} (h : 2 ≤ n) : sortCost n = sortCost ((n + 1) / 2) + sortCost (n / 2) + (n - 1) := by
  rw [sortCost, if_neg (by omega)]

theorem sortCost_le {n : Nat} (e : Nat) (h : n ≤ 2 ^ e) : sortCost n ≤ n * e := by
  induction e generalizing n with
  | zero =>
    rw [sortCost, if_pos (by simpa using h)]
    exact Nat.zero_le _
  | succ e ih =>
    by_cases hn : n ≤ 1
    · rw [sortCost, if_pos hn]; exact Nat.zero_le _
    · rw [Nat.pow_succ] at h
      rw [sortCost_step (by omega)]
      have h1 := ih (n := (n + 1) / 2) (by omega)
      have h2 := ih (n := n / 2) (by omega)
      have h3 : (n + 1) / 2 * e + n / 2 * e = n * e := by rw [← Nat.add_mul]; congr 1; omega
      rw [Nat.mul_succ]
      omega

/-- the predicate threw during `sort`: the first element leads to null -/
structure Lost (thr : Nat → Bool) (k n : Nat) (cs : Cells α) (h h' : Heap α) : Prop where
  relink : Relink (addrs cs) h h'
  doomed : ∀ c ∈ cs.head?, Doomed h' none (addrs cs) c.1
  cause : ∃ j < k + n, thr j = true

theorem mergeSortT_ok (s : Seg cfg own h cs e) (hne : cs ≠ []) (he : ∀ t, e = some t → (∃ o, IsVirt cfg o h t) ∧ h.nxt t = some none)
    (hn : (addrs cs).Nodup) :
    (∃ r k' h', mergeSortT cfg less thr (startOf e cs) k h = .ok ((some r, k'), h') ∧ mergeSort cfg less (startOf e cs) h = .ok (r, h') ∧
      (cs.length = 1 → k' = k) ∧ (2 ≤ cs.length → thr k = false) ∧ k' ≤ k + sortCost cs.length) ∨
    (∃ k' h', mergeSortT cfg less thr (startOf e cs) k h = .ok ((none, k'), h') ∧ Lost thr k (sortCost cs.length) cs h h') := by
  induction hk : cs.length using Nat.strongRecOn generalizing h cs e k with
  | _ m ih =>
    obtain ⟨c, v, rfl⟩ := List.exists_cons_of_ne_nil hne
    have hep : EndP cfg h e := fun t ht => (he t ht).1
    have ec : IsElem cfg own h c.1 c.2 := Seg.elem (u := []) s
    have nc : h.nxt c.1 = some (startOf e v) := Seg.nxt (u := []) s
    rw [mergeSort, mergeSortT, startOf_cons, if_neg (by simp), if_neg (by simp)]
    simp only [Prog.bind_run, getNext_run ec.live nc, Out.bind_ok]
    cases v with
    | nil =>
      left
      cases e with
      | none => exact ⟨(some c.1, none), k, h, by simp, by simp, fun _ => rfl, fun hl => absurd hl (by rw [← hk]; show ¬ 2 ≤ 1; omega), Nat.le_add_right _ _⟩
      | some t =>
        obtain ⟨⟨o, ho⟩, hnt⟩ := he t rfl
        have htc : t ≠ c.1 := by
          rintro rfl
          rw [IsVirt] at ho; rw [IsElem, ho] at ec
          simp at ec
        have hcut : Seg cfg own (cut h c.1) [c] none := by
          refine ⟨.singleton _, fun d hd => s.cells d hd, fun u d hu => ?_⟩
          have := List.append_inj_right' (s₁ := []) hu rfl
          simp at this
          rw [← this, cut_nxt_same]
        have ho' : IsVirt cfg o (cut h c.1) t := ho
        have sg1 : mergeSort cfg less (some c.1) (cut h c.1) = .ok ((some c.1, none), cut h c.1) := by
          rw [mergeSort, if_neg (by simp)]
          simp only [Prog.bind_run]
          rw [getNext_run (h := cut h c.1) ec.live cut_nxt_same]
          simp
        have sg2 : mergeSort cfg less (some t) (cut h c.1) = .ok ((some t, none), cut h c.1) := by
          rw [mergeSort, if_neg (by simp)]
          simp only [Prog.bind_run]
          rw [getNext_run (h := cut h c.1) ho'.live (by rw [cut_nxt_ne htc]; exact hnt)]
          simp
        have st1 : ∀ k, mergeSortT cfg less thr (some c.1) k (cut h c.1) = .ok ((some (some c.1, none), k), cut h c.1) := by
          intro k
          rw [mergeSortT, if_neg (by simp)]
          simp only [Prog.bind_run]
          rw [getNext_run (h := cut h c.1) ec.live cut_nxt_same]
          simp
        have st2 : ∀ k, mergeSortT cfg less thr (some t) k (cut h c.1) = .ok ((some (some t, none), k), cut h c.1) := by
          intro k
          rw [mergeSortT, if_neg (by simp)]
          simp only [Prog.bind_run]
          rw [getNext_run (h := cut h c.1) ho'.live (by rw [cut_nxt_ne htc]; exact hnt)]
          simp
        have i1 : isEnd (some c.1) (cut h c.1) = .ok (false, cut h c.1) := hcut.isEnd (fun t ht => by cases ht)
        have i2 : isEnd (some t) (cut h c.1) = .ok (true, cut h c.1) := dataNull_virt ho'
        have mc : mergeChains cfg less (some c.1) (some t) (cut h c.1) = .ok ((some c.1, none), cut h c.1) := by
          unfold mergeChains
          simp only [Prog.bind_run, i1, i2, Out.bind_ok, Bool.false_eq_true, if_false, if_true]
          rfl
        have mt : mergeChainsT cfg less thr (some c.1) (some t) k (cut h c.1) = .ok ((some (some c.1, none), k), cut h c.1) := by
          unfold mergeChainsT
          simp only [Prog.bind_run, i1, i2, Out.bind_ok, Bool.false_eq_true, if_false, if_true]
          rfl
        have ml : midLoop (some c.1) (some c.1) h = .ok (some c.1, h) := by
          rw [midLoop, Prog.bind_run, isRealEnd_ok (u := []) s hep]
          rfl
        refine ⟨(some c.1, none), k, cut h c.1, ?_, ?_, fun _ => rfl, fun hl => absurd hl (by rw [← hk]; show ¬ 2 ≤ 1; omega), Nat.le_add_right _ _⟩
        · rw [startOf_nil, if_neg (by simp)]
          simp only [Prog.bind_run, ml, Out.bind_ok, getNext_run ec.live nc, startOf_nil, putNext_null_run ec.live, st1, st2, mt]
        · rw [startOf_nil, if_neg (by simp)]
          simp only [Prog.bind_run, ml, Out.bind_ok, getNext_run ec.live nc, startOf_nil, putNext_null_run ec.live, sg1, sg2, mc]
    | cons d v =>
      rw [startOf_cons, if_neg (by simp), if_neg (by simp)]
      obtain ⟨w, x, z, e1, e2, e3⟩ := midLoop_ok s s hep (Nat.le_refl _)
      have hlen : (w ++ [x]).length + z.length = m := by
        have := congrArg List.length e1
        simp at this hk ⊢; omega
      have hkv : m = v.length + 2 := by rw [← hk]; simp
      have hwl : w.length = (v.length + 1) / 2 := by simpa using e2
      have hcost : sortCost m = sortCost (w ++ [x]).length + sortCost z.length + (m - 1) := by
        rw [List.length_append, List.length_singleton] at hlen
        rw [sortCost_step (by omega), show (m + 1) / 2 = (w ++ [x]).length by rw [List.length_append, List.length_singleton]; omega,
          show m / 2 = z.length by omega]
      have ecs : c :: d :: v = (w ++ [x]) ++ z := by rw [e1]; simp
      have sx : Seg cfg own h (w ++ x :: z) e := by rw [← e1]; exact s
      have ex := sx.elem
      have hn1 : (addrs (w ++ [x]) ++ addrs z).Nodup := by
        have : addrs (c :: d :: v) = addrs (w ++ [x]) ++ addrs z := by rw [ecs]; simp
        rw [← this]; exact hn
      have hn2 := List.nodup_append.1 hn1
      have xw : x.1 ∉ addrs w := by
        have := hn2.1
        simp only [addrs, List.map_append, List.map_cons, List.map_nil] at this
        have := List.nodup_append.1 this
        exact fun hm => this.2.2 _ hm _ (by simp) rfl
      have xz : x.1 ∉ addrs z := fun hm => hn2.2.2 x.1 (by simp) x.1 hm rfl
      have c1 : Seg cfg own (cut h x.1) (w ++ [x]) none := by
        refine sx.left rfl (fun y hy => cut_nxt_ne ?_) (fun _ _ => rfl) cut_nxt_same
        rintro rfl; exact xw hy
      have c2 : Seg cfg own (cut h x.1) z e := by
        have sz : Seg cfg own h z e := Seg.right (u := w ++ [x]) (by simpa using sx)
        refine sz.frame rfl (fun y hy => cut_nxt_ne ?_) (fun _ _ => rfl)
        rintro rfl; exact xz hy
      have hz : z ≠ [] := by
        rintro rfl
        simp at hlen; omega
      have hsub : ∀ y, y ∈ addrs (w ++ [x]) ++ addrs z → y ∈ addrs (c :: d :: v) := by
        intro y hy; rw [ecs]; simpa using hy
      have r1 : Relink (addrs (c :: d :: v)) h (cut h x.1) := relink_cut (hsub _ (by simp))
      have st : startOf none (w ++ [x]) = some c.1 := by
        have := congrArg (startOf none) e1
        cases w with
        | nil => simpa using this.symm
        | cons q w => simpa using this.symm
      have hc0 : ∀ q ∈ (w ++ [x]).head?, q.1 = c.1 := by
        intro q hq
        cases w with
        | nil => simp at hq st; subst hq; exact st
        | cons q' w => simp at hq st; subst hq; exact st
      have hmem : c.1 ∈ addrs (w ++ [x]) := by
        cases w with
        | nil => simp at st ⊢; exact st.symm
        | cons q' w => simp at st ⊢; exact .inl st.symm
      simp only [Prog.bind_run, e3, Out.bind_ok, getNext_run ex.live sx.nxt, putNext_null_run ex.live]
      rcases ih (w ++ [x]).length (by have := List.length_pos_iff.2 hz; omega) (k := k) c1 (by simp) (fun t ht => by cases ht) hn2.1 rfl with
        ⟨g, k1, h1, t1, t2, t4, t5, t6⟩ | ⟨k1, h1, t1, t2⟩
      · obtain ⟨h1', f1, f2, f3⟩ := mergeSort_ok (less := less) c1 (by simp) (fun t ht => by cases ht) hn2.1
        rw [t2] at f1
        injection f1 with f1
        injection f1 with f1a f1b
        subst f1a f1b
        have c3 : Seg cfg own h1 z e := c2.relink f2 (fun y hy hm => hn2.2.2 y hm y hy rfl)
        have hez : ∀ t, e = some t → (∃ o, IsVirt cfg o h1 t) ∧ h1.nxt t = some none := fun t ht => by
          obtain ⟨⟨o, ho⟩, hnt⟩ := he t ht
          have htn : t ∉ addrs (c :: d :: v) := by
            intro hm
            obtain ⟨q, hq, rfl⟩ := List.mem_map.1 hm
            have := s.cells q hq
            rw [IsVirt] at ho; rw [IsElem, ho] at this
            simp at this
          have htn1 : t ∉ addrs (w ++ [x]) := fun hm => htn (hsub _ (List.mem_append_left _ hm))
          refine ⟨⟨o, ?_⟩, ?_⟩
          · rw [IsVirt, f2.info]; exact ho
          · rw [f2.nxt t htn1, cut_nxt_ne (by rintro rfl; exact htn1 (by simp))]
            exact hnt
        have p0 : ∀ y, y ∈ addrs (msortBy (onVal less) (w ++ [x])) → y ∈ addrs (w ++ [x]) := fun y hy =>
          ((msortBy_perm _ _).map Prod.fst).mem_iff.1 hy
        have p0' : ∀ y, y ∈ addrs (w ++ [x]) → y ∈ addrs (msortBy (onVal less) (w ++ [x])) := fun y hy =>
          ((msortBy_perm _ _).map Prod.fst).mem_iff.2 hy
        rw [st] at t1 t2
        simp only [t1, t2, Out.bind_ok]
        rcases ih z.length (by simp at hlen; omega) (k := k1) c3 hz hez hn2.2.1 rfl with ⟨g2, k2, h2, q1, q2, q4, q5, q6⟩ | ⟨k2, h2, q1, q2⟩
        · obtain ⟨h2', g1, g2', g3⟩ := mergeSort_ok (less := less) c3 hz hez hn2.2.1
          rw [q2] at g1
          injection g1 with g1
          injection g1 with g1a g1b
          subst g1a g1b
          have c4 : Seg cfg own h2 (msortBy (onVal less) (w ++ [x])) none := by
            refine f3.relink g2' ?_
            intro y hy hm
            exact hn2.2.2 y (p0 y hy) y hm rfl
          have p1 : (addrs (msortBy (onVal less) (w ++ [x])) ++ addrs (msortBy (onVal less) z)).Perm (addrs (w ++ [x]) ++ addrs z) :=
            ((msortBy_perm _ _).map _).append ((msortBy_perm _ _).map _)
          have ne1 : msortBy (onVal less) (w ++ [x]) ≠ [] := by
            intro e0; have := (msortBy_perm (onVal less) (w ++ [x])).length_eq; rw [e0] at this; simp at this
          have ne2 : msortBy (onVal less) z ≠ [] := by
            intro e0; have := (msortBy_perm (onVal less) z).length_eq; rw [e0] at this
            exact hz (List.eq_nil_of_length_eq_zero this.symm)
          have lms : (msortBy (onVal less) (w ++ [x])).length + (msortBy (onVal less) z).length = m := by
            rw [(msortBy_perm _ _).length_eq, (msortBy_perm _ _).length_eq]; exact hlen
          simp only [q2, Out.bind_ok]
          rcases mergeChainsT_ok (less := less) (thr := thr) (k := k2) (ea := none) (eb := none) c4 g3 (fun t ht => by cases ht) (fun t ht => by cases ht)
            (p1.nodup_iff.2 hn1) ne1 ne2 with ⟨g3, k3, h3, s1, s2, s4, s5⟩ | ⟨k3, h3, s1, s2⟩
          · refine .inl ⟨g3, k3, h3, by rw [Prog.bind_run, q1]; exact s1, s2, fun hl => absurd hl (by rw [hkv]; omega), fun _ => ?_,
              by rw [hcost]; omega⟩
            by_cases hw : 2 ≤ (w ++ [x]).length
            · exact t5 hw
            · have hw1 : (w ++ [x]).length = 1 := by simp at hw ⊢; omega
              have hz1 : z.length = 1 := by
                rw [List.length_append, List.length_singleton] at hw1 hlen; omega
              rw [q4 hz1, t4 hw1] at s4; exact s4
          · refine .inr ⟨k3, h3, by rw [Prog.bind_run, q1]; exact s1, ?_, ?_, s2.cause.imp fun j hj => ⟨by rw [hcost]; omega, hj.2⟩⟩
            · refine ((r1.trans (f2.mono ?_)).trans (g2'.mono ?_)).trans (s2.relink.mono ?_)
              · intro y hy; exact hsub y (List.mem_append_left _ hy)
              · intro y hy; exact hsub y (List.mem_append_right _ hy)
              · intro y hy; exact hsub y (p1.mem_iff.1 hy)
            · intro q hq
              simp at hq; subst hq
              refine (s2.doomed (List.mem_append_left _ (p0' _ hmem))).mono fun y hy => hsub y (p1.mem_iff.1 hy)
        · refine .inr ⟨k2, h2, by rw [Prog.bind_run, q1]; rfl, ?_, ?_, q2.cause.imp fun j hj => ⟨by rw [hcost]; omega, hj.2⟩⟩
          · refine (r1.trans (f2.mono ?_)).trans (q2.relink.mono ?_)
            · intro y hy; exact hsub y (List.mem_append_left _ hy)
            · intro y hy; exact hsub y (List.mem_append_right _ hy)
          · intro q hq
            simp at hq; subst hq
            refine ((f3.doomed_mem (p0' _ hmem)).relink q2.relink ?_).mono fun y hy => hsub y (List.mem_append_left _ (p0 y hy))
            intro y hy hm
            exact hn2.2.2 y (p0 y hy) y hm rfl
      · rw [st] at t1
        refine .inr ⟨k1, h1, by simp only [t1, Out.bind_ok]; rfl, ?_, ?_, t2.cause.imp fun j hj => ⟨by rw [hcost]; omega, hj.2⟩⟩
        · exact r1.trans (t2.relink.mono fun y hy => hsub y (List.mem_append_left _ hy))
        · intro q hq
          simp at hq; subst hq
          obtain ⟨q0, hq0⟩ : ∃ q0, (w ++ [x]).head? = some q0 := by cases w <;> simp
          have := t2.doomed q0 hq0
          rw [hc0 q0 hq0] at this
          exact this.mono fun y hy => hsub y (List.mem_append_left _ hy)

/-- `sort` either throws, leaving a chain that ends in null, or does what it does without exceptions -/
theorem sortT_ok (r : Rep cfg h hd tl cs own) (hc : cs ≠ []) :
    (∃ l' h', sortT cfg less thr (lst hd tl cs own) h = .ok ((false, l'), h') ∧ sort cfg less (lst hd tl cs own) h = .ok (l', h') ∧
      (2 ≤ cs.length → thr 0 = false)) ∨
    (∃ h', sortT cfg less thr (lst hd tl cs own) h = .ok ((true, lst hd tl cs own), h') ∧ (∃ j < sortCost cs.length, thr j = true) ∧
      traverse (lst hd tl cs own) h' = .ub ∧ destruct cfg (lst hd tl cs own) h' = .ub) := by
  have hv : ∀ t, some tl = some t → (∃ o, IsVirt cfg o h t) ∧ h.nxt t = some none := fun t ht => by
    cases ht; exact ⟨⟨own, r.vtl⟩, r.last⟩
  have hh : (lst hd tl cs own).head = some hd := rfl
  have ht : (lst hd tl cs own).tail = some tl := rfl
  rcases mergeSortT_ok (less := less) (thr := thr) (k := 0) r.seg hc hv r.nodup_cells with ⟨g, k1, h1, t1, t2, -, t5, -⟩ | ⟨k1, h1, t1, t2⟩
  · left
    have key : ∀ (x : Out (Lst × Heap α)) (y : Out ((Bool × Lst) × Heap α)),
        (∃ l' h', x = .ok (l', h') ∧ y = .ok ((false, l'), h')) →
          ∃ l' h', y = .ok ((false, l'), h') ∧ x = .ok (l', h') ∧ (2 ≤ cs.length → thr 0 = false) := by
      rintro x y ⟨l', h', e1, e2⟩; exact ⟨l', h', e2, e1, t5⟩
    apply key
    obtain ⟨h1', f1, f2, f3⟩ := mergeSort_ok (less := less) r.seg hc hv r.nodup_cells
    rw [t2] at f1
    injection f1 with f1
    injection f1 with f1a f1b
    subst f1a f1b
    have hne : msortBy (onVal less) cs ≠ [] := by
      intro e0; have := (msortBy_perm (onVal less) cs).length_eq; rw [e0] at this
      exact hc (List.eq_nil_of_length_eq_zero this.symm)
    obtain ⟨q, qs, hq⟩ := List.exists_cons_of_ne_nil hne
    have lh : Live h1 hd := by rw [Live, f2.info]; exact r.vhd.live
    have lt : Live h1 tl := by rw [Live, f2.info]; exact r.vtl.live
    have ld : Live h1 q.1 := (f3.cells q (by rw [hq]; simp)).live
    have ll : ∀ p, (if cs.length < 2 then none else some (lastOf 0 (msortBy (onVal less) cs))) = some p → Live h1 p := by
      intro p hp
      split at hp
      · cases hp
      · cases hp
        rw [hq, lastOf_cons]
        have := lastOf_mem q.1 qs
        obtain ⟨q', hq', e⟩ := List.mem_map.1 (show lastOf q.1 qs ∈ addrs (q :: qs) from this)
        rw [← e]; exact (f3.cells q' (by rw [hq]; exact hq')).live
    unfold sort sortT
    rw [Prog.bind_run, Prog.bind_run, dbgAssert_run (by simp [lst])]
    simp only [Out.bind_ok, Prog.bind_run, hh, ht, r.start, t1, t2]
    rw [hq, startOf_cons, setNext_run lh ld]
    simp only [Out.bind_ok]
    rw [← hq]
    cases hp : (if cs.length < 2 then none else some (lastOf 0 (msortBy (onVal less) cs))) with
    | none => exact ⟨_, _, rfl, rfl⟩
    | some p =>
      rw [if_pos (by simp), if_pos (by simp)]
      simp only [Prog.bind_run]
      rw [setNext_run (h := link cfg.dbl h1 hd q.1) (ll p hp) lt]
      exact ⟨_, _, rfl, rfl⟩
  · right
    obtain ⟨c, v, rfl⟩ := List.exists_cons_of_ne_nil hc
    refine ⟨h1, ?_, t2.cause.imp fun j hj => ⟨by omega, hj.2⟩, ?_⟩
    · unfold sortT
      rw [Prog.bind_run, dbgAssert_run (by simp [lst])]
      simp only [Out.bind_ok, Prog.bind_run, hh, r.start, t1]
      rfl
    · obtain ⟨l, d1, d2⟩ := t2.doomed c rfl
      refine nullBroken (l := c.1 :: l) ⟨?_, d1⟩ (by simp) ?_
      · rw [t2.relink.nxt hd r.hd_not_cell]
        have := Rep.nxt_at (c1 := []) (c2 := c :: v) r
        simpa using this
      · intro hm; exact r.tl_not_cell (d2 tl hm)

/-! ### `merge` -/

/-- the way from a node to an end is unique -/
theorem Ends.unique {S l l2 : List Nat} {e2 : Ptr} {x : Nat} (d : Ends h e (x :: l)) (d2 : Ends h e2 (x :: l2)) (hl : ∀ y ∈ l, y ∈ S) (hl2 : ∀ y ∈ l2, y ∈ S)
    (he : ∀ t, e = some t → t ∉ S) (he2 : ∀ t, e2 = some t → t ∉ S) : l = l2 ∧ e = e2 := by
  induction l generalizing x l2 with
  | nil =>
    cases l2 with
    | nil =>
      simp only [Ends] at d d2
      rw [d] at d2
      exact ⟨rfl, Option.some.inj d2⟩
    | cons b l2 =>
      simp only [Ends] at d d2
      rw [d] at d2
      exact absurd (hl2 b (by simp)) (he b (Option.some.inj d2.1))
  | cons a l ih =>
    cases l2 with
    | nil =>
      simp only [Ends] at d d2
      rw [d2] at d
      exact absurd (hl a (by simp)) (he2 a (Option.some.inj d.1))
    | cons b l2 =>
      have hab : a = b := by
        have h1 := d.1
        rw [d2.1] at h1
        exact (Option.some.inj (Option.some.inj h1)).symm
      subst hab
      obtain ⟨h1, h2⟩ := ih d.2 d2.2 (fun y hy => hl y (List.mem_cons_of_mem _ hy)) (fun y hy => hl2 y (List.mem_cons_of_mem _ hy))
      exact ⟨by rw [h1], h2⟩

theorem Ends.suffix {u l : List Nat} {x : Nat} (d : Ends h e (u ++ x :: l)) : Ends h e (x :: l) := by
  induction u with
  | nil => exact d
  | cons a u ih =>
    cases u with
    | nil => exact d.2
    | cons b u => exact ih d.2

theorem Ends.nodup {S l : List Nat} (d : Ends h e l) (hl : ∀ y ∈ l, y ∈ S) (he : ∀ t, e = some t → t ∉ S) : l.Nodup := by
  induction l with
  | nil => exact .nil
  | cons a l ih =>
    refine List.nodup_cons.2 ⟨fun hm => ?_, ?_⟩
    · obtain ⟨u, v, rfl⟩ := List.append_of_mem hm
      have d2 : Ends h e (a :: v) := Ends.suffix (u := a :: u) d
      have := (d.unique d2 (fun y hy => hl y (List.mem_cons_of_mem _ hy)) (fun y hy => hl y (by simp; tauto)) he he).1
      have := congrArg List.length this
      simp at this; omega
    · cases l with
      | nil => exact .nil
      | cons b l => exact ih d.2 fun y hy => hl y (List.mem_cons_of_mem _ hy)

/-- a chain that ends where the walk ends -/
theorem walk_ends {l : List Nat} {a : Nat} (d : Ends h (some tl) (a :: l)) (hl : ∀ y ∈ a :: l, y ≠ tl ∧ ∃ x, IsElem cfg own h y x) (acc : List α) :
    ∃ ys : List α, ys.length = l.length + 1 ∧ walk (some tl) (some a) acc h = .ok (acc ++ ys, h) := by
  induction l generalizing a acc with
  | nil =>
    obtain ⟨hne, x, ex⟩ := hl a (by simp)
    refine ⟨[x], rfl, ?_⟩
    rw [walk, if_neg (by simpa using hne)]
    simp only [Prog.bind_run, load_run ex, getNext_run ex.live (show h.nxt a = some (some tl) from d), Out.bind_ok]
    rw [walk, if_pos rfl]
    rfl
  | cons b l ih =>
    obtain ⟨hne, x, ex⟩ := hl a (by simp)
    obtain ⟨ys, h1, h2⟩ := ih d.2 (fun y hy => hl y (List.mem_cons_of_mem _ hy)) (acc ++ [x])
    refine ⟨x :: ys, by simp [h1], ?_⟩
    rw [walk, if_neg (by simpa using hne)]
    simp only [Prog.bind_run, load_run ex, getNext_run ex.live d.1, Out.bind_ok, h2]
    simp

theorem Ends.snoc {l : List Nat} {t : Nat} (d : Ends h (some t) l) (ht : h.nxt t = some none) : Ends h none (l ++ [t]) := by
  induction l with
  | nil => exact d.elim
  | cons a l ih =>
    cases l with
    | nil => exact ⟨d, ht⟩
    | cons b l => exact ⟨d.1, ih d.2⟩

/-- `merge` either throws, leaving an empty argument and a list with the size of both but less elements, or does what it does
without exceptions -/
theorem mergeT_ok (hb : Bal h) (r : Rep cfg h hd tl cs own) (ro : Rep cfg h hd2 tl2 ds own) (hj : Disj hd tl cs hd2 tl2 ds)
    (hc : cs ≠ []) (hds : ds ≠ []) :
    (∃ q h', mergeT cfg less thr (lst hd tl cs own) (lst hd2 tl2 ds own) h = .ok ((false, q), h') ∧
      merge cfg less (lst hd tl cs own) (lst hd2 tl2 ds own) h = .ok (q, h') ∧ thr 0 = false) ∨
    (∃ h', mergeT cfg less thr (lst hd tl cs own) (lst hd2 tl2 ds own) h =
        .ok ((true, ⟨some hd, some tl, cs.length + ds.length, own⟩, lst hd2 tl2 ([] : Cells α) own), h') ∧
      (∃ j < cs.length + ds.length - 1, thr j = true) ∧ h'.info = h.info ∧ Rep cfg h' hd2 tl2 [] own ∧
      ((traverse ⟨some hd, some tl, cs.length + ds.length, own⟩ h' = .ub ∧ destruct cfg ⟨some hd, some tl, cs.length + ds.length, own⟩ h' = .ub) ∨
        ∃ ys : List α, ys.length < cs.length + ds.length ∧ traverse ⟨some hd, some tl, cs.length + ds.length, own⟩ h' = .ok (ys, h'))) := by
  have hne2 := ro.hd_ne_tl
  have out1 : hd2 ∉ addrs ds := ro.hd_not_cell
  have out2 : tl2 ∉ addrs ds := ro.tl_not_cell
  have mh2 : hd2 ∈ nodes hd2 tl2 ds := by simp [nodes]
  have mt2 : tl2 ∈ nodes hd2 tl2 ds := by simp [nodes]
  have hj' : ∀ a ∈ addrs cs, a ∉ nodes hd2 tl2 ds := fun a ha => hj a (by rw [mem_nodes]; exact .inr (.inl ha))
  have sa : Seg cfg own (link cfg.dbl h hd2 tl2) cs (some tl) :=
    r.seg.frame rfl (fun a ha => link_nxt_ne (by rintro rfl; exact hj' _ ha mh2)) (fun a ha => link_prv_ne (by rintro rfl; exact hj' _ (List.mem_of_mem_tail ha) mt2))
  have sb : Seg cfg own (link cfg.dbl h hd2 tl2) ds (some tl2) :=
    ro.seg.frame rfl (fun a ha => link_nxt_ne (by rintro rfl; exact out1 ha)) (fun a ha => link_prv_ne (by rintro rfl; exact out2 (List.mem_of_mem_tail ha)))
  have hn : (addrs cs ++ addrs ds).Nodup := by
    rw [List.nodup_append]
    refine ⟨r.nodup_cells, ro.nodup_cells, ?_⟩
    rintro a ha b hb' rfl
    exact hj' a ha (by rw [mem_nodes]; exact .inr (.inl hb'))
  have hh : (lst hd tl cs own).head = some hd := rfl
  have hh2 : (lst hd2 tl2 ds own).head = some hd2 := rfl
  have ht2 : (lst hd2 tl2 ds own).tail = some tl2 := rfl
  have hl2 : ¬ (lst hd2 tl2 ds own).len = 0 := by
    show ¬ ds.length = 0
    have := List.length_pos_iff.2 hds; omega
  rcases mergeChainsT_ok (less := less) (thr := thr) (k := 0) sa sb (fun t ht => by cases ht; exact ⟨own, r.vtl⟩)
    (fun t ht => by cases ht; exact ⟨own, ro.vtl⟩) hn hc hds with ⟨g, k1, h1, t1, t2, t3, -⟩ | ⟨k1, h1, t1, t2⟩
  · left
    obtain ⟨q, h', m1⟩ : ∃ q h', merge cfg less (lst hd tl cs own) (lst hd2 tl2 ds own) h = .ok (q, h') := by
      obtain ⟨h', m1, -⟩ := merge_ok (less := less) hb r ro hj hc hds
      exact ⟨_, h', m1⟩
    refine ⟨q, h', ?_, m1, t3⟩
    unfold merge at m1
    unfold mergeT
    rw [Prog.bind_run, dbgAssert_run (by simp [lst])] at m1 ⊢
    simp only [Out.bind_ok] at m1 ⊢
    rw [Prog.bind_run, dbgAssert_run (by simp [lst])] at m1 ⊢
    simp only [Out.bind_ok] at m1 ⊢
    rw [if_neg hl2] at m1 ⊢
    simp only [Prog.bind_run, hh, hh2, ht2, r.start, ro.start, setNext_run ro.vhd.live ro.vtl.live, Out.bind_ok, t1, t2] at m1 ⊢
    cases hs : setNext cfg (some hd) g.1 h1 with
    | ok p =>
      rw [hs] at m1
      simp only [Out.bind_ok] at m1 ⊢
      by_cases hg : g.2 = none
      · simp only [hg, ne_eq, not_true_eq_false, if_false] at m1 ⊢
        cases m1; rfl
      · simp only [hg, ne_eq, not_false_eq_true, if_true, Prog.bind_run] at m1 ⊢
        cases hs2 : setNext cfg g.2 (lst hd tl cs own).tail p.2 with
        | ok p2 =>
          rw [hs2] at m1
          cases m1; rfl
        | _ => rw [hs2] at m1; cases m1
    | _ => rw [hs] at m1; cases m1
  · right
    have nin : ∀ {z : Nat}, z ∈ nodes hd2 tl2 ds → z ∉ addrs ds → z ∉ addrs cs ++ addrs ds := fun hz ho => by
      rw [List.mem_append, not_or]; exact ⟨fun hm => hj' _ hm hz, ho⟩
    have o1 := nin mh2 out1
    have o2 := nin mt2 out2
    have hdS : hd ∉ addrs cs ++ addrs ds := by
      rw [List.mem_append, not_or]
      exact ⟨r.hd_not_cell, fun hm => hj hd (by simp [nodes]) (by rw [mem_nodes]; exact .inr (.inl hm))⟩
    have tlS : tl ∉ addrs cs ++ addrs ds := by
      rw [List.mem_append, not_or]
      exact ⟨r.tl_not_cell, fun hm => hj tl (by simp [nodes]) (by rw [mem_nodes]; exact .inr (.inl hm))⟩
    have htt : tl ≠ tl2 := fun e => hj tl (by simp [nodes]) (e ▸ mt2)
    have hth : hd ≠ hd2 := fun e => hj hd (by simp [nodes]) (e ▸ mh2)
    have hinfo : h1.info = h.info := t2.relink.info
    have hel : ∀ y ∈ addrs cs ++ addrs ds, ∃ x, IsElem cfg own h1 y x := by
      intro y hy
      rcases List.mem_append.1 hy with hy | hy <;> obtain ⟨q, hq, rfl⟩ := List.mem_map.1 hy
      · exact ⟨q.2, by rw [IsElem, hinfo]; exact r.cells q hq⟩
      · exact ⟨q.2, by rw [IsElem, hinfo]; exact ro.cells q hq⟩
    obtain ⟨c, v, rfl⟩ := List.exists_cons_of_ne_nil hc
    have n1 : h1.nxt hd = some (some c.1) := by
      rw [t2.relink.nxt hd hdS, link_nxt_ne hth]
      have := Rep.nxt_at (c1 := []) (c2 := c :: v) r
      simpa using this
    have n2 : h1.nxt tl2 = some none := by
      rw [t2.relink.nxt tl2 o2, link_nxt_ne hne2.symm]
      exact ro.last
    refine ⟨h1, ?_, t2.cause.imp fun j hj => ⟨by omega, hj.2⟩, hinfo, ?_, ?_⟩
    · unfold mergeT
      rw [Prog.bind_run, dbgAssert_run (by simp [lst])]
      simp only [Out.bind_ok]
      rw [Prog.bind_run, dbgAssert_run (by simp [lst])]
      simp only [Out.bind_ok]
      rw [if_neg hl2]
      simp only [Prog.bind_run, hh, hh2, ht2, r.start, ro.start, setNext_run ro.vhd.live ro.vtl.live, Out.bind_ok, t1]
      rfl
    · refine (ro.emptied (h' := h) ⟨rfl, rfl⟩ rfl rfl).frame ?_
      intro a ha
      simp only [nodes, addrs, List.map_nil, List.nil_append, List.mem_cons, List.not_mem_nil, or_false] at ha
      have hne' : a ∉ addrs (c :: v) ++ addrs ds := by rcases ha with rfl | rfl <;> assumption
      exact ⟨by rw [t2.relink.info], t2.relink.nxt a hne', t2.relink.prv a hne'⟩
    · obtain ⟨z, hz, lz, ez, sz⟩ := t2.lost
      rcases t2.fate c.1 (by simp) with ⟨l, el, sl⟩ | ⟨l, el, sl⟩
      · right
        obtain ⟨ys, y1, y2⟩ := walk_ends (cfg := cfg) (own := own) el (fun y hy => ⟨by rintro rfl; exact tlS (sl _ hy), hel y (sl y hy)⟩) []
        have hzl : z ∉ c.1 :: l := by
          intro hm
          obtain ⟨u, v', huv⟩ := List.append_of_mem hm
          have e2 : Ends h1 (some tl) (z :: v') := Ends.suffix (u := u) (by rw [← huv]; exact el)
          have := (e2.unique ez (S := addrs (c :: v) ++ addrs ds) (fun y hy => sl y (by rw [huv]; simp; tauto)) (fun y hy => sz y (List.mem_cons_of_mem _ hy))
            (fun t ht => by cases ht; exact tlS) (fun t ht => by cases ht; exact o2)).2
          exact htt (Option.some.inj this)
        have hnd : (z :: c.1 :: l).Nodup := List.nodup_cons.2 ⟨hzl, el.nodup sl fun t ht => by cases ht; exact tlS⟩
        have hle : (z :: c.1 :: l).length ≤ (addrs (c :: v) ++ addrs ds).length :=
          (List.subperm_of_subset (l₂ := addrs (c :: v) ++ addrs ds) hnd (by
            intro y hy
            rcases List.mem_cons.1 hy with rfl | hy
            · exact hz
            · exact sl y hy)).length_le
        refine ⟨ys, ?_, ?_⟩
        · simp at hle ⊢; omega
        · simp only [traverse, Prog.bind_run]
          rw [getNext_run (show Live h1 hd by rw [Live, hinfo]; exact r.vhd.live) n1]
          simpa using y2
      · left
        refine nullBroken (l := (c.1 :: l) ++ [tl2]) ⟨n1, el.snoc n2⟩ (by simp) ?_
        intro hm
        rcases List.mem_append.1 hm with hm | hm
        · exact tlS (sl _ hm)
        · simp at hm; exact htt hm

/-! ### `unique` -/

theorem uniqueLoopT_ok (hb : Bal h) (r : Rep cfg h hd tl ((c1 ++ [c]) ++ c2) own) (p : α → α → Bool) (n cnt : Nat) {m : Nat}
    (hm : m ≤ c2.length) (hg : ∀ j < m, thr (k + j) = false) (ht : m < c2.length → thr (k + m) = true) :
    ∃ h', uniqueLoopT cfg thr own (some tl) p (some (headOf tl c2)) (some c.1) (some c.1) (n + c2.length) cnt k h =
        .ok ((decide (m < c2.length), n + (uniqCells p c.2 (c2.take m) ++ c2.drop m).length, cnt + (m - (uniqCells p c.2 (c2.take m)).length)), h') ∧
      ∃ q, Edit cfg h hd tl ((c1 ++ [c]) ++ c2) own h' ((c1 ++ [c]) ++ (uniqCells p c.2 (c2.take m) ++ c2.drop m)) q := by
  induction c2 generalizing h c1 c n cnt k m with
  | nil =>
    have : m = 0 := by simpa using hm
    subst this
    refine ⟨h, ?_, 0, Edit.refl hb r⟩
    rw [uniqueLoopT, headOf_nil, if_pos rfl]
    rfl
  | cons d c2 ih =>
    have hne : some d.1 ≠ some tl := by simpa using r.head_ne_tl
    have rc : IsElem cfg own h c.1 c.2 := r.cells c (by simp)
    have lc : lastOf hd (c1 ++ [c]) = c.1 := by simp
    rw [uniqueLoopT, headOf_cons, if_neg hne]
    simp only [Prog.bind_run, load_run (Rep.elem_at (a := d.1) (x := d.2) r), load_run rc, Out.bind_ok]
    cases m with
    | zero =>
      have := ht (by simp)
      simp only [Nat.add_zero] at this
      rw [if_pos this]
      exact ⟨h, by simp [uniqCells], 0, Edit.refl hb r⟩
    | succ m =>
      have h0 : thr k = false := by simpa using hg 0 (by omega)
      have hg' : ∀ j < m, thr (k + 1 + j) = false := fun j hj => by
        have := hg (j + 1) (by omega); rwa [show k + 1 + j = k + (j + 1) by omega]
      have ht' : m < c2.length → thr (k + 1 + m) = true := fun hm => by
        have := ht (by simpa using hm); rwa [show k + 1 + m = k + (m + 1) by omega]
      have hm' : m ≤ c2.length := by simpa using hm
      rw [h0]
      simp only [Bool.false_eq_true, if_false]
      have hdec : decide (m + 1 < (d :: c2).length) = decide (m < c2.length) := by simp
      rw [hdec]
      cases hp : p d.2 c.2 with
      | true =>
        have ed := Rep.link_kill hb r
        have lu := len_uniq p c.2 (c2.take m)
        have lt : (c2.take m).length = m := by simp; omega
        obtain ⟨h2, e2, q, ed2⟩ := ih ed.bal ed.rep n (cnt + 1) hm' hg' ht'
        refine ⟨h2, ?_, ?_⟩
        · simp only [if_true, Prog.bind_run, r.getNext_cell, Out.bind_ok]
          have l1 := r.live_lastOf
          rw [lc] at l1
          rw [setNext_run l1 r.cons_mid.live_headOf]
          simp only [Out.bind_ok]
          rw [destroyNode_elem (h := link cfg.dbl h c.1 (headOf tl c2)) (r.elem_at (a := d.1) (x := d.2))]
          have gn := ed.rep.getNext_at
          rw [lc] at gn
          simp only [Out.bind_ok, gn]
          rw [List.length_cons, ← Nat.add_assoc, dec_length]
          rw [lc] at e2
          rw [e2]
          simp only [List.take_succ_cons, List.drop_succ_cons, uniqCells, hp, if_true]
          congr 4
          omega
        · have : ∃ q, Edit cfg h hd tl ((c1 ++ [c]) ++ d :: c2) own h2 ((c1 ++ [c]) ++ (uniqCells p c.2 (c2.take m) ++ c2.drop m)) q :=
            ⟨_, ed.trans ed2⟩
          simpa [uniqCells, hp] using this
      | false =>
        obtain ⟨h2, e2, q, ed2⟩ := ih (c1 := c1 ++ [c]) (c := d) hb r.cons_mid (n + 1) cnt hm' hg' ht'
        refine ⟨h2, ?_, q, ?_⟩
        · simp only [Bool.false_eq_true, if_false, Prog.bind_run, r.getNext_cell, Out.bind_ok]
          rw [show n + (d :: c2).length = n + 1 + c2.length by simp; omega, e2]
          simp [uniqCells, hp]
          omega
        · simpa [uniqCells, hp] using ed2

/-- `unique` after `m` comparisons: the elements compared so far without repetitions, then the others -/
theorem uniqueT_ok (hb : Bal h) (r : Rep cfg h hd tl (c :: cs) own) (p : α → α → Bool) {m : Nat}
    (hm : m ≤ cs.length) (hg : ∀ j < m, thr j = false) (ht : m < cs.length → thr m = true) :
    ∃ h', uniqueT cfg thr (lst hd tl (c :: cs) own) p h =
        .ok ((decide (m < cs.length), lst hd tl (c :: (uniqCells p c.2 (cs.take m) ++ cs.drop m)) own,
          m - (uniqCells p c.2 (cs.take m)).length), h') ∧
      ∃ q, Edit cfg h hd tl (c :: cs) own h' (c :: (uniqCells p c.2 (cs.take m) ++ cs.drop m)) q := by
  unfold uniqueT
  rw [Prog.bind_run, dbgAssert_run (by simp [lst])]
  simp only [Out.bind_ok]
  match cs, r, hm, ht with
  | [], r, hm, ht =>
    have : m = 0 := by simpa using hm
    subst this
    exact ⟨h, rfl, 0, Edit.refl hb r⟩
  | d :: cs, r, hm, ht =>
    have r' : Rep cfg h hd tl (([] ++ [c]) ++ d :: cs) own := r
    obtain ⟨h2, e2, q, ed2⟩ := uniqueLoopT_ok (thr := thr) (k := 0) hb r' p 1 0 hm (by simpa using hg) (by simpa using ht)
    refine ⟨h2, ?_, q, ed2⟩
    rw [if_neg (by simp [lst])]
    have gn : getNext (some c.1) h = .ok (some d.1, h) := Rep.getNext_cell (c1 := []) r
    have gn2 : getNext (some hd) h = .ok (some c.1, h) := r.getNext_hd
    simp only [Prog.bind_run, lst, gn, gn2, Out.bind_ok]
    rw [show 1 + (d :: cs).length = (c :: d :: cs).length by simp; omega, headOf_cons] at e2
    rw [e2]
    simp [Nat.add_comm]

/-! ## remove_if: `noexcept` -/

/-- the predicate `q`, terminating the program at its `k`-th call if `thr k` -/
def termAt (q : α → Bool) (thr : Nat → Bool) (k : Nat) (x : α) : M α (Bool × Nat) :=
  if thr k then Prog.panic else return (q x, k + 1)

theorem removeLoop_term {h : Heap α} {hd tl own : Nat} {c1 c2 : Cells α} (hb : Bal h) (r : Rep cfg h hd tl (c1 ++ c2) own) (q : α → Bool)
    (thr : Nat → Bool) (k j : Nat) (hj : j < c2.length) (ht : thr (k + j) = true) (len cnt : Nat) :
    removeLoop cfg own (some tl) (termAt q thr) k (some (headOf tl c2)) (some (lastOf hd c1)) len cnt h = .panic := by
  induction c2 generalizing h c1 k j len cnt with
  | nil => simp at hj
  | cons c c2 ih =>
    have hne : some c.1 ≠ some tl := by simpa using r.head_ne_tl
    rw [removeLoop, headOf_cons, if_neg hne]
    simp only [Prog.bind_run, load_run (Rep.elem_at (a := c.1) (x := c.2) r), Out.bind_ok]
    by_cases h0 : thr k = true
    · simp [termAt, h0]
    · have hj0 : j ≠ 0 := by rintro rfl; exact h0 ht
      obtain ⟨j, rfl⟩ := Nat.exists_eq_succ_of_ne_zero hj0
      have hj' : j < c2.length := by simpa using hj
      have ht' : thr (k + 1 + j) = true := by rw [← ht]; congr 1; omega
      simp only [termAt, if_neg h0, Prog.pure_run, Out.bind_ok]
      cases hf : q c.2 with
      | true =>
        have ed := Rep.link_kill hb r
        simp only [if_true, Prog.bind_run, r.getNext_cell, Out.bind_ok]
        rw [setNext_run r.live_lastOf r.cons_mid.live_headOf]
        simp only [Out.bind_ok]
        rw [destroyNode_elem (h := link cfg.dbl h (lastOf hd c1) (headOf tl c2)) (r.elem_at (a := c.1) (x := c.2))]
        simp only [Out.bind_ok, ed.rep.getNext_at]
        exact ih ed.bal ed.rep (k + 1) j hj' ht' _ _
      | false =>
        have := ih (c1 := c1 ++ [c]) hb r.cons_mid (k + 1) j hj' ht' len cnt
        simp only [Bool.false_eq_true, if_false, Prog.bind_run, r.getNext_cell, Out.bind_ok, r.getNext_at, headOf_cons]
        simpa only [lastOf_append, lastOf_cons, lastOf_nil] using this

theorem removeIf_term {h : Heap α} {hd tl own : Nat} {cs : Cells α} (hb : Bal h) (r : Rep cfg h hd tl cs own) (q : α → Bool)
    (thr : Nat → Bool) (j : Nat) (hj : j < cs.length) (ht : thr j = true) :
    removeIf cfg (lst hd tl cs own) (termAt q thr) 0 h = .panic := by
  have e2 := removeLoop_term (c1 := []) hb r q thr 0 j hj (by simpa using ht) cs.length 0
  have hc : cs ≠ [] := by rintro rfl; simp at hj
  simp only [removeIf, Prog.bind_run]
  rw [dbgAssert_run (by simp [lst])]
  simp only [Out.bind_ok]
  rw [if_neg (by simpa [lst] using hc)]
  simp only [Prog.bind_run, lst, r.getNext_hd, Out.bind_ok]
  simp only [lastOf_nil] at e2
  rw [e2]
  rfl

theorem gone_count (q : α → Bool) (k : Nat) (cs : Cells α) : goneOf (fun k y => (q y, k + 1)) k cs = cs.filter fun c => q c.2 := by
  induction cs generalizing k with
  | nil => rfl
  | cons c cs ih => simp only [goneOf, List.filter_cons, ih]

theorem kept_count (q : α → Bool) (k : Nat) (cs : Cells α) : keptOf (fun k y => (q y, k + 1)) k cs = cs.filter fun c => !q c.2 := by
  induction cs generalizing k with
  | nil => rfl
  | cons c cs ih => simp only [keptOf, List.filter_cons, ih]; cases q c.2 <;> rfl

theorem stAfter_count (q : α → Bool) (k : Nat) (cs : Cells α) : stAfter (fun k y => (q y, k + 1)) k cs = k + cs.length := by
  induction cs generalizing k with
  | nil => rfl
  | cons c cs ih => simp only [stAfter, ih, List.length_cons]; omega

theorem removeIf_calm {h : Heap α} {hd tl own : Nat} {cs : Cells α} (hb : Bal h) (r : Rep cfg h hd tl cs own) (q : α → Bool)
    (thr : Nat → Bool) (ht : ∀ k < cs.length, thr k = false) :
    ∃ h', removeIf cfg (lst hd tl cs own) (termAt q thr) 0 h =
        .ok ((lst hd tl (cs.filter fun c => !q c.2) own, (cs.filter fun c => q c.2).length, cs.length), h') ∧
      Edit cfg h hd tl cs own h' (cs.filter fun c => !q c.2) ⟨0, (cs.filter fun c => q c.2).length, 0⟩ := by
  have := removeIf_ok hb r (termAt q thr) (fun k y => (q y, k + 1)) 0 (by
    intro u c v hu h' _
    rw [stAfter_count, termAt, Nat.zero_add, ht _ (by rw [hu]; simp)]
    rfl)
  rwa [gone_count, kept_count, stAfter_count, Nat.zero_add] at this

end Verif.Proof.LL
