import Verif.Spec.ArrayLive
import Verif.Proof.ArrayHist
namespace Verif.Proof.ArrLive
open Verif Verif.Model.Array Verif.Model.ArrLive Verif.Spec.Arr Verif.Spec.ArrLive
open Verif.Proof.Arr (R)

variable {α : Type}

/-! ## What calls do to the set of arrays and their lengths -/

theorem values_len {c : List (Option α)} {vs : List α} (h : values c = some vs) : vs.length = c.length := by
  rw [Arr.values_some h]; simp

structure Keeps (op : Op α) (A A' : Ideal α) : Prop where
  live : ∀ i c, A.arr i = some c → destroys op ≠ some i → makes op ≠ some i ∧ ∃ c', A'.arr i = some c' ∧ c'.length = c.length
  dead : ∀ i, A.arr i = none → makes op ≠ some i → A'.arr i = none
  kill : ∀ i, destroys op = some i → A'.arr i = none ∧ makes op = none

theorem Keeps.refl {op : Op α} {A A' : Ideal α} (hd : destroys op = none) (hm : makes op = none) (h : A'.arr = A.arr) : Keeps op A A' where
  live i c hc _ := ⟨by simp [hm], c, by rw [h]; exact hc, rfl⟩
  dead i hi _ := by rw [h]; exact hi
  kill i h := by simp [hd] at h

theorem Keeps.make {op : Op α} {A A' : Ideal α} {i : Nat} {c : List (Option α)} (hd : destroys op = none) (hm : makes op = some i)
    (hi : A.arr i = none) (h : A'.arr = fun k => if k = i then some c else A.arr k) : Keeps op A A' where
  live k d hk _ := by
    have : k ≠ i := by rintro rfl; rw [hi] at hk; cases hk
    exact ⟨by simp [hm, Ne.symm this], d, by simp [h, this, hk], rfl⟩
  dead k hk hn := by
    have : k ≠ i := by rintro rfl; exact hn hm
    simp [h, this, hk]
  kill i h := by simp [hd] at h

theorem Keeps.make2 {op : Op α} {A A' : Ideal α} {i j : Nat} {c d d' : List (Option α)} (hd : destroys op = none) (hm : makes op = some i)
    (hi : A.arr i = none) (hj : A.arr j = some d) (hl : d'.length = d.length)
    (h : A'.arr = fun k => if k = i then some c else if k = j then some d' else A.arr k) : Keeps op A A' where
  live k e hk _ := by
    have : k ≠ i := by rintro rfl; rw [hi] at hk; cases hk
    refine ⟨by simp [hm, Ne.symm this], ?_⟩
    by_cases hkj : k = j
    · subst hkj; rw [hj] at hk; cases hk; exact ⟨d', by simp [h, this], hl⟩
    · exact ⟨e, by simp [h, this, hkj, hk], rfl⟩
  dead k hk hn := by
    have h1 : k ≠ i := by rintro rfl; exact hn hm
    have h2 : k ≠ j := by rintro rfl; rw [hj] at hk; cases hk
    simp [h, h1, h2, hk]
  kill i h := by simp [hd] at h

theorem Keeps.set {op : Op α} {A A' : Ideal α} {i : Nat} {c c' : List (Option α)} (hd : destroys op = none) (hm : makes op = none)
    (hi : A.arr i = some c) (hl : c'.length = c.length) (h : A'.arr = fun k => if k = i then some c' else A.arr k) : Keeps op A A' where
  live k d hk _ := by
    refine ⟨by simp [hm], ?_⟩
    by_cases hki : k = i
    · subst hki; rw [hi] at hk; cases hk; exact ⟨c', by simp [h], hl⟩
    · exact ⟨d, by simp [h, hki, hk], rfl⟩
  dead k hk _ := by
    have : k ≠ i := by rintro rfl; rw [hi] at hk; cases hk
    simp [h, this, hk]
  kill i h := by simp [hd] at h

theorem Keeps.set2 {op : Op α} {A A' : Ideal α} {i j : Nat} {c c' d d' : List (Option α)} (hd : destroys op = none) (hm : makes op = none)
    (hi : A.arr i = some c) (hl : c'.length = c.length) (hj : A.arr j = some d) (hl' : d'.length = d.length)
    (h : A'.arr = fun k => if k = i then some c' else if k = j then some d' else A.arr k) : Keeps op A A' where
  live k e hk _ := by
    refine ⟨by simp [hm], ?_⟩
    by_cases hki : k = i
    · subst hki; rw [hi] at hk; cases hk; exact ⟨c', by simp [h], hl⟩
    · by_cases hkj : k = j
      · subst hkj; rw [hj] at hk; cases hk; exact ⟨d', by simp [h, hki], hl'⟩
      · exact ⟨e, by simp [h, hki, hkj, hk], rfl⟩
  dead k hk _ := by
    have h1 : k ≠ i := by rintro rfl; rw [hi] at hk; cases hk
    have h2 : k ≠ j := by rintro rfl; rw [hj] at hk; cases hk
    simp [h, h1, h2, hk]
  kill i h := by simp [hd] at h

theorem specStep_keeps {full : Bool} {E : Elem α} {ne : α → α → Bool} {op : Op α} {A A' : Ideal α} {r : Ret α}
    (h : specStep full E ne op A = some (.ok (r, A'))) : Keeps op A A' := by
  cases op with
  | newDefault i N =>
    simp only [specStep] at h
    split at h <;> simp at h
    obtain ⟨-, rfl⟩ := h; rename_i h
    exact .make rfl rfl (by simpa using h.2) rfl
  | newZero i N =>
    simp only [specStep] at h
    split at h <;> simp at h
    obtain ⟨-, rfl⟩ := h; rename_i h
    exact .make rfl rfl (by simpa using h.2) rfl
  | newList i N xs =>
    simp only [specStep] at h
    split at h
    · rename_i h1
      split at h <;> simp at h
      obtain ⟨-, rfl⟩ := h
      exact .make rfl rfl (by simpa using h1.2) rfl
    · simp at h
  | newRaw i xs =>
    simp only [specStep] at h
    split at h <;> simp at h
    obtain ⟨-, rfl⟩ := h; rename_i h
    exact .make rfl rfl (by simpa using h.2) rfl
  | newCopy i j =>
    simp only [specStep] at h
    split at h
    · rename_i hi hj
      split at h <;> simp at h
      obtain ⟨-, rfl⟩ := h
      exact .make rfl rfl hi rfl
    · simp at h
  | newMove i j =>
    simp only [specStep] at h
    split at h
    · rename_i hi hj
      split at h <;> simp at h
      rename_i hv
      obtain ⟨-, rfl⟩ := h
      exact .make2 rfl rfl hi hj (by simpa using values_len hv) rfl
    · simp at h
  | copyAssign i j =>
    simp only [specStep] at h
    split at h
    · rename_i d c hi hj
      split at h
      · simp at h
      · rename_i hl
        split at h
        · simp at h; obtain ⟨-, rfl⟩ := h; exact .refl rfl rfl rfl
        · split at h <;> simp at h
          rename_i hv
          obtain ⟨-, rfl⟩ := h
          exact .set rfl rfl hi (by have := values_len hv; simp at hl ⊢; omega) rfl
    · simp at h
  | moveAssign i j =>
    simp only [specStep] at h
    split at h
    · rename_i d c hi hj
      split at h
      · simp at h
      · rename_i hl
        split at h
        · simp at h; obtain ⟨-, rfl⟩ := h; exact .refl rfl rfl rfl
        · split at h <;> simp at h
          rename_i hv
          obtain ⟨-, rfl⟩ := h
          have := values_len hv
          simp at hl
          exact .set2 rfl rfl hi (by simp; omega) hj (by simp; omega) rfl
    · simp at h
  | get i p =>
    simp only [specStep] at h
    split at h
    · split at h <;> simp at h
      obtain ⟨-, rfl⟩ := h; exact .refl rfl rfl rfl
    · simp at h
  | set i p x =>
    simp only [specStep] at h
    split at h
    · rename_i c hi
      split at h <;> simp at h
      obtain ⟨-, rfl⟩ := h; exact .set rfl rfl hi (by simp) rfl
    · simp at h
  | size i =>
    simp only [specStep] at h
    split at h <;> simp at h
    obtain ⟨-, rfl⟩ := h; exact .refl rfl rfl rfl
  | eq i j =>
    simp only [specStep] at h
    split at h
    · split at h
      · split at h <;> simp at h
        obtain ⟨-, rfl⟩ := h; exact .refl rfl rfl rfl
      · simp at h
    · simp at h
  | forEach i =>
    simp only [specStep] at h
    split at h
    · split at h <;> simp at h
      obtain ⟨-, rfl⟩ := h; exact .refl rfl rfl rfl
    · simp at h
  | drop i =>
    simp only [specStep] at h
    split at h <;> simp at h
    obtain ⟨-, rfl⟩ := h
    refine ⟨fun k c hk hn => ?_, fun k hk _ => ?_, fun k hk => ?_⟩
    · have : k ≠ i := by rintro rfl; exact hn rfl
      exact ⟨by simp [makes], c, by simp [Ideal.setArr, this, hk], rfl⟩
    · simp [Ideal.setArr, hk]
    · simp only [destroys, Option.some.injEq] at hk
      subst hk; simp [Ideal.setArr, makes]
  | intoIter k i =>
    simp only [specStep] at h
    split at h
    · rename_i c hk hi
      split at h <;> simp at h
      rename_i hv
      obtain ⟨-, rfl⟩ := h
      exact .set (c' := _) rfl rfl hi (by simpa using values_len hv) rfl
    · simp at h
  | next k =>
    simp only [specStep] at h
    split at h <;> simp at h
    · obtain ⟨-, rfl⟩ := h; exact .refl rfl rfl rfl
    · obtain ⟨-, rfl⟩ := h; exact .refl rfl rfl rfl
  | isEmpty k =>
    simp only [specStep] at h
    split at h <;> simp at h
    obtain ⟨-, rfl⟩ := h; exact .refl rfl rfl rfl
  | itCopy k l =>
    simp only [specStep] at h
    split at h <;> simp at h
    obtain ⟨-, rfl⟩ := h; exact .refl rfl rfl rfl
  | itMove k l =>
    simp only [specStep] at h
    split at h <;> simp at h
    obtain ⟨-, rfl⟩ := h; exact .refl rfl rfl rfl
  | itCopyAssign k l =>
    simp only [specStep] at h
    split at h
    · split at h
      · simp at h
      · simp only [only] at h
        split at h <;> simp at h
        obtain ⟨-, rfl⟩ := h; exact .refl rfl rfl rfl
    · simp at h
  | itMoveAssign k l =>
    simp only [specStep] at h
    split at h
    · split at h
      · simp at h
      · split at h
        · simp at h; obtain ⟨-, rfl⟩ := h; exact .refl rfl rfl rfl
        · simp only [only] at h
          split at h <;> simp at h
          obtain ⟨-, rfl⟩ := h; exact .refl rfl rfl rfl
    · simp at h
  | itDrop k =>
    simp only [specStep] at h
    split at h <;> simp at h
    obtain ⟨-, rfl⟩ := h; exact .refl rfl rfl rfl

/-! ## The invariant -/

def ItOk (A : Ideal α) (made : Nat → Nat) : View → Ptr → Ptr → Prop
  | .at i lo hi, p, q => p = ⟨some (i, made i), lo⟩ ∧ q = ⟨some (i, made i), hi⟩ ∧ lo ≤ hi ∧ ∃ c, A.arr i = some c ∧ hi ≤ c.length
  | .empty, p, q => p = ⟨none, 0⟩ ∧ q = ⟨none, 0⟩
  | .gone, p, q => ∃ i g a b, p = ⟨some (i, g), a⟩ ∧ q = ⟨some (i, g), b⟩ ∧ g ≤ made i ∧ (g = made i → A.arr i = none)

def SlOk (A : Ideal α) (made : Nat → Nat) : View → Ptr → Nat → Prop
  | .at i lo hi, p, n => p = ⟨some (i, made i), lo⟩ ∧ hi = lo + n ∧ ∃ c, A.arr i = some c ∧ lo ≤ c.length
  | .empty, p, n => p = ⟨none, 0⟩ ∧ n = 0
  | .gone, p, _ => ∃ i g a, p = ⟨some (i, g), a⟩ ∧ g ≤ made i ∧ (g = made i → A.arr i = none)

def ItV (A : Ideal α) (made : Nat → Nat) : Option (Bool × View) → Option It → Prop
  | none, o => o = none
  | some v, o => ∃ it, o = some it ∧ it.sl = v.1 ∧ ItOk A made v.2 it.start it.stop

def SlV (A : Ideal α) (made : Nat → Nat) : Option View → Option Sl → Prop
  | none, o => o = none
  | some v, o => ∃ s, o = some s ∧ SlOk A made v s.ptr s.size

structure Inv (S : State α) (w : AWorld α) : Prop where
  base : R S.arrs w.base
  its : ∀ k, ItV S.arrs w.made (S.its k) (w.its k)
  slices : ∀ s, SlV S.arrs w.made (S.slices s) (w.slices s)

theorem inv_init : Inv ({} : State α) {} where
  base := ⟨fun _ => rfl, fun _ _ h => by simp at h, fun _ => rfl⟩
  its _ := rfl
  slices _ := rfl

theorem Inv.setIt {S : State α} {w : AWorld α} (I : Inv S w) (k : Nat) {v : Bool × View} {it : It} (h1 : it.sl = v.1)
    (h2 : ItOk S.arrs w.made v.2 it.start it.stop) :
    Inv (S.setIt k v) { w with its := fun k' => if k' = k then some it else w.its k' } where
  base := I.base
  its k' := by
    by_cases hk : k' = k
    · simp only [State.setIt, hk, if_true]; exact ⟨it, rfl, h1, h2⟩
    · simp only [State.setIt, hk, if_false]; exact I.its k'
  slices := I.slices

theorem Inv.setSlice {S : State α} {w : AWorld α} (I : Inv S w) (s : Nat) {v : View} {x : Sl} (h : SlOk S.arrs w.made v x.ptr x.size) :
    Inv (S.setSlice s v) { w with slices := fun k' => if k' = s then some x else w.slices k' } where
  base := I.base
  slices k' := by
    by_cases hk : k' = s
    · simp only [State.setSlice, hk, if_true]; exact ⟨x, rfl, h⟩
    · simp only [State.setSlice, hk, if_false]; exact I.slices k'
  its := I.its

theorem Inv.it {S : State α} {w : AWorld α} (I : Inv S w) {k : Nat} {v : Bool × View} (h : S.its k = some v) :
    ∃ it, theIt k w = .ok (it, w) ∧ it.sl = v.1 ∧ ItOk S.arrs w.made v.2 it.start it.stop := by
  have := I.its k
  rw [h] at this
  obtain ⟨it, h1, h2⟩ := this
  exact ⟨it, by simp [theIt, h1], h2⟩

theorem Inv.sl {S : State α} {w : AWorld α} (I : Inv S w) {s : Nat} {v : View} (h : S.slices s = some v) :
    ∃ x, theSlice s w = .ok (x, w) ∧ SlOk S.arrs w.made v x.ptr x.size := by
  have := I.slices s
  rw [h] at this
  obtain ⟨x, h1, h2⟩ := this
  exact ⟨x, by simp [theSlice, h1], h2⟩

/-! ## Pointers -/

theorem cells_live {A : Ideal α} {w : AWorld α} (hR : R A w.base) {i : Nat} {c : List (Option α)} (h : A.arr i = some c) :
    cellsOf w (i, w.made i) = some (c.length, c) := by simp [cellsOf, hR.arr i, h]

theorem cells_dead {A : Ideal α} {w : AWorld α} (hR : R A w.base) {i g : Nat} (h : g = w.made i → A.arr i = none) :
    cellsOf w (i, g) = none := by
  simp only [cellsOf]
  split
  · rename_i h'; simp [hR.arr i, h h'.symm]
  · rfl

theorem move_live {A : Ideal α} {w : AWorld α} (hR : R A w.base) {i a : Nat} {c : List (Option α)} (h : A.arr i = some c) {d : Int} {b : Nat}
    (hb : (a : Int) + d = b) (hle : b ≤ c.length) :
    (Ptr.move ⟨some (i, w.made i), a⟩ d : AM α Ptr) w = .ok (⟨some (i, w.made i), b⟩, w) := by
  simp only [Ptr.move, cells_live hR h]
  rw [if_pos (by omega)]
  simp [hb]

theorem move_over {A : Ideal α} {w : AWorld α} (hR : R A w.base) {i a : Nat} {c : List (Option α)} (h : A.arr i = some c) {d : Int} {b : Nat}
    (hb : (a : Int) + d = b) (hle : c.length < b) :
    (Ptr.move ⟨some (i, w.made i), a⟩ d : AM α Ptr) w = .ub := by
  simp only [Ptr.move, cells_live hR h]
  rw [if_neg (by omega)]

theorem move_dead {A : Ideal α} {w : AWorld α} (hR : R A w.base) {i g a : Nat} (h : g = w.made i → A.arr i = none) (d : Int) :
    (Ptr.move ⟨some (i, g), a⟩ d : AM α Ptr) w = .ub := by
  simp only [Ptr.move, cells_dead hR h]

theorem diff_live {A : Ideal α} {w : AWorld α} (hR : R A w.base) {i a b : Nat} {c : List (Option α)} (h : A.arr i = some c) :
    (Ptr.diff ⟨some (i, w.made i), a⟩ ⟨some (i, w.made i), b⟩ : AM α Int) w = .ok ((a : Int) - b, w) := by
  simp [Ptr.diff, cells_live hR h]

theorem diff_dead {A : Ideal α} {w : AWorld α} (hR : R A w.base) {i g a b : Nat} (h : g = w.made i → A.arr i = none) :
    (Ptr.diff ⟨some (i, g), a⟩ ⟨some (i, g), b⟩ : AM α Int) w = .ub := by
  simp [Ptr.diff, cells_dead hR h]

theorem read_live {A : Ideal α} {w : AWorld α} (hR : R A w.base) {i a : Nat} {c : List (Option α)} (h : A.arr i = some c) :
    (Ptr.read ⟨some (i, w.made i), a⟩ : AM α α) w = (readCell c a >>= fun x => .ok (x, w)) := by
  simp [Ptr.read, cells_live hR h]

theorem isEmpty_ok {A : Ideal α} {w : AWorld α} (hR : R A w.base) {v : View} {it : It} (h : ItOk A w.made v it.start it.stop) :
    (it.isEmpty : AM α Bool) w = match (generalizing := false) v with
      | .at _ lo hi => .ok (decide (lo = hi), w)
      | .empty => .ok (true, w)
      | .gone => .ub := by
  obtain ⟨sl, p, q⟩ := it
  cases v with
  | «at» i lo hi =>
    obtain ⟨rfl, rfl, hle, c, hc, hb⟩ := h
    simp only [It.isEmpty, Prog.bind_run, diff_live hR hc, Out.bind_ok, Prog.pure_run]
    congr 2
    exact decide_eq_decide.2 ⟨fun h => by omega, fun h => by omega⟩
  | empty =>
    obtain ⟨rfl, rfl⟩ := h
    simp [It.isEmpty, Prog.bind_run, Ptr.diff]
  | gone =>
    obtain ⟨i, g, a, b, rfl, rfl, hg, hd⟩ := h
    simp [It.isEmpty, Prog.bind_run, diff_dead hR hd]

theorem done_ok {A : Ideal α} {w : AWorld α} (hR : R A w.base) {v : View} {it : It} (h : ItOk A w.made v it.start it.stop) :
    (it.done : AM α Bool) w = match (generalizing := false) v with
      | .at _ lo hi => .ok (decide (lo = hi), w)
      | .empty => .ok (true, w)
      | .gone => .ub := by
  cases hs : it.sl with
  | false => simp only [It.done, hs]; exact isEmpty_ok hR h
  | true =>
    obtain ⟨sl, p, q⟩ := it
    dsimp only at hs; subst hs
    simp only [It.done, if_true]
    cases v with
    | «at» i lo hi =>
      obtain ⟨rfl, rfl, hle, c, hc, hb⟩ := h
      simp only [Prog.bind_run, diff_live hR hc, Out.bind_ok, Prog.pure_run]
      congr 2
      exact decide_eq_decide.2 ⟨fun h => by omega, fun h => by omega⟩
    | empty =>
      obtain ⟨rfl, rfl⟩ := h
      simp [Prog.bind_run, Ptr.diff]
    | gone =>
      obtain ⟨i, g, a, b, rfl, rfl, hg, hd⟩ := h
      simp [Prog.bind_run, diff_dead hR hd]

/-- A pointer to a position. -/
def PosOk (A : Ideal α) (made : Nat → Nat) : Option (Nat × Nat) → Option Ptr → Prop
  | none, o => o = none
  | some q, o => o = some ⟨some (q.1, made q.1), q.2⟩ ∧ ∃ c, A.arr q.1 = some c ∧ q.2 < c.length

theorem next_run {A : Ideal α} {w : AWorld α} (hR : R A w.base) {v : View} {it : It} (h : ItOk A w.made v it.start it.stop) :
    match v.first with
    | none => (it.next : AM α (Option Ptr × It)) w = .ub
    | some q => ∃ o it', (it.next : AM α (Option Ptr × It)) w = .ok ((o, it'), w) ∧ PosOk A w.made q.1 o ∧ it'.sl = it.sl ∧
        ItOk A w.made q.2 it'.start it'.stop := by
  have hd := done_ok hR h
  obtain ⟨sl, p, q⟩ := it
  cases v with
  | «at» i lo hi =>
    obtain ⟨rfl, rfl, hle, c, hc, hb⟩ := h
    simp only [View.first, It.next, Prog.bind_run, hd, Out.bind_ok]
    by_cases hlt : lo < hi
    · have : ¬ lo = hi := by omega
      simp only [this, decide_false, Bool.false_eq_true, if_false, hlt, if_true, Prog.bind_run, Prog.pure_run]
      rw [move_live hR hc (b := lo + 1) (by simp) (by omega)]
      exact ⟨_, _, rfl, ⟨rfl, c, hc, by dsimp only; omega⟩, rfl, rfl, rfl, by omega, c, hc, hb⟩
    · have : lo = hi := by omega
      simp only [this, decide_true, if_true, Nat.lt_irrefl, if_false, Prog.pure_run]
      exact ⟨_, _, rfl, rfl, rfl, rfl, rfl, by omega, c, hc, hb⟩
  | empty =>
    obtain ⟨rfl, rfl⟩ := h
    simp only [View.first, It.next, Prog.bind_run, hd, Out.bind_ok, if_true, Prog.pure_run]
    exact ⟨_, _, rfl, rfl, rfl, rfl, rfl⟩
  | gone => simp [View.first, It.next, Prog.bind_run, hd]

theorem prev_run {A : Ideal α} {w : AWorld α} (hR : R A w.base) {v : View} {it : It} (h : ItOk A w.made v it.start it.stop) :
    match v.final with
    | none => (it.prev : AM α (Option Ptr × It)) w = .ub
    | some q => ∃ o it', (it.prev : AM α (Option Ptr × It)) w = .ok ((o, it'), w) ∧ PosOk A w.made q.1 o ∧ it'.sl = it.sl ∧
        ItOk A w.made q.2 it'.start it'.stop := by
  have hd := done_ok hR h
  obtain ⟨sl, p, q⟩ := it
  cases v with
  | «at» i lo hi =>
    obtain ⟨rfl, rfl, hle, c, hc, hb⟩ := h
    simp only [View.final, It.prev, Prog.bind_run, hd, Out.bind_ok]
    by_cases hlt : lo < hi
    · have : ¬ lo = hi := by omega
      simp only [this, decide_false, Bool.false_eq_true, if_false, hlt, if_true, Prog.bind_run, Prog.pure_run]
      rw [move_live hR hc (b := hi - 1) (by omega) (by omega)]
      exact ⟨_, _, rfl, ⟨rfl, c, hc, by dsimp only; omega⟩, rfl, rfl, rfl, by omega, c, hc, by omega⟩
    · have : lo = hi := by omega
      simp only [this, decide_true, if_true, Nat.lt_irrefl, if_false, Prog.pure_run]
      exact ⟨_, _, rfl, rfl, rfl, rfl, rfl, by omega, c, hc, hb⟩
  | empty =>
    obtain ⟨rfl, rfl⟩ := h
    simp only [View.final, It.prev, Prog.bind_run, hd, Out.bind_ok, if_true, Prog.pure_run]
    exact ⟨_, _, rfl, rfl, rfl, rfl, rfl⟩
  | gone => simp [View.final, It.prev, Prog.bind_run, hd]

theorem last_run {A : Ideal α} {w : AWorld α} (hR : R A w.base) {v : View} {it : It} (h : ItOk A w.made v it.start it.stop)
    (hs : it.sl = true) :
    match v.final with
    | none => (it.last : AM α (Option Ptr)) w = .ub
    | some q => ∃ o, (it.last : AM α (Option Ptr)) w = .ok (o, w) ∧ PosOk A w.made q.1 o := by
  have hd := isEmpty_ok hR h
  obtain ⟨sl, p, q⟩ := it
  dsimp only at hs; subst hs
  cases v with
  | «at» i lo hi =>
    obtain ⟨rfl, rfl, hle, c, hc, hb⟩ := h
    simp only [View.final, It.last, Prog.bind_run, if_true, hd, Out.bind_ok]
    by_cases hlt : lo < hi
    · have : ¬ lo = hi := by omega
      simp only [this, decide_false, Bool.false_eq_true, if_false, hlt, if_true, Prog.bind_run, Prog.pure_run]
      rw [move_live hR hc (b := hi - 1) (by omega) (by omega)]
      exact ⟨_, rfl, ⟨rfl, c, hc, by dsimp only; omega⟩⟩
    · have : lo = hi := by omega
      simp only [this, decide_true, if_true, Nat.lt_irrefl, if_false, Prog.pure_run]
      exact ⟨_, rfl, rfl⟩
  | empty =>
    obtain ⟨rfl, rfl⟩ := h
    simp only [View.final, It.last, Prog.bind_run, if_true, hd, Out.bind_ok, Prog.pure_run]
    exact ⟨_, rfl, rfl⟩
  | gone => simp [View.final, It.last, Prog.bind_run, hd]

theorem len_run {A : Ideal α} {w : AWorld α} (hR : R A w.base) {v : View} {it : It} (h : ItOk A w.made v it.start it.stop) :
    (it.len : AM α Nat) w = match (generalizing := false) v with
      | .at _ lo hi => .ok (hi - lo, w)
      | .empty => .ok (0, w)
      | .gone => .ub := by
  obtain ⟨sl, p, q⟩ := it
  cases v with
  | «at» i lo hi =>
    obtain ⟨rfl, rfl, hle, c, hc, hb⟩ := h
    simp only [It.len, Prog.bind_run, diff_live hR hc, Out.bind_ok, Prog.pure_run]
    congr 2
    omega
  | empty =>
    obtain ⟨rfl, rfl⟩ := h
    simp [It.len, Prog.bind_run, Ptr.diff]
  | gone =>
    obtain ⟨i, g, a, b, rfl, rfl, hg, hd⟩ := h
    simp [It.len, Prog.bind_run, diff_dead hR hd]

theorem readRef_run {A : Ideal α} {w : AWorld α} (hR : R A w.base) {q : Option (Nat × Nat)} {o : Option Ptr} (h : PosOk A w.made q o) :
    (readRef o : AM α (Option α)) w = match shown A q with
      | some x => .ok (x, w)
      | none => .ub := by
  cases q with
  | none => subst h; rfl
  | some q =>
    obtain ⟨rfl, c, hc, hlt⟩ := h
    simp only [readRef, Prog.bind_run, read_live hR hc, shown, hc, Option.bind_some, readCell]
    rw [List.getElem?_eq_getElem hlt]
    cases c[q.2] <;> rfl

theorem ItOk.keep {A A' : Ideal α} {made : Nat → Nat} (h : ∀ i c, A.arr i = some c → ∃ c', A'.arr i = some c' ∧ c'.length = c.length)
    (h' : ∀ i, A.arr i = none → A'.arr i = none) {v : View} {p q : Ptr} (hv : ItOk A made v p q) : ItOk A' made v p q := by
  cases v with
  | «at» i lo hi =>
    obtain ⟨h1, h2, h3, c, hc, h4⟩ := hv
    obtain ⟨c', hc', hl⟩ := h i c hc
    exact ⟨h1, h2, h3, c', hc', by omega⟩
  | empty => exact hv
  | gone =>
    obtain ⟨i, g, a, b, h1, h2, h3, h4⟩ := hv
    exact ⟨i, g, a, b, h1, h2, h3, fun e => h' i (h4 e)⟩

theorem SlOk.keep {A A' : Ideal α} {made : Nat → Nat} (h : ∀ i c, A.arr i = some c → ∃ c', A'.arr i = some c' ∧ c'.length = c.length)
    (h' : ∀ i, A.arr i = none → A'.arr i = none) {v : View} {p : Ptr} {n : Nat} (hv : SlOk A made v p n) : SlOk A' made v p n := by
  cases v with
  | «at» i lo hi =>
    obtain ⟨h1, h2, c, hc, h4⟩ := hv
    obtain ⟨c', hc', hl⟩ := h i c hc
    exact ⟨h1, h2, c', hc', by omega⟩
  | empty => exact hv
  | gone =>
    obtain ⟨i, g, a, h1, h3, h4⟩ := hv
    exact ⟨i, g, a, h1, h3, fun e => h' i (h4 e)⟩

theorem writeRef_run {S : State α} {w : AWorld α} (I : Inv S w) {q : Option (Nat × Nat)} {o : Option Ptr} (h : PosOk S.arrs w.made q o) (x : α) :
    ∃ b A' w', assigned S.arrs x q = some (b, A') ∧ (writeRef x o : AM α Bool) w = .ok (b, w') ∧ Inv { S with arrs := A' } w' := by
  cases q with
  | none => subst h; exact ⟨_, _, _, rfl, rfl, I⟩
  | some q =>
    obtain ⟨rfl, c, hc, hlt⟩ := h
    refine ⟨true, S.arrs.setArr q.1 (some (c.set q.2 (some x))), { w with base :=
      { w.base with arr := fun k => if k = q.1 then some (c.length, c.set q.2 (some x)) else w.base.arr k } }, by simp [assigned, hc, hlt], ?_, ?_⟩
    · simp [writeRef, Prog.bind_run, Ptr.write, cells_live I.base hc, writeCell, hlt, Model.Array.setArr]
    · have hk : ∀ i d, S.arrs.arr i = some d →
          ∃ c', (S.arrs.setArr q.1 (some (c.set q.2 (some x)))).arr i = some c' ∧ c'.length = d.length := by
        intro i d hd
        by_cases hi : i = q.1
        · subst hi; rw [hc] at hd; cases hd; exact ⟨c.set q.2 (some x), by simp [Ideal.setArr], by simp⟩
        · exact ⟨d, by simp [Ideal.setArr, hi, hd], rfl⟩
      have hk' : ∀ i, S.arrs.arr i = none → (S.arrs.setArr q.1 (some (c.set q.2 (some x)))).arr i = none := by
        intro i hi
        have : i ≠ q.1 := by rintro rfl; rw [hc] at hi; cases hi
        simp [Ideal.setArr, this, hi]
      refine ⟨?_, fun k => ?_, fun s => ?_⟩
      · have := Arr.R_setArr I.base q.1 (c.set q.2 (some x)) (by simpa using I.base.len _ _ hc)
        simpa using this
      · have := I.its k
        dsimp only
        cases hv : S.its k with
        | none => rw [hv] at this; exact this
        | some v =>
          rw [hv] at this
          obtain ⟨it, h1, h2, h3⟩ := this
          exact ⟨it, h1, h2, h3.keep hk hk'⟩
      · have := I.slices s
        dsimp only
        cases hv : S.slices s with
        | none => rw [hv] at this; exact this
        | some v =>
          rw [hv] at this
          obtain ⟨sl, h1, h3⟩ := this
          exact ⟨sl, h1, h3.keep hk hk'⟩

/-! ## Calls on the arrays -/

def madeBy (op : Op α) (made : Nat → Nat) : Nat → Nat :=
  match makes op with
  | some i => fun k => if k = i then made i + 1 else made k
  | none => made

theorem madeBy_ne {op : Op α} {made : Nat → Nat} {i : Nat} (h : makes op ≠ some i) : madeBy op made i = made i := by
  cases hm : makes op with
  | none => simp [madeBy, hm]
  | some j =>
    have : i ≠ j := by rintro rfl; exact h hm
    simp [madeBy, hm, this]

theorem dead_follow {op : Op α} {A A' : Ideal α} (K : Keeps op A A') {made : Nat → Nat} {i g : Nat} (hg : g ≤ made i)
    (hd : g = made i → A.arr i = none) : g ≤ madeBy op made i ∧ (g = madeBy op made i → A'.arr i = none) := by
  by_cases hm : makes op = some i
  · have : madeBy op made i = made i + 1 := by simp [madeBy, hm]
    rw [this]; exact ⟨by omega, fun e => by omega⟩
  · rw [madeBy_ne hm]; exact ⟨hg, fun e => K.dead i (hd e) hm⟩

theorem ItOk.follow {op : Op α} {A A' : Ideal α} (K : Keeps op A A') {made : Nat → Nat} {v : View} {p q : Ptr} (h : ItOk A made v p q) :
    ItOk A' (madeBy op made) (v.follow op) p q := by
  cases v with
  | «at» i lo hi =>
    obtain ⟨h1, h2, h3, c, hc, h4⟩ := h
    simp only [View.follow]
    split
    · rename_i hd
      have := K.kill i hd
      refine ⟨i, made i, lo, hi, h1, h2, ?_, fun _ => this.1⟩
      rw [madeBy_ne (by simp [this.2])]; exact Nat.le_refl _
    · rename_i hd
      obtain ⟨hm, c', hc', hl⟩ := K.live i c hc hd
      refine ⟨?_, ?_, h3, c', hc', by omega⟩ <;> rw [madeBy_ne hm] <;> assumption
  | empty => exact h
  | gone =>
    obtain ⟨i, g, a, b, h1, h2, h3, h4⟩ := h
    exact ⟨i, g, a, b, h1, h2, dead_follow K h3 h4⟩

theorem SlOk.follow {op : Op α} {A A' : Ideal α} (K : Keeps op A A') {made : Nat → Nat} {v : View} {p : Ptr} {n : Nat} (h : SlOk A made v p n) :
    SlOk A' (madeBy op made) (v.follow op) p n := by
  cases v with
  | «at» i lo hi =>
    obtain ⟨h1, h3, c, hc, h4⟩ := h
    simp only [View.follow]
    split
    · rename_i hd
      have := K.kill i hd
      refine ⟨i, made i, lo, h1, ?_, fun _ => this.1⟩
      rw [madeBy_ne (by simp [this.2])]; exact Nat.le_refl _
    · rename_i hd
      obtain ⟨hm, c', hc', hl⟩ := K.live i c hc hd
      refine ⟨?_, h3, c', hc', by omega⟩
      rw [madeBy_ne hm]; assumption
  | empty => exact h
  | gone =>
    obtain ⟨i, g, a, h1, h3, h4⟩ := h
    exact ⟨i, g, a, h1, dead_follow K h3 h4⟩

/-! ## One call -/

def AgreeA {β : Type} (m : Out (β × AWorld α)) (s : Out (β × State α)) : Prop :=
  match s with
  | .ok (r, S') => ∃ w', m = .ok (r, w') ∧ Inv S' w'
  | .panic => m = .panic
  | _ => False

theorem iter_run {S : State α} {w : AWorld α} (I : Inv S w) {v : View} {x : Sl} (h : SlOk S.arrs w.made v x.ptr x.size) :
    match (generalizing := false) v with
    | .at i _ hi => if hi ≤ lenOf S.arrs i then
        ∃ it, (x.iter : AM α It) w = .ok (it, w) ∧ it.sl = true ∧ ItOk S.arrs w.made v it.start it.stop
      else (x.iter : AM α It) w = .ub
    | .empty => ∃ it, (x.iter : AM α It) w = .ok (it, w) ∧ it.sl = true ∧ ItOk S.arrs w.made v it.start it.stop
    | .gone => (x.iter : AM α It) w = .ub := by
  obtain ⟨p, n⟩ := x
  cases v with
  | «at» i lo hi =>
    obtain ⟨rfl, rfl, c, hc, hle⟩ := h
    have hlen : lenOf S.arrs i = c.length := by simp [lenOf, hc]
    simp only [Sl.iter, Prog.bind_run, hlen]
    split
    · rename_i hb
      rw [move_live I.base hc (b := lo + n) (by simp) hb]
      exact ⟨_, rfl, rfl, rfl, rfl, by omega, c, hc, hb⟩
    · rename_i hb
      rw [move_over I.base hc (b := lo + n) (by simp) (by omega)]
      rfl
  | empty =>
    obtain ⟨rfl, rfl⟩ := h
    exact ⟨_, rfl, rfl, rfl, rfl⟩
  | gone =>
    obtain ⟨i, g, a, rfl, hg, hd⟩ := h
    simp [Sl.iter, Prog.bind_run, move_dead I.base hd]

theorem viewStep_ok {E : Elem α} {ne : α → α → Bool} {S S' : State α} {w : AWorld α} (I : Inv S w) {op : AOp α} {r : Ret α}
    (h : viewStep op S = some (r, S')) : ∃ w', astep E ne op w = .ok (r, w') ∧ Inv S' w' := by
  cases op with
  | arr op => simp [viewStep] at h
  | iter k i =>
    simp only [viewStep, Option.map_eq_some_iff] at h
    obtain ⟨c, hc, h⟩ := h
    cases h
    have hw : w.base.arr i = some (c.length, c) := by simp [I.base.arr i, hc]
    have hb : (begin i : AM α Ptr) w = .ok (⟨some (i, w.made i), 0⟩, w) := by simp [begin, hw]
    have : (iterRef i : AM α It) w = .ok (⟨false, ⟨some (i, w.made i), 0⟩, ⟨some (i, w.made i), c.length⟩⟩, w) := by
      simp only [iterRef, hw, Prog.bind_run, hb, Out.bind_ok]
      rw [move_live I.base hc (b := c.length) (by simp) (Nat.le_refl _)]
      rfl
    simp only [astep, Prog.bind_run, this, Out.bind_ok, Model.ArrLive.setIt, Prog.pure_run]
    exact ⟨_, rfl, I.setIt k rfl ⟨rfl, rfl, by omega, c, hc, Nat.le_refl _⟩⟩
  | slice s i off n =>
    simp only [viewStep, Option.bind_eq_some_iff] at h
    obtain ⟨c, hc, h⟩ := h
    split at h <;> simp at h
    rename_i hle
    obtain ⟨rfl, rfl⟩ := h
    have hw : w.base.arr i = some (c.length, c) := by simp [I.base.arr i, hc]
    have hb : (begin i : AM α Ptr) w = .ok (⟨some (i, w.made i), 0⟩, w) := by simp [begin, hw]
    simp only [astep, Prog.bind_run, hb, Out.bind_ok]
    rw [move_live I.base hc (b := off) (by simp) hle]
    simp only [Out.bind_ok, Model.ArrLive.setSlice, Prog.pure_run]
    exact ⟨_, rfl, I.setSlice s ⟨rfl, rfl, c, hc, hle⟩⟩
  | copySlice s t =>
    simp only [viewStep, Option.map_eq_some_iff] at h
    obtain ⟨v, hv, h⟩ := h
    cases h
    obtain ⟨x, h1, h2⟩ := I.sl hv
    simp only [astep, Prog.bind_run, h1, Out.bind_ok, Model.ArrLive.setSlice, Prog.pure_run]
    exact ⟨_, rfl, I.setSlice s h2⟩
  | sliceIter k s =>
    simp only [viewStep, Option.bind_eq_some_iff] at h
    obtain ⟨v, hv, h⟩ := h
    obtain ⟨x, h1, h2⟩ := I.sl hv
    have hi := iter_run I h2
    simp only [astep, Prog.bind_run, h1, Out.bind_ok]
    cases v with
    | «at» i lo hi' =>
      simp only at h hi
      split at h <;> simp at h
      rename_i hle
      obtain ⟨rfl, rfl⟩ := h
      rw [if_pos hle] at hi
      obtain ⟨it, h3, h4, h5⟩ := hi
      simp only [h3, Out.bind_ok, Model.ArrLive.setIt, Prog.pure_run]
      exact ⟨_, rfl, I.setIt k h4 h5⟩
    | empty =>
      simp only [Option.some.injEq, Prod.mk.injEq] at h hi
      obtain ⟨rfl, rfl⟩ := h
      obtain ⟨it, h3, h4, h5⟩ := hi
      simp only [h3, Out.bind_ok, Model.ArrLive.setIt, Prog.pure_run]
      exact ⟨_, rfl, I.setIt k h4 h5⟩
    | gone => simp at h
  | sliceIntoIter k s =>
    simp only [viewStep, Option.bind_eq_some_iff] at h
    obtain ⟨v, hv, h⟩ := h
    obtain ⟨x, h1, h2⟩ := I.sl hv
    have hi := iter_run I h2
    have I' := I.setSlice s (v := .empty) (x := ⟨⟨none, 0⟩, 0⟩) ⟨rfl, rfl⟩
    simp only [astep, Prog.bind_run, h1, Out.bind_ok, Sl.intoIter]
    cases v with
    | «at» i lo hi' =>
      simp only at h hi
      split at h <;> simp at h
      rename_i hle
      obtain ⟨rfl, rfl⟩ := h
      rw [if_pos hle] at hi
      obtain ⟨it, h3, h4, h5⟩ := hi
      simp only [h3, Out.bind_ok, Model.ArrLive.setIt, Model.ArrLive.setSlice, Prog.pure_run]
      exact ⟨_, rfl, I'.setIt k h4 h5⟩
    | empty =>
      simp only [Option.some.injEq, Prod.mk.injEq] at h hi
      obtain ⟨rfl, rfl⟩ := h
      obtain ⟨it, h3, h4, h5⟩ := hi
      simp only [h3, Out.bind_ok, Model.ArrLive.setIt, Model.ArrLive.setSlice, Prog.pure_run]
      exact ⟨_, rfl, I'.setIt k h4 h5⟩
    | gone => simp at h
  | copyIter k l =>
    simp only [viewStep, Option.map_eq_some_iff] at h
    obtain ⟨v, hv, h⟩ := h
    cases h
    obtain ⟨it, h1, h2, h3⟩ := I.it hv
    simp only [astep, Prog.bind_run, h1, Out.bind_ok, Model.ArrLive.setIt, Prog.pure_run]
    exact ⟨_, rfl, I.setIt k h2 h3⟩
  | next k =>
    simp only [viewStep, Option.bind_eq_some_iff, Option.map_eq_some_iff] at h
    obtain ⟨v, hv, q, hq, x, hx, h⟩ := h
    cases h
    obtain ⟨it, h1, h2, h3⟩ := I.it hv
    have hn := next_run I.base h3
    rw [hq] at hn
    obtain ⟨o, it', h4, h5, h6, h7⟩ := hn
    have I' := I.setIt k (v := (v.1, q.2)) (it := it') (h6.trans h2) h7
    simp only [astep, Prog.bind_run, h1, h4, Out.bind_ok, Model.ArrLive.setIt]
    rw [readRef_run I'.base (q := q.1) h5, show (S.setIt k (v.1, q.2)).arrs = S.arrs from rfl, hx]
    exact ⟨_, rfl, I'⟩
  | prev k =>
    simp only [viewStep, Option.bind_eq_some_iff, Option.map_eq_some_iff] at h
    obtain ⟨v, hv, q, hq, x, hx, h⟩ := h
    cases h
    obtain ⟨it, h1, h2, h3⟩ := I.it hv
    have hn := prev_run I.base h3
    rw [hq] at hn
    obtain ⟨o, it', h4, h5, h6, h7⟩ := hn
    have I' := I.setIt k (v := (v.1, q.2)) (it := it') (h6.trans h2) h7
    simp only [astep, Prog.bind_run, h1, h4, Out.bind_ok, Model.ArrLive.setIt]
    rw [readRef_run I'.base (q := q.1) h5, show (S.setIt k (v.1, q.2)).arrs = S.arrs from rfl, hx]
    exact ⟨_, rfl, I'⟩
  | last k =>
    simp only [viewStep, Option.bind_eq_some_iff] at h
    obtain ⟨v, hv, h⟩ := h
    split at h
    · rename_i hs
      simp only [Option.bind_eq_some_iff, Option.map_eq_some_iff] at h
      obtain ⟨q, hq, x, hx, h⟩ := h
      cases h
      obtain ⟨it, h1, h2, h3⟩ := I.it hv
      have hn := last_run I.base h3 (h2.trans hs)
      rw [hq] at hn
      obtain ⟨o, h4, h5⟩ := hn
      simp only [astep, Prog.bind_run, h1, h4, Out.bind_ok]
      rw [readRef_run I.base (q := q.1) h5, hx]
      exact ⟨_, rfl, I⟩
    · simp at h
  | setNext k x =>
    simp only [viewStep, Option.bind_eq_some_iff] at h
    obtain ⟨v, hv, h⟩ := h
    split at h
    · rename_i hs
      simp only [Option.bind_eq_some_iff, Option.map_eq_some_iff] at h
      obtain ⟨q, hq, x, hx, h⟩ := h
      cases h
      obtain ⟨it, h1, h2, h3⟩ := I.it hv
      have hn := next_run I.base h3
      rw [hq] at hn
      obtain ⟨o, it', h4, h5, h6, h7⟩ := hn
      have I' := I.setIt k (v := (v.1, q.2)) (it := it') (h6.trans h2) h7
      obtain ⟨b, A', w', e1, e2, I''⟩ := writeRef_run I' (q := q.1) (o := o) h5 ‹α›
      rw [show (S.setIt k (v.1, q.2)).arrs = S.arrs from rfl, hx] at e1
      cases e1
      simp only [astep, Prog.bind_run, h1, h4, Out.bind_ok, Model.ArrLive.setIt, h2, hs, if_true, e2]
      exact ⟨_, rfl, hs ▸ I''⟩
    · simp at h
  | setPrev k x =>
    simp only [viewStep, Option.bind_eq_some_iff] at h
    obtain ⟨v, hv, h⟩ := h
    split at h
    · rename_i hs
      simp only [Option.bind_eq_some_iff, Option.map_eq_some_iff] at h
      obtain ⟨q, hq, x, hx, h⟩ := h
      cases h
      obtain ⟨it, h1, h2, h3⟩ := I.it hv
      have hn := prev_run I.base h3
      rw [hq] at hn
      obtain ⟨o, it', h4, h5, h6, h7⟩ := hn
      have I' := I.setIt k (v := (v.1, q.2)) (it := it') (h6.trans h2) h7
      obtain ⟨b, A', w', e1, e2, I''⟩ := writeRef_run I' (q := q.1) (o := o) h5 ‹α›
      rw [show (S.setIt k (v.1, q.2)).arrs = S.arrs from rfl, hx] at e1
      cases e1
      simp only [astep, Prog.bind_run, h1, h4, Out.bind_ok, Model.ArrLive.setIt, h2, hs, if_true, e2]
      exact ⟨_, rfl, hs ▸ I''⟩
    · simp at h
  | len k =>
    simp only [viewStep, Option.bind_eq_some_iff] at h
    obtain ⟨v, hv, h⟩ := h
    obtain ⟨it, h1, h2, h3⟩ := I.it hv
    simp only [astep, Prog.bind_run, h1, Out.bind_ok, len_run I.base h3]
    obtain ⟨b, v⟩ := v
    cases v <;> simp at h
    all_goals
      obtain ⟨rfl, rfl⟩ := h
      exact ⟨_, rfl, I⟩
  | isEmpty k =>
    simp only [viewStep, Option.bind_eq_some_iff] at h
    obtain ⟨v, hv, h⟩ := h
    obtain ⟨it, h1, h2, h3⟩ := I.it hv
    simp only [astep, Prog.bind_run, h1, Out.bind_ok, isEmpty_ok I.base h3]
    obtain ⟨b, v⟩ := v
    cases v <;> simp at h
    all_goals
      obtain ⟨rfl, rfl⟩ := h
      exact ⟨_, rfl, I⟩

/-- A call on views the specification leaves open is undefined. -/
theorem viewStep_ub {E : Elem α} {ne : α → α → Bool} {S : State α} {w : AWorld α} (I : Inv S w) {op : AOp α} (hop : ∀ o, op ≠ .arr o)
    (h : viewStep op S = none) : astep E ne op w = .ub := by
  have noIt : ∀ {k}, S.its k = none → (theIt k : AM α It) w = .ub := by
    intro k hk
    have := I.its k
    rw [hk] at this
    simp [theIt, show w.its k = none from this]
  have noSl : ∀ {s}, S.slices s = none → (theSlice s : AM α Sl) w = .ub := by
    intro s hs
    have := I.slices s
    rw [hs] at this
    simp [theSlice, show w.slices s = none from this]
  have noArr : ∀ {i}, S.arrs.arr i = none → w.base.arr i = none := by
    intro i hi; simp [I.base.arr i, hi]
  cases op with
  | arr op => exact absurd rfl (hop op)
  | iter k i =>
    simp only [viewStep, Option.map_eq_none_iff] at h
    simp [astep, Prog.bind_run, iterRef, noArr h]
  | slice s i off n =>
    simp only [viewStep] at h
    cases hc : S.arrs.arr i with
    | none => simp [astep, Prog.bind_run, begin, noArr hc]
    | some c =>
      simp only [hc, Option.bind_some] at h
      split at h <;> simp at h
      have hw : w.base.arr i = some (c.length, c) := by simp [I.base.arr i, hc]
      have hb : (begin i : AM α Ptr) w = .ok (⟨some (i, w.made i), 0⟩, w) := by simp [begin, hw]
      simp only [astep, Prog.bind_run, hb, Out.bind_ok]
      rw [move_over I.base hc (b := off) (by simp) (by omega)]
      rfl
  | copySlice s t =>
    simp only [viewStep, Option.map_eq_none_iff] at h
    simp [astep, Prog.bind_run, noSl h]
  | sliceIter k s =>
    simp only [viewStep] at h
    cases hv : S.slices s with
    | none => simp [astep, Prog.bind_run, noSl hv]
    | some v =>
      simp only [hv, Option.bind_some] at h
      obtain ⟨x, h1, h2⟩ := I.sl hv
      have hi := iter_run I h2
      simp only [astep, Prog.bind_run, h1, Out.bind_ok]
      cases v with
      | «at» i lo hi' =>
        simp only at h hi
        split at h <;> simp at h
        rename_i hle
        rw [if_neg hle] at hi
        rw [hi]; rfl
      | empty => simp at h
      | gone => simp only at hi; rw [hi]; rfl
  | sliceIntoIter k s =>
    simp only [viewStep] at h
    cases hv : S.slices s with
    | none => simp [astep, Prog.bind_run, noSl hv]
    | some v =>
      simp only [hv, Option.bind_some] at h
      obtain ⟨x, h1, h2⟩ := I.sl hv
      have hi := iter_run I h2
      simp only [astep, Prog.bind_run, h1, Out.bind_ok, Sl.intoIter]
      cases v with
      | «at» i lo hi' =>
        simp only at h hi
        split at h <;> simp at h
        rename_i hle
        rw [if_neg hle] at hi
        rw [hi]; rfl
      | empty => simp at h
      | gone => simp only at hi; rw [hi]; rfl
  | copyIter k l =>
    simp only [viewStep, Option.map_eq_none_iff] at h
    simp [astep, Prog.bind_run, noIt h]
  | next k =>
    simp only [viewStep] at h
    cases hv : S.its k with
    | none => simp [astep, Prog.bind_run, noIt hv]
    | some v =>
      simp only [hv, Option.bind_some] at h
      obtain ⟨it, h1, h2, h3⟩ := I.it hv
      have hn := next_run I.base h3
      cases hq : v.2.first with
      | none => rw [hq] at hn; simp only at hn; simp [astep, Prog.bind_run, h1, hn]
      | some q =>
        rw [hq] at hn
        obtain ⟨o, it', h4, h5, h6, h7⟩ := hn
        simp only [hq, Option.bind_some, Option.map_eq_none_iff] at h
        have I' := I.setIt k (v := (v.1, q.2)) (it := it') (h6.trans h2) h7
        simp only [astep, Prog.bind_run, h1, h4, Out.bind_ok, Model.ArrLive.setIt]
        rw [readRef_run I'.base (q := q.1) h5, show (S.setIt k (v.1, q.2)).arrs = S.arrs from rfl, h]
        rfl
  | prev k =>
    simp only [viewStep] at h
    cases hv : S.its k with
    | none => simp [astep, Prog.bind_run, noIt hv]
    | some v =>
      simp only [hv, Option.bind_some] at h
      obtain ⟨it, h1, h2, h3⟩ := I.it hv
      have hn := prev_run I.base h3
      cases hq : v.2.final with
      | none => rw [hq] at hn; simp only at hn; simp [astep, Prog.bind_run, h1, hn]
      | some q =>
        rw [hq] at hn
        obtain ⟨o, it', h4, h5, h6, h7⟩ := hn
        simp only [hq, Option.bind_some, Option.map_eq_none_iff] at h
        have I' := I.setIt k (v := (v.1, q.2)) (it := it') (h6.trans h2) h7
        simp only [astep, Prog.bind_run, h1, h4, Out.bind_ok, Model.ArrLive.setIt]
        rw [readRef_run I'.base (q := q.1) h5, show (S.setIt k (v.1, q.2)).arrs = S.arrs from rfl, h]
        rfl
  | last k =>
    simp only [viewStep] at h
    cases hv : S.its k with
    | none => simp [astep, Prog.bind_run, noIt hv]
    | some v =>
      simp only [hv, Option.bind_some] at h
      obtain ⟨it, h1, h2, h3⟩ := I.it hv
      cases hs : v.1 with
      | false => simp [astep, Prog.bind_run, h1, It.last, h2, hs]
      | true =>
        simp only [hs, if_true] at h
        have hn := last_run I.base h3 (h2.trans hs)
        cases hq : v.2.final with
        | none => rw [hq] at hn; simp only at hn; simp [astep, Prog.bind_run, h1, hn]
        | some q =>
          rw [hq] at hn
          obtain ⟨o, h4, h5⟩ := hn
          simp only [hq, Option.bind_some, Option.map_eq_none_iff] at h
          simp only [astep, Prog.bind_run, h1, h4, Out.bind_ok]
          rw [readRef_run I.base (q := q.1) h5, h]
          rfl
  | setNext k x =>
    simp only [viewStep] at h
    cases hv : S.its k with
    | none => simp [astep, Prog.bind_run, noIt hv]
    | some v =>
      simp only [hv, Option.bind_some] at h
      obtain ⟨it, h1, h2, h3⟩ := I.it hv
      cases hs : v.1 with
      | false => simp [astep, Prog.bind_run, h1, h2, hs]
      | true =>
        simp only [hs, if_true] at h
        have hn := next_run I.base h3
        cases hq : v.2.first with
        | none => rw [hq] at hn; simp only at hn; simp [astep, Prog.bind_run, h1, h2, hs, hn]
        | some q =>
          rw [hq] at hn
          obtain ⟨o, it', h4, h5, h6, h7⟩ := hn
          simp only [hq, Option.bind_some, Option.map_eq_none_iff] at h
          obtain ⟨b, A', w', e1, -⟩ := writeRef_run I (q := q.1) (o := o) h5 x
          rw [h] at e1; cases e1
  | setPrev k x =>
    simp only [viewStep] at h
    cases hv : S.its k with
    | none => simp [astep, Prog.bind_run, noIt hv]
    | some v =>
      simp only [hv, Option.bind_some] at h
      obtain ⟨it, h1, h2, h3⟩ := I.it hv
      cases hs : v.1 with
      | false => simp [astep, Prog.bind_run, h1, h2, hs]
      | true =>
        simp only [hs, if_true] at h
        have hn := prev_run I.base h3
        cases hq : v.2.final with
        | none => rw [hq] at hn; simp only at hn; simp [astep, Prog.bind_run, h1, h2, hs, hn]
        | some q =>
          rw [hq] at hn
          obtain ⟨o, it', h4, h5, h6, h7⟩ := hn
          simp only [hq, Option.bind_some, Option.map_eq_none_iff] at h
          obtain ⟨b, A', w', e1, -⟩ := writeRef_run I (q := q.1) (o := o) h5 x
          rw [h] at e1; cases e1
  | len k =>
    simp only [viewStep] at h
    cases hv : S.its k with
    | none => simp [astep, Prog.bind_run, noIt hv]
    | some v =>
      simp only [hv, Option.bind_some] at h
      obtain ⟨it, h1, h2, h3⟩ := I.it hv
      simp only [astep, Prog.bind_run, h1, Out.bind_ok, len_run I.base h3]
      obtain ⟨b, v⟩ := v
      cases v <;> simp at h ⊢
  | isEmpty k =>
    simp only [viewStep] at h
    cases hv : S.its k with
    | none => simp [astep, Prog.bind_run, noIt hv]
    | some v =>
      simp only [hv, Option.bind_some] at h
      obtain ⟨it, h1, h2, h3⟩ := I.it hv
      simp only [astep, Prog.bind_run, h1, Out.bind_ok, isEmpty_ok I.base h3]
      obtain ⟨b, v⟩ := v
      cases v <;> simp at h ⊢

theorem viewStep_iff {E : Elem α} {ne : α → α → Bool} {S : State α} {w : AWorld α} (I : Inv S w) {op : AOp α} (hop : ∀ o, op ≠ .arr o) :
    astep E ne op w = .ub ↔ viewStep op S = none := by
  refine ⟨fun hu => ?_, viewStep_ub I hop⟩
  cases h : viewStep op S with
  | none => rfl
  | some p =>
    obtain ⟨r, S'⟩ := p
    obtain ⟨w', h1, -⟩ := viewStep_ok (E := E) (ne := ne) I h
    rw [h1] at hu; cases hu

theorem step_ok {E : Elem α} {ne : α → α → Bool} {S : State α} {w : AWorld α} (I : Inv S w) {op : AOp α} {s : Out (Ret α × State α)}
    (h : liveStep false E ne op S = some s) : AgreeA (astep E ne op w) s := by
  have hview : ∀ {op : AOp α}, (viewStep op S).map .ok = some s → AgreeA (astep E ne op w) s := by
    intro op h
    simp only [Option.map_eq_some_iff] at h
    obtain ⟨⟨r, S'⟩, h2, rfl⟩ := h
    exact viewStep_ok I h2
  cases op with
  | arr op =>
    simp only [liveStep] at h
    split at h
    · rename_i r A hs
      simp at h
      subst h
      obtain ⟨w', h1, hR⟩ := Arr.step_ok E ne op S.arrs w.base I.base _ hs
      have K := specStep_keeps hs
      refine ⟨{ w with base := w', made := madeBy op w.made }, by simp only [astep, h1, Out.bind_ok]; rfl, hR, fun k => ?_, fun s => ?_⟩
      · have := I.its k
        dsimp only
        cases hv : S.its k with
        | none => rw [hv] at this; exact this
        | some v =>
          rw [hv] at this
          obtain ⟨it, h1, h2, h3⟩ := this
          exact ⟨it, h1, h2, h3.follow K⟩
      · have := I.slices s
        dsimp only
        cases hv : S.slices s with
        | none => rw [hv] at this; exact this
        | some v =>
          rw [hv] at this
          obtain ⟨sl, h1, h3⟩ := this
          exact ⟨sl, h1, h3.follow K⟩
    · rename_i hs
      simp at h
      subst h
      have := Arr.step_ok E ne op S.arrs w.base I.base _ hs
      have : step E ne op w.base = .panic := this
      show astep E ne (.arr op) w = .panic
      simp only [astep, this, Out.bind_panic]
    · simp at h
  | _ => exact hview h

theorem run_ok (E : Elem α) (ne : α → α → Bool) (ops : List (AOp α)) {S : State α} {w : AWorld α} (I : Inv S w)
    {s : Out (List (Ret α) × State α)} (h : liveRun false E ne ops S = some s) : AgreeA (arun E ne ops w) s := by
  induction ops generalizing S w s with
  | nil => simp only [liveRun, Option.some.injEq] at h; subst h; exact ⟨w, rfl, I⟩
  | cons op ops ih =>
    simp only [liveRun] at h
    split at h
    · rename_i r S' hs
      obtain ⟨w', h1, I'⟩ := step_ok I hs
      split at h
      · rename_i rs S'' hr
        simp at h; subst h
        obtain ⟨w'', h2, I''⟩ := ih I' hr
        exact ⟨w'', by simp [arun, Prog.bind_run, h1, h2], I''⟩
      · rename_i hr
        simp at h; subst h
        have h2 : arun E ne ops w' = .panic := ih I' hr
        show arun E ne (op :: ops) w = .panic
        simp [arun, Prog.bind_run, h1, h2]
      · simp at h
    · rename_i hs
      simp at h; subst h
      have h1 : astep E ne op w = .panic := step_ok I hs
      show arun E ne (op :: ops) w = .panic
      simp [arun, Prog.bind_run, h1]
    · simp at h

end Verif.Proof.ArrLive
