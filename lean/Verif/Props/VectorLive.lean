import Verif.Proof.VectorLive
import Verif.Props.Vector
/-!
# Property C105: vector iterators that live across calls

Programs keep iterators in variables while they go on calling the vectors (Model/VectorLive.lean).  The ideal iterator is a vector, a
position and the size at which it was taken, or it is gone; `whereTo` (Spec/VectorLive.lean) says where each call leaves the storage of each
vector.
-/
namespace Verif.Props
open Verif Verif.Model.Mem Verif.Model.Vector Verif.Proof.Mem Verif.Proof.Vector
open Verif.Spec.Vector hiding upd

variable {α : Type} {ty : ElemTy α}

/-- **C105.**  Any program over any number of vectors and iterators: every call answers as the ideal one, nothing undefined happens, and
at the end every vector has the contents of its ideal list.  So an iterator designates its position until the storage it points into is
replaced or released, through insertion and removal, and follows the storage when that is swapped or moved to another vector; `insert` and
`erase` accept it and give back the iterator to the new element, or to the one after the erased ones.
Missing: the calls on vectors C01 excludes, and equality of iterators taken at different sizes (`C105_equal_fails`). -/
theorem C105_history_partial (ops : List (LOp α)) {rs : List (Res α)} {S : LIdeal α}
    (h : lspecRun false ty.size ty.dflt ops {} = some (rs, S)) :
    (lrun ty ops {}).Safe fun q => q.1 = rs ∧ view q.2.base = S.vecs := by
  exact (lrun_ok ops linv_init h).mono fun q h => ⟨h.1, h.2.vecs⟩

/-- **C105**, exactly when an iterator may be used.  After any such program, reading through an iterator gives the element at its position
if its storage is still there and the position is below the size; in every other case reading and writing are undefined - there is no
case in between, in which the program would see another element. -/
theorem C105_use_exact (ops : List (LOp α)) {rs : List (Res α)} {S : LIdeal α}
    (h : lspecRun false ty.size ty.dflt ops {} = some (rs, S)) :
    (lrun ty ops {}).Safe fun q =>
      (∀ k i p n, S.its k = some (.at i p n) → ∃ xs cap a, S.vecs i = some ⟨xs, cap, a⟩ ∧
        lstep ty (.read k) q.2 = (match xs[p]? with | some y => .ok (.val y, q.2) | none => .ub) ∧
        ∀ x, lstep ty (.write k x) q.2 = .ub ↔ xs.length ≤ p) ∧
      (∀ k, S.its k = some .gone → lstep ty (.read k) q.2 = .ub ∧ ∀ x, lstep ty (.write k x) q.2 = .ub) := by
  refine (lrun_ok ops linv_init h).mono ?_
  rintro ⟨rs', w⟩ ⟨-, I⟩
  refine ⟨fun k i p n hk => ?_, fun k hk => ?_⟩
  · have hq : placeOf S k = some (i, p, n) := by simp [placeOf, hk]
    obtain ⟨v, ⟨xs, cap, a⟩, hv, ha, rp, hc, hle, hi⟩ := I.place hq
    dsimp only at ha
    have ht : target S k = xs[p]? := by simp [target, hq, elemAt, ha]
    refine ⟨xs, cap, a, ha, ?_, fun x => ?_⟩
    · rw [read_exact I hk, ht]
      cases xs[p]? <;> rfl
    · constructor
      · intro hu
        apply Nat.le_of_not_lt
        intro hlt
        have := lstep_ok I (op := .write k x) (by
          simp [lspecStep, hq, specStep, Spec.Vector.upd, ha, hlt]
          exact ⟨rfl, rfl⟩)
        rw [hu] at this
        exact this
      · intro hp
        exact write_ub I hk (by rw [ht]; exact List.getElem?_eq_none hp) x
  · have ht : target S k = none := by simp [target, placeOf, hk]
    exact ⟨by rw [read_exact I hk, ht], fun x => write_ub I hk ht x⟩

/-- A program for the example: iterators through room for another element, a swap, writing, and a reallocation. -/
def exLive : List (LOp Nat) :=
  [.vec (.newList 0 [1, 2, 3] 0), .vec (.reserve 0 4), .start 0 0, .move 0 (.plus 1), .vec (.push 0 (.val 4)), .read 0,
   .vec (.newList 1 [7] 0), .start 1 1, .vec (.swap 0 1), .read 0, .read 1, .write 0 9, .next 0, .vec (.push 1 (.val 6)), .start 6 1, .read 6]

example : (lspecRun false exTy.size exTy.dflt exLive {}).any (fun p =>
      decide (p.1.filterMap (fun r => match r with | .val x => some x | .num n => some n | .opt o => o | _ => none) = [2, 2, 7, 9, 1]) &&
      decide (p.2.its 0 = some .gone ∧ p.2.its 1 = some (.at 0 0 1) ∧ p.2.its 6 = some (.at 1 0 5))) = true := by
  decide +kernel

example : isOk (fun q => decide (q.1.length = 16)) (lrun exTy exLive {}) = true := by
  decide +kernel

/-- Another one: insertion and erasure through iterators, and a move of the vector. -/
def exLive' : List (LOp Nat) :=
  [.vec (.newList 0 [1, 2, 3] 0), .vec (.reserve 0 5), .start 0 0, .move 0 .inc, .insertAt 1 0 0 (.val 5), .read 1, .eraseAt 2 0 1,
   .read 2, .dist 2 0, .vec (.newMove 4 0 0), .read 2, .copy 5 2, .next 5]

example : (lspecRun false exTy.size exTy.dflt exLive' {}).any (fun p =>
      decide (p.1.filterMap (fun r => match r with | .val x => some x | .num n => some n | .opt o => o | _ => none) = [5, 2, 0, 2, 2]) &&
      decide (p.2.its 0 = some (.at 4 1 3) ∧ p.2.its 5 = some (.at 4 2 3))) = true := by
  decide +kernel

/-- What the client of two valid iterators into the same vector relies on - equal positions compare equal - is false of the code whenever
the vector's size changed between taking one and the other. -/
theorem C105_equal_fails (ops : List (LOp α)) {rs : List (Res α)} {S : LIdeal α}
    (h : lspecRun false ty.size ty.dflt ops {} = some (rs, S)) {k l i p n m : Nat} (hk : S.its k = some (.at i p n))
    (hl : S.its l = some (.at i p m)) (hnm : n ≠ m) :
    (lrun ty ops {}).Safe fun q => lstep ty (.eq k l) q.2 = .ok (.bool false, q.2) ∧ lstep ty (.cmp k l) q.2 = .ok (.ord (some .eq), q.2) := by
  refine (lrun_ok ops linv_init h).mono ?_
  rintro ⟨rs', w⟩ ⟨-, I⟩
  have hq : placeOf S k = some (i, p, n) := by simp [placeOf, hk]
  have hq' : placeOf S l = some (i, p, m) := by simp [placeOf, hl]
  obtain ⟨v, a, hv, ha, rp, hc, hle, hi⟩ := I.place hq
  obtain ⟨v', a', hv', ha', rp', hc', hle', hi'⟩ := I.place hq'
  dsimp only at hv hv' hi hi' hle hle'
  rw [hv] at hv'; cases hv'
  constructor
  · simp only [lstep, Prog.bind_run, theIt_run hi, theIt_run hi', Out.bind_ok, Prog.pure_run, eq_of]
    simp [hnm]
  · simp only [lstep, Prog.bind_run, theIt_run hi, theIt_run hi', Out.bind_ok, heap_step cmp_of, Prog.pure_run]
    simp

example : (lspecRun false exTy.size exTy.dflt [.vec (.newDefault 0), .start 0 0, .vec (.push 0 (.val 1)), .start 1 0] {}).any (fun p =>
    decide (p.2.its 0 = some (.at 0 0 0) ∧ p.2.its 1 = some (.at 0 0 1))) = true := by decide +kernel

/-- **C105**, the iterators `erase` gives back when there is nothing to erase: at a position past the last element of a vector that has
elements, and for a range whose end lies past the last element, `erase` changes nothing and gives back a null iterator: `next()` on it
answers nothing, reading through it is undefined. -/
theorem C105_erase_outside (ops : List (LOp α)) {rs : List (Res α)} {S : LIdeal α}
    (h : lspecRun false ty.size ty.dflt ops {} = some (rs, S)) {k i p n : Nat} (hk : S.its k = some (.at i p n)) {x : α} {xs : List α}
    {cap a : Nat} (hi : S.vecs i = some ⟨x :: xs, cap, a⟩) (hp : xs.length < p) (m : Nat) :
    (lrun ty ops {}).Safe fun q => ∃ w : LWorld α, lstep ty (.eraseAt m i k) q.2 = .ok (.unit, w) ∧
      w.base = q.2.base ∧ (∀ j, j ≠ m → w.its j = q.2.its j) ∧
      (∃ w', lstep ty (.next m) w = .ok (.opt none, w') ∧ w'.base = w.base) ∧ lstep ty (.read m) w = .ub ∧
      ∀ l p' n', S.its l = some (.at i p' n') → xs.length + 1 < p → lstep ty (.eraseBetween m i l k) q.2 = .ok (.unit, w) := by
  refine (lrun_ok ops linv_init h).mono ?_
  rintro ⟨rs', w⟩ ⟨-, I⟩
  have hq : placeOf S k = some (i, p, n) := by simp [placeOf, hk]
  obtain ⟨v, b, hv, ha, rp, hc, hle, hit⟩ := I.place hq
  dsimp only at hv ha hle hit
  rw [hi] at ha; cases ha
  have hl : v.len = xs.length + 1 := rp.len
  have hcl := rp.own.cap_lt
  have hcw : v.cap < wordSize := by have : wordSize = 18446744073709551616 := rfl; omega
  have hle' := rp.le
  have hw : wsub v.len 1 = xs.length := by rw [hl]; exact wsub_of_le (by omega) (by simp at hle'; omega)
  have hsame : ({ w.base with vars := bindVar w.base.vars i (some v) } : World α) = w.base := by
    have : bindVar w.base.vars i (some v) = w.base.vars := by
      funext j; by_cases hj : j = i
      · subst hj; rw [bindVar_same, hv]
      · rw [bindVar_ne _ _ hj]
    rw [this]
  have e1 : step ty (.erase i p) w.base = .ok (.pos none, w.base) := by
    simp only [step, change', Prog.bind_run, run_var hv, inHeap_run, setVar, erase, hw, if_neg (show p ≠ xs.length by omega), if_neg (show ¬ p < xs.length by omega), Prog.pure_run, Out.bind_ok, hsame]
  have e2 : xs.length + 1 < p → ∀ p', step ty (.eraseRange i p' p) w.base = .ok (.pos none, w.base) := by
    intro hlt p'
    simp only [step, change', Prog.bind_run, run_var hv, inHeap_run, setVar, eraseRange, if_pos (show p > v.len by omega), Prog.pure_run, Out.bind_ok, hsame]
  refine ⟨{ w with its := fun k' => if k' = m then some RIter.null else w.its k' }, ?_, rfl, fun j hj => by simp [hj], ?_, ?_, ?_⟩
  · simp only [lstep, Prog.bind_run, theIt_run hit, Out.bind_ok, heap_step (pos_of (show p < wordSize by omega) n)]
    simp only [inBase_run, e1, Out.bind_ok]
    rfl
  · refine ⟨{ w with its := fun k' => if k' = m then some RIter.null else if k' = m then some RIter.null else w.its k' }, ?_, rfl⟩
    simp only [lstep, Prog.bind_run, theIt, if_true, Out.bind_ok]
    rfl
  · simp only [lstep, Prog.bind_run, theIt, if_true, Out.bind_ok]
    rfl
  · intro l p' n' hl' hlt
    have hq' : placeOf S l = some (i, p', n') := by simp [placeOf, hl']
    obtain ⟨v', b', hv', ha', rp', hc', hle2, hit'⟩ := I.place hq'
    dsimp only at hv' hle2 hit'
    rw [hv] at hv'; cases hv'
    simp only [lstep, Prog.bind_run, theIt_run hit, theIt_run hit', Out.bind_ok, heap_step (pos_of (show p < wordSize by omega) n),
      heap_step (pos_of (show p' < wordSize by omega) n')]
    simp only [inBase_run, e2 hlt, Out.bind_ok]
    rfl

/-- an iterator past the elements, within the capacity -/
example : (lspecRun false exTy.size exTy.dflt [.vec (.newList 0 [1, 2] 0), .vec (.reserve 0 9), .start 0 0, .move 0 (.plus 5), .start 1 0] {}).any
    (fun p => decide (p.2.its 0 = some (.at 0 5 2) ∧ p.2.its 1 = some (.at 0 0 2) ∧ p.2.vecs 0 = some ⟨[1, 2], 9, 0⟩)) = true := by
  decide +kernel

end Verif.Props
