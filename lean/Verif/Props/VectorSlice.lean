import Verif.Proof.VectorSlice
import Verif.Props.VectorLive
/-!
# Property C110: slices over a vector kept while the vector goes on being used

Programs take slices of vectors (`Slice<T>::from_raw(v.data() + off, n)`), copy them, make iterators of them, and keep both while they go on
calling the vectors (Model/VectorSlice.lean).  The ideal slice is a stretch of positions of a vector (Spec/VectorSlice.lean).
-/
namespace Verif.Props
open Verif Verif.Model.Mem Verif.Model.Vector Verif.Proof.Mem Verif.Proof.Vector
open Verif.Model.VSlice (SOp SWorld srun sstep)
open Verif.Spec.Vector hiding upd
open Verif.Spec.VSlice (View State sliceRun sliceStep shown)

variable {α : Type} {ty : ElemTy α}

/-- **C110.**  Any program over any number of vectors, slices and iterators over slices: every call answers as the ideal one, nothing undefined
happens, and at the end every vector has the contents of its ideal list.  So a slice shows what the vector holds at the time of the
call, not what it held when the slice was taken; writing through it is writing to the vector; and it follows the storage when that is swapped
or moved to another vector.
Missing: the calls on vectors C01 excludes. -/
theorem C110_history_partial (ops : List (SOp α)) {rs : List (Res α)} {S : State α}
    (h : sliceRun false ty.size ty.dflt ops {} = some (rs, S)) :
    (srun ty ops {}).Safe fun q => q.1 = rs ∧ view q.2.base = S.vecs := by
  exact (Proof.VSlice.srun_ok ops Proof.VSlice.sinv_init h).mono fun q h => ⟨h.1, h.2.vecs⟩

/-- **C110**, exactly when a slice and its iterators may be used.  After any such program: an iterator that is not used up gives the element at
its end if the vector has one there, and asking it is undefined otherwise; an iterator over storage that is gone never gives an element; and
making an iterator of a slice is undefined exactly if the slice is longer than the vector's storage. -/
theorem C110_use_exact (ops : List (SOp α)) {rs : List (Res α)} {S : State α}
    (h : sliceRun false ty.size ty.dflt ops {} = some (rs, S)) :
    (srun ty ops {}).Safe fun q =>
      (∀ k i lo hi, S.its k = some (.at i lo hi) → ∃ xs cap a, S.vecs i = some ⟨xs, cap, a⟩ ∧ lo ≤ hi ∧ hi ≤ cap ∧
        (sstep ty (.next k) q.2 = .ub ↔ lo < hi ∧ xs.length ≤ lo) ∧
        (sstep ty (.prev k) q.2 = .ub ↔ lo < hi ∧ xs.length < hi)) ∧
      (∀ k, S.its k = some .gone → ∀ y w', sstep ty (.next k) q.2 ≠ .ok (.opt (some y), w') ∧
        sstep ty (.prev k) q.2 ≠ .ok (.opt (some y), w') ∧ sstep ty (.last k) q.2 ≠ .ok (.opt (some y), w')) ∧
      (∀ s i lo hi, S.slices s = some (.at i lo hi) → ∃ xs cap a, S.vecs i = some ⟨xs, cap, a⟩ ∧
        ∀ k, sstep ty (.iter k s) q.2 = .ub ↔ cap < hi) := by
  refine (Proof.VSlice.srun_ok ops Proof.VSlice.sinv_init h).mono ?_
  rintro ⟨rs', w⟩ ⟨-, I⟩
  refine ⟨fun k i lo hi hk => ?_, fun k hk y w' => ?_, fun s i lo hi hs => ?_⟩
  · obtain ⟨v, ⟨xs, cap, a⟩, hv, ha, r, hcap, hle, hc, hw⟩ := Proof.VSlice.at_it I hk
    dsimp only at hcap r
    refine ⟨xs, cap, a, ha, hle, by omega, ⟨fun hu => ?_, fun h => Proof.VSlice.next_ub I hk h.1 ha h.2⟩,
      ⟨fun hu => ?_, fun h => Proof.VSlice.prev_ub I hk h.1 ha (by dsimp only; omega)⟩⟩
    · apply Classical.byContradiction
      intro hn
      have : ∃ r S', sliceStep false ty.size ty.dflt (.next k) S = some (r, S') := by
        simp only [sliceStep, hk, Option.bind_some, View.first]
        by_cases hlt : lo < hi
        · have hl : lo < xs.length := Nat.lt_of_not_le fun hle => hn ⟨hlt, hle⟩
          simp [hlt, shown, Spec.VSlice.elem, ha, hl]
        · simp [hlt, shown]
      obtain ⟨r, S', hs⟩ := this
      have := Proof.VSlice.sstep_ok I hs
      rw [hu] at this
      exact this
    · apply Classical.byContradiction
      intro hn
      have : ∃ r S', sliceStep false ty.size ty.dflt (.prev k) S = some (r, S') := by
        simp only [sliceStep, hk, Option.bind_some, View.final]
        by_cases hlt : lo < hi
        · have hl : hi - 1 < xs.length := Nat.lt_of_not_le fun hle => hn ⟨hlt, by omega⟩
          simp [hlt, shown, Spec.VSlice.elem, ha, hl]
        · simp [hlt, shown]
      obtain ⟨r, S', hs⟩ := this
      have := Proof.VSlice.sstep_ok I hs
      rw [hu] at this
      exact this
  · rcases Proof.VSlice.gone_exact I hk with ⟨h1, h2, h3⟩ | ⟨⟨w1, h1⟩, ⟨w2, h2⟩, h3⟩
    · dsimp only
      rw [h1, h2, h3]
      exact ⟨nofun, nofun, nofun⟩
    · dsimp only
      rw [h1, h2, h3]
      exact ⟨nofun, nofun, nofun⟩
  · have h1 := I.slices s
    rw [hs] at h1
    cases hi' : w.slices s with
    | none => rw [hi'] at h1; exact h1.elim
    | some sl =>
      rw [hi'] at h1
      obtain ⟨hle, p, ⟨v, hv, hlo, rfl⟩, rfl⟩ := h1
      obtain ⟨⟨xs, cap, a⟩, ha, r, hcap, -⟩ := I.inv.rep_of hv
      have hcc : capOf S.vecs i = cap := by simp [capOf, ha]
      refine ⟨xs, cap, a, ha, fun k => ⟨fun hu => ?_, fun hlt => (Proof.VSlice.iter_ub I hs (by omega) k).1⟩⟩
      apply Nat.lt_of_not_le
      intro hle'
      have := Proof.VSlice.sstep_ok I (op := .iter k s) (r := .unit) (S' := S.setIt k (.at i lo hi)) (by
        simp [sliceStep, hs, hcc, hle'])
      dsimp only at hu
      rw [hu] at this
      exact this

/-- A program for the examples: a slice taken before room is filled, read and written through, a swap, and a reallocation. -/
def exSlice : List (SOp Nat) :=
  [.vec (.newList 0 [1, 2, 3] 0), .vec (.reserve 0 4), .slice 0 0 1 3, .vec (.push 0 (.val 4)), .iter 0 0, .len 0, .next 0, .prev 0,
   .setNext 0 9, .next 0, .isEmpty 0, .vec (.newList 1 [7] 0), .vec (.swap 0 1), .copySlice 1 0, .iter 1 1, .next 1, .next 1, .last 1,
   .slice 2 1 0 4, .intoIter 2 2, .iter 3 2, .next 3, .vec (.push 1 (.val 5)), .slice 3 1 4 1, .iter 4 3, .setPrev 4 6, .vec (.get 1 4)]

example : (sliceRun false exTy.size exTy.dflt exSlice {}).any (fun p =>
      decide (p.1.filterMap (fun r => match r with | .val x => some (some x) | .num n => some (some n) | .opt o => some o | _ => none) =
        [some 3, some 2, some 4, none, some 2, some 9, some 4, none, some 6]) &&
      decide (p.2.its 1 = some .gone ∧ p.2.its 2 = some .gone ∧ p.2.its 3 = some .empty ∧ p.2.slices 0 = some .gone ∧
        p.2.slices 2 = some .empty ∧ p.2.slices 3 = some (.at 1 4 5) ∧ p.2.its 4 = some (.at 1 4 4))) = true := by
  decide +kernel

example : isOk (fun q => decide (q.1.length = 27)) (srun exTy exSlice {}) = true := by
  decide +kernel

/-- A slice that is longer than what the vector holds, and one that is longer than its storage. -/
example : (sliceRun false exTy.size exTy.dflt
    [.vec (.newList 0 [1, 2] 0), .vec (.reserve 0 4), .slice 0 0 1 2, .iter 0 0, .next 0, .slice 1 0 0 9] {}).any (fun p =>
      decide (p.2.its 0 = some (.at 0 2 3) ∧ p.2.slices 1 = some (.at 0 0 9))) = true := by
  decide +kernel

end Verif.Props
