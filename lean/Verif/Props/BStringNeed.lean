import Verif.Proof.BStringFault
import Verif.Props.BString
/-!
# Properties C84, C85: the memory strings ask for

`asks w op` (`Spec/BStringNeed.lean`): the size of the block the call asks for, `none` if it asks for none.
`cfg.refuse k n`: the allocator refuses the `k`-th request, for `n` bytes.  `step` is the model in which a refused request is an
outcome of its own (`oom`), `stepN` the model that follows the null pointer through the code.
-/
namespace Verif.Props
open Verif Verif.Model.BStr Verif.Proof.BStr
open Verif.Spec.BStr hiding memory

namespace Strings

variable {cfg : Cfg} {w : World} {i j : Nat} {xs ys : List UInt8} {op : Op} {r : Res} {A' : Ideal}

/-! ## C84 -/

/-- **C84 (partial).**  In every reachable state every allowed call asks for exactly the block `asks` names, or for nothing; it has
its ideal effect, unless that one request is refused.  Missing: the calls excluded by `full = false` (C40). -/
theorem C84_requests_partial (hr : Reach cfg w) (hs : specStep false cfg.lenient cfg.enc op (view w) = some (r, A')) :
    (asks w op = none → ∃ w', step cfg op w = .ok (r, w') ∧ view w' = A' ∧ requests w' = requests w ∧ obtained w' = obtained w) ∧
    (∀ n, asks w op = some n →
      (cfg.refuse (requests w) n = true ∧ step cfg op w = .oom) ∨
      (cfg.refuse (requests w) n = false ∧
        ∃ w', step cfg op w = .ok (r, w') ∧ view w' = A' ∧ requests w' = requests w + 1 ∧ obtained w' = obtained w + n)) := by
  have h1 := reach_step hr hs
  have h2 := step_tally op hr hs
  unfold Tally at h2
  cases e : step cfg op w with
  | ok q =>
    obtain ⟨r', w'⟩ := q
    rw [e] at h1 h2
    obtain ⟨rfl, hv, -⟩ := h1
    constructor
    · intro ha; rw [ha] at h2; exact ⟨w', rfl, hv, h2.1, h2.2⟩
    · intro n ha; rw [ha] at h2; exact .inr ⟨h2.1, w', rfl, hv, h2.2.1, h2.2.2⟩
  | oom =>
    rw [e] at h2
    constructor
    · intro ha; rw [ha] at h2; exact h2.elim
    · intro n ha; rw [ha] at h2; exact .inl ⟨h2, rfl⟩
  | _ => rw [e] at h1; exact h1.elim

/-- Strings of at most 16 bytes need no memory: a call that leaves every string at no more than 16 bytes never fails for lack of
memory, whatever the allocator does. -/
theorem C84_short_strings_partial (hr : Reach cfg w) (hs : specStep false cfg.lenient cfg.enc op (view w) = some (r, A'))
    (hl : ∀ k zs, A' k = some zs → zs.length ≤ 16) :
    ∃ w', step cfg op w = .ok (r, w') ∧ view w' = A' ∧ requests w' = requests w := by
  have ha : asks w op = none := by
    cases op with
    | newLit i lit a =>
      simp only [specStep] at hs
      split at hs
      · cases hs; simp only [asks]; rw [if_pos (hl i lit (put_same _ _ _))]
      · cases hs
    | newCopy i j =>
      simp only [specStep] at hs
      split at hs
      next h1 h2 => cases hs; simp only [asks, h2]; rw [if_pos (hl i _ (put_same _ _ _))]
      · cases hs
    | copyAssign i j =>
      simp only [specStep] at hs
      split at hs
      next h1 h2 =>
        split at hs
        · cases hs; simp only [asks, h1, h2]; rw [if_pos (.inr (hl i _ (put_same _ _ _)))]
        · cases hs
      · cases hs
    | pushBack i ch =>
      simp only [specStep] at hs
      split at hs
      next xs h1 =>
        cases hs
        have h16 := room_ge hr h1
        have := hl i _ (put_same _ _ _)
        simp only [asks, h1]
        rw [if_pos (by simp only [List.length_append] at this; omega)]
      · cases hs
    | insert i ch idx =>
      simp only [specStep] at hs
      split at hs
      next xs h1 =>
        split at hs
        next hb =>
          cases hs
          have h16 := room_ge hr h1
          have := hl i _ (put_same _ _ _)
          have hle := boundary_le hb.2
          simp only [asks, h1]
          rw [if_pos (by simp only [insertAt, List.length_append, List.length_take, List.length_drop] at this; omega)]
        · cases hs
      · cases hs
    | _ => rfl
  obtain ⟨w', h1, h2, h3, -⟩ := (C84_requests_partial hr hs).1 ha
  exact ⟨w', h1, h2, h3⟩

/-- **C84.**  Appending is amortised constant: any sequence of push_back and insert on one string that leaves it with `n` bytes
obtains at most 4.5 `n` bytes altogether, in a number of requests that is logarithmic in `n` (`k` requests need at least
17·1.5^(k-1) bytes). -/
theorem C84_amortised (hr : Reach cfg w) (hi : view w i = some xs) (ops : List Op) (hg : ∀ op ∈ ops, Growing i op) {rs : List Res} {A : Ideal}
    (hs : specRun false cfg.lenient cfg.enc ops (view w) = some (rs, A)) :
    (run cfg ops w).SafeIf (Refuses cfg) fun q => ∃ zs k total, view q.2 i = some zs ∧
      requests q.2 = requests w + k ∧ obtained q.2 = obtained w + total ∧
      2 * total ≤ 9 * zs.length ∧ (0 < k → 17 * 3 ^ (k - 1) ≤ 2 ^ (k - 1) * zs.length) := by
  refine (amortised_run ops hg hr hi (k := 0) (T := 0) (.inl ⟨rfl, rfl⟩) hs).imp ?_
  rintro q ⟨zs, k, T, h1, h2, h3, h4⟩
  refine ⟨zs, k, T, h1, by simpa using h3, by simpa using h4, ?_⟩
  rcases h2 with ⟨rfl, rfl⟩ | ⟨h5, h6, h7, h8, h9⟩
  · exact ⟨by omega, fun h => by omega⟩
  · exact ⟨by omega, fun _ => h9⟩

/-- The restricted specification leaves no growing call out. -/
theorem C84_growing_documented (hg : Growing i op) (A : Ideal) :
    specStep false cfg.lenient cfg.enc op A = specStep true cfg.lenient cfg.enc op A := by
  rcases hg with ⟨ch, rfl⟩ | ⟨ch, idx, rfl⟩ <;> rfl

/-- Requests of all kinds occur: a push that fits, one that does not, copies of short and long strings. -/
example (lenient : Bool) : ∃ w, Reach (exCfg .utf8 lenient) w ∧ asks w (.pushBack 1 [0x41]) = none ∧ asks w (.pushBack 2 [0x41]) = some 25 ∧
    asks w (.newCopy 6 1) = none ∧ (∃ n, asks w (.newCopy 6 3) = some n) ∧ asks w (.newLit 6 (letters 20) 0) = some 30 ∧ asks w (.print 4) = none := by
  obtain ⟨w, hr, hv⟩ := exReach .utf8 lenient
  have h1 := hv 1 (by decide)
  have h2 := hv 2 (by decide)
  have h3 := hv 3 (by decide)
  have r1 := room_small hr h1 (by decide)
  have r2 := room_small hr h2 (by decide)
  refine ⟨w, hr, ?_, ?_, ?_, ⟨room w 3, ?_⟩, rfl, rfl⟩ <;> simp only [asks, h1, h2, h3, r1, r2, exView] <;> rfl

example (lenient : Bool) : ∃ w, Reach (exCfg .utf8 lenient) w ∧ view w 0 = some [] ∧
    (∀ op ∈ [Op.pushBack 0 [0x41], .insert 0 (letters 20) 0, .pushBack 0 (letters 20)], Growing 0 op) ∧
    (specRun false lenient .utf8 [Op.pushBack 0 [0x41], .insert 0 (letters 20) 0, .pushBack 0 (letters 20)] (view w)).isSome = true := by
  obtain ⟨w, hr, hv⟩ := exReach .utf8 lenient
  have h0 : view w 0 = some [] := hv 0 (by decide)
  refine ⟨w, hr, h0, ?_, ?_⟩
  · simp only [List.forall_mem_cons, Growing]; simp
  · simp [specRun, specStep, h0, put, boundary]

/-! ## C85 -/

/-- **C85 (partial).**  As long as nothing is refused the code behaves as stated in C40-C45: a call that asks for no memory cannot
be disturbed by the allocator, and one whose request is granted has its ideal effect.
Missing: refused requests, see `C85_refused_fails`. -/
theorem C85_granted_partial (hr : Reach cfg w) (hs : specStep false cfg.lenient cfg.enc op (view w) = some (r, A'))
    (ha : ∀ n, asks w op = some n → cfg.refuse (requests w) n = false) :
    ∃ w', stepN cfg op w = .ok (r, w') ∧ view w' = A' := by
  obtain ⟨h1, h2⟩ := C84_requests_partial hr hs
  obtain ⟨w', e, hv⟩ : ∃ w', step cfg op w = .ok (r, w') ∧ view w' = A' := by
    cases h : asks w op with
    | none => obtain ⟨w', e, hv, -⟩ := h1 h; exact ⟨w', e, hv⟩
    | some n =>
      rcases h2 n h with ⟨h3, -⟩ | ⟨-, w', e, hv, -⟩
      · rw [ha n h] at h3; cases h3
      · exact ⟨w', e, hv⟩
  rcases step_agrees (cfg := cfg) op w with e' | e'
  · rw [e] at e'; cases e'
  · exact ⟨w', by rw [e', e], hv⟩

/-- C85 fails for every call that asks for memory, in every state: when the request is refused the null pointer is written
through. -/
theorem C85_refused_fails (hr : Reach cfg w) (hs : specStep false cfg.lenient cfg.enc op (view w) = some (r, A')) {n : Nat}
    (ha : asks w op = some n) (hn : cfg.refuse (requests w) n = true) : stepN cfg op w = .ub := by
  rcases (C84_requests_partial hr hs).2 n ha with ⟨-, e⟩ | ⟨h, -⟩
  · exact step_doomed op w (by rw [ha]; simp) e
  · rw [hn] at h; cases h

/-- An allocator that grants the first request and refuses the rest. -/
example (lenient : Bool) : ∃ w, Reach ⟨.utf8, lenient, fun k _ => decide (0 < k)⟩ w ∧ asks w (.pushBack 0 (letters 20)) = some 30 ∧
    (specStep false lenient .utf8 (.pushBack 0 (letters 20)) (view w)).isSome = true ∧
    (⟨.utf8, lenient, fun k _ => decide (0 < k)⟩ : Cfg).refuse (requests w) 30 = true ∧ asks w (.pushBack 0 [0x41]) = none := by
  have e : ∃ w, run ⟨.utf8, lenient, fun k _ => decide (0 < k)⟩ [.newLit 1 (letters 20) 0, .newAlloc 0 0] {} = .ok ([.unit, .unit], w) ∧
      w.heap.next = 1 := ⟨_, rfl, rfl⟩
  obtain ⟨w, e, hn⟩ := e
  have hr : Reach ⟨.utf8, lenient, fun k _ => decide (0 < k)⟩ w := ⟨_, _, _, _, rfl, e⟩
  have hv : view w 0 = some [] := by
    have := run_ok (cfg := ⟨.utf8, lenient, fun k _ => decide (0 < k)⟩) [.newLit 1 (letters 20) 0, .newAlloc 0 0] inv_init (rs := [.unit, .unit])
      (A' := put (put (fun _ => none) 1 (some (letters 20))) 0 (some [])) rfl
    rw [e] at this
    rw [this.2.view]; rfl
  have r0 := room_small hr hv (by decide)
  refine ⟨w, hr, ?_, ?_, by simp [requests, hn], ?_⟩
  · simp only [asks, hv, r0]; rfl
  · simp [specStep, hv]
  · simp only [asks, hv, r0]; rfl

end Strings
end Verif.Props
