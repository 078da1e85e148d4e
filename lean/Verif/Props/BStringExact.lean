import Verif.Props.BStringNeed
import Verif.Spec.BStringExact
/-! # Strings: the restricted specification is the largest the code meets (C93) -/
namespace Verif.Props
open Verif Verif.Model.BStr Verif.Proof.BStr
open Verif.Spec.BStr hiding memory

namespace Strings

variable {cfg : Cfg} {w : World} {i j : Nat} {xs ys : List UInt8}

/-- Copy assignment of a longer string to a string on the heap, under the strict reading of `Allocate::operator=`: it is right if
the target has room for the source, and undefined otherwise. -/
theorem C42_copy_assign_strict (hlen : cfg.lenient = false) (hr : Reach cfg w) (hi : view w i = some xs) (hj : view w j = some ys)
    (hx : 16 < xs.length) (hl : xs.length < ys.length) :
    (ys.length ≤ room w i → ∃ w', step cfg (.copyAssign i j) w = .ok (.unit, w') ∧ view w' = put (view w) i (some ys)) ∧
    (room w i < ys.length → step cfg (.copyAssign i j) w = .ub) := by
  have I := reach_inv hr
  obtain ⟨s, hs, r⟩ := reach_get hr hi
  obtain ⟨o, ho, ro⟩ := reach_get hr hj
  have hij : i ≠ j := by rintro rfl; rw [hi] at hj; cases hj; omega
  have hd : ∀ b ∈ own s, b ∉ own o := fun b hb hb' => hij (I.sep i j s o b hs ho hb hb')
  have L : localSize = 16 := rfl
  rw [cap_eq hs r]
  obtain ⟨b, data, a, rfl, hk, ht⟩ := r.big_inv (by omega)
  obtain ⟨b', data', a', rfl, hk', ht'⟩ := ro.big_inv (by omega)
  rw [show cap ⟨xs.length, .cap data.length, some b, a⟩ = data.length by simp only [cap]; rw [if_neg (by omega)]]
  constructor
  · intro hc
    obtain ⟨h', e, r', st⟩ := rewrite_ok (ys := ys) (len := ys.length) I.bal hk (by omega) hc
    have e' : copyAssign cfg ⟨xs.length, .cap data.length, some b, a⟩ ⟨ys.length, .cap data'.length, some b', a'⟩ w.heap =
        .ok (⟨ys.length, .cap data.length, some b, a⟩, h') := by
      unfold copyAssign
      rw [if_neg (by simp only []; omega), if_neg (by simp only []; omega), if_neg (by simp only []; omega)]
      simp only [getCap_bind]
      rw [if_neg (by omega), pure_run_bind, Prog.bind_run, read_big hk' ht', Out.bind_ok]
      exact e
    refine ⟨{ w with heap := h', vars := upd w.vars i (some ⟨ys.length, .cap data.length, some b, a⟩) }, ?_, ?_⟩
    · simp only [step]
      rw [var_bind hs, var_bind ho, if_neg hij, inHeap_ok e', setVar_bind]; rfl
    · refine Inv.view (I.set ?_ r')
      rw [ownVar_some hs, own_big (by omega), own_big (by omega)]
      exact st
  · intro hc
    have e' : copyAssign cfg ⟨xs.length, .cap data.length, some b, a⟩ ⟨ys.length, .cap data'.length, some b', a'⟩ w.heap = .ub := by
      unfold copyAssign
      rw [if_neg (by simp only []; omega), if_neg (by simp only []; omega), if_neg (by simp only []; omega)]
      simp only [getCap_bind]
      rw [if_pos (by omega), Prog.bind_run]
      simp only [dealloc_bind hk, assign_strict hlen]
      rfl
    simp only [step]
    rw [var_bind hs, var_bind ho, if_neg hij, inHeap_ub e']

/-- **C93.**  In every reachable state a call allowed by the documented meaning returns the documented result and leaves the
documented strings if and only if the restricted specification allows it, or it is the copy assignment of `byRoom`. -/
theorem C93_exact_iff (hr : Reach cfg w) (hm : ¬ Refuses cfg) {op : Op} {r : Res} {A' : Ideal}
    (hs : specStep true cfg.lenient cfg.enc op (view w) = some (r, A')) :
    (∃ w', step cfg op w = .ok (r, w') ∧ view w' = A') ↔
      specStep false cfg.lenient cfg.enc op (view w) = some (r, A') ∨ byRoom w op := by
  constructor
  · rintro ⟨w', e, hv⟩
    cases op with
    | newMove i j =>
      left
      rw [← hs]
      simp only [specStep] at hs ⊢
      split at hs
      next h1 h2 =>
        cases hl : cfg.lenient with
        | true => simp
        | false => rw [C42_move_construct_fails hl hr h2] at e; cases e
      · cases hs
    | copyAssign i j =>
      rw [← hs]
      simp only [specStep] at hs ⊢
      split at hs
      next xs ys h1 h2 =>
        simp only [Bool.true_or, if_true] at hs
        by_cases hij : i = j
        · left; simp [hij]
        by_cases hb : (cfg.lenient = false ∧ (xs.length ≤ 16 ∨ ys.length ≤ 16)) ∨ xs.length = 16 ∨ ys.length = 16
        · rcases C42_copy_assign_fails hr hij h1 h2 hb with h | ⟨-, h⟩
          · rw [h] at e; cases e
          · exact absurd h hm
        simp only [not_or, not_and] at hb
        cases hl : cfg.lenient with
        | true => left; simp [not16, hb]
        | false =>
          obtain ⟨h3, h4⟩ := hb.1 hl
          by_cases hle : ys.length ≤ xs.length
          · left; simp [hle]; omega
          · right
            refine ⟨i, j, xs, ys, rfl, h1, h2, by omega, by omega, ?_⟩
            refine Nat.le_of_not_lt fun hc => ?_
            rw [(C42_copy_assign_strict hl hr h1 h2 (by omega) (by omega)).2 hc] at e
            cases e
      · cases hs
    | moveAssign i j =>
      left
      rw [← hs]
      simp only [specStep] at hs ⊢
      split at hs
      next xs ys h1 h2 =>
        by_cases hij : i = j
        · rw [if_pos hij, if_pos hij]
        by_cases hb : cfg.lenient = false ∨ xs.length = 16 ∨ ys.length = 16
        · rw [C42_move_assign_fails hr hij h1 h2 hb] at e; cases e
        · simp only [not_or, Bool.not_eq_false] at hb
          simp [hij, not16, hb]
      · cases hs
    | popBack i =>
      left
      rw [← hs]
      simp only [specStep] at hs ⊢
      split at hs
      next xs h1 =>
        split at hs
        next hc =>
          by_cases hl : xs.length = 17
          · obtain ⟨w'', e', hn, -⟩ := C43_pop_back_fails hr hc.1 h1 hl
            cases hs
            rw [e'] at e; cases e
            rw [hv, put_same] at hn; cases hn
          · simp [hc.1, hl]
        · cases hs
      · cases hs
    | print i =>
      left
      rw [← hs]
      simp only [specStep] at hs ⊢
      split at hs
      next xs h1 =>
        by_cases hl : xs.length = 16
        · rw [C45_print_fails hr h1 hl] at e; cases e
        · simp [hl]
      · cases hs
    | _ => left; exact hs
  · rintro (h | ⟨i, j, xs, ys, rfl, h1, h2, h3, h4, h5⟩)
    · obtain ⟨⟨r', w'⟩, e, rfl, h2, -⟩ := (reach_step hr h).ok_of hm
      exact ⟨w', e, h2⟩
    · simp only [specStep, h1, h2, Bool.true_or, if_true] at hs
      cases hs
      cases hl : cfg.lenient with
      | false => exact (C42_copy_assign_strict hl hr h1 h2 h3 h4).1 h5
      | true =>
        obtain ⟨⟨r', w'⟩, e, rfl, h2, -⟩ := (reach_step hr (op := .copyAssign i j) (r := .unit) (A' := put (view w) i (some ys))
          (by simp only [specStep, h1, h2]; rw [if_pos]; simp [not16, hl]; omega)).ok_of hm
        exact ⟨w', e, h2⟩

private theorem run_view (hn : ¬ Refuses cfg) (ops : List Op) {rs : List Res} {A : Ideal} (P : World → Bool)
    (h : specRun false cfg.lenient cfg.enc ops (fun _ => none) = some (rs, A))
    (hp : (match run cfg ops {} with | .ok q => P q.2 | _ => false) = true) : ∃ w, Reach cfg w ∧ view w = A ∧ P w = true := by
  obtain ⟨⟨rs', w⟩, e, -, I⟩ := (run_ok (cfg := cfg) ops inv_init h).ok_of hn
  rw [e] at hp
  exact ⟨w, ⟨_, _, _, _, h, e⟩, I.view, hp⟩

def exRoomOps : List Op := [.newLit 0 (letters 17) 0, .newLit 1 (letters 20) 0, .newLit 2 (letters 30) 0, .newLit 3 (letters 16) 0]

/-- A string of 17 bytes has room for 25: it can take 20 bytes, but not 30. -/
private theorem exRoom (enc : Enc) : ∃ w, Reach (exCfg enc false) w ∧ view w 0 = some (letters 17) ∧ view w 1 = some (letters 20) ∧
    view w 2 = some (letters 30) ∧ view w 3 = some (letters 16) ∧ room w 0 = 25 := by
  have h : specRun false false enc exRoomOps (fun _ => none) = some ([.unit, .unit, .unit, .unit],
      put (put (put (put (fun _ => none) 0 (some (letters 17))) 1 (some (letters 20))) 2 (some (letters 30))) 3 (some (letters 16))) := by simp [specRun, specStep, exRoomOps, put, letters]
  obtain ⟨w, hr, hv, hp⟩ := run_view (cfg := exCfg enc false) (exCfg_ok enc false) exRoomOps (fun w => decide (room w 0 = 25)) h
    (by cases enc <;> decide +kernel)
  exact ⟨w, hr, by rw [hv]; rfl, by rw [hv]; rfl, by rw [hv]; rfl, by rw [hv]; rfl, of_decide_eq_true hp⟩

/-- The hypotheses hold, of calls that are right and of calls that are not. -/
example (enc : Enc) : ∃ w, Reach (exCfg enc false) w ∧ ¬ Refuses (exCfg enc false) ∧ byRoom w (.copyAssign 0 1) ∧ ¬ byRoom w (.copyAssign 0 2) ∧
    (∀ op ∈ [Op.copyAssign 0 1, .copyAssign 0 2, .print 3, .print 2], (specStep true false enc op (view w)).isSome = true) ∧
    specStep false false enc (.copyAssign 0 2) (view w) = none ∧ specStep false false enc (.print 3) (view w) = none ∧
    (specStep false false enc (.print 2) (view w)).isSome = true := by
  obtain ⟨w, hr, h0, h1, h2, h3, h4⟩ := exRoom enc
  refine ⟨w, hr, exCfg_ok enc false, ⟨0, 1, _, _, rfl, h0, h1, by decide, by decide, by rw [h4]; decide⟩, ?_, ?_, ?_, ?_, ?_⟩
  · rintro ⟨i, j, xs, ys, e, hx, hy, -, -, h⟩
    cases e
    rw [h2] at hy; cases hy
    rw [h4] at h; exact absurd h (by decide)
  · simp [specStep, h0, h1, h2, h3]
  · simp only [specStep, h0, h2]; rfl
  · simp only [specStep, h3]; rfl
  · simp only [specStep, h2]; rfl

end Strings
end Verif.Props
