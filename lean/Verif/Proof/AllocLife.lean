import Verif.Model.AllocLife
import Verif.Spec.AllocLife
/-!
# Lifetimes of allocator objects: proofs
-/
namespace Verif.Proof.AllocLife
open Verif Verif.Model.AllocLife
open Verif.Spec.AllocLife (Life objects)

/-! ## Both readings: every object has a live allocator -/

/-- The objects in `s` (and the temporary, if `t`) exist and have live allocators. -/
structure Inv (s : List Nat) (t : Bool) (w : World) : Prop where
  nodup : s.Nodup
  vars : ∀ i, w.obj (.var i) = if i ∈ s then some true else none
  tmp : w.obj .tmp = if t then some true else none
  count : w.made = w.gone + s.length + t.toNat

/-- Event lists that keep allocators alive exactly as long as their objects. -/
def sim : List Ev → List Nat → Bool → Option (List Nat × Bool)
  | [], s, t => some (s, t)
  | .make (.var i) :: es, s, t => if i ∈ s then none else sim es (i :: s) t
  | .make .tmp :: es, s, t => if t then none else sim es s true
  | .use (.var i) :: es, s, t => if i ∈ s then sim es s t else none
  | .use .tmp :: es, s, t => if t then sim es s t else none
  | .touch (.var i) :: es, s, t => if i ∈ s then sim es s t else none
  | .touch .tmp :: es, s, t => if t then sim es s t else none
  | .kill (.var i) :: .leave (.var j) :: es, s, t => if i = j ∧ i ∈ s then sim es (s.erase i) t else none
  | .kill .tmp :: .leave .tmp :: es, s, t => if t then sim es s false else none
  | _, _, _ => none

theorem act_make (b : Bool) (p : Place) (w : World) :
    act b (.make p) w = .ok ((), { w with obj := put w.obj p (some true), made := w.made + 1 }) := rfl

theorem act_use {b : Bool} {p : Place} {w : World} (h : w.obj p = some true) : act b (.use p) w = .ok ((), w) := by
  simp [act, h]

theorem act_touch {b : Bool} {p : Place} {w : World} {a : Bool} (h : w.obj p = some a) : act b (.touch p) w = .ok ((), w) := by
  simp [act, h]

theorem act_kill {b : Bool} {p : Place} {w : World} (h : w.obj p = some true) :
    act b (.kill p) w = .ok ((), { w with obj := put w.obj p (some false), gone := w.gone + 1 }) := by
  simp [act, h]

theorem act_leave {b : Bool} {p : Place} {w : World} {a : Bool} (h : w.obj p = some a) :
    act b (.leave p) w = .ok ((), { w with obj := put w.obj p none }) := by
  simp [act, h]

theorem acts_cons (b : Bool) (e : Ev) (es : List Ev) (w : World) :
    acts b (e :: es) w = act b e w >>= fun r => acts b es r.2 := rfl

theorem acts_app (b : Bool) (es fs : List Ev) (w : World) :
    acts b (es ++ fs) w = acts b es w >>= fun r => acts b fs r.2 := by
  induction es generalizing w with
  | nil => rfl
  | cons e es ih =>
    rw [List.cons_append, acts_cons, acts_cons]
    cases act b e w with
    | ok r => rw [Out.bind_ok, Out.bind_ok]; exact ih _
    | _ => rfl

theorem sim_ok (b : Bool) (es : List Ev) (s : List Nat) (t : Bool) (w : World) (s' : List Nat) (t' : Bool)
    (h : sim es s t = some (s', t')) (iw : Inv s t w) : ∃ w', acts b es w = .ok ((), w') ∧ Inv s' t' w' := by
  induction es, s, t using sim.induct generalizing w with
  | case1 s t => simp only [sim, Option.some.injEq, Prod.mk.injEq] at h; exact ⟨w, rfl, h.1 ▸ h.2 ▸ iw⟩
  | case2 => simp_all [sim]
  | case3 i es s t hi ih =>
    simp only [sim, hi, if_false] at h
    rw [acts_cons, act_make, Out.bind_ok]
    refine ih _ h ⟨List.nodup_cons.2 ⟨hi, iw.nodup⟩, ?_, ?_, ?_⟩
    · intro k
      by_cases hk : k = i
      · simp [put, hk]
      · simp [put, hk, iw.vars k]
    · simp [put, iw.tmp]
    · simp only [iw.count, List.length_cons]; omega
  | case4 => simp_all [sim]
  | case5 es s t ht ih =>
    simp only [sim, ht] at h
    rw [acts_cons, act_make, Out.bind_ok]
    refine ih _ (by simpa using h) ⟨iw.nodup, ?_, ?_, ?_⟩
    · intro k; simp [put, iw.vars k]
    · simp [put]
    · have := iw.count; simp only [ht] at this; simp at this ⊢; omega
  | case6 i es s t hi ih =>
    simp only [sim, hi, if_true] at h
    rw [acts_cons, act_use (by simp [iw.vars, hi]), Out.bind_ok]
    exact ih _ h iw
  | case7 => simp_all [sim]
  | case8 es s ih =>
    simp only [sim, if_true] at h
    rw [acts_cons, act_use (by simp [iw.tmp]), Out.bind_ok]
    exact ih _ h iw
  | case9 => simp_all [sim]
  | case10 i es s t hi ih =>
    simp only [sim, hi, if_true] at h
    rw [acts_cons, act_touch (a := true) (by simp [iw.vars, hi]), Out.bind_ok]
    exact ih _ h iw
  | case11 => simp_all [sim]
  | case12 es s ih =>
    simp only [sim, if_true] at h
    rw [acts_cons, act_touch (a := true) (by simp [iw.tmp]), Out.bind_ok]
    exact ih _ h iw
  | case13 => simp_all [sim]
  | case14 i j es s t hi ih =>
    simp only [sim, if_pos hi] at h
    obtain ⟨rfl, hi⟩ := hi
    rw [acts_cons, act_kill (by simp [iw.vars, hi]), Out.bind_ok, acts_cons, act_leave (a := false) (by simp [put]), Out.bind_ok]
    refine ih _ h ⟨iw.nodup.erase i, ?_, ?_, ?_⟩
    · intro k
      by_cases hk : k = i
      · simp [put, hk, iw.nodup.not_mem_erase]
      · simp [put, hk, iw.vars k, List.mem_erase_of_ne hk]
    · simp [put, iw.tmp]
    · have := List.length_pos_of_mem hi
      have := iw.count
      rw [List.length_erase_of_mem hi]
      simp only; omega
  | case15 i j es s t hi => simp only [sim, if_neg hi] at h; cases h
  | case16 es s ih =>
    simp only [sim, if_true] at h
    rw [acts_cons, act_kill (by simp [iw.tmp]), Out.bind_ok, acts_cons, act_leave (a := false) (by simp [put]), Out.bind_ok]
    refine ih _ h ⟨iw.nodup, ?_, ?_, ?_⟩
    · intro k; simp [put, iw.vars k]
    · simp [put]
    · have := iw.count; simp at this ⊢; omega
  | case17 => simp_all [sim]
  | case18 => simp_all [sim]

theorem run_ok {Op : Type} (b : Bool) (call : Op → List Ev) (life : Op → Life) (good : Op → Prop)
    (hc : ∀ op s s', good op → (life op).step s = some s' → sim (call op) s false = some (s', false))
    (ops : List Op) (hg : ∀ op ∈ ops, good op) (s s' : List Nat) (w : World) (h : objects life ops s = some s')
    (iw : Inv s false w) : ∃ w', run b call ops w = .ok ((), w') ∧ Inv s' false w' := by
  induction ops generalizing s w with
  | nil => simp only [objects, Option.some.injEq] at h; exact ⟨w, rfl, h ▸ iw⟩
  | cons op ops ih =>
    simp only [objects, Option.bind_eq_bind, Option.bind_eq_some_iff] at h
    obtain ⟨s1, h1, h2⟩ := h
    obtain ⟨w1, e1, i1⟩ := sim_ok b _ s false w s1 false (hc op s s1 (hg op (by simp)) h1) iw
    obtain ⟨w2, e2, i2⟩ := ih (fun o ho => hg o (List.mem_cons_of_mem _ ho)) s1 w1 h2 i1
    refine ⟨w2, ?_, i2⟩
    simp only [run, Prog.bind_run, e1, Out.bind_ok, e2]

theorem step_born {i : Nat} {js s s' : List Nat} (h : (Life.born i js).step s = some s') :
    i ∉ s ∧ (∀ j ∈ js, j ∈ s) ∧ s' = i :: s := by
  simp only [Life.step] at h
  split at h
  · next hc => exact ⟨hc.1, hc.2, (Option.some.inj h).symm⟩
  · cases h

theorem step_call {js s s' : List Nat} (h : (Life.call js).step s = some s') : (∀ j ∈ js, j ∈ s) ∧ s' = s := by
  simp only [Life.step] at h
  split at h
  · next hc => exact ⟨hc, (Option.some.inj h).symm⟩
  · cases h

theorem step_dies {i : Nat} {s s' : List Nat} (h : (Life.dies i).step s = some s') : i ∈ s ∧ s' = s.erase i := by
  simp only [Life.step] at h
  split at h
  · next hc => exact ⟨hc, (Option.some.inj h).symm⟩
  · cases h

theorem vector_call {α : Type} (op : Verif.Model.Vector.Op α) (s s' : List Nat)
    (h : (Spec.AllocLife.vector op).step s = some s') : sim (vcall op) s false = some (s', false) := by
  cases op
  all_goals simp only [Spec.AllocLife.vector] at h
  all_goals first
    | (obtain ⟨h1, h2, rfl⟩ := step_born h)
    | (obtain ⟨h2, rfl⟩ := step_call h)
    | (obtain ⟨h2, rfl⟩ := step_dies h)
  all_goals first
    | (simp_all [vcall, sim, vecMove, swapAllocs, vecDrain]; done)
    | (rename_i i j; by_cases hij : i = j <;> simp_all [vcall, sim, vecMove]; done)
    | (rename_i r; cases r <;> simp_all [vcall, sim, vecArg, Spec.AllocLife.vecArg]; done)
    | (rename_i r _; cases r <;> simp_all [vcall, sim, vecArg, Spec.AllocLife.vecArg]; done)

theorem owning_call {α : Type} (op : Verif.Model.VectorOwn.OOp α) (s s' : List Nat)
    (h : (Spec.AllocLife.owning op).step s = some s') : sim (ocall op) s false = some (s', false) := by
  cases op
  case vec op => exact vector_call op s s' h
  all_goals simp only [Spec.AllocLife.owning] at h
  all_goals first
    | (obtain ⟨h1, h2, rfl⟩ := step_born h)
    | (obtain ⟨h2, rfl⟩ := step_call h)
    | (obtain ⟨h2, rfl⟩ := step_dies h)
  all_goals simp_all [ocall, sim, vecMove]

theorem list_call {α : Type} (op : Verif.Model.LL.Op α) (s s' : List Nat) (ha : Spec.AllocLife.assigns op = false)
    (h : (Spec.AllocLife.list op).step s = some s') : sim (lcall op) s false = some (s', false) := by
  cases op
  all_goals simp only [Spec.AllocLife.list] at h
  all_goals first
    | (obtain ⟨h1, h2, rfl⟩ := step_born h)
    | (obtain ⟨h2, rfl⟩ := step_call h)
    | (obtain ⟨h2, rfl⟩ := step_dies h)
  all_goals first
    | (simp_all [lcall, sim, swapAllocs]; done)
    | (simp_all [lcall, sim, Spec.AllocLife.assigns]; done)
    | (rename_i r; cases r <;> simp_all [lcall, sim, listArg, Spec.AllocLife.listArg]; done)
    | (rename_i r _; cases r <;> simp_all [lcall, sim, listArg, Spec.AllocLife.listArg]; done)

theorem string_call (op : Verif.Model.BStr.Op) (s s' : List Nat) (ha : ∀ i, op ≠ .drop i)
    (h : (Spec.AllocLife.string op).step s = some s') : sim (scall op) s false = some (s', false) := by
  cases op
  all_goals simp only [Spec.AllocLife.string] at h
  all_goals first
    | (obtain ⟨h1, h2, rfl⟩ := step_born h)
    | (obtain ⟨h2, rfl⟩ := step_call h)
    | (obtain ⟨h2, rfl⟩ := step_dies h)
  all_goals first
    | (simp_all [scall, sim, strAssignFrom]; done)
    | (rename_i i j; by_cases hij : i = j <;> simp_all [scall, sim, strAssignFrom]; done)

theorem inv_init : Inv [] false {} := ⟨List.nodup_nil, fun _ => rfl, rfl, rfl⟩

/-! ## The lenient reading: how often destructors run -/

/-- The objects in `s` (and the temporary, if `t`) exist. -/
structure Here (s : List Nat) (t : Bool) (w : World) : Prop where
  nodup : s.Nodup
  vars : ∀ i, (w.obj (.var i)).isSome = decide (i ∈ s)
  tmp : (w.obj .tmp).isSome = t

def has (s : List Nat) (t : Bool) : Place → Bool
  | .var i => decide (i ∈ s)
  | .tmp => t

def walk : List Ev → List Nat → Bool → Option (List Nat × Bool)
  | [], s, t => some (s, t)
  | .make (.var i) :: es, s, t => if i ∈ s then none else walk es (i :: s) t
  | .make .tmp :: es, s, t => if t then none else walk es s true
  | .use p :: es, s, t => if has s t p then walk es s t else none
  | .touch p :: es, s, t => if has s t p then walk es s t else none
  | .kill p :: es, s, t => if has s t p then walk es s t else none
  | .leave (.var i) :: es, s, t => if i ∈ s then walk es (s.erase i) t else none
  | .leave .tmp :: es, s, t => if t then walk es s false else none

def makes : List Ev → Nat
  | [] => 0
  | .make _ :: es => makes es + 1
  | _ :: es => makes es

def kills : List Ev → Nat
  | [] => 0
  | .kill _ :: es => kills es + 1
  | _ :: es => kills es

theorem Here.has {s : List Nat} {t : Bool} {w : World} (hw : Here s t w) (p : Place) (h : has s t p = true) :
    ∃ a, w.obj p = some a := by
  cases p with
  | var i => have := hw.vars i; simp only [AllocLife.has, decide_eq_true_eq] at h; simp only [h, decide_true] at this
             exact Option.isSome_iff_exists.1 this
  | tmp => have := hw.tmp; simp only [AllocLife.has] at h; exact Option.isSome_iff_exists.1 (this.trans h)

theorem Here.put {s : List Nat} {t : Bool} {w : World} (hw : Here s t w) (p : Place) (a : Bool) (h : AllocLife.has s t p = true)
    (m g : Nat) : Here s t ⟨Model.AllocLife.put w.obj p (some a), m, g⟩ := by
  refine ⟨hw.nodup, fun k => ?_, ?_⟩
  · by_cases hk : Place.var k = p
    · subst hk; simp only [AllocLife.has, decide_eq_true_eq] at h; simp [Model.AllocLife.put, h]
    · simp only [Model.AllocLife.put, hk, if_false, hw.vars k]
  · by_cases hk : Place.tmp = p
    · subst hk; simp only [AllocLife.has] at h; simp [Model.AllocLife.put, h]
    · simp only [Model.AllocLife.put, hk, if_false, hw.tmp]

theorem walk_ok (es : List Ev) (s : List Nat) (t : Bool) (w : World) (s' : List Nat) (t' : Bool)
    (h : walk es s t = some (s', t')) (hw : Here s t w) :
    ∃ w', acts true es w = .ok ((), w') ∧ Here s' t' w' ∧ w'.made = w.made + makes es ∧ w'.gone = w.gone + kills es := by
  induction es, s, t using walk.induct generalizing w with
  | case1 s t => simp only [walk, Option.some.injEq, Prod.mk.injEq] at h; exact ⟨w, rfl, h.1 ▸ h.2 ▸ hw, rfl, rfl⟩
  | case2 => simp_all [walk]
  | case3 i es s t hi ih =>
    simp only [walk, hi, if_false] at h
    rw [acts_cons, act_make, Out.bind_ok]
    obtain ⟨w', e, i', m, g⟩ := ih (w := ⟨put w.obj (.var i) (some true), w.made + 1, w.gone⟩) h
      ⟨List.nodup_cons.2 ⟨hi, hw.nodup⟩, fun k => by
        by_cases hk : k = i
        · simp [put, hk]
        · simp [put, hk, hw.vars k], by simp [put, hw.tmp]⟩
    refine ⟨w', e, i', ?_, ?_⟩
    · simp only [m, makes]; omega
    · simp only [g, kills]
  | case4 => simp_all [walk]
  | case5 es s t ht ih =>
    simp only [walk, ht] at h
    rw [acts_cons, act_make, Out.bind_ok]
    obtain ⟨w', e, i', m, g⟩ := ih (w := ⟨put w.obj .tmp (some true), w.made + 1, w.gone⟩) (by simpa using h)
      ⟨hw.nodup, fun k => by simp [put, hw.vars k], by simp [put]⟩
    refine ⟨w', e, i', ?_, ?_⟩
    · simp only [m, makes]; omega
    · simp only [g, kills]
  | case6 p es s t hp ih =>
    simp only [walk, hp, if_true] at h
    obtain ⟨a, ha⟩ := hw.has p hp
    have : act true (.use p) w = .ok ((), w) := by simp [act, ha]
    rw [acts_cons, this, Out.bind_ok]
    exact ih _ h hw
  | case7 => simp_all [walk]
  | case8 p es s t hp ih =>
    simp only [walk, hp, if_true] at h
    obtain ⟨a, ha⟩ := hw.has p hp
    rw [acts_cons, act_touch ha, Out.bind_ok]
    exact ih _ h hw
  | case9 => simp_all [walk]
  | case10 p es s t hp ih =>
    simp only [walk, hp, if_true] at h
    obtain ⟨a, ha⟩ := hw.has p hp
    have : act true (.kill p) w = .ok ((), { w with obj := put w.obj p (some false), gone := w.gone + 1 }) := by simp [act, ha]
    rw [acts_cons, this, Out.bind_ok]
    obtain ⟨w', e, i', m, g⟩ := ih _ h (hw.put p false hp w.made (w.gone + 1))
    refine ⟨w', e, i', ?_, ?_⟩
    · simp only [m, makes]
    · simp only [g, kills]; omega
  | case11 => simp_all [walk]
  | case12 i es s t hi ih =>
    simp only [walk, hi, if_true] at h
    obtain ⟨a, ha⟩ := hw.has (.var i) (by simpa [has] using hi)
    rw [acts_cons, act_leave ha, Out.bind_ok]
    refine ih _ h ⟨hw.nodup.erase i, fun k => ?_, by simp [put, hw.tmp]⟩
    by_cases hk : k = i
    · simp [put, hk, hw.nodup.not_mem_erase]
    · simp [put, hk, hw.vars k, List.mem_erase_of_ne hk]
  | case13 => simp_all [walk]
  | case14 es s ih =>
    simp only [walk, if_true] at h
    obtain ⟨a, ha⟩ := hw.has .tmp rfl
    rw [acts_cons, act_leave ha, Out.bind_ok]
    exact ih _ h ⟨hw.nodup, fun k => by simp [put, hw.vars k], by simp [put]⟩
  | case15 => simp_all [walk]

/-- Exact tallies of a program: `c` destructions for each destroyed object, and `extra op` more. -/
theorem run_count {Op : Type} (call : Op → List Ev) (life : Op → Life) (c : Nat) (extra : Op → Nat)
    (hc : ∀ op s s', (life op).step s = some s' → walk (call op) s false = some (s', false) ∧
      kills (call op) + c * s'.length = c * s.length + c * makes (call op) + extra op)
    (ops : List Op) (s s' : List Nat) (w : World) (h : objects life ops s = some s') (hw : Here s false w) :
    ∃ w', run true call ops w = .ok ((), w') ∧ Here s' false w' ∧
      w'.gone + c * s'.length + c * w.made = w.gone + c * s.length + c * w'.made + (ops.map extra).sum := by
  induction ops generalizing s w with
  | nil =>
    simp only [objects, Option.some.injEq] at h
    subst h
    exact ⟨w, rfl, hw, by simp⟩
  | cons op ops ih =>
    simp only [objects, Option.bind_eq_bind, Option.bind_eq_some_iff] at h
    obtain ⟨s1, h1, h2⟩ := h
    obtain ⟨e1, k1⟩ := hc op s s1 h1
    obtain ⟨w1, r1, i1, m1, g1⟩ := walk_ok _ s false w s1 false e1 hw
    obtain ⟨w2, r2, i2, k2⟩ := ih s1 w1 h2 i1
    refine ⟨w2, ?_, i2, ?_⟩
    · simp only [run, Prog.bind_run, r1, Out.bind_ok, r2]
    · simp only [List.map_cons, List.sum_cons]
      rw [m1, Nat.mul_add] at k2
      omega

theorem list_count {α : Type} (op : Verif.Model.LL.Op α) (s s' : List Nat) (h : (Spec.AllocLife.list op).step s = some s') :
    walk (lcall op) s false = some (s', false) ∧
      kills (lcall op) + 1 * s'.length =
        1 * s.length + 1 * makes (lcall op) + (if Spec.AllocLife.assigns op then 1 else 0) := by
  cases op
  all_goals simp only [Spec.AllocLife.list] at h
  all_goals first
    | (obtain ⟨h1, h2, rfl⟩ := step_born h)
    | (obtain ⟨h2, rfl⟩ := step_call h)
    | (obtain ⟨h2, rfl⟩ := step_dies h; have h3 := List.length_pos_of_mem h2; have h4 := List.length_erase_of_mem h2)
  all_goals first
    | (simp_all [lcall, walk, has, makes, kills, Spec.AllocLife.assigns, swapAllocs]; done)
    | (simp_all [lcall, walk, has, makes, kills, Spec.AllocLife.assigns, swapAllocs]; omega)
    | (rename_i i j; by_cases hij : i = j <;>
        simp_all [lcall, walk, has, makes, kills, Spec.AllocLife.assigns, listAssignFrom] <;> omega)
    | (rename_i r; cases r <;>
        simp_all [lcall, walk, has, makes, kills, Spec.AllocLife.assigns, listArg, Spec.AllocLife.listArg]; done)
    | (rename_i r _; cases r <;>
        simp_all [lcall, walk, has, makes, kills, Spec.AllocLife.assigns, listArg, Spec.AllocLife.listArg]; done)

theorem string_count (op : Verif.Model.BStr.Op) (s s' : List Nat) (h : (Spec.AllocLife.string op).step s = some s') :
    walk (scall op) s false = some (s', false) ∧
      kills (scall op) + 2 * s'.length = 2 * s.length + 2 * makes (scall op) + 0 := by
  cases op
  all_goals simp only [Spec.AllocLife.string] at h
  all_goals first
    | (obtain ⟨h1, h2, rfl⟩ := step_born h)
    | (obtain ⟨h2, rfl⟩ := step_call h)
    | (obtain ⟨h2, rfl⟩ := step_dies h; have h3 := List.length_pos_of_mem h2; have h4 := List.length_erase_of_mem h2)
  all_goals first
    | (simp_all [scall, walk, has, makes, kills, strAssignFrom]; done)
    | (simp_all [scall, walk, has, makes, kills, strAssignFrom]; omega)
    | (rename_i i j; by_cases hij : i = j <;> simp_all [scall, walk, has, makes, kills, strAssignFrom] <;> omega)

theorem here_init : Here [] false {} := ⟨List.nodup_nil, fun _ => rfl, rfl⟩

/-! ## How many allocators are constructed -/

theorem act_made {b : Bool} {e : Ev} {w w' : World} (h : act b e w = .ok ((), w')) : w'.made = w.made + makes [e] := by
  cases e <;> simp only [act] at h <;> (repeat' split at h) <;> cases h <;> rfl

theorem makes_cons (e : Ev) (es : List Ev) : makes (e :: es) = makes [e] + makes es := by
  cases e <;> simp [makes]; omega

theorem acts_made {b : Bool} {es : List Ev} {w w' : World} (h : acts b es w = .ok ((), w')) : w'.made = w.made + makes es := by
  induction es generalizing w with
  | nil => cases h; rfl
  | cons e es ih =>
    rw [acts_cons] at h
    cases ha : act b e w with
    | ok r =>
      rw [ha, Out.bind_ok] at h
      have h1 := ih h
      have h2 := act_made (w' := r.2) ha
      rw [makes_cons]
      omega
    | _ => rw [ha] at h; cases h

theorem run_made {Op : Type} {b : Bool} {call : Op → List Ev} {new : Op → Nat} (hn : ∀ op, makes (call op) = new op)
    {ops : List Op} {w w' : World} (h : run b call ops w = .ok ((), w')) : w'.made = w.made + (ops.map new).sum := by
  induction ops generalizing w with
  | nil => cases h; rfl
  | cons op ops ih =>
    have e : run b call (op :: ops) w = acts b (call op) w >>= fun r => run b call ops r.2 := rfl
    rw [e] at h
    cases ha : acts b (call op) w with
    | ok r =>
      rw [ha, Out.bind_ok] at h
      have h1 := ih h
      have h2 := acts_made (w' := r.2) ha
      rw [hn] at h2
      rw [List.map_cons, List.sum_cons]
      omega
    | _ => rw [ha] at h; cases h

theorem vector_new {α : Type} (op : Verif.Model.Vector.Op α) : makes (vcall op) = Spec.AllocLife.vectorNew op := by
  cases op
  all_goals first
    | rfl
    | (rename_i i j; by_cases h : i = j <;> simp [vcall, makes, vecMove, Spec.AllocLife.vectorNew, Spec.AllocLife.vector, h]; done)
    | (rename_i r; cases r <;> rfl)
    | (rename_i r _; cases r <;> rfl)

theorem owning_new {α : Type} (op : Verif.Model.VectorOwn.OOp α) : makes (ocall op) = Spec.AllocLife.owningNew op := by
  cases op
  case vec op => exact vector_new op
  all_goals rfl

theorem list_new {α : Type} (op : Verif.Model.LL.Op α) : makes (lcall op) = Spec.AllocLife.listNew op := by
  cases op
  all_goals first
    | rfl
    | (rename_i i j; by_cases h : i = j <;> simp [lcall, makes, listAssignFrom, Spec.AllocLife.listNew, Spec.AllocLife.list, h]; done)
    | (rename_i r; cases r <;> rfl)
    | (rename_i r _; cases r <;> rfl)

theorem string_new (op : Verif.Model.BStr.Op) : makes (scall op) = Spec.AllocLife.stringNew op := by
  cases op
  all_goals first
    | rfl
    | (rename_i i j; by_cases h : i = j <;> simp [scall, makes, strAssignFrom, Spec.AllocLife.stringNew, Spec.AllocLife.string, h]; done)

/-! ## Undefined calls -/

theorem run_app {Op : Type} (b : Bool) (call : Op → List Ev) (xs ys : List Op) (w : World) :
    run b call (xs ++ ys) w = run b call xs w >>= fun r => run b call ys r.2 := by
  induction xs generalizing w with
  | nil => rfl
  | cons x xs ih =>
    have e : ∀ zs w, run b call (x :: zs) w = acts b (call x) w >>= fun r => run b call zs r.2 := fun _ _ => rfl
    rw [List.cons_append, e, e]
    cases acts b (call x) w with
    | ok r => rw [Out.bind_ok, Out.bind_ok]; exact ih _
    | _ => rfl

/-- Calls end normally or are undefined. -/
theorem act_cases (b : Bool) (e : Ev) (w : World) : act b e w = .ub ∨ ∃ w', act b e w = .ok ((), w') := by
  cases e <;> simp only [act] <;> (repeat' split) <;> simp

theorem acts_cases (b : Bool) (es : List Ev) (w : World) : acts b es w = .ub ∨ ∃ w', acts b es w = .ok ((), w') := by
  induction es generalizing w with
  | nil => exact .inr ⟨w, rfl⟩
  | cons e es ih =>
    rw [acts_cons]
    rcases act_cases b e w with h | ⟨w', h⟩
    · rw [h]; exact .inl rfl
    · rw [h, Out.bind_ok]; exact ih w'

theorem run_cases {Op : Type} (b : Bool) (call : Op → List Ev) (ops : List Op) (w : World) :
    run b call ops w = .ub ∨ ∃ w', run b call ops w = .ok ((), w') := by
  induction ops generalizing w with
  | nil => exact .inr ⟨w, rfl⟩
  | cons op ops ih =>
    have e : run b call (op :: ops) w = acts b (call op) w >>= fun r => run b call ops r.2 := rfl
    rw [e]
    rcases acts_cases b (call op) w with h | ⟨w', h⟩
    · rw [h]; exact .inl rfl
    · rw [h, Out.bind_ok]; exact ih w'

theorem kill_use (p q : Place) (hpq : q ≠ p) (es : List Ev) (w : World) :
    acts false (.kill p :: .use q :: .use p :: es) w = .ub := by
  rw [acts_cons]
  cases h : w.obj p with
  | none => simp [act, h]
  | some a =>
    cases a with
    | false => simp [act, h]
    | true =>
      rw [act_kill h, Out.bind_ok, acts_cons]
      have hq : (put w.obj p (some false)) q = w.obj q := by simp [put, hpq]
      cases h2 : w.obj q with
      | none => simp [act, hq, h2]
      | some a =>
        cases a with
        | false => simp [act, hq, h2]
        | true =>
          rw [act_use (by simpa [hq] using h2), Out.bind_ok, acts_cons]
          simp [act, put]

theorem kill_kill (p : Place) (es : List Ev) (w : World) : acts false (.kill p :: .kill p :: es) w = .ub := by
  rw [acts_cons]
  cases h : w.obj p with
  | none => simp [act, h]
  | some a =>
    cases a with
    | false => simp [act, h]
    | true =>
      rw [act_kill h, Out.bind_ok, acts_cons]
      simp [act, put]

theorem then_ub (es fs : List Ev) (h : ∀ w, acts false fs w = .ub) (w : World) : acts false (es ++ fs) w = .ub := by
  rw [acts_app]
  rcases acts_cases false es w with e | ⟨w', e⟩
  · rw [e]; rfl
  · rw [e, Out.bind_ok]; exact h w'

theorem run_then_ub {Op : Type} (call : Op → List Ev) (ops ops' : List Op) (op : Op) (h : ∀ w, acts false (call op) w = .ub)
    (w : World) : run false call (ops ++ op :: ops') w = .ub := by
  rw [run_app]
  rcases run_cases false call ops w with e | ⟨w', e⟩
  · rw [e]; rfl
  · rw [e, Out.bind_ok]
    have e' : run false call (op :: ops') w' = acts false (call op) w' >>= fun r => run false call ops' r.2 := rfl
    show run false call (op :: ops') w' = .ub
    rw [e', h w']; rfl

end Verif.Proof.AllocLife
