import Verif.Proof.VectorHist
/-! # Vector: amortised cost, and what goes wrong -/
namespace Verif.Proof.Vector
open Verif Verif.Model.Mem Verif.Model.Vector Verif.Proof.Mem

variable {α : Type} {ty : ElemTy α}

theorem Cost.add_c (a b : Cost) : (a + b).c = a.c + b.c := rfl
theorem Cost.add_a (a b : Cost) : (a + b).a = a.a + b.a := rfl

/-- constructions are paid by the growth of the capacity -/
theorem growCost_c (n len cap : Nat) (h : len ≤ cap) : (growCost n len cap).c + cap ≤ n + growCap n len cap := by
  induction n generalizing len cap with
  | zero => simp [growCost, growCap, Cost.zero_def]
  | succ n ih =>
    simp only [growCost, growCap, Cost.add_c]
    have hp : len + 1 ≤ pushCap len cap := by unfold pushCap grown; split <;> (try split) <;> omega
    have := ih (len + 1) (pushCap len cap) hp
    have h2 : (pushCost len cap).c + cap ≤ 1 + pushCap len cap := by
      unfold pushCost pushCap grown; split
      · simp
      · simp only []; split <;> omega
    omega

theorem growCap_le (n len cap : Nat) (h : len ≤ cap) : growCap n len cap ≤ max cap (2 * (len + n)) := by
  induction n generalizing len cap with
  | zero => simp [growCap]; omega
  | succ n ih =>
    simp only [growCap]
    have hp : len + 1 ≤ pushCap len cap := by unfold pushCap grown; split <;> (try split) <;> omega
    have := ih (len + 1) (pushCap len cap) hp
    have h2 : pushCap len cap ≤ max cap (2 * (len + 1)) := by
      unfold pushCap grown; split
      · omega
      · split <;> omega
    omega

theorem growCap_same {n len cap : Nat} (h : (growCost n len cap).a = 0) : growCap n len cap = cap := by
  induction n generalizing len cap with
  | zero => rfl
  | succ n ih =>
    simp only [growCost, growCap, Cost.add_a] at h ⊢
    have h1 : (pushCost len cap).a = 0 := by omega
    have h2 : pushCap len cap = cap := by
      unfold pushCost at h1; unfold pushCap; split at h1
      · simp [*]
      · simp at h1
    rw [h2] at h ⊢
    exact ih (by omega)

/-- every allocation doubles the capacity -/
theorem growCost_a (n len cap : Nat) (h : len ≤ cap) : 2 ^ (growCost n len cap).a * max cap 1 ≤ max (growCap n len cap) 1 := by
  induction n generalizing len cap with
  | zero => simp [growCost, growCap, Cost.zero_def]
  | succ n ih =>
    simp only [growCost, growCap, Cost.add_a]
    have hp : len + 1 ≤ pushCap len cap := by unfold pushCap grown; split <;> (try split) <;> omega
    refine Nat.le_trans ?_ (ih (len + 1) (pushCap len cap) hp)
    rw [Nat.pow_add, Nat.mul_comm (2 ^ _) (2 ^ _), Nat.mul_assoc]
    apply Nat.mul_le_mul_left
    unfold pushCost pushCap grown; split
    · simp
    · simp only [Nat.pow_one]; split <;> omega

theorem growCost_grown {n len cap : Nat} (h : len ≤ cap) (ha : (growCost n len cap).a ≠ 0) :
    growCap n len cap ≤ 2 * (len + n) := by
  induction n generalizing len cap with
  | zero => simp [growCost, Cost.zero_def] at ha
  | succ n ih =>
    simp only [growCost, growCap, Cost.add_a] at ha ⊢
    have hp : len + 1 ≤ pushCap len cap := by unfold pushCap grown; split <;> (try split) <;> omega
    by_cases h0 : (growCost n (len + 1) (pushCap len cap)).a = 0
    · rw [growCap_same h0]
      rw [h0] at ha
      unfold pushCost at ha; unfold pushCap grown
      split at ha
      · simp at ha
      · rename_i hlt; rw [if_neg hlt]; split <;> omega
    · have := ih hp h0
      omega

theorem grow_total (n cap : Nat) : (growCost n 0 cap).c ≤ 3 * n ∧ ((growCost n 0 cap).a ≠ 0 → 2 ^ (growCost n 0 cap).a ≤ 2 * n) := by
  have h1 := growCost_c n 0 cap (Nat.zero_le _)
  have h3 := growCost_a n 0 cap (Nat.zero_le _)
  constructor
  · by_cases h0 : (growCost n 0 cap).a = 0
    · have := growCap_same h0; omega
    · have := growCost_grown (Nat.zero_le _) h0; omega
  · intro h0
    have h2 := growCost_grown (Nat.zero_le _) h0
    have h4 : 2 ^ (growCost n 0 cap).a * 1 ≤ 2 ^ (growCost n 0 cap).a * max cap 1 := Nat.mul_le_mul_left _ (by omega)
    have h5 : n ≠ 0 := by rintro rfl; simp [growCost, Cost.zero_def] at h0
    omega

/-- push_back calls of a program -/
theorem run_pushes {i : Nat} (ys : List α) (w : World α) (v : Vec) (hv : w.vars i = some v) :
    run ty (ys.map fun y => .push i (.val y)) w =
      (pushList ty v ys w.heap >>= fun p =>
        .ok (ys.map fun _ => .unit, ⟨p.2, bindVar w.vars i (some p.1)⟩)) := by
  induction ys generalizing w v with
  | nil =>
    simp only [List.map_nil, run, pushList, Prog.pure_run, Out.bind_ok]
    have : bindVar w.vars i (some v) = w.vars := by
      funext j; simp only [bindVar]; split
      · rename_i h; rw [h, hv]
      · rfl
    rw [this]
  | cons y ys ih =>
    simp only [List.map_cons, run, pushList, Prog.bind_run, step, argRef, Prog.pure_run, Out.bind_ok, change, run_var hv, inHeap_run]
    cases hp : pushBack ty v (.tmp y) w.heap with
    | ok p =>
      obtain ⟨v1, h1⟩ := p
      simp only [Out.bind_ok, setVar]
      rw [ih _ v1 (bindVar_same _ _ _)]
      cases pushList ty v1 ys h1 with
      | ok q =>
        simp only [Out.bind_ok]
        have : bindVar (bindVar w.vars i (some v1)) i (some q.1) = bindVar w.vars i (some q.1) := by
          funext j; simp only [bindVar]; split <;> rfl
        rw [this]
      | _ => rfl
    | _ => rfl

/-! ## Insertion at the beginning -/

theorem access_out {β : Type} {h : Heap α} {p : Option Nat} {cap owner i c d : Nat} {sl : List (Option α)}
    {k : Option α → Option (β × Option α)} (ho : Own ty h p cap owner sl) (hi : cap ≤ i) : access p i c d k h = .ub := by
  cases p with
  | none => rfl
  | some b =>
    have hl := ho.length
    simp only [Own] at ho
    simp only [access, ho.1]
    rw [List.getElem?_eq_none (by omega)]

theorem access_raw {β : Type} {h : Heap α} {p : Option Nat} {cap owner i c d : Nat} {sl : List (Option α)}
    {k : Option α → Option (β × Option α)} (ho : Own ty h p cap owner sl) (hi : sl[i]? = some none) (hk : k none = none) :
    access p i c d k h = .ub := by
  cases p with
  | none => rfl
  | some b =>
    simp only [Own] at ho
    simp only [access, ho.1, hi, hk]

theorem access_gone {β : Type} {h : Heap α} {b i c d : Nat} {k : Option α → Option (β × Option α)} (hb : h.blocks b = none) :
    access (some b) i c d k h = .ub := by
  simp only [access, hb]

/-- shifting everything, down to index 0, runs below it -/
theorem moveBackLoop_zero {h : Heap α} {p : Option Nat} {cap owner : Nat} {post : List (Option α)}
    (n : Nat) (rest moved : List α) (hn : n = rest.length) (hne : rest ≠ []) {hi : Nat} (hhi : hi + 1 = rest.length)
    (ho : Own ty h p cap owner (rest.map some ++ (raws 1 ++ (moved.map some ++ post)))) :
    moveBackLoop ty p 1 0 hi h = .ub := by
  induction n generalizing h rest moved hi with
  | zero => exact absurd (List.length_eq_zero_iff.1 hn.symm) hne
  | succ n ih =>
    rcases List.eq_nil_or_concat rest with rfl | ⟨rest', x, rfl⟩
    · exact absurd rfl hne
    · simp only [List.concat_eq_append] at *
      simp only [List.length_append, List.length_cons, List.length_nil] at hhi
      have hhi2 : hi = rest'.length := by omega
      have hlen := ho.length
      have hcl := ho.cap_lt
      have hW : wordSize = 18446744073709551616 := rfl
      simp only [List.length_append, List.length_map, raws_length, List.length_cons, List.length_nil] at hlen
      obtain ⟨h1, e1, o1, s1⟩ := take_ok (ty := ty) (h := h) (ptr := p) (i := hi) (cap := cap) (owner := owner)
        (pre := rest'.map some) (x := x) (post := raws 1 ++ (moved.map some ++ post))
        (by simpa using ho) (by simp [hhi2])
      obtain ⟨h2, e2, o2, s2⟩ := construct_ok (ty := ty) (h := h1) (ptr := p) (i := wrap (hi + 1)) (cap := cap) (owner := owner)
        (pre := rest'.map some ++ [some (ty.mv x)]) (x := x) (post := moved.map some ++ post)
        (by simpa [raws] using o1)
        (by rw [wrap_of_lt (by omega)]; simp [hhi2])
      obtain ⟨h3, e3, o3, s3⟩ := destroy_ok (ty := ty) (h := h2) (ptr := p) (i := hi) (cap := cap) (owner := owner)
        (pre := rest'.map some) (x := ty.mv x) (post := some x :: (moved.map some ++ post))
        (by simpa using o2) (by simp [hhi2])
      rw [moveBackLoop, if_pos (by omega)]
      simp only [Prog.bind_run, e1, e2, e3, Out.bind_ok]
      by_cases hr : rest' = []
      · subst hr
        have hz : hi = 0 := by simpa using hhi2
        subst hz
        rw [moveBackLoop, if_pos (by omega)]
        have hw : wsub 0 1 = 18446744073709551615 := rfl
        simp only [Prog.bind_run, take, hw]
        rw [access_out o3 (by omega)]
        rfl
      · have hpos := List.length_pos_iff.2 hr
        exact ih rest' (x :: moved) (by simpa using hn) hr (by rw [wsub_of_le (by omega) (by omega)]; omega)
          (by simpa [raws] using o3)

theorem emplace_begin {h : Heap α} {v : Vec} {xs : List α} {x : α} (rp : Rep ty h v xs) (hb : Bal h) (hne : xs ≠ []) :
    emplace ty v 0 x h = .ub ∨ emplace ty v 0 x h = .oom := by
  have hl := rp.len
  have hle := rp.le
  have hpos := List.length_pos_iff.2 hne
  have hW : wordSize = 18446744073709551616 := rfl
  have key : ((if v.len = v.cap then extendSpace ty v else pure v) h : Out _).Safe fun q =>
      ∃ k, To ty h v.ptr xs (pushCap xs.length v.cap) v.alloc k q.1 q.2 := by
    by_cases he : v.len = v.cap
    · rw [if_pos he]
      simp only [pushCap, show ¬ (xs.length < v.cap) by omega, if_false]
      exact (extendSpace_ok rp hb).mono fun q hq => ⟨_, hq.1⟩
    · rw [if_neg he]
      simp only [pushCap, show xs.length < v.cap by omega, if_true]
      exact ⟨_, To.same rp hb⟩
  simp only [emplace, Prog.bind_run]
  generalize hq : (if v.len = v.cap then extendSpace ty v else pure v) h = o at key
  cases o with
  | ok p =>
    obtain ⟨v1, h1⟩ := p
    obtain ⟨k, t⟩ := key
    simp only at t
    left
    simp only [Out.bind_ok]
    have hl1 := t.rep.len
    have hcl := t.rep.own.cap_lt
    have hlt : xs.length + 1 ≤ v1.cap := by
      rw [t.cap]; simp only [pushCap, grown]; split
      · omega
      · split <;> omega
    have : moveElementsBack ty v1 0 1 h1 = .ub := by
      unfold moveElementsBack
      rw [if_neg (by omega)]
      simp only [Prog.bind_run]
      rw [wrap_of_lt (by omega), if_neg (by omega)]
      simp only [Prog.pure_run, Out.bind_ok]
      rw [moveBackLoop_zero (post := raws (v1.cap - xs.length - 1)) xs.length xs [] rfl hne (by omega) (by
        have := t.rep.own
        rw [show v1.cap - xs.length = 1 + (v1.cap - xs.length - 1) by omega, ← raws_append] at this
        simpa using this)]
      rfl
    rw [this]; rfl
  | oom => right; rfl
  | div => exact key.elim
  | panic => exact key.elim
  | ub => exact key.elim

theorem emplace_empty {h : Heap α} {v : Vec} {x : α} (rp : Rep ty h v []) (hb : Bal h) :
    (emplace ty v 0 x h).Safe fun q => q.1.len = 0 ∧ q.2.ctors = h.ctors + 1 ∧ q.2.dtors = h.dtors := by
  have hl : v.len = 0 := rp.len
  have key : ((if v.len = v.cap then extendSpace ty v else pure v) h : Out _).Safe fun q =>
      ∃ k, To ty h v.ptr [] (pushCap 0 v.cap) v.alloc k q.1 q.2 ∧ k.c = 0 ∧ k.d = 0 := by
    by_cases he : v.len = v.cap
    · rw [if_pos he]
      simp only [pushCap, show ¬ (0 < v.cap) by omega, if_false]
      exact (extendSpace_ok rp hb).mono fun q hq => ⟨_, hq.1, rfl, rfl⟩
    · rw [if_neg he]
      simp only [pushCap, show 0 < v.cap by omega, if_true]
      exact ⟨_, To.same rp hb, rfl, rfl⟩
  simp only [emplace, Prog.bind_run]
  apply key.bind
  rintro ⟨v1, h1⟩ ⟨k, t, hc, hd⟩
  simp only at t ⊢
  have hl1 : v1.len = 0 := t.rep.len
  have hcap : 1 ≤ v1.cap := by
    rw [t.cap]; simp only [pushCap, grown]; split
    · omega
    · split <;> omega
  unfold moveElementsBack
  rw [if_pos hl1]
  simp only [Prog.pure_run, Out.bind_ok]
  obtain ⟨h2, e2, o2, s2⟩ := construct_ok (ty := ty) (h := h1) (ptr := v1.ptr) (i := 0) (cap := v1.cap) (owner := v1.alloc)
    (pre := []) (x := x) (post := raws (v1.cap - 1)) (by
      rw [List.nil_append, ← raws_succ, show v1.cap - 1 + 1 = v1.cap by omega]
      simpa using t.rep.own) rfl
  simp only [e2, Out.bind_ok, Out.safe_ok, hl1, true_and]
  have s := t.step.trans s2
  refine ⟨?_, ?_⟩
  · rw [s.ctors, Cost.add_c, hc]; simp
  · rw [s.dtors]; change h.dtors + (k.d + 0) = _; omega

/-! ## Self-aliasing -/

theorem pushBack_alias {h : Heap α} {v : Vec} {xs : List α} {i : Nat} (rp : Rep ty h v xs) (hb : Bal h) (hi : i < xs.length)
    (hfull : v.len = v.cap) :
    pushBack ty v (.slot v.ptr i) h = .ub ∨ pushBack ty v (.slot v.ptr i) h = .oom := by
  have hl := rp.len
  obtain ⟨b, hp⟩ : ∃ b, v.ptr = some b := by
    cases hp : v.ptr with
    | none =>
      have := rp.own; rw [hp] at this; simp only [Own] at this
      omega
    | some b => exact ⟨b, rfl⟩
  have key := extendSpace_ok rp hb
  simp only [pushBack, Prog.bind_run, if_pos (show v.len ≥ v.cap by omega)]
  cases hq : extendSpace ty v h with
  | ok p =>
    rw [hq] at key
    obtain ⟨t, hne⟩ := key
    left
    have hg : p.2.blocks b = none := t.step.gone b (by simp [hp]) (by
      intro hm; simp at hm; exact hne b hp hm)
    simp only [Out.bind_ok, deref, load, hp, access_gone hg]
    rfl
  | oom => right; rfl
  | div => rw [hq] at key; exact key.elim
  | panic => rw [hq] at key; exact key.elim
  | ub => rw [hq] at key; exact key.elim

theorem assignFill_alias {h : Heap α} {v : Vec} {xs : List α} {i n : Nat} (rp : Rep ty h v xs) (hb : Bal h) (hi : i < xs.length)
    (hn : 0 < n) (hw : n * ty.size < wordSize) :
    assignFill ty v n (.slot v.ptr i) h = .ub ∨ assignFill ty v n (.slot v.ptr i) h = .oom := by
  obtain ⟨h1, e1, t1⟩ := destroyAll_ok rp hb
  have hle := rp.le
  have key := reserve_ok t1.rep t1.bal hw
  simp only [assignFill, Prog.bind_run, e1, Out.bind_ok]
  cases hq : reserve ty { v with len := 0 } n h1 with
  | ok p =>
    rw [hq] at key
    obtain ⟨t, hsame, hne⟩ := key
    left
    obtain ⟨v2, h2⟩ := p
    simp only at t hsame hne
    simp only [Out.bind_ok]
    obtain ⟨m, rfl⟩ : ∃ m, n = m + 1 := ⟨n - 1, by omega⟩
    have hcap2 : v2.cap = max v.cap (m + 1) := t.cap
    have hl2 : v2.len = 0 := t.rep.len
    have hd : deref (.slot v.ptr i) h2 = .ub := by
      by_cases hc : m + 1 ≤ v.cap
      · obtain ⟨rfl, rfl⟩ := hsame hc
        refine access_raw t.rep.own ?_ rfl
        simp only [List.map_nil, List.nil_append, List.length_nil, raws]
        rw [List.getElem?_replicate, if_pos (by omega)]
      · cases hp : v.ptr with
        | none => rfl
        | some b =>
          refine access_gone (t.step.gone b (by simp [hp]) ?_)
          intro hm; simp at hm
          exact hne (by omega) b hp hm
    simp only [pushLoop, pushBack, Prog.bind_run]
    rw [if_neg (by omega)]
    simp only [Prog.pure_run, Out.bind_ok, hd]
    rfl
  | oom => right; rfl
  | div => rw [hq] at key; exact key.elim
  | panic => rw [hq] at key; exact key.elim
  | ub => rw [hq] at key; exact key.elim

theorem resizeFill_alias {h : Heap α} {v : Vec} {xs : List α} {i n : Nat} (rp : Rep ty h v xs) (hb : Bal h) (hi : i < xs.length)
    (hn : v.cap < n) (hw : n * ty.size < wordSize) :
    resizeFill ty v n (.slot v.ptr i) h = .ub ∨ resizeFill ty v n (.slot v.ptr i) h = .oom := by
  have hle := rp.le
  have hl := rp.len
  have key := reserve_ok rp hb hw
  unfold resizeFill
  rw [if_neg (by omega), if_pos (by omega)]
  simp only [Prog.bind_run, if_pos (show n > v.cap by omega)]
  cases hq : reserve ty v n h with
  | ok p =>
    rw [hq] at key
    obtain ⟨t, _, hne⟩ := key
    left
    obtain ⟨v2, h2⟩ := p
    simp only at t hne
    simp only [Out.bind_ok]
    have hl2 : v2.len = xs.length := t.rep.len
    have hcap2 : v2.cap = max v.cap n := t.cap
    obtain ⟨m, hm⟩ : ∃ m, n - v2.len = m + 1 := ⟨n - v2.len - 1, by omega⟩
    rw [hm]
    have hd : deref (.slot v.ptr i) h2 = .ub := by
      cases hp : v.ptr with
      | none => rfl
      | some b =>
        refine access_gone (t.step.gone b (by simp [hp]) ?_)
        intro hm; simp at hm
        exact hne hn b hp hm
    simp only [pushLoop, pushBack, Prog.bind_run]
    rw [if_neg (by omega)]
    simp only [Prog.pure_run, Out.bind_ok, hd]
    rfl
  | oom => right; rfl
  | div => rw [hq] at key; exact key.elim
  | panic => rw [hq] at key; exact key.elim
  | ub => rw [hq] at key; exact key.elim

end Verif.Proof.Vector
