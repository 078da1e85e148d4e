import Verif.Spec.RangeAny
/-! # Property C119: ranges over index types that are not integers -/
namespace Verif.Props
open Verif Verif.Model.RangeAny Verif.Spec.RangeAny Lean.Order

variable {T : Type} {I : Index T}

namespace RangeAny

theorem After.det {n : Nat} {x y z : T} (h : After I n x y) (h' : After I n x z) : y = z := by
  induction h generalizing z with
  | here => cases h'; rfl
  | step h1 hi ih =>
    cases h' with
    | step h2 hi' => cases ih h2; rw [hi] at hi'; cases hi'; rfl

theorem After.cons {n : Nat} {x x' y : T} (hi : I.inc x = .ok x') (h : After I n x' y) : After I (n + 1) x y := by
  induction h with
  | here => exact .step (.here x) hi
  | step h1 h2 ih => exact .step (ih hi) h2

theorem After.uncons {n : Nat} {x x' y : T} (hi : I.inc x = .ok x') (h : After I (n + 1) x y) : After I n x' y := by
  induction n generalizing y with
  | zero =>
    cases h with
    | step h1 h2 => cases h1; rw [hi] at h2; cases h2; exact .here _
  | succ n ih =>
    cases h with
    | step h1 h2 => exact .step (ih h1) h2

theorem After.first {n : Nat} {x y : T} (h : After I (n + 1) x y) : ∃ x', I.inc x = .ok x' := by
  induction n generalizing y with
  | zero =>
    cases h with
    | step h1 h2 => cases h1; exact ⟨_, h2⟩
  | succ n ih =>
    cases h with
    | step h1 h2 => exact ih h1

theorem After.zero {x y : T} (h : After I 0 x y) : y = x := by cases h; rfl

/-- One step of the loop. -/
theorem drain_eq (r : Range T) : r.drain I = if I.eq r.low r.high then .ok [] else
    I.inc r.low >>= fun l => Range.drain I ⟨l, r.high⟩ >>= fun xs => .ok (r.low :: xs) := by
  rw [Range.drain]
  by_cases h : I.eq r.low r.high
  · simp [Range.next, h]
  · simp only [Range.next, h, if_false, Bool.false_eq_true]
    cases I.inc r.low <;> rfl

theorem visited_nil {low high : T} (h : I.eq low high = true) : Visited I low high [] :=
  ⟨fun k y hy => by simp at hy, low, .here low, h⟩

theorem visited_cons {low l high : T} {ys : List T} (h : I.eq low high = false) (hi : I.inc low = .ok l) :
    Visited I low high (low :: ys) ↔ Visited I l high ys := by
  constructor
  · rintro ⟨h1, z, h2, h3⟩
    refine ⟨fun k y hy => ?_, z, After.uncons hi h2, h3⟩
    have := h1 (k + 1) y (by simpa using hy)
    exact ⟨After.uncons hi this.1, this.2⟩
  · rintro ⟨h1, z, h2, h3⟩
    refine ⟨fun k y hy => ?_, z, After.cons hi h2, h3⟩
    cases k with
    | zero => simp at hy; subst hy; exact ⟨.here _, h⟩
    | succ k =>
      have := h1 k y (by simpa using hy)
      exact ⟨After.cons hi this.1, this.2⟩

theorem visited_shape {low high : T} {ys : List T} (h : Visited I low high ys) :
    (ys = [] ∧ I.eq low high = true) ∨
      ∃ l zs, ys = low :: zs ∧ I.eq low high = false ∧ I.inc low = .ok l ∧ Visited I l high zs := by
  cases ys with
  | nil => obtain ⟨_, z, h2, h3⟩ := h; cases After.zero h2; exact .inl ⟨rfl, h3⟩
  | cons y zs =>
    obtain ⟨hy, hne⟩ := h.1 0 y rfl
    cases After.zero hy
    have h' := h
    obtain ⟨_, z, h2, _⟩ := h'
    obtain ⟨l, hl⟩ := After.first h2
    exact .inr ⟨l, zs, rfl, hne, hl, (visited_cons hne hl).mp h⟩

theorem drain_of_visited : ∀ (ys : List T) (low high : T), Visited I low high ys → Range.drain I ⟨low, high⟩ = .ok ys
  | [], low, high, h => by
    rcases visited_shape h with ⟨_, he⟩ | ⟨_, _, he, _⟩
    · rw [drain_eq]; simp [he]
    · cases he
  | y :: ys, low, high, h => by
    rcases visited_shape h with ⟨he, _⟩ | ⟨l, zs, h1, h2, h3, h4⟩
    · cases he
    · cases h1
      rw [drain_eq]; simp [h2, h3, drain_of_visited ys l high h4]

theorem visited_of_drain (ys : List T) (low high : T) (h : Range.drain I ⟨low, high⟩ = .ok ys) : Visited I low high ys := by
  induction ys generalizing low with
  | nil =>
    rw [drain_eq] at h
    by_cases he : I.eq low high
    · exact visited_nil he
    · simp only [he, if_false, Bool.false_eq_true] at h
      cases hi : I.inc low with
      | ok l =>
        rw [hi] at h; simp only [Out.bind_ok] at h
        cases hd : Range.drain I ⟨l, high⟩ with
        | ok xs => rw [hd] at h; simp at h
        | _ => rw [hd] at h; simp at h
      | _ => rw [hi] at h; simp at h
  | cons y ys ih =>
    rw [drain_eq] at h
    by_cases he : I.eq low high
    · simp [he] at h
    · simp only [he, if_false, Bool.false_eq_true] at h
      cases hi : I.inc low with
      | ok l =>
        rw [hi] at h; simp only [Out.bind_ok] at h
        cases hd : Range.drain I ⟨l, high⟩ with
        | ok xs =>
          rw [hd] at h; simp only [Out.bind_ok, Out.ok.injEq, List.cons.injEq] at h
          obtain ⟨rfl, rfl⟩ := h
          exact (visited_cons (by simpa using he) hi).mpr (ih l hd)
        | _ => rw [hd] at h; simp at h
      | _ => rw [hi] at h; simp at h

theorem missed_step {low high : T} (h : Missed I low high) : I.eq low high = false ∧ ∃ l, I.inc low = .ok l ∧ Missed I l high := by
  obtain ⟨y, hy, hne⟩ := h 0
  cases After.zero hy
  obtain ⟨y1, hy1, _⟩ := h 1
  obtain ⟨l, hl⟩ := After.first hy1
  refine ⟨hne, l, hl, fun k => ?_⟩
  obtain ⟨z, hz, hzn⟩ := h (k + 1)
  exact ⟨z, After.uncons hl hz, hzn⟩

theorem drain_missed : ∀ (r : Range T), Missed I r.low r.high → r.drain I = .div := by
  apply Range.drain.fixpoint_induct I (motive := fun f => ∀ r : Range T, Missed I r.low r.high → f r = .div)
  · refine admissible_pi_apply (fun (r : Range T) (x : Out (List T)) => Missed I r.low r.high → x = .div) fun r => ?_
    exact admissible_flatOrder (b := (Out.div : Out (List T))) _ fun _ => rfl
  · intro f ih r hm
    obtain ⟨hne, l, hl, hm'⟩ := missed_step hm
    simp only [Range.next, hne, Bool.false_eq_true, if_false, hl, Out.bind_ok, Out.pure_eq]
    rw [ih ⟨l, r.high⟩ hm']; rfl

theorem for_unfold (low high : T) : forLoop I low high = if I.eq low high then .ok [] else
    I.inc low >>= fun l => forLoop I l high >>= fun xs => .ok (low :: xs) := by
  rw [forLoop]; rfl

theorem for_below (high : T) : ∀ (low : T), forLoop I low high = .div ∨ forLoop I low high = Range.drain I ⟨low, high⟩ := by
  apply forLoop.fixpoint_induct I high (motive := fun f => ∀ low : T, f low = .div ∨ f low = Range.drain I ⟨low, high⟩)
  · refine admissible_pi_apply (fun (low : T) (x : Out (List T)) => x = .div ∨ x = Range.drain I ⟨low, high⟩) fun low => ?_
    exact admissible_flatOrder (b := (Out.div : Out (List T))) _ (.inl rfl)
  · intro f ih low
    rw [drain_eq]
    by_cases he : I.eq low high
    · exact .inr (by simp [he])
    · simp only [he, if_false, Bool.false_eq_true]
      cases hi : I.inc low with
      | ok l =>
        rcases ih l with h | h
        · exact .inl (by simp [h])
        · exact .inr (by simp [h])
      | _ => exact .inr rfl

theorem drain_below : ∀ (r : Range T), r.drain I = .div ∨ r.drain I = forLoop I r.low r.high := by
  apply Range.drain.fixpoint_induct I (motive := fun f => ∀ r : Range T, f r = .div ∨ f r = forLoop I r.low r.high)
  · refine admissible_pi_apply (fun (r : Range T) (x : Out (List T)) => x = .div ∨ x = forLoop I r.low r.high) fun r => ?_
    exact admissible_flatOrder (b := (Out.div : Out (List T))) _ (.inl rfl)
  · intro f ih r
    rw [for_unfold]
    by_cases he : I.eq r.low r.high
    · exact .inr (by simp [Range.next, he])
    · simp only [Range.next, he, if_false, Bool.false_eq_true]
      cases hi : I.inc r.low with
      | ok l =>
        rcases ih ⟨l, r.high⟩ with h | h
        · exact .inl (by simp [h])
        · exact .inr (by simp [h])
      | _ => exact .inr rfl

theorem for_eq_drain (low high : T) : forLoop I low high = Range.drain I ⟨low, high⟩ := by
  rcases for_below (I := I) high low with h | h
  · rcases drain_below (I := I) ⟨low, high⟩ with h' | h'
    · rw [h, h']
    · rw [h']
  · exact h

theorem drain_breaks {high : T} : ∀ (k : Nat) (low y : T), After I k low y → I.inc y = .ub →
    (∀ j z, j ≤ k → After I j low z → I.eq z high = false) → Range.drain I ⟨low, high⟩ = .ub
  | 0, low, y, ha, hu, hn => by
    cases After.zero ha
    rw [drain_eq]; simp [hn 0 low (Nat.le_refl 0) (.here low), hu]
  | k + 1, low, y, ha, hu, hn => by
    obtain ⟨l, hl⟩ := After.first ha
    have := drain_breaks (high := high) k l y (After.uncons hl ha) hu
      (fun j z hj hz => hn (j + 1) z (by omega) (After.cons hl hz))
    rw [drain_eq]; simp [hn 0 low (by omega) (.here low), hl, this]

theorem after_le {n m : Nat} {x y : T} (h : After I n x y) (hm : m ≤ n) : ∃ z, After I m x z := by
  induction h generalizing m with
  | here x => cases Nat.le_zero.mp hm; exact ⟨x, .here x⟩
  | step h1 hi ih =>
    rcases Nat.lt_or_eq_of_le hm with h | h
    · exact ih (by omega)
    · subst h; exact ⟨_, .step h1 hi⟩

theorem rising {I : Index T} (hl : Linear I) (hr : Rises I) {n : Nat} {x y : T} (h : After I n x y) : (n = 0 ∧ x = y) ∨ I.lt x y = true := by
  induction h with
  | here x => exact .inl ⟨rfl, rfl⟩
  | step h1 hi ih =>
    rcases ih with ⟨_, rfl⟩ | h
    · exact .inr (hr _ _ hi)
    · exact .inr (hl.trans _ _ _ h (hr _ _ hi))

theorem rising_lt {I : Index T} (hl : Linear I) (hr : Rises I) {n m : Nat} {x y z : T} (hy : After I n x y) (hz : After I m x z) (h : n < m) :
    I.lt y z = true := by
  induction m generalizing z with
  | zero => omega
  | succ m ih =>
    cases hz with
    | step h1 hi =>
      rcases Nat.lt_or_ge n m with hnm | hnm
      · exact hl.trans _ _ _ (ih h1 hnm) (hr _ _ hi)
      · have : n = m := by omega
        subst this
        cases After.det hy h1
        exact hr _ _ hi

end RangeAny
open RangeAny

/-- C119: for every index type, whatever its operators do: a loop over `next()` returns exactly if `low`, incremented again and again,
meets something equal to `high`, and then it has handed out `low` and its increments up to there, in order, each once. -/
theorem C119_next (I : Index T) (low high : T) (ys : List T) : Range.drain I ⟨low, high⟩ = .ok ys ↔ Visited I low high ys :=
  ⟨visited_of_drain ys low high, drain_of_visited ys low high⟩

/-- C119: it never ends if `high` is never met, and is undefined if an increment is undefined before.  Nothing else can happen. -/
theorem C119_otherwise (I : Index T) (hp : Plain I) (low high : T) :
    (Range.drain I ⟨low, high⟩ = .div ↔ Missed I low high) ∧ (Range.drain I ⟨low, high⟩ = .ub ↔ Breaks I low high) ∧
    ((∃ ys, Visited I low high ys) ∨ Missed I low high ∨ Breaks I low high) := by
  have three : (∃ ys, Visited I low high ys) ∨ Missed I low high ∨ Breaks I low high := by
    by_cases hm : Missed I low high
    · exact .inr (.inl hm)
    -- the first number of increments at which something else happens
    have hex : ∃ k, ¬ ∃ y, After I k low y ∧ I.eq y high = false := by
      apply Classical.byContradiction
      intro h
      exact hm fun k => Classical.byContradiction fun hk => h ⟨k, hk⟩
    have least : ∃ k, (¬ ∃ y, After I k low y ∧ I.eq y high = false) ∧ ∀ j, j < k → ∃ y, After I j low y ∧ I.eq y high = false := by
      obtain ⟨k, hk⟩ := hex
      induction k using Nat.strongRecOn with
      | _ k ih =>
        by_cases h : ∃ j, j < k ∧ ¬ ∃ y, After I j low y ∧ I.eq y high = false
        · obtain ⟨j, hj, hj'⟩ := h; exact ih j hj hj'
        · exact ⟨k, hk, fun j hj => Classical.byContradiction fun h' => h ⟨j, hj, h'⟩⟩
    obtain ⟨k, hk, hlt⟩ := least
    by_cases ha : ∃ y, After I k low y
    · -- `high` is met
      obtain ⟨z, hz⟩ := ha
      have hz' : I.eq z high = true := by
        cases he : I.eq z high with
        | true => rfl
        | false => exact absurd ⟨z, hz, he⟩ hk
      have build : ∀ n, n ≤ k → ∃ ys : List T, ys.length = n ∧ ∀ i y, ys[i]? = some y → After I i low y ∧ I.eq y high = false := by
        intro n
        induction n with
        | zero => intro _; exact ⟨[], rfl, fun i y h => by simp at h⟩
        | succ n ih =>
          intro hn
          obtain ⟨ys, hl, hy⟩ := ih (by omega)
          obtain ⟨y, hy1, hy2⟩ := hlt n (by omega)
          refine ⟨ys ++ [y], by simp [hl], fun i u hu => ?_⟩
          rcases Nat.lt_or_ge i ys.length with h | h
          · rw [List.getElem?_append_left h] at hu; exact hy i u hu
          · rw [List.getElem?_append_right h] at hu
            have : i - ys.length = 0 := by
              rcases Nat.eq_zero_or_pos (i - ys.length) with h0 | h0
              · exact h0
              · rw [List.getElem?_eq_none (by simp; omega)] at hu; cases hu
            rw [this] at hu
            simp at hu; subst hu
            have : i = n := by omega
            subst this; exact ⟨hy1, hy2⟩
      obtain ⟨ys, hl, hy⟩ := build k (Nat.le_refl k)
      exact .inl ⟨ys, hy, z, by rw [hl]; exact hz, hz'⟩
    · -- the increment before is undefined
      cases k with
      | zero => exact absurd ⟨low, .here low⟩ ha
      | succ k =>
        obtain ⟨y, hy, _⟩ := hlt k (by omega)
        rcases hp y with ⟨z, hz⟩ | hz
        · exact absurd ⟨z, .step hy hz⟩ ha
        · refine .inr (.inr ⟨k, y, hy, hz, fun j u hj hu => ?_⟩)
          obtain ⟨u', hu', hne⟩ := hlt j (by omega)
          cases After.det hu hu'
          exact hne
  refine ⟨⟨fun h => ?_, drain_missed ⟨low, high⟩⟩, ⟨fun h => ?_, ?_⟩, three⟩
  · rcases three with ⟨ys, hv⟩ | hm | ⟨k, y, h1, h2, h3⟩
    · rw [drain_of_visited ys low high hv] at h; cases h
    · exact hm
    · rw [drain_breaks k low y h1 h2 h3] at h; cases h
  · rcases three with ⟨ys, hv⟩ | hm | hb
    · rw [drain_of_visited ys low high hv] at h; cases h
    · rw [drain_missed ⟨low, high⟩ hm] at h; cases h
    · exact hb
  · rintro ⟨k, y, h1, h2, h3⟩; exact drain_breaks k low y h1 h2 h3

/-- C119: the `for` loop over a range does the same as the loop over `next()`. -/
theorem C119_for_loop (I : Index T) (low high : T) : forLoop I low high = Range.drain I ⟨low, high⟩ := for_eq_drain low high

/-- C119 (partial).  For every index type with a linear order whose increment is the successor (integers, positions of an iterator): if
`high` is not below `low`, then everything handed out is contained in the range and everything contained is handed out, once and in
ascending order; `is_empty()` holds exactly if nothing is handed out.
Missing: index types whose increment leaves values out, and bounds the wrong way round (`C119_overshoot_fails`, `C119_backwards_fails`,
`C119_unordered_fails`). -/
theorem C119_contains_partial (I : Index T) (hl : Linear I) (hs : Successor I) (low high : T) (ys : List T) (hle : I.lt high low = false)
    (h : Range.drain I ⟨low, high⟩ = .ok ys) :
    (∀ x, x ∈ ys ↔ Range.contains I ⟨low, high⟩ x = true) ∧ ys.Pairwise (fun x y => I.lt x y = true) ∧
    (Range.isEmpty I ⟨low, high⟩ = true ↔ ys = []) := by
  have hv := visited_of_drain ys low high h
  obtain ⟨h1, z, h2, h3⟩ := hv
  have hz : z = high := (hl.eq_iff z high).mp h3
  subst hz
  have asym : ∀ {x y}, I.lt x y = true → I.lt y x = true → False := by
    intro x y hxy hyx
    have := hl.trans _ _ _ hxy hyx
    rw [hl.irrefl] at this; cases this
  have mem : ∀ x, x ∈ ys ↔ Range.contains I ⟨low, z⟩ x = true := by
    intro x
    simp only [Range.contains, Bool.and_eq_true, hl.le_iff]
    constructor
    · intro hx
      obtain ⟨k, hk⟩ := List.mem_iff_getElem?.mp hx
      obtain ⟨ha, _⟩ := h1 k x hk
      have hklt : k < ys.length := by
        rcases Nat.lt_or_ge k ys.length with h | h
        · exact h
        · rw [List.getElem?_eq_none h] at hk; cases hk
      refine ⟨?_, rising_lt hl hs.1 ha h2 hklt⟩
      rcases rising hl hs.1 ha with ⟨_, h⟩ | h
      · exact .inr h
      · exact .inl h
    · rintro ⟨hlo, hhi⟩
      -- the last of the visited ones that is not above `x`
      have walk : ∀ n w, After I n low w → n ≤ ys.length → (I.lt x w = true → x ∈ ys) := by
        intro n
        induction n with
        | zero =>
          intro w hw _ hxw
          cases After.zero hw
          rcases hlo with h | h
          · exact (asym h hxw).elim
          · subst h; rw [hl.irrefl] at hxw; cases hxw
        | succ n ih =>
          intro w hw hn hxw
          cases hw with
          | @step _ _ u _ hu hi =>
            rcases hl.total x u with h | h | h
            · exact ih u hu (by omega) h
            · subst h
              have hget : ∃ y, ys[n]? = some y := ⟨ys[n]'(by omega), List.getElem?_eq_getElem (by omega)⟩
              obtain ⟨y, hy⟩ := hget
              cases After.det hu (h1 n y hy).1
              exact List.mem_iff_getElem?.mpr ⟨n, hy⟩
            · exact (hs.2 _ _ hi x ⟨h, hxw⟩).elim
      exact walk ys.length z h2 (Nat.le_refl _) hhi
  refine ⟨mem, ?_, ?_⟩
  · rw [List.pairwise_iff_getElem]
    intro i j hi hj hij
    exact rising_lt hl hs.1 (h1 i _ (List.getElem?_eq_getElem hi)).1 (h1 j _ (List.getElem?_eq_getElem hj)).1 hij
  · simp only [Range.isEmpty, Bool.not_eq_true']
    constructor
    · intro he
      cases ys with
      | nil => rfl
      | cons y ys =>
        have := (mem y).mp (List.mem_cons_self)
        simp only [Range.contains, Bool.and_eq_true, hl.le_iff] at this
        rcases this.1 with h | h
        · rw [hl.trans _ _ _ h this.2] at he; cases he
        · rw [h, this.2] at he; cases he
    · rintro rfl
      cases After.zero h2
      exact hl.irrefl _

/-- C119: with an `==` that is equality, ranges compare equal exactly if they have the same bounds. -/
theorem C119_equal (I : Index T) (hl : Linear I) (low high low' high' : T) :
    Range.equal I ⟨low, high⟩ ⟨low', high'⟩ = true ↔ low = low' ∧ high = high' := by
  simp [Range.equal, hl.eq_iff]

/-- **C119 is false** of increments that step over `high`, as those of floating point numbers do: the range is not empty, but the loop never
ends, handing out ever larger values that it does not contain. -/
theorem C119_overshoot_fails (I : Index T) (hl : Linear I) (hr : Rises I) (hinc : ∀ x, ∃ y, I.inc x = .ok y) {low high a b : T} {k : Nat}
    (ha : After I k low a) (hab : I.inc a = .ok b) (h1 : I.lt a high = true) (h2 : I.lt high b = true) :
    Range.isEmpty I ⟨low, high⟩ = false ∧ Range.drain I ⟨low, high⟩ = .div := by
  have asym : ∀ {x y}, I.lt x y = true → I.lt y x = true → False := by
    intro x y hxy hyx
    have := hl.trans _ _ _ hxy hyx
    rw [hl.irrefl] at this; cases this
  have hlow : I.lt low high = true := by
    rcases rising hl hr ha with ⟨_, rfl⟩ | h
    · exact h1
    · exact hl.trans _ _ _ h h1
  refine ⟨by simp [Range.isEmpty, hlow], drain_missed ⟨low, high⟩ fun n => ?_⟩
  have ex : ∃ y, After I n low y := by
    induction n with
    | zero => exact ⟨low, .here low⟩
    | succ n ih => obtain ⟨y, hy⟩ := ih; obtain ⟨z, hz⟩ := hinc y; exact ⟨z, .step hy hz⟩
  obtain ⟨y, hy⟩ := ex
  refine ⟨y, hy, ?_⟩
  cases he : I.eq y high with
  | false => rfl
  | true =>
    cases (hl.eq_iff y high).mp he
    rcases Nat.lt_or_ge n (k + 1) with h | h
    · rcases Nat.lt_or_ge n k with h' | h'
      · exact (asym h1 (rising_lt hl hr hy ha h')).elim
      · have : n = k := by omega
        subst this
        cases After.det hy ha
        rw [hl.irrefl] at h1; cases h1
    · rcases Nat.lt_or_ge (k + 1) n with h' | h'
      · exact (asym h2 (rising_lt hl hr (.step ha hab) hy h')).elim
      · have : n = k + 1 := by omega
        subst this
        cases After.det hy (.step ha hab)
        rw [hl.irrefl] at h2; cases h2

/-- **C119 is false** of bounds the wrong way round: `is_empty()` holds and nothing is contained, but the loop never ends. -/
theorem C119_backwards_fails (I : Index T) (hl : Linear I) (hr : Rises I) (hinc : ∀ x, ∃ y, I.inc x = .ok y) {low high : T}
    (h : I.lt high low = true) : Range.isEmpty I ⟨low, high⟩ = true ∧ (∀ x, Range.contains I ⟨low, high⟩ x = false) ∧
      Range.drain I ⟨low, high⟩ = .div := by
  have asym : ∀ {x y}, I.lt x y = true → I.lt y x = true → False := by
    intro x y hxy hyx
    have := hl.trans _ _ _ hxy hyx
    rw [hl.irrefl] at this; cases this
  refine ⟨?_, fun x => ?_, drain_missed ⟨low, high⟩ fun n => ?_⟩
  · simp only [Range.isEmpty, Bool.not_eq_true']
    cases he : I.lt low high with
    | false => rfl
    | true => exact (asym h he).elim
  · cases he : Range.contains I ⟨low, high⟩ x with
    | false => rfl
    | true =>
      simp only [Range.contains, Bool.and_eq_true, hl.le_iff] at he
      rcases he.1 with h' | h'
      · exact (asym (hl.trans _ _ _ h' he.2) h).elim
      · subst h'; exact (asym he.2 h).elim
  · have ex : ∃ y, After I n low y := by
      induction n with
      | zero => exact ⟨low, .here low⟩
      | succ n ih => obtain ⟨y, hy⟩ := ih; obtain ⟨z, hz⟩ := hinc y; exact ⟨z, .step hy hz⟩
    obtain ⟨y, hy⟩ := ex
    refine ⟨y, hy, ?_⟩
    cases he : I.eq y high with
    | false => rfl
    | true =>
      cases (hl.eq_iff y high).mp he
      rcases rising hl hr hy with ⟨_, rfl⟩ | h'
      · rw [hl.irrefl] at h; cases h
      · exact (asym h' h).elim

/-- **C119 is false** of a bound that is unordered with and different from everything (a floating point NaN), and of an increment that
stays where it is (floating point numbers from 2^53 on): the loop never ends. -/
theorem C119_unordered_fails (I : Index T) (hinc : ∀ x, ∃ y, I.inc x = .ok y) (low high : T) :
    ((∀ x, I.eq x high = false ∧ I.lt x high = false) → Range.isEmpty I ⟨low, high⟩ = true ∧ Range.drain I ⟨low, high⟩ = .div) ∧
    (∀ k a, After I k low a → I.inc a = .ok a → (∀ j y, j ≤ k → After I j low y → I.eq y high = false) →
      Range.drain I ⟨low, high⟩ = .div) := by
  have ex : ∀ n, ∃ y, After I n low y := by
    intro n
    induction n with
    | zero => exact ⟨low, .here low⟩
    | succ n ih => obtain ⟨y, hy⟩ := ih; obtain ⟨z, hz⟩ := hinc y; exact ⟨z, .step hy hz⟩
  refine ⟨fun h => ⟨by simp [Range.isEmpty, (h low).2], drain_missed ⟨low, high⟩ fun n => ?_⟩, fun k a ha hfix hne => ?_⟩
  · obtain ⟨y, hy⟩ := ex n; exact ⟨y, hy, (h y).1⟩
  · refine drain_missed ⟨low, high⟩ fun n => ?_
    rcases Nat.lt_or_ge k n with h | h
    · have stay : ∀ m, k ≤ m → After I m low a := by
        intro m hm
        induction m with
        | zero => cases Nat.le_zero.mp hm; exact ha
        | succ m ih =>
          rcases Nat.lt_or_eq_of_le hm with h | h
          · exact .step (ih (by omega)) hfix
          · subst h; exact ha
      exact ⟨a, stay n (by omega), hne k a (Nat.le_refl k) ha⟩
    · obtain ⟨y, hy⟩ := ex n; exact ⟨y, hy, hne n y h hy⟩

/-- **C119 is false** of `prev()`: for every index type its first answer is `high`, which the range does not contain. -/
theorem C119_prev_fails (I : Index T) (hi : ∀ x, I.lt x x = false) {low high h' : T} (he : I.eq low high = false) (hd : I.dec high = .ok h') :
    Range.prev I ⟨low, high⟩ = .ok (some high, ⟨low, h'⟩) ∧ Range.contains I ⟨low, high⟩ high = false := by
  simp [Range.prev, Range.contains, he, hd, hi]

/-- Positions of an iterator over `n` elements: the step past the end is undefined. -/
def iterPositions (n : Nat) : Index Nat :=
  ⟨fun a b => a == b, fun a b => decide (a < b), fun a b => decide (a ≤ b), fun x => if x < n then .ok (x + 1) else .ub, fun x => .ok (x - 1)⟩
/-- Numbers in halves: an increment adds two halves. -/
def halfSteps : Index Int :=
  ⟨fun a b => a == b, fun a b => decide (a < b), fun a b => decide (a ≤ b), fun x => .ok (x + 2), fun x => .ok (x - 2)⟩

/-- Non-vacuity: positions are linearly ordered and increment to the successor; a range of them is as `C119_contains_partial` and
`C119_otherwise` ask, and one that goes past the end is undefined. -/
example : Linear (iterPositions 5) ∧ Successor (iterPositions 5) ∧ Plain (iterPositions 5) ∧ Visited (iterPositions 5) 1 4 [1, 2, 3] ∧ Breaks (iterPositions 5) 3 7 := by
  have up : ∀ {x y}, (iterPositions 5).inc x = .ok y → y = x + 1 := by
    intro x y h; simp only [iterPositions] at h; split at h <;> cases h; rfl
  refine ⟨⟨fun x y => by simp [iterPositions], fun x => by simp [iterPositions], fun x y z => by simp [iterPositions]; omega,
    fun x y => by simp [iterPositions]; omega, fun x y => by simp [iterPositions]; omega⟩,
    ⟨fun x y h => by cases up h; simp [iterPositions], fun x y h z => by cases up h; simp [iterPositions]; omega⟩, fun x => ?_,
    ⟨fun k y hy => ?_, 4, .step (.step (.step (.here 1) rfl) rfl) rfl, rfl⟩, ⟨2, 5, .step (.step (.here 3) rfl) rfl, rfl, fun j z hj hz => ?_⟩⟩
  · simp only [iterPositions]; split
    · exact .inl ⟨_, rfl⟩
    · exact .inr rfl
  · match k, hy with
    | 0, hy => simp at hy; subst hy; exact ⟨.here 1, rfl⟩
    | 1, hy => simp at hy; subst hy; exact ⟨.step (.here 1) rfl, rfl⟩
    | 2, hy => simp at hy; subst hy; exact ⟨.step (.step (.here 1) rfl) rfl, rfl⟩
    | k + 3, hy => simp at hy
  · match j, hj with
    | 0, _ => cases After.det hz (.here 3); rfl
    | 1, _ => cases After.det hz (.step (.here 3) rfl); rfl
    | 2, _ => cases After.det hz (.step (.step (.here 3) rfl) rfl); rfl

/-- Non-vacuity: `Range(0.5, 3.0)` steps over its end. -/
example : Range.isEmpty halfSteps ⟨1, 6⟩ = false ∧ Range.drain halfSteps ⟨1, 6⟩ = .div :=
  C119_overshoot_fails halfSteps
    ⟨fun x y => by simp [halfSteps], fun x => by simp [halfSteps], fun x y z => by simp [halfSteps]; omega,
      fun x y => by simp [halfSteps]; omega, fun x y => by simp [halfSteps]; omega⟩
    (fun x y h => by simp [halfSteps] at h ⊢; omega) (fun x => ⟨x + 2, rfl⟩)
    (.step (.step (.here 1) rfl) rfl : After halfSteps 2 1 5) (rfl : halfSteps.inc 5 = .ok 7) rfl rfl

/-- Non-vacuity: `Range(3.0, 0.5)` is empty and endless; `prev()` of `Range(0.5, 2.5)` answers 2.5. -/
example : (Range.isEmpty halfSteps ⟨6, 1⟩ = true ∧ (∀ x, Range.contains halfSteps ⟨6, 1⟩ x = false) ∧ Range.drain halfSteps ⟨6, 1⟩ = .div) ∧
    Range.prev halfSteps ⟨1, 5⟩ = .ok (some 5, ⟨1, 3⟩) :=
  ⟨C119_backwards_fails halfSteps
    ⟨fun x y => by simp [halfSteps], fun x => by simp [halfSteps], fun x y z => by simp [halfSteps]; omega,
      fun x y => by simp [halfSteps]; omega, fun x y => by simp [halfSteps]; omega⟩
    (fun x y h => by simp [halfSteps] at h ⊢; omega) (fun x => ⟨x + 2, rfl⟩) rfl,
   (C119_prev_fails halfSteps (fun x => by simp [halfSteps]) rfl rfl).1⟩

/-- Numbers up to 9 that do not grow further, and a NaN (`none`). -/
def coarseNumbers : Index (Option Nat) :=
  ⟨fun a b => a.isSome && a == b, fun a b => match a, b with | some a, some b => decide (a < b) | _, _ => false,
    fun a b => match a, b with | some a, some b => decide (a ≤ b) | _, _ => false,
    fun x => .ok (x.map fun n => if n < 9 then n + 1 else n), fun x => .ok (x.map (· - 1))⟩

/-- Non-vacuity: ranges up to a NaN, and ranges whose increments get stuck below `high`. -/
example : Range.drain coarseNumbers ⟨some 1, none⟩ = .div ∧ Range.drain coarseNumbers ⟨some 8, some 12⟩ = .div := by
  refine ⟨((C119_unordered_fails coarseNumbers (fun x => ⟨_, rfl⟩) (some 1) none).1 fun x => ?_).2,
    (C119_unordered_fails coarseNumbers (fun x => ⟨_, rfl⟩) (some 8) (some 12)).2 1 (some 9) (.step (.here _) rfl) rfl fun j y hj hy => ?_⟩
  · cases x <;> exact ⟨rfl, rfl⟩
  · match j, hj with
    | 0, _ => cases After.det hy (.here _); rfl
    | 1, _ => cases After.det hy (.step (.here _) rfl); rfl

end Verif.Props
