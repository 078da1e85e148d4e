import Verif.Spec.NestedArray
import Verif.Proof.NestedCmp
/-!
# Proofs about arrays of objects
-/
namespace Verif.Proof.Nested
open Verif Verif.Model.Nested Verif.Spec.Nested

variable {S : Sig} {σ V : Type} {C : Cls S σ} {μ : Meaning S V} {L : Law C μ} {dm : S.Make} {dv : V} {N : Nat}

/-! ## Loops -/

theorem upTo_ok {P : Nat → σ → Prop} {f : Nat → Prog σ Unit} (n : Nat) : ∀ {i : Nat} {s : σ}, P i s →
    (∀ k s, i ≤ k → k < i + n → P k s → (f k s).Safe fun q => P (k + 1) q.2) → (upTo i n f s).Safe fun q => P (i + n) q.2 := by
  induction n with
  | zero => intro i s h _; exact h
  | succ n ih =>
    intro i s h hf
    refine Out.Safe.bind (hf i s (by omega) (by omega) h) fun q hq => ?_
    have := ih (i := i + 1) hq fun k s h1 h2 => hf k s (by omega) (by omega)
    rwa [show i + 1 + n = i + (n + 1) by omega] at this

theorem downFrom_ok {P : Nat → σ → Prop} {f : Nat → Prog σ Unit} (n : Nat) : ∀ {s : σ}, P n s →
    (∀ k s, k < n → P (k + 1) s → (f k s).Safe fun q => P k q.2) → (downFrom n f s).Safe fun q => P 0 q.2 := by
  induction n with
  | zero => intro s h _; exact h
  | succ n ih =>
    intro s h hf
    exact Out.Safe.bind (hf n s (by omega) h) fun q hq => ih hq fun k s h1 => hf k s (by omega)

/-! ## Where the elements are -/

/-- temporaries `T` and the elements `E b k` at index `k` of the array at address `b` -/
def comb (T : Nat → Option V) (E : Nat → Nat → Option V) : Nat → Option V :=
  fun a => if a % 2 = 0 then T (a / 2) else E (a / 2).unpair.1 (a / 2).unpair.2

def put2 (E : Nat → Nat → Option V) (b k : Nat) (v : Option V) : Nat → Nat → Option V := fun b' k' => if b' = b ∧ k' = k then v else E b' k'

variable {T : Nat → Option V} {E : Nat → Nat → Option V}

theorem comb_slot (b k : Nat) : comb T E (slot b k) = E b k := by
  unfold comb slot
  rw [if_neg (by omega), show (2 * Nat.pair b k + 1) / 2 = Nat.pair b k by omega]
  simp

theorem comb_temp (k : Nat) : comb T E (temp k) = T k := by
  unfold comb temp
  rw [if_pos (by omega), show 2 * k / 2 = k by omega]

theorem place_slot (b k : Nat) (v : Option V) : place (comb T E) (slot b k) v = comb T (put2 E b k v) := by
  funext a
  by_cases e : a = slot b k
  · subst e
    rw [place_same, comb_slot]
    simp [put2]
  · rw [place_ne _ _ e]
    unfold comb
    split
    · rfl
    · rename_i h
      have : ¬ ((a / 2).unpair.1 = b ∧ (a / 2).unpair.2 = k) := by
        rintro ⟨rfl, rfl⟩
        apply e
        unfold slot
        rw [Nat.pair_unpair]
        omega
      simp only [put2, if_neg this]

theorem place_tmp (k : Nat) (v : Option V) : place (comb T E) (temp k) v = comb (place T k v) E := by
  funext a
  by_cases e : a = temp k
  · subst e
    rw [place_same, comb_temp, place_same]
  · rw [place_ne _ _ e]
    unfold comb
    split
    · rename_i h
      rw [place_ne]
      intro h2
      apply e
      unfold temp
      omega
    · rfl

/-- the values of an array by index -/
def valsOf (x : Fin N → V) : Nat → Option V := fun k => if h : k < N then some (x ⟨k, h⟩) else none

theorem valsOf_lt (x : Fin N → V) {k : Nat} (h : k < N) : valsOf x k = some (x ⟨k, h⟩) := dif_pos h
theorem valsOf_ge (x : Fin N → V) {k : Nat} (h : ¬ k < N) : valsOf x k = none := dif_neg h

/-- array `i` replaced -/
def row (E : Nat → Nat → Option V) (i : Nat) (g : Nat → Option V) : Nat → Nat → Option V := fun b k => if b = i then g k else E b k

/-- `u` below `n`, `v` from there on -/
def mix (n : Nat) (u v : Nat → Option V) : Nat → Option V := fun k => if k < n then u k else v k

def elemsOf (B : Nat → Option (Fin N → V)) : Nat → Nat → Option V := fun b k => (B b).bind fun x => valsOf x k

theorem put_mix_up {E : Nat → Nat → Option V} {i n : Nat} {u v : Nat → Option V} :
    put2 (row E i (mix n u v)) i n (u n) = row E i (mix (n + 1) u v) := by
  funext b k
  simp only [put2, row, mix]
  by_cases hb : b = i
  · by_cases hk : k = n
    · subst hk; simp [hb]
    · simp only [hb, hk, and_false, if_false, if_true]
      by_cases h : k < n
      · rw [if_pos h, if_pos (by omega)]
      · rw [if_neg h, if_neg (by omega)]
  · simp [hb]

theorem put_mix_down {E : Nat → Nat → Option V} {i n : Nat} {u v : Nat → Option V} :
    put2 (row E i (mix (n + 1) u v)) i n (v n) = row E i (mix n u v) := by
  funext b k
  simp only [put2, row, mix]
  by_cases hb : b = i
  · by_cases hk : k = n
    · subst hk; simp [hb]
    · simp only [hb, hk, and_false, if_false, if_true]
      by_cases h : k < n
      · rw [if_pos h, if_pos (by omega)]
      · rw [if_neg h, if_neg (by omega)]
  · simp [hb]

theorem row_comm {i j : Nat} (h : i ≠ j) (g g' : Nat → Option V) : row (row E i g) j g' = row (row E j g') i g := by
  funext b k
  simp only [row]
  by_cases h1 : b = j
  · subst h1; simp [Ne.symm h]
  · simp [h1]

theorem mix_zero (u v : Nat → Option V) : mix 0 u v = v := by funext k; simp [mix]
theorem mix_all {n : Nat} {u v : Nat → Option V} (h : ∀ k, n ≤ k → u k = v k) : mix n u v = u := by
  funext k
  by_cases hk : k < n
  · simp [mix, hk]
  · simp only [mix, if_neg hk]; exact (h k (by omega)).symm

theorem row_self {i : Nat} {g : Nat → Option V} (h : ∀ k, E i k = g k) : row E i g = E := by
  funext b k
  by_cases hb : b = i
  · subst hb; simp [row, h]
  · simp [row, hb]

variable {B : Nat → Option (Fin N → V)}

theorem elems_place (i : Nat) (x : Fin N → V) : elemsOf (place B i (some x)) = row (elemsOf B) i (valsOf x) := by
  funext b k
  by_cases hb : b = i
  · subst hb; simp [elemsOf, row, place]
  · simp [elemsOf, row, place, hb]

theorem elems_drop (i : Nat) : elemsOf (place B i none) = row (elemsOf B) i (fun _ => none) := by
  funext b k
  by_cases hb : b = i
  · subst hb; simp [elemsOf, row, place]
  · simp [elemsOf, row, place, hb]

theorem elems_row {i : Nat} {x : Fin N → V} (h : B i = some x) : elemsOf B = row (elemsOf B) i (valsOf x) :=
  (row_self fun k => by simp [elemsOf, h]).symm

theorem elems_row_none {i : Nat} (h : B i = none) : elemsOf B = row (elemsOf B) i (fun _ => none) :=
  (row_self fun k => by simp [elemsOf, h]).symm

/-! ## Loops over the elements of arrays -/

variable (L) in
/-- the elements of the arrays, and temporaries -/
abbrev Has (T : Nat → Option V) (E : Nat → Nat → Option V) (s : σ) : Prop := L.Inv (comb T E) s

theorem adefault_ok (hd : μ.val dm = some dv) {i : Nat} {s : σ} (I : Has L T (row E i (fun _ => none)) s) :
    (adefault C dm N i s).Safe fun q => Has L T (row E i (valsOf fun _ : Fin N => dv)) q.2 := by
  have h0 : Has L T (row E i (mix 0 (valsOf fun _ : Fin N => dv) (fun _ => none))) s := by rw [mix_zero]; exact I
  have := upTo_ok (P := fun n s => Has L T (row E i (mix n (valsOf fun _ : Fin N => dv) (fun _ => none))) s)
    (f := fun k => C.make dm (slot i k)) N h0 fun k s _ hk I => by
      have hk : k < N := by omega
      refine (L.make I (by simp [comb_slot, row, mix]) hd).mono fun q hq => ?_
      rw [place_slot, ← valsOf_lt (fun _ : Fin N => dv) hk, put_mix_up] at hq
      exact hq
  refine Out.Safe.mono this fun q hq => ?_
  rw [Nat.zero_add, mix_all fun k hk => valsOf_ge _ (by omega)] at hq
  exact hq

/-- the destructor -/
theorem adrop_ok {i : Nat} {x : Fin N → V} {s : σ} (I : Has L T (row E i (valsOf x)) s) :
    (downFrom N (fun k => C.drop (slot i k)) s).Safe fun q => Has L T (row E i (fun _ => none)) q.2 := by
  have h0 : Has L T (row E i (mix N (valsOf x) (fun _ => none))) s := by
    rw [mix_all fun k hk => valsOf_ge _ (by omega)]; exact I
  have := downFrom_ok (P := fun n s => Has L T (row E i (mix n (valsOf x) (fun _ => none))) s) (f := fun k => C.drop (slot i k)) N h0
    fun k s hk I => by
      refine (L.drop (x := x ⟨k, hk⟩) I (by simp [comb_slot, row, mix, valsOf_lt x hk])).mono fun q hq => ?_
      rw [place_slot, put_mix_down] at hq
      exact hq
  refine Out.Safe.mono this fun q hq => ?_
  rw [mix_zero] at hq
  exact hq

theorem acopy_ok {d e : Nat} {x : Fin N → V} {s : σ} (hne : d ≠ e) (I : Has L T (row (row E e (valsOf x)) d (fun _ => none)) s)
    (hok : ∀ k, μ.cpOk (x k) = true) :
    (upTo 0 N (fun k => C.copy (slot d k) (slot e k)) s).Safe fun q => Has L T (row (row E e (valsOf x)) d (valsOf fun k => μ.cp (x k))) q.2 := by
  have h0 : Has L T (row (row E e (valsOf x)) d (mix 0 (valsOf fun k => μ.cp (x k)) (fun _ => none))) s := by rw [mix_zero]; exact I
  have := upTo_ok (P := fun n s => Has L T (row (row E e (valsOf x)) d (mix n (valsOf fun k => μ.cp (x k)) (fun _ => none))) s)
    (f := fun k => C.copy (slot d k) (slot e k)) N h0 fun k s _ hk I => by
      have hk : k < N := by omega
      refine (L.copy (x := x ⟨k, hk⟩) I (by simp [comb_slot, row, mix]) (by simp [comb_slot, row, Ne.symm hne, valsOf_lt x hk])
        (hok _)).mono fun q hq => ?_
      rw [place_slot, ← valsOf_lt (fun k => μ.cp (x k)) hk, put_mix_up] at hq
      exact hq
  refine Out.Safe.mono this fun q hq => ?_
  rw [Nat.zero_add, mix_all fun k hk => valsOf_ge _ (by omega)] at hq
  exact hq

theorem acopyAssign_ok {d e : Nat} {t x : Fin N → V} {s : σ} (hne : d ≠ e) (I : Has L T (row (row E e (valsOf x)) d (valsOf t)) s)
    (hok : ∀ k, μ.cpOk (x k) = true) (hin : ∀ k, μ.cpInto (t k) (x k) = true) :
    (upTo 0 N (fun k => C.copyAssign (slot d k) (slot e k)) s).Safe fun q =>
      Has L T (row (row E e (valsOf x)) d (valsOf fun k => μ.cpAssign (t k) (x k))) q.2 := by
  have h0 : Has L T (row (row E e (valsOf x)) d (mix 0 (valsOf fun k => μ.cpAssign (t k) (x k)) (valsOf t))) s := by rw [mix_zero]; exact I
  have := upTo_ok (P := fun n s => Has L T (row (row E e (valsOf x)) d (mix n (valsOf fun k => μ.cpAssign (t k) (x k)) (valsOf t))) s)
    (f := fun k => C.copyAssign (slot d k) (slot e k)) N h0 fun k s _ hk I => by
      have hk : k < N := by omega
      refine (L.copyAssign (x := x ⟨k, hk⟩) (t := t ⟨k, hk⟩) I (fun h => hne (slot_inj h).1) (by simp [comb_slot, row, mix, valsOf_lt t hk])
        (by simp [comb_slot, row, Ne.symm hne, valsOf_lt x hk]) (hok _) (hin _)).mono fun q hq => ?_
      rw [place_slot, ← valsOf_lt (fun k => μ.cpAssign (t k) (x k)) hk, put_mix_up] at hq
      exact hq
  refine Out.Safe.mono this fun q hq => ?_
  rw [Nat.zero_add, mix_all fun k hk => by rw [valsOf_ge _ (by omega), valsOf_ge _ (by omega)]] at hq
  exact hq

theorem amoveAssign_ok {d e : Nat} {t x : Fin N → V} {s : σ} (hne : d ≠ e) (I : Has L T (row (row E e (valsOf x)) d (valsOf t)) s)
    (hin : ∀ k, μ.mvInto (t k) (x k) = true) :
    (upTo 0 N (fun k => C.moveAssign (slot d k) (slot e k)) s).Safe fun q =>
      Has L T (row (row E e (valsOf fun k => μ.leftInto (t k) (x k))) d (valsOf x)) q.2 := by
  have h0 : Has L T (row (row E e (mix 0 (valsOf fun k => μ.leftInto (t k) (x k)) (valsOf x))) d (mix 0 (valsOf x) (valsOf t))) s := by
    rw [mix_zero, mix_zero]; exact I
  have := upTo_ok (P := fun n s => Has L T (row (row E e (mix n (valsOf fun k => μ.leftInto (t k) (x k)) (valsOf x))) d (mix n (valsOf x) (valsOf t))) s)
    (f := fun k => C.moveAssign (slot d k) (slot e k)) N h0 fun k s _ hk I => by
      have hk : k < N := by omega
      refine (L.moveAssign (x := x ⟨k, hk⟩) (t := t ⟨k, hk⟩) I (fun h => hne (slot_inj h).1) (by simp [comb_slot, row, mix, valsOf_lt t hk])
        (by simp [comb_slot, row, mix, Ne.symm hne, valsOf_lt x hk]) (hin _)).mono fun q hq => ?_
      rw [place_slot, ← valsOf_lt x hk, put_mix_up, place_slot, ← valsOf_lt (fun k => μ.leftInto (t k) (x k)) hk, row_comm (Ne.symm hne),
        put_mix_up, row_comm hne] at hq
      exact hq
  refine Out.Safe.mono this fun q hq => ?_
  rw [Nat.zero_add, mix_all fun k hk => by rw [valsOf_ge _ (by omega), valsOf_ge _ (by omega)],
    mix_all fun k hk => by rw [valsOf_ge _ (by omega), valsOf_ge _ (by omega)]] at hq
  exact hq

/-! ## Construction from a list -/

/-- the temporaries of a list: 1, 2, ... -/
def tlist (xs : List V) : Nat → Option V
  | 0 => none
  | k + 1 => xs[k]?

theorem tlist_up {xs : List V} {k : Nat} {y : V} (h : xs[k]? = some y) : place (tlist (xs.take k)) (k + 1) (some y) = tlist (xs.take (k + 1)) := by
  funext j
  cases j with
  | zero => rfl
  | succ j =>
    by_cases e : j = k
    · subst e
      simp [place, tlist, List.getElem?_take, h]
    · rw [place_ne _ _ (by omega)]
      simp only [tlist, List.getElem?_take]
      by_cases hj : j < k
      · rw [if_pos hj, if_pos (by omega)]
      · rw [if_neg hj, if_neg (by omega)]

theorem tlist_down {xs : List V} {k : Nat} : place (tlist (xs.take (k + 1))) (k + 1) none = tlist (xs.take k) := by
  funext j
  cases j with
  | zero => rfl
  | succ j =>
    by_cases e : j = k
    · subst e
      simp [place, tlist, List.getElem?_take]
    · rw [place_ne _ _ (by omega)]
      simp only [tlist, List.getElem?_take]
      by_cases hj : j < k
      · rw [if_pos (by omega), if_pos hj]
      · rw [if_neg (by omega), if_neg hj]

theorem mapM_get {M X : Type} {f : M → Option X} : ∀ {ms : List M} {xs : List X}, ms.mapM f = some xs →
    xs.length = ms.length ∧ ∀ k (h : k < ms.length), ∃ y, f ms[k] = some y ∧ xs[k]? = some y := by
  intro ms
  induction ms with
  | nil => intro xs h; cases h; exact ⟨rfl, fun k h => absurd h (Nat.not_lt_zero _)⟩
  | cons m ms ih =>
    intro xs h
    simp only [List.mapM_cons, Option.bind_eq_bind, Option.bind_eq_some_iff, Option.pure_def, Option.some.injEq] at h
    obtain ⟨y, hy, ys, hys, rfl⟩ := h
    obtain ⟨h1, h2⟩ := ih hys
    refine ⟨by simp [h1], fun k hk => ?_⟩
    cases k with
    | zero => exact ⟨y, hy, rfl⟩
    | succ k => exact h2 k (by simpa using hk)

theorem place_restore {A : Nat → Option V} {a t : Nat} (hne : a ≠ t) (h : A t = none) (v x y : Option V) :
    place (place (place (place A t x) a v) t y) t none = place A a v := by
  funext j
  simp only [place]
  by_cases h1 : j = t
  · subst h1; simp [Ne.symm hne, h]
  · simp [h1]

theorem atemps_ok {ms : List S.Make} {xs : List V} (hxs : ms.mapM μ.val = some xs) {s : σ} (I : Has L (fun _ => none) E s) :
    (atemps C ms s).Safe fun q => Has L (tlist xs) E q.2 := by
  obtain ⟨hl, hget⟩ := mapM_get hxs
  have ht0 : (fun _ => none : Nat → Option V) = tlist (xs.take 0) := by funext j; cases j <;> simp [tlist]
  have s1 := upTo_ok (P := fun n s => Has L (tlist (xs.take n)) E s) (s := s)
    (f := fun k => match ms[k]? with | some m => C.make m (temp (k + 1)) | none => Prog.ub) (i := 0) ms.length (by rw [← ht0]; exact I)
    fun k s _ hk I => by
      have hk : k < ms.length := by omega
      obtain ⟨y, hy, hx⟩ := hget k hk
      simp only [List.getElem?_eq_getElem hk]
      refine (L.make I (by simp [comb_temp, tlist, List.getElem?_take]) hy).mono fun q hq => ?_
      rw [place_tmp, tlist_up hx] at hq
      exact hq
  refine Out.Safe.mono s1 fun q h => ?_
  rw [Nat.zero_add, ← hl, List.take_length] at h
  exact h

theorem aended_ok {xs : List V} {s : σ} (I : Has L (tlist xs) E s) : (aended C xs.length s).Safe fun q => Has L (fun _ => none) E q.2 := by
  have ht0 : (fun _ => none : Nat → Option V) = tlist (xs.take 0) := by funext j; cases j <;> simp [tlist]
  have s4 := downFrom_ok (P := fun n s => Has L (tlist (xs.take n)) E s) (s := s)
    (f := fun k => C.drop (temp (k + 1))) xs.length (by rw [List.take_length]; exact I)
    fun k s hk I => by
      refine (L.drop (x := xs[k]) I (by simp [comb_temp, tlist, List.getElem?_take, hk])).mono fun q hq => ?_
      rw [place_tmp, tlist_down] at hq
      exact hq
  refine Out.Safe.mono s4 fun q hq => ?_
  rw [← ht0] at hq
  exact hq

theorem amake_ok (hd : μ.val dm = some dv) (hmv : ∀ x, μ.mvInto dv x = true) {m : AMake S.Make} {x : Fin N → V} (hm : aval μ dv N m = some x)
    {i : Nat} {s : σ} (I : Has L (fun _ => none) (row E i (fun _ => none)) s) :
    (amake C dm N m i s).Safe fun q => Has L (fun _ => none) (row E i (valsOf x)) q.2 := by
  cases m with
  | dflt => cases hm; exact adefault_ok hd I
  | list ms =>
    simp only [aval, Option.ite_none_right_eq_some, Option.map_eq_some_iff] at hm
    obtain ⟨hlen, xs, hxs, rfl⟩ := hm
    obtain ⟨hl, hget⟩ := mapM_get hxs
    refine Out.Safe.bind (atemps_ok hxs I) fun q1 h1 => ?_
    refine Out.Safe.bind (adefault_ok (N := N) hd h1) fun q2 h2 => ?_
    dsimp only
    rw [if_neg (by omega)]
    generalize hu : (fun k : Fin N => ((xs[k.1]?).map μ.cp).getD dv) = u
    have s3 := upTo_ok (P := fun n s => Has L (tlist xs) (row E i (mix n (valsOf u) (valsOf fun _ : Fin N => dv))) s) (s := q2.2)
      (f := fun k => do C.copy (temp 0) (temp (k + 1)); C.moveAssign (slot i k) (temp 0); C.drop (temp 0)) (i := 0) ms.length
      (by rw [mix_zero]; exact h2)
      fun k s _ hk I => by
        have hk : k < ms.length := by omega
        have hkN : k < N := by omega
        obtain ⟨y, hy, hx⟩ := hget k hk
        have huk : u ⟨k, hkN⟩ = μ.cp y := by rw [← hu]; simp [hx]
        have hts : slot i k ≠ temp 0 := Ne.symm (temp_ne_slot 0 i k)
        refine Out.Safe.bind (L.copy (x := y) I (by simp [comb_temp, tlist]) (by simp [comb_temp, tlist, hx]) (L.newOk hy)) fun q hq => ?_
        refine Out.Safe.bind (L.moveAssign (t := dv) (x := μ.cp y) hq hts (by rw [place_ne _ _ hts, comb_slot]; simp [row, mix, valsOf_lt _ hkN])
          (place_same _ _ _) (hmv _)) fun q hq => ?_
        refine Out.Safe.mono (L.drop hq (place_same _ _ _)) fun q hq => ?_
        rw [place_restore hts (by simp [comb_temp, tlist]), place_slot, ← huk, ← valsOf_lt u hkN, put_mix_up] at hq
        exact hq
    refine Out.Safe.bind s3 fun q3 h3 => ?_
    rw [Nat.zero_add, mix_all fun k hk => by
      by_cases hN : k < N
      · rw [valsOf_lt _ hN, valsOf_lt _ hN, ← hu]
        simp [List.getElem?_eq_none (hl ▸ hk)]
      · rw [valsOf_ge _ hN, valsOf_ge _ hN]] at h3
    rw [← hl]
    exact aended_ok h3
  | raw ms =>
    simp only [aval, Option.ite_none_right_eq_some, Option.bind_eq_some_iff, Option.some.injEq, List.all_eq_true, Bool.and_eq_true] at hm
    obtain ⟨hlen, xs, hxs, hin, rfl⟩ := hm
    obtain ⟨hl, hget⟩ := mapM_get hxs
    refine Out.Safe.bind (atemps_ok hxs I) fun q1 h1 => ?_
    refine Out.Safe.bind (adefault_ok (N := N) hd h1) fun q2 h2 => ?_
    generalize hu : (fun k : Fin N => ((xs[k.1]?).map (μ.cpAssign dv)).getD dv) = u
    have s3 := upTo_ok (P := fun n s => Has L (tlist xs) (row E i (mix n (valsOf u) (valsOf fun _ : Fin N => dv))) s) (s := q2.2)
      (f := fun k => C.copyAssign (slot i k) (temp (k + 1))) (i := 0) N (by rw [mix_zero]; exact h2)
      fun k s _ hk I => by
        have hkN : k < N := by omega
        obtain ⟨y, hy, hx⟩ := hget k (by omega)
        have huk : u ⟨k, hkN⟩ = μ.cpAssign dv y := by rw [← hu]; simp [hx]
        have hts : slot i k ≠ temp (k + 1) := Ne.symm (temp_ne_slot (k + 1) i k)
        refine Out.Safe.mono (L.copyAssign (t := dv) (x := y) I hts (by rw [comb_slot]; simp [row, mix, valsOf_lt _ hkN])
          (by simp [comb_temp, tlist, hx]) (L.newOk hy) (hin y (List.mem_of_getElem? hx)).1) fun q hq => ?_
        rw [place_slot, ← huk, ← valsOf_lt u hkN, put_mix_up] at hq
        exact hq
    refine Out.Safe.bind s3 fun q3 h3 => ?_
    rw [Nat.zero_add, mix_all fun k hk => by rw [valsOf_ge _ (by omega), valsOf_ge _ (by omega)]] at h3
    rw [← hl]
    exact aended_ok h3

/-! ## The law -/

variable (L) in
structure ALaw (B : Nat → Option (Fin N → V)) (w : AWorld σ) : Prop where
  alive : ∀ b, w.alive b = (B b).isSome
  inv : Has L (fun _ => none) (elemsOf B) w.objs

theorem inArrays_ok {β : Type} {f : Prog σ β} {P : β × σ → Prop} {w : AWorld σ} (h : (f w.objs).Safe P) :
    (inArrays f w).Safe fun q => P (q.1, q.2.objs) ∧ q.2.alive = w.alive :=
  Out.Safe.bind h fun _ hp => ⟨hp, rfl⟩

theorem theArray_run {w : AWorld σ} (I : ALaw L B w) {i : Nat} {x : Fin N → V} (h : B i = some x) : theArray i w = .ok ((), w) := by
  simp [theArray, I.alive, h]

theorem ALaw.set {w : AWorld σ} (ha : ∀ b, w.alive b = (B b).isSome) {i : Nat} {o : Option (Fin N → V)} {b : Bool} (hb : b = o.isSome)
    (hi : Has L (fun _ => none) (elemsOf (place B i o)) w.objs) : (setArray i b w).Safe fun q => ALaw L (place B i o) q.2 := by
  refine ⟨fun j => ?_, hi⟩
  by_cases e : j = i
  · subst e; simp [place, hb]
  · simp [place, e, ha]

theorem ALaw.keep {w w' : AWorld σ} (I : ALaw L B w) (ha : w'.alive = w.alive) {B' : Nat → Option (Fin N → V)} (hs : ∀ b, (B' b).isSome = (B b).isSome)
    (hi : Has L (fun _ => none) (elemsOf B') w'.objs) : ALaw L B' w' := ⟨fun b => by rw [ha, I.alive, hs], hi⟩

theorem some_place {i : Nat} {x y : Fin N → V} (h : B i = some x) (b : Nat) : (place B i (some y) b).isSome = (B b).isSome := by
  by_cases e : b = i
  · subst e; simp [place, h]
  · simp [place, e]

theorem acall_ok {w : AWorld σ} (I : ALaw L B w) {n : Nat} {x y : Fin N → V} {c : ACall S.Make S.Call} {r : ARet S.Ret} (hn : B n = some x)
    (hc : arun μ N c x = some (r, y)) : (acall C N n c w).Safe fun q => q.1 = r ∧ ALaw L (place B n (some y)) q.2 := by
  cases c with
  | «at» k c =>
    simp only [arun] at hc
    split at hc
    · rename_i hk
      simp only [Option.map_eq_some_iff, Prod.mk.injEq] at hc
      obtain ⟨⟨r', y'⟩, hc, rfl, rfl⟩ := hc
      simp only [acall, Prog.bind_run, theArray_run I hn, Out.bind_ok, if_neg (Nat.not_le.2 hk)]
      refine Out.Safe.bind (inArrays_ok (L.call (n := slot n k) I.inv (by rw [comb_slot]; simp [elemsOf, hn, valsOf_lt x hk]) hc)) fun q hq => ?_
      refine ⟨congrArg ARet.elem hq.1.1, I.keep hq.2 (some_place hn) ?_⟩
      have h2 := hq.1.2
      rw [place_slot] at h2
      refine cast (congrArg (fun E => Has L (fun _ => none) E q.2.objs) ?_) h2
      rw [elems_place]
      funext b j
      simp only [put2, row]
      by_cases hb : b = n
      · subst hb
        by_cases hj : j = k
        · subst hj; simp [valsOf_lt _ hk]
        · simp only [hj, and_false, if_false, if_true, elemsOf, hn, Option.bind_some]
          simp [valsOf, hj]
      · simp [hb]
    · cases hc
  | set k m =>
    simp only [arun] at hc
    split at hc
    · rename_i hk
      simp only [Option.bind_eq_some_iff, Option.ite_none_right_eq_some, Option.some.injEq, Prod.mk.injEq] at hc
      obtain ⟨v, hv, hin, rfl, rfl⟩ := hc
      simp only [acall, Prog.bind_run, theArray_run I hn, Out.bind_ok, if_neg (Nat.not_le.2 hk)]
      have hts : slot n k ≠ temp 0 := Ne.symm (temp_ne_slot 0 n k)
      have key : ((do C.make m (temp 0); C.moveAssign (slot n k) (temp 0); C.drop (temp 0) : Prog σ Unit) w.objs).Safe
          fun q => Has L (fun _ => none) (put2 (elemsOf B) n k (some v)) q.2 := by
        refine Out.Safe.bind (L.make I.inv (by rw [comb_temp]) hv) fun q hq => ?_
        refine Out.Safe.bind (L.moveAssign (t := x ⟨k, hk⟩) hq hts (by rw [place_ne _ _ hts, comb_slot]; simp [elemsOf, hn, valsOf_lt x hk])
          (place_same _ _ _) hin) fun q hq => ?_
        refine Out.Safe.mono (L.drop hq (place_same _ _ _)) fun q hq => ?_
        rw [place_restore hts (by rw [comb_temp]), place_slot] at hq
        exact hq
      refine Out.Safe.bind (inArrays_ok key) fun q hq => ?_
      refine ⟨rfl, I.keep hq.2 (some_place hn) ?_⟩
      refine cast (congrArg (fun E => Has L (fun _ => none) E q.2.objs) ?_) hq.1
      rw [elems_place]
      funext b j
      simp only [put2, row]
      by_cases hb : b = n
      · subst hb
        by_cases hj : j = k
        · subst hj; simp [valsOf_lt _ hk]
        · simp only [hj, and_false, if_false, if_true, elemsOf, hn, Option.bind_some]
          simp [valsOf, hj]
      · simp [hb]
    · cases hc
  | size =>
    cases hc
    simp only [acall, Prog.bind_run, theArray_run I hn, Out.bind_ok]
    refine ⟨rfl, I.keep rfl (some_place hn) ?_⟩
    rw [elems_place, ← elems_row hn]
    exact I.inv

/-- an index that is too large -/
theorem index_panics {w : AWorld σ} (I : ALaw L B w) {i k : Nat} {x : Fin N → V} (hi : B i = some x) (hk : N ≤ k) (c : S.Call) (m : S.Make) :
    nstep (arrayCls C dm N) (.call i (.at k c)) w = .panic ∧ nstep (arrayCls C dm N) (.call i (.set k m)) w = .panic := by
  have h1 : acall C N i (.at k c) w = .panic := by simp [acall, Prog.bind_run, theArray_run I hi, hk, Prog.panic]
  have h2 : acall C N i (.set k m) w = .panic := by simp [acall, Prog.bind_run, theArray_run I hi, hk, Prog.panic]
  constructor
  · show (acall C N i (.at k c) w >>= _) = _
    rw [h1]; rfl
  · show (acall C N i (.set k m) w >>= _) = _
    rw [h2]; rfl

/-- a list that is too long -/
theorem array_too_long {w : AWorld σ} (hd : μ.val dm = some dv) (I : ALaw L B w) {i : Nat} (hi : B i = none) {ms : List S.Make} (hlen : N < ms.length)
    {xs : List V} (hxs : ms.mapM μ.val = some xs) :
    nstep (arrayCls C dm N) (.make i (.list ms)) w = .panic ∨ nstep (arrayCls C dm N) (.make i (.list ms)) w = .oom := by
  have s1 := atemps_ok (L := L) (E := row (elemsOf B) i (fun _ => none)) hxs (s := w.objs) (by rw [← elems_row_none hi]; exact I.inv)
  simp only [nstep, arrayCls, Prog.bind_run, inArrays, amake]
  generalize atemps C ms w.objs = o at s1 ⊢
  cases o with
  | ok q =>
    have s2 := adefault_ok (N := N) hd s1
    simp only [Out.bind_ok]
    generalize adefault C dm N i q.2 = o at s2 ⊢
    cases o with
    | ok q =>
      left
      simp only [Out.bind_ok, if_pos hlen]
      rfl
    | oom => exact .inr rfl
    | _ => exact s2.elim
  | oom => exact .inr rfl
  | _ => exact s1.elim

/-- Arrays of objects that keep their promises keep theirs, if a default-constructed object may be move-assigned to. -/
def arrayLaw (N : Nat) (dm : S.Make) (dv : V) (L : Law C μ) (hd : μ.val dm = some dv) (hmv : ∀ x, μ.mvInto dv x = true) :
    Law (arrayCls C dm N) (arrayMeaning μ dv N) where
  Inv := ALaw L
  start := ⟨fun _ => rfl, cast (congrArg (fun E => L.Inv E C.start) (by funext m; simp only [comb, elemsOf]; split <;> rfl)) L.start⟩
  make {A s n m x} I hn hm := by
    refine Out.Safe.bind (inArrays_ok (amake_ok (i := n) (E := elemsOf A) hd hmv hm (by rw [← elems_row_none hn]; exact I.inv))) fun q hq => ?_
    exact ALaw.set (fun b => by rw [hq.2, I.alive]) rfl (by rw [elems_place]; exact hq.1)
  copy {A s d e x} I hd' he hok := by
    have hne : d ≠ e := by rintro rfl; rw [hd'] at he; cases he
    have hok : ∀ k, μ.cpOk (x k) = true := by simpa [arrayMeaning] using hok
    simp only [arrayCls, Prog.bind_run, theArray_run I he, Out.bind_ok]
    refine Out.Safe.bind (inArrays_ok (acopy_ok (E := elemsOf A) hne (by rw [← elems_row he, ← elems_row_none hd']; exact I.inv) hok)) fun q hq => ?_
    refine ALaw.set (fun b => by rw [hq.2, I.alive]) rfl ?_
    rw [elems_place]
    have := hq.1
    rw [← elems_row he] at this
    exact this
  copyDead {A s d e} I he := by
    simp [arrayCls, Prog.bind_run, theArray, I.alive, he]
  move {A s d e x} I hd' he := by
    have hne : d ≠ e := by rintro rfl; rw [hd'] at he; cases he
    simp only [arrayCls, Prog.bind_run, theArray_run I he, Out.bind_ok]
    refine Out.Safe.bind (inArrays_ok (adefault_ok (i := d) (E := elemsOf A) (N := N) hd (by rw [← elems_row_none hd']; exact I.inv))) fun q hq => ?_
    refine Out.Safe.bind (inArrays_ok (amoveAssign_ok (E := elemsOf A) (x := x) hne (by rw [← elems_row he]; exact hq.1) fun k => hmv _)) fun p hp => ?_
    show ALaw L _ _
    refine ⟨fun j => ?_, ?_⟩
    · simp only [hp.2, hq.2, I.alive]
      by_cases h1 : j = e
      · subst h1; simp [place, he]
      · by_cases h2 : j = d
        · subst h2; simp [place, h1]
        · simp [place, h1, h2]
    · rw [elems_place, elems_place, row_comm hne]
      exact hp.1
  copyAssign {A s d e t x} I hne hd' he hok hin := by
    have hok : ∀ k, μ.cpOk (x k) = true := by simpa [arrayMeaning] using hok
    have hin : ∀ k, μ.cpInto (t k) (x k) = true := by simpa [arrayMeaning] using hin
    simp only [arrayCls, Prog.bind_run, theArray_run I he, theArray_run I hd', Out.bind_ok, if_neg hne]
    refine Out.Safe.mono (inArrays_ok (acopyAssign_ok (E := elemsOf A) hne (by rw [← elems_row he, ← elems_row hd']; exact I.inv) hok hin)) fun q hq => ?_
    refine I.keep hq.2 (some_place hd') ?_
    rw [elems_place]
    have := hq.1
    rw [← elems_row he] at this
    exact this
  copySelf {A s d t} I hd' hok := by
    simp only [arrayCls, Prog.bind_run, theArray_run I hd', Out.bind_ok, if_true]
    exact I
  moveAssign {A s d e t x} I hne hd' he hin := by
    have hin : ∀ k, μ.mvInto (t k) (x k) = true := by simpa [arrayMeaning] using hin
    simp only [arrayCls, Prog.bind_run, theArray_run I he, theArray_run I hd', Out.bind_ok, if_neg hne]
    refine Out.Safe.mono (inArrays_ok (amoveAssign_ok (E := elemsOf A) hne (by rw [← elems_row he, ← elems_row hd']; exact I.inv) hin)) fun q hq => ?_
    refine I.keep hq.2 (fun b => ?_) ?_
    · rw [some_place (x := x) (by rw [place_ne _ _ (Ne.symm hne)]; exact he), some_place hd']
    · rw [elems_place, elems_place, row_comm hne]
      exact hq.1
  moveSelf {A s d t} I hd' := by
    simp only [arrayCls, Prog.bind_run, theArray_run I hd', Out.bind_ok, if_true]
    exact I
  drop {A s n x} I hn := by
    simp only [arrayCls, Prog.bind_run, theArray_run I hn, Out.bind_ok]
    refine Out.Safe.bind (inArrays_ok (adrop_ok (E := elemsOf A) (i := n) (x := x) (by rw [← elems_row hn]; exact I.inv))) fun q hq => ?_
    exact ALaw.set (fun b => by rw [hq.2, I.alive]) rfl (by rw [elems_drop]; exact hq.1)
  call I hn hc := acall_ok I hn hc
  newOk {m x} hm := by
    simp only [arrayMeaning, decide_eq_true_eq]
    intro k
    cases m with
    | dflt => cases hm; exact L.newOk hd
    | list ms =>
      simp only [arrayMeaning, aval, Option.ite_none_right_eq_some, Option.map_eq_some_iff] at hm
      obtain ⟨-, xs, hxs, rfl⟩ := hm
      obtain ⟨hl, hget⟩ := mapM_get hxs
      by_cases hk : k.1 < ms.length
      · obtain ⟨y, hy, hx⟩ := hget k.1 hk
        simp only [hx, Option.map_some, Option.getD_some]
        exact L.cpOk (L.newOk hy)
      · simp only [List.getElem?_eq_none (show xs.length ≤ k.1 by omega), Option.map_none, Option.getD_none]
        exact L.newOk hd
    | raw ms =>
      simp only [arrayMeaning, aval, Option.ite_none_right_eq_some, Option.bind_eq_some_iff, Option.some.injEq, List.all_eq_true,
        Bool.and_eq_true] at hm
      obtain ⟨hlen, xs, hxs, hin, rfl⟩ := hm
      obtain ⟨y, hy, hx⟩ := (mapM_get hxs).2 k.1 (by omega)
      simp only [hx, Option.map_some, Option.getD_some]
      exact (hin y (List.mem_of_getElem? hx)).2
  cpOk {x} h := by
    simp only [arrayMeaning, decide_eq_true_eq] at h ⊢
    exact fun k => L.cpOk (h k)
  idle {A s} I hA := L.idle I.inv fun n => by
    simp only [comb, elemsOf, hA]
    split <;> rfl

/-! ## Comparison -/

theorem aeqLoop_ok {eq : Nat → Nat → Prog σ Bool} {g : V → V → Bool} (he : Reads2 L eq g) {A : Nat → Option V} {s : σ} (I : L.Inv A s) {d e : Nat}
    {x y : Fin N → V} (hd : ∀ k (h : k < N), A (slot d k) = some (x ⟨k, h⟩)) (he' : ∀ k (h : k < N), A (slot e k) = some (y ⟨k, h⟩)) (n : Nat) :
    ∀ i, i + n = N → ∃ r, aeqLoop eq d e i n s = .ok (r, s) ∧ (r = true ↔ ∀ k : Fin N, i ≤ k.1 → g (x k) (y k) = true) := by
  induction n with
  | zero => intro i hi; exact ⟨true, rfl, by simp only [true_iff]; intro k hk; omega⟩
  | succ n ih =>
    intro i hi
    have hiN : i < N := by omega
    have h := he A s _ _ _ _ I (hd i hiN) (he' i hiN)
    simp only [aeqLoop, Prog.bind_run, h, Out.bind_ok]
    cases hg : g (x ⟨i, hiN⟩) (y ⟨i, hiN⟩) with
    | false =>
      refine ⟨false, rfl, ?_⟩
      simp only [Bool.false_eq_true, false_iff]
      intro hall
      rw [hall ⟨i, hiN⟩ (Nat.le_refl _)] at hg
      cases hg
    | true =>
      obtain ⟨r, hr, hiff⟩ := ih (i + 1) (by omega)
      refine ⟨r, hr, hiff.trans ⟨fun hall k hk => ?_, fun hall k hk => hall k (by omega)⟩⟩
      by_cases e : k.1 = i
      · have : k = ⟨i, hiN⟩ := Fin.ext e
        rw [this, hg]
      · exact hall k (by omega)

theorem arrayEq_ok {eq : Nat → Nat → Prog σ Bool} {g : V → V → Bool} (he : Reads2 L eq g) {w : AWorld σ} (I : ALaw L B w) {d e : Nat}
    {x y : Fin N → V} (hd : B d = some x) (he' : B e = some y) :
    ∃ r, arrayEq N eq d e w = .ok (r, w) ∧ (r = true ↔ ∀ k, g (x k) (y k) = true) := by
  obtain ⟨r, hr, hiff⟩ := aeqLoop_ok (d := d) (e := e) (x := x) (y := y) he I.inv
    (fun k h => by rw [comb_slot]; simp [elemsOf, hd, valsOf_lt x h]) (fun k h => by rw [comb_slot]; simp [elemsOf, he', valsOf_lt y h]) N 0 (by omega)
  refine ⟨r, ?_, by simpa using hiff⟩
  simp only [arrayEq, Prog.bind_run, theArray_run I hd, theArray_run I he', Out.bind_ok, inArrays, hr]

end Verif.Proof.Nested
