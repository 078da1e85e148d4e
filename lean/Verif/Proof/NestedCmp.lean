import Verif.Proof.NestedResult
import Verif.Spec.NestedCmp
/-!
# Proofs about comparing nested objects
-/
namespace Verif.Proof.Nested
open Verif Verif.Model.Mem Verif.Model.Nested Verif.Spec.Nested Verif.Proof.Mem
open Verif.Model.Vector (Vec)
open Verif.Spec.Vector (Var eqSeq lexSeq)

variable {S : Sig} {σ V ε α R : Type} {C : Cls S σ} {μ : Meaning S V} {ty : ElemTy Unit}

/-- Reading two objects gives `g` of their values, and changes nothing. -/
def Reads2 (L : Law C μ) (f : Nat → Nat → Prog σ R) (g : V → V → R) : Prop :=
  ∀ A s d e x y, L.Inv A s → A d = some x → A e = some y → f d e s = .ok (g x y, s)

section
variable {L : Law C μ} {s : St σ} {A : Nat → Option V} {l r : Vec} {xs ys : List V}

theorem elem_address (rl : NRep ty s A l xs) {k : Nat} {x : V} (hk : xs[k]? = some x) :
    ∃ a, address l.ptr k s = .ok (a, s) ∧ A a = some x := by
  obtain ⟨b, hp, hA⟩ := rl.elem hk
  exact ⟨slot b k, by simp only [hp, address]; rfl, hA⟩

theorem inObjs_read {β : Type} {f : Prog σ β} {b : β} (h : f s.objs = .ok (b, s.objs)) : inObjs f s = .ok (b, s) := by
  simp only [inObjs, h, Out.bind_ok]

theorem focus (zs : List V) (t : V) (ts : List V) : (zs ++ t :: ts)[zs.length]? = some t := by simp

theorem veqLoop_ok {eq : Nat → Nat → Prog σ Bool} {g : V → V → Bool} (he : Reads2 L eq g) (I : L.Inv A s.objs)
    (rl : NRep ty s A l xs) (rr : NRep ty s A r ys) (zs ts zs' ts' : List V) (hx : xs = zs ++ ts) (hy : ys = zs' ++ ts')
    (hz : zs.length = zs'.length) (ht : ts.length = ts'.length) : veqLoop eq l r zs.length ts.length s = .ok (eqSeq g ts ts', s) := by
  induction ts generalizing zs zs' ts' with
  | nil =>
    have : ts' = [] := List.length_eq_zero_iff.1 ht.symm
    subst this
    rfl
  | cons t ts ih =>
    cases ts' with
    | nil => simp at ht
    | cons t' ts' =>
      obtain ⟨a, ea, ha⟩ := elem_address rl (k := zs.length) (x := t) (by rw [hx]; exact focus _ _ _)
      obtain ⟨b, eb, hb⟩ := elem_address rr (k := zs.length) (x := t') (by rw [hy, hz]; exact focus _ _ _)
      simp only [List.length_cons, veqLoop, Prog.bind_run, ea, eb, Out.bind_ok, inObjs_read (he _ _ _ _ _ _ I ha hb), eqSeq]
      have := ih (zs ++ [t]) (zs' ++ [t']) ts' (by simp [hx]) (by simp [hy]) (by simp [hz]) (by simpa using ht)
      simp only [List.length_append, List.length_cons, List.length_nil, Nat.zero_add] at this
      cases g t t' with
      | true => simpa using this
      | false => simp

theorem vcmpLoop_ok {cmp : Nat → Nat → Prog σ (Option Ordering)} {g : V → V → Option Ordering} (he : Reads2 L cmp g) (I : L.Inv A s.objs)
    (rl : NRep ty s A l xs) (rr : NRep ty s A r ys) (zs ts zs' ts' : List V) (hx : xs = zs ++ ts) (hy : ys = zs' ++ ts')
    (hz : zs.length = zs'.length) : vcmpLoop cmp l r zs.length (min ts.length ts'.length) s = .ok (lexSeq g ts ts', s) := by
  induction ts generalizing zs zs' ts' with
  | nil =>
    have h1 : l.len = zs.length := by rw [rl.len, hx]; simp
    have h2 : r.len = zs'.length + ts'.length := by rw [rr.len, hy]; simp
    simp only [List.length_nil, Nat.zero_min, vcmpLoop, Prog.pure_run, h1, h2, hz]
    cases ts' with
    | nil => simp [lexSeq]
    | cons t' ts' =>
      simp only [lexSeq]
      rw [Nat.compare_eq_lt.2 (by simp)]
  | cons t ts ih =>
    cases ts' with
    | nil =>
      have h1 : l.len = zs.length + (ts.length + 1) := by rw [rl.len, hx]; simp
      have h2 : r.len = zs'.length := by rw [rr.len, hy]; simp
      simp only [List.length_nil, Nat.min_zero, vcmpLoop, Prog.pure_run, h1, h2, hz, lexSeq]
      rw [Nat.compare_eq_gt.2 (by omega)]
    | cons t' ts' =>
      obtain ⟨a, ea, ha⟩ := elem_address rl (k := zs.length) (x := t) (by rw [hx]; exact focus _ _ _)
      obtain ⟨b, eb, hb⟩ := elem_address rr (k := zs.length) (x := t') (by rw [hy, hz]; exact focus _ _ _)
      have := ih (zs ++ [t]) (zs' ++ [t']) ts' (by simp [hx]) (by simp [hy]) (by simp [hz])
      simp only [List.length_append, List.length_cons, List.length_nil, Nat.zero_add] at this
      rw [show min (t :: ts).length (t' :: ts').length = min ts.length ts'.length + 1 by simp]
      simp only [vcmpLoop, Prog.bind_run, ea, eb, Out.bind_ok, inObjs_read (he _ _ _ _ _ _ I ha hb), lexSeq]
      by_cases hc : g t t' = some .eq
      · rw [if_pos hc, if_pos hc]; exact this
      · rw [if_neg hc, if_neg hc]; rfl

end

theorem vectorEq_reads (L : Law C μ) {eq : Nat → Nat → Prog σ Bool} {g : V → V → Bool} (he : Reads2 L eq g) :
    Reads2 (vectorLaw ty L) (vectorEq eq) fun v w => eqSeq g v.xs w.xs := by
  rintro B w d e a a' ⟨A, I⟩ hd he'
  obtain ⟨v, hv, rv, -⟩ := I.get hd
  obtain ⟨u, hu, ru, -⟩ := I.get he'
  simp only [vectorEq, Prog.bind_run, run_obj hv, run_obj hu, Out.bind_ok]
  rw [rv.len, ru.len]
  by_cases hl : a.xs.length = a'.xs.length
  · rw [if_neg (by simp [hl]), run_inSt]
    have := veqLoop_ok he I.ns.inv rv ru [] a.xs [] a'.xs rfl rfl rfl hl
    simp only [List.length_nil] at this
    rw [this]; rfl
  · rw [if_pos hl]
    have : eqSeq g a.xs a'.xs = false := by
      cases h : eqSeq g a.xs a'.xs with
      | false => rfl
      | true => exact absurd (Proof.Vector.eqSeq_length h) hl
    rw [this]; rfl

theorem vectorCmp_reads (L : Law C μ) {cmp : Nat → Nat → Prog σ (Option Ordering)} {g : V → V → Option Ordering} (he : Reads2 L cmp g) :
    Reads2 (vectorLaw ty L) (vectorCmp cmp) fun v w => lexSeq g v.xs w.xs := by
  rintro B w d e a a' ⟨A, I⟩ hd he'
  obtain ⟨v, hv, rv, -⟩ := I.get hd
  obtain ⟨u, hu, ru, -⟩ := I.get he'
  simp only [vectorCmp, Prog.bind_run, run_obj hv, run_obj hu, Out.bind_ok]
  rw [rv.len, ru.len, run_inSt]
  have := vcmpLoop_ok he I.ns.inv rv ru [] a.xs [] a'.xs rfl rfl rfl
  simp only [List.length_nil] at this
  rw [this]; rfl

theorem resultEq_reads (L : Law C μ) (eqE : ε → ε → Bool) {eq : Nat → Nat → Prog σ Bool} {g : V → V → Bool} (he : Reads2 L eq g) :
    Reads2 (resultLaw ε L) (resultEq eqE eq) (eqKinds eqE g) := by
  intro B w d e a a' I hd he'
  have I' : RLaw L B w := I
  cases a with
  | ok x =>
    cases a' with
    | ok y =>
      simp only [resultEq, Prog.bind_run, typeOf_run I' (typesOf_ok hd), typeOf_run I' (typesOf_ok he'), Out.bind_ok, ne_eq, not_true_eq_false, if_false, if_true, inOk]
      have := he _ _ (cell d) (cell e) _ _ I'.inv (by rw [glue_cell]; exact valuesOf_ok hd) (by rw [glue_cell]; exact valuesOf_ok he')
      simp only [this, eqKinds, Out.bind_ok]
    | error y =>
      simp only [resultEq, Prog.bind_run, typeOf_run I' (typesOf_ok hd), typeOf_run I' (typesOf_err he'), Out.bind_ok]
      rfl
  | error x =>
    cases a' with
    | ok y =>
      simp only [resultEq, Prog.bind_run, typeOf_run I' (typesOf_err hd), typeOf_run I' (typesOf_ok he'), Out.bind_ok]
      rfl
    | error y =>
      simp only [resultEq, Prog.bind_run, typeOf_run I' (typesOf_err hd), typeOf_run I' (typesOf_err he'), Out.bind_ok, ne_eq, not_true_eq_false, if_false, Bool.false_eq_true, errOf_run I' (errorsOf_err hd),
        errOf_run I' (errorsOf_err he')]
      rfl

theorem valueEq_reads (ety : ElemTy α) (eq : α → α → Bool) : Reads2 (valueLaw ety) (valueEq eq) fun v w => eqSeq eq v.xs w.xs := by
  intro B w d e a a' I hd he
  obtain ⟨v, hv, rv, -⟩ := Vector.Inv.get I hd
  obtain ⟨u, hu, ru, -⟩ := Vector.Inv.get I he
  simp only [valueEq, Prog.bind_run, Vector.run_var hv, Vector.run_var hu, Out.bind_ok, Vector.inHeap_run, Vector.equal_ok eq rv ru]

theorem valueCmp_reads (ety : ElemTy α) (cmp : α → α → Option Ordering) :
    Reads2 (valueLaw ety) (valueCmp cmp) fun v w => lexSeq cmp v.xs w.xs := by
  intro B w d e a a' I hd he
  obtain ⟨v, hv, rv, -⟩ := Vector.Inv.get I hd
  obtain ⟨u, hu, ru, -⟩ := Vector.Inv.get I he
  simp only [valueCmp, Prog.bind_run, Vector.run_var hv, Vector.run_var hu, Out.bind_ok, Vector.inHeap_run, Vector.threeWay_ok cmp rv ru]

theorem eqAt_reads (eqA : α → α → Bool) (eqE : ε → ε → Bool) : (c : Equated α) → Reads2 (flaw ε c.full) (eqAt eqA eqE c) (eqVal eqA eqE c)
  | .values ety => valueEq_reads ety eqA
  | .vector _ c => vectorEq_reads (flaw ε c.full) (eqAt_reads eqA eqE c)
  | .result c => resultEq_reads (flaw ε c.full) eqE (eqAt_reads eqA eqE c)

/-- the order is that of the contents -/
theorem lexSeq_map {W : Type} {g : V → V → Option Ordering} {o : W → W → Option Ordering} {n : V → W} (h : ∀ x y, g x y = o (n x) (n y)) :
    ∀ xs ys : List V, lexSeq g xs ys = lexSeq o (xs.map n) (ys.map n)
  | [], [] => rfl
  | [], _ :: _ => rfl
  | _ :: _, [] => rfl
  | x :: xs, y :: ys => by simp only [lexSeq, List.map_cons, h x y, lexSeq_map h xs ys]

theorem cmpAt_reads (cmp : α → α → Option Ordering) : (c : Ordered α) →
    Reads2 (flaw ε c.full) (cmpAt ε cmp c) fun x y => order cmp c (nest c x) (nest c y)
  | .values ety => valueCmp_reads ety cmp
  | .vector ty c => by
    have h := vectorCmp_reads (ty := ty) (flaw ε c.full) (cmpAt_reads cmp c)
    intro A s d e x y I hd he
    exact (h _ _ _ _ _ _ I hd he).trans (congrArg (fun o => Out.ok (o, s)) (lexSeq_map (o := order cmp c) (n := nest c) (fun _ _ => rfl) _ _))

end Verif.Proof.Nested
