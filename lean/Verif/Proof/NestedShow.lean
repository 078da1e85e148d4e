import Verif.Proof.NestedTower
import Verif.Spec.NestedShow
/-!
# Proofs about printing nested objects
-/
namespace Verif.Proof.Nested
open Verif Verif.Model.Mem Verif.Model.Nested Verif.Spec.Nested Verif.Proof.Mem
open Verif.Model.Vector (Vec)
open Verif.Spec.Vector (Var joinSeq)

variable {S : Sig} {σ V α R : Type} {C : Cls S σ} {μ : Meaning S V} {ty : ElemTy Unit}

/-- the outcome of reading something -/
def readOut {τ : Type} (o : Option R) (s : τ) : Out (R × τ) :=
  match o with
  | some r => .ok (r, s)
  | none => .ub

/-- Reading an object gives `g` of its value, undefined if there is none, and changes nothing. -/
def Reads1 (L : Law C μ) (f : Nat → Prog σ R) (g : V → Option R) : Prop :=
  ∀ A s d x, L.Inv A s → A d = some x → f d s = readOut (g x) s

theorem mapM_len {A B : Type} {g : A → Option B} {xs : List A} {ys : List B} (h : xs.mapM g = some ys) : ys.length = xs.length := by
  induction xs generalizing ys with
  | nil => simp at h; subst h; rfl
  | cons x xs ih =>
    simp only [List.mapM_cons, Option.bind_eq_bind, Option.bind_eq_some_iff] at h
    obtain ⟨y, -, zs, hz, h⟩ := h
    cases h
    simp [ih hz]

section
variable {L : Law C μ} {s : St σ} {A : Nat → Option V} {l : Vec} {xs : List V}

theorem vshowLoop_ok {shw : Nat → Prog σ String} {g : V → Option String} (he : Reads1 L shw g) (I : L.Inv A s.objs)
    (rp : NRep ty s A l xs) (zs ts : List V) (hx : xs = zs ++ ts) :
    vshowLoop shw l zs.length ts.length s = readOut ((ts.mapM g).map joinSeq) s := by
  induction ts generalizing zs with
  | nil => rfl
  | cons t ts ih =>
    obtain ⟨b, hp, hA⟩ := rp.elem (k := zs.length) (x := t) (by rw [hx]; simp)
    have ea : address l.ptr zs.length s = .ok (slot b zs.length, s) := by simp only [hp, address]; rfl
    have := ih (zs ++ [t]) (by simp [hx])
    simp only [List.length_append, List.length_cons, List.length_nil, Nat.zero_add] at this
    have hl : l.len = zs.length + 1 + ts.length := by rw [rp.len, hx]; simp; omega
    have hcl := rp.own.own.cap_lt
    have hle := rp.le
    rw [← rp.len] at hle
    have hW : wordSize = 18446744073709551616 := rfl
    have hw : wsub l.len 1 = zs.length + ts.length := by rw [wsub_of_le (by omega) (by omega)]; omega
    simp only [List.length_cons, vshowLoop, Prog.bind_run, ea, Out.bind_ok, inObjs, he _ _ _ _ I hA]
    cases hg : g t with
    | none => simp [hg, readOut, Out.bind_ub]
    | some u =>
      simp only [readOut, Out.bind_ok, this]
      cases hm : ts.mapM g with
      | none => simp [hg, hm, readOut, Out.bind_ub]
      | some us =>
        have hlen : us.length = ts.length := by
          exact mapM_len hm
        simp only [Option.map_some, readOut, Out.bind_ok, Prog.pure_run, hw, List.mapM_cons, hg, hm]
        cases us with
        | nil =>
          have : ts.length = 0 := by rw [← hlen]; rfl
          simp [joinSeq, this]
        | cons u' us =>
          rw [if_pos (by simp at hlen; omega)]
          simp [joinSeq]

end

theorem vectorShow_reads (L : Law C μ) {shw : Nat → Prog σ String} {g : V → Option String} (he : Reads1 L shw g) :
    Reads1 (vectorLaw ty L) (vectorShow shw) fun v => (v.xs.mapM g).map (bracketed "Vec") := by
  rintro B w d a ⟨A, I⟩ hd
  obtain ⟨v, hv, rv, -⟩ := I.get hd
  simp only [vectorShow, Prog.bind_run, run_obj hv, Out.bind_ok]
  rw [rv.len, run_inSt]
  have := vshowLoop_ok he I.ns.inv rv [] a.xs rfl
  simp only [List.length_nil] at this
  rw [this]
  cases a.xs.mapM g <;> rfl

theorem valueShow_reads (ety : ElemTy α) (shw : α → String) :
    Reads1 (valueLaw ety) (valueShow shw) fun v => some (bracketed "Vec" (v.xs.map shw)) := by
  intro B w d a I hd
  obtain ⟨v, hv, rv, -⟩ := Vector.Inv.get I hd
  simp only [valueShow, Prog.bind_run, Vector.run_var hv, Out.bind_ok, Vector.inHeap_run, Vector.print_ok shw rv]
  rfl

theorem joinSeq_eq : (ss : List String) → Spec.LL.joinSeq ss = joinSeq ss
  | [] => rfl
  | [_] => rfl
  | s :: t :: ss => congrArg (s ++ ", " ++ ·) (joinSeq_eq (t :: ss))

theorem name_open (dbl : Bool) : (if dbl then "List [" else "ForwardList [") = listName dbl ++ " [" := by cases dbl <;> rfl

theorem listShow_reads (cfg : Model.LL.Cfg α) (shw : α → String) :
    Reads1 (listLaw cfg) (listShow cfg shw) fun v => v.items.map fun xs => bracketed (listName cfg.dbl) (xs.map shw) := by
  rintro B w d a ⟨G, I, rfl⟩ hd
  simp only [LL.ideal, Option.map_eq_some_iff] at hd
  obtain ⟨⟨body, own⟩, ho, rfl⟩ := hd
  have hv := I.vars d
  rw [ho] at hv
  have hok := I.ok d _ ho
  have hv' : Model.LL.var d w = .ok (LL.Obj.fields ⟨body, own⟩, w) := by simp only [Model.LL.var, hv]; rfl
  simp only [listShow, Prog.bind_run, hv', Out.bind_ok, Model.LL.inHeap]
  match body with
  | none => rfl
  | some (hd, tl, cs) =>
    have := LL.print_ok shw (show LL.Rep cfg w.heap hd tl cs own from hok)
    rw [name_open, joinSeq_eq] at this
    show (Model.LL.print cfg shw (LL.lst hd tl cs own) w.heap >>= _) = _
    rw [this]
    rfl

/-! ## Linked lists of objects -/

section
variable {H : Model.LL.Heap V} {cfg : Model.LL.Cfg V}

theorem bare_getNext {p q : Model.LL.Ptr} (h : Model.LL.getNext p H = .ok (q, H)) : Model.LL.getNext p (bareHeap H) = .ok (q, bareHeap H) := by
  cases p with
  | none => cases h
  | some a =>
    unfold Model.LL.getNext Model.LL.withNode at h ⊢
    cases hi : H.info a with
    | none => simp [hi] at h
    | some i =>
      simp only [hi] at h
      simp only [bareHeap, bareInfo, hi, Option.map_some]
      cases hn : H.nxt a with
      | none => simp [hn] at h
      | some r => simp [hn] at h ⊢; exact h

theorem load_elems {a : Nat} {x : V} (h : Model.LL.load (some a) H = .ok (x, H)) : elems H a = some x := by
  unfold Model.LL.load Model.LL.withNode at h
  unfold elems
  cases hi : H.info a with
  | none => simp [hi] at h
  | some i =>
    obtain ⟨o, b, dt⟩ := i
    cases dt <;> simp [hi] at h
    subst h
    rfl

variable {L : Law C μ} {T : Nat → Option V} {s : LSt σ} {hd tl own : Nat} {c1 c2 cs : LL.Cells V}

theorem inNodes_getNext (hb : s.nodes = bareHeap H) {p q : Model.LL.Ptr} (h : Model.LL.getNext p H = .ok (q, H)) :
    inNodes (Model.LL.getNext p) s = .ok (q, s) := by
  simp only [inNodes, hb, bare_getNext h, Out.bind_ok]
  rw [← hb]

theorem lshowLoop_ok {shw : Nat → Prog σ String} {g : V → Option String} (he : Reads1 L shw g) (er : ElemRel L T s H)
    (r : LL.Rep cfg H hd tl (c1 ++ c2) own) (out : String) :
    lshowLoop shw (c1 ++ c2).length (some tl) (some (LL.headOf tl c2)) c1.length out s =
      readOut (((LL.vals c2).mapM g).map fun us => out ++ joinSeq us) s := by
  induction c2 generalizing c1 out with
  | nil => rw [lshowLoop, LL.headOf_nil, if_pos rfl]; simp [joinSeq, LL.vals, readOut]
  | cons c c2 ih =>
    have hne : some c.1 ≠ some tl := by simpa using r.head_ne_tl
    have hx : elems H c.1 = some c.2 := load_elems (r.load_cell (c := c) (by simp))
    rw [lshowLoop, LL.headOf_cons, if_neg hne]
    simp only [Prog.bind_run, dataOf, Prog.pure_run, Out.bind_ok, inElems, he _ _ (cell c.1) c.2 er.inv (by rw [glue_cell]; exact hx)]
    have hv : LL.vals (c :: c2) = c.2 :: LL.vals c2 := rfl
    rw [hv]
    cases hg : g c.2 with
    | none => simp [hg, readOut, Out.bind_ub]
    | some u =>
      simp only [readOut, Out.bind_ok]
      rw [show ({ nodes := s.nodes, objs := s.objs } : LSt σ) = s from rfl, inNodes_getNext er.bare r.getNext_cell, Out.bind_ok]
      have := ih r.cons_mid (if c1.length ≠ Model.LL.dec (c1 ++ c :: c2).length then out ++ u ++ ", " else out ++ u)
      rw [show c1 ++ c :: c2 = (c1 ++ [c]) ++ c2 by simp, show c1.length + 1 = (c1 ++ [c]).length by simp]
      rw [show c1 ++ c :: c2 = (c1 ++ [c]) ++ c2 by simp] at this
      rw [this]
      cases hm : (LL.vals c2).mapM g with
      | none => simp [hg, hm, readOut]
      | some us =>
        have hlen : us.length = c2.length := by
          simpa [LL.vals] using mapM_len hm
        simp only [List.mapM_cons, hg, hm]
        cases us with
        | nil =>
          have : c2 = [] := List.length_eq_zero_iff.1 (by rw [← hlen]; rfl)
          subst this
          simp [Model.LL.dec, joinSeq, readOut]
        | cons u' us =>
          have : c1.length ≠ Model.LL.dec (c1 ++ [c] ++ c2).length := by
            have h1 : c2.length = us.length + 1 := by rw [← hlen]; rfl
            have : (c1 ++ [c] ++ c2).length = (c1.length + 1 + us.length) + 1 := by simp [h1]; omega
            rw [this, LL.dec_length]; omega
          rw [if_pos this]
          simp [joinSeq, readOut, String.append_assoc]

end

theorem linkedShow_reads (cfg : Model.LL.Cfg Unit) (x0 : V) (L : Law C μ) {shw : Nat → Prog σ String} {g : V → Option String} (he : Reads1 L shw g) :
    Reads1 (linkedLaw cfg x0 L) (linkedShow cfg.dbl shw) fun v => v.items.bind fun xs => (xs.mapM g).map (bracketed (listName cfg.dbl)) := by
  rintro B w d a ⟨W, hr, G, I, rfl⟩ hd
  simp only [LL.ideal, Option.map_eq_some_iff] at hd
  obtain ⟨⟨body, own⟩, ho, rfl⟩ := hd
  have hv := I.vars d
  rw [ho, ← hr.2] at hv
  have hok := I.ok d _ ho
  have hv' : lobj d w = .ok (LL.Obj.fields ⟨body, own⟩, w) := by simp only [lobj, hv]; rfl
  simp only [linkedShow, Prog.bind_run, hv', Out.bind_ok]
  match body with
  | none => rfl
  | some (hd, tl, cs) =>
    have rp : LL.Rep (valued cfg x0) W.heap hd tl cs own := hok
    have h1 := inNodes_getNext hr.1.bare rp.getNext_hd
    have h2 := lshowLoop_ok (c1 := []) (c2 := cs) he hr.1 rp (if cfg.dbl then "List [" else "ForwardList [")
    simp only [List.nil_append, List.length_nil] at h2
    simp only [inLSt, LL.Obj.fields, LL.lst, h1, Out.bind_ok, h2, LL.Obj.value, Option.map_some, Option.bind_some]
    rw [name_open]
    cases (LL.vals cs).mapM g <;> rfl

theorem showAt_reads (shw : α → String) : (c : Printed α) → Reads1 (law c.shape) (showAt shw c) (written shw c)
  | .values ety => valueShow_reads ety shw
  | .lists cfg => listShow_reads cfg shw
  | .vector _ c => vectorShow_reads (law c.shape) (showAt_reads shw c)
  | .linked cfg c => linkedShow_reads cfg (blank c.shape) (law c.shape) (showAt_reads shw c)

end Verif.Proof.Nested
