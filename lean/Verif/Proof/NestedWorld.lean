import Verif.Proof.NestedInsert
/-! # Nested vectors: the class of vectors of objects keeps its promises if the class of the objects does -/
namespace Verif.Proof.Nested
open Verif Verif.Model.Mem Verif.Proof.Mem Verif.Model.Nested Verif.Spec.Nested
open Verif.Model.Vector (Vec Vec.blank dfltAlloc moveImpl bindVar)
open Verif.Spec.Vector (Var)
open Verif.Proof.Vector (ptrs mem_ptrs bindVar_same bindVar_ne)

variable {S : Sig} {σ V : Type} {C : Cls S σ} {μ : Meaning S V} {L : Law C μ} {ty : ElemTy Unit}

/-! ## Statements with temporaries -/

section
variable {s : St σ} {A : Nat → Option V}

theorem NOwn.temps {s1 : St σ} {A1 : Nat → Option V} {p : Option Nat} {cap al : Nat} {ol : List (Option V)}
    (o : NOwn ty s.heap A p cap al ol) (h : s1.heap = s.heap) (hf : ∀ m, (∀ j, m ≠ temp j) → A1 m = A m) :
    NOwn ty s1.heap A1 p cap al ol :=
  ⟨by rw [h]; exact o.own, fun b hb k => by rw [hf _ fun j e => temp_ne_slot _ _ _ e.symm]; exact o.cells b hb k⟩

theorem NRep.temps {s1 : St σ} {A1 : Nat → Option V} {v : Vec} {xs : List V} (r : NRep ty s A v xs) (h : s1.heap = s.heap)
    (hf : ∀ m, (∀ j, m ≠ temp j) → A1 m = A m) : NRep ty s1 A1 v xs := ⟨r.len, r.own.temps h hf⟩

theorem wrapTemps {s1 s2 s3 : St σ} {A1 A2 A3 : Nat → Option V} {p : Option Nat} {ys : List V} {cap al : Nat} {v : Vec}
    {ts : List Nat} (free : ∀ j, A (temp j) = none) (h1 : s1.heap = s.heap)
    (hf1 : ∀ m, (∀ j, m ≠ temp j) → A1 m = A m) (t : NTo L ty s1 A1 p ys cap al v s2 A2 ts)
    (hts : ∀ t, t ∈ ts → ∃ j, t = temp j) (n3 : NS L s3 A3) (h3 : s3.heap = s2.heap)
    (hf3 : ∀ m, (∀ j, m ≠ temp j) → A3 m = A2 m) (hz : ∀ j, A3 (temp j) = none) :
    NTo L ty s A p ys cap al v s3 A3 [] := by
  obtain ⟨k, st⟩ := t.step.step
  refine ⟨t.rep.temps h3 hf3, n3, ⟨⟨k, by rw [h3, ← h1]; exact st⟩, fun m hm _ => ?_⟩, t.cap, t.alloc⟩
  by_cases hj : ∃ j, m = temp j
  · obtain ⟨j, rfl⟩ := hj
    rw [hz, free]
  · have hn : ∀ j, m ≠ temp j := fun j e => hj ⟨j, e⟩
    rw [hf3 m hn, t.step.frame m hm (fun hx => hj (hts m hx)), hf1 m hn]

/-- a statement with one temporary -/
theorem withTemp_ok {m : S.Make} {x : V} {p : Option Nat} {ys : List V} {cap al : Nat} {f : Nat → Prog (St σ) Vec}
    (n : NS L s A) (free : ∀ j, A (temp j) = none) (hm : μ.val m = some x)
    (hf : ∀ s1 A1, NS L s1 A1 → s1.heap = s.heap → (∀ m, (∀ j, m ≠ temp j) → A1 m = A m) → A1 (temp 0) = some x →
      (∀ j, j ≠ 0 → A1 (temp j) = none) → (f (temp 0) s1).Safe fun q => ∃ A2 ts, NTo L ty s1 A1 p ys cap al q.1 q.2 A2 ts ∧ (∀ t, t ∈ ts → t = temp 0) ∧
        A2 (temp 0) ≠ none) :
    (withTemp C m f s).Safe fun q => ∃ A', NTo L ty s A p ys cap al q.1 q.2 A' [] := by
  simp only [withTemp, Prog.bind_run]
  apply (makeTemps_ok [m] (xs := [x]) (k := 0) n (by simp [hm]) fun j _ => free j).bind
  rintro ⟨_, s1⟩ ⟨A1, n1, h1, hv, hf1⟩
  simp only at n1 h1 hv hf1 ⊢
  have hf1' : ∀ m, (∀ j, m ≠ temp j) → A1 m = A m := fun m hm => hf1 m fun j _ _ => hm j
  apply (hf s1 A1 n1 h1 hf1' (hv 0 x rfl) fun j hj => by
    rw [hf1 _ (by intro i _ hi e; have := temp_inj e; simp at hi; omega), free]).bind
  rintro ⟨v, s2⟩ ⟨A2, ts, t2, hts, hne⟩
  simp only at t2 hne ⊢
  apply (dropTemps_ok 1 t2.ns (by intro j hj; obtain rfl : j = 0 := (by omega); exact hne)).bind
  rintro ⟨_, s3⟩ ⟨A3, n3, h3, hz, hf3⟩
  refine ⟨A3, wrapTemps free h1 hf1' t2 (fun t ht => ⟨0, hts t ht⟩) n3 h3 (fun m hm => hf3 m fun j _ => hm j) ?_⟩
  intro j
  by_cases hj : j = 0
  · subst hj; exact hz 0 (by omega)
  · rw [hf3 _ (by intro i hi e; have := temp_inj e; omega), frame_temp t2.step (by intro h; have := temp_inj (hts _ h); omega),
      hf1 _ (by intro i _ hi e; have := temp_inj e; simp at hi; omega), free]

/-- a call with a parameter passed by value -/
theorem withParam_ok {x : V} {p : Option Nat} {ys : List V} {cap al : Nat} {init : Nat → Prog σ Unit} {f : Nat → Prog (St σ) Vec}
    {A1 : Nat → Option V} {ts : List Nat} (n : NS L s A) (free : A (temp 1) = none)
    (hinit : (init (temp 1) s.objs).Safe fun q => L.Inv A1 q.2) (hA1 : ∀ m, m ≠ temp 1 → m ∉ ts → A1 m = A m)
    (hts : ∀ t, t ∈ ts → ∃ j, t = temp j ∧ j ≠ 1) (hx : A1 (temp 1) = some x)
    (hf : ∀ s1, NS L s1 A1 → s1.heap = s.heap → (f (temp 1) s1).Safe fun q => ∃ A2, NTo L ty s1 A1 p ys cap al q.1 q.2 A2 [temp 1] ∧
      A2 (temp 1) ≠ none) :
    (withParam C init f s).Safe fun q => ∃ A3, NTo L ty s A p ys cap al q.1 q.2 A3 ts ∧ ∀ t, t ∈ ts → A3 t = A1 t := by
  simp only [withParam, Prog.bind_run, run_inObjs]
  refine Out.Safe.bind (P := fun q => NS L q.2 A1 ∧ q.2.heap = s.heap) (hinit.bind fun q hq => ⟨n.objs hq fun b k _ => hA1 _
    (fun e => temp_ne_slot _ _ _ e.symm) (fun hm => by obtain ⟨j, e, _⟩ := hts _ hm; exact temp_ne_slot _ _ _ e.symm), rfl⟩) ?_
  rintro ⟨_, s1⟩ ⟨n1, h1⟩
  simp only at n1 h1 ⊢
  apply (hf s1 n1 h1).bind
  rintro ⟨v, s2⟩ ⟨A2, t2, hne⟩
  simp only at t2 hne ⊢
  obtain ⟨y, hy⟩ := Option.ne_none_iff_exists'.1 hne
  refine Out.Safe.bind (P := fun q => L.Inv (place A2 (temp 1) none) q.2.objs ∧ q.2.heap = s2.heap)
    ((L.drop t2.ns.inv hy).bind fun q hq => ⟨hq, rfl⟩) ?_
  rintro ⟨_, s3⟩ ⟨i3, h3⟩
  simp only at i3 h3 ⊢
  obtain ⟨h0, o0⟩ := s3
  simp only at i3 h3
  subst h3
  simp only [Prog.pure_run, Out.safe_ok]
  obtain ⟨k, st⟩ := t2.step.step
  refine ⟨place A2 (temp 1) none, ⟨t2.rep.temps rfl fun m hm => place_ne _ _ (hm 1), ?_, ⟨⟨k, by rw [← h1]; exact st⟩, fun m hm hmt => ?_⟩,
    t2.cap, t2.alloc⟩, fun t ht => ?_⟩
  · exact t2.ns.objs i3 fun b k _ => place_ne _ _ fun e => temp_ne_slot _ _ _ e.symm
  · by_cases h : m = temp 1
    · subst h; rw [place_same, free]
    · rw [place_ne _ _ h, t2.step.frame m hm (by simpa using h), hA1 m h hmt]
  · obtain ⟨j, rfl, hj⟩ := hts t ht
    have hne1 : temp j ≠ temp 1 := fun e => hj (temp_inj e)
    rw [place_ne _ _ hne1, frame_temp t2.step (by simpa using hne1)]

include L in
theorem fresh_all {ms : List S.Make} {xs : List V} (hm : ms.mapM μ.val = some xs) : ∀ x ∈ xs, μ.cpOk x = true := by
  induction ms generalizing xs with
  | nil =>
    simp only [List.mapM_nil, Option.pure_def, Option.some.injEq] at hm
    subst hm; simp
  | cons m ms ih =>
    simp only [List.mapM_cons, Option.bind_eq_bind, Option.bind_eq_some_iff, Option.pure_def, Option.some.injEq] at hm
    obtain ⟨x, hx, ys, hys, rfl⟩ := hm
    simpa using ⟨L.newOk hx, ih hys⟩

theorem listTemps_ok {ms : List S.Make} {xs : List V} {a : Nat} (n : NS L s A) (free : ∀ j, A (temp j) = none)
    (hm : ms.mapM μ.val = some xs) (hw : xs.length * ty.size < wordSize) :
    ((do
      makeTemps C 0 ms
      let v ← newList ty C ms.length a
      dropTemps C ms.length
      return v : Prog (St σ) Vec) s).Safe fun q => ∃ A', NTo L ty s A none (xs.map μ.cp) xs.length a q.1 q.2 A' [] := by
  have hlen : ms.length = xs.length := by
    clear n free hw
    induction ms generalizing xs with
    | nil =>
      simp only [List.mapM_nil, Option.pure_def, Option.some.injEq] at hm
      subst hm; rfl
    | cons m ms ih =>
      simp only [List.mapM_cons, Option.bind_eq_bind, Option.bind_eq_some_iff, Option.pure_def, Option.some.injEq] at hm
      obtain ⟨x, _, ys, hys, rfl⟩ := hm
      simp [ih hys]
  simp only [Prog.bind_run]
  apply (makeTemps_ok ms (k := 0) n hm fun j _ => free j).bind
  rintro ⟨_, s1⟩ ⟨A1, n1, h1, hv, hf1⟩
  simp only at n1 h1 hv hf1 ⊢
  have hf1' : ∀ m, (∀ j, m ≠ temp j) → A1 m = A m := fun m hm => hf1 m fun j _ _ => hm j
  apply (newList_ok n1 hlen (by rw [hlen]; exact hw) (fun k x hk => by simpa using hv k x hk) (fresh_all (L := L) hm)).bind
  rintro ⟨v, s2⟩ ⟨A2, t2⟩
  simp only at t2 ⊢
  apply (dropTemps_ok ms.length t2.ns (by
    intro j hj
    rw [frame_temp t2.step (by simp)]
    have := hv j xs[j] (List.getElem?_eq_getElem (by omega))
    rw [Nat.zero_add] at this
    rw [this]; simp)).bind
  rintro ⟨_, s3⟩ ⟨A3, n3, h3, hz, hf3⟩
  refine ⟨A3, (wrapTemps free h1 hf1' t2 (by simp) n3 h3 (fun m hm => hf3 m fun j _ => hm j) ?_).cast rfl hlen rfl⟩
  intro j
  by_cases hj : j < ms.length
  · exact hz j hj
  · rw [hf3 _ (by intro i hi e; have := temp_inj e; omega), frame_temp t2.step (by simp),
      hf1 _ (by intro i _ hi e; have := temp_inj e; omega), free]

end

/-! ## Worlds -/

def NVarOk (ty : ElemTy Unit) (s : St σ) (A : Nat → Option V) : Option (Var V) → Option Vec → Prop
  | none, none => True
  | some a, some v => NRep ty s A v a.xs ∧ v.cap = a.cap ∧ v.alloc = a.alloc
  | _, _ => False

variable (L ty) in
structure WI (B : Nat → Option (Var V)) (w : NWorld σ) (A : Nat → Option V) : Prop where
  ns : NS L w.st A
  ok : ∀ i, NVarOk ty w.st A (B i) (w.vars i)
  sep : ∀ i j v v' b, i ≠ j → w.vars i = some v → w.vars j = some v' → v.ptr = some b → v'.ptr ≠ some b
  cover : ∀ b blk, w.st.heap.blocks b = some blk → ∃ i v, w.vars i = some v ∧ v.ptr = some b
  outside : ∀ m, (∀ b k, m ≠ slot b k) → A m = none

variable (L ty) in
def WInv (B : Nat → Option (Var V)) (w : NWorld σ) : Prop := ∃ A, WI L ty B w A

section
variable {B : Nat → Option (Var V)} {w : NWorld σ} {A : Nat → Option V}

theorem WI.get (I : WI L ty B w A) {i : Nat} {a : Var V} (hi : B i = some a) :
    ∃ v, w.vars i = some v ∧ NRep ty w.st A v a.xs ∧ v.cap = a.cap ∧ v.alloc = a.alloc := by
  have := I.ok i
  rw [hi] at this
  cases hv : w.vars i with
  | none => rw [hv] at this; exact this.elim
  | some v => rw [hv] at this; exact ⟨v, rfl, this⟩

theorem WI.get_none (I : WI L ty B w A) {i : Nat} (hi : B i = none) : w.vars i = none := by
  have := I.ok i
  rw [hi] at this
  cases hv : w.vars i with
  | none => rfl
  | some v => rw [hv] at this; exact this.elim

theorem WI.rep_of (I : WI L ty B w A) {i : Nat} {v : Vec} (hv : w.vars i = some v) :
    ∃ a, B i = some a ∧ NRep ty w.st A v a.xs ∧ v.cap = a.cap ∧ v.alloc = a.alloc := by
  have := I.ok i
  rw [hv] at this
  cases ha : B i with
  | none => rw [ha] at this; exact this.elim
  | some a => rw [ha] at this; exact ⟨a, rfl, this⟩

theorem WI.free (I : WI L ty B w A) (j : Nat) : A (temp j) = none := I.outside _ fun _ _ => temp_ne_slot _ _ _

/-- one vector is changed by a step owning its buffer -/
theorem WI.put (I : WI L ty B w A) {i : Nat} {o' : Option Vec} {a' : Option (Var V)} {s' : St σ} {A' : Nat → Option V}
    (n' : NS L s' A') (t : NStep w.st A (ptrs (w.vars i)) s' A' (ptrs o') []) (ok : NVarOk ty s' A' a' o') :
    WI L ty (place B i a') ⟨s', bindVar w.vars i o'⟩ A' := by
  obtain ⟨k, st⟩ := t.step
  have others : ∀ j v b, j ≠ i → w.vars j = some v → v.ptr = some b → b ∉ ptrs (w.vars i) ∧ b ∉ ptrs o' := by
    intro j v b hj hv hb
    have h1 : b ∉ ptrs (w.vars i) := by
      intro hm
      obtain ⟨v', hv', hb'⟩ := mem_ptrs.1 hm
      exact I.sep j i v v' b hj hv hv' hb hb'
    refine ⟨h1, fun hm => ?_⟩
    obtain ⟨a, _, r, _⟩ := I.rep_of hv
    have o := r.own; rw [hb] at o
    exact o.block (st.fresh b hm h1)
  refine ⟨n', ?_, ?_, ?_, ?_⟩
  · intro j
    by_cases hj : j = i
    · subst hj; simpa [place, bindVar] using ok
    · simp only [place, bindVar, hj, if_false]
      have := I.ok j
      cases hv : w.vars j with
      | none => rw [hv] at this; cases ha : B j with
        | none => trivial
        | some a => rw [ha] at this; exact this.elim
      | some v => rw [hv] at this; cases ha : B j with
        | none => rw [ha] at this; exact this.elim
        | some a =>
          rw [ha] at this
          exact ⟨this.1.keep t (fun b hb => (others j v b hj hv hb).1) (by simp), this.2⟩
  · intro j j' v v' b hne hv hv' hb hb'
    simp only at hv hv'
    by_cases hj : j = i
    · subst hj
      have hj' : j' ≠ j := fun e => hne e.symm
      rw [bindVar_same] at hv; rw [bindVar_ne _ _ hj'] at hv'
      exact (others j' v' b hj' hv' hb').2 (mem_ptrs.2 ⟨v, hv, hb⟩)
    · rw [bindVar_ne _ _ hj] at hv
      by_cases hj' : j' = i
      · subst hj'
        rw [bindVar_same] at hv'
        exact (others j v b hj hv hb).2 (mem_ptrs.2 ⟨v', hv', hb'⟩)
      · rw [bindVar_ne _ _ hj'] at hv'
        exact I.sep j j' v v' b hne hv hv' hb hb'
  · intro b blk hb
    simp only at hb
    by_cases hm : b ∈ ptrs o'
    · obtain ⟨v, hv, hp⟩ := mem_ptrs.1 hm
      exact ⟨i, v, by simp [bindVar, hv], hp⟩
    · by_cases hm0 : b ∈ ptrs (w.vars i)
      · rw [st.gone b hm0 hm] at hb; cases hb
      · rw [st.frame b hm0 hm] at hb
        obtain ⟨j, v, hv, hp⟩ := I.cover b blk hb
        have hj : j ≠ i := by
          rintro rfl
          exact hm0 (mem_ptrs.2 ⟨v, hv, hp⟩)
        exact ⟨j, v, by simp only; rw [bindVar_ne _ _ hj, hv], hp⟩
  · intro m hm
    rw [t.frame m (fun b k e => absurd e (hm b k)) (by simp)]
    exact I.outside m hm

/-- exchanging two vectors -/
theorem WI.exchange (I : WI L ty B w A) (i j : Nat) :
    WI L ty (place (place B i (B j)) j (B i)) ⟨w.st, bindVar (bindVar w.vars i (w.vars j)) j (w.vars i)⟩ A := by
  let f : Nat → Nat := fun k => if k = j then i else if k = i then j else k
  have fv : ∀ k, bindVar (bindVar w.vars i (w.vars j)) j (w.vars i) k = w.vars (f k) := by
    intro k; simp only [bindVar, f]; split
    · rfl
    · split <;> rfl
  have fA : ∀ k, place (place B i (B j)) j (B i) k = B (f k) := by
    intro k; simp only [place, f]; split
    · rfl
    · split <;> rfl
  have finv : ∀ k, f (f k) = k := by
    intro k; simp only [f]
    by_cases h1 : k = j <;> by_cases h2 : k = i <;> simp_all <;> (intro h; simp_all)
  refine ⟨I.ns, ?_, ?_, ?_, I.outside⟩
  · intro k; simp only [fv, fA]; exact I.ok (f k)
  · intro k k' v v' b hne hv hv' hb
    simp only [fv] at hv hv'
    exact I.sep (f k) (f k') v v' b (fun e => hne (by rw [← finv k, e, finv])) hv hv' hb
  · intro b blk hb
    obtain ⟨k, v, hv, hp⟩ := I.cover b blk hb
    exact ⟨f k, v, by simp only [fv, finv]; exact hv, hp⟩

theorem run_obj {i : Nat} {v : Vec} (hv : w.vars i = some v) : obj i w = .ok (v, w) := by
  simp only [obj, hv]

theorem run_inSt {β : Type} (f : Prog (St σ) β) (w : NWorld σ) :
    inSt f w = (f w.st >>= fun p => .ok (p.1, { w with st := p.2 })) := rfl

theorem createAt_ok (I : WI L ty B w A) {i : Nat} (hi : B i = none) {f : Prog (St σ) Vec} {a : Var V}
    (hf : (f w.st).Safe fun q => ∃ A', NTo L ty w.st A none a.xs a.cap a.alloc q.1 q.2 A' []) :
    (createAt i f w).Safe fun q => WInv L ty (place B i (some a)) q.2 := by
  simp only [createAt, Prog.bind_run, run_inSt]
  refine Out.Safe.bind (P := fun q => q.2.vars = w.vars ∧ ∃ A', NTo L ty w.st A none a.xs a.cap a.alloc q.1 q.2.st A' [])
    (hf.bind fun q hq => ⟨rfl, hq⟩) ?_
  rintro ⟨v, w1⟩ ⟨hv, A1, t1⟩
  simp only at hv t1 ⊢
  simp only [setObj, hv, Out.safe_ok]
  refine ⟨A1, I.put (i := i) t1.ns ?_ ⟨t1.rep, t1.cap, t1.alloc⟩⟩
  rw [I.get_none hi]
  exact t1.step

theorem changeAt_ok {β : Type} (I : WI L ty B w A) {i : Nat} {v : Vec} (hv : w.vars i = some v)
    {f : Vec → Prog (St σ) (Vec × β)} {a : Var V} {r : β}
    (hf : (f v w.st).Safe fun q => q.1.2 = r ∧ ∃ A', NTo L ty w.st A v.ptr a.xs a.cap a.alloc q.1.1 q.2 A' []) :
    (changeAt i f w).Safe fun q => q.1 = r ∧ WInv L ty (place B i (some a)) q.2 := by
  simp only [changeAt, Prog.bind_run, run_obj hv, Out.bind_ok, run_inSt]
  refine Out.Safe.bind (P := fun q => q.2.vars = w.vars ∧ q.1.2 = r ∧
    ∃ A', NTo L ty w.st A v.ptr a.xs a.cap a.alloc q.1.1 q.2.st A' []) (hf.bind fun q hq => ⟨rfl, hq⟩) ?_
  rintro ⟨⟨v1, r1⟩, w1⟩ ⟨hw, hr, A1, t1⟩
  simp only at hw hr t1 ⊢
  simp only [setObj, hw, Out.bind_ok, Prog.pure_run, Out.safe_ok]
  refine ⟨hr, A1, I.put (i := i) t1.ns ?_ ⟨t1.rep, t1.cap, t1.alloc⟩⟩
  rw [hv]
  exact t1.step

theorem place_self {X : Type} (B : Nat → Option X) {i : Nat} {o : Option X} (h : B i = o) : place B i o = B := by
  funext j; simp only [place]; split
  · rename_i e; subst e; exact h.symm
  · rfl

theorem place_twice {X : Type} (B : Nat → Option X) (i : Nat) (o o' : Option X) : place (place B i o) i o' = place B i o' := by
  funext j; simp only [place]; split <;> rfl

/-- the source is handed over to an address without vector -/
theorem handOver (I : WI L ty B w A) {d e : Nat} (hd : B d = none) {v : Vec} {a : Var V} (he : B e = some a)
    (hv : w.vars e = some v) :
    WI L ty (place (place B d (some a)) e (some ⟨[], 0, a.alloc⟩))
      ⟨w.st, bindVar (bindVar w.vars d (some v)) e (some ⟨0, 0, none, v.alloc⟩)⟩ A := by
  obtain ⟨v', hv', _, _, hal⟩ := I.get he
  obtain rfl : v' = v := by rw [hv] at hv'; injection hv' with h; exact h.symm
  have I1 := I.exchange d e
  rw [he, hd, hv, I.get_none hd] at I1
  have := I1.put (i := e) (o' := some ⟨0, 0, none, v'.alloc⟩) (a' := some ⟨[], 0, a.alloc⟩) (s' := w.st) (A' := A) I1.ns
    (by simp only [bindVar_same]; exact NStep.refl _ _ _ _)
    ⟨⟨rfl, by simp [Own], fun b hb => by cases hb⟩, rfl, hal⟩
  rw [place_twice] at this
  have hb : bindVar (bindVar (bindVar w.vars d (some v')) e none) e (some ⟨0, 0, none, v'.alloc⟩) =
      bindVar (bindVar w.vars d (some v')) e (some ⟨0, 0, none, v'.alloc⟩) := by
    funext j; simp only [bindVar]; split <;> rfl
  simp only [hb] at this
  exact this

end

/-- nothing to do for the pure part of `changeAt` -/
theorem pure_same {β : Type} {s : St σ} {A : Nat → Option V} {v : Vec} {a : Var V} {r : β} (n : NS L s A)
    (rp : NRep ty s A v a.xs) (hc : v.cap = a.cap) (hal : v.alloc = a.alloc) :
    ((return (v, r) : Prog (St σ) (Vec × β)) s).Safe fun q => q.1.2 = r ∧
      ∃ A', NTo L ty s A v.ptr a.xs a.cap a.alloc q.1.1 q.2 A' [] :=
  ⟨rfl, A, (NTo.same rp n).cast rfl hc hal⟩

/-- a member followed by its result -/
theorem then_ret {β : Type} {s : St σ} {A : Nat → Option V} {p : Option Nat} {xs : List V} {cap al : Nat} {f : Prog (St σ) Vec}
    {r : β} (hf : (f s).Safe fun q => ∃ A', NTo L ty s A p xs cap al q.1 q.2 A' []) :
    ((do let v ← f; return (v, r) : Prog (St σ) (Vec × β)) s).Safe fun q => q.1.2 = r ∧
      ∃ A', NTo L ty s A p xs cap al q.1.1 q.2 A' [] := by
  simp only [Prog.bind_run]
  exact hf.bind fun q hq => ⟨rfl, hq⟩

section
variable {B : Nat → Option (Var V)} {w : NWorld σ}

theorem vmake_ok (I : WInv L ty B w) {i : Nat} {m : VMake S.Make} {a : Var V} (hi : B i = none)
    (hm : vval ty.size μ m = some a) : (vmake ty C m i w).Safe fun q => WInv L ty (place B i (some a)) q.2 := by
  obtain ⟨A, I⟩ := I
  cases m with
  | dflt =>
    simp only [vval, Option.some.injEq] at hm; subst hm
    exact createAt_ok I hi (newDefault_ok I.ns)
  | alloc c =>
    simp only [vval, Option.some.injEq] at hm; subst hm
    exact createAt_ok I hi ⟨A, ⟨blank_rep c, I.ns, NStep.refl _ _ _ _, rfl, rfl⟩⟩
  | list ms c =>
    simp only [vval, Option.bind_eq_some_iff] at hm
    obtain ⟨xs, hx, hm⟩ := hm
    split at hm
    · rename_i hw
      simp only [Option.some.injEq] at hm; subst hm
      exact createAt_ok I hi (listTemps_ok I.ns I.free hx hw)
    · cases hm
  | fill k m c =>
    simp only [vval, Option.bind_eq_some_iff] at hm
    obtain ⟨x, hx, hm⟩ := hm
    split at hm
    · rename_i hw
      simp only [Option.some.injEq] at hm; subst hm
      refine createAt_ok I hi (withTemp_ok I.ns I.free hx fun s1 A1 n1 _ _ ht _ => ?_)
      apply (assignFill_ok n1 (blank_rep c) ht (L.newOk hx) hw).mono
      rintro q ⟨A2, t2⟩
      refine ⟨A2, [], t2.cast rfl (by simp [Vec.blank]) rfl, by simp, ?_⟩
      rw [frame_temp t2.step (by simp), ht]; simp
    · cases hm

theorem vcall_ok (I : WInv L ty B w) {i : Nat} {c : VCall S.Make S.Call} {a a' : Var V} {r : VRet S.Ret} (hi : B i = some a)
    (hr : vrun ty.size μ c a = some (r, a')) :
    (vcall ty C c i w).Safe fun q => q.1 = r ∧ WInv L ty (place B i (some a')) q.2 := by
  obtain ⟨A, I⟩ := I
  obtain ⟨v, hv, rp, hc, hal⟩ := I.get hi
  have n := I.ns
  cases c with
  | size =>
    simp only [vrun, Option.some.injEq, Prod.mk.injEq] at hr
    obtain ⟨rfl, rfl⟩ := hr
    refine changeAt_ok I hv ?_
    rw [← rp.len]
    exact pure_same n rp hc hal
  | capacity =>
    simp only [vrun, Option.some.injEq, Prod.mk.injEq] at hr
    obtain ⟨rfl, rfl⟩ := hr
    refine changeAt_ok I hv ?_
    rw [← hc]
    exact pure_same (a := ⟨a.xs, v.cap, a.alloc⟩) n rp rfl hal
  | reserve m =>
    simp only [vrun] at hr
    split at hr
    · rename_i hw
      simp only [Option.some.injEq, Prod.mk.injEq] at hr
      obtain ⟨rfl, rfl⟩ := hr
      refine changeAt_ok I hv (then_ret ?_)
      apply (reserve_ok n rp hw).mono
      rintro q ⟨A', t, _⟩
      exact ⟨A', t.cast rfl (by rw [hc]) hal⟩
    · cases hr
  | clear =>
    simp only [vrun, Option.some.injEq, Prod.mk.injEq] at hr
    obtain ⟨rfl, rfl⟩ := hr
    refine changeAt_ok I hv (then_ret ?_)
    apply (clear_ok n rp).mono
    rintro q ⟨_, A', t⟩
    exact ⟨A', t.cast rfl rfl hal⟩
  | push m =>
    simp only [vrun, Option.bind_eq_some_iff, Option.some.injEq, Prod.mk.injEq] at hr
    obtain ⟨x, hx, rfl, rfl⟩ := hr
    refine changeAt_ok I hv (then_ret (withTemp_ok n I.free hx fun s1 A1 n1 h1 hf1 ht _ => ?_))
    apply (pushMove_ok n1 (rp.temps h1 hf1) ht).mono
    rintro q ⟨A2, t2, hl⟩
    exact ⟨A2, [temp 0], t2.cast rfl (by rw [hc]) hal, by simp, by rw [hl]; simp⟩
  | pushElem k =>
    simp only [vrun, Option.bind_eq_some_iff] at hr
    obtain ⟨x, hx, hr⟩ := hr
    split at hr
    · rename_i hlt
      simp only [Option.some.injEq, Prod.mk.injEq] at hr
      obtain ⟨rfl, rfl⟩ := hr
      obtain ⟨b, hb, hA⟩ := rp.elem hx
      refine changeAt_ok I hv ?_
      rw [hb]
      simp only [address, Prog.bind_run, Prog.pure_run, Out.bind_ok]
      refine (pushCopy_ok n rp hA hlt.2 (.inr (by rw [rp.len, hc]; exact hlt.1))).bind ?_
      rintro ⟨v1, s1⟩ ⟨A1, t1⟩
      rw [hb] at t1
      exact ⟨rfl, A1, t1.cast rfl (by rw [hc, Spec.Vector.afterPush, if_pos hlt.1]) hal⟩
    · cases hr
  | pop =>
    simp only [vrun] at hr
    split at hr
    · cases hr
    · rename_i hne
      simp only [Option.some.injEq, Prod.mk.injEq] at hr
      obtain ⟨rfl, rfl⟩ := hr
      refine changeAt_ok I hv (then_ret ?_)
      apply (popBack_ok n (xs := a.xs.dropLast) (x := a.xs.getLast hne) (by rw [List.dropLast_concat_getLast]; exact rp)).mono
      rintro q ⟨A', t, _⟩
      exact ⟨A', t.cast rfl hc hal⟩
  | erase p =>
    simp only [vrun] at hr
    split at hr
    · rename_i hp
      simp only [Option.some.injEq, Prod.mk.injEq] at hr
      obtain ⟨rfl, rfl⟩ := hr
      refine changeAt_ok I hv ?_
      simp only [Prog.bind_run]
      apply (erase_ok n rp hp.1 hp.2).bind
      rintro ⟨⟨v1, r1⟩, s1⟩ ⟨e1, A1, t1⟩
      simp only at e1 t1 ⊢
      exact ⟨by rw [e1], A1, t1.cast rfl hc hal⟩
    · cases hr
  | insert p c =>
    simp only [vrun, Option.bind_eq_some_iff] at hr
    obtain ⟨x, hx, hr⟩ := hr
    split at hr
    · rename_i hp
      simp only [Option.some.injEq, Prod.mk.injEq] at hr
      obtain ⟨rfl, rfl⟩ := hr
      refine changeAt_ok I hv (then_ret (withTemp_ok n I.free hx fun s1 A1 n1 h1 hf1 ht hz => ?_))
      have hz1 : A1 (temp 1) = none := hz 1 (by omega)
      have h01 : temp 0 ≠ temp 1 := fun e => by have := temp_inj e; omega
      refine (withParam_ok (ty := ty) (p := v.ptr) (ys := a.xs.take p ++ x :: a.xs.drop p)
        (cap := Spec.Vector.afterPush a.xs.length v.cap) (al := v.alloc) (x := x) (A1 := place (place A1 (temp 1) (some x)) (temp 0) (some (μ.left x))) (ts := [temp 0]) n1 hz1
        (L.move n1.inv hz1 ht) (fun m hm hm0 => by rw [place_ne _ _ (by simpa using hm0), place_ne _ _ hm]) ?_
        (by rw [place_ne _ _ h01.symm, place_same]) fun s2 n2 h2 => ?_).mono ?_
      · intro t ht
        exact ⟨0, by simpa using ht, by omega⟩
      · exact (emplace_ok n2 (rp.temps (h2.trans h1) fun m hm => by
          rw [place_ne _ _ (hm 0), place_ne _ _ (hm 1), hf1 m hm]) hp.1 hp.2 (by rw [place_ne _ _ h01.symm, place_same])).mono
            fun q ⟨A2, t2, hl⟩ => ⟨A2, t2, by rw [hl]; simp⟩
      · rintro q ⟨A3, t3, h3⟩
        exact ⟨A3, [temp 0], t3.cast rfl (by rw [hc]) hal, by simp, by rw [h3 _ (by simp), place_same]; simp⟩
    · cases hr
  | insertElem p k =>
    simp only [vrun, Option.bind_eq_some_iff] at hr
    obtain ⟨x, hx, hr⟩ := hr
    split at hr
    · rename_i hp
      simp only [Option.some.injEq, Prod.mk.injEq] at hr
      obtain ⟨rfl, rfl⟩ := hr
      obtain ⟨b, hb, hA⟩ := rp.elem hx
      refine changeAt_ok I hv ?_
      have hps : ∀ {s : St σ}, address v.ptr k s = .ok (slot b k, s) := by intro s; rw [hb]; rfl
      simp only [Prog.bind_run, hps, Out.bind_ok]
      refine Out.Safe.bind (P := fun q => ∃ A', NTo L ty w.st A v.ptr (a.xs.take p ++ μ.cp x :: a.xs.drop p)
        (Spec.Vector.afterPush a.xs.length v.cap) v.alloc q.1 q.2 A' []) ?_ ?_
      · refine (withParam_ok (ty := ty) (p := v.ptr) (ys := a.xs.take p ++ μ.cp x :: a.xs.drop p)
          (cap := Spec.Vector.afterPush a.xs.length v.cap) (al := v.alloc) (init := fun u => C.copy u (slot b k)) (x := μ.cp x) (A1 := place A (temp 1) (some (μ.cp x))) (ts := []) n (I.free 1)
          (L.copy n.inv (I.free 1) hA hp.2) (fun m hm _ => place_ne _ _ hm) (by simp) (place_same _ _ _) fun s2 n2 h2 => ?_).mono ?_
        · exact (emplace_ok n2 (rp.temps h2 fun m hm => place_ne _ _ (hm 1)) hp.1.1 hp.1.2 (place_same _ _ _)).mono
            fun q ⟨A2, t2, hl⟩ => ⟨A2, t2, by rw [hl]; simp⟩
        · rintro q ⟨A3, t3, _⟩
          exact ⟨A3, t3⟩
      · rintro ⟨v1, s1⟩ ⟨A1, t1⟩
        exact ⟨rfl, A1, t1.cast rfl (by rw [hc]) hal⟩
    · cases hr
  | insertFill p m c =>
    simp only [vrun, Option.bind_eq_some_iff] at hr
    obtain ⟨x, hx, hr⟩ := hr
    split at hr
    · rename_i hp
      simp only [Option.some.injEq, Prod.mk.injEq] at hr
      obtain ⟨rfl, rfl⟩ := hr
      refine changeAt_ok I hv (then_ret (withTemp_ok n I.free hx fun s1 A1 n1 h1 hf1 ht _ => ?_))
      apply (insertFill_ok n1 (rp.temps h1 hf1) hp.1 hp.2.1 hp.2.2.1 hp.2.2.2 ht (L.newOk hx)).mono
      rintro q ⟨A2, t2⟩
      refine ⟨A2, [], t2.cast rfl (by rw [hc]) hal, by simp, ?_⟩
      rw [frame_temp t2.step (by simp), ht]; simp
    · cases hr
  | fill m c =>
    simp only [vrun, Option.bind_eq_some_iff] at hr
    obtain ⟨x, hx, hr⟩ := hr
    split at hr
    · rename_i hw
      simp only [Option.some.injEq, Prod.mk.injEq] at hr
      obtain ⟨rfl, rfl⟩ := hr
      refine changeAt_ok I hv (then_ret (withTemp_ok n I.free hx fun s1 A1 n1 h1 hf1 ht _ => ?_))
      apply (assignFill_ok n1 (rp.temps h1 hf1) ht (L.newOk hx) hw).mono
      rintro q ⟨A2, t2⟩
      refine ⟨A2, [], t2.cast rfl (by rw [hc]) hal, by simp, ?_⟩
      rw [frame_temp t2.step (by simp), ht]; simp
    · cases hr
  | resize m c =>
    simp only [vrun, Option.bind_eq_some_iff] at hr
    obtain ⟨x, hx, hr⟩ := hr
    split at hr
    · rename_i hw
      simp only [Option.some.injEq, Prod.mk.injEq] at hr
      obtain ⟨rfl, rfl⟩ := hr
      refine changeAt_ok I hv (then_ret (withTemp_ok n I.free hx fun s1 A1 n1 h1 hf1 ht _ => ?_))
      apply (resizeFill_ok n1 (rp.temps h1 hf1) ht (L.newOk hx) hw).mono
      rintro q ⟨A2, t2⟩
      refine ⟨A2, [], t2.cast rfl (by rw [hc]) hal, by simp, ?_⟩
      rw [frame_temp t2.step (by simp), ht]; simp
    · cases hr
  | setElem k l =>
    simp only [vrun, Option.bind_eq_some_iff] at hr
    obtain ⟨t, hk, x, hl, hr⟩ := hr
    obtain ⟨b, hb, hAk⟩ := rp.elem hk
    obtain ⟨b', hb', hAl⟩ := rp.elem hl
    obtain rfl : b' = b := by rw [hb] at hb'; injection hb' with h; exact h.symm
    split at hr
    · cases hr
    rename_i hok
    have hok : μ.cpOk x = true := by simpa using hok
    split at hr
    · rename_i e; subst e
      have hok' : μ.cpOk t = true := by rw [hk] at hl; injection hl with e; rw [e]; exact hok
      simp only [Option.some.injEq, Prod.mk.injEq] at hr
      obtain ⟨rfl, rfl⟩ := hr
      refine changeAt_ok I hv ?_
      rw [hb]
      simp only [address, Prog.bind_run, Prog.pure_run, Out.bind_ok, run_inObjs]
      refine Out.Safe.bind (P := fun q => q.2.heap = w.st.heap ∧ L.Inv A q.2.objs)
        ((L.copySelf n.inv hAk hok').bind fun q hq => ⟨rfl, hq⟩) ?_
      rintro ⟨_, s1⟩ ⟨h1, i1⟩
      obtain ⟨h0, o0⟩ := s1
      simp only at h1 i1 ⊢
      subst h1
      refine ⟨rfl, A, ⟨⟨rp.len, ⟨rp.own.own, rp.own.cells⟩⟩, n.objs i1 fun _ _ _ => rfl, ?_, hc, hal⟩⟩
      simp only [hb]
      exact ⟨⟨0, Step.refl _ _⟩, fun _ _ _ => rfl⟩
    · rename_i hne
      split at hr
      · cases hr
      rename_i hin
      simp only [Bool.not_eq_false] at hin
      simp only [Option.some.injEq, Prod.mk.injEq] at hr
      obtain ⟨rfl, rfl⟩ := hr
      refine changeAt_ok I hv ?_
      simp only [hb, address, Prog.bind_run, Prog.pure_run, Out.bind_ok, run_inObjs]
      refine Out.Safe.bind (P := fun q => NTo L ty w.st A v.ptr (a.xs.set k (μ.cpAssign t x)) v.cap v.alloc v q.2
        (place A (slot b' k) (some (μ.cpAssign t x))) [])
        ((L.copyAssign n.inv (fun e => hne (slot_inj e).2) hAk hAl hok hin).bind fun q hq =>
          Out.safe_ok.2 (elem_ok n rp hb hk hq)) ?_
      rintro ⟨_, s1⟩ t1
      rw [hb] at t1
      exact ⟨rfl, _, t1.cast rfl hc hal⟩
  | moveElem k l =>
    simp only [vrun, Option.bind_eq_some_iff] at hr
    obtain ⟨t, hk, x, hl, hr⟩ := hr
    obtain ⟨b, hb, hAk⟩ := rp.elem hk
    obtain ⟨b', hb', hAl⟩ := rp.elem hl
    obtain rfl : b' = b := by rw [hb] at hb'; injection hb' with h; exact h.symm
    split at hr
    · rename_i e; subst e
      simp only [Option.some.injEq, Prod.mk.injEq] at hr
      obtain ⟨rfl, rfl⟩ := hr
      refine changeAt_ok I hv ?_
      rw [hb]
      simp only [address, Prog.bind_run, Prog.pure_run, Out.bind_ok, run_inObjs]
      refine Out.Safe.bind (P := fun q => q.2.heap = w.st.heap ∧ L.Inv A q.2.objs)
        ((L.moveSelf n.inv hAk).bind fun q hq => ⟨rfl, hq⟩) ?_
      rintro ⟨_, s1⟩ ⟨h1, i1⟩
      obtain ⟨h0, o0⟩ := s1
      simp only at h1 i1 ⊢
      subst h1
      refine ⟨rfl, A, ⟨⟨rp.len, ⟨rp.own.own, rp.own.cells⟩⟩, n.objs i1 fun _ _ _ => rfl, ?_, hc, hal⟩⟩
      simp only [hb]
      exact ⟨⟨0, Step.refl _ _⟩, fun _ _ _ => rfl⟩
    · rename_i hne
      split at hr
      · cases hr
      rename_i hin
      simp only [Bool.not_eq_false] at hin
      simp only [Option.some.injEq, Prod.mk.injEq] at hr
      obtain ⟨rfl, rfl⟩ := hr
      refine changeAt_ok I hv ?_
      simp only [hb, address, Prog.bind_run, Prog.pure_run, Out.bind_ok, run_inObjs]
      refine Out.Safe.bind (P := fun q => q.2.heap = w.st.heap ∧
          L.Inv (place (place A (slot b' k) (some x)) (slot b' l) (some (μ.leftInto t x))) q.2.objs)
        ((L.moveAssign n.inv (fun e => hne (slot_inj e).2) hAk hAl hin).bind fun q hq => ⟨rfl, hq⟩) ?_
      rintro ⟨_, s1⟩ ⟨h1, i1⟩
      obtain ⟨h0, o0⟩ := s1
      simp only at h1 i1 ⊢
      subst h1
      have o := rp.own
      rw [hb] at o
      obtain ⟨pre, post, e1, e2, e3⟩ := set_split hk x
      have hl' : (a.xs.set k x)[l]? = some x := by
        rw [List.getElem?_set_ne hne]; exact hl
      obtain ⟨pre', post', e1', e2', e3'⟩ := set_split hl' (μ.leftInto t x)
      have c1 : Cells (place A (slot b' k) (some x)) (some b') ((a.xs.set k x).map some ++ List.replicate (v.cap - a.xs.length) none) := by
        rw [e3]
        rw [e1] at o
        have := cells_set (o := some t) (o' := some x) (pre := pre.map some) (post := post.map some ++ List.replicate (v.cap - (pre ++ t :: post).length) none)
          (i := k) (by simpa using o.cells) (by simpa using e2)
        simpa [e1] using this
      have c2 : Cells (place (place A (slot b' k) (some x)) (slot b' l) (some (μ.leftInto t x))) (some b')
          (((a.xs.set k x).set l (μ.leftInto t x)).map some ++ List.replicate (v.cap - a.xs.length) none) := by
        rw [e3']
        rw [e1'] at c1
        have := cells_set (o := some x) (o' := some (μ.leftInto t x)) (pre := pre'.map some) (post := post'.map some ++ List.replicate (v.cap - a.xs.length) none)
          (i := l) (by simpa using c1) (by simpa using e2')
        simpa using this
      have ho : (((a.xs.set k x).set l (μ.leftInto t x)).map some ++ List.replicate (v.cap - a.xs.length) none).map unit? =
          (a.xs.map some ++ List.replicate (v.cap - a.xs.length) none).map unit? := by
        have hu : ∀ l : List V, (l.map some).map unit? = List.replicate l.length (some ()) := by
          intro l; induction l with
          | nil => rfl
          | cons x l ih => simp only [List.map_cons, ih, unit?_some, List.length_cons, List.replicate_succ]
        simp only [List.map_append, hu, List.length_set]
      have hf : ∀ m, (∀ c j, m = slot c j → c ≠ b') →
          place (place A (slot b' k) (some x)) (slot b' l) (some (μ.leftInto t x)) m = A m := by
        intro m hm
        rw [place_ne _ _ (fun e => hm _ _ e rfl), place_ne _ _ (fun e => hm _ _ e rfl)]
      refine ⟨rfl, _, ⟨⟨by simp [rp.len], ⟨?_, ?_⟩⟩, n.objs i1 ?_, ?_, hc, hal⟩⟩
      · simp only [hb, List.length_set]
        rw [ho]; exact o.own
      · simp only [hb, List.length_set]; exact c2
      · intro c j hcj
        exact hf _ (by rintro c' j' e rfl; obtain ⟨rfl, _⟩ := slot_inj e; exact o.block hcj)
      · simp only [hb]
        exact ⟨⟨0, Step.refl _ _⟩, fun m hm _ => hf m (fun c j e e' => (hm c j e).1 (by simp [e']))⟩
  | elem k c =>
    simp only [vrun, Option.bind_eq_some_iff, Option.some.injEq, Prod.mk.injEq] at hr
    obtain ⟨x, hk, ⟨r0, y⟩, hrun, rfl, rfl⟩ := hr
    obtain ⟨b, hb, hA⟩ := rp.elem hk
    refine changeAt_ok I hv ?_
    simp only [hb, address, Prog.bind_run, Prog.pure_run, Out.bind_ok, run_inObjs]
    refine Out.Safe.bind (P := fun q => q.1 = r0 ∧ NTo L ty w.st A v.ptr (a.xs.set k y) v.cap v.alloc v q.2
        (place A (slot b k) (some y)) [])
        ((L.call n.inv hA hrun).bind fun q hq => ⟨hq.1, elem_ok n rp hb hk hq.2⟩) ?_
    rintro ⟨_, s1⟩ ⟨rfl, t1⟩
    rw [hb] at t1
    exact ⟨rfl, _, t1.cast rfl hc hal⟩

end

/-- Vectors of objects that keep their promises keep theirs. -/
def vectorLaw (ty : ElemTy Unit) (L : Law C μ) : Law (vectorCls ty C) (vectorMeaning ty.size μ) where
  Inv := WInv L ty
  start := ⟨fun _ => none,
    { ns := ⟨L.start, ⟨fun _ _ => rfl, rfl, rfl⟩, fun _ _ _ => rfl⟩
      ok := fun _ => trivial
      sep := by intro _ _ _ _ _ _ h; cases h
      cover := by intro _ _ h; cases h
      outside := fun _ _ => rfl }⟩
  make I hn hm := vmake_ok I hn hm
  copy := by
    rintro B w d e a ⟨A, I⟩ hd he hok
    obtain ⟨v, hv, rp, hc, hal⟩ := I.get he
    simp only [vectorCls, Prog.bind_run, run_obj hv, Out.bind_ok]
    exact createAt_ok I hd (copyImpl_ok I.ns rfl rp (List.all_eq_true.1 hok))
  copyDead := by
    rintro B w d e ⟨A, I⟩ he
    simp only [vectorCls, Prog.bind_run, obj, I.get_none he, Out.bind_ub]
  move := by
    rintro B w d e a ⟨A, I⟩ hd he
    obtain ⟨v, hv, rp, hc, hal⟩ := I.get he
    simp only [vectorCls, Prog.bind_run, run_obj hv, Out.bind_ok, newMove, moveImpl, setObj, Out.safe_ok]
    exact ⟨A, handOver I hd he hv⟩
  copyAssign := by
    rintro B w d e a a' ⟨A, I⟩ hne hd he hok hin
    obtain ⟨v, hv, rp, hc, hal⟩ := I.get hd
    obtain ⟨v', hv', rp', hc', hal'⟩ := I.get he
    simp only [vectorCls, if_neg hne, Prog.bind_run, run_obj hv', Out.bind_ok]
    refine (changeAt_ok (r := ()) (a := (vectorMeaning ty.size μ).cpAssign a a') I hv (then_ret ?_)).mono fun q hq => hq.2
    apply (copyAssign_ok I.ns rp rp' (fun b hb => I.sep e d v' v b (Ne.symm hne) hv' hv hb) (List.all_eq_true.1 hok) (by
      intro e
      simpa [vectorMeaning, ← hal, ← hal', e] using hin)).mono
    rintro q ⟨A', t⟩
    rw [hal, hal', hc, hc'] at t
    refine ⟨A', t.cast ?_ ?_ ?_⟩ <;> simp only [vectorMeaning] <;> split <;> rfl
  copySelf := by
    rintro B w d a ⟨A, I⟩ hd _
    obtain ⟨v, hv, rp, hc, hal⟩ := I.get hd
    simp only [vectorCls, if_pos]
    have := changeAt_ok (r := ()) (a := a) I hv (f := fun v => return (v, ())) (pure_same I.ns rp hc hal)
    rw [place_self B hd] at this
    exact this.mono fun q hq => hq.2
  moveAssign := by
    rintro B w d e a a' ⟨A, I⟩ hne hd he _
    obtain ⟨v, hv, rp, hc, hal⟩ := I.get hd
    obtain ⟨v', hv', rp', hc', hal'⟩ := I.get he
    simp only [vectorCls, if_neg hne, Prog.bind_run, run_obj hv, run_obj hv', Out.bind_ok, run_inSt, moveAssign]
    refine Out.Safe.bind (P := fun q => q.1 = (v', ⟨0, 0, none, v'.alloc⟩) ∧ q.2.vars = w.vars ∧
      ∃ A', NTo L ty w.st A v.ptr [] 0 v.alloc (Vec.blank v.alloc) q.2.st A' [])
      (Out.Safe.bind (P := fun q => q.1 = (v', ⟨0, 0, none, v'.alloc⟩) ∧
        ∃ A', NTo L ty w.st A v.ptr [] 0 v.alloc (Vec.blank v.alloc) q.2 A' [])
        ((clear_ok I.ns rp).bind fun q hq => ⟨rfl, by obtain ⟨h1, A', h2⟩ := hq; rw [h1] at h2; exact ⟨A', h2⟩⟩)
        fun q hq => ⟨hq.1, rfl, hq.2⟩) ?_
    rintro ⟨_, w1⟩ ⟨rfl, hw, A1, t1⟩
    simp only at hw t1 ⊢
    simp only [setObj, Out.bind_ok, Out.safe_ok, hw]
    have I1 := I.put (i := d) (o' := none) (a' := none) t1.ns (by rw [hv]; exact t1.step) trivial
    have I2 := handOver I1 (d := d) (e := e) (place_same _ _ _) (a := a') (v := v')
      (by rw [place_ne _ _ (Ne.symm hne)]; exact he) (by simp only; rw [bindVar_ne _ _ (Ne.symm hne)]; exact hv')
    rw [place_twice] at I2
    have hb : bindVar (bindVar (bindVar w.vars d none) d (some v')) e (some ⟨0, 0, none, v'.alloc⟩) =
        bindVar (bindVar w.vars d (some v')) e (some ⟨0, 0, none, v'.alloc⟩) := by
      funext j; simp only [bindVar]; split
      · rfl
      · split <;> rfl
    simp only [hb] at I2
    exact ⟨A1, I2⟩
  moveSelf := by
    rintro B w d a ⟨A, I⟩ hd
    obtain ⟨v, hv, rp, hc, hal⟩ := I.get hd
    simp only [vectorCls, if_pos]
    have := changeAt_ok (r := ()) (a := a) I hv (f := fun v => return (v, ())) (pure_same I.ns rp hc hal)
    rw [place_self B hd] at this
    exact this.mono fun q hq => hq.2
  drop := by
    rintro B w i a ⟨A, I⟩ hi
    obtain ⟨v, hv, rp, hc, hal⟩ := I.get hi
    simp only [vectorCls, Prog.bind_run, run_obj hv, Out.bind_ok, run_inSt]
    refine Out.Safe.bind (P := fun q => q.2.vars = w.vars ∧
      ∃ A', NTo L ty w.st A v.ptr [] 0 v.alloc (Vec.blank v.alloc) q.2.st A' [])
      ((clear_ok I.ns rp).bind fun q hq => ⟨rfl, by obtain ⟨h1, A', h2⟩ := hq; rw [h1] at h2; exact ⟨A', h2⟩⟩) ?_
    rintro ⟨_, w1⟩ ⟨hw, A1, t1⟩
    simp only at hw t1 ⊢
    simp only [setObj, hw, Out.safe_ok]
    exact ⟨A1, I.put (i := i) (o' := none) (a' := none) t1.ns (by rw [hv]; exact t1.step) trivial⟩
  call I hn hr := vcall_ok I hn hr
  newOk := by
    intro m a hm
    cases m with
    | dflt => simp only [vectorMeaning, vval, Option.some.injEq] at hm; subst hm; rfl
    | alloc c => simp only [vectorMeaning, vval, Option.some.injEq] at hm; subst hm; rfl
    | list ms c =>
      simp only [vectorMeaning, vval, Option.bind_eq_some_iff] at hm
      obtain ⟨xs, hx, hm⟩ := hm
      split at hm
      · simp only [Option.some.injEq] at hm; subst hm
        simp only [vectorMeaning, List.all_map, List.all_eq_true, Function.comp_apply]
        exact fun x hx' => L.cpOk (fresh_all (L := L) hx x hx')
      · cases hm
    | fill k m c =>
      simp only [vectorMeaning, vval, Option.bind_eq_some_iff] at hm
      obtain ⟨x, hx, hm⟩ := hm
      split at hm
      · simp only [Option.some.injEq] at hm; subst hm
        simp only [vectorMeaning, List.all_eq_true]
        intro y hy
        rw [(List.mem_replicate.1 hy).2]
        exact L.cpOk (L.newOk hx)
      · cases hm
  cpOk := by
    intro a ha
    simp only [vectorMeaning, List.all_map, List.all_eq_true, Function.comp_apply] at ha ⊢
    exact fun x hx => L.cpOk (ha x hx)
  idle := by
    rintro B w ⟨A, I⟩ hB
    have hb : ∀ b, w.st.heap.blocks b = none := by
      intro b
      cases h : w.st.heap.blocks b with
      | none => rfl
      | some blk =>
        obtain ⟨i, v, hv, _⟩ := I.cover b blk h
        rw [I.get_none (hB i)] at hv; cases hv
    have := I.ns.bal.empty hb
    refine ⟨this.1, this.2, L.idle I.ns.inv fun m => ?_⟩
    by_cases hm : ∃ b k, m = slot b k
    · obtain ⟨b, k, rfl⟩ := hm
      exact I.ns.housed b k (hb b)
    · exact I.outside m fun b k e => hm ⟨b, k, e⟩

/-- when all vectors are empty, no element is left -/
theorem vector_elements {ty : ElemTy Unit} {L : Law C μ} {B : Nat → Option (Var V)} {w : NWorld σ} (I : WInv L ty B w)
    (hB : ∀ i v, B i = some v → v.xs = []) : C.idle w.st.objs := by
  obtain ⟨A, I⟩ := I
  refine L.idle I.ns.inv fun m => ?_
  by_cases hm : ∃ b k, m = slot b k
  · obtain ⟨b, k, rfl⟩ := hm
    cases h : w.st.heap.blocks b with
    | none => exact I.ns.housed b k h
    | some blk =>
      obtain ⟨i, v, hv, hp⟩ := I.cover b blk h
      cases hi : B i with
      | none => rw [I.get_none hi] at hv; cases hv
      | some a =>
        obtain ⟨v', hv', rp, _, _⟩ := I.get hi
        rw [hv] at hv'; cases hv'
        have := rp.own.cells b hp k
        rw [this, hB i a hi]
        simp only [List.map_nil, List.nil_append, List.getElem?_replicate]
        split <;> rfl
  · exact I.outside m fun b k e => hm ⟨b, k, e⟩

end Verif.Proof.Nested
