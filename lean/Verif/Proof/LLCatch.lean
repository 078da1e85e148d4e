import Verif.Proof.LLReach
import Verif.Proof.LLFault3
import Verif.Spec.LinkedListCatch
/-! # Linked lists in programs that catch the exceptions of element constructors -/
namespace Verif.Proof.LL
open Verif Verif.Model.LL
open Verif.Spec.LL hiding sorted
open Verif.Proof.Mem (Cost sumTo sumTo_congr sumTo_zero sumTo_change)

variable {α β : Type} {cfg : Cfg α}

/-! ## What is lost -/

theorem sumTo_extend {f : Nat → Nat} {n m : Nat} (hnm : n ≤ m) (hf : ∀ a, n ≤ a → f a = 0) : sumTo m f = sumTo n f := by
  induction m with
  | zero => rw [show n = 0 by omega]
  | succ m ih =>
    by_cases e : n = m + 1
    · rw [e]
    · rw [sumTo, ih (by omega), hf m (by omega)]; rfl

theorem sumTo_add (f g : Nat → Nat) (n : Nat) : sumTo n (fun a => f a + g a) = sumTo n f + sumTo n g := by
  induction n with
  | zero => rfl
  | succ n ih => simp only [sumTo, ih]; omega

/-- The lost nodes hold `e` elements and have `b` bytes. -/
def Amount (L : LostNodes α) (e b : Nat) : Prop :=
  ∃ N, (∀ a, N ≤ a → L a = none) ∧ (sumTo N fun a => liveOf (L a)) = e ∧ (sumTo N fun a => bytesOf (L a)) = b

theorem amount_none : Amount (fun _ => none : LostNodes α) 0 0 := ⟨0, fun _ _ => rfl, rfl, rfl⟩

/-- between the two heaps `e` elements and `b` bytes were gained -/
def Gains (h h' : Heap α) (e b : Nat) : Prop :=
  h'.ctors + h.dtors = h.ctors + h'.dtors + e ∧ h'.newBytes + h.freeBytes = h.newBytes + h'.freeBytes + b

section
variable {L : LostNodes α} {C C' : Ghost α} {w w' : World α} {h h' : Heap α} {k : Cost} {i j p n m hd tl hd2 tl2 own own2 : Nat}
  {cs cs' ds : Cells α} {x : α} {l l' : List Nat}

/-- the lost nodes once the nodes `l'` of `h'` are lost too -/
def loseIn (L : LostNodes α) (h' : Heap α) (l' : List Nat) : LostNodes α := fun a => if a ∈ l' then h'.info a else L a

theorem InvL.lose (I : InvL cfg L C w) (s : Step w.heap [] h' l' k) : InvL cfg (loseIn L h' l') C ⟨h', w.vars⟩ := by
  refine ⟨I.vars, fun i o ho => (I.ok i o ho).step s (by simp), I.sep, ?_, s.bal, ?_⟩
  · intro a ha
    by_cases hm : a ∈ l'
    · right; rw [loseIn, if_pos hm]; exact ha
    · have hl : Live w.heap a := by rw [Live, ← s.frame a (by simp) hm]; exact ha
      rw [loseIn, if_neg hm]
      exact I.kept a hl
  · intro a nd ha
    by_cases hm : a ∈ l'
    · rw [loseIn, if_pos hm] at ha
      exact ⟨ha, fun i hi => I.live hi (s.fresh a hm (by simp))⟩
    · rw [loseIn, if_neg hm] at ha
      obtain ⟨h1, h2⟩ := I.lost a nd ha
      exact ⟨(s.live (by simp) (by rw [Live, h1]; simp)).2.2.trans h1, h2⟩

theorem Bal.upTo (hb : Bal h) {M : Nat} (hM : h.next ≤ M) :
    (h.ctors = h.dtors + sumTo M fun a => liveOf (h.info a)) ∧ h.newBytes = h.freeBytes + sumTo M fun a => bytesOf (h.info a) := by
  rw [sumTo_extend hM (fun a ha => by simp [hb.fresh a ha, liveOf]), sumTo_extend hM (fun a ha => by simp [hb.fresh a ha, bytesOf])]
  exact ⟨hb.elems, hb.bytes⟩

theorem InvL.amount (I : InvL cfg L C w) (s : Step w.heap [] h' l' k) {e b e' b' : Nat} (ha : Amount L e b) (g : Gains w.heap h' e' b') :
    Amount (loseIn L h' l') (e + e') (b + b') := by
  obtain ⟨N, h1, h2, h3⟩ := ha
  let M := max N (max w.heap.next h'.next)
  have hN : N ≤ M := by omega
  have key : ∀ f : Option (Info α) → Nat, f none = 0 → (sumTo M fun a => f (loseIn L h' l' a)) + (sumTo M fun a => f (w.heap.info a)) =
      (sumTo M fun a => f (L a)) + (sumTo M fun a => f (h'.info a)) := by
    intro f f0
    rw [← sumTo_add, ← sumTo_add]
    refine sumTo_congr fun a _ => ?_
    by_cases hm : a ∈ l'
    · have e1 := s.fresh a hm (by simp)
      have e2 : L a = none := by
        cases hL : L a with
        | none => rfl
        | some nd => rw [(I.lost a nd hL).1] at e1; cases e1
      simp only [loseIn, if_pos hm, e1, e2, f0]; omega
    · simp only [loseIn, if_neg hm, s.frame a (by simp) hm]
  obtain ⟨b1, b2⟩ := I.bal.upTo (M := M) (by omega)
  obtain ⟨b3, b4⟩ := s.bal.upTo (M := M) (by omega)
  have k1 := key liveOf rfl
  have k2 := key bytesOf rfl
  rw [sumTo_extend hN (f := fun a => liveOf (L a)) (fun a ha => by simp [h1 a ha, liveOf])] at k1
  rw [sumTo_extend hN (f := fun a => bytesOf (L a)) (fun a ha => by simp [h1 a ha, bytesOf])] at k2
  obtain ⟨g1, g2⟩ := g
  refine ⟨M, ?_, by omega, by omega⟩
  intro a ha
  rw [loseIn]
  split
  · exact s.bal.fresh a (by omega)
  · exact h1 a (by omega)

/-- when no list is left, what is in memory is what was lost -/
theorem InvL.ended (I : InvL cfg L C w) (hC : ∀ i, C i = none) {e b : Nat} (ha : Amount L e b) :
    w.heap.ctors = w.heap.dtors + e ∧ w.heap.newBytes = w.heap.freeBytes + b := by
  obtain ⟨N, h1, h2, h3⟩ := ha
  have hL : ∀ a, w.heap.info a = L a := by
    intro a
    cases hi : w.heap.info a with
    | none =>
      cases hl : L a with
      | none => rfl
      | some nd => rw [(I.lost a nd hl).1] at hi; cases hi
    | some nd =>
      rcases I.kept a (by rw [Live, hi]; simp) with ⟨i, hm⟩ | hm
      · rw [hC i] at hm; cases hm
      · cases hl : L a with
        | none => exact absurd hl hm
        | some nd' => rw [(I.lost a nd' hl).1] at hi; exact hi.symm
  obtain ⟨b1, b2⟩ := I.bal.upTo (M := max N w.heap.next) (by omega)
  simp only [hL] at b1 b2
  rw [sumTo_extend (Nat.le_max_left N _) (fun a ha => by simp [h1 a ha, liveOf])] at b1
  rw [sumTo_extend (Nat.le_max_left N _) (fun a ha => by simp [h1 a ha, bytesOf])] at b2
  rw [h2] at b1; rw [h3] at b2
  exact ⟨b1, b2⟩

theorem gains_raw (own : Nat) : Gains h (rawNode cfg own h) 0 cfg.dsize := by
  constructor <;> simp [rawNode]; omega

theorem gains_leaked (hl : Leaked cfg h h' m) : Gains h h' m (2 * cfg.vsize + (m + 1) * cfg.dsize) := by
  obtain ⟨h1, h2, h3, h4⟩ := hl
  constructor
  · rw [h1, h2]; omega
  · rw [h3, h4]; omega

/-- one more node -/
theorem gains_one {b : Nat} {nd : Info α} (hb : Bal h) (s : Step h [] h' [b] k) (hi : h'.info b = some nd) :
    Gains h h' (liveOf (some nd)) (bytesOf (some nd)) := by
  let M := max h.next h'.next
  obtain ⟨b1, b2⟩ := hb.upTo (M := M) (by omega)
  obtain ⟨b3, b4⟩ := s.bal.upTo (M := M) (by omega)
  have hf : ∀ a, a ≠ b → h'.info a = h.info a := fun a ha => s.frame a (by simp) (by simpa using ha)
  have hlt : b < M := by have := s.bal.lt (a := b) (by rw [Live, hi]; simp); omega
  have e0 : h.info b = none := s.fresh b (by simp) (by simp)
  have k1 := sumTo_change (n := M) (f := fun c => liveOf (h.info c)) (g := fun c => liveOf (h'.info c)) hlt (fun c hc => by simp only [hf c hc])
  have k2 := sumTo_change (n := M) (f := fun c => bytesOf (h.info c)) (g := fun c => bytesOf (h'.info c)) hlt (fun c hc => by simp only [hf c hc])
  simp only [e0, hi] at k1 k2
  rw [show liveOf (none : Option (Info α)) = 0 from rfl] at k1
  rw [show bytesOf (none : Option (Info α)) = 0 from rfl] at k2
  constructor <;> omega

/-! ## Other lists -/

theorem InvL.view_others (I : InvL cfg L C w) (s : Step w.heap (onodes (C i)) h' l' k) {vars' : Nat → Option Lst}
    (hv : ∀ j, j ≠ i → vars' j = w.vars j) (j : Nat) (hj : j ≠ i) : Spec.LL.view ⟨h', vars'⟩ j = Spec.LL.view w j := by
  cases hc : C j with
  | none => simp [Spec.LL.view, hv j hj, I.vars, hc]
  | some o =>
    obtain ⟨b, a⟩ := o
    cases b with
    | none => simp [Spec.LL.view, hv j hj, I.vars, hc, Obj.fields]
    | some b =>
      obtain ⟨hd, tl, cs⟩ := b
      have h1 := Rep.nodesFrom (c1 := []) (I.rep hc)
      have h2 := Rep.nodesFrom (c1 := []) ((I.rep hc).step s (by
        have := I.sep j i hj
        rw [hc] at this
        exact this))
      rw [lastOf_nil] at h1 h2
      simp [Spec.LL.view, hv j hj, I.var hc, lst, h1, h2]

/-! ## Running the members -/

theorem createC_bad {f : M α (Option Lst)} {Q : Heap α → Prop} (hf : (f w.heap).SafeIf (Refuses cfg) fun q => q.1 = none ∧ Q q.2) :
    (createC i f w).SafeIf (Refuses cfg) fun q => q.1 = true ∧ q.2.vars = w.vars ∧ Q q.2.heap := by
  simp only [createC, Prog.bind_run, inHeap_run, out_assoc, Out.bind_ok]
  refine hf.bind ?_
  rintro ⟨o, h'⟩ ⟨e, hq⟩
  simp only at e
  subst e
  exact ⟨rfl, rfl, hq⟩

theorem changeC_bad {l : Lst} (hv : w.vars i = some l) {f : Lst → M α (Bool × Lst)} {Q : Lst → Heap α → Prop}
    (hf : (f l w.heap).SafeIf (Refuses cfg) fun q => q.1.1 = true ∧ Q q.1.2 q.2) :
    (changeC i f w).SafeIf (Refuses cfg) fun q => q.1 = true ∧ ∃ l', q.2.vars = upd w.vars i (some l') ∧ Q l' q.2.heap := by
  simp only [changeC, Prog.bind_run, var_run hv, inHeap_run, out_assoc, Out.bind_ok]
  refine hf.bind ?_
  rintro ⟨⟨b, l'⟩, h'⟩ ⟨e, hq⟩
  simp only at e
  subst e
  exact ⟨rfl, l', rfl, hq⟩

theorem changeQ_ends {l : Lst} (hv : w.vars i = some l) {f : Lst → M α Lst} (hf : EndsIn cfg (f l w.heap) .panic) :
    EndsIn cfg (changeQ i f w) .panic := by
  simp only [changeQ, changeC, Prog.bind_run, var_run hv, inHeap_run, out_assoc, Out.bind_ok]
  rcases hf with e | ⟨e, e2⟩
  · rw [e]; exact .inl rfl
  · rw [e]; exact .inr ⟨rfl, e2⟩

/-! ## The fates -/

/-- What a call during which construction `m` throws does, for each fate. -/
def Fares (cfg : Cfg α) (L : LostNodes α) (C : Ghost α) (w : World α) (x : Out (Bool × World α)) : Fate α → Prop
  | .caught A' loss => x.SafeIf (Refuses cfg) fun q => q.1 = true ∧ ∃ L' C', InvL cfg L' C' q.2 ∧ ideal C' = A' ∧
      ∀ e b, Amount L e b → Amount L' (e + loss.elems) (b + loss.bytes)
  | .ends => EndsIn cfg x .panic
  | .damaged i => x.SafeIf (Refuses cfg) fun q => q.1 = true ∧ (∀ j, j ≠ i → Spec.LL.view q.2 j = Spec.LL.view w j) ∧
      step cfg (.drop i) q.2 = .ub ∧ step cfg (.traverse i) q.2 = .ub
  | .stray i n loss => x.SafeIf (Refuses cfg) fun q => q.1 = true ∧ (∀ j, j ≠ i → Spec.LL.view q.2 j = Spec.LL.view w j) ∧
      step cfg (.moved i) q.2 = .ok (.bool true, q.2) ∧ step cfg (.size i) q.2 = .ok (.num n, q.2) ∧ Gains w.heap q.2.heap loss.elems loss.bytes
  | .undefined => EndsIn cfg x .ub

/-- the lists are as they were and some nodes are lost -/
theorem fares_lost {loss : Loss} {x : Out (Bool × World α)} (I : InvL cfg L C w)
    (hx : x.SafeIf (Refuses cfg) fun q => q.1 = true ∧ q.2.vars = w.vars ∧ Gains w.heap q.2.heap loss.elems loss.bytes ∧ ∃ l' k, Step w.heap [] q.2.heap l' k) :
    Fares cfg L C w x (.caught (ideal C) loss) := by
  refine Out.SafeIf.imp hx ?_
  rintro ⟨b, h', v'⟩ ⟨e1, e2, g, l', k, s⟩
  simp only at e1 e2 g s
  subst e1 e2
  exact ⟨rfl, _, C, I.lose s, rfl, fun e b ha => I.amount s ha g⟩

theorem upd_self {f : Nat → Option Lst} {l : Lst} (h : f i = some l) : upd f i (some l) = f := by
  funext j
  simp only [upd]
  split
  · rename_i e; rw [e, h]
  · rfl

/-- a member that threw before it changed anything, leaving one node without element -/
theorem fares_raw (I : InvL cfg L C w) (hi : C i = some (full hd tl cs own)) {f : Lst → M α (Bool × Lst)}
    (hf : (f (lst hd tl cs own) w.heap).SafeIf (Refuses cfg) fun q => q = ((true, lst hd tl cs own), rawNode cfg own w.heap)) :
    Fares cfg L C w (changeC i f w) (.caught (ideal C) ⟨0, cfg.dsize⟩) := by
  refine fares_lost I ((changeC_bad (Q := fun l' h' => l' = lst hd tl cs own ∧ h' = rawNode cfg own w.heap) (I.var hi) (hf.imp ?_)).imp ?_)
  · rintro _ rfl; exact ⟨rfl, rfl, rfl⟩
  · rintro ⟨b, h', v'⟩ ⟨e, l', e2, rfl, e4⟩
    simp only at e e2 e4
    subst e e2 e4
    exact ⟨rfl, upd_self (I.var hi), gains_raw own, _, _, step_rawNode I.bal⟩

theorem fares_damaged (I : InvL cfg L C w) (hi : C i = some (full hd tl cs own)) {f : Lst → M α (Bool × Lst)}
    (hf : (f (lst hd tl cs own) w.heap).SafeIf (Refuses cfg) fun q => q.1.1 = true ∧ traverse q.1.2 q.2 = .ub ∧ destruct cfg q.1.2 q.2 = .ub ∧
      ∃ l' k, Step w.heap (nodes hd tl cs) q.2 l' k) :
    Fares cfg L C w (changeC i f w) (.damaged i) := by
  refine Out.SafeIf.imp (changeC_bad (Q := fun l' h' => traverse l' h' = .ub ∧ destruct cfg l' h' = .ub ∧
    ∃ l' k, Step w.heap (nodes hd tl cs) h' l' k) (I.var hi) (hf.imp fun _ h => h)) ?_
  rintro ⟨b, h', v'⟩ ⟨e, l', e2, t1, t2, l2, k, s⟩
  simp only at e e2 t1 t2 s
  subst e e2
  have hv : (⟨h', upd w.vars i (some l')⟩ : World α).vars i = some l' := by simp [upd]
  refine ⟨rfl, ?_, ?_, ?_⟩
  · intro j hj
    refine I.view_others (i := i) (by rw [hi]; exact s) (fun j hj => ?_) j hj
    simp [upd, hj]
  · simp only [step, Prog.bind_run, var_run hv, Out.bind_ok, inHeap_run, t2]; rfl
  · simp only [step, look, Prog.bind_run, var_run hv, Out.bind_ok, inHeap_run, t1]; rfl

theorem fares_create (I : InvL cfg L C w) {f : M α (Option Lst)}
    (hf : (f w.heap).SafeIf (Refuses cfg) fun q => q.1 = none ∧ Leaked cfg w.heap q.2 m ∧ ∃ l' k, Step w.heap [] q.2 l' k) :
    Fares cfg L C w (createC i f w) (.caught (ideal C) ⟨m, 2 * cfg.vsize + (m + 1) * cfg.dsize⟩) :=
  fares_lost I ((createC_bad (i := i) (Q := fun h' => Leaked cfg w.heap h' m ∧ ∃ l' k, Step w.heap [] h' l' k) hf).imp fun _ h =>
    ⟨h.1, h.2.1, gains_leaked h.2.2.1, h.2.2.2⟩)

theorem throwAt_quiet (k m : Nat) : ∀ j < m, throwAt k m (k + j) = false := by
  intro j hj
  simp only [throwAt, beq_eq_false_iff_ne]; omega

theorem throwAt_now (k m : Nat) : throwAt k m (k + m) = true := by simp [throwAt]

/-! ## Every call -/

section
variable {r : Res α} {A' : Ideal α}

theorem t_newFill {ra : Arg α} (I : InvL cfg L C w) (ha : argVal (ideal C) ra = some x) (hm : m < n) (a : Nat) :
    Fares cfg L C w (throwStep cfg (throwAt w.heap.ctors m) (.newFill i n ra a) w) (.caught (ideal C) ⟨m, 2 * cfg.vsize + (m + 1) * cfg.dsize⟩) := by
  obtain ⟨ref, e1, e2, -⟩ := argRef_ok I ha
  simp only [throwStep, Prog.bind_run, e1, Out.bind_ok]
  exact fares_create I (newFillT_bad I.bal e2 hm (throwAt_quiet _ _) (throwAt_now _ _) a)

theorem t_fromIter (I : InvL cfg L C w) {xs : List α} (hm : m < xs.length) :
    Fares cfg L C w (throwStep cfg (throwAt w.heap.ctors m) (.fromIter i xs) w) (if m = 0 then .caught (ideal C) ⟨0, cfg.dsize⟩ else .undefined) := by
  by_cases h0 : m = 0
  · subst h0
    rw [if_pos rfl]
    refine fares_lost I ((createC_bad (Q := fun h' => ∃ b k, Step w.heap [] h' [b] k ∧ h'.info b = some ⟨dfltAlloc, cfg.dsize, .raw⟩)
      ((fromIterT_first I.bal (by rintro rfl; simp at hm) (throwAt_now w.heap.ctors 0)).imp ?_)).imp ?_)
    · rintro q ⟨h1, b, k, s, -, -, h2⟩
      exact ⟨h1, b, k, s, h2⟩
    · rintro q ⟨h1, h2, b, k, s, h3⟩
      exact ⟨h1, h2, gains_one I.bal s h3, _, _, s⟩
  · rw [if_neg h0]
    simp only [throwStep, createC, Prog.bind_run, inHeap_run]
    have := fromIterT_bad (cfg := cfg) (thr := throwAt w.heap.ctors m) I.bal (by omega) hm (throwAt_quiet _ _) (throwAt_now _ _)
    rcases this with e | ⟨e, e2⟩
    · rw [e]; exact .inl rfl
    · rw [e]; exact .inr ⟨rfl, e2⟩

theorem t_copyAssign (I : InvL cfg L C w) (hij : i ≠ j) {o : Obj α} (hi : C i = some o) (hj : C j = some (full hd tl cs own)) (hm : m < cs.length) :
    Fares cfg L C w (throwStep cfg (throwAt w.heap.ctors m) (.copyAssign i j) w) (fateC cfg.vsize cfg.dsize (ideal C) m (.copyAssign i j)) := by
  simp only [throwStep, hij, if_false, Prog.bind_run, var_run (I.var hj), Out.bind_ok]
  obtain ⟨b, a⟩ := o
  cases b with
  | some b =>
    obtain ⟨hd', tl', cs'⟩ := b
    have e : (fateC cfg.vsize cfg.dsize (ideal C) m (.copyAssign i j)) = .damaged i := by
      simp [fateC, ideal, hi, Obj.value]
    rw [e]
    refine fares_damaged I hi ((copyAssignT_bad I.bal (I.rep hi) (I.rep hj) ?_ hm (throwAt_quiet _ _) (throwAt_now _ _)).imp ?_)
    · exact I.disj hij hi hj
    · rintro q ⟨h1, h2, h3, h4⟩
      exact ⟨by rw [h1], h2, h3, h4⟩
  | none =>
    have hv : w.vars i = some ⟨none, none, 0, a⟩ := by rw [I.vars, hi]; rfl
    have key := changeC_bad (cfg := cfg) (i := i) (f := fun l => copyAssignT cfg (throwAt w.heap.ctors m) l (lst hd tl cs own))
      (Q := fun l' h' => l' = ⟨none, none, m, own⟩ ∧ Leaked cfg w.heap h' m ∧ ∃ l' k, Step w.heap [] h' l' k) hv (by
        simp only [copyAssignT, Prog.bind_run, destruct, clear]
        simp only [Option.isSome, Bool.false_eq_true, if_false, if_true, Prog.pure_run, Out.bind_ok]
        refine (copyImplT_bad I.bal (I.rep hj) hm (throwAt_quiet _ _) (throwAt_now _ _) ⟨none, none, 0, own⟩).imp ?_
        rintro ⟨q, h'⟩ ⟨e, hL⟩
        simp only at e
        subst e
        exact ⟨rfl, rfl, hL⟩)
    by_cases h0 : m = 0
    · subst h0
      have e : (fateC cfg.vsize cfg.dsize (ideal C) 0 (.copyAssign i j)) = .caught (put (ideal C) i (some ⟨none, own⟩)) ⟨0, 2 * cfg.vsize + cfg.dsize⟩ := by
        simp [fateC, ideal, hi, hj, Obj.value]
      rw [e]
      refine Out.SafeIf.imp key ?_
      rintro ⟨b, h', v'⟩ ⟨e, l', e2, e3, hL, l2, k, s⟩
      simp only at e e2 e3 hL s
      subst e e2 e3
      have I2 := I.put1 i (o := some (huskObj own)) (h' := w.heap) (k := 0) (by rw [hi]; exact Step.refl I.bal _) (by rintro x hx; cases hx; trivial)
      have s2 : Step (⟨w.heap, upd w.vars i ((some (huskObj own : Obj α)).map Obj.fields)⟩ : World α).heap [] h' l2 k := s
      have g := gains_leaked hL
      rw [Nat.zero_add, Nat.one_mul] at g
      exact ⟨rfl, _, _, I2.lose s2, by rw [ideal_put]; rfl, fun e b ha => I2.amount s2 ha g⟩
    · have e : (fateC cfg.vsize cfg.dsize (ideal C) m (.copyAssign i j)) = .stray i m ⟨m, 2 * cfg.vsize + (m + 1) * cfg.dsize⟩ := by
        simp [fateC, ideal, hi, Obj.value, h0]
      rw [e]
      refine Out.SafeIf.imp key ?_
      rintro ⟨b, h', v'⟩ ⟨e, l', e2, e3, hL, l2, k, s⟩
      simp only at e e2 e3 hL s
      subst e e2 e3
      have hv' : (⟨h', upd w.vars i (some ⟨none, none, m, own⟩)⟩ : World α).vars i = some ⟨none, none, m, own⟩ := by simp [upd]
      refine ⟨rfl, ?_, look_ok hv' rfl, look_ok hv' rfl, gains_leaked hL⟩
      intro j hj
      refine I.view_others (i := i) (by rw [hi]; exact s) (fun j hj => ?_) j hj
      simp [upd, hj]

theorem t_listAssign (I : InvL cfg L C w) (hi : C i = some (full hd tl cs own)) {xs : List α} (hm : m < xs.length) :
    Fares cfg L C w (throwStep cfg (throwAt w.heap.ctors m) (.listAssign i xs) w) (fateC cfg.vsize cfg.dsize (ideal C) m (.listAssign i xs)) := by
  simp only [throwStep, fateC]
  by_cases h0 : m = 0
  · subst h0
    rw [if_pos rfl]
    obtain ⟨h1, e1, ed⟩ := clear_ok I.bal (I.rep hi)
    have hc : h1.ctors = w.heap.ctors := ed.step.ctors
    have key := changeC_bad (cfg := cfg) (i := i) (f := fun l => listAssignT cfg (throwAt w.heap.ctors 0) l xs)
      (Q := fun l' h' => l' = lst hd tl ([] : Cells α) own ∧ h' = rawNode cfg own h1) (I.var hi) (by
        simp only [listAssignT, Prog.bind_run, e1, Out.bind_ok]
        rw [rangeLoopT_first (by rintro rfl; simp at hm) (by rw [hc]; exact throwAt_now _ _)]
        split
        · rename_i hr; exact ⟨_, _, hr⟩
        · exact ⟨rfl, rfl, rfl⟩)
    refine Out.SafeIf.imp key ?_
    rintro ⟨b, h', v'⟩ ⟨e, l', e2, e3, e4⟩
    simp only at e e2 e3 e4
    subst e e2 e3 e4
    have I2 := I.put1 i (o := some (full hd tl [] own)) (h' := h1) (by rw [hi]; exact ed.step) (by rintro x hx; cases hx; exact ed.rep)
    have s2 := step_rawNode (cfg := cfg) (own := own) I2.bal
    refine ⟨rfl, _, _, I2.lose s2, ?_, fun e b ha => I2.amount s2 ha (gains_raw own)⟩
    rw [ideal_put, emptied]
    congr 1
    simp [ideal, hi, Obj.value]
  · rw [if_neg h0]
    exact fares_damaged I hi (listAssignT_bad I.bal (I.rep hi) (by omega) hm (throwAt_quiet _ _) (throwAt_now _ _))

theorem t_insertAfter {ra : Arg α} (I : InvL cfg L C w) (hi : C i = some (full hd tl cs own)) (ha : argVal (ideal C) ra = some x) (hp : p ≤ cs.length) :
    Fares cfg L C w (throwStep cfg (throwAt w.heap.ctors 0) (.insertAfter i p ra) w) (.caught (ideal C) ⟨0, cfg.dsize⟩) := by
  obtain ⟨ref, e1, e2, -⟩ := argRef_ok I ha
  have rp := I.rep hi
  simp only [throwStep, Prog.bind_run, e1, Out.bind_ok]
  refine fares_raw I hi ?_
  have key := emplaceAfterT_bad (rp.split p) e2 (throwAt_now w.heap.ctors 0)
  rw [List.take_append_drop] at key
  simp only [Prog.bind_run, at_ok rp hp, Out.bind_ok]
  exact key

theorem t_insert {ra : Arg α} (I : InvL cfg L C w) (hi : C i = some (full hd tl cs own)) (ha : argVal (ideal C) ra = some x)
    (hp : 1 ≤ p ∧ p ≤ cs.length + 1) :
    Fares cfg L C w (throwStep cfg (throwAt w.heap.ctors 0) (.insert i p ra) w) (.caught (ideal C) ⟨0, cfg.dsize⟩) := by
  obtain ⟨ref, e1, e2, -⟩ := argRef_ok I ha
  have rp := I.rep hi
  simp only [throwStep, Prog.bind_run, e1, Out.bind_ok]
  refine fares_raw I hi ?_
  have key := emplaceT_bad (rp.split (p - 1)) e2 (throwAt_now w.heap.ctors 0)
  rw [List.take_append_drop] at key
  simp only [Prog.bind_run, at_next rp hp, Out.bind_ok]
  exact key

theorem t_insertAfterFill {ra : Arg α} (I : InvL cfg L C w) (hi : C i = some (full hd tl cs own)) (ha : argVal (ideal C) ra = some x)
    (hp : p ≤ cs.length) (hm : m < n) :
    Fares cfg L C w (throwStep cfg (throwAt w.heap.ctors m) (.insertAfterFill i p n ra) w)
      (if m = 0 then .caught (ideal C) ⟨0, cfg.dsize⟩ else .damaged i) := by
  obtain ⟨ref, e1, e2, -⟩ := argRef_ok I ha
  have rp := I.rep hi
  simp only [throwStep, Prog.bind_run, e1, Out.bind_ok]
  by_cases h0 : m = 0
  · subst h0
    rw [if_pos rfl]
    refine fares_raw I hi ?_
    have key := (first_throw (rp.split p) (xs := [x]) (by simp) e2 (n := n) (by omega) (throwAt_now w.heap.ctors 0)).2.1
    rw [List.take_append_drop] at key
    simp only [Prog.bind_run, at_ok rp hp, Out.bind_ok]
    exact key
  · rw [if_neg h0]
    refine fares_damaged I hi ?_
    have key := insertAfterFillT_bad I.bal (rp.split p) e2 (by omega) hm (throwAt_quiet _ _) (throwAt_now w.heap.ctors m)
    rw [List.take_append_drop] at key
    simp only [Prog.bind_run, at_ok rp hp, Out.bind_ok]
    exact key

theorem t_insertAfterRange (I : InvL cfg L C w) (hi : C i = some (full hd tl cs own)) (hp : p ≤ cs.length) {xs : List α} (hm : m < xs.length) :
    Fares cfg L C w (throwStep cfg (throwAt w.heap.ctors m) (.insertAfterRange i p xs) w)
      (if m = 0 then .caught (ideal C) ⟨0, cfg.dsize⟩ else .damaged i) := by
  have rp := I.rep hi
  simp only [throwStep]
  by_cases h0 : m = 0
  · subst h0
    rw [if_pos rfl]
    refine fares_raw I hi ?_
    have key := (first_throw (rp.split p) (xs := xs) (by rintro rfl; simp at hm) (refIs_tmp (x := cfg.dflt)) (n := 1) (by simp)
      (throwAt_now w.heap.ctors 0)).1
    rw [List.take_append_drop] at key
    simp only [Prog.bind_run, at_ok rp hp, Out.bind_ok]
    exact key
  · rw [if_neg h0]
    refine fares_damaged I hi ?_
    have key := insertAfterRangeT_bad I.bal (rp.split p) (by omega) hm (throwAt_quiet _ _) (throwAt_now w.heap.ctors m)
    rw [List.take_append_drop] at key
    simp only [Prog.bind_run, at_ok rp hp, Out.bind_ok]
    exact key

theorem t_insertFill {ra : Arg α} (hd' : cfg.dbl = true) (I : InvL cfg L C w) (hi : C i = some (full hd tl cs own))
    (ha : argVal (ideal C) ra = some x) (hp : 1 ≤ p ∧ p ≤ cs.length + 1) (hm : m < n) :
    Fares cfg L C w (throwStep cfg (throwAt w.heap.ctors m) (.insertFill i p n ra) w)
      (if m = 0 then .caught (ideal C) ⟨0, cfg.dsize⟩ else .damaged i) := by
  obtain ⟨ref, e1, e2, -⟩ := argRef_ok I ha
  have rp := I.rep hi
  simp only [throwStep, Prog.bind_run, e1, Out.bind_ok]
  by_cases h0 : m = 0
  · subst h0
    rw [if_pos rfl]
    refine fares_raw I hi ?_
    have key := ((first_throw (rp.split (p - 1)) (xs := [x]) (by simp) e2 (n := n) (by omega) (throwAt_now w.heap.ctors 0)).2.2 hd').2
    rw [List.take_append_drop] at key
    simp only [Prog.bind_run, at_next rp hp, Out.bind_ok]
    exact key
  · rw [if_neg h0]
    refine fares_damaged I hi ?_
    have key := insertFillT_bad I.bal (rp.split (p - 1)) hd' e2 (by omega) hm (throwAt_quiet _ _) (throwAt_now w.heap.ctors m)
    rw [List.take_append_drop] at key
    simp only [Prog.bind_run, at_next rp hp, Out.bind_ok]
    exact key

theorem t_insertRange (hd' : cfg.dbl = true) (I : InvL cfg L C w) (hi : C i = some (full hd tl cs own)) (hp : 1 ≤ p ∧ p ≤ cs.length + 1)
    {xs : List α} (hm : m < xs.length) :
    Fares cfg L C w (throwStep cfg (throwAt w.heap.ctors m) (.insertRange i p xs) w)
      (if m = 0 then .caught (ideal C) ⟨0, cfg.dsize⟩ else .damaged i) := by
  have rp := I.rep hi
  simp only [throwStep]
  by_cases h0 : m = 0
  · subst h0
    rw [if_pos rfl]
    refine fares_raw I hi ?_
    have key := ((first_throw (rp.split (p - 1)) (xs := xs) (by rintro rfl; simp at hm) (refIs_tmp (x := cfg.dflt)) (n := 1) (by simp)
      (throwAt_now w.heap.ctors 0)).2.2 hd').1
    rw [List.take_append_drop] at key
    simp only [Prog.bind_run, at_next rp hp, Out.bind_ok]
    exact key
  · rw [if_neg h0]
    refine fares_damaged I hi ?_
    have key := insertRangeT_bad I.bal (rp.split (p - 1)) hd' (by omega) hm (throwAt_quiet _ _) (throwAt_now w.heap.ctors m)
    rw [List.take_append_drop] at key
    simp only [Prog.bind_run, at_next rp hp, Out.bind_ok]
    exact key

theorem t_pushFront {ra : Arg α} (I : InvL cfg L C w) (hi : C i = some (full hd tl cs own)) (ha : argVal (ideal C) ra = some x) :
    Fares cfg L C w (throwStep cfg (throwAt w.heap.ctors 0) (.pushFront i ra) w) .ends := by
  obtain ⟨ref, e1, e2, -⟩ := argRef_ok I ha
  simp only [throwStep, Prog.bind_run, e1, Out.bind_ok]
  refine changeQ_ends (I.var hi) ?_
  simp only [pushFrontT, Prog.bind_run, e2.deref, Out.bind_ok, constructNodeT_eq]
  have ht : throwAt w.heap.ctors 0 w.heap.ctors = true := throwAt_now _ 0
  rw [ht]
  split
  · rename_i hr; exact .inr ⟨rfl, _, _, hr⟩
  · exact .inl rfl

theorem t_pushBack {ra : Arg α} (I : InvL cfg L C w) (hi : C i = some (full hd tl cs own)) (ha : argVal (ideal C) ra = some x) :
    Fares cfg L C w (throwStep cfg (throwAt w.heap.ctors 0) (.pushBack i ra) w) .ends := by
  obtain ⟨ref, e1, e2, -⟩ := argRef_ok I ha
  simp only [throwStep, Prog.bind_run, e1, Out.bind_ok]
  refine changeQ_ends (I.var hi) ?_
  simp only [pushBackT, Prog.bind_run, e2.deref, Out.bind_ok, constructNodeT_eq]
  have ht : throwAt w.heap.ctors 0 w.heap.ctors = true := throwAt_now _ 0
  rw [ht]
  split
  · rename_i hr; exact .inr ⟨rfl, _, _, hr⟩
  · exact .inl rfl

theorem throw_fares (op : Op α) (I : InvL cfg L C w) (hs : specStep false cfg.dbl cfg.dflt op (ideal C) = some (r, A'))
    (hm : m < (work (ideal C) op).made) :
    Fares cfg L C w (throwStep cfg (throwAt w.heap.ctors m) op w) (fateC cfg.vsize cfg.dsize (ideal C) m op) := by
  have one : ∀ a : Nat, a < 1 → a = 0 := by omega
  cases op with
  | newFill i n r a =>
    obtain ⟨x, h0, hs⟩ := Option.bind_eq_some_iff.1 hs
    exact t_newFill I h0 hm a
  | newCount i n a => exact fares_create I (newFillT_bad I.bal (refIs_tmp (x := cfg.dflt)) hm (throwAt_quiet _ _) (throwAt_now _ _) a)
  | newRange i xs a =>
    refine fares_create I ((newRangeT_bad I.bal hm (throwAt_quiet _ _) (throwAt_now _ _) a).imp ?_)
    rintro q ⟨h1, h2, h3, h4, h5, -, h6⟩
    exact ⟨h1, ⟨h2, h3, h4, h5⟩, h6⟩
  | newCopy i j =>
    obtain ⟨hd, tl, cs, own, h1, hs⟩ := full_inv (C := C) (i := _) (β := Res α × Ideal α) (y := (r, A')) (f := fun own ys => born (ideal C) i ⟨some ys, own⟩) hs
    rw [work, lenOf_full h1] at hm
    simp only [throwStep, Prog.bind_run, var_run (I.var h1), Out.bind_ok]
    exact fares_create I (newCopyT_bad I.bal (I.rep h1) hm (throwAt_quiet _ _) (throwAt_now _ _) _)
  | newCopyAlloc i j a =>
    obtain ⟨hd, tl, cs, own, h1, hs⟩ := full_inv (C := C) (i := _) (β := Res α × Ideal α) (y := (r, A')) (f := fun _ ys => born (ideal C) i ⟨some ys, a⟩) hs
    rw [work, lenOf_full h1] at hm
    simp only [throwStep, Prog.bind_run, var_run (I.var h1), Out.bind_ok]
    exact fares_create I (newCopyT_bad I.bal (I.rep h1) hm (throwAt_quiet _ _) (throwAt_now _ _) _)
  | fromIter i xs => exact t_fromIter I hm
  | copyAssign i j =>
    obtain ⟨o, h1, hs⟩ := bind_inv hs
    obtain ⟨hd, tl, cs, own, h2, hs⟩ := full_inv (C := C) (i := _) (β := Res α × Ideal α) (y := (r, A')) (f := fun own ys =>
      if i = j then some (.unit, ideal C) else some (.unit, put (ideal C) i (some ⟨some ys, own⟩))) hs
    by_cases hij : i = j
    · rw [work, if_pos hij] at hm; exact absurd hm (by simp [nothing])
    · rw [work, if_neg hij, lenOf_full h2, lose, build, work_add] at hm
      exact t_copyAssign I hij h1 h2 (by simpa using hm)
  | listAssign i xs =>
    obtain ⟨hd, tl, cs, own, xs', h1, h2, rfl⟩ := edit_inv hs
    rw [work, lose, add, work_add] at hm
    exact t_listAssign I h1 (by simpa using hm)
  | insertAfter i p r =>
    obtain ⟨x, h0, hs⟩ := Option.bind_eq_some_iff.1 hs
    obtain ⟨hd, tl, cs, own, xs', h1, h2, rfl⟩ := edit_inv hs
    obtain ⟨h3, h2⟩ := needs_inv h2
    rw [vals_len] at h3
    rw [one m hm]
    exact t_insertAfter I h1 h0 h3
  | insertAfterFill i p n r =>
    obtain ⟨x, h0, hs⟩ := Option.bind_eq_some_iff.1 hs
    obtain ⟨hd, tl, cs, own, xs', h1, h2, rfl⟩ := edit_inv hs
    obtain ⟨h3, h2⟩ := needs_inv h2
    rw [vals_len] at h3
    exact t_insertAfterFill I h1 h0 h3 hm
  | insertAfterRange i p xs =>
    obtain ⟨hd, tl, cs, own, xs', h1, h2, rfl⟩ := edit_inv hs
    obtain ⟨h3, h2⟩ := needs_inv h2
    rw [vals_len] at h3
    exact t_insertAfterRange I h1 h3 hm
  | insert i p r =>
    obtain ⟨hd', hs⟩ := needs_inv hs
    obtain ⟨x, h0, hs⟩ := Option.bind_eq_some_iff.1 hs
    obtain ⟨hd, tl, cs, own, xs', h1, h2, rfl⟩ := edit_inv hs
    obtain ⟨h3, h2⟩ := needs_inv h2
    rw [vals_len] at h3
    rw [one m hm]
    exact t_insert I h1 h0 h3
  | insertFill i p n r =>
    obtain ⟨hd', hs⟩ := needs_inv hs
    obtain ⟨x, h0, hs⟩ := Option.bind_eq_some_iff.1 hs
    obtain ⟨hd, tl, cs, own, xs', h1, h2, rfl⟩ := edit_inv hs
    obtain ⟨h3, h2⟩ := needs_inv h2
    rw [vals_len] at h3
    exact t_insertFill hd' I h1 h0 h3 hm
  | insertRange i p xs =>
    obtain ⟨hd', hs⟩ := needs_inv hs
    obtain ⟨hd, tl, cs, own, xs', h1, h2, rfl⟩ := edit_inv hs
    obtain ⟨h3, h2⟩ := needs_inv h2
    rw [vals_len] at h3
    exact t_insertRange hd' I h1 h3 hm
  | pushFront i r =>
    obtain ⟨x, h0, hs⟩ := Option.bind_eq_some_iff.1 hs
    obtain ⟨hd, tl, cs, own, xs', h1, h2, rfl⟩ := edit_inv hs
    rw [one m hm]
    exact t_pushFront I h1 h0
  | pushBack i r =>
    obtain ⟨hd', hs⟩ := needs_inv hs
    obtain ⟨x, h0, hs⟩ := Option.bind_eq_some_iff.1 hs
    obtain ⟨hd, tl, cs, own, xs', h1, h2, rfl⟩ := edit_inv hs
    rw [one m hm]
    exact t_pushBack I h1 h0
  | resize i n =>
    obtain ⟨hd, tl, cs, own, xs', h1, h2, rfl⟩ := edit_inv hs
    rw [work, lenOf_full h1] at hm
    split at hm
    · exact absurd hm (by simp [lose])
    · simp only [add] at hm
      exact changeQ_ends (I.var h1) (resizeFillT_bad I.bal (I.rep h1) (by omega) (refIs_tmp (x := cfg.dflt)) (throwAt_now _ m))
  | resizeFill i n r =>
    obtain ⟨x, h0, hs⟩ := Option.bind_eq_some_iff.1 hs
    obtain ⟨hd, tl, cs, own, xs', h1, h2, rfl⟩ := edit_inv hs
    rw [work, lenOf_full h1] at hm
    obtain ⟨ref, e1, e2, -⟩ := argRef_ok I h0
    split at hm
    · exact absurd hm (by simp [lose])
    · simp only [add] at hm
      simp only [throwStep, Prog.bind_run, e1, Out.bind_ok]
      exact changeQ_ends (I.var h1) (resizeFillT_bad I.bal (I.rep h1) (by omega) e2 (throwAt_now _ m))
  | moveAssign i j =>
    rw [work] at hm
    split at hm <;> exact absurd hm (by simp [nothing, lose])
  | _ => exact absurd hm (by simp [work, nothing, lose, build])
end

/-! ## Programs -/

section
variable {loss loss' : Loss} {A A' : Ideal α}

theorem stepC_some (op : Op α) (m : Nat) (w : World α) : stepC cfg op (some m) w = (throwStep cfg (throwAt w.heap.ctors m) op w >>= fun q =>
    if q.1 then .ok (none, q.2) else (step cfg op w >>= fun q => .ok (some q.1, q.2))) := rfl

theorem stepC_threw {op : Op α} {Q : World α → Prop}
    (hx : (throwStep cfg (throwAt w.heap.ctors m) op w).SafeIf (Refuses cfg) fun q => q.1 = true ∧ Q q.2) :
    (stepC cfg op (some m) w).SafeIf (Refuses cfg) fun q => q.1 = none ∧ Q q.2 := by
  rw [stepC_some]
  refine hx.bind ?_
  rintro ⟨b, w'⟩ ⟨e, hq⟩
  simp only at e
  subst e
  exact ⟨rfl, hq⟩

theorem stepC_ends {op : Op α} (hx : EndsIn cfg (throwStep cfg (throwAt w.heap.ctors m) op w) .panic) :
    EndsIn cfg (stepC cfg op (some m) w) .panic := by
  rw [stepC_some]
  rcases hx with e | ⟨e, e2⟩
  · rw [e]; exact .inl rfl
  · rw [e]; exact .inr ⟨rfl, e2⟩

theorem stepC_undefined {op : Op α} (hx : EndsIn cfg (throwStep cfg (throwAt w.heap.ctors m) op w) .ub) :
    EndsIn cfg (stepC cfg op (some m) w) .ub := by
  rw [stepC_some]
  rcases hx with e | ⟨e, e2⟩
  · rw [e]; exact .inl rfl
  · rw [e]; exact .inr ⟨rfl, e2⟩

/-- the world holds the lists `A` and has lost `loss` -/
def HoldsC (cfg : Cfg α) (A : Ideal α) (loss : Loss) (w : World α) : Prop :=
  ∃ L C, InvL cfg L C w ∧ ideal C = A ∧ Amount L loss.elems loss.bytes

theorem stepC_ok {op : Op α} {t : Option Nat} {r : Option (Res α)} (H : HoldsC cfg A loss w)
    (hs : specStepC cfg.dbl cfg.dflt cfg.vsize cfg.dsize op t (A, loss) = some (r, A', loss')) :
    (stepC cfg op t w).SafeIf (Refuses cfg) fun q => q.1 = r ∧ HoldsC cfg A' loss' q.2 := by
  obtain ⟨L, C, I, rfl, ha⟩ := H
  obtain ⟨⟨r0, A0⟩, h1, h2⟩ := Option.bind_eq_some_iff.1 hs
  simp only at h1 h2
  cases t with
  | none =>
    cases h2
    simp only [stepC, Prog.bind_run]
    refine (step_ok op I h1).bind ?_
    rintro ⟨r', w'⟩ ⟨e, C', I', e', -⟩
    simp only at e I'
    subst e e'
    exact ⟨rfl, L, C', I', rfl, ha⟩
  | some m =>
    obtain ⟨hm, h2⟩ := needs_inv h2
    have key := throw_fares op I h1 hm
    cases hf : fateC cfg.vsize cfg.dsize (ideal C) m op with
    | caught A1 l1 =>
      rw [hf] at key h2
      cases h2
      refine stepC_threw (Out.SafeIf.imp key ?_)
      rintro q ⟨e, L', C', I', e', am⟩
      exact ⟨e, L', C', I', e', am _ _ ha⟩
    | _ => rw [hf] at h2; cases h2

theorem runC_ok (ops : List (Op α × Option Nat)) {rs : List (Option (Res α))} (H : HoldsC cfg A loss w)
    (hs : specRunC cfg.dbl cfg.dflt cfg.vsize cfg.dsize ops (A, loss) = some (rs, A', loss')) :
    (runC cfg ops w).SafeIf (Refuses cfg) fun q => q.1 = rs ∧ HoldsC cfg A' loss' q.2 := by
  induction ops generalizing A loss w rs with
  | nil => cases hs; exact ⟨rfl, H⟩
  | cons op ops ih =>
    simp only [specRunC] at hs
    cases h1 : specStepC cfg.dbl cfg.dflt cfg.vsize cfg.dsize op.1 op.2 (A, loss) with
    | none => rw [h1] at hs; cases hs
    | some q =>
      obtain ⟨r, A1, l1⟩ := q
      rw [h1] at hs
      simp only at hs
      cases h2 : specRunC cfg.dbl cfg.dflt cfg.vsize cfg.dsize ops (A1, l1) with
      | none => rw [h2] at hs; cases hs
      | some q2 =>
        obtain ⟨rs', S2⟩ := q2
        rw [h2] at hs
        cases hs
        simp only [runC, Prog.bind_run]
        refine (stepC_ok H h1).bind ?_
        rintro ⟨r', w'⟩ ⟨e, H'⟩
        simp only at e H'
        subst e
        refine (ih H' h2).bind ?_
        rintro ⟨rs2, w2⟩ ⟨e, H2⟩
        simp only at e
        subst e
        exact ⟨rfl, H2⟩

theorem holdsC_start : HoldsC cfg (start (α := α)).1 (start (α := α)).2 ({} : World α) := ⟨_, _, inv_init, rfl, amount_none⟩

theorem HoldsC.view (H : HoldsC cfg A loss w) : Spec.LL.view w = A := by
  obtain ⟨L, C, I, rfl, -⟩ := H
  exact I.view

theorem reachC_holds (hr : ReachC cfg loss w) : ∃ A, HoldsC cfg A loss w := by
  obtain ⟨ops, rs, A, rs', hs, he⟩ := hr
  have := runC_ok ops holdsC_start hs
  rw [he] at this
  exact ⟨A, this.2⟩

theorem specRunC_snoc {dbl : Bool} {dflt : α} {v d : Nat} (ops : List (Op α × Option Nat)) (op : Op α × Option Nat) {S S' S'' : State α}
    {rs : List (Option (Res α))} {r : Option (Res α)} (h1 : specRunC dbl dflt v d ops S = some (rs, S'))
    (h2 : specStepC dbl dflt v d op.1 op.2 S' = some (r, S'')) : specRunC dbl dflt v d (ops ++ [op]) S = some (rs ++ [r], S'') := by
  induction ops generalizing S rs with
  | nil => cases h1; simp [specRunC, h2]
  | cons o ops ih =>
    simp only [specRunC, List.cons_append] at h1 ⊢
    cases hs : specStepC dbl dflt v d o.1 o.2 S with
    | none => rw [hs] at h1; cases h1
    | some p =>
      rw [hs] at h1
      simp only at h1 ⊢
      cases hr : specRunC dbl dflt v d ops p.2 with
      | none => rw [hr] at h1; cases h1
      | some q =>
        rw [hr] at h1
        cases h1
        rw [ih hr]
        rfl

theorem runC_snoc (ops : List (Op α × Option Nat)) (op : Op α × Option Nat) {w w' w'' : World α} {rs : List (Option (Res α))} {r : Option (Res α)}
    (h1 : runC cfg ops w = .ok (rs, w')) (h2 : stepC cfg op.1 op.2 w' = .ok (r, w'')) : runC cfg (ops ++ [op]) w = .ok (rs ++ [r], w'') := by
  induction ops generalizing w rs with
  | nil => cases h1; simp [runC, Prog.bind_run, h2]
  | cons o ops ih =>
    simp only [runC, List.cons_append, Prog.bind_run] at h1 ⊢
    cases hs : stepC cfg o.1 o.2 w with
    | ok p =>
      rw [hs] at h1
      simp only [Out.bind_ok] at h1 ⊢
      cases hr : runC cfg ops p.2 with
      | ok q =>
        rw [hr] at h1
        cases h1
        rw [ih hr]
        rfl
      | _ => rw [hr] at h1; cases h1
    | _ => rw [hs] at h1; cases h1

theorem reachC_snoc (hr : ReachC cfg loss w) {op : Op α} {t : Option Nat} {r r' : Option (Res α)}
    (hs : specStepC cfg.dbl cfg.dflt cfg.vsize cfg.dsize op t (Spec.LL.view w, loss) = some (r, A', loss'))
    (he : stepC cfg op t w = .ok (r', w')) : ReachC cfg loss' w' := by
  obtain ⟨ops, rs, A, rs', h1, h2⟩ := hr
  have hA : Spec.LL.view w = A := by
    have := runC_ok ops holdsC_start h1
    rw [h2] at this
    exact this.2.view
  rw [hA] at hs
  exact ⟨ops ++ [(op, t)], _, _, _, specRunC_snoc ops (op, t) h1 hs, runC_snoc ops (op, t) h2 he⟩

/-- a program that survived an exception has lost at least one node -/
theorem specRunC_loses {dbl : Bool} {dflt : α} {v d : Nat} (ops : List (Op α × Option Nat)) {S S' : State α}
    {rs : List (Option (Res α))} (hs : specRunC dbl dflt v d ops S = some (rs, S')) :
    S.2.bytes + (ops.countP fun o => o.2.isSome) * d ≤ S'.2.bytes := by
  induction ops generalizing S rs with
  | nil => cases hs; simp
  | cons op ops ih =>
    simp only [specRunC] at hs
    cases h1 : specStepC dbl dflt v d op.1 op.2 S with
    | none => rw [h1] at hs; cases hs
    | some q =>
      obtain ⟨r, S1⟩ := q
      rw [h1] at hs
      simp only at hs
      cases h2 : specRunC dbl dflt v d ops S1 with
      | none => rw [h2] at hs; cases hs
      | some q2 =>
        obtain ⟨rs', S2⟩ := q2
        rw [h2] at hs
        cases hs
        have := ih h2
        obtain ⟨p, -, h3⟩ := Option.bind_eq_some_iff.1 h1
        obtain ⟨op, t⟩ := op
        cases t with
        | none =>
          cases h3
          simpa using this
        | some m =>
          obtain ⟨-, h3⟩ := needs_inv h3
          have hb : S.2.bytes + d ≤ S1.2.bytes := by
            cases hf : fateC v d S.1 m op with
            | caught A1 l1 =>
              simp only [hf] at h3
              cases h3
              show S.2.bytes + d ≤ S.2.bytes + l1.bytes
              have hl : d ≤ l1.bytes := by
                have hd : d ≤ 2 * v + (m + 1) * d := by rw [Nat.add_mul]; omega
                cases op <;> simp only [fateC] at hf <;> (repeat' split at hf) <;> cases hf <;> first | exact hd | exact Nat.le_refl d | (simp only; omega)
              omega
            | _ => simp only [hf] at h3; cases h3
          rw [List.countP_cons_of_pos (by rfl), Nat.add_mul]
          omega
end

end

end Verif.Proof.LL
