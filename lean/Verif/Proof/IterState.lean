import Verif.Spec.IterState
import Verif.Proof.Pipe
namespace Verif.Proof.IterState
open Verif Verif.Model.Iter Verif.Spec.IterState Verif.Proof.Pipe
open Verif.Spec (Produces)
open Verif.Spec.Pipe (quiet)

variable {ω σ α β γ τ ρ T : Type}

/-- The first survivor, what is left of the list, and the states. -/
def scan (g : T → α → Prog ω (Option β × T)) : T → List α → Prog ω (Option (β × List α × T))
  | _, [] => return none
  | t, a :: as => do
    let r ← g t a
    match r.1 with
    | none => scan g r.2 as
    | some b => return some (b, as, r.2)

def addMap (g : T → α → Prog ω (Option β × T)) (f : Fn ω τ β γ) : T × τ → α → Prog ω (Option γ × (T × τ)) := fun t a => do
  let r ← g t.1 a
  match r.1 with
  | none => return (none, (r.2, t.2))
  | some b => do
    let c ← f t.2 b
    return (some c.1, (r.2, c.2))

def addFilter (g : T → α → Prog ω (Option β × T)) (p : Fn ω τ β (Bool × β)) (u0 : τ) :
    T × τ → α → Prog ω (Option β × (T × τ)) := fun t a => do
  let r ← g t.1 a
  match r.1 with
  | none => return (none, (r.2, t.2))
  | some b => do
    let c ← p t.2 b
    return (if c.1.1 then (some c.1.2, (r.2, u0)) else (none, (r.2, c.2)))

theorem oneReset_map {β γ T τ : Type} (pipe : SPipe ω α β T) (f : Fn ω τ β γ) (t0 : T × τ) :
    oneReset (.map pipe f) t0 = addMap (oneReset pipe t0.1) f := rfl

theorem oneReset_filter {β T τ : Type} (pipe : SPipe ω α β T) (p : Fn ω τ β (Bool × β)) (t0 : T × τ) :
    oneReset (.filter pipe p) t0 = addFilter (oneReset pipe t0.1) p t0.2 := rfl

theorem scan_map (g : T → α → Prog ω (Option β × T)) (f : Fn ω τ β γ) (xs : List α) (t : T) (u : τ) :
    scan (addMap g f) (t, u) xs = (scan g t xs >>= fun r => match r with
      | none => return none
      | some m => f u m.1 >>= fun c => return some (c.1, m.2.1, (m.2.2, c.2))) := by
  induction xs generalizing t with
  | nil => rfl
  | cons a as ih =>
    simp only [scan, addMap, bind_assoc']
    congr 1; funext r
    obtain ⟨o, t'⟩ := r
    cases o with
    | none => simp only [pure_bind']; exact ih t'
    | some b => simp only [pure_bind', bind_assoc']

theorem scan_filter (g : T → α → Prog ω (Option β × T)) (p : Fn ω τ β (Bool × β)) (u0 : τ) (xs : List α) (t : T) (u : τ) :
    scan (addFilter g p u0) (t, u) xs = (scan g t xs >>= fun r => match r with
      | none => return none
      | some m => p u m.1 >>= fun c =>
        if c.1.1 then return some (c.1.2, m.2.1, (m.2.2, u0)) else scan (addFilter g p u0) (m.2.2, c.2) m.2.1) := by
  induction xs generalizing t u with
  | nil => rfl
  | cons a as ih =>
    simp only [scan, addFilter, bind_assoc']
    congr 1; funext r
    obtain ⟨o, t'⟩ := r
    cases o with
    | none => simp only [pure_bind']; exact ih t' u
    | some b =>
      simp only [pure_bind', bind_assoc']
      congr 1; funext c
      cases hc : c.1.1 <;> simp

/-- The filter objects of `t` are in their states of `t0`. -/
def Keeps : {β T : Type} → SPipe ω α β T → T → T → Prop
  | _, _, .source, _, _ => True
  | _, _, .map pipe _, t0, t => Keeps pipe t0.1 t.1
  | _, _, .filter pipe _, t0, t => Keeps pipe t0.1 t.1 ∧ t.2 = t0.2

theorem keeps_self {β T : Type} (pipe : SPipe ω α β T) (t : T) : Keeps pipe t t := by
  induction pipe with
  | source => trivial
  | map pipe f ih => exact ih t.1
  | filter pipe p ih => exact ⟨ih t.1, rfl⟩

/-- `x`, a call of `next`, does what the scan `y` does. -/
def Rel (next : σ → Out (Option α × σ)) (s' : σ) (K : T → Prop) (n : Nat) (x : Out ((Option β × (σ × T)) × ω))
    (y : Out (Option (β × List α × T) × ω)) : Prop :=
  match y with
  | .ok (none, w) => ∃ st, x = .ok ((none, st), w)
  | .ok (some m, w) => ∃ s1, x = .ok ((some m.1, (s1, m.2.2)), w) ∧ Produces next s1 m.2.1 s' ∧ K m.2.2 ∧ m.2.1.length < n
  | .div => x = .div
  | .panic => x = .panic
  | .oom => x = .oom
  | .ub => x = .ub

theorem Rel.mono {next : σ → Out (Option α × σ)} {s' : σ} {K : T → Prop} {n m : Nat} {x : Out ((Option β × (σ × T)) × ω)}
    {y : Out (Option (β × List α × T) × ω)} (h : Rel next s' K n x y) (hn : n ≤ m) : Rel next s' K m x y := by
  unfold Rel at *
  split
  · exact h
  · obtain ⟨s1, h1, h2, h3, h4⟩ := h; exact ⟨s1, h1, h2, h3, by omega⟩
  all_goals exact h

/-- The same continuation after two related runs. -/
theorem Rel.bind {T' γ : Type} {next : σ → Out (Option α × σ)} {s' : σ} {K : T → Prop} {K' : T' → Prop} {n : Nat}
    {x : Out ((Option β × (σ × T)) × ω)} {y : Out (Option (β × List α × T) × ω)} (h : Rel next s' K n x y)
    {f : (Option β × (σ × T)) × ω → Out ((Option γ × (σ × T')) × ω)}
    {g : Option (β × List α × T) × ω → Out (Option (γ × List α × T') × ω)}
    (hn : ∀ st w, Rel next s' K' n (f ((none, st), w)) (g (none, w)))
    (hs : ∀ b s1 t ys w, Produces next s1 ys s' → K t → ys.length < n →
      Rel next s' K' n (f ((some b, (s1, t)), w)) (g (some (b, ys, t), w))) :
    Rel next s' K' n (x >>= f) (y >>= g) := by
  cases y with
  | ok v =>
    obtain ⟨o, w⟩ := v
    cases o with
    | none => obtain ⟨st, rfl⟩ := h; exact hn st w
    | some m =>
      obtain ⟨s1, rfl, h2, h3, h4⟩ := h
      obtain ⟨b, ys, t⟩ := m
      exact hs b s1 t ys w h2 h3 h4
  | div => simp only [Rel] at h; subst h; rfl
  | panic => simp only [Rel] at h; subst h; rfl
  | oom => simp only [Rel] at h; subst h; rfl
  | ub => simp only [Rel] at h; subst h; rfl

theorem findS_unfold (next : Next ω σ α) (p : Fn ω τ α (Bool × α)) (u : τ) (s : σ) :
    findS next p u s = (next s >>= fun r => match r.1 with
      | none => return (none, r.2)
      | some a => p u a >>= fun c => if c.1.1 then return (some c.1.2, r.2) else findS next p c.2 r.2) := by
  rw [findS]; rfl

theorem next_scan {β T : Type} (pipe : SPipe ω α β T) {next : σ → Out (Option α × σ)} {s' : σ} (t0 : T) :
    ∀ (xs : List α) (s : σ) (t : T) (w : ω), Produces next s xs s' → Keeps pipe t0 t →
      Rel next s' (Keeps pipe t0) xs.length (pipe.next (quiet next) (s, t) w) (scan (oneReset pipe t0) t xs w) := by
  induction pipe with
  | source =>
    intro xs s t w hp _
    cases hp with
    | nil h => exact ⟨(s', ()), by simp [SPipe.next, quiet, h]⟩
    | cons h hrest =>
      refine ⟨_, ?_, hrest, trivial, by simp⟩
      simp [SPipe.next, quiet, h]
  | map pipe f ih =>
    intro xs s t w hp hk
    obtain ⟨t, u⟩ := t
    rw [oneReset_map, scan_map]
    simp only [SPipe.next, mapNextS, bind_assoc']
    rw [Prog.bind_run, Prog.bind_run]
    refine (ih t0.1 xs s t w hp hk).bind (K' := Keeps (.map pipe f) t0) ?_ ?_
    · intro st w; exact ⟨_, rfl⟩
    · intro b s1 t' ys w h1 h2 h3
      simp only [Prog.bind_run, bind_assoc']
      cases f u b w with
      | ok c => exact ⟨s1, rfl, h1, h2, h3⟩
      | _ => rfl
  | filter pipe p ih =>
    intro xs s t w hp hk
    obtain ⟨t, u⟩ := t
    obtain ⟨hk, hu⟩ := hk
    simp only at hu hk
    -- the loop of `find`, from any state of the copied predicate
    have loop : ∀ m (xs : List α) (s : σ) t (v : _) (w : ω), xs.length ≤ m → Produces next s xs s' → Keeps pipe t0.1 t →
        Rel next s' (Keeps (.filter pipe p) t0) xs.length
          ((findS (pipe.next (quiet next)) p v (s, t) >>= fun r => return (r.1, (r.2.1, (r.2.2, u)))) w)
          (scan (oneReset (.filter pipe p) t0) (t, v) xs w) := by
      intro m
      induction m with
      | zero =>
        intro xs s t v w hx hp hk
        have hx : xs = [] := List.length_eq_zero_iff.1 (by omega)
        subst hx
        rw [findS_unfold, bind_assoc', oneReset_filter, scan_filter, Prog.bind_run, Prog.bind_run]
        refine (ih t0.1 [] s t w hp hk).bind ?_ ?_
        · intro st w; exact ⟨_, rfl⟩
        · intro b s1 t' ys w h1 h2 h3; simp at h3
      | succ m ihm =>
        intro xs s t v w hx hp hk
        rw [findS_unfold, bind_assoc', oneReset_filter, scan_filter, Prog.bind_run, Prog.bind_run]
        refine (ih t0.1 xs s t w hp hk).bind ?_ ?_
        · intro st w; exact ⟨_, rfl⟩
        · intro b s1 t' ys w h1 h2 h3
          simp only [Prog.bind_run, bind_assoc']
          cases p v b w with
          | ok c =>
            obtain ⟨⟨⟨acc, c⟩, v'⟩, w'⟩ := c
            cases acc with
            | true => exact ⟨s1, by subst hu; rfl, h1, ⟨h2, rfl⟩, h3⟩
            | false =>
              have := (ihm ys s1 t' v' w' (by omega) h1 h2).mono (m := xs.length) (by omega)
              rw [oneReset_filter] at this
              simpa using this
          | _ => rfl
    have := loop xs.length xs s t u w (Nat.le_refl _) hp hk
    simp only [SPipe.next, filterNextS, bind_assoc', pure_bind']
    exact this


/-! ## Terminals -/

theorem all_scan (g : T → α → Prog ω (Option β × T)) (xs : List α) (t : T) :
    all g t xs = (scan g t xs >>= fun r => match r with
      | none => return []
      | some m => all g m.2.2 m.2.1 >>= fun rs => return m.1 :: rs) := by
  induction xs generalizing t with
  | nil => rfl
  | cons a as ih =>
    simp only [all, scan, bind_assoc']
    congr 1; funext r
    obtain ⟨o, t'⟩ := r
    cases o with
    | none =>
      simp only
      rw [← ih t']
      funext w
      simp only [Prog.bind_run]
      cases all g t' as w <;> rfl
    | some b => simp only [pure_bind']

theorem foldOver_scan (g : T → α → Prog ω (Option β × T)) (f : τ → ρ → β → Prog ω (ρ × τ)) (xs : List α) (t : T) (u : τ)
    (acc : ρ) :
    foldOver g f t u acc xs = (scan g t xs >>= fun r => match r with
      | none => return acc
      | some m => f u acc m.1 >>= fun c => foldOver g f m.2.2 c.2 c.1 m.2.1) := by
  induction xs generalizing t with
  | nil => rfl
  | cons a as ih =>
    simp only [foldOver, scan, bind_assoc']
    congr 1; funext r
    obtain ⟨o, t'⟩ := r
    cases o with
    | none => simp only; rw [← ih t']
    | some b => simp only [pure_bind']

theorem reduceOver_scan (g : T → α → Prog ω (Option β × T)) (f : τ → β → β → Prog ω (β × τ)) (u : τ) (xs : List α) (t : T) :
    reduceOver g f u t xs = (scan g t xs >>= fun r => match r with
      | none => return none
      | some m => foldOver g f m.2.2 u m.1 m.2.1 >>= fun v => return some v) := by
  induction xs generalizing t with
  | nil => rfl
  | cons a as ih =>
    simp only [reduceOver, scan, bind_assoc']
    congr 1; funext r
    obtain ⟨o, t'⟩ := r
    cases o with
    | none => simp only; rw [← ih t']
    | some b => simp only [pure_bind']

theorem findOver_scan (g : T → α → Prog ω (Option β × T)) (p : Fn ω τ β (Bool × β)) (xs : List α) (t : T) (u : τ) :
    findOver g p t u xs = (scan g t xs >>= fun r => match r with
      | none => return none
      | some m => p u m.1 >>= fun c => if c.1.1 then return some c.1.2 else findOver g p m.2.2 c.2 m.2.1) := by
  induction xs generalizing t with
  | nil => rfl
  | cons a as ih =>
    simp only [findOver, scan, bind_assoc']
    congr 1; funext r
    obtain ⟨o, t'⟩ := r
    cases o with
    | none => simp only; rw [← ih t']
    | some b => simp only [pure_bind']

/-- A related pair of runs followed by continuations with equal results. -/
theorem Rel.eq {next : σ → Out (Option α × σ)} {s' : σ} {K : T → Prop} {n : Nat} {x : Out ((Option β × (σ × T)) × ω)}
    {y : Out (Option (β × List α × T) × ω)} (h : Rel next s' K n x y) {f : (Option β × (σ × T)) × ω → Out ρ}
    {g : Option (β × List α × T) × ω → Out ρ} (hn : ∀ st w, f ((none, st), w) = g (none, w))
    (hs : ∀ b s1 t ys w, Produces next s1 ys s' → K t → ys.length < n → f ((some b, (s1, t)), w) = g (some (b, ys, t), w)) :
    (x >>= f) = (y >>= g) := by
  cases y with
  | ok v =>
    obtain ⟨o, w⟩ := v
    cases o with
    | none => obtain ⟨st, rfl⟩ := h; exact hn st w
    | some m =>
      obtain ⟨s1, rfl, h2, h3, h4⟩ := h
      obtain ⟨b, ys, t⟩ := m
      exact hs b s1 t ys w h2 h3 h4
  | div => simp only [Rel] at h; subst h; rfl
  | panic => simp only [Rel] at h; subst h; rfl
  | oom => simp only [Rel] at h; subst h; rfl
  | ub => simp only [Rel] at h; subst h; rfl

variable {next : σ → Out (Option α × σ)} {s' : σ}

theorem collect_all {β T : Type} (pipe : SPipe ω α β T) (t0 : T) (n : Nat) :
    ∀ (xs : List α) (s : σ) (t : T) (acc : List β) (w : ω), xs.length ≤ n → Produces next s xs s' → Keeps pipe t0 t →
      collect (pipe.next (quiet next)) acc (s, t) w = (all (oneReset pipe t0) t xs >>= fun ys => return acc ++ ys) w := by
  induction n with
  | zero =>
    intro xs s t acc w hn hp hk
    have hx : xs = [] := List.length_eq_zero_iff.1 (by omega)
    subst hx
    rw [collect, all_scan, bind_assoc', Prog.bind_run, Prog.bind_run]
    refine (next_scan pipe t0 [] s t w hp hk).eq ?_ ?_
    · intro st w; simp
    · intro b s1 t ys w _ _ h; simp at h
  | succ n ih =>
    intro xs s t acc w hn hp hk
    rw [collect, all_scan, bind_assoc', Prog.bind_run, Prog.bind_run]
    refine (next_scan pipe t0 xs s t w hp hk).eq ?_ ?_
    · intro st w; simp
    · intro b s1 t ys w h1 h2 h3
      simp only
      rw [ih ys s1 t _ w (by omega) h1 h2]
      simp only [bind_assoc', pure_bind', List.append_assoc, List.singleton_append]

theorem fold_all {β T : Type} (pipe : SPipe ω α β T) (t0 : T) (f : τ → ρ → β → Prog ω (ρ × τ)) (n : Nat) :
    ∀ (xs : List α) (s : σ) (t : T) (u : τ) (acc : ρ) (w : ω), xs.length ≤ n → Produces next s xs s' → Keeps pipe t0 t →
      foldS (pipe.next (quiet next)) f u acc (s, t) w = foldOver (oneReset pipe t0) f t u acc xs w := by
  induction n with
  | zero =>
    intro xs s t u acc w hn hp hk
    have hx : xs = [] := List.length_eq_zero_iff.1 (by omega)
    subst hx
    rw [foldS, foldOver_scan, Prog.bind_run, Prog.bind_run]
    refine (next_scan pipe t0 [] s t w hp hk).eq ?_ ?_
    · intro st w; rfl
    · intro b s1 t ys w _ _ h; simp at h
  | succ n ih =>
    intro xs s t u acc w hn hp hk
    rw [foldS, foldOver_scan, Prog.bind_run, Prog.bind_run]
    refine (next_scan pipe t0 xs s t w hp hk).eq ?_ ?_
    · intro st w; rfl
    · intro b s1 t ys w h1 h2 h3
      simp only [Prog.bind_run]
      cases f u acc b w with
      | ok c => exact ih ys s1 t c.1.2 c.1.1 c.2 (by omega) h1 h2
      | _ => rfl

theorem forEach_all {β T : Type} (pipe : SPipe ω α β T) (t0 : T) (f : τ → β → Prog ω (Unit × τ)) (n : Nat) :
    ∀ (xs : List α) (s : σ) (t : T) (u : τ) (w : ω), xs.length ≤ n → Produces next s xs s' → Keeps pipe t0 t →
      forEachS (pipe.next (quiet next)) f u (s, t) w = foldOver (oneReset pipe t0) (fun u _ b => f u b) t u () xs w := by
  induction n with
  | zero =>
    intro xs s t u w hn hp hk
    have hx : xs = [] := List.length_eq_zero_iff.1 (by omega)
    subst hx
    rw [forEachS, foldOver_scan, Prog.bind_run, Prog.bind_run]
    refine (next_scan pipe t0 [] s t w hp hk).eq ?_ ?_
    · intro st w; rfl
    · intro b s1 t ys w _ _ h; simp at h
  | succ n ih =>
    intro xs s t u w hn hp hk
    rw [forEachS, foldOver_scan, Prog.bind_run, Prog.bind_run]
    refine (next_scan pipe t0 xs s t w hp hk).eq ?_ ?_
    · intro st w; rfl
    · intro b s1 t ys w h1 h2 h3
      simp only [Prog.bind_run]
      cases f u b w with
      | ok c => exact ih ys s1 t c.1.2 c.2 (by omega) h1 h2
      | _ => rfl

theorem reduce_all {β T : Type} (pipe : SPipe ω α β T) (t0 : T) (f : τ → β → β → Prog ω (β × τ)) (xs : List α) (s : σ) (t : T)
    (u : τ) (w : ω) (hp : Produces next s xs s') (hk : Keeps pipe t0 t) :
    reduceS (pipe.next (quiet next)) f u (s, t) w = reduceOver (oneReset pipe t0) f u t xs w := by
  rw [reduceS, reduceOver_scan, Prog.bind_run, Prog.bind_run]
  refine (next_scan pipe t0 xs s t w hp hk).eq ?_ ?_
  · intro st w; rfl
  · intro b s1 t ys w h1 h2 h3
    simp only [Prog.bind_run]
    rw [fold_all pipe t0 f ys.length ys s1 t u b w (Nat.le_refl _) h1 h2]

theorem find_all {β T : Type} (pipe : SPipe ω α β T) (t0 : T) (p : Fn ω τ β (Bool × β)) (n : Nat) :
    ∀ (xs : List α) (s : σ) (t : T) (u : τ) (w : ω), xs.length ≤ n → Produces next s xs s' → Keeps pipe t0 t →
      (findS (pipe.next (quiet next)) p u (s, t) >>= fun r => return r.1) w = findOver (oneReset pipe t0) p t u xs w := by
  induction n with
  | zero =>
    intro xs s t u w hn hp hk
    have hx : xs = [] := List.length_eq_zero_iff.1 (by omega)
    subst hx
    rw [findS_unfold, findOver_scan, bind_assoc', Prog.bind_run, Prog.bind_run]
    refine (next_scan pipe t0 [] s t w hp hk).eq ?_ ?_
    · intro st w; rfl
    · intro b s1 t ys w _ _ h; simp at h
  | succ n ih =>
    intro xs s t u w hn hp hk
    rw [findS_unfold, findOver_scan, bind_assoc', Prog.bind_run, Prog.bind_run]
    refine (next_scan pipe t0 xs s t w hp hk).eq ?_ ?_
    · intro st w; rfl
    · intro b s1 t ys w h1 h2 h3
      simp only [bind_assoc']
      rw [Prog.bind_run, Prog.bind_run]
      cases p u b w with
      | ok c =>
        obtain ⟨⟨⟨acc, c⟩, u'⟩, w'⟩ := c
        cases acc with
        | true => rfl
        | false => simpa using ih ys s1 t u' w' (by omega) h1 h2
      | _ => rfl

/-! ## Objects that reset themselves -/

theorem oneReset_eq {β T : Type} (pipe : SPipe ω α β T) (t0 : T) (h : Resets pipe t0) : oneReset pipe t0 = one pipe := by
  induction pipe with
  | source => rfl
  | map pipe f ih =>
    funext t a
    simp only [oneReset, one, ih t0.1 h]
  | filter pipe p ih =>
    funext t a
    simp only [oneReset, one, ih t0.1 h.1]
    congr 1; funext r
    cases r.1 with
    | none => rfl
    | some b =>
      funext w
      simp only [Prog.bind_run]
      cases hc : p t.2 b w with
      | ok c =>
        obtain ⟨⟨⟨acc, c⟩, u'⟩, w'⟩ := c
        cases acc with
        | false => rfl
        | true => rw [h.2 _ _ _ _ _ _ hc]; rfl
      | _ => rfl

end Verif.Proof.IterState
