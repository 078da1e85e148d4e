import Verif.Model.Nested
/-!
# Results of objects

`resultCls` makes the class `Result<T, E>` out of the class `T` of `Model/Nested.lean`, so `T` may be vectors, strings, linked lists and options
of any depth.  `E` is a type without constructors and destructors (`int`, an enumeration, a pointer), so an error is a value.

Simplifications: `Result` (result.h:440-469) hands everything to `ResultBase`, which is modelled; `E` of class type is not modelled; `operator==`
is not modelled here (see C52).
-/
namespace Verif.Model.Nested
open Verif

variable {S : Sig} {σ ε β : Type}

/-- Constructors of results of objects (result.h:29-44, 129-149). -/
inductive RMake (E ε : Type) where
  /-- `Result<T, E>(T(m))`, also `Result<T, E>::ok(...)` -/
  | ok (m : E)
  /-- `T t(m); Result<T, E>(t)`, and `t` ends -/
  | okCopy (m : E)
  /-- `Result<T, E>(e)`, also `Result<T, E>::err(e)` -/
  | err (e : ε)

/-- Calls on a result. -/
inductive RCall (D : Type) where
  | isOk
  | isErr
  /-- `r.unwrap().c(...)` -/
  | unwrap (c : D)
  /-- `T x(r.unwrap()); x.c(...)`, and `x` ends -/
  | take (c : D)
  /-- `r.ok().unwrap().c(...)` -/
  | get (c : D)
  /-- `r.ok_ref_unchecked().c(...)` -/
  | okRef (c : D)
  /-- `r.err()` -/
  | err
  /-- `E(r.unwrap_err())` -/
  | unwrapErr

/-- Results of these calls; `elem r` is a result of a call on the object in the result. -/
inductive RRet (R ε : Type) where
  | bool (b : Bool)
  | elem (r : R)
  | err (e : Option ε)
  | val (e : ε)

/-- What clients can write down about results of objects (result.h:26-438). -/
def resultSig (ε : Type) (S : Sig) : Sig := ⟨RMake S.Make ε, RCall S.Call, RRet S.Ret ε⟩

/-- The fields `type` of the results (`true` for `Ok`), the values `e` where `e` is the member of the union that is alive, and the objects
(result.h:397-405).  The object `t` of the result at address `i` has address `cell i`. -/
structure RWorld (ε σ : Type) where
  types : Nat → Option Bool
  errs : Nat → Option ε
  objs : σ

/-- A call of a member of `T`. -/
def inOk (f : Prog σ β) : Prog (RWorld ε σ) β := fun w => f w.objs >>= fun p => .ok (p.1, { w with objs := p.2 })

/-- `type` of the result at address `i` (result.h:397-400); undefined if there is none. -/
def typeOf (i : Nat) : Prog (RWorld ε σ) Bool := fun w =>
  match w.types i with
  | none => .ub
  | some b => .ok (b, w)

/-- Write `type` (result.h:397-400); `none`: the result at this address ends. -/
def setType (i : Nat) (b : Option Bool) : Prog (RWorld ε σ) Unit := fun w =>
  .ok ((), { w with types := fun j => if j = i then b else w.types j })

/-- Read `e` (result.h:402-405); undefined if it is not the member of the union that is alive. -/
def errOf (i : Nat) : Prog (RWorld ε σ) ε := fun w =>
  match w.errs i with
  | none => .ub
  | some e => .ok (e, w)

/-- Write `e` (result.h:402-405); `none`: the storage is used for `t`, or ends. -/
def setErr (i : Nat) (e : Option ε) : Prog (RWorld ε σ) Unit := fun w =>
  .ok ((), { w with errs := fun j => if j = i then e else w.errs j })

variable (C : Cls S σ)

/-- result.h:29-44 the constructors from a value and from an error. -/
def rmake : RMake S.Make ε → Nat → Prog (RWorld ε σ) Unit
  | .ok m, i => do
    inOk (C.make m (temp 0))
    setType i (some true)
    inOk (C.move (cell i) (temp 0))
    inOk (C.drop (temp 0))
  | .okCopy m, i => do
    inOk (C.make m (temp 0))
    setType i (some true)
    inOk (C.copy (cell i) (temp 0))
    inOk (C.drop (temp 0))
  | .err e, i => do
    setType i (some false)
    setErr i (some e)

/-- result.h:431-437 `copy_impl`; writing `t` ends `e`. -/
def rcopyImpl (d e : Nat) : Prog (RWorld ε σ) Unit := do
  let b ← typeOf e
  if b then do
    setErr d none
    inOk (C.copy (cell d) (cell e))
  else do
    let x ← errOf e
    setErr d (some x)

/-- result.h:423-429 `move_impl`. -/
def rmoveImpl (d e : Nat) : Prog (RWorld ε σ) Unit := do
  let b ← typeOf e
  if b then do
    setErr d none
    inOk (C.move (cell d) (cell e))
  else do
    let x ← errOf e
    setErr d (some x)

/-- result.h:56-60, 68-72, 90-94: destroy what `type` says is held; `destroy_e` (result.h:413-417) does nothing, `E` is not a class. -/
def rdestroy (b : Bool) (i : Nat) : Prog (RWorld ε σ) Unit := if b then inOk (C.drop (cell i)) else pure ()

/-- The members of results. -/
def rcall : RCall S.Call → Nat → Prog (RWorld ε σ) (RRet S.Ret ε)
  -- result.h:164-166
  | .isOk, i => do
    let b ← typeOf i
    return .bool b
  -- result.h:179-181
  | .isErr, i => do
    let b ← typeOf i
    return .bool (!b)
  -- result.h:200-206 `unwrap`: a reference to `t`, which stays where it is
  | .unwrap c, i => do
    let b ← typeOf i
    if b then do
      let r ← inOk (C.call c (cell i))
      return .elem r
    else Prog.panic
  -- result.h:200-206
  | .take c, i => do
    let b ← typeOf i
    if b then do
      inOk (C.move (temp 0) (cell i))
      let r ← inOk (C.call c (temp 0))
      inOk (C.drop (temp 0))
      return .elem r
    else Prog.panic
  -- result.h:282-288 `ok()`: `Option<T>::some(t)`, whose object is temporary 0; `unwrap()` of it gives temporary 1 (option.h:44-48)
  | .get c, i => do
    let b ← typeOf i
    if b then do
      inOk (C.copy (temp 0) (cell i))
      inOk (C.move (temp 1) (temp 0))
      inOk (C.drop (temp 0))
      let r ← inOk (C.call c (temp 1))
      inOk (C.drop (temp 1))
      return .elem r
    else Prog.panic
  -- result.h:374-376 `ok_ref_unchecked()` does not look at `type`
  | .okRef c, i => do
    let _ ← typeOf i
    let r ← inOk (C.call c (cell i))
    return .elem r
  -- result.h:328-334
  | .err, i => do
    let b ← typeOf i
    if b then return .err none
    else do
      let e ← errOf i
      return .err (some e)
  -- result.h:243-249
  | .unwrapErr, i => do
    let b ← typeOf i
    if b then Prog.panic
    else do
      let e ← errOf i
      return .val e

/-- The class `Result<T, E>` (result.h:26-438), where `T` is the class `C`. -/
def resultCls (ε : Type) : Cls (resultSig ε S) (RWorld ε σ) where
  start := ⟨fun _ => none, fun _ => none, C.start⟩
  make := rmake C
  -- result.h:46-48
  copy d e := do
    let b ← typeOf e
    setType d (some b)
    rcopyImpl C d e
  -- result.h:50-53
  move d e := do
    let b ← typeOf e
    setType d (some b)
    rmoveImpl C d e
  -- result.h:85-104: `type` is not written
  copyAssign d e := if d = e then do
      let _ ← typeOf d
      return ()
    else do
      let t ← typeOf d
      let b ← typeOf e
      if t = b then
        if t then inOk (C.copyAssign (cell d) (cell e))
        else do
          let x ← errOf e
          setErr d (some x)
      else do
        rdestroy C t d
        rcopyImpl C d e
  -- result.h:63-83: `type` is not written
  moveAssign d e := if d = e then do
      let _ ← typeOf d
      return ()
    else do
      let t ← typeOf d
      let b ← typeOf e
      if t = b then
        if t then inOk (C.moveAssign (cell d) (cell e))
        else do
          let x ← errOf e
          setErr d (some x)
      else do
        rdestroy C t d
        rmoveImpl C d e
  -- result.h:55-61
  drop i := do
    let b ← typeOf i
    rdestroy C b i
    setType i none
    setErr i none
  call := rcall C
  idle w := C.idle w.objs

/-- The shapes of `Model/Nested.lean`, and results, vectors, linked lists and options of these, vectors of results of lists of results of
these, ...; all errors are of one type. -/
inductive Full (α : Type) where
  | base (s : Shape α)
  | result (f : Full α)
  | vector (ty : Mem.ElemTy Unit) (f : Full α)
  | linked (cfg : LL.Cfg Unit) (f : Full α)
  | option (f : Full α)

variable {α : Type} (ε)

/-- What clients can write down at this depth. -/
def Full.sig : Full α → Sig
  | .base s => s.sig
  | .result f => resultSig ε f.sig
  | .vector _ f => vectorSig f.sig
  | .linked _ f => linkedSig f.sig
  | .option f => optionSig f.sig

/-- The memory of all levels. -/
def Full.State : Full α → Type
  | .base s => s.State
  | .result f => RWorld ε f.State
  | .vector _ f => NWorld f.State
  | .linked _ f => LWorld f.State
  | .option f => OWorld f.State

/-- The class at this depth: `Result` (result.h:26-438), `Vector` (vector.h:60-893), `List` and `ForwardList` (linked_list.h:434-1939) and
`Option` (option.h:14-215) applied as often as the shape says. -/
def Full.cls : (f : Full α) → Cls (f.sig ε) (f.State ε)
  | .base s => s.cls
  | .result f => resultCls f.cls ε
  | .vector ty f => vectorCls ty f.cls
  | .linked cfg f => linkedCls f.cls cfg
  | .option f => optionCls f.cls

end Verif.Model.Nested
