import Verif.Sum.Encode

/-! The methods of `Result` and `Option`, run with arbitrary user code.

A run is the list of what became visible, and the value returned, or `none` if the run unwound.  User code (closures, `Clone`, `PartialEq`,
`Hash`, `Debug` of the payloads) is arbitrary functions to runs; what it does is logged by itself.  Simplifications: payloads are given to
user code as the memory that starts where they do; destructors of payloads do not unwind. -/
namespace Verif.Sum
open Verif.Layout

/-- What becomes visible: destructors of payloads, writes of `bool`s to a hasher, anything else that user code does. -/
inductive Ev (α : Type) where
  | dropOk (x : α)
  | dropErr (x : α)
  | hashBool (b : Bool)
  | user (n : Nat)

/-- A run. -/
structure Run (α β : Type) where
  log : List (Ev α)
  out : Option β

namespace Run
variable {α β γ : Type}
def pure (x : β) : Run α β := ⟨[], some x⟩
def say (e : Ev α) : Run α Unit := ⟨[e], some ()⟩
/-- Unwinding stops what follows. -/
def bind (r : Run α β) (f : β → Run α γ) : Run α γ :=
  match r.out with
  | none => ⟨r.log, none⟩
  | some x => ⟨r.log ++ (f x).log, (f x).out⟩
/-- What is run when a scope is left, be it by unwinding. -/
def finally_ (r : Run α β) (es : List (Ev α)) : Run α β := ⟨r.log ++ es, r.out⟩
end Run

abbrev MRun := Run Mem

/-- `Drop for Result` (result.rs:187-194): `drop_in_place` on the variant's payload.  The guards rewrite the determinant of a value that is
gone. -/
def dropResult (a b : Ty) (m : Mem) : List (Ev Mem) :=
  if isOk a.lay b.lay m then [.dropOk (okPtr a.lay b.lay m)] else [.dropErr (errPtr a.lay b.lay m)]

/-- A function that owns `self`: it is dropped on every way out, unless it was forgotten. -/
def owning {β : Type} (a b : Ty) (m : Mem) (body : MRun β) (forgotten : Bool) : MRun β :=
  if forgotten then body else body.finally_ (dropResult a b m)

/-- `match_owned` (result.rs:347-362): the payload is read, `self` is forgotten, then the closure is called. -/
def matchOwned {β : Type} (a b : Ty) (m : Mem) (ok err : Mem → MRun β) : MRun β :=
  if isOk a.lay b.lay m then owning a b m (ok (okPtr a.lay b.lay m)) true else owning a b m (err (errPtr a.lay b.lay m)) true
/-- `match_owned_ctx` (result.rs:365-381). -/
def matchOwnedCtx {β κ : Type} (a b : Ty) (m : Mem) (ctx : κ) (ok err : κ → Mem → MRun β) : MRun β :=
  if isOk a.lay b.lay m then owning a b m (ok ctx (okPtr a.lay b.lay m)) true else owning a b m (err ctx (errPtr a.lay b.lay m)) true
/-- `match_ref` (result.rs:272-282). -/
def matchRef {β : Type} (a b : Ty) (m : Mem) (ok err : Mem → MRun β) : MRun β :=
  if isOk a.lay b.lay m then ok (okPtr a.lay b.lay m) else err (errPtr a.lay b.lay m)
/-- `match_ref_ctx` (result.rs:284-295). -/
def matchRefCtx {β κ : Type} (a b : Ty) (m : Mem) (ctx : κ) (ok err : κ → Mem → MRun β) : MRun β :=
  if isOk a.lay b.lay m then ok ctx (okPtr a.lay b.lay m) else err ctx (errPtr a.lay b.lay m)

/-- `core::result::Result` of payloads. -/
abbrev Core (α : Type) := α ⊕ α

/-- `From<core::result::Result>` (result.rs:166-171). -/
def ofCore (a b : Ty) : Core Mem → Mem
  | .inl x => mkOk a.lay b.lay x
  | .inr x => mkErr a.lay b.lay x
/-- `From<Result> for core::result::Result` (result.rs:178-180). -/
def toCore (a b : Ty) (m : Mem) : MRun (Core Mem) := matchOwned a b m (fun x => .pure (.inl x)) (fun x => .pure (.inr x))
/-- `as_ref` (result.rs:266-268). -/
def asRef (a b : Ty) (m : Mem) : MRun (Core Mem) := matchRef a b m (fun x => .pure (.inl x)) (fun x => .pure (.inr x))
/-- `ok` (result.rs:392-394); the closure drops its argument. -/
def okOf (a b : Ty) (m : Mem) : MRun (Option Mem) := matchOwned a b m (fun x => .pure (some x)) (fun x => (Run.pure none).finally_ [.dropErr x])
/-- `err` (result.rs:396-398). -/
def errOf (a b : Ty) (m : Mem) : MRun (Option Mem) := matchOwned a b m (fun x => (Run.pure none).finally_ [.dropOk x]) (fun x => .pure (some x))
/-- `map` (result.rs:416-421). -/
def mapOf (a b c : Ty) (m : Mem) (f : Mem → MRun Mem) : MRun Mem :=
  matchOwned a b m (fun x => (f x).bind fun y => .pure (mkOk c.lay b.lay y)) (fun x => .pure (mkErr c.lay b.lay x))
/-- `and_then` (result.rs:423-428). -/
def andThen (a b c : Ty) (m : Mem) (f : Mem → MRun Mem) : MRun Mem := matchOwned a b m f (fun x => .pure (mkErr c.lay b.lay x))
/-- `unwrap_or_else` (result.rs:430-432). -/
def unwrapOrElse (a b : Ty) (m : Mem) (f : Mem → MRun Mem) : MRun Mem := matchOwned a b m .pure f
/-- `unwrap_err_or_else` (result.rs:447-449). -/
def unwrapErrOrElse (a b : Ty) (m : Mem) (f : Mem → MRun Mem) : MRun Mem := matchOwned a b m f .pure
/-- `|e| panic!("…{e:?}")`: the payload is formatted by user code; whether or not that unwinds itself, the closure unwinds and drops it. -/
def panicWith {α β : Type} (fmt : α → Run α Unit) (gone : α → Ev α) (x : α) : Run α β :=
  ((fmt x).bind fun _ => ⟨[], none⟩).finally_ [gone x]
/-- `unwrap` (result.rs:440-445). -/
def unwrap (a b : Ty) (m : Mem) (fmt : Mem → MRun Unit) : MRun Mem := unwrapOrElse a b m (panicWith fmt .dropErr)
/-- `unwrap_err` (result.rs:457-462). -/
def unwrapErr (a b : Ty) (m : Mem) (fmt : Mem → MRun Unit) : MRun Mem := unwrapErrOrElse a b m (panicWith fmt .dropOk)
/-- `Clone` (result.rs:106-108). -/
def cloneOf (a b : Ty) (m : Mem) (clOk clErr : Mem → MRun Mem) : MRun Mem :=
  matchRef a b m (fun x => (clOk x).bind fun y => .pure (mkOk a.lay b.lay y)) (fun x => (clErr x).bind fun y => .pure (mkErr a.lay b.lay y))
/-- `PartialEq` (result.rs:145-151). -/
def eqOf (a b : Ty) (m m' : Mem) (eqOk eqErr : Mem → Mem → MRun Bool) : MRun Bool :=
  match isOk a.lay b.lay m, isOk a.lay b.lay m' with
  | true, true => eqOk (okPtr a.lay b.lay m) (okPtr a.lay b.lay m')
  | false, false => eqErr (errPtr a.lay b.lay m) (errPtr a.lay b.lay m')
  | _, _ => .pure false
/-- `Hash` (result.rs:128-136). -/
def hashOf (a b : Ty) (m : Mem) (hOk hErr : Mem → MRun Unit) : MRun Unit :=
  if isOk a.lay b.lay m then (Run.say (.hashBool true)).bind fun _ => hOk (okPtr a.lay b.lay m)
  else (Run.say (.hashBool false)).bind fun _ => hErr (errPtr a.lay b.lay m)

/-! ### `Option` (option.rs:21-183): a struct around `Result<T, ()>` -/

/-- option.rs:24. -/
abbrev optTy (t : Ty) : Ty := .result t Ty.unit
def mkSome (t : Ty) (x : Mem) : Mem := mkOk t.lay Ty.unit.lay x
/-- The payload `()` has no bytes. -/
def mkNone (t : Ty) : Mem := mkErr t.lay Ty.unit.lay (fun _ => 0)
/-- `From<core::option::Option>` (option.rs:40-49). -/
def ofCoreOpt (t : Ty) : Option Mem → Mem
  | some x => mkSome t x
  | none => mkNone t
/-- `From<Option> for core::option::Option` (option.rs:55-57): `ok`; dropping `()` does nothing. -/
def toCoreOpt (t : Ty) (m : Mem) : MRun (Option Mem) := matchOwned t Ty.unit m (fun x => .pure (some x)) (fun _ => .pure none)
/-- `match_owned` (option.rs:142-148), `match_owned_ctx` (option.rs:150-158). -/
def matchOwnedOpt {β : Type} (t : Ty) (m : Mem) (some_ : Mem → MRun β) (none_ : MRun β) : MRun β := matchOwned t Ty.unit m some_ fun _ => none_
/-- `match_ref` (option.rs:100-106), `match_ref_ctx` (option.rs:108-115). -/
def matchRefOpt {β : Type} (t : Ty) (m : Mem) (some_ : Mem → MRun β) (none_ : MRun β) : MRun β := matchRef t Ty.unit m some_ fun _ => none_
/-- `is_some` (option.rs:160-162). -/
def isSome (t : Ty) (m : Mem) : Bool := isOk t.lay Ty.unit.lay m
/-- `unwrap_or_else` (option.rs:168-170). -/
def unwrapOrElseOpt (t : Ty) (m : Mem) (f : MRun Mem) : MRun Mem := matchOwnedOpt t m .pure f
/-- `unwrap` (option.rs:179-181). -/
def unwrapOpt (t : Ty) (m : Mem) : MRun Mem := unwrapOrElseOpt t m ⟨[], none⟩
/-- `Clone`, derived (option.rs:22): the clone of `()` is `()`. -/
def cloneOpt (t : Ty) (m : Mem) (cl : Mem → MRun Mem) : MRun Mem := cloneOf t Ty.unit m cl fun _ => .pure fun _ => 0

end Verif.Sum
