/-! Polling futures through stabby's `Future` trait (stabby-abi/src/future.rs:176-312), and where they are when polled.

A future is owned by one variable: by value, or by a `Dyn<Box<()>, vtable!(Future)>` (with any markers).  Types are numbers.  `Poll` and stabby's `Option` are
converted to each other (future.rs:190-198, 214-216): the conversions keep the value by C11 and C61. -/
namespace Verif.Future.Pinned

/-- A future: its type, the results of its polls, where it is, whether a trait object owns it. -/
structure Fut where
  ty : Nat
  beh : Nat → Option Nat
  place : Nat
  boxed : Bool
  alive : Bool

/-- A call of `core::future::Future::poll` on the future `id` at the address `place`, and its result (`none`: pending). -/
structure Event where
  id : Nat
  place : Nat
  result : Option Nat
deriving DecidableEq

structure St where
  futs : List Fut
  next : Nat
  events : List Event

def St.new : St := ⟨[], 0, []⟩

/-- What safe code does with futures of types it knows, and with objects made of them. -/
inductive Op where
  /-- makes a future, in a variable -/
  | new (ty : Nat) (beh : Nat → Option Nat)
  /-- moves it, or the object that owns it, to another variable -/
  | move (i : Nat)
  /-- `Dyn::from(Box::new(f))` (fatptr.rs:337-351) -/
  | box (i : Nat)
  /-- `stabby::future::Future::poll(&mut f, waker)`, a safe method that all futures have (future.rs:184-201) -/
  | pollValue (i : Nat)
  /-- `poll` on a `Dyn<&mut (), _>` made of `&mut f` -/
  | pollRef (i : Nat)
  /-- `poll` on the object, of stabby's or of core's `Future` (future.rs:203-312): objects are `Unpin` -/
  | pollDyn (i : Nat)
  /-- `mem::swap` of two futures of the same type: safe code gets a `&mut` to the one owned by an object from `stable_downcast_mut` (fatptr.rs:327-334), if
  the object's traits include `Any` and the type is `IStable`; a type that contains a `PhantomPinned` (stable_impls/mod.rs:268-278) may be -/
  | swap (i j : Nat)
  | drop (i : Nat)

/-- How often the future `i` has been polled. -/
def polls (events : List Event) (i : Nat) : Nat := (events.filter fun e => e.id = i).length

/-- Calls the future's `poll`, where it is now. -/
def poll (s : St) (i : Nat) (f : Fut) : St := { s with events := s.events ++ [⟨i, f.place, f.beh (polls s.events i)⟩] }

/-- One step; what does not compile (uses of moved values, by-value operations on objects) does nothing. -/
def step (s : St) : Op → St
  | .new ty beh => { s with futs := s.futs ++ [⟨ty, beh, s.next, false, true⟩], next := s.next + 1 }
  | .move i => match s.futs[i]? with
    | some f => if f.alive ∧ ¬ f.boxed then { s with futs := s.futs.set i { f with place := s.next }, next := s.next + 1 } else s
    | none => s
  | .box i => match s.futs[i]? with
    | some f => if f.alive ∧ ¬ f.boxed then { s with futs := s.futs.set i { f with place := s.next, boxed := true }, next := s.next + 1 } else s
    | none => s
  | .pollValue i => match s.futs[i]? with
    | some f => if f.alive ∧ ¬ f.boxed then poll s i f else s
    | none => s
  | .pollRef i => match s.futs[i]? with
    | some f => if f.alive ∧ ¬ f.boxed then poll s i f else s
    | none => s
  | .pollDyn i => match s.futs[i]? with
    | some f => if f.alive ∧ f.boxed then poll s i f else s
    | none => s
  | .swap i j => match s.futs[i]?, s.futs[j]? with
    | some f, some g =>
      if f.alive ∧ g.alive ∧ f.ty = g.ty ∧ i ≠ j then
        { s with futs := (s.futs.set i { f with place := g.place, boxed := g.boxed }).set j { g with place := f.place, boxed := f.boxed } }
      else s
    | _, _ => s
  | .drop i => match s.futs[i]? with
    | some f => if f.alive then { s with futs := s.futs.set i { f with alive := false } } else s
    | none => s

def run (s : St) (ops : List Op) : St := ops.foldl step s

end Verif.Future.Pinned
