import Verif.Sync.Order
/-! Model of the memory orderings of `Arc` and `Weak` (alloc/sync.rs:192-396): when the value is destroyed and when its memory is freed, with vector clocks; as in `Sync/Order.lean`, with
weak handles.  `ArcSlice` and `WeakSlice` (sync.rs:474-483, 584-598, 647-758) and `IPtrOwned` of `Arc` (sync.rs:742-758) use the same orderings.

Every operation through a handle is an event of its thread and uses the memory of the counters; `access` and `write` use the value too.  All steps are atomic: `upgrade` is one step,
and so are the two loads of `is_unique`; what can happen in between is the subject of `Sync/Model.lean`. -/
namespace Verif.Sync.Free
open Verif.Sync.Order

/-- The orderings of decrements of the strong and of the weak counter, of the load of the strong counter by `is_unique`, of `upgrade` and of increments. -/
structure Ords where
  drop : Ord
  dropW : Ord
  unique : Ord
  upgrade : Ord
  incr : Ord
  deriving DecidableEq, Repr

/-- The orderings in the code (sync.rs:289, 386, 213, 360-368, 304). -/
def code : Ords := ⟨.relaxed, .relaxed, .relaxed, .acqRel, .relaxed⟩

structure St where
  /-- what happened before the current point of each thread: the number of events of every thread -/
  clk : Nat → Clock
  /-- what was published on the counters -/
  relS : Clock
  relW : Clock
  strong : Nat
  weak : Nat
  /-- the last event of each thread that used the value, and the memory -/
  acc : Clock
  use : Clock
  /-- the thread of every strong handle and of every weak handle -/
  owns : List Nat
  ownw : List Nat
  destroyed : Bool
  freed : Bool
  /-- what happened before any of the drops of strong and of weak handles so far (used to state theorems) -/
  dropsS : Clock
  dropsW : Clock

/-- `Arc::new` by thread 0 (sync.rs:92-122): strong and weak counts are 1. -/
def St.new : St :=
  ⟨fun _ _ => 0, fun _ => 0, fun _ => 0, 1, 1, fun _ => 0, fun _ => 0, [0], [], false, false, fun _ => 0, fun _ => 0⟩

inductive Op where
  | access (t : Nat)
  /-- `Arc::clone` (sync.rs:300-307) -/
  | clone (t : Nat)
  /-- `Arc::drop` (sync.rs:285-299); the last one destroys the value and is left with the weak handle that all strong ones share -/
  | drop (t : Nat)
  /-- `Weak::from(&arc)` (sync.rs:334-341) -/
  | downgrade (t : Nat)
  /-- `Weak::clone` (sync.rs:374-381) -/
  | cloneW (t : Nat)
  /-- `Weak::upgrade` (sync.rs:357-372) -/
  | upgrade (t : Nat)
  /-- `Weak::drop` (sync.rs:382-396); the last one frees the memory -/
  | dropW (t : Nat)
  /-- a successful `get_mut` and a write (sync.rs:194-210, 254-256) -/
  | write (t : Nat)
  /-- thread `t` moves a handle to thread `u`; any safe way to do so synchronises -/
  | send (t u : Nat)
  | sendW (t u : Nat)
  /-- thread `u` synchronises with thread `t` by other means -/
  | sync (t u : Nat)
deriving DecidableEq, Repr

/-- What must come after: after all uses of the value (it is destroyed or written), after all uses of the memory (it is freed). -/
inductive Want where
  | value (t : Nat)
  | memory (t : Nat)
deriving DecidableEq, Repr

/-- An event of thread `t` that uses the memory, and if `v` the value. -/
def tick (s : St) (t : Nat) (v : Bool) : St :=
  let n := s.clk t t + 1
  { s with clk := upd s.clk t (upd (s.clk t) t n), use := upd s.use t n, acc := if v then upd s.acc t n else s.acc }

/-- A read-modify-write of the strong counter. -/
def rmwS (o : Ord) (s : St) (t : Nat) : St :=
  match o with
  | .relaxed => s
  | .acqRel => { s with clk := upd s.clk t (join (s.clk t) s.relS), relS := join (s.clk t) s.relS }

/-- A read-modify-write of the weak counter. -/
def rmwW (o : Ord) (s : St) (t : Nat) : St :=
  match o with
  | .relaxed => s
  | .acqRel => { s with clk := upd s.clk t (join (s.clk t) s.relW), relW := join (s.clk t) s.relW }

/-- A load of the strong counter; `AcqRel` stands for `Acquire` here. -/
def loadS (o : Ord) (s : St) (t : Nat) : St :=
  match o with
  | .relaxed => s
  | .acqRel => { s with clk := upd s.clk t (join (s.clk t) s.relS) }

/-- Thread `u` learns what thread `t` did. -/
def learn (s : St) (t u : Nat) : St := { s with clk := upd s.clk u (join (s.clk u) (s.clk t)) }

/-- One step, and what must come after what.  `none`: not possible for a safe program. -/
def step (o : Ords) (s : St) : Op → Option (St × Option Want)
  | .access t => if t ∈ s.owns then some (tick s t true, none) else none
  | .clone t =>
    if t ∈ s.owns then
      let s := rmwS o.incr (tick s t false) t
      some ({ s with strong := s.strong + 1, owns := t :: s.owns }, none)
    else none
  | .drop t =>
    if t ∈ s.owns then
      let s := tick s t false
      let d := join s.dropsS (s.clk t)
      let s := rmwS o.drop s t
      let s := { s with strong := s.strong - 1, owns := s.owns.erase t, dropsS := d }
      if s.strong = 0 then some ({ s with destroyed := true, ownw := t :: s.ownw }, some (.value t)) else some (s, none)
    else none
  | .downgrade t =>
    if t ∈ s.owns then
      let s := rmwW o.incr (tick s t false) t
      some ({ s with weak := s.weak + 1, ownw := t :: s.ownw }, none)
    else none
  | .cloneW t =>
    if t ∈ s.ownw then
      let s := rmwW o.incr (tick s t false) t
      some ({ s with weak := s.weak + 1, ownw := t :: s.ownw }, none)
    else none
  | .upgrade t =>
    if t ∈ s.ownw then
      let s := rmwS o.upgrade (tick s t false) t
      if s.strong = 0 then some (s, none) else some ({ s with strong := s.strong + 1, owns := t :: s.owns }, none)
    else none
  | .dropW t =>
    if t ∈ s.ownw then
      let s := tick s t false
      let d := join s.dropsW (s.clk t)
      let s := rmwW o.dropW s t
      let s := { s with weak := s.weak - 1, ownw := s.ownw.erase t, dropsW := d }
      if s.weak = 0 then some ({ s with freed := true }, some (.memory t)) else some (s, none)
    else none
  | .write t =>
    if t ∈ s.owns ∧ s.strong = 1 ∧ s.weak = 1 then some (loadS o.unique (tick s t true) t, some (.value t)) else none
  | .send t u => if t ∈ s.owns then some ({ learn s t u with owns := u :: s.owns.erase t }, none) else none
  | .sendW t u => if t ∈ s.ownw then some ({ learn s t u with ownw := u :: s.ownw.erase t }, none) else none
  | .sync t u => some (learn s t u, none)

/-- All uses come before. -/
def After (s : St) : Want → Prop
  | .value t => ∀ u, s.acc u ≤ s.clk t u
  | .memory t => ∀ u, s.use u ≤ s.clk t u

/-- On the way, everything comes after what it must come after. -/
def Sound (o : Ords) (s : St) : List Op → Prop
  | [] => True
  | op :: ops => match step o s op with
    | none => True
    | some (s', w) => (∀ x, w = some x → After s' x) ∧ Sound o s' ops

end Verif.Sync.Free
