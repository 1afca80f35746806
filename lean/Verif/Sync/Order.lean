/-! Model of the memory orderings of `Arc` (stabby-abi/src/alloc/sync.rs): clone, drop and exclusive access by several threads, with vector clocks.

All modifications of the strong counter are read-modify-write operations, so each reads the latest value in modification order and the
order of steps is the modification order.  What the C11 memory model adds is which of them synchronise: a release operation publishes the clock of
its thread on the counter (release sequences are continued by all read-modify-write operations), an acquire operation joins the
published clock, and relaxed operations do neither.  Weak handles are left out. -/
namespace Verif.Sync.Order

/-- A vector clock: how many accesses of every thread happened before. -/
abbrev Clock := Nat → Nat

def join (a b : Clock) : Clock := fun u => max (a u) (b u)
def upd {α : Type} (f : Nat → α) (t : Nat) (x : α) : Nat → α := fun u => if u = t then x else f u

/-- The ordering of a read-modify-write operation. -/
inductive Ord where
  | relaxed | acqRel
deriving DecidableEq, Repr

structure St where
  /-- what happened before the current point of each thread -/
  clk : Nat → Clock
  /-- what was published on the strong counter -/
  rel : Clock
  strong : Nat
  /-- number of accesses to the value by each thread so far -/
  acc : Clock
  /-- handles per thread -/
  owns : Nat → Nat
  destroyed : Bool
  /-- what happened before any of the drops so far (used to state theorems) -/
  drops : Clock

/-- `Arc::new` by thread 0 (sync.rs:92-122). -/
def St.new : St := ⟨fun _ _ => 0, fun _ => 0, 1, fun _ => 0, fun t => if t = 0 then 1 else 0, false, fun _ => 0⟩

inductive Op where
  /-- thread `t` reads the value through one of its handles (sync.rs:308-313) -/
  | access (t : Nat)
  /-- `Arc::clone` (sync.rs:300-307) -/
  | clone (t : Nat)
  /-- thread `t` moves a handle to thread `u`; any safe way to do so synchronises -/
  | send (t u : Nat)
  /-- thread `u` synchronises with thread `t` by other means -/
  | sync (t u : Nat)
  /-- `Arc::drop` (sync.rs:285-299) -/
  | drop (t : Nat)
  /-- a successful `get_mut` by thread `t` followed by a write (sync.rs:194-210, 254-256) -/
  | write (t : Nat)
deriving DecidableEq, Repr

/-- Effect on the clocks of a read-modify-write operation of thread `t` on the counter. -/
def rmw (o : Ord) (s : St) (t : Nat) : St :=
  match o with
  | .relaxed => s
  | .acqRel => let c := join (s.clk t) s.rel; { s with clk := upd s.clk t c, rel := c }

/-- Effect on the clocks of a load of the counter; `AcqRel` stands for `Acquire` here. -/
def load (o : Ord) (s : St) (t : Nat) : St :=
  match o with
  | .relaxed => s
  | .acqRel => { s with clk := upd s.clk t (join (s.clk t) s.rel) }

/-- Every access made so far happened before the current point of thread `t`. -/
def Ordered (s : St) (t : Nat) : Prop := ∀ u, s.acc u ≤ s.clk t u

/-- One step with its ordering: the next state and, for an operation that needs it (destruction, exclusive access), the thread which
must come after every access.  `none`: not possible for a safe program. -/
def step (o : Ord) (s : St) : Op → Option (St × Option Nat)
  | .access t =>
    if 0 < s.owns t then
      let n := s.acc t + 1
      some ({ s with acc := upd s.acc t n, clk := upd s.clk t (upd (s.clk t) t n) }, none)
    else none
  | .clone t =>
    if 0 < s.owns t then some ({ s with strong := s.strong + 1, owns := upd s.owns t (s.owns t + 1) }, none) else none
  | .send t u =>
    if 0 < s.owns t then
      let owns := upd s.owns t (s.owns t - 1)
      some ({ s with clk := upd s.clk u (join (s.clk u) (s.clk t)), owns := upd owns u (owns u + 1) }, none)
    else none
  | .sync t u => some ({ s with clk := upd s.clk u (join (s.clk u) (s.clk t)) }, none)
  | .drop t =>
    if 0 < s.owns t then
      let s' := rmw o s t
      let s' := { s' with strong := s.strong - 1, owns := upd s.owns t (s.owns t - 1), drops := join s.drops (s.clk t) }
      if s.strong = 1 then some ({ s' with destroyed := true }, some t) else some (s', none)
    else none
  | .write t =>
    if 0 < s.owns t ∧ s.strong = 1 then
      let s' := load o s t
      some (s', some t)
    else none

/-- The ordering the code uses for every one of these operations. -/
def Code : Ord := .relaxed

/-- Every earlier drop happened before the point where thread `t` destroys the value or accesses it exclusively, by synchronisation outside of the
`Arc` (channels, joins, or because `t` made it itself). -/
def DropsBefore (s : St) (t : Nat) : Prop := ∀ u, s.drops u ≤ s.clk t u

/-- The program synchronises the drops by itself. -/
def SelfSync (o : Ord) (s : St) : List Op → Prop
  | [] => True
  | op :: ops => match step o s op with
    | none => True
    | some (s', w) => (∀ t, w = some t → DropsBefore s t) ∧ SelfSync o s' ops

/-- Every destruction and exclusive access on the way comes after every access. -/
def Sound (o : Ord) (s : St) : List Op → Prop
  | [] => True
  | op :: ops => match step o s op with
    | none => True
    | some (s', w) => (∀ t, w = some t → Ordered s' t) ∧ Sound o s' ops

end Verif.Sync.Order
