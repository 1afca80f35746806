/-! Model of what threads see of values that are published through an atomic: `AtomicArc` (alloc/sync.rs:831-930), `AtomicArcBTreeSet` (collections/arc_btree.rs:14-75),
the registry of vtables (vtable/mod.rs:101-156) and `CheckedImport` (checked_import.rs:49-157).

There is one atomic location.  Its modification order is the list of its messages: a value and what was published with it.  A load may return any message that is not
older than what its thread has seen of the location (coherence): it may be stale.  A thread has a view: the objects whose initialisation happened before.
A release operation publishes the view of its thread with its message, an acquire operation joins what was published with the message it reads, relaxed operations do
neither; read-modify-write operations read the last message and continue its release sequence.  Simplifications: plain stores come last in modification order when they are made;
`SeqCst` counts as release and acquire only (what it gives beyond is not needed); the counters of `Arc` are in `Sync/Order.lean`. -/
namespace Verif.Sync.Publish

/-- The objects whose initialisation happened before. -/
abbrev View := Nat → Bool

def View.join (a b : View) : View := fun o => a o || b o
def View.empty : View := fun _ => false
def upd {α : Type} (f : Nat → α) (t : Nat) (x : α) : Nat → α := fun u => if u = t then x else f u

/-- A message of the atomic: a pointer (null: `none`), and what was published with it. -/
structure Msg where
  val : Option Nat
  view : View

structure St where
  /-- modification order, oldest first -/
  msgs : List Msg
  /-- the newest message each thread has seen -/
  ts : Nat → Nat
  view : Nat → View
  /-- the objects each thread has a pointer to -/
  held : Nat → List Nat
  /-- for every object, the objects it points to -/
  refs : List (List Nat)

/-- `AtomicArc::new(None)` (sync.rs:859-867), `AtomicArcBTreeSet::new()` (arc_btree.rs:28-31). -/
def St.new : St := ⟨[⟨none, View.empty⟩], fun _ => 0, fun _ => View.empty, fun _ => [], []⟩

inductive Op where
  /-- thread `t` makes an object that points to others it has -/
  | make (t : Nat) (deps : List Nat)
  /-- a load that returns message `i`: `AtomicArc::load`, `is` (sync.rs:868-903), the loads of `edit` and `get` (arc_btree.rs:41, 71) -/
  | load (t i : Nat) (acq : Bool)
  /-- a compare-exchange that succeeds (sync.rs:907-921, arc_btree.rs:48-53) -/
  | swap (t : Nat) (cur new : Option Nat) (rel acq : Bool)
  /-- one that fails and returns message `i` (sync.rs:922-928, arc_btree.rs:60-62) -/
  | fail (t i : Nat) (cur : Option Nat) (acq : Bool)
  /-- `AtomicArc::store` (sync.rs:879-882) -/
  | store (t : Nat) (new : Option Nat) (rel : Bool)
  /-- thread `t` reads an object -/
  | access (t o : Nat)
  /-- thread `t` reads a pointer in an object -/
  | follow (t o c : Nat)
  /-- thread `u` synchronises with thread `t` by other means -/
  | sync (t u : Nat)
  /-- thread `t` gives a pointer to thread `u`; any safe way to do so synchronises -/
  | give (t u o : Nat)
deriving DecidableEq, Repr

/-- A thread can name a pointer: null, or one it has. -/
def has (s : St) (t : Nat) : Option Nat → Bool
  | none => true
  | some o => (s.held t).contains o

/-- The effect of reading message `i`. -/
def receive (s : St) (t i : Nat) (m : Msg) (acq : Bool) : St :=
  { s with
    ts := upd s.ts t i
    view := upd s.view t (if acq then (s.view t).join m.view else s.view t)
    held := upd s.held t (m.val.toList ++ s.held t) }

/-- One step: the next state, and which thread reads which object.  `none`: not possible. -/
def step (s : St) : Op → Option (St × Option (Nat × Nat))
  | .make t deps =>
    if deps.all (s.held t).contains then
      let n := s.refs.length
      some ({ s with refs := s.refs ++ [deps], view := upd s.view t (upd (s.view t) n true), held := upd s.held t (n :: s.held t) }, none)
    else none
  | .load t i acq =>
    match s.msgs[i]? with
    | some m => if s.ts t ≤ i then some (receive s t i m acq, none) else none
    | none => none
  | .swap t cur new rel acq =>
    match s.msgs.getLast? with
    | some m =>
      if m.val = cur ∧ has s t cur ∧ has s t new then
        some ({ receive s t s.msgs.length m acq with
          msgs := s.msgs ++ [⟨new, if rel then (s.view t).join m.view else m.view⟩] }, none)
      else none
    | none => none
  | .fail t i cur acq =>
    match s.msgs[i]? with
    | some m => if s.ts t ≤ i ∧ m.val ≠ cur then some (receive s t i m acq, none) else none
    | none => none
  | .store t new rel =>
    if has s t new then
      some ({ s with ts := upd s.ts t s.msgs.length, msgs := s.msgs ++ [⟨new, if rel then s.view t else View.empty⟩] }, none)
    else none
  | .access t o => if (s.held t).contains o then some (s, some (t, o)) else none
  | .follow t o c =>
    if (s.held t).contains o ∧ (s.refs.getD o []).contains c then some ({ s with held := upd s.held t (c :: s.held t) }, some (t, o)) else none
  | .sync t u => some ({ s with view := upd s.view u ((s.view u).join (s.view t)), ts := upd s.ts u (max (s.ts u) (s.ts t)) }, none)
  | .give t u o =>
    if (s.held t).contains o then
      some ({ s with view := upd s.view u ((s.view u).join (s.view t)), ts := upd s.ts u (max (s.ts u) (s.ts t)), held := upd s.held u (o :: s.held u) }, none)
    else none

/-- Every object that is read on the way was initialised before, as far as the thread that reads it can tell. -/
def Sound (s : St) : List Op → Prop
  | [] => True
  | op :: ops => match step s op with
    | none => True
    | some (s', r) => (∀ t o, r = some (t, o) → s.view t o = true) ∧ Sound s' ops

/-- The orderings of the operations on the atomic: acquire for loads and failures, release for exchanges and stores. -/
structure Orders where
  load : Bool
  swap : Bool
  fail : Bool
  store : Bool
  deriving DecidableEq, Repr

/-- The operation uses these orderings. -/
def Orders.uses (p : Orders) : Op → Prop
  | .load _ _ a => a = p.load
  | .swap _ _ _ r _ => r = p.swap
  | .fail _ _ _ a => a = p.fail
  | .store _ _ r => r = p.store
  | _ => True

/-- What `AtomicArcBTreeSet::edit` does to the atomic (arc_btree.rs:35-64): acquire load, exchange with `Release` and `Acquire`. -/
def byEdit : Op → Prop
  | .load _ _ a => a = true
  | .swap _ _ _ r a => r = true ∧ a = false
  | .fail _ _ _ a => a = true
  | .store _ _ _ => False
  | _ => True

/-- What `AtomicArcBTreeSet::get` does (arc_btree.rs:66-73): a relaxed load. -/
def byGet : Op → Prop
  | .load _ _ a => a = false
  | .swap _ _ _ _ _ => False
  | .fail _ _ _ _ => False
  | .store _ _ _ => False
  | _ => True

/-- What the registry does on an `AtomicArc` (vtable/mod.rs:103-151): all is `SeqCst`. -/
def byRegistry : Op → Prop
  | .load _ _ a => a = true
  | .swap _ _ _ r a => r = true ∧ a = true
  | .fail _ _ _ a => a = true
  | .store _ _ _ => False
  | _ => True

/-! ### `CheckedImport` -/

/-- The states of an import (checked_import.rs:79-82). -/
inductive Mark where
  | unchecked | validated | invalidated | locked
  deriving DecidableEq, Repr

structure Import where
  /-- modification order of `checked`, with what was published: is the write of `result` known? -/
  msgs : List (Mark × Bool)
  ts : Nat → Nat
  /-- the write of `result` happened before the current point of the thread -/
  known : Nat → Bool
  /-- the thread that holds the lock -/
  owner : Option Nat
  written : Bool

/-- `CheckedImport::new` (checked_import.rs:86-98). -/
def Import.new : Import := ⟨[(.unchecked, false)], fun _ => 0, fun _ => false, none, false⟩

inductive IOp where
  /-- the load of `as_ref` returns message `i` (checked_import.rs:112) -/
  | load (t i : Nat)
  /-- the exchange succeeds (checked_import.rs:115-124) -/
  | lock (t : Nat)
  /-- `result` is written and published (checked_import.rs:126-129) -/
  | publish (t : Nat)
  /-- thread `u` synchronises with thread `t` by other means -/
  | sync (t u : Nat)
deriving DecidableEq, Repr

/-- One step for a checker that accepts, where `acq` is whether the load is an acquire load; the thread that reads `result`, if any does. -/
def istep (acq : Bool) (s : Import) : IOp → Option (Import × Option Nat)
  | .load t i =>
    match s.msgs[i]? with
    | some (m, p) =>
      if s.ts t ≤ i then
        let s := { s with ts := upd s.ts t i, known := upd s.known t (s.known t || (acq && p)) }
        some (s, if m = .validated then some t else none)
      else none
    | none => none
  | .lock t =>
    match s.msgs.getLast? with
    | some (.unchecked, p) =>
      some ({ s with msgs := s.msgs ++ [(.locked, s.known t || p)], ts := upd s.ts t s.msgs.length, known := upd s.known t (s.known t || p), owner := some t }, none)
    | _ => none
  | .publish t =>
    if s.owner = some t then
      some ({ s with msgs := s.msgs ++ [(.validated, true)], ts := upd s.ts t s.msgs.length, known := upd s.known t true, owner := none, written := true }, some t)
    else none
  | .sync t u => some ({ s with known := upd s.known u (s.known u || s.known t), ts := upd s.ts u (max (s.ts u) (s.ts t)) }, none)

/-- Every read of `result` on the way comes after its write: as far as the thread can tell (`known`), and in fact. -/
def ISound (acq : Bool) (s : Import) : List IOp → Prop
  | [] => True
  | op :: ops => match istep acq s op with
    | none => True
    | some (s', r) => (∀ t, r = some t → s'.known t = true ∧ s'.written = true) ∧ ISound acq s' ops

/-- The order of the load in the code (checked_import.rs:112). -/
def importCode : Bool := false

end Verif.Sync.Publish
