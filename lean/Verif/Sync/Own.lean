/-! Executable model of how `Arc` and `Weak` (stabby-abi/src/alloc/sync.rs:33-396) own their value and their memory, whichever way an `Arc` is made,
shared, converted and taken apart, when user code (constructors, `Clone`, `Drop`) may unwind and allocations may fail.

Values are tokens (numbers).  Simplifications: one thread (others are in `Sync/Model.lean`, `Sync/Free.lean`); counters don't wrap; the allocator
always is the one of the block (which one frees is in `Alloc/Handles.lean`); a destructor does not use the `Arc`s of its own block while it runs.
`Dyn<Weak>` (sync.rs:771-827) is left out: it is in `Sync/Dyn.lean`. -/
namespace Verif.Sync.Own

/-- A block: the slot of the value, and the counters of the prefix (alloc/mod.rs:227-238). -/
structure Blk where
  val : Option Nat
  strong : Nat
  weak : Nat
  deriving DecidableEq, Repr

/-- What can point to a block: `Arc<T>`, `Arc<MaybeUninit<T>>`, what `Arc::into_raw` returned, `Dyn<Arc<()>, _>`, `Weak<T>`, `Weak<MaybeUninit<T>>`.
`lost`, `lostWeak`: an `AllocPtr` that stood for an `Arc` or for a `Weak` and went out of scope while unwinding; it has no destructor
(alloc/mod.rs:262-267). -/
inductive Kind where
  | typed | uninit | raw | dyn | lost | weak | weakUninit | lostWeak
  deriving DecidableEq, Repr

/-- An address: its block, and how many handles of each kind the program owns. -/
structure Cell where
  blk : Option Blk
  n : Kind → Nat

/-- An address that nothing points to. -/
def Cell.empty : Cell := ⟨none, fun _ => 0⟩

/-- The program gets a handle. -/
def Cell.give (c : Cell) (k : Kind) : Cell := { c with n := fun j => if j = k then c.n j + 1 else c.n j }

/-- The program gives up a handle. -/
def Cell.take (c : Cell) (k : Kind) : Cell := { c with n := fun j => if j = k then c.n j - 1 else c.n j }

/-- The state of the program.  `held`: how many times it owns each value; `dropped`: how many times the destructor of each value ran;
`created`: the values made so far. -/
structure World where
  cells : Nat → Cell
  held : Nat → Nat
  dropped : Nat → Nat
  created : Nat → Bool

def World.empty : World := ⟨fun _ => .empty, fun _ => 0, fun _ => 0, fun _ => false⟩

/-- How an operation ends.  `invalid`: not something that a program can do. -/
inductive Out where
  | ok (w : World)
  | unwound (w : World)
  | aborted (w : World)
  | ub
  | invalid

def World.set (w : World) (p : Nat) (c : Cell) : World := { w with cells := fun q => if q = p then c else w.cells q }
def World.hold (w : World) (v : Nat) : World := { w with held := fun u => if u = v then w.held u + 1 else w.held u }
def World.unhold (w : World) (v : Nat) : World := { w with held := fun u => if u = v then w.held u - 1 else w.held u }
/-- The destructor of a value. -/
def World.drop (w : World) (v : Nat) : World := { w with dropped := fun u => if u = v then w.dropped u + 1 else w.dropped u }
def World.make (w : World) (v : Nat) : World := { w with created := fun u => u = v || w.created u }

/-- What a constructor given to `make`, `make_in` or `try_make_in` does: initialises the slot with a value of the program and returns `Ok`; returns
`Err(())`; unwinds. -/
inductive Ctor where
  | init (v : Nat)
  | fail
  | panic
  deriving DecidableEq, Repr

/-- What the program does.  `ans`: the address that the allocator returns, if it does; `panics`: whether the destructor of the value unwinds. -/
inductive Op where
  | create (v : Nat)
  | dropVal (v : Nat) (panics : Bool)
  | newIn (v : Nat) (ans : Option Nat)
  | tryNewIn (v : Nat) (ans : Option Nat)
  | makeIn (c : Ctor) (ans : Option Nat)
  | tryMakeIn (c : Ctor) (ans : Option Nat)
  | deref (k : Kind) (p : Nat)
  | clone (k : Kind) (p : Nat)
  | downgrade (k : Kind) (p : Nat)
  | upgrade (k : Kind) (p : Nat)
  | drop (k : Kind) (p : Nat) (panics : Bool)
  | replace (k : Kind) (p v : Nat)
  | assumeInit (p v : Nat)
  | makeMut (p : Nat) (cloned : Option Nat) (ans : Option Nat) (panics : Bool)
  | tryIntoInner (p : Nat)
  | intoRaw (p : Nat)
  | fromRaw (p : Nat)
  | increment (k : Kind) (p : Nat)
  | anonymize (p : Nat)
  deriving DecidableEq, Repr

/-- `try_make_in` (sync.rs:92-119), when the allocation succeeded at `p`: the counters are set to 1, then the constructor runs. -/
def World.construct (w : World) (c : Ctor) (p : Nat) : Out :=
  match c with
  | .init v =>
    if 0 < w.held v then .ok ((w.unhold v).set p ({ w.cells p with blk := some ⟨some v, 1, 1⟩ }.give .typed)) else .invalid
  | .fail => .ok (w.set p ({ w.cells p with blk := some ⟨none, 1, 1⟩ }.give .uninit))
  | .panic => .unwound (w.set p ({ w.cells p with blk := some ⟨none, 1, 1⟩ }.give .lost))

/-- The constructor is dropped without being called; `init v` owns `v`. -/
def World.discard (w : World) (c : Ctor) : Out :=
  match c with
  | .init v => if 0 < w.held v then .unwound ((w.unhold v).drop v) else .invalid
  | _ => .unwound w

/-- Allocators return addresses that aren't in use. -/
def World.ifVacant (w : World) (p : Nat) (r : Out) : Out := if (w.cells p).blk.isNone then r else .invalid

/-- `Drop for Weak` (sync.rs:382-396). -/
def Cell.dropWeak (c : Cell) : Option Cell :=
  match c.blk with
  | none => none
  | some b => if b.weak ≠ 1 then some { c with blk := some { b with weak := b.weak - 1 } } else some { c with blk := none }

/-- What the end of an `Arc` did to its block: undefined behaviour, or the cell, with the value that was destroyed, if any. -/
inductive Gone where
  | ub
  | done (c : Cell) (v : Option Nat)

/-- `Drop for Arc` (sync.rs:285-299), `IPtrOwned for Arc` (743-758).  `uninit`: `T` is `MaybeUninit<_>`, which has no destructor.  When the
destructor unwinds, the `Weak` isn't made, nor dropped. -/
def Cell.dropArc (c : Cell) (uninit panics : Bool) : Gone :=
  match c.blk with
  | none => .ub
  | some b =>
    let c1 : Cell := { c with blk := some { b with strong := b.strong - 1 } }
    if b.strong ≠ 1 then .done c1 none
    else if uninit then
      match c1.dropWeak with
      | none => .ub
      | some c2 => .done c2 none
    else match b.val with
      | none => .ub
      | some v =>
        let c2 : Cell := { c with blk := some { b with strong := b.strong - 1, val := none } }
        if panics then .done (c2.give .lostWeak) (some v)
        else match c2.dropWeak with
          | none => .ub
          | some c3 => .done c3 (some v)

/-- The rest of the drop of an `Arc` at `p`: `f` ends the operation if no destructor unwinds, `g` if one does. -/
def World.ended (w : World) (p : Nat) (panics : Bool) (f g : World → Out) : Gone → Out
  | .ub => .ub
  | .done c none => f (w.set p c)
  | .done c (some v) => if panics then g ((w.set p c).drop v) else f ((w.set p c).drop v)

/-- `Arc::is_unique` (sync.rs:254-256). -/
def Blk.unique (b : Blk) : Bool := b.strong == 1 && b.weak == 1

/-- One operation. -/
def step (w : World) : Op → Out
  | .create v => if w.created v then .invalid else .ok ((w.make v).hold v)
  | .dropVal v panics =>
    if 0 < w.held v then
      if panics then .unwound ((w.unhold v).drop v) else .ok ((w.unhold v).drop v)
    else .invalid
  -- `new_in` (sync.rs:171-176): the constructor owns the value; when the allocation fails, `make_in` unwinds and drops it
  | .newIn v ans =>
    match ans with
    | none => w.discard (.init v)
    | some p => w.ifVacant p (w.construct (.init v) p)
  -- `try_new_in` (sync.rs:123-142): the value is copied by the constructor, and forgotten if that was called
  | .tryNewIn v ans =>
    match ans with
    | none => if 0 < w.held v then .ok w else .invalid
    | some p => w.ifVacant p (w.construct (.init v) p)
  -- `make_in` (sync.rs:156-166)
  | .makeIn c ans =>
    match ans with
    | none => w.discard c
    | some p => w.ifVacant p (w.construct c p)
  -- `try_make_in` (sync.rs:92-119): the constructor is returned
  | .tryMakeIn c ans =>
    match ans with
    | none => match c with
      | .init v => if 0 < w.held v then .ok w else .invalid
      | _ => .ok w
    | some p => w.ifVacant p (w.construct c p)
  -- `Deref for Arc` (sync.rs:308-313), `IPtr for Arc` (727-731)
  | .deref k p =>
    if (k = .typed ∨ k = .dyn) ∧ 0 < (w.cells p).n k then
      match (w.cells p).blk with
      | some ⟨some _, _, _⟩ => .ok w
      | _ => .ub
    else .invalid
  -- `Clone for Arc` (sync.rs:300-307), `IPtrClone for Arc` (732-736), `Clone for Weak` (374-381)
  | .clone k p =>
    if 0 < (w.cells p).n k then
      match k with
      | .typed | .uninit | .dyn => match (w.cells p).blk with
        | some b => .ok (w.set p ({ w.cells p with blk := some { b with strong := b.strong + 1 } }.give k))
        | none => .ub
      | .weak | .weakUninit => match (w.cells p).blk with
        | some b => .ok (w.set p ({ w.cells p with blk := some { b with weak := b.weak + 1 } }.give k))
        | none => .ub
      | _ => .invalid
    else .invalid
  -- `Arc::downgrade` (sync.rs:271-273), `From<&Arc> for Weak` (334-341)
  | .downgrade k p =>
    if 0 < (w.cells p).n k then
      match k with
      | .typed => match (w.cells p).blk with
        | some b => .ok (w.set p ({ w.cells p with blk := some { b with weak := b.weak + 1 } }.give .weak))
        | none => .ub
      | .uninit => match (w.cells p).blk with
        | some b => .ok (w.set p ({ w.cells p with blk := some { b with weak := b.weak + 1 } }.give .weakUninit))
        | none => .ub
      | _ => .invalid
    else .invalid
  -- `Weak::upgrade` (sync.rs:358-372)
  | .upgrade k p =>
    if 0 < (w.cells p).n k then
      match k with
      | .weak => match (w.cells p).blk with
        | some b => if b.strong = 0 then .ok w else
            .ok (w.set p ({ w.cells p with blk := some { b with strong := b.strong + 1 } }.give .typed))
        | none => .ub
      | .weakUninit => match (w.cells p).blk with
        | some b => if b.strong = 0 then .ok w else
            .ok (w.set p ({ w.cells p with blk := some { b with strong := b.strong + 1 } }.give .uninit))
        | none => .ub
      | _ => .invalid
    else .invalid
  -- `Drop for Arc` (sync.rs:285-299), `Drop for Dyn` (fatptr.rs:354-360), whose drop function is `extern "C"` and cannot unwind
  -- (vtable/mod.rs:372-374), `Drop for Weak` (382-396)
  | .drop k p panics =>
    if 0 < (w.cells p).n k then
      match k with
      | .typed => w.ended p panics .ok .unwound (((w.cells p).take .typed).dropArc false panics)
      | .uninit => w.ended p panics .ok .unwound (((w.cells p).take .uninit).dropArc true panics)
      | .dyn => w.ended p panics .ok .aborted (((w.cells p).take .dyn).dropArc false panics)
      | .weak | .weakUninit => match ((w.cells p).take k).dropWeak with
        | some c => .ok (w.set p c)
        | none => .ub
      | _ => .invalid
    else .invalid
  -- `core::mem::replace(Arc::get_mut(this)?, v)` (sync.rs:194-200), also through `IPtrTryAsMut for Arc` (738-742)
  | .replace k p v =>
    if (k = .typed ∨ k = .dyn) ∧ 0 < (w.cells p).n k ∧ 0 < w.held v then
      match (w.cells p).blk with
      | some b => if b.unique then
          match b.val with
          | some u => .ok (((w.unhold v).hold u).set p { w.cells p with blk := some { b with val := some v } })
          | none => .ub
        else .ok w
      | none => .ub
    else .invalid
  -- the value is written through `get_mut`, then `Arc::from_raw(Arc::into_raw(this).assume_init())` (sync.rs:181-191, alloc/mod.rs:283-290)
  | .assumeInit p v =>
    if 0 < (w.cells p).n .uninit ∧ 0 < w.held v then
      match (w.cells p).blk with
      | some b => if b.unique then
          .ok ((w.unhold v).set p ((({ w.cells p with blk := some { b with val := some v } }).take .uninit).give .typed))
        else .ok w
      | none => .ub
    else .invalid
  -- `make_mut` (sync.rs:239-251): `T::clone` may unwind (`none`), then `new_in`; the assignment drops the old `Arc`, and takes place even if
  -- that unwinds
  | .makeMut p cloned ans panics =>
    if 0 < (w.cells p).n .typed then
      match (w.cells p).blk with
      | some b =>
        if b.unique then .ok w
        else match b.val with
          | none => .ub
          | some _ => match cloned with
            | none => .unwound w
            | some v => if w.created v then .invalid else
              match ans with
              | none => .unwound ((w.make v).drop v)
              | some q => w.ifVacant q
                (let w1 := (w.make v).set q ({ w.cells q with blk := some ⟨some v, 1, 1⟩ }.give .typed)
                 w1.ended p panics .ok .unwound (((w1.cells p).take .typed).dropArc false panics))
      | none => .ub
    else .invalid
  -- `try_into_inner` (sync.rs:260-268): the value is read, and the `Arc` turned into a `Weak`, which is dropped
  | .tryIntoInner p =>
    if 0 < (w.cells p).n .typed then
      match (w.cells p).blk with
      | some b => if b.unique then
          match b.val with
          | some v => match ((w.cells p).take .typed).dropWeak with
            | some c => .ok ((w.hold v).set p c)
            | none => .ub
          | none => .ub
        else .ok w
      | none => .ub
    else .invalid
  -- `Arc::into_raw` (sync.rs:181-185)
  | .intoRaw p => if 0 < (w.cells p).n .typed then .ok (w.set p (((w.cells p).take .typed).give .raw)) else .invalid
  -- `Arc::from_raw` (sync.rs:189-191)
  | .fromRaw p => if 0 < (w.cells p).n .raw then .ok (w.set p (((w.cells p).take .raw).give .typed)) else .invalid
  -- `Arc::increment_strong_count` (sync.rs:217-225), with the pointer of a typed or raw handle: one more raw handle may be turned back
  | .increment k p =>
    if (k = .typed ∨ k = .raw) ∧ 0 < (w.cells p).n k then
      match (w.cells p).blk with
      | some b => .ok (w.set p ({ w.cells p with blk := some { b with strong := b.strong + 1 } }.give .raw))
      | none => .ub
    else .invalid
  -- `IntoDyn for Arc` (sync.rs:759-769)
  | .anonymize p => if 0 < (w.cells p).n .typed then .ok (w.set p (((w.cells p).take .typed).give .dyn)) else .invalid

/-- The states that programs reach.  `calm`: nothing unwound so far.  An abort ends the program. -/
inductive Reach : Bool → World → Prop where
  | empty : Reach true .empty
  | ok {calm : Bool} {w w' : World} {op : Op} : Reach calm w → step w op = .ok w' → Reach calm w'
  | unwound {calm : Bool} {w w' : World} {op : Op} : Reach calm w → step w op = .unwound w' → Reach false w'

end Verif.Sync.Own
