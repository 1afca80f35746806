/-! Executable model of `Box` (`stabby-abi/src/alloc/boxed.rs`) and of boxed closures (`stabby-macros/src/gen_closures.rs`) with user code that
may unwind: constructors, `Clone`, destructors and closures.

Values and allocator handles are tokens (numbers): a program creates them, moves them into boxes and gets them back.  A block of memory has
the slot of the value and the slot of the allocator handle in the prefix; `none` is uninitialised memory.  Addresses are chosen by the
allocator.  What an operation does with memory that is not allocated or not initialised is undefined behaviour. -/
namespace Verif.Alloc.Box

/-- An allocated block: `AllocPtr<T, Alloc>` (alloc/mod.rs:259-264) and its prefix (227-238). -/
structure Blk where
  addr : Nat
  val : Option Nat
  alloc : Option Nat
  deriving DecidableEq, Repr

/-- What the program holds: `Box<T>`, `Box<MaybeUninit<T>>`, the `AllocPtr` of `into_raw`, `Dyn<Box<()>, _>`. -/
inductive Kind where
  | typed | uninit | raw | dyn
  deriving DecidableEq, Repr

structure Handle where
  kind : Kind
  addr : Nat
  deriving DecidableEq, Repr

/-- The state of the program.  `heap`: the allocated blocks; `handles`, `vals`, `allocs`: what the program owns;
`created`, `createdA`: the values and allocator handles made so far; `dropped`, `droppedA`: those whose destructor ran;
`called`: the closures that were called by value, with their argument. -/
structure World where
  heap : List Blk
  handles : List Handle
  vals : List Nat
  allocs : List Nat
  created : List Nat
  createdA : List Nat
  dropped : List Nat
  droppedA : List Nat
  called : List (Nat × Nat)
  deriving DecidableEq, Repr

/-- Nothing has happened yet. -/
def World.empty : World := ⟨[], [], [], [], [], [], [], [], []⟩

/-- How an operation ends: it returns, it unwinds, the process aborts, undefined behaviour; `invalid`: not something that a program can
do. -/
inductive Out where
  | ok (w : World)
  | unwound (w : World)
  | aborted (w : World)
  | ub
  | invalid
  deriving DecidableEq, Repr

/-- What a constructor does: it initialises the slot with a value of the program, declares a failure, unwinds. -/
inductive Ctor where
  | init (v : Nat)
  | fail
  | panic
  deriving DecidableEq, Repr

/-- What the program does.  `addr : Option Nat` is the answer of the allocator, `panics : Bool` whether the user code unwinds. -/
inductive Op where
  | create (v : Nat)
  | createAlloc (a : Nat)
  | dropVal (v : Nat) (panics : Bool)
  | dropAlloc (a : Nat)
  | newIn (v a : Nat) (addr : Option Nat)
  | tryNewIn (v a : Nat) (addr : Option Nat)
  | makeIn (c : Ctor) (a : Nat) (addr : Option Nat)
  | tryMakeIn (c : Ctor) (a : Nat) (addr : Option Nat)
  | intoInner (p : Nat)
  | drop (p : Nat) (panics : Bool)
  | dropUninit (p : Nat)
  | intoRaw (p : Nat)
  | fromRaw (p : Nat)
  | replace (p v : Nat)
  | clone (p : Nat) (v : Option Nat) (a : Option Nat) (addr : Option Nat)
  | anonymize (p : Nat)
  | dynDrop (p : Nat) (panics : Bool)
  | callOnce (p arg : Nat) (result : Option Nat)
  deriving DecidableEq, Repr

/-- The block at an address. -/
def World.at (w : World) (p : Nat) : Option Blk := w.heap.find? (fun b => b.addr == p)

/-- Whether an address is free, as the allocator must ensure of the addresses that it returns. -/
def World.vacant (w : World) (p : Nat) : Bool := (w.at p).isNone

/-- `AllocPtr::alloc(&mut alloc)`, then `prefix_mut().alloc.write(alloc)`, then the slot is written (boxed.rs:92-110). -/
def World.put (w : World) (p : Nat) (v : Option Nat) (a : Nat) : World :=
  { w with heap := ⟨p, v, some a⟩ :: w.heap, allocs := w.allocs.erase a }

/-- `Box::free` (boxed.rs:198-203): the allocator handle is read from the prefix, frees the block, and is dropped. -/
def World.free (w : World) (p : Nat) : Option World :=
  match w.at p with
  | some b => match b.alloc with
    | some a => some { w with heap := w.heap.erase b, droppedA := a :: w.droppedA }
    | none => none
  | none => none

/-- `core::ptr::read(&**this)`: the value is copied out of its slot. -/
def World.read (w : World) (p : Nat) : Option Nat :=
  match w.at p with
  | some b => b.val
  | none => none

/-- `drop_in_place(self.ptr.as_mut())`: the destructor runs; the slot is uninitialised from then on. -/
def World.dropInPlace (w : World) (p : Nat) : Option World :=
  match w.at p with
  | some b => match b.val with
    | some v => some { w with heap := { b with val := none } :: w.heap.erase b, dropped := v :: w.dropped }
    | none => none
  | none => none

/-- The program gives up a handle. -/
def World.take (w : World) (h : Handle) : World := { w with handles := w.handles.erase h }

/-- The program gets a handle. -/
def World.give (w : World) (h : Handle) : World := { w with handles := h :: w.handles }

/-- `Box::into_inner` (boxed.rs:170-177): the value is read, the block freed, the value returned to the caller. -/
def World.intoInner (w : World) (p : Nat) : Option (Nat × World) :=
  match w.read p with
  | some v => match w.free p with
    | some w => some (v, w)
    | none => none
  | none => none

/-- Undefined behaviour or a state. -/
def orUb (f : World → Out) : Option World → Out
  | some w => f w
  | none => .ub

/-- `Box::try_make_in` (boxed.rs:87-111), when the allocation succeeded at `p`. -/
def World.construct (w : World) (c : Ctor) (a p : Nat) : Out :=
  match c with
  | .init v =>
    if v ∈ w.vals then .ok (({ w with vals := w.vals.erase v }.put p (some v) a).give ⟨.typed, p⟩) else .invalid
  | .fail => .ok ((w.put p none a).give ⟨.uninit, p⟩)
  | .panic => .unwound (w.put p none a)

/-- One operation. -/
def step (w : World) : Op → Out
  | .create v => if v ∈ w.created then .invalid else .ok { w with vals := v :: w.vals, created := v :: w.created }
  | .createAlloc a => if a ∈ w.createdA then .invalid else .ok { w with allocs := a :: w.allocs, createdA := a :: w.createdA }
  | .dropVal v panics =>
    if v ∈ w.vals then
      let w := { w with vals := w.vals.erase v, dropped := v :: w.dropped }
      if panics then .unwound w else .ok w
    else .invalid
  | .dropAlloc a =>
    if a ∈ w.allocs then .ok { w with allocs := w.allocs.erase a, droppedA := a :: w.droppedA } else .invalid
  -- `Box::new_in` (boxed.rs:163-168): when the allocation fails, `make_in` unwinds and drops the constructor, which owns the value
  | .newIn v a addr =>
    if v ∈ w.vals ∧ a ∈ w.allocs then
      match addr with
      | none => .unwound { w with vals := w.vals.erase v, dropped := v :: w.dropped, allocs := w.allocs.erase a, droppedA := a :: w.droppedA }
      | some p => if w.vacant p then w.construct (.init v) a p else .invalid
    else .invalid
  -- `Box::try_new_in` (boxed.rs:115-134): the constructor copies the value, which is forgotten on success and returned otherwise
  | .tryNewIn v a addr =>
    if v ∈ w.vals ∧ a ∈ w.allocs then
      match addr with
      | none => .ok w
      | some p => if w.vacant p then w.construct (.init v) a p else .invalid
    else .invalid
  -- `Box::make_in` (boxed.rs:148-158)
  | .makeIn c a addr =>
    if a ∈ w.allocs then
      match addr with
      | none => match c with
        | .init v =>
          if v ∈ w.vals then
            .unwound { w with vals := w.vals.erase v, dropped := v :: w.dropped, allocs := w.allocs.erase a, droppedA := a :: w.droppedA }
          else .invalid
        | _ => .unwound { w with allocs := w.allocs.erase a, droppedA := a :: w.droppedA }
      | some p => if w.vacant p then w.construct c a p else .invalid
    else .invalid
  -- `Box::try_make_in` (boxed.rs:87-111): on failure the constructor and the allocator are returned
  | .tryMakeIn c a addr =>
    if a ∈ w.allocs then
      match addr with
      | none => match c with
        | .init v => if v ∈ w.vals then .ok w else .invalid
        | _ => .ok w
      | some p => if w.vacant p then w.construct c a p else .invalid
    else .invalid
  | .intoInner p =>
    if ⟨.typed, p⟩ ∈ w.handles then
      match (w.take ⟨.typed, p⟩).intoInner p with
      | some (v, w) => .ok { w with vals := v :: w.vals }
      | none => .ub
    else .invalid
  -- `Drop for Box` (boxed.rs:247-256)
  | .drop p panics =>
    if ⟨.typed, p⟩ ∈ w.handles then
      orUb (fun w => if panics then .unwound w else orUb .ok (w.free p)) ((w.take ⟨.typed, p⟩).dropInPlace p)
    else .invalid
  -- the same, for `Box<MaybeUninit<T>>`, whose `drop_in_place` does nothing
  | .dropUninit p =>
    if ⟨.uninit, p⟩ ∈ w.handles then orUb .ok ((w.take ⟨.uninit, p⟩).free p) else .invalid
  -- `Box::into_raw` (boxed.rs:181-185)
  | .intoRaw p => if ⟨.typed, p⟩ ∈ w.handles then .ok ((w.take ⟨.typed, p⟩).give ⟨.raw, p⟩) else .invalid
  -- `Box::from_raw` (boxed.rs:189-191)
  | .fromRaw p => if ⟨.raw, p⟩ ∈ w.handles then .ok ((w.take ⟨.raw, p⟩).give ⟨.typed, p⟩) else .invalid
  -- `core::mem::replace(&mut *this, v)`, through `DerefMut` (boxed.rs:221-225)
  | .replace p v =>
    if ⟨.typed, p⟩ ∈ w.handles ∧ v ∈ w.vals then
      match w.at p with
      | some b => match b.val with
        | some u => .ok { w with heap := { b with val := some v } :: w.heap.erase b, vals := u :: w.vals.erase v }
        | none => .ub
      | none => .ub
    else .invalid
  -- `Clone for Box` (boxed.rs:206-213): `T::clone` is called first, then `Alloc::clone`, then `new_in`; `none`: unwinds
  | .clone p v a addr =>
    if ⟨.typed, p⟩ ∈ w.handles then
      match w.at p with
      | some ⟨_, some _, some _⟩ =>
        match v with
        | none => .unwound w
        | some v => if v ∈ w.created then .invalid else
          match a with
          | none => .unwound { w with created := v :: w.created, dropped := v :: w.dropped }
          | some a => if a ∈ w.createdA then .invalid else
            let w := { w with created := v :: w.created, createdA := a :: w.createdA }
            match addr with
            | none => .unwound { w with dropped := v :: w.dropped, droppedA := a :: w.droppedA }
            | some q => if w.vacant q then
                .ok (({ w with heap := ⟨q, some v, some a⟩ :: w.heap } : World).give ⟨.typed, q⟩) else .invalid
      | _ => .ub
    else .invalid
  -- `IntoDyn for Box` (boxed.rs:257-268)
  | .anonymize p => if ⟨.typed, p⟩ ∈ w.handles then .ok ((w.take ⟨.typed, p⟩).give ⟨.dyn, p⟩) else .invalid
  -- `Drop for Dyn` (fatptr.rs:354-360), `IPtrOwned for Box` (boxed.rs:236-246): the drop function is `extern "C"`, it cannot unwind
  -- (vtable/mod.rs:372-374)
  | .dynDrop p panics =>
    if ⟨.dyn, p⟩ ∈ w.handles then
      orUb (fun w => if panics then .aborted w else orUb .ok (w.free p)) ((w.take ⟨.dyn, p⟩).dropInPlace p)
    else .invalid
  -- `CallOnceDyn::call_once` (gen_closures.rs:69-75): `self` is not dropped, the pointer is copied to the function of the vtable, which is
  -- `extern "C"` and calls `Box::into_inner` (45-47).  The result of the closure is a new value.
  | .callOnce p arg result =>
    if ⟨.dyn, p⟩ ∈ w.handles then
      match (w.take ⟨.dyn, p⟩).intoInner p with
      | some (f, w) =>
        let w := { w with called := (f, arg) :: w.called }
        match result with
        | none => .aborted w
        | some r => if r ∈ w.created then .invalid else .ok { w with vals := r :: w.vals, created := r :: w.created }
      | none => .ub
    else .invalid

/-- The states that programs reach.  Unwinding is caught by the program; an abort ends it. -/
inductive Reach : World → Prop where
  | empty : Reach .empty
  | ok {w w' : World} {op : Op} : Reach w → step w op = .ok w' → Reach w'
  | unwound {w w' : World} {op : Op} : Reach w → step w op = .unwound w' → Reach w'

end Verif.Alloc.Box
