/-! Model of the wakers of stabby-abi/src/future.rs:50-174: `StableWaker` (a borrow of a waker with two function pointers), the `Waker` that `with_waker` exposes for it,
and `SharedStableWaker` (an `Arc` of a clone of the waker), which is what a clone of an exposed waker is.

Wakers cross any number of boundaries: the waker under a `StableWaker` may itself be one that was exposed for an outer `StableWaker`, or a shared one.
Every operation is atomic: concurrent uses of the reference counter are the subject of C22-C26. -/
namespace Verif.Future

/-- An owned waker: one made by the executor (`core::task::Waker`, with identity `j`), or a pointer to the shared block `i` (`SharedStableWaker`, future.rs:79-80). -/
inductive Handle where
  | base (j : Nat)
  | shared (i : Nat)
deriving DecidableEq, Repr

/-- An executor's waker: the task it wakes, and whether it has not been dropped yet.  Each clone is a waker of its own. -/
structure Inst where
  task : Nat
  alive : Bool
deriving DecidableEq, Repr

/-- `Arc<StableWakerInner>` (future.rs:64-80): the strong count, the waker inside, and the allocator it was allocated with (0 is the default one).  The `Arc`s are never
downgraded, so the block is freed when the strong count reaches 0. -/
structure Block where
  strong : Nat
  under : Handle
  alloc : Nat
deriving DecidableEq, Repr

/-- The executor's wakers, oldest first; the blocks ever allocated, newest first (block `i` is the one with `i` blocks behind it); the number of times each task was woken,
as the list of the tasks woken. -/
structure Mem where
  insts : List Inst
  blocks : List Block
  woken : List Nat
deriving DecidableEq, Repr

/-- Calling `wake_by_ref` on an executor's waker; `none` if it was dropped. -/
def wakeBase (insts : List Inst) (j : Nat) : Option Nat := match insts[j]? with
  | some ⟨k, true⟩ => some k
  | _ => none

/-- `SharedStableWaker::wake_by_ref` (future.rs:98-101) follows the function pointer in the block, `waker_wake_by_ref` (future.rs:148-150), which calls `wake_by_ref` on
the waker inside: down to an executor's waker.  Gives the task woken; `none` if a freed block or waker is used. -/
def wakeIn (insts : List Inst) : List Block → Handle → Option Nat
  | _, .base j => wakeBase insts j
  | [], .shared _ => none
  | b :: bs, .shared i =>
    if i = bs.length then if b.strong = 0 then none else wakeIn insts bs b.under
    else wakeIn insts bs (.shared i)

/-- `Waker::wake_by_ref` on a waker the program owns. -/
def Mem.wakeByRef (m : Mem) (h : Handle) : Option Mem := do
  let k ← wakeIn m.insts m.blocks h
  some { m with woken := m.woken ++ [k] }

/-- Dropping an executor's waker; `none` if it was dropped already. -/
def dropBase (insts : List Inst) (j : Nat) : Option (List Inst) := match insts[j]? with
  | some ⟨k, true⟩ => some (insts.set j ⟨k, false⟩)
  | _ => none

/-- `SharedStableWaker::drop` (future.rs:86-93): drops the `Arc`.  The last one drops the `StableWakerInner` (future.rs:74-78), which drops the waker inside
(`waker_drop`, future.rs:145-147), and frees the block with the default allocator: `with_waker` treats every `StableWaker` as one with the default allocator (future.rs:133).
`none` if a freed block or waker is used, or a block is freed with an allocator that is not its own. -/
def dropIn (insts : List Inst) : List Block → Handle → Option (List Inst × List Block)
  | bs, .base j => do some (← dropBase insts j, bs)
  | [], .shared _ => none
  | b :: bs, .shared i =>
    if i = bs.length then
      if b.strong = 0 then none
      else if b.strong = 1 then
        if b.alloc ≠ 0 then none else do
          let (insts, bs) ← dropIn insts bs b.under
          some (insts, { b with strong := 0 } :: bs)
      else some (insts, { b with strong := b.strong - 1 } :: bs)
    else do
      let (insts, bs) ← dropIn insts bs (.shared i)
      some (insts, b :: bs)

def Mem.drop (m : Mem) (h : Handle) : Option Mem := do
  let (insts, blocks) ← dropIn m.insts m.blocks h
  some { m with insts := insts, blocks := blocks }

/-- `increment_strong_count` (future.rs:82-85, sync.rs:218-226). -/
def incr : List Block → Nat → Option (List Block)
  | [], _ => none
  | b :: bs, i =>
    if i = bs.length then if b.strong = 0 then none else some ({ b with strong := b.strong + 1 } :: bs)
    else do some (b :: (← incr bs i))

/-- `Waker::clone` on a waker the program owns.  A clone of an executor's waker is another waker for the same task. -/
def Mem.clone (m : Mem) : Handle → Option (Mem × Handle)
  | .base j => match m.insts[j]? with
    | some ⟨k, true⟩ => some ({ m with insts := m.insts ++ [⟨k, true⟩] }, .base m.insts.length)
    | _ => none
  | .shared i => do some ({ m with blocks := ← incr m.blocks i }, .shared i)

/-- `Waker::clone` on the waker exposed by `as.length` nested `StableWaker`s around the owned waker `h` (`with_waker`'s `clone`, future.rs:132-135, and `clone_borrowed`,
future.rs:151-163): each layer clones the waker under it and moves the clone to a new block allocated with the allocator of that `StableWaker`. -/
def Mem.cloneVia (m : Mem) (h : Handle) : List Nat → Option (Mem × Handle)
  | [] => m.clone h
  | a :: as => do
    let (m, h) ← m.cloneVia h as
    some ({ m with blocks := ⟨1, h, a⟩ :: m.blocks }, .shared m.blocks.length)

/-- `wake_by_ref` on the waker exposed by nested `StableWaker`s (future.rs:136-139): each layer calls the function pointer, which calls `wake_by_ref` on the waker under it. -/
def Mem.wakeVia (m : Mem) (h : Handle) : List Nat → Option Mem
  | [] => m.wakeByRef h
  | _ :: as => m.wakeVia h as

/-- `Waker::wake` on an owned waker: for a shared one, `wake_by_ref` and then `drop` (future.rs:94-97). -/
def Mem.wake (m : Mem) (h : Handle) : Option Mem := do (← m.wakeByRef h).drop h

/-- What programs do: variables hold wakers, `none` once moved out. -/
inductive Op where
  /-- the executor makes a waker for task `k` -/
  | new (k : Nat)
  /-- clone, into a new variable, the waker exposed for variable `v` by `as.length` nested `StableWaker`s with these allocators, innermost last -/
  | clone (v : Nat) (as : List Nat)
  | wakeByRef (v : Nat) (as : List Nat)
  | wake (v : Nat)
  | drop (v : Nat)
deriving Repr

structure Prog where
  mem : Mem
  vars : List (Option Handle)
deriving DecidableEq, Repr

def Prog.init : Prog := ⟨⟨[], [], []⟩, []⟩

/-- One operation; one on a variable that was moved out is not Rust and does nothing.  `none` is undefined behaviour. -/
def Prog.step (p : Prog) : Op → Option Prog
  | .new k => some ⟨{ p.mem with insts := p.mem.insts ++ [⟨k, true⟩] }, p.vars ++ [some (.base p.mem.insts.length)]⟩
  | .clone v as => match p.vars[v]? with
    | some (some h) => do
      let (m, g) ← p.mem.cloneVia h as
      some ⟨m, p.vars ++ [some g]⟩
    | _ => some p
  | .wakeByRef v as => match p.vars[v]? with
    | some (some h) => do some { p with mem := ← p.mem.wakeVia h as }
    | _ => some p
  | .wake v => match p.vars[v]? with
    | some (some h) => do some ⟨← p.mem.wake h, p.vars.set v none⟩
    | _ => some p
  | .drop v => match p.vars[v]? with
    | some (some h) => do some ⟨← p.mem.drop h, p.vars.set v none⟩
    | _ => some p

def Prog.run (p : Prog) : List Op → Option Prog
  | [] => some p
  | o :: os => do (← p.step o).run os

end Verif.Future
