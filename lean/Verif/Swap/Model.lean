/-! Model of the loops that replace an immutable, reference-counted value behind an atomic pointer: `AtomicArcBTreeSet::edit` and `get`
(stabby-abi/src/alloc/collections/arc_btree.rs:8-74) and the loop of `VtVec::insert` (stabby-abi/src/vtable/mod.rs:103-160).

A value (`V`) is a whole tree, or a whole vector: how it is spread over nodes is the subject of `Verif.BTree`.  Only its root allocation matters
here, with its strong counter.  Addresses are chosen by the allocator among those that are free, and may be reused.  Every access to shared memory is one
step; steps of different threads interleave arbitrarily, and memory orderings are taken to be sequentially consistent.  Simplifications: closures are
deterministic functions of the values they have been given so far during the call, and return either what they were given or a new value. -/
namespace Verif.Swap

/-- What the closure of `edit` returns: the tree it was given, the empty set (a null pointer, arc_btree.rs:255-266), or a tree with a new root. -/
inductive Next (V : Type) where
  | same
  | null
  | node (v : V)
deriving DecidableEq

/-- A closure (`FnMut`): its result depends on the values it was called with since the beginning of the call to `edit`, the latest comes first. -/
abbrev Fn (V : Type) := List V → Next V

/-- An allocation: its strong counter and the value whose root it is. -/
structure Obj (V : Type) where
  strong : Nat
  val : V

/-- Where a thread is in `edit` (arc_btree.rs:34-64). -/
inductive Pc (V : Type) where
  /-- outside -/
  | idle
  /-- it has read the pointer `cur` -/
  | loaded (f : Fn V) (seen : List V) (cur : Option Nat)
  /-- `copy_from_ptr(cur)` has returned (arc_btree.rs:268-306): the thread has a handle on `cur` -/
  | copied (f : Fn V) (seen : List V) (cur : Option Nat)
  /-- the closure has returned a tree with root `new`, on which the thread has a handle; `kept` tells whether it still has a handle on `cur` too -/
  | ready (f : Fn V) (seen : List V) (cur new : Option Nat) (kept : Bool)

/-- The atomic pointer, the heap, and the threads. -/
structure Cfg (V : Type) where
  cell : Option Nat
  mem : Nat → Option (Obj V)
  ts : List (Pc V)

variable {V : Type}

def upd {α : Type} (f : Nat → α) (i : Nat) (x : α) : Nat → α := fun j => if j = i then x else f j

/-- `new` (arc_btree.rs:29-31), with `n` threads. -/
def Cfg.new (n : Nat) : Cfg V := ⟨none, fun _ => none, List.replicate n .idle⟩

/-- The value of the set: what a root pointer stands for. -/
def Cfg.valueOf (empty : V) (c : Cfg V) : Option Nat → V
  | none => empty
  | some a => match c.mem a with
    | none => empty
    | some o => o.val

def Cfg.content (empty : V) (c : Cfg V) : V := c.valueOf empty c.cell

/-- Drop of a handle (`Arc::drop`, sync.rs:285-299); `none` if the memory was released already. -/
def release (c : Cfg V) : Option Nat → Option (Cfg V)
  | none => some c
  | some a => match c.mem a with
    | none => none
    | some o => some { c with mem := upd c.mem a (if o.strong = 1 then none else some { o with strong := o.strong - 1 }) }

/-- `Arc::new` at address `a`. -/
def put (c : Cfg V) (a : Nat) (v : V) : Cfg V := { c with mem := upd c.mem a (some ⟨1, v⟩) }

def setPc (c : Cfg V) (t : Nat) (p : Pc V) : Cfg V := { c with ts := c.ts.set t p }

inductive Act (V : Type) where
  /-- a thread enters `edit(f)` and loads the pointer (arc_btree.rs:40) -/
  | start (t : Nat) (f : Fn V)
  /-- `copy_from_ptr` (arc_btree.rs:42, 268-306): `Arc::clone` through the pointer -/
  | copy (t : Nat)
  /-- the closure returns the tree it was given -/
  | same (t : Nat)
  /-- the closure returns another tree; `a` is where the root is allocated, before (`early`) or after the closure drops what it was given
  (`make_mut` drops it last, sync.rs:239-251; a root made by a split is allocated after that, arc_btree.rs:549-565) -/
  | make (t a : Nat) (early : Bool)
  /-- the closure changes the tree it was given in place and returns it: `make_mut` (sync.rs:239-251) does so when there is no other handle on the root, that is
  when the set was given another tree since.  A loop that keeps its own handle rules that out, and so does the closure of `VtBtree::insert`, which works on a
  clone while it still has what it was given (vtable/mod.rs:162-163) -/
  | mutate (t : Nat)
  /-- `is` (sync.rs:885-905) as called by `VtVec::insert` (vtable/mod.rs:122-140) -/
  | recheck (t : Nat)
  /-- the comparison of the pointers and the `compare_exchange` (arc_btree.rs:44-62) -/
  | cas (t : Nat)

/-- Back to the beginning of the loop with the pointer that was found: the handles are dropped.  (`AtomicArc::compare_exchange` leaks the new value instead
when it fails, `Verif.Props.Atomic.C27_failed_exchange_refuted`; memory that is never released has no influence on anything else here.) -/
def again (c : Cfg V) (t : Nat) (f : Fn V) (seen : List V) (cur new : Option Nat) (kept : Bool) : Option (Cfg V) := do
  let c ← release c new
  let c ← release c (if kept then cur else none)
  return setPc c t (.loaded f seen c.cell)

/-- One step.  `keep` tells whether the loop keeps its handle on `cur` until the end of the iteration: `VtVec::insert` does (variable `vtables`),
`edit` does not (the copy is moved into the closure).  Steps that the thread cannot make are ignored.  `none` is undefined behaviour. -/
def step (empty : V) (keep : Bool) (c : Cfg V) : Act V → Option (Cfg V)
  | .start t f => match c.ts[t]? with
    | some .idle => some (setPc c t (.loaded f [] c.cell))
    | _ => some c
  | .copy t => match c.ts[t]? with
    | some (.loaded f seen none) => some (setPc c t (.copied f (empty :: seen) none))
    | some (.loaded f seen (some a)) => match c.mem a with
      | none => none
      | some o => some (setPc { c with mem := upd c.mem a (some { o with strong := o.strong + 1 }) } t (.copied f (o.val :: seen) (some a)))
    | _ => some c
  | .same t => match c.ts[t]? with
    | some (.copied f seen cur) => match f seen with
      | .same => some (setPc c t (.ready f seen cur cur false))
      | _ => some c
    | _ => some c
  | .make t a early => match c.ts[t]? with
    | some (.copied f seen cur) => match f seen with
      | .same => some c
      | .null => do
        let c ← release c (if keep then none else cur)
        return setPc c t (.ready f seen cur none keep)
      | .node v =>
        if early then
          if (c.mem a).isNone then do
            let c ← release (put c a v) (if keep then none else cur)
            return setPc c t (.ready f seen cur (some a) keep)
          else some c
        else do
          let d ← release c (if keep then none else cur)
          if (d.mem a).isNone then return setPc (put d a v) t (.ready f seen cur (some a) keep)
          else return c
    | _ => some c
  | .mutate t => match c.ts[t]? with
    | some (.copied f seen (some a)) => match f seen, c.mem a with
      | .node v, some o =>
        if keep = false ∧ o.strong = 1 then some (setPc { c with mem := upd c.mem a (some { o with val := v }) } t (.ready f seen (some a) (some a) false))
        else some c
      | _, _ => some c
    | _ => some c
  | .recheck t => match c.ts[t]? with
    | some (.ready f seen cur new kept) => if kept ∧ c.cell ≠ cur then again c t f seen cur new kept else some c
    | _ => some c
  | .cas t => match c.ts[t]? with
    | some (.ready f seen cur new kept) =>
      if cur = new then do
        let c ← release c new
        let c ← release c (if kept then cur else none)
        return setPc c t .idle
      else if c.cell = cur then do
        let c ← release { c with cell := new } cur
        let c ← release c (if kept then cur else none)
        return setPc c t .idle
      else again c t f seen cur new kept
    | _ => some c

end Verif.Swap
