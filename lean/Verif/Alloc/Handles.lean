/-! Executable model of what the containers of `stabby-abi/src/alloc` do with the allocators that they are given: `Vec` (vec.rs), `BoxedSlice`
(boxed.rs), `SingleOrVec` (single_or_vec.rs), `Arc`, `Weak`, `ArcSlice` and `WeakSlice` (sync.rs).  `String`, `BoxedStr`, `ArcStr` and `WeakStr`
wrap these.

An allocator is a value with a state and a destructor; it is a token (a number) here.  `Vec`, `BoxedSlice` and `Single` have their allocator as
a field, the others keep it in the prefix of the block (alloc/mod.rs:227-238).  A block may only be freed or reallocated by the allocator that
allocated it (alloc/mod.rs:121-134), and a slot of the prefix may only be read when it was written.

Simplifications: elements have a size (those without are in `Vec/Zst.lean`), and only their number is kept (their contents are in `Vec/`,
`Sync/`); counters don't wrap; one thread; user code does not unwind, but failed allocations do. -/
namespace Verif.Alloc.Handles

/-- An allocated block.  `by`: the allocator that allocated it; `slot`, `cap`, `strong`, `weak`: the fields of its prefix
(alloc/mod.rs:227-238); `none` is uninitialised, or moved out. -/
structure Blk where
  addr : Nat
  «by» : Nat
  slot : Option Nat
  cap : Nat
  strong : Nat
  weak : Nat
  deriving DecidableEq, Repr

/-- The containers.  `single`: a `SingleOrVec` with a `Single`; one with a `Vec` is `vec`. -/
inductive Kind where
  | vec | boxed | single | arc | arcSlice | weak | weakSlice
  deriving DecidableEq, Repr

/-- A container that the program owns.  `alloc`: the field (vec.rs:24-29, boxed.rs:279-280, single_or_vec.rs:8-11); `ref`: the block pointed to, `none` if the pointer dangles; `cap`: the
capacity of a `Vec`; `len`: the number of elements. -/
structure Cont where
  kind : Kind
  alloc : Option Nat
  ref : Option Nat
  cap : Nat
  len : Nat
  deriving DecidableEq, Repr

/-- The state of the program: `heap`, the blocks; `conts`, `allocs`, the containers and the allocators it owns; `created`, `dropped`: the
allocators made, and those whose destructor ran. -/
structure World where
  heap : List Blk
  conts : List Cont
  allocs : List Nat
  created : List Nat
  dropped : List Nat
  deriving DecidableEq, Repr

def World.empty : World := ⟨[], [], [], [], []⟩

/-- How an operation ends; `done` also when it unwinds.  `invalid`: not something that a program can do. -/
inductive Out where
  | done (w : World)
  | ub
  | invalid
  deriving DecidableEq, Repr

/-- The block at an address. -/
def World.at (w : World) (p : Nat) : Option Blk := w.heap.find? (fun b => b.addr == p)

/-- Whether an address is free, as allocators must ensure of those they return. -/
def World.vacant (w : World) (p : Nat) : Bool := (w.at p).isNone

/-- Containers are given up for others. -/
def World.swap (w : World) (c : Cont) (cs : List Cont) : World := { w with conts := cs ++ w.conts.erase c }

/-- A prefix is written. -/
def World.write (w : World) (b b' : Blk) : World := { w with heap := b' :: w.heap.erase b }

/-- `AllocPtr::alloc_array` (alloc/mod.rs:360-365) with `init` (330-352): the slot of the allocator is not initialised. -/
def World.allocate (w : World) (a q cap : Nat) : World := { w with heap := ⟨q, a, none, cap, 1, 1⟩ :: w.heap }

/-- `AllocPtr::free` (alloc/mod.rs:395-397). -/
def World.free (w : World) (a p : Nat) : Option World :=
  match w.at p with
  | some b => if b.by = a then some { w with heap := w.heap.erase b } else none
  | none => none

/-- The destructor of an allocator. -/
def World.dropAlloc (w : World) (a : Nat) : World := { w with dropped := a :: w.dropped }

/-- The rest of an operation, unless there was undefined behaviour. -/
def World.orUb (f : World → Out) : Option World → Out
  | some w => f w
  | none => .ub

/-- The rest of an operation, if the allocator may return `q`. -/
def World.ifVacant (w : World) (q : Nat) (r : Out) : Out := if w.vacant q then r else .invalid

/-- `Vec::try_reserve` (vec.rs:213-243) on `c`, with allocator `a`, when there is not enough room, followed by `f` with the new vector.
`realloc` (alloc/mod.rs:372-391) allocates a block, and frees the old one. -/
def World.grow (w : World) (c : Cont) (a n q : Nat) : Out :=
  let c' : Cont := { c with ref := some q, cap := c.len + n }
  if c.cap ≠ 0 then
    match c.ref with
    | none => .ub
    | some p => World.orUb (fun w1 => w1.ifVacant q (.done ((w1.allocate a q (c.len + n)).swap c [c']))) (w.free a p)
  else w.ifVacant q (.done ((w.allocate a q (c.len + n)).swap c [c']))

/-- `Drop for Weak` (sync.rs:381-396), `Drop for WeakSlice` (sync.rs:712-724). -/
def World.dropWeak (w : World) (p : Nat) : Out :=
  match w.at p with
  | none => .ub
  | some b =>
    if b.weak ≠ 1 then .done (w.write b { b with weak := b.weak - 1 })
    else match b.slot with
      | none => .ub
      | some a => World.orUb (fun w => .done (w.dropAlloc a)) (w.free a p)

/-- `Drop for Arc` (sync.rs:285-299), `Drop for ArcSlice` (sync.rs:585-597). -/
def World.dropArc (w : World) (p : Nat) : Out :=
  match w.at p with
  | none => .ub
  | some b =>
    let w1 := w.write b { b with strong := b.strong - 1 }
    if b.strong ≠ 1 then .done w1 else w1.dropWeak p

/-- What the program does.  `ans : Option Nat` is the answer of the allocator, if it is asked. -/
inductive Op where
  | create (a : Nat)
  | dropAlloc (a : Nat)
  | newIn (a : Nat)
  | withCapacity (a n : Nat) (ans : Option Nat) (tries : Bool)
  | reserve (c : Cont) (n : Nat) (ans : Option Nat)
  | setLen (c : Cont) (n : Nat)
  | cloneVec (c : Cont) (a : Nat) (ans : Option Nat)
  | toBoxed (c : Cont)
  | toVec (c : Cont)
  | tryPush (c : Cont)
  | toArc (c : Cont) (ans : Option Nat)
  | arcToVec (c : Cont)
  | newArc (a : Nat) (ans : Option Nat) (tries : Bool)
  | makeMut (c : Cont) (a : Nat) (ans : Option Nat)
  | intoInner (c : Cont)
  | fromArc (c : Cont)
  | clone (c : Cont)
  | downgrade (c : Cont)
  | upgrade (c : Cont)
  | drop (c : Cont)
  | sovPush (c : Cont) (ans : Option Nat)
  | sovReserve (c : Cont) (n : Nat) (ans : Option Nat)
  | sovTruncate (c : Cont)
  | sovIntoVec (c : Cont) (n : Nat) (ans : Option Nat)
  | swapAllocs (c d : Cont)
  deriving DecidableEq, Repr

/-- `Vec::new_in` (vec.rs:75-89). -/
def newVec (a : Nat) : Cont := ⟨.vec, some a, none, 0, 0⟩

/-- One operation; `zsa`: whether the type of the allocators is zero-sized. -/
def step (zsa : Bool) (w : World) : Op → Out
  | .create a => if a ∈ w.created then .invalid else .done { w with allocs := a :: w.allocs, created := a :: w.created }
  | .dropAlloc a => if a ∈ w.allocs then .done ({ w with allocs := w.allocs.erase a }.dropAlloc a) else .invalid
  -- `new_in` (vec.rs:75-89, single_or_vec.rs:59-63)
  | .newIn a => if a ∈ w.allocs then .done { w with allocs := w.allocs.erase a, conts := newVec a :: w.conts } else .invalid
  -- `with_capacity_in` (vec.rs:94-98) unwinds if the allocation fails, and drops the vector; `try_with_capacity_in` (112-118) returns the allocator
  | .withCapacity a n ans tries =>
    if a ∈ w.allocs then
      if n = 0 then .done { w with allocs := w.allocs.erase a, conts := newVec a :: w.conts }
      else match ans with
      | some q => w.ifVacant q
        (.done { w.allocate a q n with allocs := w.allocs.erase a, conts := ⟨.vec, some a, some q, n, 0⟩ :: w.conts })
      | none => if tries then .done w else .done ({ w with allocs := w.allocs.erase a }.dropAlloc a)
    else .invalid
  -- `Vec::try_reserve` (vec.rs:213-243), which growing by `push` calls too (vec.rs:150-173, 186-196)
  | .reserve c n ans =>
    if c ∈ w.conts ∧ c.kind = .vec then
      match c.alloc with
      | none => .invalid
      | some a =>
        if n ≤ c.cap - c.len then .done w
        else match ans with
        | none => .done w
        | some q => w.grow c a n q
    else .invalid
  -- pushing into the capacity (vec.rs:151-157, 164-171), `truncate` (247-255), `pop` (422-433)
  | .setLen c n => if c ∈ w.conts ∧ c.kind = .vec ∧ n ≤ c.cap then .done (w.swap c [{ c with len := n }]) else .invalid
  -- `Clone for Vec` (vec.rs:454-463): `a` is the clone of the allocator; when the allocation fails, the new vector is dropped
  | .cloneVec c a ans =>
    if c ∈ w.conts ∧ c.kind = .vec ∧ a ∉ w.created then
      if c.len = 0 then .done { w with created := a :: w.created, conts := newVec a :: w.conts }
      else match ans with
      | some q => w.ifVacant q
        (.done { w.allocate a q c.len with created := a :: w.created, conts := ⟨.vec, some a, some q, c.len, c.len⟩ :: w.conts })
      | none => .done ({ w with created := a :: w.created }.dropAlloc a)
    else .invalid
  -- `From<Vec> for BoxedSlice` (boxed.rs:379-398) with `Vec::into_raw_components` (vec.rs:270-284)
  | .toBoxed c =>
    if c ∈ w.conts ∧ c.kind = .vec then
      if c.cap ≠ 0 then
        match c.ref.bind w.at with
        | none => .ub
        | some b => .done ((w.write b { b with cap := c.cap }).swap c [⟨.boxed, c.alloc, c.ref, 0, c.len⟩])
      else .done (w.swap c [⟨.boxed, c.alloc, c.ref, 0, c.len⟩])
    else .invalid
  -- `From<BoxedSlice> for Vec` (boxed.rs:399-426) with `BoxedSlice::into_raw_components` (326-344)
  | .toVec c =>
    if c ∈ w.conts ∧ c.kind = .boxed then
      if c.len = 0 then .done (w.swap c [⟨.vec, c.alloc, c.ref, 0, c.len⟩])
      else match c.ref.bind w.at with
        | none => .ub
        | some b => .done (w.swap c [⟨.vec, c.alloc, c.ref, b.cap, c.len⟩])
    else .invalid
  -- `BoxedSlice::try_push` (boxed.rs:310-325)
  | .tryPush c =>
    if c ∈ w.conts ∧ c.kind = .boxed then
      match c.ref.bind w.at with
      | none => .ub
      | some b => if c.len < b.cap then .done (w.swap c [{ c with len := c.len + 1 }]) else .done w
    else .invalid
  -- `From<Vec> for ArcSlice` (sync.rs:500-539); without capacity, the allocator is written to the prefix of the old pointer
  | .toArc c ans =>
    if c ∈ w.conts ∧ c.kind = .vec then
      match c.alloc with
      | none => .invalid
      | some a =>
        if c.cap ≠ 0 then
          match c.ref.bind w.at with
          | none => .ub
          | some b => .done ((w.write b { b with slot := some a, cap := c.cap, strong := 1, weak := 1 }).swap c [⟨.arcSlice, none, c.ref, 0, c.len⟩])
        else match ans with
          | none => .done ((w.swap c []).dropAlloc a)
          | some q => w.ifVacant q
            (let w1 := (w.allocate a q 0).swap c [⟨.arcSlice, none, some q, 0, c.len⟩]
             if zsa then .done (w1.write ⟨q, a, none, 0, 1, 1⟩ ⟨q, a, some a, 0, 1, 1⟩)
             else match c.ref.bind w.at with
               | none => .ub
               | some b => .done (w1.write b { b with slot := some a }))
    else .invalid
  -- `TryFrom<ArcSlice> for Vec` (sync.rs:540-563)
  | .arcToVec c =>
    if c ∈ w.conts ∧ c.kind = .arcSlice then
      match c.ref.bind w.at with
      | none => .ub
      | some b =>
        if b.strong = 1 ∧ b.weak = 1 then
          match b.slot with
          | none => .ub
          | some a => .done ((w.write b { b with slot := none }).swap c [⟨.vec, some a, c.ref, b.cap, c.len⟩])
        else .done w
    else .invalid
  -- `Arc::new_in` (sync.rs:171-177), which unwinds if the allocation fails; `try_new_in` (123-143), which returns the allocator; both call
  -- `try_make_in` (92-119)
  | .newArc a ans tries =>
    if a ∈ w.allocs then
      match ans with
      | some q => w.ifVacant q
        (.done { w with heap := ⟨q, a, some a, 1, 1, 1⟩ :: w.heap, allocs := w.allocs.erase a, conts := ⟨.arc, none, some q, 0, 1⟩ :: w.conts })
      | none => if tries then .done w else .done ({ w with allocs := w.allocs.erase a }.dropAlloc a)
    else .invalid
  -- `Arc::make_mut` (sync.rs:239-251): `a` is the clone of the allocator
  | .makeMut c a ans =>
    if c ∈ w.conts ∧ c.kind = .arc then
      match c.ref with
      | none => .ub
      | some p => match w.at p with
        | none => .ub
        | some b =>
          if b.strong = 1 ∧ b.weak = 1 then .done w
          else if a ∈ w.created then .invalid
          else match b.slot with
            | none => .ub
            | some _ => match ans with
              | none => .done ({ w with created := a :: w.created }.dropAlloc a)
              | some q => w.ifVacant q
                (World.dropArc ({ w with heap := ⟨q, a, some a, 1, 1, 1⟩ :: w.heap, created := a :: w.created }.swap c [⟨.arc, none, some q, 0, 1⟩]) p)
    else .invalid
  -- `Arc::try_into_inner` (sync.rs:260-268)
  | .intoInner c =>
    if c ∈ w.conts ∧ c.kind = .arc then
      match c.ref with
      | none => .ub
      | some p => match w.at p with
        | none => .ub
        | some b => if b.strong = 1 ∧ b.weak = 1 then (w.swap c []).dropWeak p else .done w
    else .invalid
  -- `From<Arc> for ArcSlice` (sync.rs:484-494): the argument is dropped when the function returns
  | .fromArc c =>
    if c ∈ w.conts ∧ c.kind = .arc then
      match c.ref with
      | none => .ub
      | some p => match w.at p with
        | none => .ub
        | some b => ((w.write b { b with cap := 1 }).swap c [⟨.arcSlice, none, some p, 0, 1⟩]).dropArc p
    else .invalid
  -- `Clone for Arc` (sync.rs:300-307), `ArcSlice` (476-483), `Weak` (373-380), `WeakSlice` (686-693)
  | .clone c =>
    if c ∈ w.conts then
      match c.kind, c.ref.bind w.at with
      | .arc, some b | .arcSlice, some b => .done { w.write b { b with strong := b.strong + 1 } with conts := c :: w.conts }
      | .weak, some b | .weakSlice, some b => .done { w.write b { b with weak := b.weak + 1 } with conts := c :: w.conts }
      | .vec, _ | .boxed, _ | .single, _ => .invalid
      | _, none => .ub
    else .invalid
  -- `From<&Arc> for Weak` (sync.rs:332-341), `From<&ArcSlice> for WeakSlice` (704-711)
  | .downgrade c =>
    if c ∈ w.conts then
      match c.kind, c.ref.bind w.at with
      | .arc, some b => .done { w.write b { b with weak := b.weak + 1 } with conts := { c with kind := .weak } :: w.conts }
      | .arcSlice, some b => .done { w.write b { b with weak := b.weak + 1 } with conts := { c with kind := .weakSlice } :: w.conts }
      | .arc, none | .arcSlice, none => .ub
      | _, _ => .invalid
    else .invalid
  -- `Weak::upgrade` (sync.rs:358-371), `WeakSlice::upgrade` (650-666)
  | .upgrade c =>
    if c ∈ w.conts then
      match c.kind, c.ref.bind w.at with
      | .weak, some b =>
        if b.strong = 0 then .done w else .done { w.write b { b with strong := b.strong + 1 } with conts := { c with kind := .arc } :: w.conts }
      | .weakSlice, some b =>
        if b.strong = 0 then .done w else .done { w.write b { b with strong := b.strong + 1 } with conts := { c with kind := .arcSlice } :: w.conts }
      | .weak, none | .weakSlice, none => .ub
      | _, _ => .invalid
    else .invalid
  -- `Drop for Vec` (vec.rs:539-546), `BoxedSlice` (boxed.rs:438-445), then their fields; `Arc`, `ArcSlice`, `Weak`, `WeakSlice`
  | .drop c =>
    if c ∈ w.conts then
      let w1 := w.swap c []
      match c.kind, c.alloc, c.ref with
      | .vec, some a, p => if c.cap ≠ 0 then World.orUb (fun w => .done (w.dropAlloc a)) (p.bind (w1.free a)) else .done (w1.dropAlloc a)
      | .boxed, some a, p => if c.len ≠ 0 then World.orUb (fun w => .done (w.dropAlloc a)) (p.bind (w1.free a)) else .done (w1.dropAlloc a)
      | .single, some a, _ => .done (w1.dropAlloc a)
      | .arc, _, some p | .arcSlice, _, some p => w1.dropArc p
      | .weak, _, some p | .weakSlice, _, some p => w1.dropWeak p
      | .arc, _, none | .arcSlice, _, none | .weak, _, none | .weakSlice, _, none => .ub
      | _, none, _ => .invalid
    else .invalid
  -- `SingleOrVec::try_push` (single_or_vec.rs:126-178); growing a vector is `reserve`
  | .sovPush c ans =>
    if c ∈ w.conts then
      match c.kind, c.alloc with
      | .single, some a => match ans with
        | none => .done w
        | some q => w.ifVacant q (.done ((w.allocate a q 8).swap c [⟨.vec, some a, some q, 8, 2⟩]))
      | .vec, some a =>
        if c.cap = 0 then .done (w.swap c [⟨.single, some a, none, 0, 1⟩])
        else if c.len < c.cap then .done (w.swap c [{ c with len := c.len + 1 }])
        else .invalid
      | _, _ => .invalid
    else .invalid
  -- `SingleOrVec::try_reserve` with a `Single` (single_or_vec.rs:203-227)
  | .sovReserve c n ans =>
    if c ∈ w.conts ∧ c.kind = .single then
      match c.alloc with
      | none => .invalid
      | some a => match ans with
        | none => .done (w.dropAlloc a)
        | some q => w.ifVacant q (.done ((w.allocate a q (1 + n)).swap c [⟨.vec, some a, some q, 1 + n, 1⟩]))
    else .invalid
  -- `SingleOrVec::truncate` with a `Single` (single_or_vec.rs:231-245)
  | .sovTruncate c => if c ∈ w.conts ∧ c.kind = .single then .done (w.swap c [⟨.vec, c.alloc, none, 0, 0⟩]) else .invalid
  -- `From<SingleOrVec> for Vec` (single_or_vec.rs:566-583); `n` is the first capacity (vec.rs:181-185), which isn't zero
  | .sovIntoVec c n ans =>
    if c ∈ w.conts ∧ c.kind = .single ∧ n ≠ 0 then
      match c.alloc with
      | none => .invalid
      | some a => match ans with
        | none => .done ((w.swap c []).dropAlloc a)
        | some q => w.ifVacant q (.done ((w.allocate a q n).swap c [⟨.vec, some a, some q, n, 1⟩]))
    else .invalid
  -- `core::mem::swap(c.allocator_mut(), d.allocator_mut())` (vec.rs:447-451)
  | .swapAllocs c d =>
    if c ∈ w.conts ∧ d ∈ w.conts.erase c ∧ c.kind = .vec ∧ d.kind = .vec then
      .done { w with conts := { c with alloc := d.alloc } :: { d with alloc := c.alloc } :: (w.conts.erase c).erase d }
    else .invalid

/-- A program. -/
def run (zsa : Bool) (w : World) : List Op → Out
  | [] => .done w
  | op :: ops => match step zsa w op with
    | .done w => run zsa w ops
    | o => o

end Verif.Alloc.Handles
