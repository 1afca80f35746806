/-! Model of stabby-abi/src/alloc/vec.rs, with the parts of alloc/mod.rs it uses.

Elements are opaque tokens.  A `NonNull<T>` into the allocation is an index (pointer minus `start`, in elements), so `end` is
`len` and `capacity` is `cap`.  Reading a cell (`ptr::read`) does not erase it.  Every access outside the block, or of a cell
that was never written, makes the operation return `none` (undefined behaviour).  Elements are not zero-sized: for a
zero-sized `T`, `push` does not compile, because `FIRST_CAPACITY` divides by the size (vec.rs:181). -/
namespace Verif.Vec

/-- `2^64`, the number of values of `usize`. -/
def W : Nat := 18446744073709551616

/-- The allocation behind a non-dangling `AllocPtr`: the elements it has room for, and the `capacity` slot of its prefix
(alloc/mod.rs:222-233). -/
structure Block (α : Type) where
  cells : List (Option α)
  pcap : Nat
deriving DecidableEq

/-- `VecInner` (vec.rs:24-29); `block = none` when `start` is dangling. -/
structure Vec (α : Type) where
  block : Option (Block α)
  len : Nat
  cap : Nat
deriving DecidableEq

/-- The vector and the ledger of effects: elements dropped in place, number of calls to the allocator (`tries`), of blocks
obtained and released, of refused requests, and of elements copied by reallocations. -/
structure St (α : Type) where
  v : Vec α
  dropped : List α
  tries : Nat
  allocs : Nat
  frees : Nat
  refused : Nat
  copied : Nat
deriving DecidableEq

/-- The element type's size, and the allocator: whether request number `i`, for `n` bytes, is granted. -/
structure Env where
  esz : Nat
  ok : Nat → Nat → Bool

/-- What an operation reports to its caller. -/
inductive Res (α : Type) where
  | unit
  | panic
  | count (n : Nat)
  /-- `Option<T>`: an element moved out to the caller. -/
  | moved (x : Option α)
  /-- `Err(value)`. -/
  | back (x : α)
  | allocErr
  /-- References. -/
  | refs (l : List α)
  /-- Elements moved out by an iterator. -/
  | yielded (l : List α)
deriving DecidableEq

variable {α : Type}

/-- `Vec::new_in` (vec.rs:75-89). -/
def Vec.new : Vec α := ⟨none, 0, 0⟩

/-- A program start. -/
def St.new : St α := ⟨.new, [], 0, 0, 0, 0, 0⟩

/-- The cells of the allocation. -/
def Vec.cells (v : Vec α) : List (Option α) :=
  match v.block with
  | none => []
  | some b => b.cells

/-- `ptr.add(i).read()`. -/
def read (v : Vec α) (i : Nat) : Option α := (v.cells[i]?).join

/-- Replaces the cells of the block. -/
def Vec.withCells (v : Vec α) (c : List (Option α)) : Vec α :=
  match v.block with
  | none => v
  | some b => { v with block := some { b with cells := c } }

/-- `ptr.add(i).write(x)`. -/
def write (v : Vec α) (i : Nat) (x : α) : Option (Vec α) :=
  if i < v.cells.length then some (v.withCells (v.cells.set i (some x))) else none

/-- `core::ptr::copy(start.add(src), start.add(dst), n)`: a memmove of possibly uninitialised cells. -/
def copyCells (v : Vec α) (src dst n : Nat) : Option (Vec α) :=
  if n = 0 then some v
  else if src + n ≤ v.cells.length ∧ dst + n ≤ v.cells.length then
    some (v.withCells (v.cells.take dst ++ (v.cells.drop src).take n ++ v.cells.drop (dst + n)))
  else none

/-- The initialised elements `i..i+n` of the buffer, as `drop_in_place` or a slice of them sees them. -/
def slice (v : Vec α) (i : Nat) : Nat → Option (List α)
  | 0 => some []
  | n + 1 => do return (← read v i) :: (← slice v (i + 1) n)

/-- `core::ptr::drop_in_place` on the elements `i..i+n`. -/
def dropRange (s : St α) (i n : Nat) : Option (St α) := do
  return { s with dropped := s.dropped ++ (← slice s.v i n) }

/-- `set_len` (vec.rs:144-146). -/
def setLen (s : St α) (n : Nat) : St α := { s with v := { s.v with len := n } }

/-- The number of bytes requested for `n` elements (alloc/mod.rs:72-86, 365-367): 32 bytes of prefix plus `size * n`, both in
`usize` (wrapping, as in release builds).  The trailing alignment padding is left out. -/
def bytes (e : Env) (n : Nat) : Nat := (32 + e.esz * n % W) % W

/-- The number of elements that fit behind the prefix of a block of that many bytes. -/
def room (e : Env) (b : Nat) : Nat := (b - 32) / e.esz

/-- `remaining_capacity` (vec.rs:178-180). -/
def remaining (v : Vec α) : Nat := v.cap - v.len

/-- `try_reserve` (vec.rs:213-243) with `AllocPtr::alloc_array`/`AllocPtr::realloc` (alloc/mod.rs:365-396) and an `IAlloc`
that keeps the old contents; the flag says whether it returned `Ok`.  `len + additional` wraps. -/
def tryReserve (e : Env) (s : St α) (additional : Nat) : Bool × St α :=
  if remaining s.v < additional then
    let newCap := (s.v.len + additional) % W
    let b := bytes e newCap
    if e.ok s.tries b then
      let old := s.v.cells.take (room e b)
      let cells := old ++ List.replicate (room e b - old.length) none
      let blk : Block α := ⟨cells, newCap⟩
      (true, { s with
        v := ⟨some blk, s.v.len, newCap⟩
        tries := s.tries + 1
        allocs := if s.v.cap = 0 then s.allocs + 1 else s.allocs
        copied := if s.v.cap = 0 then s.copied else s.copied + s.v.len })
    else (false, { s with tries := s.tries + 1, refused := s.refused + 1 })
  else (true, s)

/-- `FIRST_CAPACITY` (vec.rs:181-185). -/
def firstCapacity (e : Env) : Nat :=
  match 1024 / e.esz with
  | 0 => 1
  | v => if v ≤ 8 then v else 8

/-- `try_grow` (vec.rs:189-196). -/
def tryGrow (e : Env) (s : St α) : Bool × St α :=
  if s.v.cap = 0 then tryReserve e s (firstCapacity e)
  else tryReserve e s (max (s.v.cap / 2) 1)

/-- The last two lines of `push` and `try_push` (vec.rs:155-156, 165-171). -/
def pushRaw (s : St α) (x : α) : Option (St α) := do
  let v ← write s.v s.v.len x
  return { s with v := { v with len := v.len + 1 } }

/-- `try_push` (vec.rs:165-172). -/
def tryPush (e : Env) (s : St α) (x : α) : Option (Res α × St α) :=
  if s.v.len = s.v.cap then
    match tryGrow e s with
    | (false, s) => some (.back x, s)
    | (true, s) => do return (.unit, ← pushRaw s x)
  else do return (.unit, ← pushRaw s x)

/-- `push` (vec.rs:151-157); when it panics, unwinding drops the value. -/
def push (e : Env) (s : St α) (x : α) : Option (Res α × St α) :=
  if s.v.len = s.v.cap then
    match tryGrow e s with
    | (false, s) => some (.panic, { s with dropped := s.dropped ++ [x] })
    | (true, s) => do return (.unit, ← pushRaw s x)
  else do return (.unit, ← pushRaw s x)

/-- `try_reserve` and `reserve` (vec.rs:203-243) as seen by the caller. -/
def tryReserveOp (e : Env) (s : St α) (n : Nat) : Option (Res α × St α) :=
  match tryReserve e s n with
  | (true, s) => some (.unit, s)
  | (false, s) => some (.allocErr, s)
def reserve (e : Env) (s : St α) (n : Nat) : Option (Res α × St α) :=
  match tryReserve e s n with
  | (true, s) => some (.unit, s)
  | (false, s) => some (.panic, s)

/-- `truncate` (vec.rs:247-255). -/
def truncate (s : St α) (n : Nat) : Option (Res α × St α) :=
  if s.v.len ≤ n then some (.unit, s)
  else do return (.unit, setLen (← dropRange s n (s.v.len - n)) n)

/-- `as_slice` (vec.rs:258-262). -/
def asSlice (s : St α) : Option (Res α × St α) := do
  return (.refs (← slice s.v 0 s.v.len), s)

/-- `&self[i]` (vec.rs:486-491): the bounds check is the slice's. -/
def index (s : St α) (i : Nat) : Option (Res α × St α) := do
  match (← slice s.v 0 s.v.len)[i]? with
  | some x => some (.refs [x], s)
  | none => some (.panic, s)

/-- `remove` (vec.rs:390-405). -/
def remove (s : St α) (i : Nat) : Option (Res α × St α) :=
  if i < s.v.len then do
    let x ← read s.v i
    let v ← copyCells s.v (i + 1) i (s.v.len - (i + 1))
    return (.moved (some x), setLen { s with v := v } (v.len - 1))
  else some (.moved none, s)

/-- `swap` (vec.rs:410-419). -/
def swap (s : St α) (a b : Nat) : Option (Res α × St α) :=
  if a < s.v.len ∧ b < s.v.len then do
    let x ← read s.v a
    let y ← read s.v b
    let v ← write s.v a y
    let v ← write v b x
    return (.unit, { s with v := v })
  else some (.panic, s)

/-- `pop` (vec.rs:422-432). -/
def pop (s : St α) : Option (Res α × St α) :=
  if s.v.len = 0 then some (.moved none, s)
  else do
    let x ← read s.v (s.v.len - 1)
    return (.moved (some x), setLen s (s.v.len - 1))

/-- `swap_remove` (vec.rs:436-442). -/
def swapRemove (s : St α) (i : Nat) : Option (Res α × St α) :=
  if s.v.len ≤ i then some (.moved none, s)
  else do
    let (_, s) ← swap s i (s.v.len - 1)
    pop s

/-- Writes the elements of a list from index `i` on (`copy_nonoverlapping` or a loop of writes). -/
def writeAll (v : Vec α) (i : Nat) : List α → Option (Vec α)
  | [] => some v
  | x :: xs => do writeAll (← write v i x) (i + 1) xs

/-- `try_copy_extend` (vec.rs:299-312). -/
def tryCopyExtend (e : Env) (s : St α) (l : List α) : Option (Res α × St α) :=
  if l = [] then some (.unit, s)
  else match tryReserve e s l.length with
    | (false, s) => some (.allocErr, s)
    | (true, s) => do
      let v ← writeAll s.v s.v.len l
      return (.unit, { s with v := { v with len := s.v.len + l.length } })

/-- `push` of all the items of an iterator; on a panic the remaining items are dropped with the iterator. -/
def pushAll (e : Env) (s : St α) : List α → Option (Res α × St α)
  | [] => some (.unit, s)
  | x :: xs => do
    match ← push e s x with
    | (.panic, s) => some (.panic, { s with dropped := s.dropped ++ xs })
    | (_, s) => pushAll e s xs

/-- `extend` (vec.rs:555-571), for an iterator yielding `l` whose `size_hint` is `(lo, hi)`.  When `reserve` panics, the iterator
is dropped with all its items. -/
def extend (e : Env) (s : St α) (l : List α) (lo : Nat) (hi : Option Nat) : Option (Res α × St α) :=
  match hi with
  | some hi =>
    match tryReserve e s hi with
    | (false, s) => some (.panic, { s with dropped := s.dropped ++ l })
    | (true, s) => do
      let v ← writeAll s.v s.v.len l
      return (.unit, { s with v := { v with len := s.v.len + l.length } })
  | none =>
    match tryReserve e s lo with
    | (false, s) => some (.panic, { s with dropped := s.dropped ++ l })
    | (true, s) => pushAll e s l

/-- `AllocPtr::free` (alloc/mod.rs:397-402). -/
def free (s : St α) : Option (St α) :=
  match s.v.block with
  | none => none
  | some _ => some { s with v := .new, frees := s.frees + 1 }

/-- `Drop for Vec` (vec.rs:539-546); the dangling vector left in the state stands for the absence of a vector. -/
def dropVec (s : St α) : Option (St α) := do
  let s ← dropRange s 0 s.v.len
  if s.v.cap ≠ 0 then free s else return { s with v := .new }

/-- `IntoIter` (vec.rs:647-650). -/
structure IntoIter (α : Type) where
  s : St α
  index : Nat

/-- `IntoIter::next` (vec.rs:653-659). -/
def IntoIter.next (it : IntoIter α) : Option (Option α × IntoIter α) :=
  if it.index < it.s.v.len then do
    let x ← read it.s.v it.index
    return (some x, { it with index := it.index + 1 })
  else some (none, it)

/-- `Drop for IntoIter` (vec.rs:661-668), followed by the drop of its vector. -/
def IntoIter.drop (it : IntoIter α) : Option (St α) := do
  let s ← dropRange it.s it.index (it.s.v.len - it.index)
  dropVec (setLen s 0)

/-- `k` calls to `next`, collecting what they yield. -/
def IntoIter.take (it : IntoIter α) : Nat → Option (List α × IntoIter α)
  | 0 => some ([], it)
  | k + 1 => do
    match ← it.next with
    | (none, it) => it.take k
    | (some x, it) => do
      let (xs, it) ← it.take k
      return (x :: xs, it)

/-- `mem::take(&mut v).into_iter()`, `k` calls to `next`, and the drop of the iterator. -/
def intoIter (s : St α) (k : Nat) : Option (Res α × St α) := do
  let (xs, it) ← IntoIter.take ⟨s, 0⟩ k
  return (.yielded xs, ← it.drop)

/-- `Drain` (vec.rs:676-682); `s` holds the borrowed vector. -/
structure Drain (α : Type) where
  s : St α
  fro : Nat
  to : Nat
  index : Nat
  orig : Nat

/-- `drain` (vec.rs:331-353), the bounds being already turned into `from..to`; `none` when an assertion fails. -/
def drainNew (s : St α) (fro to : Nat) : Option (Drain α) :=
  if fro ≤ to ∧ to ≤ s.v.len then some ⟨setLen s fro, fro, to, fro, s.v.len⟩ else none

/-- `try_drain` (vec.rs:361-387). -/
def tryDrain (s : St α) (fro to : Nat) : Option (Drain α) :=
  if to ≥ fro ∨ to ≤ s.v.len then none else some ⟨setLen s fro, fro, to, fro, s.v.len⟩

/-- `Drain::next` (vec.rs:710-716). -/
def Drain.next (d : Drain α) : Option (Option α × Drain α) :=
  if d.index < d.to then do
    let x ← read d.s.v d.index
    return (some x, { d with index := d.index + 1 })
  else some (none, d)

/-- `Drain::size_hint` and `len` (vec.rs:706-709, 719-721). -/
def Drain.len (d : Drain α) : Nat := d.to - d.index

/-- `Drop for Drain` (vec.rs:723-739). -/
def Drain.drop (d : Drain α) : Option (St α) := do
  let tail := d.orig - d.to
  let s ← dropRange d.s d.index (d.to - d.index)
  let v ← copyCells s.v d.to d.fro tail
  return setLen { s with v := v } (tail + d.fro)

/-- `Drain::stop` (vec.rs:686-688): the drop happens at the end of the function. -/
def Drain.stop (d : Drain α) : Option (St α) := Drain.drop { d with to := d.index }

/-- `k` calls to `next`, collecting what they yield. -/
def Drain.take (d : Drain α) : Nat → Option (List α × Drain α)
  | 0 => some ([], d)
  | k + 1 => do
    match ← d.next with
    | (none, d) => d.take k
    | (some x, d) => do
      let (xs, d) ← d.take k
      return (x :: xs, d)

/-- `v.drain(from..to)`, `k` calls to `next`, then a drop, or `stop`. -/
def drain (s : St α) (fro to k : Nat) (stop : Bool) : Option (Res α × St α) :=
  match drainNew s fro to with
  | none => some (.panic, s)
  | some d => do
    let (xs, d) ← d.take k
    return (.yielded xs, ← if stop then d.stop else d.drop)

/-- `DoubleEndedDrain` (vec.rs:742-749). -/
structure DDrain (α : Type) where
  s : St α
  fro : Nat
  to : Nat
  orig : Nat
  lindex : Nat
  rindex : Nat

/-- `Drain::double_ended` (vec.rs:691-702). -/
def Drain.doubleEnded (d : Drain α) : DDrain α := ⟨d.s, d.fro, d.to, d.orig, d.index, d.to⟩

/-- `DoubleEndedDrain::next` (vec.rs:756-762). -/
def DDrain.next (d : DDrain α) : Option (Option α × DDrain α) :=
  if d.lindex < d.rindex then do
    let x ← read d.s.v d.lindex
    return (some x, { d with lindex := d.lindex + 1 })
  else some (none, d)

/-- `DoubleEndedDrain::next_back` (vec.rs:765-771). -/
def DDrain.nextBack (d : DDrain α) : Option (Option α × DDrain α) :=
  if d.lindex < d.rindex then do
    let x ← read d.s.v d.rindex
    return (some x, { d with rindex := d.rindex - 1 })
  else some (none, d)

/-- `DoubleEndedDrain::len` (vec.rs:774-776) and the `size_hint` of the same type (vec.rs:752-755). -/
def DDrain.len (d : DDrain α) : Nat := d.rindex - d.lindex
def DDrain.sizeHint (d : DDrain α) : Nat := d.to - d.lindex

/-- `Drop for DoubleEndedDrain` (vec.rs:778-794). -/
def DDrain.drop (d : DDrain α) : Option (St α) := do
  let tail := d.orig - d.to
  let s ← dropRange d.s d.lindex (d.rindex - d.lindex)
  let v ← copyCells s.v d.to d.fro tail
  return setLen { s with v := v } (tail + d.fro)

/-- `with_capacity_in` (vec.rs:94-98) into a state without a vector. -/
def withCapacity (e : Env) (s : St α) (n : Nat) : Option (Res α × St α) := reserve e { s with v := .new } n

/-- `Clone for Vec` (vec.rs:454-463): the clone is built in the second state; `none` in the result when the allocation panicked. -/
def cloneVec (e : Env) (c : α → α) (s fresh : St α) : Option (Res α × St α) := do
  match ← withCapacity e fresh s.v.len with
  | (.panic, r) => some (.panic, r)
  | (_, r) => do
    let items ← slice s.v 0 s.v.len
    let v ← writeAll r.v 0 (items.map c)
    return (.unit, setLen { r with v := v } s.v.len)

/-- The operations of a history on one vector variable. -/
inductive Op (α : Type) where
  | push (x : α)
  | tryPush (x : α)
  | pop
  | remove (i : Nat)
  | swap (i j : Nat)
  | swapRemove (i : Nat)
  | truncate (n : Nat)
  | reserve (n : Nat)
  | tryReserve (n : Nat)
  | copyExtend (l : List α)
  | extend (l : List α) (lo : Nat) (hi : Option Nat)
  | asSlice
  | index (i : Nat)
  | len
  | drain (fro to k : Nat) (stop : Bool)
  | intoIter (k : Nat)
  /-- `v = Vec::with_capacity(n)`: the old vector is dropped after the new one is made. -/
  | replace (n : Nat)
  /-- `drop(mem::take(&mut v))` -/
  | drop

/-- One operation. -/
def step (e : Env) (s : St α) : Op α → Option (Res α × St α)
  | .push x => push e s x
  | .tryPush x => tryPush e s x
  | .pop => pop s
  | .remove i => remove s i
  | .swap i j => swap s i j
  | .swapRemove i => swapRemove s i
  | .truncate n => truncate s n
  | .reserve n => reserve e s n
  | .tryReserve n => tryReserveOp e s n
  | .copyExtend l => tryCopyExtend e s l
  | .extend l lo hi => extend e s l lo hi
  | .asSlice => asSlice s
  | .index i => index s i
  | .len => some (.count s.v.len, s)
  | .drain f t k b => drain s f t k b
  | .intoIter k => intoIter s k
  | .replace n => do
    match ← withCapacity e s n with
    | (.panic, r) => some (.panic, { r with v := s.v })
    | (_, r) => do
      let d ← dropVec { r with v := s.v }
      return (.unit, { d with v := r.v })
  | .drop => do return (.unit, ← dropVec s)

/-- A history of operations, with what each of them reports. -/
def run (e : Env) (s : St α) : List (Op α) → Option (List (Res α) × St α)
  | [] => some ([], s)
  | op :: ops => do
    let (r, s) ← step e s op
    let (rs, s) ← run e s ops
    return (r :: rs, s)

end Verif.Vec
