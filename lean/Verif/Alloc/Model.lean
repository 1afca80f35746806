/-! Model of stabby-abi/src/alloc/mod.rs (layout arithmetic, `AllocPtr`) and of the two bundled allocators
(alloc/allocators/rust_alloc.rs and libc_alloc.rs), over a memory made of blocks.

Addresses and sizes are natural numbers below `2^64`; additions and multiplications wrap, as they do in release builds (debug
builds panic instead).  Null is address 0.  Every access outside the live blocks, and every call that breaks the contract of
the underlying allocator, makes the operation return `none` (undefined behaviour).  The underlying allocator is arbitrary: each
call is given the address it answers with (`none` for null) and the garbage it leaves in the block. -/
namespace Verif.Alloc

/-- `2^64`, the number of values of `usize`. -/
scoped notation "W" => 18446744073709551616

/-- `Layout` (alloc/mod.rs:56-64). -/
structure Layout where
  size : Nat
  align : Nat
deriving DecidableEq

/-- `Layout::array` (alloc/mod.rs:77-83), from the layout of the element: the multiplication is not checked. -/
def Layout.array (t : Layout) (n : Nat) : Layout := ⟨t.size * n % W, t.align⟩

/-- `Layout::realign` (alloc/mod.rs:102-107); Rust panics when `a = 0`. -/
def Layout.realign (l : Layout) (a : Nat) : Layout :=
  ⟨(l.size + (a - l.size % a) * (if l.size % a ≠ 0 then 1 else 0)) % W, a⟩

/-- `Layout::concat` (alloc/mod.rs:85-92). -/
def Layout.concat (l o : Layout) : Layout :=
  Layout.realign ⟨(l.size + o.size) % W, l.align⟩ (if l.align < o.align then o.align else l.align)

/-- `<*mut u8>::align_offset` (core): the distance to the next multiple of `a`. -/
def alignOffset (p a : Nat) : Nat := (a - p % a) % a

/-- `Layout::next_matching` (alloc/mod.rs:95-100). -/
def Layout.nextMatching (l : Layout) (p : Nat) : Nat := (p + alignOffset p l.align) % W

/-- `AllocPrefix::skip_to` (alloc/mod.rs:241-250) from the size of the prefix and the alignment of the field. -/
def skipTo (psize a : Nat) : Nat := if psize % a ≠ 0 then psize + a - psize % a else psize

/-- `usize::is_power_of_two`. -/
def isPow2 (a : Nat) : Bool := a == 2 ^ a.log2

/-- `core::alloc::Layout::from_size_align(..).is_ok()`: the alignment is a power of two and the size, rounded up to it, fits an
`isize`. -/
def Layout.valid (l : Layout) : Bool := isPow2 l.align && decide (l.size + (l.align - 1) ≤ 9223372036854775807)

/-! ### Memory -/

/-- A live block of the underlying allocator.  `owner` is the binary whose allocator made it. -/
structure Blk where
  base : Nat
  size : Nat
  align : Nat
  owner : Nat
deriving DecidableEq

/-- One byte of memory: plain data, or the `k`-th byte of a header. -/
inductive Cell (P : Type) where
  | data (v : Nat)
  | hdr (p : P) (k : Nat)
deriving DecidableEq

/-- The live blocks and the contents of memory. -/
structure Heap (P : Type) where
  blks : List Blk
  mem : Nat → Cell P

variable {P : Type}

/-- `x` lies in the block `[a, a + n)`. -/
def within (x a n : Nat) : Bool := decide (a ≤ x) && decide (x < a + n)

/-- The bytes `[a, a + n)` belong to one live block. -/
def Heap.room (h : Heap P) (a n : Nat) : Bool :=
  h.blks.any fun b => decide (b.base ≤ a) && decide (a + n ≤ b.base + b.size)

/-- The block `[a, a + l.size)` may be handed out: not null, aligned, away from `blks` and inside the address
space, whose last byte no allocation contains. -/
def freshIn (blks : List Blk) (a : Nat) (l : Layout) : Bool :=
  decide (0 < a) && decide (a % l.align = 0) && decide (a + l.size < W) &&
    blks.all fun b => decide (a + l.size ≤ b.base) || decide (b.base + b.size ≤ a)

/-- The underlying allocator hands out a block, with garbage in it. -/
def Heap.grant (h : Heap P) (a : Nat) (l : Layout) (owner : Nat) (junk : Nat → Cell P) : Heap P :=
  ⟨⟨a, l.size, l.align, owner⟩ :: h.blks, fun x => if within x a l.size then junk x else h.mem x⟩

/-- The underlying allocator takes a block back. -/
def Heap.release (h : Heap P) (b : Blk) : Option (Heap P) :=
  if b ∈ h.blks then some ⟨h.blks.erase b, h.mem⟩ else none

/-- The underlying allocator moves a live block: the first bytes are kept. -/
def Heap.regrant (h : Heap P) (b : Blk) (a n : Nat) (junk : Nat → Cell P) : Heap P :=
  ⟨⟨a, n, b.align, b.owner⟩ :: h.blks.erase b,
   fun x => if within x a n then (if x - a < b.size then h.mem (b.base + (x - a)) else junk x) else h.mem x⟩

/-- Writes one byte. -/
def Heap.put (h : Heap P) (a : Nat) (c : Cell P) : Option (Heap P) :=
  if h.room a 1 then some ⟨h.blks, fun x => if x = a then c else h.mem x⟩ else none

/-- Writes a header of `n` bytes. -/
def Heap.putHdr (h : Heap P) (a n : Nat) (p : P) : Option (Heap P) :=
  if h.room a n then some ⟨h.blks, fun x => if within x a n then .hdr p (x - a) else h.mem x⟩ else none

/-- Reads a header of `n` bytes: all its bytes must be there. -/
def Heap.getHdr [DecidableEq P] (h : Heap P) (a n : Nat) : Option P :=
  match h.mem a with
  | .data _ => none
  | .hdr p _ => if h.room a n ∧ ∀ k, k < n → h.mem (a + k) = .hdr p k then some p else none

/-- `ptr::copy_nonoverlapping` of `n` bytes. -/
def Heap.copy (h : Heap P) (src dst n : Nat) : Option (Heap P) :=
  if h.room src n ∧ h.room dst n ∧ (src + n ≤ dst ∨ dst + n ≤ src) then
    some ⟨h.blks, fun x => if within x dst n then h.mem (src + (x - dst)) else h.mem x⟩
  else none

/-! ### `RustAlloc` -/

/-- `RustAllocPrefix` (rust_alloc.rs:17-20); `vt` is the binary whose functions the vtable holds. -/
structure RPrefix where
  lay : Layout
  vt : Nat
deriving DecidableEq

/-- `size_of::<RustAllocPrefix>()`: a layout and two function pointers. -/
scoped notation "RP" => 32

/-- `Layout::of::<RustAllocPrefix>()`. -/
def rLayout : Layout := ⟨RP, 8⟩

/-- `alloc` (rust_alloc.rs:22-39), run by binary `bin`; the second component is the returned pointer. -/
def rustAlloc (h : Heap RPrefix) (bin : Nat) (l : Layout) (ans : Option Nat) (junk : Nat → Cell RPrefix) :
    Option (Heap RPrefix × Nat) :=
  let req := rLayout.concat l
  if req.valid then
    let h1 := match ans with
      | none => h
      | some a => h.grant a req bin junk
    let ret := (ans.getD 0 + max req.align RP) % W
    match h1.putHdr (ret - RP) RP ⟨req, bin⟩ with
    | none => none
    | some h2 => some (h2, ret)
  else some (h, 0)

/-- `realloc` (rust_alloc.rs:40-70), run by the binary `bin` of the vtable, with the layout `prev` of the prefix.
`GlobalAlloc::realloc` demands a block of exactly that layout and a new size that is not zero and fits an `isize`. -/
def rustReallocFn (h : Heap RPrefix) (bin p : Nat) (prev : Layout) (n : Nat) (ans : Option Nat) (junk : Nat → Cell RPrefix) :
    Option (Heap RPrefix × Nat) :=
  let start := p - max prev.align RP
  if prev.valid then
    let req := rLayout.concat ⟨n, prev.align⟩
    let b : Blk := ⟨start, prev.size, prev.align, bin⟩
    if b ∈ h.blks ∧ 0 < req.size ∧ Layout.valid ⟨req.size, prev.align⟩ then
      let h1 := match ans with
        | none => h
        | some a => h.regrant b a req.size junk
      let ret := (ans.getD 0 + max prev.align RP) % W
      match h1.putHdr (ret - RP) RP ⟨req, bin⟩ with
      | none => none
      | some h2 => some (h2, ret)
    else none
  else some (h, 0)

/-- `free` (rust_alloc.rs:71-87), run by the binary `bin` of the vtable. -/
def rustFreeFn (h : Heap RPrefix) (bin p : Nat) (prev : Layout) : Option (Heap RPrefix) :=
  h.release ⟨p - max prev.align RP, prev.size, prev.align, bin⟩

/-- `<RustAlloc as IAlloc>::free` (rust_alloc.rs:108-112). -/
def rustFree (h : Heap RPrefix) (p : Nat) : Option (Heap RPrefix) :=
  match h.getHdr (p - RP) RP with
  | none => none
  | some pre => rustFreeFn h pre.vt p pre.lay

/-- `<RustAlloc as IAlloc>::realloc` (rust_alloc.rs:114-123): the layout given by the caller is ignored. -/
def rustRealloc (h : Heap RPrefix) (p n : Nat) (ans : Option Nat) (junk : Nat → Cell RPrefix) :
    Option (Heap RPrefix × Nat) :=
  match h.getHdr (p - RP) RP with
  | none => none
  | some pre => rustReallocFn h pre.vt p pre.lay n ans junk

/-! ### `LibcAlloc` -/

/-- The operating system: it selects `posix_memalign` (libc_alloc.rs:17-28). -/
inductive Os where
  | unix
  | windows
deriving DecidableEq

/-- The layout of the block `posix_memalign(&mut ptr, align, size)` makes, `none` when it refuses.  On unix the alignment must be
a power of two and a multiple of the size of a pointer.  On windows the shim (libc_alloc.rs:19-28) names its arguments
`(size, align)` and is called with `(align, size)`; `_aligned_malloc` wants an alignment that is a power of two. -/
def memalign (os : Os) (l : Layout) : Option Layout :=
  match os with
  | .unix => if isPow2 l.align ∧ l.align % 8 = 0 then some l else none
  | .windows => if isPow2 l.size ∧ l.align ≠ 0 then some ⟨l.align, l.size⟩ else none

/-- `LibcAlloc::alloc` (libc_alloc.rs:56-67).  `ptr` stays null when `posix_memalign` fails, so the test of line 63 never
changes the result. -/
def libcAlloc (h : Heap P) (os : Os) (l : Layout) (ans : Option Nat) (junk : Nat → Cell P) : Heap P × Nat :=
  if l.size = 0 then (h, 0)
  else match memalign os l, ans with
    | some m, some a => (h.grant a m 0 junk, a)
    | _, _ => (h, 0)

/-- The live block that starts at `p`. -/
def Heap.blockAt (h : Heap P) (p : Nat) : Option Blk := h.blks.find? fun b => b.base == p

/-- `LibcAlloc::free` (libc_alloc.rs:68-71). -/
def libcFree (h : Heap P) (p : Nat) : Option (Heap P) :=
  match h.blockAt p with
  | none => none
  | some b => h.release b

/-- The tail of `LibcAlloc::realloc` (libc_alloc.rs:81-96): a new block, a copy of `prev.size` bytes, and a free. -/
def libcMove (h : Heap P) (os : Os) (p : Nat) (prev : Layout) (n : Nat) (ans : Option Nat) (junk : Nat → Cell P) :
    Option (Heap P × Nat) :=
  match memalign os ⟨n, prev.align⟩, ans with
  | some m, some a =>
    match (h.grant a m 0 junk).copy p a prev.size with
    | none => none
    | some h2 =>
      match libcFree h2 p with
      | none => none
      | some h3 => some (h3, a)
  | _, _ => some (h, 0)

/-- `LibcAlloc::realloc` (libc_alloc.rs:72-96); `ans1` answers `libc::realloc`, `ans2` answers `posix_memalign`.
`libc::realloc` keeps the first bytes, and may not be called on a block of `_aligned_malloc`. -/
def libcRealloc (h : Heap P) (os : Os) (p : Nat) (prev : Layout) (n : Nat) (ans1 ans2 : Option Nat) (junk : Nat → Cell P) :
    Option (Heap P × Nat) :=
  if n = 0 then some (h, 0)
  else if prev.align ≤ 8 then
    match h.blockAt p, os with
    | some b, .unix =>
      match ans1 with
      | some a => some (h.regrant b a n junk, a)
      | none => libcMove h os p prev n ans2 junk
    | _, _ => none
  else libcMove h os p prev n ans2 junk

/-- The default `IAlloc::realloc` (alloc/mod.rs:132-144) over an allocator that hands out exactly what it is asked for. -/
def defaultRealloc (h : Heap P) (p : Nat) (prev : Layout) (n : Nat) (ans : Option Nat) (junk : Nat → Cell P) :
    Option (Heap P × Nat) :=
  match ans with
  | none => some (h, 0)
  | some a =>
    match (h.grant a ⟨n, prev.align⟩ 0 junk).copy p a prev.size with
    | none => none
    | some h2 =>
      match libcFree h2 p with
      | none => none
      | some h3 => some (h3, a)

/-! ### `AllocPtr` -/

/-- `AllocPrefix` (alloc/mod.rs:227-238); the allocator slot is left out. -/
structure APrefix where
  strong : Nat
  weak : Nat
  capacity : Nat
  origin : Nat
deriving DecidableEq

/-- The types involved: the layouts of `AllocPrefix<Alloc>` and of `T`. -/
structure Env where
  pre : Layout
  elt : Layout

/-- The layout requested for `cap` elements (alloc/mod.rs:361-362, 378-380). -/
def Env.layout (e : Env) (cap : Nat) : Layout := ⟨(e.pre.concat (e.elt.array cap)).size, e.pre.align⟩

/-- `AllocPtr::init` (alloc/mod.rs:330-352): the element pointer. -/
def Env.dataPtr (e : Env) (p : Nat) : Nat :=
  let shifted := (p + e.pre.size) % W
  (shifted + alignOffset shifted e.elt.align) % W

/-- `AllocPtr::init` (alloc/mod.rs:330-352). -/
def Env.init (e : Env) (h : Heap APrefix) (p cap : Nat) : Option (Heap APrefix × Nat) :=
  let d := e.dataPtr p
  match h.putHdr (d - e.pre.size) e.pre.size ⟨1, 1, cap, p⟩ with
  | none => none
  | some h2 => some (h2, d)

/-- `AllocPtr::alloc_array` (alloc/mod.rs:360-365), over an allocator that keeps the `IAlloc` contract; pointer 0 is `None`. -/
def Env.allocArray (e : Env) (h : Heap APrefix) (cap : Nat) (ans : Option Nat) (junk : Nat → Cell APrefix) :
    Option (Heap APrefix × Nat) :=
  match ans with
  | none => some (h, 0)
  | some a => e.init (h.grant a (e.layout cap) 0 junk) a cap

/-- `AllocPtr::prefix` (alloc/mod.rs:306-316) read in full. -/
def Env.prefix (e : Env) (h : Heap APrefix) (d : Nat) : Option APrefix := h.getHdr (d - e.pre.size) e.pre.size

/-- `AllocPtr::realloc` (alloc/mod.rs:372-391): the address of the prefix is given to `IAlloc::realloc`, which demands a block of
the previous layout there. -/
def Env.realloc (e : Env) (h : Heap APrefix) (d prev cap : Nat) (ans : Option Nat) (junk : Nat → Cell APrefix) :
    Option (Heap APrefix × Nat) :=
  let b : Blk := ⟨d - e.pre.size, (e.layout prev).size, e.pre.align, 0⟩
  if b ∈ h.blks then
    match ans with
    | none => some (h, 0)
    | some a => e.init (h.regrant b a (e.pre.concat (e.elt.array cap)).size junk) a cap
  else none

/-- `AllocPtr::free` (alloc/mod.rs:395-397): the recorded origin is given to `IAlloc::free`. -/
def Env.free (e : Env) (h : Heap APrefix) (d : Nat) : Option (Heap APrefix) :=
  match e.prefix h d with
  | none => none
  | some pre => libcFree h pre.origin

end Verif.Alloc
