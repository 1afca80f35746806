import Mathlib.Order.Defs.LinearOrder

/-! Model of `ArcBTreeSet` and `ArcBTreeMap` (stabby-abi/src/alloc/collections/arc_btree.rs), with the reference counting of the `Arc`s between the nodes.

The heap is a list of allocations, addresses are indices into it.  `T` is `α`, compared through `key : α → κ` (for a set the identity, for a map the
key of an `Entry`, arc_btree.rs:76-110).  Clones of values are equal to the original.  An operation returns `none` on undefined behaviour (access to
released memory, to an uninitialised entry or outside of the entries of a node) and when its recursion is deeper than `fuel`.
`inner = none` marks a node that is mutably borrowed: `&mut` access takes the contents out and puts them back.
Simplifications: allocation succeeds; addresses are not reused; counters do not overflow; nodes never have `Weak`s. -/
namespace Verif.BTree

/-- Addresses are indices into the list of allocations. -/
scoped notation "Addr" => Nat

/-- `ArcBTreeSetEntry` (arc_btree.rs:507-515). -/
structure Entry (α : Type) where
  smaller : Option Addr
  value : α
deriving DecidableEq, Repr

/-- `ArcBTreeSetNodeInner` (arc_btree.rs:436-446): `cells` is the array of `SPLIT_LIMIT` possibly uninitialised entries. -/
structure Inner (α : Type) where
  cells : List (Option (Entry α))
  len : Nat
  greater : Option Addr
deriving DecidableEq, Repr

/-- The allocation behind an `ArcBTreeSetNode` (arc_btree.rs:428-434): strong counter and contents. -/
structure Cell (α : Type) where
  strong : Nat
  inner : Option (Inner α)
deriving DecidableEq, Repr

/-- Allocations, `none` once released, and the ledger of the values dropped and cloned. -/
structure Heap (α : Type) where
  cells : List (Option (Cell α))
  dropped : List α
  cloned : List α
deriving DecidableEq, Repr

variable {α κ : Type}

/-- A live allocation. -/
def Heap.cell (h : Heap α) (a : Addr) : Option (Cell α) := (h.cells[a]?).join

/-- The contents of a node that is live and not mutably borrowed. -/
def Heap.look (h : Heap α) (a : Addr) : Option (Inner α) := (h.cell a).bind (·.inner)

def Heap.set (h : Heap α) (a : Addr) (c : Option (Cell α)) : Heap α := { h with cells := h.cells.set a c }

/-- `Arc::new_in` (sync.rs:167-177): strong counter 1. -/
def alloc (h : Heap α) (n : Inner α) : Heap α × Addr :=
  ({ h with cells := h.cells ++ [some ⟨1, some n⟩] }, h.cells.length)

/-- `Arc::clone` (sync.rs:300-307). -/
def incr (h : Heap α) (a : Addr) : Option (Heap α) := do
  let c ← h.cell a
  return h.set a (some { c with strong := c.strong + 1 })

def incrOpt (h : Heap α) : Option Addr → Option (Heap α)
  | none => some h
  | some a => incr h a

/-- `entries` and `entries_mut` (arc_btree.rs:743-755): the first `len` entries, which must be initialised. -/
def entries (n : Inner α) : Option (List (Entry α)) :=
  if n.len ≤ n.cells.length then (n.cells.take n.len).mapM id else none

/-- `drop` of an `Arc` (sync.rs:285-299): the counter is decremented; at 0 the node's entries are dropped, then `greater`
(arc_btree.rs:478-485), and the memory is released.  (The model takes the dying node out of the heap before dropping its contents.) -/
def dropArc : Nat → Heap α → Addr → Option (Heap α)
  | 0, _, _ => none
  | fuel + 1, h, a => do
    let c ← h.cell a
    if c.strong ≠ 1 then return h.set a (some { c with strong := c.strong - 1 })
    let n ← c.inner
    let es ← entries n
    let h ← es.foldlM (fun h e => do
      let h ← match e.smaller with
        | none => some h
        | some s => dropArc fuel h s
      return { h with dropped := h.dropped ++ [e.value] }) (h.set a none)
    match n.greater with
    | none => return h
    | some g => dropArc fuel h g

/-- `Clone` of an entry (arc_btree.rs:516-526). -/
def cloneEntry (h : Heap α) (e : Entry α) : Option (Heap α) := do
  let h ← incrOpt { h with cloned := h.cloned ++ [e.value] } e.smaller
  return h

/-- `Clone for ArcBTreeSetNodeInner` (arc_btree.rs:486-505): entries one by one, then `greater`. -/
def cloneInner (limit : Nat) (h : Heap α) (n : Inner α) : Option (Heap α × Inner α) := do
  let es ← entries n
  let h ← es.foldlM cloneEntry h
  let h ← incrOpt h n.greater
  if es.length ≤ limit then
    return (h, ⟨es.map some ++ List.replicate (limit - es.length) none, n.len, n.greater⟩)
  else none

/-- `Arc::make_mut` (sync.rs:239-251): the new address and the contents, which are now borrowed. -/
def makeMut (limit fuel : Nat) (h : Heap α) (a : Addr) : Option (Heap α × Addr × Inner α) := do
  let c ← h.cell a
  let n ← c.inner
  if c.strong = 1 then return (h.set a (some { c with inner := none }), a, n)
  let (h, n) ← cloneInner limit h n
  let (h, b) := alloc h n
  let h ← dropArc fuel h a
  return (h.set b (some ⟨1, none⟩), b, n)

/-- End of the mutable borrow of a node. -/
def putBack (h : Heap α) (a : Addr) (n : Inner α) : Option (Heap α) := do
  let c ← h.cell a
  return h.set a (some { c with inner := some n })

/-- What `insert_inner` returns: `Ok((right, pivot))` or `Err(replaced)`. -/
inductive Out (α : Type) where
  | split (right : Addr) (pivot : α)
  | done (x : Option α)
deriving DecidableEq, Repr

/-- `split` (arc_btree.rs:699-738). -/
def split (limit : Nat) (h : Heap α) (n : Inner α) : Option (Heap α × Inner α × Out α) :=
  if n.len = limit then do
    let pivot ← (n.cells[limit / 2]?).join
    let moved := (n.cells.drop (limit / 2 + 1)).take (limit / 2)
    if moved.length = limit / 2 then
      let right : Inner α := ⟨moved ++ List.replicate (limit - limit / 2) none, limit / 2, n.greater⟩
      let (h, r) := alloc h right
      return (h, { n with greater := pivot.smaller, len := limit / 2 }, .split r pivot.value)
    else none
  else some (h, n, .done none)

/-- `ArcBTreeSetNodeInner::insert` (arc_btree.rs:643-677). -/
def insertAt (limit : Nat) (h : Heap α) (n : Inner α) (i : Nat) (v : α) (greater : Option Addr) : Option (Heap α × Inner α × Out α) :=
  if n.len + 1 ≤ n.cells.length then do
    let cells := n.cells.take (i + 1) ++ (n.cells.drop i).take (n.len - i) ++ n.cells.drop (n.len + 1)
    let e ← (cells[i + 1]?).join
    let cells := (cells.set (i + 1) (some { e with smaller := greater })).set i (some ⟨e.smaller, v⟩)
    split limit h { n with cells := cells, len := n.len + 1 }
  else none

/-- `ArcBTreeSetNodeInner::push` (arc_btree.rs:678-698). -/
def push (limit : Nat) (h : Heap α) (n : Inner α) (v : α) (greater : Option Addr) : Option (Heap α × Inner α × Out α) :=
  if n.len < n.cells.length then
    split limit h ⟨n.cells.set n.len (some ⟨n.greater, v⟩), n.len + 1, greater⟩
  else none

/-- Where the loops of `get` and `insert_inner` over the entries stop. -/
inductive Stop (α : Type) where
  | equal (i : Nat) (e : Entry α)
  | greater (i : Nat) (e : Entry α)
  | past

/-- The loops of `get` (arc_btree.rs:539-545) and `insert_inner` (arc_btree.rs:589-610). -/
def scan [LinearOrder κ] (key : α → κ) (k : κ) : Nat → List (Entry α) → Stop α
  | _, [] => .past
  | i, e :: es =>
    if key e.value < k then scan key k (i + 1) es
    else if key e.value = k then .equal i e
    else .greater i e

/-- `insert_inner` (arc_btree.rs:575-626): the new value of the slot `self` and what is returned. -/
def insertInner [LinearOrder κ] (key : α → κ) (limit : Nat) : Nat → Heap α → Addr → α → Option (Heap α × Addr × Out α)
  | 0, _, _, _ => none
  | fuel + 1, h, a, v => do
    let (h, a, n) ← makeMut limit (fuel + 1) h a
    let es ← entries n
    match scan key (key v) 0 es with
    | .equal i e =>
      let h ← putBack h a { n with cells := n.cells.set i (some { e with value := v }) }
      return (h, a, .done (some e.value))
    | .greater i e =>
      match e.smaller with
      | some s =>
        let (h, s, out) ← insertInner key limit fuel h s v
        let n := { n with cells := n.cells.set i (some { e with smaller := some s }) }
        match out with
        | .done x => return (← putBack h a n, a, .done x)
        | .split right pivot =>
          let (h, n, out) ← insertAt limit h n i pivot (some right)
          return (← putBack h a n, a, out)
      | none =>
        let (h, n, out) ← insertAt limit h n i v none
        return (← putBack h a n, a, out)
    | .past =>
      match n.greater with
      | some g =>
        let (h, g, out) ← insertInner key limit fuel h g v
        let n := { n with greater := some g }
        match out with
        | .done x => return (← putBack h a n, a, .done x)
        | .split right pivot =>
          let (h, n, out) ← push limit h n pivot (some right)
          return (← putBack h a n, a, out)
      | none =>
        let (h, n, out) ← push limit h n v none
        return (← putBack h a n, a, out)

/-- `ArcBTreeSetNode::get` (arc_btree.rs:535-548). -/
def get [LinearOrder κ] (key : α → κ) : Nat → Heap α → Addr → κ → Option (Option α)
  | 0, _, _, _ => none
  | fuel + 1, h, a, k => do
    let n ← h.look a
    let es ← entries n
    match scan key k 0 es with
    | .equal _ e => return some e.value
    | .greater _ e =>
      match e.smaller with
      | none => return none
      | some s => get key fuel h s k
    | .past =>
      match n.greater with
      | none => return none
      | some g => get key fuel h g k

/-- `ArcBTreeSetNode::len` (arc_btree.rs:530-534). -/
def nodeLen : Nat → Heap α → Addr → Option Nat
  | 0, _, _ => none
  | fuel + 1, h, a => do
    let n ← h.look a
    let es ← entries n
    let acc ← es.foldlM (fun acc e => do
      match e.smaller with
      | none => return acc + 1
      | some s => return acc + 1 + (← nodeLen fuel h s)) 0
    match n.greater with
    | none => return acc
    | some g => return acc + (← nodeLen fuel h g)

/-- The values in the order in which `for_each` (arc_btree.rs:628-639) and `Debug` (arc_btree.rs:218-238) visit them. -/
def visit : Nat → Heap α → Addr → Option (List α)
  | 0, _, _ => none
  | fuel + 1, h, a => do
    let n ← h.look a
    let es ← entries n
    let acc ← es.foldlM (fun acc e => do
      match e.smaller with
      | none => return acc ++ [e.value]
      | some s => return acc ++ (← visit fuel h s) ++ [e.value]) []
    match n.greater with
    | none => return acc
    | some g => return acc ++ (← visit fuel h g)

/-- `ArcBTreeSet` (arc_btree.rs:155-166): the root, and whether the allocator is present. -/
structure Set where
  root : Option Addr
  alloc : Bool
deriving DecidableEq, Repr

/-- Whether the set replaces on insert (`REPLACE_ON_INSERT`), and its `SPLIT_LIMIT`. -/
structure Params where
  replace : Bool
  limit : Nat

/-- What an operation reports. -/
inductive Res (α : Type) where
  | unit
  | panic
  | elem (x : Option α)
  | count (n : Nat)
  | list (l : List α)
  | flag (b : Bool)
deriving DecidableEq, Repr

/-- `ArcBTreeSetNode::insert` (arc_btree.rs:549-574) on the root at `a`; the root after it and what is returned. -/
def nodeInsert [LinearOrder κ] (key : α → κ) (p : Params) (fuel : Nat) (h : Heap α) (a : Addr) (v : α) : Option (Heap α × Addr × Option α) := do
  let present ← if p.replace then some none else get key fuel h a (key v)
  if !p.replace && present.isSome then return (h, a, some v)
  let (h, a, out) ← insertInner key p.limit fuel h a v
  match out with
  | .done x => return (h, a, x)
  | .split right pivot =>
    let h ← incr h a
    if 0 < p.limit then
      let (h, b) := alloc h ⟨some ⟨some a, pivot⟩ :: List.replicate (p.limit - 1) none, 1, some right⟩
      let h ← dropArc fuel h a
      return (h, b, none)
    else none

/-- `ArcBTreeSet::insert` (arc_btree.rs:381-405), with the check in `ArcBTreeSetNodeInner::new` (arc_btree.rs:450-470).  When the latter panics, the value is
dropped, and so is the allocator that was read out of the set, which is left with neither root nor allocator. -/
def insert [LinearOrder κ] (key : α → κ) (p : Params) (fuel : Nat) (h : Heap α) (s : Set) (v : α) : Option (Heap α × Set × Res α) :=
  match s.root with
  | some a => do
    let (h, a, x) ← nodeInsert key p fuel h a v
    return (h, { s with root := some a }, .elem x)
  | none =>
    if s.alloc then
      if p.limit - 1 ≤ 0 then some ({ h with dropped := h.dropped ++ [v] }, ⟨none, false⟩, .panic)
      else
        let (h, b) := alloc h ⟨some ⟨none, v⟩ :: List.replicate (p.limit - 1) none, 1, none⟩
        some (h, ⟨some b, false⟩, .elem none)
    else none

/-- `Clone for ArcBTreeSet` (arc_btree.rs:167-188). -/
def cloneSet (h : Heap α) (s : Set) : Option (Heap α × Set) :=
  match s.root with
  | some a => do return (← incr h a, ⟨some a, false⟩)
  | none => if s.alloc then some (h, ⟨none, true⟩) else none

/-- `Drop for ArcBTreeSet` (arc_btree.rs:239-248), then the drop of the root. -/
def dropSet (fuel : Nat) (h : Heap α) (s : Set) : Option (Heap α) :=
  match s.root with
  | some a => dropArc fuel h a
  | none => if s.alloc then some h else none

/-- The heap and the variables that hold sets (`none` once dropped). -/
structure St (α : Type) where
  heap : Heap α
  vars : List (Option Set)
deriving DecidableEq, Repr

/-- A program start. -/
def St.new : St α := ⟨⟨[], [], []⟩, []⟩

inductive Op (α κ : Type) where
  /-- `new`, `from_alloc` (arc_btree.rs:194-202, 343-368): the next variable -/
  | new
  /-- the next variable is a clone of an existing one -/
  | clone (i : Nat)
  | insert (i : Nat) (v : α)
  | get (i : Nat) (k : κ)
  | len (i : Nat)
  | isEmpty (i : Nat)
  | visit (i : Nat)
  | drop (i : Nat)

/-- The variable an operation uses. -/
def St.var (s : St α) (i : Nat) : Option Set := (s.vars[i]?).join

/-- One operation; a program that uses a dropped or unknown variable does not compile: the operation does nothing. -/
def step [LinearOrder κ] (key : α → κ) (p : Params) (fuel : Nat) (s : St α) : Op α κ → Option (Res α × St α)
  | .new => some (.unit, { s with vars := s.vars ++ [some ⟨none, true⟩] })
  | .clone i =>
    match s.var i with
    | none => some (.unit, s)
    | some t => do
      let (h, t') ← cloneSet s.heap t
      return (.unit, ⟨h, s.vars ++ [some t']⟩)
  | .insert i v =>
    match s.var i with
    | none => some (.unit, s)
    | some t => do
      let (h, t', r) ← insert key p fuel s.heap t v
      return (r, ⟨h, s.vars.set i (some t')⟩)
  | .get i k =>
    match s.var i with
    | none => some (.unit, s)
    | some t =>
      match t.root with
      | none => some (.elem none, s)
      | some a => do return (.elem (← get key fuel s.heap a k), s)
  | .len i =>
    match s.var i with
    | none => some (.unit, s)
    | some t =>
      match t.root with
      | none => some (.count 0, s)
      | some a => do return (.count (← nodeLen fuel s.heap a), s)
  | .isEmpty i =>
    match s.var i with
    | none => some (.unit, s)
    | some t => some (.flag t.root.isNone, s)
  | .visit i =>
    match s.var i with
    | none => some (.unit, s)
    | some t =>
      match t.root with
      | none => some (.list [], s)
      | some a => do return (.list (← visit fuel s.heap a), s)
  | .drop i =>
    match s.var i with
    | none => some (.unit, s)
    | some t => do
      let h ← dropSet fuel s.heap t
      return (.unit, ⟨h, s.vars.set i none⟩)

/-- A history. -/
def run [LinearOrder κ] (key : α → κ) (p : Params) (fuel : Nat) (s : St α) : List (Op α κ) → Option (List (Res α) × St α)
  | [] => some ([], s)
  | op :: ops => do
    let (r, s) ← step key p fuel s op
    let (rs, s) ← run key p fuel s ops
    return (r :: rs, s)

end Verif.BTree
