import Mathlib.Order.Defs.LinearOrder

/-! Model of insertions into `ArcBTreeSet` (stabby-abi/src/alloc/collections/arc_btree.rs) in which user code unwinds (comparing, cloning) or the allocator fails.

One insertion is modelled, as seen by one owner: a tree whose nodes know whether somebody else has a handle on them (`Arc::make_mut` clones those).  The children of a
node that is cloned are shared from then on.  The number of user calls and allocations that succeed is arbitrary; the next one unwinds.
Simplifications: destructors and clones of allocators do not unwind; a comparison is one call; a clone of a value equals it. -/
namespace Verif.BTree.Unwind

mutual
/-- `Option<ArcBTreeSetNode>`: nothing, or a node and whether there are other handles on it (arc_btree.rs:428-434). -/
inductive Tree (α : Type) where
  | leaf
  | node (shared : Bool) (row : Row α)
/-- The entries of a node (arc_btree.rs:436-446, 507-515), ended by `greater`. -/
inductive Row (α : Type) where
  | last (greater : Tree α)
  | cons (smaller : Tree α) (value : α) (rest : Row α)
end

variable {α κ : Type}

/-- How many calls succeed from here on, and the ledger of values. -/
structure Env (α : Type) where
  left : Nat
  dropped : List α := []
  cloned : List α := []
  leaked : List α := []
deriving DecidableEq, Repr

/-- One call of user code or of the allocator: `none` if it fails. -/
def Env.call (e : Env α) : Option (Env α) := if e.left = 0 then none else some { e with left := e.left - 1 }

def Env.drop (e : Env α) (l : List α) : Env α := { e with dropped := e.dropped ++ l }

/-- What failed. -/
inductive Kind where
  | cmp
  | clone
  | alloc
deriving DecidableEq, Repr

/-- Another handle on a tree. -/
def Tree.share : Tree α → Tree α
  | .leaf => .leaf
  | .node _ row => .node true row

/-- `share` if the node that holds the handle was cloned. -/
def Tree.shareIf (sh : Bool) (t : Tree α) : Tree α := if sh then t.share else t

def Row.length : Row α → Nat
  | .last _ => 0
  | .cons _ _ rest => rest.length + 1

def Row.values : Row α → List α
  | .last _ => []
  | .cons _ v rest => v :: rest.values

/-- There are handles on the children of the first `n` entries that nobody will drop. -/
def Row.shareFirst : Nat → Row α → Row α
  | n + 1, .cons s v rest => .cons s.share v (shareFirst n rest)
  | _, row => row

mutual
/-- What is dropped with a handle: the values of the nodes that nobody else has. -/
def Tree.owned : Tree α → List α
  | .leaf => []
  | .node true _ => []
  | .node false row => row.owned
def Row.owned : Row α → List α
  | .last g => g.owned
  | .cons s v rest => s.owned ++ v :: rest.owned
end

/-- The clones made of `vs` (arc_btree.rs:489-505); if a clone unwinds, the ones before are in an array of `MaybeUninit`: they leak.  `n` have been made. -/
def cloneAll (e : Env α) (n : Nat) (done : List α) : List α → Env α × Option Nat
  | [] => (e, none)
  | v :: vs =>
    match e.call with
    | none => ({ e with leaked := e.leaked ++ done }, some n)
    | some e => cloneAll { e with cloned := e.cloned ++ [v] } (n + 1) (done ++ [v]) vs

/-- `split` (arc_btree.rs:699-738) takes the entry at `i` out: what is to the left of it, it, and what is to the right. -/
def Row.splitAt : Nat → Row α → Option (Row α × α × Row α)
  | 0, .cons s v rest => some (.last s, v, rest)
  | i + 1, .cons s v rest => (Row.splitAt i rest).map fun x => (.cons s v x.1, x.2.1, x.2.2)
  | _, .last _ => none

/-- What `insert_inner` (arc_btree.rs:575-626) ends with: it is done; the node was split; a call unwound and left this tree. -/
inductive Out (α : Type) where
  | done (e : Env α) (t : Tree α) (old : Option α)
  | split (e : Env α) (t : Tree α) (pivot : α) (right : Tree α)
  | unwound (e : Env α) (k : Kind) (t : Tree α)

/-- The same for the entries of a node, before it is split. -/
inductive RowOut (α : Type) where
  | done (e : Env α) (row : Row α) (old : Option α)
  | grown (e : Env α) (row : Row α)
  | unwound (e : Env α) (k : Kind) (row : Row α)

/-- `split` (arc_btree.rs:699-738), if the node is full.  The node is cut before the allocation: when that fails, what is to the right and the pivot are dropped. -/
def finish (limit : Nat) (e : Env α) (row : Row α) : Out α :=
  if row.length = limit then
    match row.splitAt (limit / 2) with
    | none => .done e (.node false row) none
    | some (l, p, r) =>
      match e.call with
      | none => .unwound (e.drop (p :: r.owned)) .alloc (.node false l)
      | some e => .split e (.node false l) p (.node false r)
  else .done e (.node false row) none

/-- `insert_inner` once the entries are done with. -/
def RowOut.up (limit : Nat) : RowOut α → Out α
  | .done e row old => .done e (.node false row) old
  | .grown e row => finish limit e row
  | .unwound e k row => .unwound e k (.node false row)

/-- What becomes of an entry when its left child was inserted into (arc_btree.rs:594-608): the new one goes in front of it. -/
def Out.atEntry (x : α) (rest : Row α) : Out α → RowOut α
  | .done e s old => .done e (.cons s x rest) old
  | .split e s p r => .grown e (.cons s p (.cons r x rest))
  | .unwound e k s => .unwound e k (.cons s x rest)

/-- The same for the last child (arc_btree.rs:611-624). -/
def Out.atLast : Out α → RowOut α
  | .done e g old => .done e (.last g) old
  | .split e g p r => .grown e (.cons g p (.last r))
  | .unwound e k g => .unwound e k (.last g)

/-- Entries in front of the others. -/
def RowOut.cons (s : Tree α) (x : α) : RowOut α → RowOut α
  | .done e row old => .done e (.cons s x row) old
  | .grown e row => .grown e (.cons s x row)
  | .unwound e k row => .unwound e k (.cons s x row)

def Row.shareIf (sh : Bool) : Row α → Row α
  | .last g => .last (g.shareIf sh)
  | .cons s v rest => .cons (s.shareIf sh) v (rest.shareIf sh)

mutual
/-- `insert_inner` (arc_btree.rs:575-626); `sh`: the node above was cloned, so this one has a second handle.  When a call unwinds before the value has its place, it is dropped. -/
def Tree.ins [LinearOrder κ] (key : α → κ) (limit : Nat) (sh : Bool) (e : Env α) (v : α) : Tree α → Out α
  | .leaf => .split e .leaf v .leaf
  | .node shared row =>
    if shared || sh then
      match cloneAll e 0 [] row.values with
      | (e, some n) => .unwound (e.drop [v]) .clone (.node true (row.shareFirst n))
      | (e, none) =>
        match e.call with
        | none => .unwound (e.drop (row.values ++ [v])) .alloc (.node true row)
        | some e => (Row.ins key limit true e v row).up limit
    else (Row.ins key limit false e v row).up limit
/-- The loop over the entries; `sh`: the node was cloned. -/
def Row.ins [LinearOrder κ] (key : α → κ) (limit : Nat) (sh : Bool) (e : Env α) (v : α) : Row α → RowOut α
  | .last g => (Tree.ins key limit sh e v g).atLast
  | .cons s x rest =>
    match e.call with
    | none => .unwound (e.drop [v]) .cmp (.cons (s.shareIf sh) x (rest.shareIf sh))
    | some e =>
      if key x = key v then .done e (.cons (s.shareIf sh) v (rest.shareIf sh)) (some x)
      else if key v < key x then (Tree.ins key limit sh e v s).atEntry x (rest.shareIf sh)
      else (Row.ins key limit sh e v rest).cons (s.shareIf sh) x
end

mutual
/-- `get` (arc_btree.rs:535-548): whether the value is there, `none` if a comparison unwinds. -/
def Tree.get [LinearOrder κ] (key : α → κ) (e : Env α) (k : κ) : Tree α → Env α × Option Bool
  | .leaf => (e, some false)
  | .node _ row => Row.get key e k row
def Row.get [LinearOrder κ] (key : α → κ) (e : Env α) (k : κ) : Row α → Env α × Option Bool
  | .last g => Tree.get key e k g
  | .cons s x rest =>
    match e.call with
    | none => (e, none)
    | some e =>
      if key x = k then (e, some true)
      else if k < key x then Tree.get key e k s
      else Row.get key e k rest
end

/-- What `insert` ends with: it returns, or unwinds because of something. -/
inductive Res (α : Type) where
  | done (old : Option α)
  | unwound (k : Kind)
deriving DecidableEq, Repr

/-- `ArcBTreeSet` (arc_btree.rs:155-166): the root, and how often the allocator it holds has been dropped or moved away already. -/
structure ASet (α : Type) where
  root : Tree α
  taken : Nat

/-- A new set (arc_btree.rs:194-202). -/
def ASet.new : ASet α := ⟨.leaf, 0⟩

/-- `ArcBTreeSet::insert` (arc_btree.rs:381-405) and `ArcBTreeSetNode::insert` (arc_btree.rs:549-574).  The first insertion reads the allocator out of the set and gives it to the node;
if there is no memory for that, the allocator and the value are dropped. -/
def ASet.insert [LinearOrder κ] (key : α → κ) (replace : Bool) (limit : Nat) (e : Env α) (s : ASet α) (v : α) : Env α × ASet α × Res α :=
  match s.root with
  | .leaf =>
    match e.call with
    | none => (e.drop [v], ⟨.leaf, s.taken + 1⟩, .unwound .alloc)
    | some e => (e, ⟨.node false (.cons .leaf v (.last .leaf)), s.taken + 1⟩, .done none)
  | t =>
    match if replace then (e, some false) else t.get key e (key v) with
    | (e, none) => (e.drop [v], s, .unwound .cmp)
    | (e, some true) => (e, s, .done (some v))
    | (e, some false) =>
      match t.ins key limit false e v with
      | .done e t old => (e, { s with root := t }, .done old)
      | .unwound e k t => (e, { s with root := t }, .unwound k)
      | .split e t p r =>
        match e.call with
        | none => (e.drop (p :: r.owned), { s with root := t }, .unwound .alloc)
        | some e => (e, { s with root := .node false (.cons t p (.last r)) }, .done none)

/-- `Drop for ArcBTreeSet` (arc_btree.rs:239-248): without a root, the allocator is dropped.  How often it was moved away or dropped by then. -/
def ASet.drop (s : ASet α) : Nat × List α :=
  match s.root with
  | .leaf => (s.taken + 1, [])
  | t => (s.taken, t.owned)

end Verif.BTree.Unwind
