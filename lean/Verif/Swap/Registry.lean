import Verif.Swap.Model
/-! The vtable registries (stabby-abi/src/vtable/mod.rs:49-210), as users of the loops of `Verif.Swap.Model`.

The registry's value is the list of its entries: the contents of a vtable, and the address of the slice in which the registry stores it.  `VtVec`
(vtable/mod.rs:74-75) keeps a vector in that order, `VtBtree` (vtable/mod.rs:70) a tree, for which only the set of entries matters (`Verif.BTree`).
The slices themselves are immutable and never freed once registered (`mem::forget`, vtable/mod.rs:146, 192). -/
namespace Verif.Swap.Registry
variable {K : Type} [DecidableEq K]

/-- The entries: contents and address. -/
abbrev Reg (K : Type) := List (K × Nat)

/-- `insert` (vtable/mod.rs:104-160, 165-204) of a vtable with contents `k`, for which the call would allocate a slice at address `b`.
The entries from `start` on are searched (`search_start`, vtable/mod.rs:105, 111, 155; `VtBtree` searches everything: `start = 0`).
If the vtable is found, the registry is left alone; otherwise an entry is added. -/
def insertFn (start : List (Reg K) → Nat) (k : K) (b : Nat) : Fn (Reg K)
  | [] => .same
  | v :: prev => match (v.drop (start prev)).lookup k with
    | some _ => .same
    | none => .node (v ++ [(k, b)])

/-- What `insert` returns, when its last attempt was made on `seen`: the address that was found, or that of the new slice. -/
def result (start : List (Reg K) → Nat) (k : K) (b : Nat) : List (Reg K) → Nat
  | [] => b
  | v :: prev => match (v.drop (start prev)).lookup k with
    | some b' => b'
    | none => b

/-- Where the search may start: at the beginning on the first attempt, later no further than the end of the version that was searched last
(`search_start = vts.len()`, vtable/mod.rs:155; it is left where it was when `is` fails, vtable/mod.rs:124-140). -/
def StartOk (start : List (Reg K) → Nat) : Prop := start [] = 0 ∧ ∀ v prev, start (v :: prev) ≤ v.length

/-- `get` (arc_btree.rs:65-73), as called by `VtBtree::insert` (vtable/mod.rs:184-199): it changes nothing. -/
def getFn : Fn (Reg K) := fun _ => .same

end Verif.Swap.Registry
