import Verif.BTree.Model

/-! `ArcBTreeMap` (stabby-abi/src/alloc/collections/arc_btree.rs:113-150): a set of entries that replaces. -/
namespace Verif.BTree

/-- The methods of `ArcBTreeMap`, and clones and drops. -/
inductive MapOp (κ β : Type) where
  | new
  | clone (i : Nat)
  | insert (i : Nat) (k : κ) (v : β)
  | get (i : Nat) (k : κ)
  | drop (i : Nat)

/-- What the methods call on the set; entries are pairs, compared by their key (arc_btree.rs:76-110): `from_alloc` (126-128), `insert`
(142-149), `get` (130-132). -/
def MapOp.set {κ β : Type} : MapOp κ β → Op (κ × β) κ
  | .new => .new
  | .clone i => .clone i
  | .insert i k v => .insert i (k, v)
  | .get i k => .get i k
  | .drop i => .drop i

/-- What they make of the answer: `.map(|entry| entry.value)` (arc_btree.rs:131, 148); `none` is no answer (the methods that return nothing,
or a program that does not compile). -/
def mapAnswer {κ β : Type} : Res (κ × β) → Option (Option β)
  | .elem x => some (x.map Prod.snd)
  | _ => none

/-- A history of maps, from the start of the program; `true` is `REPLACE_ON_INSERT` (arc_btree.rs:114). -/
def mapRun {κ β : Type} [LinearOrder κ] (limit fuel : Nat) (ops : List (MapOp κ β)) : Option (List (Option (Option β))) :=
  (run Prod.fst ⟨true, limit⟩ fuel St.new (ops.map MapOp.set)).map fun r => r.1.map mapAnswer

end Verif.BTree
