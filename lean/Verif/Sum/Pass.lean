import Verif.Sum.Combi

/-! Iterators and maps behind the stable traits `Iterator` (stabby-abi/src/iter.rs) and `IMap` (stabby/src/map.rs).

What `Dyn` calls is the function of the vtable (C65), so a call through a trait object is the call of the blanket implementation below.
Simplification: a panic in an `extern "C" fn` ends the process; here nothing follows it. -/
namespace Verif.Sum
open Verif.Layout

/-- core's `Iterator`, the methods that the stable trait has: each call may do anything, and unwind. -/
structure Iter (α σ : Type) where
  next : σ → Run α (Option α × σ)
  hint : σ → Run α (α × Option α)

/-- The functions of the vtable of the stable `Iterator` (iter.rs:4-12): they return the memory of stable options and tuples. -/
structure StableIter (σ : Type) where
  next : σ → MRun (Mem × σ)
  hint : σ → MRun Mem

/-- `Tuple<usize, Option<usize>>` (iter.rs:11, `Tuple2` lib.rs:47). -/
def hintTy : Ty := .tuple2 .usize (.option .usize)
/-- Where the second field of it is. -/
def hintOff : Nat := alignUp Ty.usize.lay.size (Ty.option .usize).lay.align
/-- `crate::Tuple(min, max)` (iter.rs:25). -/
def mkHint (min max : Mem) : Mem :=
  (Mem.write (fun _ => 0) 0 Ty.usize.lay.size min).write hintOff (Ty.option .usize).lay.size max

/-- The blanket implementation for the iterators of core (iter.rs:14-27). -/
def Iter.stable {σ : Type} (t : Ty) (it : Iter Mem σ) : StableIter σ where
  next s := (it.next s).bind fun r => .pure (ofCoreOpt t r.1, r.2)
  hint s := (it.hint s).bind fun r => .pure (mkHint r.1 (ofCoreOpt .usize r.2))

/-- core's `Iterator` for trait objects (iter.rs:29-43). -/
def StableIter.core {σ : Type} (t : Ty) (it : StableIter σ) : Iter Mem σ where
  next s := (it.next s).bind fun r => (toCoreOpt t r.1).bind fun o => .pure (o, r.2)
  hint s := (it.hint s).bind fun m => (toCoreOpt .usize (m.at hintOff)).bind fun o => .pure (m, o)

/-- An iterator behind a trait object; the trait object is an iterator again. -/
def Iter.boxed {σ : Type} (t : Ty) (it : Iter Mem σ) : Iter Mem σ := (it.stable t).core t

/-- Behind `n` of them. -/
def Iter.boxedN {σ : Type} (t : Ty) : Nat → Iter Mem σ → Iter Mem σ
  | 0, it => it
  | n + 1, it => (it.boxedN t n).boxed t

/-- What a caller may ask. -/
inductive Ask where
  | next
  | hint
/-- What it is told. -/
inductive Told (α : Type) where
  | item (o : Option α)
  | hint (min : α) (max : Option α)

/-- A caller asks for this and that. -/
def Iter.run {α σ : Type} (it : Iter α σ) : List Ask → σ → Run α (List (Told α))
  | [], _ => .pure []
  | .next :: l, s => (it.next s).bind fun r => (it.run l r.2).bind fun ts => .pure (.item r.1 :: ts)
  | .hint :: l, s => (it.hint s).bind fun r => (it.run l s).bind fun ts => .pure (.hint r.1 r.2 :: ts)

/-! ### Maps -/

/-- A map of std: where the value of each key is, and what is there.  Addresses are given by their eight bytes. -/
structure StdMap (κ : Type) where
  slot : κ → Option (List Byte)
  heap : List Byte → Mem

/-- The bytes of a reference. -/
def ptrMem (p : List Byte) : Mem := fun i => p.getD i 0

namespace StdMap
variable {κ : Type}
/-- `IMap::get` (map.rs:19-21, 36-38). -/
def get (m : StdMap κ) (k : κ) : Mem := ofCoreOpt .ref ((m.slot k).map ptrMem)
/-- `IMap::get_mut` (map.rs:23-25, 40-42). -/
def getMut (m : StdMap κ) (k : κ) : Mem := ofCoreOpt .ref ((m.slot k).map ptrMem)
/-- `IMap::insert` (map.rs:27-29, 44-46): `std` is what the insertion of std does to the map; it returns the previous value. -/
def insert (t : Ty) (std : StdMap κ → κ → Mem → StdMap κ) (m : StdMap κ) (k : κ) (v : Mem) : Mem × StdMap κ :=
  (ofCoreOpt t ((m.slot k).map m.heap), std m k v)
/-- A write through `&mut V`. -/
def write (t : Ty) (m : StdMap κ) (p : List Byte) (v : Mem) : StdMap κ :=
  { m with heap := fun q => if q = p then (m.heap p).write 0 t.lay.size v else m.heap q }
end StdMap

/-- What a caller does with a map: look up, insert, write through the reference that `get_mut` gives. -/
inductive MapOp (κ α : Type) where
  | get (k : κ)
  | insert (k : κ) (v : α)
  | set (k : κ) (v : α)

/-- The address that eight bytes of memory hold. -/
def ptrOf (m : Mem) : List Byte := (List.range 8).map m

/-- A caller behind the trait: the options are read with `match_owned`, references are followed.  What it sees is the memory of the values. -/
def mapRun {κ : Type} (t : Ty) (std : StdMap κ → κ → Mem → StdMap κ) :
    List (MapOp κ Mem) → StdMap κ → List (Option Mem)
  | [], _ => []
  | .get k :: l, m =>
    (if isSome .ref (m.get k) then some (m.heap (ptrOf (okPtr Ty.ref.lay Ty.unit.lay (m.get k)))) else none) :: mapRun t std l m
  | .insert k v :: l, m =>
    (if isSome t (m.insert t std k v).1 then some (okPtr t.lay Ty.unit.lay (m.insert t std k v).1) else none) ::
      mapRun t std l (m.insert t std k v).2
  | .set k v :: l, m =>
    if isSome .ref (m.getMut k) then
      some (m.heap (ptrOf (okPtr Ty.ref.lay Ty.unit.lay (m.getMut k)))) ::
        mapRun t std l (m.write t (ptrOf (okPtr Ty.ref.lay Ty.unit.lay (m.getMut k))) v)
    else none :: mapRun t std l m

end Verif.Sum
