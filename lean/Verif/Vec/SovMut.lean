import Verif.Vec.Sov
import Verif.Sum.Forget

/-! Mutable access to the elements of a `SingleOrVec` (stabby-abi/src/alloc/single_or_vec.rs:253-313, 435-540), at the level of bytes.

The methods of `IterMut` return references with the lifetime of the borrow of the container, not of the iterator (single_or_vec.rs:475-480, 526-529: the
lifetime is changed by `transmute`), so that safe code can write through them after the iterator, and the guard in it, was dropped. -/
namespace Verif.Vec
open Verif.Layout Verif.Sum
variable {α : Type}

/-- The type of a `SingleOrVec<T>` (single_or_vec.rs:20-27). -/
def sovTy (t : Ty) : Ty := .result (singleTy t) vecTy

/-- What is done while a `SingleOrVec` with a single element is borrowed by `as_slice_mut` or by a mutable iterator. -/
inductive Ev where
  /-- A value, whose bytes are given, is written through the reference to the element: `&mut v.value` in `deref_mut` (single_or_vec.rs:307-310), or what
  `next` or `next_back` returned (single_or_vec.rs:477-483, 524-531). -/
  | write (src : Mem)
  /-- The `SliceGuardMut` (alone or in the iterator) is dropped, and the `OkGuard` in it (single_or_vec.rs:281, 463). -/
  | drop

/-- `value` is the first field of `Single` (single_or_vec.rs:7-11), hence at its start. -/
def ev (t : Ty) (m : Mem) : Ev → Mem
  | .write src => m.write (okOffset (singleTy t).lay vecTy.lay) t.lay.size src
  | .drop => dropOkGuard (singleTy t).lay vecTy.lay m

def evs (t : Ty) (m : Mem) (l : List Ev) : Mem := l.foldl (ev t) m

/-- `as_slice_mut` in the state of a vector: the `ErrGuard` that `match_mut` passes is dropped at the end of the closure (single_or_vec.rs:257-261,
result.rs:557-561); the slice returned is of the elements in memory of their own. -/
def dropErrGuard (ok err : Lay) (m : Mem) : Mem := if (provider ok err).det.isNicheTrick then (provider ok err).det.err m else m

/-- Writing to the element with index `i`, as `as_slice_mut()[i] = x` or through a reference from an iterator; the old element is dropped. -/
def Sov.set (o : Sov α) (i : Nat) (x : α) : Option (Sov α) :=
  match o.cur with
  | some y => if i = 0 then some ⟨some x, { o.s with dropped := o.s.dropped ++ [y] }⟩ else none
  | none => do
    let y ← read o.s.v i
    let v ← write o.s.v i x
    return ⟨none, { o.s with v := v, dropped := o.s.dropped ++ [y] }⟩

/-! ### Constructors and capacity -/

/-- `with_capacity_in` (single_or_vec.rs:68-72): `new_in`, then `reserve`. -/
def Sov.withCapacity (e : SEnv) (n : Nat) : Option (Res α × Sov α) := sstep e Sov.new (.reserve n)

/-- `try_with_capacity_in` (single_or_vec.rs:88-92, vec.rs:112-118): `None` if the allocator is given back. -/
def Sov.tryWithCapacity (e : SEnv) (n : Nat) : Option (Sov α) :=
  match Vec.tryReserve e.toEnv St.new n with
  | (true, s) => some ⟨none, s⟩
  | (false, _) => none

/-- `From<Vec>` (single_or_vec.rs:559-563). -/
def Sov.ofVec (s : St α) : Sov α := ⟨none, s⟩

/-- `capacity` (single_or_vec.rs:180-182). -/
def Sov.capacity (o : Sov α) : Nat :=
  match o.cur with
  | some _ => 1
  | none => o.s.v.cap

/-- `remaining_capacity` (single_or_vec.rs:184-186). -/
def Sov.remaining (o : Sov α) : Nat :=
  match o.cur with
  | some _ => 0
  | none => Vec.remaining o.s.v

/-- `is_empty` (single_or_vec.rs:108-110); of a vector: `end` is `start`. -/
def Sov.isEmpty (o : Sov α) : Bool :=
  match o.cur with
  | some _ => false
  | none => decide (o.s.v.len = 0)

/-- `Clone for SingleOrVec` (single_or_vec.rs:315-336). -/
def Sov.clone (e : Env) (c : α → α) (o : Sov α) : Option (Res α × Sov α) :=
  match o.cur with
  | some y => some (.unit, ⟨some (c y), St.new⟩)
  | none => do
    let (r, s) ← cloneVec e c o.s St.new
    return (r, ⟨none, s⟩)

end Verif.Vec
