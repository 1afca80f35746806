import Verif.Layout.CType

/-! The layouts declared for the types of the crate `abi_stable` (stable_impls/abi_stable.rs, feature `abi_stable`). -/
namespace Verif.Layout.Foreign
open Verif.Layout.Platform

/-- The types; `t`, `u` are the declared layouts of parameters that are held in place. -/
inductive Foreign where
  | rref | rmut | rvec | rstring | rslice | rstr | rsliceMut | rhashMap | rduration | rbox | rboxError | sendRBoxError | unsyncRBoxError
  | tuple1 (t : Lay) | tuple2 (t u : Lay) | rarc | rmutex (t : Lay) | rrwLock (t : Lay) | ronce | rreceiver | rsender

/-- Implementations that give all associated types themselves: `n` pointers (`Mul<Un>`), the forbidden values of the first one or none. -/
def words (t : Target) (n : Nat) (nonNull : Bool) (niche : Sat) : Lay where
  size := (Platform.decl t .nonNull).size * n
  align := (Platform.decl t .nonNull).align
  fv := if nonNull then (Platform.decl t .nonNull).fv else .none
  ub := []
  oneNiche := niche
  indirections := true

/-- `same_as!(t)` (stable_impls/mod.rs:29-38), and `ContainsIndirections` after it. -/
def like (t : Lay) (ind : Bool) : Lay := { t with indirections := ind }

/-- `seal::RMutex<T>` (abi_stable.rs:169-178): `UnsafeCell<T>` takes everything from `T`. -/
def sealMutex (t : Target) (x : Lay) : Lay := Lay.tuple3 (Platform.decl t .constPtr) x (Platform.decl t .ref)

/-- abi_stable.rs:6-231 -/
def declared (t : Target) : Foreign → Lay
  | .rref | .rmut => like (Platform.decl t .nonNull) true -- 6-19
  | .rvec => words t 4 true .b1 -- 22-31
  | .rstring => like (words t 4 true .b1) true -- 35-39
  | .rslice | .rsliceMut => words t 2 false .b0 -- 43-52, 64-73
  | .rstr => like (words t 2 false .b0) true -- 56-60
  | .rhashMap => words t 3 true .b1 -- 77-89
  | .rduration => like (Lay.tuple2 (Platform.decl t (.uint .w64)) (Platform.decl t (.uint .w32))) false -- 93-97
  | .rbox => words t 2 true .b1 -- 101-110
  | .rboxError => words t 3 true .b1 -- 114-123
  | .sendRBoxError | .unsyncRBoxError => like (words t 3 true .b1) true -- 127-139
  | .tuple1 x => like x x.indirections -- 143-147
  | .tuple2 x y => like (Lay.tuple2 x y) (Lay.tuple2 x y).indirections -- 151-158
  | .rarc | .ronce => like (Lay.tuple2 (Platform.decl t .constPtr) (Platform.decl t .nonNull)) true -- 162-166, 203-207
  | .rmutex x | .rrwLock x => like (sealMutex t x) true -- 181-200
  | .rreceiver | .rsender => like (Lay.tuple2 (words t 2 true .b1) (Platform.decl t .nonNull)) true -- 215-230

/-- The number of pointers in the array that is written down as `CType` (abi_stable.rs:29, 50, 71, 87, 108, 121). -/
def ctypeWords : Foreign → Option Nat
  | .rvec => some 4
  | .rslice | .rsliceMut | .rbox => some 2
  | .rhashMap | .rboxError => some 3
  | _ => none

/-- Does the implementation define `CType`?  `same_as!` does with the feature `experimental-ctypes` (stable_impls/mod.rs:35-36), the others always. -/
def definesCType (experimentalCtypes : Bool) (x : Foreign) : Bool := (ctypeWords x).isSome || experimentalCtypes
/-- Is `CType` an item of the trait (istable.rs:47-49)? -/
def traitHasCType (experimentalCtypes : Bool) : Bool := experimentalCtypes

/-! ### The types themselves.  abi_stable is not part of the sources; this is how version 0.11 defines them. -/

inductive Fld where
  /-- a raw pointer that is never null -/
  | buf
  /-- a reference, or a `NonNull`, which references to vtables are -/
  | vt
  | word | u64 | u32
  | val (t : Lay) | cell (t : Lay)

def Fld.size (t : Target) : Fld → Nat
  | .buf => CType.primSize t .constPtr
  | .vt => CType.primSize t .ref
  | .word => CType.primSize t .usize
  | .u64 => CType.primSize t (.uint .w64)
  | .u32 => CType.primSize t (.uint .w32)
  | .val x | .cell x => x.size

def Fld.align (t : Target) : Fld → Nat
  | .buf => CType.primAlign t .constPtr
  | .vt => CType.primAlign t .ref
  | .word => CType.primAlign t .usize
  | .u64 => CType.primAlign t (.uint .w64)
  | .u32 => CType.primAlign t (.uint .w32)
  | .val x | .cell x => x.align

/-- The fields, in the order of `repr(C)`. -/
def fields : Foreign → List Fld
  | .rref | .rmut => [.vt] -- a `NonNull`
  | .rvec | .rstring => [.buf, .word, .word, .vt] -- buffer, length, capacity, vtable
  | .rslice | .rstr | .rsliceMut => [.buf, .word] -- data, length
  | .rbox | .rarc | .ronce => [.buf, .vt] -- data, vtable
  | .rhashMap | .rboxError | .sendRBoxError | .unsyncRBoxError | .rreceiver | .rsender => [.buf, .vt, .vt] -- an `RBox`, a vtable
  | .rduration => [.u64, .u32]
  | .tuple1 x => [.val x]
  | .tuple2 x y => [.val x, .val y]
  | .rmutex x | .rrwLock x => [.buf, .cell x, .vt]

end Verif.Layout.Foreign
