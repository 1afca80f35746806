import Verif.Layout.Lemmas
import Verif.Layout.CSpec
import Verif.Layout.Platform

/-! `IStable::CType` (feature `experimental-ctypes`): the C type that stands for a type (stabby-abi/src/istable.rs:47-49,
stabby-macros/src/lib.rs:379-424, and the implementations). -/
namespace Verif.Layout.CType
open Verif.Layout Verif.Layout.Platform

/-- Types that have a `CType`.  `CType`s are of the same kind. -/
inductive Ty where
  | prim (p : Prim)
  /-- a `#[stabby]` struct laid out as C; tuples are such structs (stabby-abi/build.rs:72-78) -/
  | struct (fs : List Ty)
  /-- a `#[stabby]` struct with `repr(C)` and `repr(align(n))` -/
  | aligned (n : Nat) (fs : List Ty)
  /-- a `#[stabby]` union -/
  | union (fs : List Ty)
  /-- a `#[stabby]` enum with a tag: `repr(C, tag)` or `repr(tag)`.  One entry per variant: `()` for unit variants, a struct for variants
  with several fields -/
  | enum (isC : Bool) (tag : Prim) (vs : List Ty)
  | array (n : Nat) (t : Ty)
  /-- stabby's `Result`, and what is made of it (`Option`, enums without tag): a `Storage` of its size and alignment (result.rs:30-36, 86-88) -/
  | storage (size align : Nat)
  /-- Types that take everything from another one: `ManuallyDrop`, `MaybeUninit`, `UnsafeCell`, `Pin` (stable_impls/mod.rs:535-551, 676-680),
  `NotPod` (istable.rs:122-132), `StableIf` (lib.rs:349-360), `StableLike` (lib.rs:262-273, about its second parameter), `Option`s with exactly one
  niche and `Result`s with an empty side (stable_impls/mod.rs:696-803) -/
  | like (t : Ty)
  /-- `NoNiches<Size, Align>` as the second parameter of `StableLike` (lib.rs:276-306) -/
  | noNiches (size align : Nat)

/-! ### Layout of types, by the rules of C and the Rust reference -/

/-- `size_of` (Rust reference, type layout; documentation of `core::num::NonZero`, `core::sync::atomic`). -/
def primSize (t : Target) : Prim → Nat
  | .unit | .phantomData | .phantomPinned => 0
  | .cVoid | .bool | .ordering | .atomicBool => 1
  | .uint w | .nonZeroU w | .int w | .nonZeroI w | .atomicI w | .atomicU w => w.bytes
  | .f32 | .ownedFd | .borrowedFd => 4
  | .f64 => 8
  | _ => t.ptr

/-- `align_of`; atomics are aligned to their size. -/
def primAlign (t : Target) : Prim → Nat
  | .unit | .phantomData | .phantomPinned | .cVoid | .bool | .ordering | .atomicBool => 1
  | .uint w | .nonZeroU w | .int w | .nonZeroI w => t.alignU w
  | .atomicI w | .atomicU w => w.bytes
  | .atomicIsize | .atomicUsize | .atomicPtr => t.ptr
  | .f32 => t.af32
  | .f64 => t.af64
  | .ownedFd | .borrowedFd => t.a32
  | _ => t.aptr

def natAlign : List (Nat × Nat) → Nat
  | [] => 1
  | f :: fs => max f.2 (natAlign fs)

def natMax : List (Nat × Nat) → Nat
  | [] => 0
  | f :: fs => max f.1 (natMax fs)

/-- First byte past fields of these sizes and alignments, the first one not before `c`. -/
def natEnd : Nat → List (Nat × Nat) → Nat
  | c, [] => c
  | c, f :: fs => natEnd (alignUp c f.2 + f.1) fs

/-- A C struct, with at least the alignment `a`. -/
def structLay (a : Nat) (fs : List (Nat × Nat)) : Nat × Nat := (alignUp (natEnd 0 fs) (max a (natAlign fs)), max a (natAlign fs))
/-- A C union. -/
def unionLay (fs : List (Nat × Nat)) : Nat × Nat := (alignUp (natMax fs) (natAlign fs), natAlign fs)
/-- A `repr(tag)` enum: a union of C structs that start with the tag. -/
def taggedLay (tag : Nat × Nat) (vs : List (Nat × Nat)) : Nat × Nat := unionLay (structLay 1 [tag] :: vs.map fun v => structLay 1 [tag, v])

/-- `Alignment::AsUint` (typenum2/unsigned.rs:581-600, 601-630): from 32 on a `repr(align)` struct of an array of bytes (arrays of arrays
in the code). -/
def asUint (a : Nat) : Ty :=
  if a = 1 then .prim (.uint .w8)
  else if a = 2 then .prim (.uint .w16)
  else if a = 4 then .prim (.uint .w32)
  else if a = 8 then .prim (.uint .w64)
  else if a = 16 then .prim (.uint .w128)
  else .aligned a [.array a (.prim (.uint .w8))]

/-- Size and alignment of `AsUint` (by `structLay` for alignments from 32 on). -/
def uintLay (t : Target) (a : Nat) : Nat × Nat :=
  if a = 1 then (1, 1)
  else if a = 2 then (2, t.a16)
  else if a = 4 then (4, t.a32)
  else if a = 8 then (8, t.a64)
  else if a = 16 then (16, t.a128)
  else structLay a [(a, 1)]

/-- `CType` of primitive types (stable_impls/mod.rs:26, 36, 252-276, 294-443, 614, 993), where `same_as!` takes it from another type. -/
def ctypePrim (t : Target) : Prim → Ty
  | .unit | .phantomData | .phantomPinned | .cVoid => .prim .unit
  | .usize | .isize | .constPtr | .mutPtr | .atomicIsize | .atomicUsize | .atomicPtr => .prim .usize
  | .ordering => .prim (.uint .w8)
  | p => asUint (decl t p).align

/-- `_AddToArray` (typenum2/unsigned.rs:417, 546-555), on the digits of `n`; `emptyLsb` is whether `LsbArray` still has size 0. -/
def addToArray : (fuel n : Nat) → (emptyLsb : Bool) → Ty → Ty → Ty
  | 0, _, _, lsb, _ => lsb
  | fuel + 1, n, e, lsb, stack =>
    if n = 0 then lsb
    else if n % 2 = 1 then addToArray fuel (n / 2) false (if e then stack else .struct [stack, lsb]) (.struct [stack, stack])
    else addToArray fuel (n / 2) e lsb (.struct [stack, stack])

/-- `<N as IUnsignedBase>::Array<T>` (typenum2/unsigned.rs:418, 556), for `T` not of size 0. -/
def arrayOf (n : Nat) (t : Ty) : Ty := addToArray n n true (.prim .unit) t

/-- `<Union<A, B> as IStable>::CType` for a size and an alignment (istable.rs:535-537). -/
def chunk (size align : Nat) : Ty := arrayOf (size / align) (asUint align)

/-- `CType` of `AsUint`. -/
def uintCType (t : Target) (a : Nat) : Ty :=
  match asUint a with
  | .prim p => ctypePrim t p
  | u => u

/-- `CType` of `chunk`: that of tuples is the tuple of `CType`s, that of `()` is `()`. -/
def chunkCType (t : Target) (size align : Nat) : Ty := arrayOf (size / align) (uintCType t align)

/-- Size and alignment of `chunk` (proved to be such). -/
def chunkLay (t : Target) (size align : Nat) : Nat × Nat :=
  if size / align = 0 then (0, 1) else ((size / align) * (uintLay t align).1, (uintLay t align).2)

mutual
/-- Size and alignment. -/
def lay (t : Target) : Ty → Nat × Nat
  | .prim p => (primSize t p, primAlign t p)
  | .struct fs => structLay 1 (lays t fs)
  | .aligned n fs => structLay n (lays t fs)
  | .union fs => unionLay (lays t fs)
  | .enum true tag vs => structLay 1 [(primSize t tag, primAlign t tag), unionLay (lays t vs)]
  | .enum false tag vs => taggedLay (primSize t tag, primAlign t tag) (lays t vs)
  | .array n e => (n * (lay t e).1, (lay t e).2)
  | .storage s a => structLay 1 [chunkLay t s a]
  | .like e => lay t e
  | .noNiches s a => (s, a)
def lays (t : Target) : List Ty → List (Nat × Nat)
  | [] => []
  | f :: fs => lay t f :: lays t fs
end

mutual
/-- `CType`.  Structs: the tuple of the `CType`s of the fields (lib.rs:382-399), or themselves with `repr(align)` (structs.rs:216-218).  Unions: an
array of integers (unions.rs:78-80, istable.rs:535-537).  Enums: the tag and what a union of the variants becomes (lib.rs:400-421; variants with
several fields are taken as tuples of `CType`s there, which is the same size and alignment as themselves by C76).  Sizes and alignments are the
compiler's rather than those declared: these are the same (C04, C07, C63). -/
def ctype (t : Target) : Ty → Ty
  | .prim p => ctypePrim t p
  | .struct fs => .struct (ctypes t fs)
  | .aligned n fs => .aligned n fs
  | .union fs => chunk (unionLay (lays t fs)).1 (unionLay (lays t fs)).2
  | .enum _ tag vs => .struct [.prim tag, chunk (unionLay (lays t vs)).1 (unionLay (lays t vs)).2]
  | .array n e => .array n (ctype t e)
  | .storage s a => .struct [chunkCType t s a]
  | .like e => ctype t e
  | .noNiches _ _ => .prim .unit
def ctypes (t : Target) : List Ty → List Ty
  | [] => []
  | f :: fs => ctype t f :: ctypes t fs
end

/-- Whether one of the fields, the first one placed not before `c`, has data at byte `i`. -/
def dataAt (c : Nat) : List ((Nat × Nat) × (Nat → Bool)) → Nat → Bool
  | [], _ => false
  | f :: fs, i => (decide (alignUp c f.1.2 ≤ i) && f.2 (i - alignUp c f.1.2)) || dataAt (alignUp c f.1.2 + f.1.1) fs i

mutual
/-- Whether byte `i` of a value may be part of what it holds; the others are padding, which moving the value need not preserve. -/
def data (t : Target) : Ty → Nat → Bool
  | .prim p, i => decide (i < primSize t p)
  | .struct fs, i => dataAt 0 (datas t fs) i
  | .aligned _ fs, i => dataAt 0 (datas t fs) i
  | .union fs, i => (datas t fs).any fun f => f.2 i
  | .enum true tag vs, i =>
    dataAt 0 [((primSize t tag, primAlign t tag), fun j => decide (j < primSize t tag)), (unionLay (lays t vs), fun j => (datas t vs).any fun f => f.2 j)] i
  | .enum false tag vs, i =>
    decide (i < primSize t tag) ||
      (datas t vs).any fun f => dataAt 0 [((primSize t tag, primAlign t tag), fun _ => false), f] i
  | .array n e, i => decide (i < n * (lay t e).1) && data t e (i % (lay t e).1)
  | .storage s a, i => decide (i < (chunkLay t s a).1)
  | .like e, i => data t e i
  | .noNiches s _, i => decide (i < s)
def datas (t : Target) : List Ty → List ((Nat × Nat) × (Nat → Bool))
  | [] => []
  | f :: fs => (lay t f, data t f) :: datas t fs
end

mutual
/-- Whether a float is part of the type: C ABIs pass these in other registers than integers. -/
def floats : Ty → Bool
  | .prim p => p = .f32 ∨ p = .f64
  | .struct fs | .aligned _ fs | .union fs | .enum _ _ fs => floatss fs
  | .array _ e | .like e => floats e
  | .storage _ _ | .noNiches _ _ => false
def floatss : List Ty → Bool
  | [] => false
  | f :: fs => floats f || floatss fs
end

end Verif.Layout.CType
