import Verif.Report.Model

/-! Equality, order and hashing of containers, strings, map entries and reports.  A container is its kind and its elements: that
`as_slice` and `as_str` give the elements is the subject of C15, C19, C20, C21, C52 and C69.  What the core library does with `[T]`
and `str` is part of the model. -/
namespace Verif.Compare
open Verif.Report

/-- A call of a method of `core::hash::Hasher`. -/
inductive Call where
  /-- `write_length_prefix` -/
  | len (n : Nat)
  /-- `write` -/
  | write (bytes : List Nat)
  | u8 (v : Nat)
  | u32 (v : Nat)
deriving DecidableEq

/-- The bytes that a hasher which overrides nothing but `write` gets from a call: integers are in the order of the machine, here
little endian on 64 bits. -/
def Call.bytes : Call → List Nat
  | .len n => (List.range 8).map (fun i => n / 256 ^ i % 256)
  | .write bs => bs
  | .u8 v => [v]
  | .u32 v => (List.range 4).map (fun i => v / 256 ^ i % 256)

/-! ### The core library -/

/-- `<[T] as PartialEq>::eq` (core::slice::cmp): the lengths, then the elements until two differ. -/
def sliceEq (eq : T → T → Bool) (a b : List T) : Bool :=
  if a.length ≠ b.length then false else (a.zip b).all (fun p => eq p.1 p.2)

/-- `<[T] as PartialOrd>::partial_cmp`: the first pair that isn't equal decides, or else the lengths. -/
def slicePcmp (pcmp : T → T → Option Ordering) (a b : List T) : Option Ordering :=
  match (a.zip b).find? (fun p => pcmp p.1 p.2 != some .eq) with
  | some p => pcmp p.1 p.2
  | none => some (compare a.length b.length)

/-- `<[T] as Ord>::cmp`. -/
def sliceCmp (cmp : T → T → Ordering) (a b : List T) : Ordering :=
  match (a.zip b).find? (fun p => cmp p.1 p.2 != .eq) with
  | some p => cmp p.1 p.2
  | none => compare a.length b.length

/-- `<[T] as Hash>::hash`: the length, then `T::hash_slice`. -/
def sliceHash (hashSlice : List T → List Call) (a : List T) : List Call := .len a.length :: hashSlice a

/-- `u8::hash_slice`: all bytes at once. -/
def hashBytes (a : List Nat) : List Call := [.write a]

/-- `<str as PartialEq>::eq`, `Ord::cmp` and `PartialOrd::partial_cmp` (core::str::traits) compare the bytes. -/
def strEq (a b : Str) : Bool := sliceEq (· == ·) a b
def strCmp (a b : Str) : Ordering := sliceCmp compare a b
def strPcmp (a b : Str) : Option Ordering := some (strCmp a b)

/-- `<str as Hash>::hash`: `Hasher::write_str`, which is `write` and `write_u8(0xff)` unless overridden. -/
def strHash (a : Str) : List Call := [.write a, .u8 255]

/-! ### Containers of elements -/

inductive Seq where
  | vec | singleOrVec | boxed | arc | slice | sliceMut
deriving DecidableEq

/-- Which types implement `AsRef<[T]>` (vec.rs:519-523, single_or_vec.rs:395-406). -/
def Seq.asRef : Seq → Bool
  | .vec | .singleOrVec => true
  | _ => false

/-- `==`, where there is one: `Vec` (vec.rs:464-468) and `SingleOrVec` (single_or_vec.rs:337-348) with everything that is
`AsRef<[T]>`, `BoxedSlice` (boxed.rs:359-363), `ArcSlice` (sync.rs:565-569), `Slice` (slice.rs:82-89) and `SliceMut`
(slice.rs:141-148) with themselves. -/
def Seq.eq (eq : T → T → Bool) : Seq → Seq → List T → List T → Option Bool
  | .vec, k, a, b | .singleOrVec, k, a, b => if k.asRef then some (sliceEq eq a b) else none
  | .boxed, .boxed, a, b => some (sliceEq eq a b)
  | .arc, .arc, a, b => some (sliceEq eq a b)
  | .slice, .slice, a, b => some (sliceEq eq a b)
  | .sliceMut, .sliceMut, a, b => some (sliceEq eq a b)
  | _, _, _, _ => none

/-- `PartialOrd::partial_cmp`: vec.rs:470-474, single_or_vec.rs:358-369, boxed.rs:369-373, sync.rs:575-579; slices have none. -/
def Seq.pcmp (pcmp : T → T → Option Ordering) : Seq → Seq → List T → List T → Option (Option Ordering)
  | .vec, k, a, b | .singleOrVec, k, a, b => if k.asRef then some (slicePcmp pcmp a b) else none
  | .boxed, .boxed, a, b => some (slicePcmp pcmp a b)
  | .arc, .arc, a, b => some (slicePcmp pcmp a b)
  | _, _, _, _ => none

/-- `Ord::cmp`: vec.rs:475-479, single_or_vec.rs:370-381, boxed.rs:364-368, sync.rs:570-574. -/
def Seq.cmp (cmp : T → T → Ordering) : Seq → List T → List T → Option Ordering
  | .vec, a, b | .singleOrVec, a, b | .boxed, a, b | .arc, a, b => some (sliceCmp cmp a b)
  | _, _, _ => none

/-- `Hash::hash`: boxed.rs:374-378, sync.rs:580-584, slice.rs:106-113, 165-172; vectors have none. -/
def Seq.hash (hashSlice : List T → List Call) : Seq → List T → Option (List Call)
  | .boxed, a | .arc, a | .slice, a | .sliceMut, a => some (sliceHash hashSlice a)
  | _, _ => none

/-! ### Strings -/

inductive Text where
  | string | boxed | arc | str | strMut
deriving DecidableEq

/-- `==`: `String` (string.rs:117-121) with everything that is `AsRef<str>` (string.rs:91-95, 173-177, 291-295, str.rs:55-59, 87-91),
`ArcStr` (string.rs:219-223), `BoxedStr` (string.rs:317-321) and `Str` (derived, str.rs:23) with themselves; `StrMut` has none. -/
def Text.eq : Text → Text → Str → Str → Option Bool
  | .string, _, a, b => some (strEq a b)
  | .boxed, .boxed, a, b => some (strEq a b)
  | .arc, .arc, a, b => some (strEq a b)
  | .str, .str, a, b => some (sliceEq (· == ·) a b)
  | _, _, _, _ => none

/-- `PartialOrd::partial_cmp`: string.rs:123-127, 229-233, 327-331, str.rs:76-80. -/
def Text.pcmp : Text → Text → Str → Str → Option (Option Ordering)
  | .string, _, a, b => some (strPcmp a b)
  | .boxed, .boxed, a, b => some (some (strCmp a b))
  | .arc, .arc, a, b => some (some (strCmp a b))
  | .str, .str, a, b => some (strPcmp a b)
  | _, _, _, _ => none

/-- `Ord::cmp`: string.rs:128-132, 224-228, 322-326. -/
def Text.cmp : Text → Str → Str → Option Ordering
  | .string, a, b | .boxed, a, b | .arc, a, b => some (strCmp a b)
  | _, _, _ => none

/-- `Hash::hash`: string.rs:112-116, 234-238, 332-336; the one of `Str` is derived (str.rs:23), so it's the one of `Slice<u8>`. -/
def Text.hash : Text → Str → Option (List Call)
  | .string, a | .boxed, a | .arc, a => some (strHash a)
  | .str, a => some (sliceHash hashBytes a)
  | .strMut, _ => none

/-! ### Entries of maps -/

/-- `Entry` (arc_btree.rs:79-82). -/
structure Entry (K V : Type) where
  key : K
  value : V

/-- arc_btree.rs:84-88, 94-98 -/
def Entry.eq (eqK : K → K → Bool) (a b : Entry K V) : Bool := eqK a.key b.key
def Entry.eqKey (eqK : K → K → Bool) (a : Entry K V) (k : K) : Bool := eqK a.key k
/-- arc_btree.rs:105-109 -/
def Entry.cmp (cmpK : K → K → Ordering) (a b : Entry K V) : Ordering := cmpK a.key b.key
/-- arc_btree.rs:89-93, 99-103 -/
def Entry.pcmp (cmpK : K → K → Ordering) (a b : Entry K V) : Option Ordering := some (a.cmp cmpK b)
def Entry.pcmpKey (cmpK : K → K → Ordering) (a : Entry K V) (k : K) : Option Ordering := some (cmpK a.key k)

/-! ### Reports -/

/-- The derived `Hash` of `TyTy` (report.rs:82-90), which is `repr(u8)`. -/
def tytyHash : TyTy → List Call
  | .struct => [.u8 0]
  | .enum s => .u8 1 :: sliceHash hashBytes s
  | .union => [.u8 2]

mutual
/-- `<TypeReport as Hash>::hash` (report.rs:53-63). -/
def reportHash : Report → List Call
  | .mk n m f t v => sliceHash hashBytes n ++ sliceHash hashBytes m ++ fieldsHash f ++ [.u32 v] ++ tytyHash t
/-- The loop over the fields (report.rs:57-59) with `<FieldReport as Hash>::hash` (report.rs:103-108). -/
def fieldsHash : Fields → List Call
  | .none => []
  | .some n ty next => sliceHash hashBytes n ++ reportHash ty ++ fieldsHash next
end

end Verif.Compare
