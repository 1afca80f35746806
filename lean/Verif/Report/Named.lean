import Verif.Report.Text
import Verif.Layout.CType
import Verif.Layout.Attr
import Verif.Layout.Macro
import Verif.Sum.Model
/-! Types with both their reports and their layouts. -/
namespace Verif.Report.Named
open Verif.Report Verif.Layout Verif.Layout.Platform

/-- Where an item is defined, and its version. -/
structure Head where
  module : Str
  name : Str
  version : Nat
deriving DecidableEq

/-- The three wrappers whose reports have no fields (stable_impls/mod.rs:535-551). -/
inductive Cell where
  | manuallyDrop | maybeUninit | unsafeCell
deriving DecidableEq

mutual
/-- Types.  Left out: closed structures of the library that are made by the same macros, core's `Result`, `NonX*` (C45), vtables. -/
inductive Ty where
  /-- the primitive types that are not generic (`pointer` is for the others) -/
  | prim (p : Prim)
  /-- `*const T`, `*mut T`, `NonNull<T>`, `AtomicPtr<T>`, `&T`, `&mut T`, `extern "C" fn() -> T` -/
  | pointer (p : Prim) (t : Ty)
  | pin (t : Ty)
  | array (n : Nat) (t : Ty)
  | cell (c : Cell) (t : Ty)
  /-- core's `Option` of a type with exactly one niche -/
  | option (t : Ty)
  /-- stabby's `Result` -/
  | result (ok err : Ty)
  /-- a `#[stabby]` struct, with its `repr(align(n))` -/
  | struct (h : Head) (align : Option Nat) (fs : Members)
  | union (h : Head) (fs : Members)
  /-- a `#[stabby]` enum with a tag; `isC`: `repr(C, tag)` rather than `repr(tag)` -/
  | tagged (h : Head) (isC : Bool) (tag : Attr.Tag) (vs : Members)
  /-- a `#[repr(stabby)]` enum -/
  | sum (h : Head) (vs : Members)
/-- Fields or variants.  Variants with several fields are a variant with a struct of the module and the version of the enum, named as the variant:
such is their report (enums.rs:177-191, 193-208), and a struct of the same fields has their layout.  `bare`: a variant without fields. -/
inductive Members where
  | nil
  | field (name : Str) (t : Ty) (rest : Members)
  | bare (name : Str) (rest : Members)
end

/-! ### Reports -/

/-- The names given to `primitive_report!` and `same_as!` (stable_impls/mod.rs:244-692, 846-928, 985-995); there are no 128 bit atomics, whose names are made up. -/
def primName (t : Target) : Prim → Str
  | .unit => [40, 41] -- ()
  | .phantomData => [99, 111, 114, 101, 58, 58, 109, 97, 114, 107, 101, 114, 58, 58, 80, 104, 97, 110, 116, 111, 109, 68, 97, 116, 97] -- core::marker::PhantomData
  | .phantomPinned => [99, 111, 114, 101, 58, 58, 109, 97, 114, 107, 101, 114, 58, 58, 80, 104, 97, 110, 116, 111, 109, 80, 105, 110, 110, 101, 100] -- core::marker::PhantomPinned
  | .cVoid => [99, 111, 114, 101, 58, 58, 102, 102, 105, 58, 58, 99, 95, 118, 111, 105, 100] -- core::ffi::c_void
  | .bool => [98, 111, 111, 108] -- bool
  | .ordering => [99, 111, 114, 101, 58, 58, 99, 109, 112, 58, 58, 79, 114, 100, 101, 114, 105, 110, 103] -- core::cmp::Ordering
  | .uint .w8 => [117, 56] -- u8
  | .uint .w16 => [117, 49, 54] -- u16
  | .uint .w32 => [117, 51, 50] -- u32
  | .uint .w64 => [117, 54, 52] -- u64
  | .uint .w128 => if t.a128 = 8 then [117, 49, 50, 56, 40, 56, 41] else [117, 49, 50, 56, 40, 49, 54, 41] -- u128(8), u128(16)
  | .nonZeroU .w8 => [99, 111, 114, 101, 58, 58, 110, 117, 109, 58, 58, 78, 111, 110, 90, 101, 114, 111, 85, 56] -- core::num::NonZeroU8
  | .nonZeroU .w16 => [99, 111, 114, 101, 58, 58, 110, 117, 109, 58, 58, 78, 111, 110, 90, 101, 114, 111, 85, 49, 54] -- core::num::NonZeroU16
  | .nonZeroU .w32 => [99, 111, 114, 101, 58, 58, 110, 117, 109, 58, 58, 78, 111, 110, 90, 101, 114, 111, 85, 51, 50] -- core::num::NonZeroU32
  | .nonZeroU .w64 => [99, 111, 114, 101, 58, 58, 110, 117, 109, 58, 58, 78, 111, 110, 90, 101, 114, 111, 85, 54, 52] -- core::num::NonZeroU64
  | .nonZeroU .w128 => [99, 111, 114, 101, 58, 58, 110, 117, 109, 58, 58, 78, 111, 110, 90, 101, 114, 111, 85, 49, 50, 56] -- core::num::NonZeroU128
  | .int .w8 => [105, 56] -- i8
  | .int .w16 => [105, 49, 54] -- i16
  | .int .w32 => [105, 51, 50] -- i32
  | .int .w64 => [105, 54, 52] -- i64
  | .int .w128 => [105, 49, 50, 56] -- i128
  | .nonZeroI .w8 => [99, 111, 114, 101, 58, 58, 110, 117, 109, 58, 58, 78, 111, 110, 90, 101, 114, 111, 73, 56] -- core::num::NonZeroI8
  | .nonZeroI .w16 => [99, 111, 114, 101, 58, 58, 110, 117, 109, 58, 58, 78, 111, 110, 90, 101, 114, 111, 73, 49, 54] -- core::num::NonZeroI16
  | .nonZeroI .w32 => [99, 111, 114, 101, 58, 58, 110, 117, 109, 58, 58, 78, 111, 110, 90, 101, 114, 111, 73, 51, 50] -- core::num::NonZeroI32
  | .nonZeroI .w64 => [99, 111, 114, 101, 58, 58, 110, 117, 109, 58, 58, 78, 111, 110, 90, 101, 114, 111, 73, 54, 52] -- core::num::NonZeroI64
  | .nonZeroI .w128 => [99, 111, 114, 101, 58, 58, 110, 117, 109, 58, 58, 78, 111, 110, 90, 101, 114, 111, 73, 49, 50, 56] -- core::num::NonZeroI128
  | .usize => [117, 115, 105, 122, 101] -- usize
  | .nonZeroUsize => [99, 111, 114, 101, 58, 58, 110, 117, 109, 58, 58, 78, 111, 110, 90, 101, 114, 111, 85, 115, 105, 122, 101] -- core::num::NonZeroUsize
  | .isize => [105, 115, 105, 122, 101] -- isize
  | .nonZeroIsize => [99, 111, 114, 101, 58, 58, 110, 117, 109, 58, 58, 78, 111, 110, 90, 101, 114, 111, 73, 115, 105, 122, 101] -- core::num::NonZeroIsize
  | .f32 => [102, 51, 50] -- f32
  | .f64 => [102, 54, 52] -- f64
  | .atomicBool => [99, 111, 114, 101, 58, 58, 115, 121, 110, 99, 58, 58, 97, 116, 111, 109, 105, 99, 58, 58, 65, 116, 111, 109, 105, 99, 66, 111, 111, 108] -- core::sync::atomic::AtomicBool
  | .atomicI .w8 => [99, 111, 114, 101, 58, 58, 115, 121, 110, 99, 58, 58, 97, 116, 111, 109, 105, 99, 58, 58, 65, 116, 111, 109, 105, 99, 73, 56] -- core::sync::atomic::AtomicI8
  | .atomicI .w16 => [99, 111, 114, 101, 58, 58, 115, 121, 110, 99, 58, 58, 97, 116, 111, 109, 105, 99, 58, 58, 65, 116, 111, 109, 105, 99, 73, 49, 54] -- core::sync::atomic::AtomicI16
  | .atomicI .w32 => [99, 111, 114, 101, 58, 58, 115, 121, 110, 99, 58, 58, 97, 116, 111, 109, 105, 99, 58, 58, 65, 116, 111, 109, 105, 99, 73, 51, 50] -- core::sync::atomic::AtomicI32
  | .atomicI .w64 => [99, 111, 114, 101, 58, 58, 115, 121, 110, 99, 58, 58, 97, 116, 111, 109, 105, 99, 58, 58, 65, 116, 111, 109, 105, 99, 73, 54, 52] -- core::sync::atomic::AtomicI64
  | .atomicI .w128 => [99, 111, 114, 101, 58, 58, 115, 121, 110, 99, 58, 58, 97, 116, 111, 109, 105, 99, 58, 58, 65, 116, 111, 109, 105, 99, 73, 49, 50, 56] -- core::sync::atomic::AtomicI128
  | .atomicU .w8 => [99, 111, 114, 101, 58, 58, 115, 121, 110, 99, 58, 58, 97, 116, 111, 109, 105, 99, 58, 58, 65, 116, 111, 109, 105, 99, 85, 56] -- core::sync::atomic::AtomicU8
  | .atomicU .w16 => [99, 111, 114, 101, 58, 58, 115, 121, 110, 99, 58, 58, 97, 116, 111, 109, 105, 99, 58, 58, 65, 116, 111, 109, 105, 99, 85, 49, 54] -- core::sync::atomic::AtomicU16
  | .atomicU .w32 => [99, 111, 114, 101, 58, 58, 115, 121, 110, 99, 58, 58, 97, 116, 111, 109, 105, 99, 58, 58, 65, 116, 111, 109, 105, 99, 85, 51, 50] -- core::sync::atomic::AtomicU32
  | .atomicU .w64 => [99, 111, 114, 101, 58, 58, 115, 121, 110, 99, 58, 58, 97, 116, 111, 109, 105, 99, 58, 58, 65, 116, 111, 109, 105, 99, 85, 54, 52] -- core::sync::atomic::AtomicU64
  | .atomicU .w128 => [99, 111, 114, 101, 58, 58, 115, 121, 110, 99, 58, 58, 97, 116, 111, 109, 105, 99, 58, 58, 65, 116, 111, 109, 105, 99, 85, 49, 50, 56] -- core::sync::atomic::AtomicU128
  | .atomicIsize => [99, 111, 114, 101, 58, 58, 115, 121, 110, 99, 58, 58, 97, 116, 111, 109, 105, 99, 58, 58, 65, 116, 111, 109, 105, 99, 73, 115, 105, 122, 101] -- core::sync::atomic::AtomicIsize
  | .atomicUsize => [99, 111, 114, 101, 58, 58, 115, 121, 110, 99, 58, 58, 97, 116, 111, 109, 105, 99, 58, 58, 65, 116, 111, 109, 105, 99, 85, 115, 105, 122, 101] -- core::sync::atomic::AtomicUsize
  | .ownedFd => [115, 116, 100, 58, 58, 111, 115, 58, 58, 102, 100, 58, 58, 79, 119, 110, 101, 100, 70, 100] -- std::os::fd::OwnedFd
  | .borrowedFd => [115, 116, 100, 58, 58, 111, 115, 58, 58, 102, 100, 58, 58, 66, 111, 114, 114, 111, 119, 101, 100, 70, 100] -- std::os::fd::BorrowedFd
  | .constPtr => [42, 99, 111, 110, 115, 116] -- *const
  | .mutPtr => [42, 109, 117, 116] -- *mut
  | .nonNull => [99, 111, 114, 101, 58, 58, 112, 116, 114, 58, 58, 78, 111, 110, 78, 117, 108, 108] -- core::ptr::NonNull
  | .ref => [38] -- &
  | .refMut => [38, 109, 117, 116] -- &mut
  | .atomicPtr => [99, 111, 114, 101, 58, 58, 115, 121, 110, 99, 58, 58, 97, 116, 111, 109, 105, 99, 58, 58, 65, 116, 111, 109, 105, 99, 80, 116, 114] -- core::sync::atomic::AtomicPtr
  | .fnPtr => [101, 120, 116, 101, 114, 110, 32, 34, 67, 34, 32, 102, 110] -- extern "C" fn

/-- `{r:?}` of the tag (enums.rs:58-75, stabby-macros/src/lib.rs:280-291). -/
def tagName : Attr.Tag → Str
  | .u8 => [117, 56] -- u8
  | .u16 => [117, 49, 54] -- u16
  | .u32 => [117, 51, 50] -- u32
  | .u64 => [117, 54, 52] -- u64
  | .usize => [117, 115, 105, 122, 101] -- usize
  | .i8 => [105, 56] -- i8
  | .i16 => [105, 49, 54] -- i16
  | .i32 => [105, 51, 50] -- i32
  | .i64 => [105, 54, 52] -- i64
  | .isize => [105, 115, 105, 122, 101] -- isize

def pinName : Str := [99, 111, 114, 101, 58, 58, 112, 105, 110, 58, 58, 80, 105, 110] -- core::pin::Pin
def stabbyRepr : Str := [115, 116, 97, 98, 98, 121] -- stabby
def stabbyResult : Str := [115, 116, 97, 98, 98, 121, 95, 97, 98, 105, 58, 58, 114, 101, 115, 117, 108, 116] -- stabby_abi::result
/-- `ARRAY_NAME` (stable_impls/mod.rs:930-946). -/
def arrayName (n : Nat) : Str := [91, 84, 59] ++ versionText n ++ [93] -- [T;n]

mutual
/-- `IStable::REPORT` (lib.rs:51-76; stable_impls/mod.rs:535-551, 555-577, 664-680, 716-727, 853, 962; result.rs:66-80; stabby-macros/src/lib.rs:426-465).
The attributes of an item, but for the tag of an enum, have no part in it (structs.rs:124-190, unions.rs:60-75, enums.rs:180-274). -/
def report (t : Target) : Ty → Report
  | .prim p => .mk (primName t p) implsModule .none .struct 0
  | .pointer p x => .mk (primName t p) implsModule (.some inner (report t x) .none) .struct 0
  | .pin x => .mk pinName implsModule (.some inner (report t x) .none) .struct 0
  | .array n x => .mk (arrayName n) implsModule (.some inner (report t x) .none) .struct 0
  | .cell _ x => .mk (report t x).name implsModule .none .struct 0
  | .option x => .mk optionName optionModule (.some someName (report t x) .none) (.enum rust) 0
  | .result a b => .mk resultName stabbyResult (.some okName (report t a) (.some errName (report t b) .none)) (.enum stabbyRepr) 1
  | .struct h _ fs => .mk h.name h.module (fields t .none fs) .struct h.version
  | .union h fs => .mk h.name h.module (fields t .none fs) .union h.version
  | .tagged h _ tag vs => .mk h.name h.module (fields t .none vs) (.enum (tagName tag)) h.version
  | .sum h vs => .mk h.name h.module (fields t .none vs) (.enum stabbyRepr) h.version
/-- The last member comes first (stabby-macros/src/lib.rs:426-445); a variant without fields has the type `()` (enums.rs:227-229). -/
def fields (t : Target) (acc : Fields) : Members → Fields
  | .nil => acc
  | .field n x rest => fields t (.some n (report t x) acc) rest
  | .bare n rest => fields t (.some n (.mk (primName t .unit) implsModule .none .struct 0) acc) rest
end

/-! ### Layouts -/

/-- The type of the tag. -/
def tagPrim : Attr.Tag → Prim
  | .u8 => .uint .w8
  | .u16 => .uint .w16
  | .u32 => .uint .w32
  | .u64 => .uint .w64
  | .usize => .usize
  | .i8 => .int .w8
  | .i16 => .int .w16
  | .i32 => .int .w32
  | .i64 => .int .w64
  | .isize => .isize

/-- `Variants::recursion` (enums.rs:382-395) and the `Result` made of it (enums.rs:459-470), as layouts. -/
def sumLay (vs : List Lay) : Lay :=
  if h : 1 < vs.length then Sum.resultLay (sumLay (vs.take (vs.length / 2))) (sumLay (vs.drop (vs.length / 2))) else vs.headD Lay.unit
termination_by vs.length
decreasing_by
  · rw [List.length_take]; omega
  · rw [List.length_drop]; omega

/-- Option of a type with exactly one niche (stable_impls/mod.rs:707-715). -/
def optionLay (l : Lay) : Lay := { l with fv := .none, ub := [], oneNiche := .b0 }

mutual
/-- The layout declared: `Size`, `Align`, `ForbiddenValues`, `UnusedBits`, `HasExactlyOneNiche`, `ContainsIndirections`. -/
def declared (t : Target) : Ty → Lay
  | .prim p => decl t p
  | .pointer p _ => decl t p
  | .pin x => declared t x
  | .array n x => (declared t x).array n
  | .cell _ x => declared t x
  | .option x => optionLay (declared t x)
  | .result a b => Sum.resultLay (declared t a) (declared t b)
  | .struct _ none fs => structOf (payloads t fs)
  | .struct _ (some n) fs => alignedStructOf n (payloads t fs)
  | .union _ fs => unionOf (payloads t fs)
  | .tagged _ _ tag vs => enumOf (decl t (tagPrim tag)) (payloads t vs)
  | .sum _ vs => sumLay (leaves t vs)
/-- What fields and variants with fields hold: variants without are not part of the union (enums.rs:227-229). -/
def payloads (t : Target) : Members → List Lay
  | .nil => []
  | .field _ x rest => declared t x :: payloads t rest
  | .bare _ rest => payloads t rest
/-- The variants of a `#[repr(stabby)]` enum, `()` for those without fields (enums.rs:459-463). -/
def leaves (t : Target) : Members → List Lay
  | .nil => []
  | .field _ x rest => declared t x :: leaves t rest
  | .bare _ rest => Lay.unit :: leaves t rest
end

mutual
/-- What rustc is given to lay out.  `Pin`, the three wrappers and core's `Option` of a type with one niche have the layout of what is in them. -/
def erase (t : Target) : Ty → CType.Ty
  | .prim p => .prim p
  | .pointer p _ => .prim p
  | .pin x => erase t x
  | .array n x => .array n (erase t x)
  | .cell _ x => erase t x
  | .option x => erase t x
  | .result a b => .storage (Sum.resultLay (declared t a) (declared t b)).size (Sum.resultLay (declared t a) (declared t b)).align
  | .struct _ none fs => .struct (erases t fs)
  | .struct _ (some n) fs => .aligned n (erases t fs)
  | .union _ fs => .union (erases t fs)
  | .tagged _ isC tag vs => .enum isC (tagPrim tag) (erases t vs)
  | .sum _ vs => .storage (sumLay (leaves t vs)).size (sumLay (leaves t vs)).align
def erases (t : Target) : Members → List CType.Ty
  | .nil => []
  | .field _ x rest => erase t x :: erases t rest
  | .bare _ rest => .prim .unit :: erases t rest
end

end Verif.Report.Named
