/-! Model of stabby-abi/src/report.rs.  A string is its list of bytes. -/
namespace Verif.Report

/-- `Str<'static>`: the bytes of the string. -/
abbrev Str := List Nat

/-- `TyTy` (report.rs:83-90). -/
inductive TyTy where
  | struct
  | enum (repr : Str)
  | union
deriving DecidableEq

mutual
/-- `TypeReport` (report.rs:24-35). -/
inductive Report where
  | mk (name module : Str) (fields : Fields) (tyty : TyTy) (version : Nat)
/-- `NextField` (report.rs:19) and `FieldReport` (report.rs:95-102): the linked list of fields. -/
inductive Fields where
  | none
  | some (name : Str) (ty : Report) (next : Fields)
end

namespace Report
def name : Report → Str | mk n _ _ _ _ => n
def module : Report → Str | mk _ m _ _ _ => m
def fields : Report → Fields | mk _ _ f _ _ => f
def tyty : Report → TyTy | mk _ _ _ t _ => t
def version : Report → Nat | mk _ _ _ _ v => v
end Report

mutual
/-- `TypeReport::is_compatible` (report.rs:67-76). -/
def isCompatible : Report → Report → Bool
  | .mk n m f t v, .mk n' m' f' t' v' =>
    n == n' && m == m' && v == v' && t == t' && zipAll f f'
/-- `self.fields().zip(other.fields()).all(..)` (report.rs:72-75): `zip` stops with the shorter list. -/
def zipAll : Fields → Fields → Bool
  | .none, _ => true
  | .some _ _ _, .none => true
  | .some n ty next, .some n' ty' next' => n == n' && isCompatible ty ty' && zipAll next next'
end

mutual
/-- The derived `PartialEq` of `TypeReport` (report.rs:23). -/
def reportEq : Report → Report → Bool
  | .mk n m f t v, .mk n' m' f' t' v' => n == n' && m == m' && fieldsEq f f' && t == t' && v == v'
/-- The derived `PartialEq` of `Option<&FieldReport>` and `FieldReport` (report.rs:94). -/
def fieldsEq : Fields → Fields → Bool
  | .none, .none => true
  | .some n ty next, .some n' ty' next' => n == n' && reportEq ty ty' && fieldsEq next next'
  | _, _ => false
end

/-- The bytes of the kind (report.rs:141-145). -/
def tytyBytes : TyTy → List Nat
  | .struct => [0]
  | .union => [1]
  | .enum s => s

mutual
/-- The bytes fed to the hash by `hash_report` (report.rs:137-152). -/
def stream : Report → List Nat
  | .mk n m f t _ => m ++ n ++ tytyBytes t ++ fieldStream f
/-- The loop over the fields (report.rs:146-150). -/
def fieldStream : Fields → List Nat
  | .none => []
  | .some n ty next => n ++ stream ty ++ fieldStream next
end

/-- `gen_id` (report.rs:169-173) for an abstract `Sha256` reduced to its first 8 bytes and an abstract `ARCH_INFO`. -/
def genId (sha : List Nat → BitVec 64) (arch : BitVec 64) (r : Report) : BitVec 64 := sha (stream r) ^^^ arch

/-! ### Reports of types -/

/-- Types, as far as their reports go.  `prim` is any of the types of stable_impls/mod.rs with a report without fields
(`u8`, `bool`, `AtomicU8`, ...); `wrap` is any with one field named `inner` (`&T`, `&mut T`, `*const T`, `NonNull<T>`, `[T; N]`,
`Pin<T>`, ... with the name as written there); `sig` is the private aggregate of function signatures;
`item` is a struct, union or enum defined with `#[stabby]`, with its own module, name, kind, version, and
fields or variants. -/
inductive Ty where
  | prim (name : Str)
  | wrap (name : Str) (inner : Ty)
  | sig (l r : Ty)
  | option (t : Ty)
  | resultOk (ok err : Ty)
  | resultErr (ok err : Ty)
  | resultInfallible (t : Ty)
  | maybeUninit (t : Ty)
  | manuallyDrop (t : Ty)
  | unsafeCell (t : Ty)
  | nonX (name : Str) (forbidden : Int)
  | item (module name : Str) (kind : TyTy) (version : Nat) (fields : List (Str × Ty))

/-- Bytes of some literals of the code. -/
def implsModule : Str := [115, 116, 97, 98, 98, 121, 95, 97, 98, 105, 58, 58, 115, 116, 97, 98, 108, 101, 95, 105, 109, 112, 108, 115] -- "stabby_abi::stable_impls"
def numModule : Str := [115, 116, 97, 98, 98, 121, 95, 97, 98, 105, 58, 58, 110, 117, 109] -- "stabby_abi::num"
def stabbyModule : Str := [115, 116, 97, 98, 98, 121] -- "stabby"
def optionModule : Str := [99, 111, 114, 101, 58, 58, 111, 112, 116, 105, 111, 110] -- "core::option"
def resultModule : Str := [99, 111, 114, 101, 58, 58, 114, 101, 115, 117, 108, 116] -- "core::result"
def inner : Str := [105, 110, 110, 101, 114] -- "inner"
def signature : Str := [115, 105, 103, 110, 97, 116, 117, 114, 101] -- "signature"
def underscore : Str := [95] -- "_"
def optionName : Str := [79, 112, 116, 105, 111, 110] -- "Option"
def resultName : Str := [82, 101, 115, 117, 108, 116] -- "Result"
def someName : Str := [83, 111, 109, 101] -- "Some"
def okName : Str := [79, 107] -- "Ok"
def errName : Str := [69, 114, 114] -- "Err"
def rust : Str := [114, 117, 115, 116] -- "rust"

mutual
/-- `IStable::REPORT`: `primitive_report!` (lib.rs:51-76), `same_as!` (stable_impls/mod.rs:19-37) and the impls of
stable_impls/mod.rs: `ManuallyDrop`, `MaybeUninit`, `UnsafeCell` (534-551), `Option` (716-727), `Result` (734, 761-771,
798-808), `NameAggregator` (823-837); num.rs:165-171 for `NonX*`; `Report` of stabby-macros/src/lib.rs for items. -/
def reportOf : Ty → Report
  | .prim n => .mk n implsModule .none .struct 0
  | .wrap n t => .mk n implsModule (.some inner (reportOf t) .none) .struct 0
  | .sig l r => .mk signature stabbyModule (.some underscore (reportOf l) (.some underscore (reportOf r) .none)) .struct 0
  | .option t => .mk optionName optionModule (.some someName (reportOf t) .none) (.enum rust) 0
  | .resultOk ok _ => .mk resultName resultModule (.some okName (reportOf ok) .none) (.enum rust) 0
  | .resultErr _ err => .mk resultName resultModule (.some errName (reportOf err) .none) (.enum rust) 0
  | .resultInfallible t => reportOf t
  | .maybeUninit t => .mk (reportOf t).name implsModule .none .struct 0
  | .manuallyDrop t => .mk (reportOf t).name implsModule .none .struct 0
  | .unsafeCell t => .mk (reportOf t).name implsModule .none .struct 0
  | .nonX n _ => .mk n numModule .none .struct 0
  | .item m n k v fs => .mk n m (fieldsOf .none fs) k v
/-- The loop that builds the list of fields of an item (stabby-macros/src/lib.rs:426-445): the last field comes first. -/
def fieldsOf (acc : Fields) : List (Str × Ty) → Fields
  | [] => acc
  | (n, t) :: fs => fieldsOf (.some n (reportOf t) acc) fs
end

/-- `Dyn::stable_downcast_ref` and `stable_downcast_mut` (fatptr.rs:294-299, 328-334): the object was built from `built`,
the caller asks for `asked`; the result says whether a reference is returned. -/
def stableDowncast (sha : List Nat → BitVec 64) (arch : BitVec 64) (built asked : Ty) : Bool :=
  genId sha arch (reportOf built) == genId sha arch (reportOf asked) && reportEq (reportOf built) (reportOf asked)

/-- `DynRef::stable_downcast` (fatptr.rs:146-151) compares the reports only. -/
def stableDowncastRef (built asked : Ty) : Bool := reportEq (reportOf built) (reportOf asked)

end Verif.Report
