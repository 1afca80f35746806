import Verif.Layout.Macro

/-! How `#[stabby]` reads `#[repr(..)]` attributes (stabby-macros/src/structs.rs:58-87, 117, 125-192, 202-214, 234-263; unions.rs:56-101;
enums.rs:23-105, 150-172, 232-273). -/
namespace Verif.Layout.Attr

/-- What may be written in `#[repr(..)]` on a struct or union.  `other` stands for what rustc rejects there (`u8`, `simd`, …). -/
inductive Item where
  | c | transparent | packed (n : Nat) | align (n : Nat) | other
deriving DecidableEq

/-- `AllowedRepr` (structs.rs:58-63). -/
inductive Allowed where
  | c | transparent | align (n : Nat)
deriving DecidableEq

/-- `syn::parse2::<AllowedRepr>(tokens).ok()` on one attribute (structs.rs:64-87, 125-131).  The parser reads a single item, and `parse2`
fails if tokens are left, so that an attribute with several items is an error; so are `packed` (structs.rs:74) and unknown words
(structs.rs:81-85).  Errors are turned into `None` by `ok()`. -/
def parseAttr : List Item → Option Allowed
  | [.c] => some .c
  | [.transparent] => some .transparent
  | [.align n] => some (.align n)
  | _ => none

/-- The first attribute that parses (structs.rs:125-131). -/
def pick (attrs : List (List Item)) : Option Allowed := attrs.findSome? parseAttr

/-- All the items that apply to the struct that is emitted: the attributes are kept (structs.rs:146, 164, 171), and `#[repr(C)]` is added
if none parsed (structs.rs:132). -/
def emitted (attrs : List (List Item)) : List Item := attrs.flatten ++ (if (pick attrs).isNone then [.c] else [])

/-- The layout computed for the struct (structs.rs:177-192). -/
def declared (attrs : List (List Item)) (fields : List Lay) : Lay :=
  match pick attrs with
  | some (.align n) => alignedStructOf n fields
  | _ => structOf fields

/-- Whether the check in the constant `ID` lets the struct through (structs.rs:242-251): it compares the compiled size and alignment with the
computed ones.  Constants of generic items and unused constants are not evaluated: nothing else in the expansion evaluates it. -/
def idCheck (attrs : List (List Item)) (fields : List Lay) (size align : Nat) : Bool :=
  decide (size = (declared attrs fields).size) && decide (align = (declared attrs fields).align)

/-- Whether the struct compiles (structs.rs:117, 133, 202-214, 258-260): `size` is its size, `rust` that of the same fields without
attributes. -/
def accepted (noOpt : Bool) (generics : Nat) (attrs : List (List Item)) (size rust : Nat) : Bool :=
  !(!noOpt && generics = 0 && (match pick attrs with | some (.align _) => false | _ => true)) || decide (size ≤ rust)

/-- The items that apply to an emitted union: the attributes are kept and `#[repr(C)]` is added (unions.rs:82-83).  The layout is
`unionOf` whatever they are (unions.rs:70-75), and its `ID` checks nothing (unions.rs:98). -/
def emittedUnion (attrs : List (List Item)) : List Item := attrs.flatten ++ [.c]

/-- The integers that can be named as representation of an enum (enums.rs:23-37). -/
inductive Tag where
  | u8 | u16 | u32 | u64 | usize | i8 | i16 | i32 | i64 | isize
deriving DecidableEq

/-- What may be written in `#[repr(..)]` on an enum; `other` is what `Repr::parse` rejects (enums.rs:38-56). -/
inductive EItem where
  | c | stabby | tag (t : Tag) | other
deriving DecidableEq

/-- `FullRepr` (enums.rs:77-81); `Repr::C` never is in `repr`. -/
structure Full where
  repr : Option EItem
  isC : Bool
deriving DecidableEq

/-- The loop of `FullRepr::parse` (enums.rs:82-105). -/
def parseFull : Full → List EItem → Option Full
  | s, [] => some s
  | _, .other :: _ => none
  | s, .c :: rest => parseFull { s with isC := true } rest
  | s, x :: rest =>
    match s.repr with
    | none => parseFull { s with repr := some x } rest
    | some r => if x = r then parseFull s rest else none

/-- What becomes of the enum: the macro panics, the niche-using representation is used (with or without the optimality check), or an enum
with these `repr` items is emitted, for which the layout `Tuple<tag, Union<..>>` is computed. -/
inductive Expansion where
  | panics
  | stabby (check : Bool)
  | tagged (emitted : List EItem) (tag : Tag)
deriving DecidableEq

/-- The `repr` attributes of an enum (enums.rs:150-172, 233-273).  `fields`: some variant has a field. -/
def expand (fields : Bool) (attrs : List (List EItem)) : Expansion :=
  match attrs with
  | [] => if fields then .stabby true else .panics
  | _ :: _ :: _ => .panics
  | [items] =>
    match parseFull ⟨none, false⟩ items with
    | none => .panics
    | some f =>
      if f.repr = some .stabby ∧ f.isC = true then .panics
      else
        match f.repr with
        | some (.tag t) => .tagged (if f.isC then [.c, .tag t] else [.tag t]) t
        | some .stabby => if fields then .stabby false else .panics
        | _ => if f.isC then .tagged [.c, .tag .u8] .u8 else if fields then .stabby false else .panics

end Verif.Layout.Attr
