import Verif.Report.Model
import Mathlib.Data.Nat.Digits.Defs
/-! Model of the text of reports (stabby-abi/src/report.rs:37-52) and of the iterators over fields (report.rs:110-133),
with the message made of it when a symbol is loaded (stabby/src/libloading.rs:86-98).  A text is its list of bytes.
The writer does not fail. -/
namespace Verif.Report

/-! ### Iterators over fields -/

/-- `Fields::next` (report.rs:126-133): what is left in the iterator, and the field returned. -/
def nextField : Fields → Fields × Option (Str × Report)
  | .none => (.none, none)
  | .some n ty next => (next, some (n, ty))

/-- `Fields::next_const` (report.rs:118-123). -/
def nextConst : Fields → Fields × Option (Str × Report)
  | .some n ty next => (next, some (n, ty))
  | .none => (.none, none)

/-- `k` calls of `next`, with what they returned. -/
def takeFields (next : Fields → Fields × Option (Str × Report)) : Nat → Fields → List (Option (Str × Report))
  | 0, _ => []
  | k + 1, f => (next f).2 :: takeFields next k (next f).1

/-! ### Text -/

/-- Bytes of the literals of the format strings. -/
def tStruct : Str := [83, 116, 114, 117, 99, 116] -- "Struct"
def tUnion : Str := [85, 110, 105, 111, 110] -- "Union"
def tEnum : Str := [69, 110, 117, 109, 40, 34] -- "Enum(" and the quotation mark
def tEnumEnd : Str := [34, 41] -- the quotation mark and ")"
def tColons : Str := [32, 58, 58, 32] -- " :: "
def tVersion : Str := [32, 40, 118, 101, 114, 115, 105, 111, 110] -- " (version"
def tOpen : Str := [41, 32, 123] -- ") {"
def tClose : Str := [125] -- "}"
def tField : Str := [58, 32] -- ": "
def tComma : Str := [44, 32] -- ", "
def tLoader : Str := [82, 101, 112, 111, 114, 116, 32, 109, 105, 115, 109, 97, 116, 99, 104, 58, 32, 108, 111, 97, 100, 101, 114, 40] -- "Report mismatch: loader("
def tLib : Str := [41, 44, 32, 32, 108, 105, 98, 40] -- "),  lib("

/-- `Debug` of a byte of a string, as far as it is ASCII and printable or one of the escapes with a letter (the other control
characters, which have a longer escape, are left as they are here). -/
def escape (b : Nat) : Str :=
  if b = 34 then [92, 34]
  else if b = 92 then [92, 92]
  else if b = 0 then [92, 48]
  else if b = 9 then [92, 116]
  else if b = 10 then [92, 110]
  else if b = 13 then [92, 114]
  else [b]

/-- The derived `Debug` of `TyTy` (report.rs:80-90), `{tyty:?}`; `Debug` of `Str` is that of `str` (str.rs:66-70). -/
def tytyText : TyTy → Str
  | .struct => tStruct
  | .enum s => tEnum ++ s.flatMap escape ++ tEnumEnd
  | .union => tUnion

/-- `{version}`: the decimal digits. -/
def versionText (v : Nat) : Str := if v = 0 then [48] else ((Nat.digits 10 v).map (· + 48)).reverse

mutual
/-- `Display` of `TypeReport` (report.rs:37-52). -/
def text : Report → Str
  | .mk n m f t v =>
    tytyText t ++ [32] ++ m ++ tColons ++ n ++ tVersion ++ versionText v ++ tOpen ++ fieldsText f ++ tClose
/-- The loop over the fields (report.rs:47-49). -/
def fieldsText : Fields → Str
  | .none => []
  | .some n ty next => n ++ tField ++ text ty ++ tComma ++ fieldsText next
end

/-- The message of `get_stabbied` (libloading.rs:92-96) for the report of the loader and that of the library.
The format string has no closing parenthesis. -/
def mismatch (loader lib : Report) : Str := tLoader ++ text loader ++ tLib ++ text lib

/-- `get_stabbied` (libloading.rs:74-100) for a symbol that the library has: the library compares its own report with the one it
is given (stabby-macros/src/functions.rs:325-327); `none` is the function handed out. -/
def getStabbied (loader lib : Report) : Option Str := if isCompatible lib loader then none else some (mismatch loader lib)

end Verif.Report
