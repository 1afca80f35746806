import Verif.Report.Model

/-! Loading of functions with reports: `#[stabby::export]` (stabby-macros/src/functions.rs:307-349), the imports of `#[stabby::import]`
(functions.rs:463-483) and `get_stabbied` (stabby/src/libloading.rs:72-99).  Symbol names are lists of bytes, functions are numbers. -/
namespace Verif.Load
open Verif.Report

/-- A function pointer type that is `IStable` (stable_impls/mod.rs:849-911). -/
structure Sig where
  unsafety : Bool
  unwind : Bool
  output : Ty
  args : List Ty

/-- `union!` (stable_impls/mod.rs:840-847). -/
def aggregate (head : Ty) : List Ty → Ty
  | [] => head
  | t :: ts => .sig head (aggregate t ts)

/-- The names of the reports (stable_impls/mod.rs:853, 859, 866, 873). -/
def fnName (unsafety unwind : Bool) : Str :=
  (if unsafety then [117, 110, 115, 97, 102, 101, 32] else []) ++ -- "unsafe "
  [101, 120, 116, 101, 114, 110, 32, 34, 67] ++ -- "extern "C"
  (if unwind then [45, 117, 110, 119, 105, 110, 100] else []) ++ -- "-unwind"
  [34, 32, 102, 110] -- "" fn"

/-- The type of the pointer, as far as its report goes (stable_impls/mod.rs:853, 882). -/
def Sig.ty (s : Sig) : Ty := .wrap (fnName s.unsafety s.unwind) (aggregate s.output s.args)

/-- What a symbol of a library is: the function itself, the function that checks reports (functions.rs:324-331) or the one that
returns the report (functions.rs:332-340). -/
inductive Symbol where
  | code (f : Nat)
  | stabbied (sig : Sig) (f : Nat)
  | report (sig : Sig)

/-- `"_stabbied_v3"` (functions.rs:317, libloading.rs:65). -/
def suffix : Str := [95, 115, 116, 97, 98, 98, 105, 101, 100, 95, 118, 51]
/-- `"_report"` (functions.rs:318); with the suffix before it libloading.rs:66. -/
def reportSuffix : Str := [95, 114, 101, 112, 111, 114, 116]

/-- The symbols of a library. -/
abbrev Lib := List (Str × Symbol)

/-- The symbols of `#[stabby::export] fn ident` (functions.rs:341-348). -/
def exportFn (ident : Str) (sig : Sig) (f : Nat) : Lib :=
  [(ident, .code f), (ident ++ suffix, .stabbied sig f), (ident ++ suffix ++ reportSuffix, .report sig)]

/-- The dynamic linker's lookup. -/
def Lib.get (l : Lib) (name : Str) : Option Symbol :=
  match l with
  | [] => none
  | (n, s) :: r => if n = name then some s else Lib.get r name

/-- The body of the checking function (functions.rs:326-328). -/
def check (sig : Sig) (f : Nat) (report : Report) : Option Nat :=
  if isCompatible (reportOf sig.ty) report then some f else none

/-- What `get_stabbied` returns. -/
inductive Got where
  /-- the symbol -/
  | ok (f : Nat)
  /-- a symbol is missing -/
  | missing
  /-- the message with the two reports -/
  | mismatch (loader lib : Report)
  /-- a symbol of another kind was called: undefined behaviour -/
  | undefined

/-- `get_stabbied::<T>` (libloading.rs:72-99). -/
def getStabbied (l : Lib) (symbol : Str) (t : Ty) : Got :=
  match l.get (symbol ++ suffix) with
  | none => .missing
  | some (.stabbied sig f) =>
    match check sig f (reportOf t) with
    | some f => .ok f
    | none =>
      match l.get (symbol ++ (suffix ++ reportSuffix)) with
      | none => .missing
      | some (.report sig') => .mismatch (reportOf t) (reportOf sig'.ty)
      | some _ => .undefined
  | some _ => .undefined

/-- The checker that an import passes to `CheckedImport` (functions.rs:472-482), linked to the export `sig`, `f`, called with the
report of the import (checked_import.rs:113). -/
def importCheck (sig : Sig) (f : Nat) (local_ : Sig) : Option Nat := check sig f (reportOf local_.ty)

end Verif.Load
