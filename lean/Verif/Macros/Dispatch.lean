import Verif.Macros.Options
/-! Model of how attributes find the generator for what they are on, with their arguments (stabby-macros/src/lib.rs:71-104, 463-466;
functions.rs:135-153, 350-379; traits.rs:1406-1422).

Which of the kinds an item is, is decided by syn, which tries them in the order of `stabby`; no item is of two kinds. -/
namespace Verif.Macros.Dispatch
open Verif.Macros.Options

/-- The types (lib.rs:83-93). -/
inductive Kind where
  | struct
  | enum
  | union
deriving DecidableEq, Repr

/-- What an attribute can be on: a type, a function with a body, a trait, an `async` block, or something else. -/
inductive Item where
  | type (k : Kind)
  | fn (isAsync : Bool)
  | trait
  | asyncBlock
  | other
deriving DecidableEq, Repr

/-- What is generated: an implementation for the type; the function, which returns a trait object for a future with these markers and this lifetime if it
is `async` (functions.rs:135-153); the vtable, checked or not; the block, boxed (lib.rs:99). -/
inductive Gen where
  | type (k : Kind) (a : Args)
  | fn
  | future (send sync : Bool) (lt : Text)
  | trait (checked : Bool)
  | block
deriving DecidableEq, Repr

def static_ : Text := ['s', 't', 'a', 't', 'i', 'c']
def checked : Text := ['c', 'h', 'e', 'c', 'k', 'e', 'd']
def canaries : Text := ['c', 'a', 'n', 'a', 'r', 'i', 'e', 's']

/-- functions.rs:135-153, for the markers and the lifetime: `Send` and `Sync` are added unless told otherwise; the arguments are not used if the function
is not `async`. -/
def function (isAsync : Bool) (a : Attrs) : Gen :=
  if isAsync then .future (!a.unsend) (!a.unsync) (a.lt.getD static_) else .fn

/-- traits.rs:1410-1414: the tokens as a text are compared with `checked` and nothing. -/
def traitArgs (args : List Tok) : Option Bool :=
  if args = [.id checked] then some true
  else if args = [] then some false
  else none

/-- `#[stabby::stabby(args)]` (lib.rs:73-104).  Errors and panics are `none`. -/
def stabby (args : List Tok) : Item → Option Gen
  | .type .struct => (parse true args).map (.type .struct)
  | .type .enum => (parse false args).map (.type .enum)
  | .type .union => (parse false args).map (.type .union)
  | .fn isAsync => (attrs args ⟨false, false, none⟩).map (function isAsync)
  | .trait => (traitArgs args).map .trait
  | .asyncBlock => some .block
  | .other => none

/-- `ExportArgs::parse` (functions.rs:353-367), with the end of the arguments that `syn::parse` demands: whether there are canaries. -/
def exportArgs : List Tok → Option Bool
  | [] => some false
  | [.id s] => if s = canaries then some true else none
  | _ => none

/-- `#[stabby::export(args)]` (lib.rs:463-466, functions.rs:369-379): `some true` for `export_canaried`, `some false` for `export_with_report`. -/
def export_ (args : List Tok) : Item → Option Bool
  | .fn _ => exportArgs args
  | _ => none

/-- The argument that the message of `ExportArgs::parse` says is supported (functions.rs:363). -/
def advised : Text := ['c', 'a', 'n', 'a', 'r', 'i', 'e', 'd']

end Verif.Macros.Dispatch
