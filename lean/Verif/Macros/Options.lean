/-! Model of the options of `#[stabby::stabby(..)]` on types (stabby-macros/src/structs.rs:21-56, enums.rs:105-138, unions.rs:21-54) and functions
(functions.rs:26-78), and of what becomes of them in reports (lib.rs:302-348, 450-458).

Tokens are token trees, as for a macro: what is in brackets is one of them. -/
namespace Verif.Macros.Options

abbrev Text := List Char

/-- A token tree: an identifier, `=`, `,`, an integer as it is written, a lifetime, or anything else. -/
inductive Tok where
  | id (s : Text)
  | eq
  | comma
  | int (s : Text)
  | lt (s : Text)
  | tree (n : Nat)
deriving DecidableEq, Repr

/-- The value of decimal digits, after `acc`. -/
def decimal : Text → Nat → Option Nat
  | [], acc => some acc
  | c :: s, acc => if c.isDigit then decimal s (10 * acc + (c.toNat - 48)) else none

/-- `<u32 as FromStr>::from_str`: digits, with an optional sign, below 2^32. -/
def parseU32 (s : Text) : Option Nat :=
  let digits := match s with
    | '+' :: s => s
    | s => s
  if digits = [] then none
  else match decimal digits 0 with
    | some n => if n < 2 ^ 32 then some n else none
    | none => none

/-- `Args` (structs.rs:21-25; without `optimize`, which is always true, enums.rs:105-108 and unions.rs:21-24). -/
structure Args where
  optimize : Bool
  version : Nat
  module : List Tok
deriving DecidableEq, Repr

/-- The inner loop: the tokens up to the next comma (structs.rs:43-49). -/
def upTo : List Tok → List Tok × List Tok
  | [] => ([], [])
  | .comma :: r => ([], .comma :: r)
  | t :: r => (t :: (upTo r).1, (upTo r).2)

/-- `_ = input.parse::<Token!(,)>()` (structs.rs:53): whether there is one or not. -/
def comma : List Tok → List Tok
  | .comma :: r => r
  | r => r

def noOpt : Text := ['n', 'o', '_', 'o', 'p', 't']
def version : Text := ['v', 'e', 'r', 's', 'i', 'o', 'n']
def module_ : Text := ['m', 'o', 'd', 'u', 'l', 'e']

/-- The loop (structs.rs:33-54, enums.rs:115-135, unions.rs:31-51); `isStruct` says whether there is `no_opt`.  Errors and panics are `none`.  The
first argument bounds the number of options. -/
def loop (isStruct : Bool) : Nat → List Tok → Args → Option Args
  | 0, _, _ => none
  | _ + 1, [], this => some this
  | n + 1, .id s :: r, this =>
    if isStruct ∧ s = noOpt then loop isStruct n (comma r) { this with optimize := false }
    else if s = version then match r with
      | .eq :: .int v :: r => match parseU32 v with
        | some v => loop isStruct n (comma r) { this with version := v }
        | none => none
      | _ => none
    else if s = module_ then match r with
      | .eq :: r => loop isStruct n (comma (upTo r).2) { this with module := this.module ++ (upTo r).1 }
      | _ => none
    else none
  | _ + 1, _ :: _, _ => none

/-- `syn::parse::<Args>(..)` (structs.rs:111-116, enums.rs:148, unions.rs:68). -/
def parse (isStruct : Bool) (toks : List Tok) : Option Args := loop isStruct (toks.length + 1) toks ⟨true, 0, []⟩

/-- The argument of `Str::new(..)` for the module in the report (lib.rs:312-316, 325-329, 342-346, 455): `module_path!()` if none was given. -/
inductive Module where
  | path
  | tokens (l : List Tok)
deriving DecidableEq, Repr

def Args.reported (a : Args) : Module := if a.module.isEmpty then .path else .tokens a.module

/-! ### Functions -/

/-- `Attrs` (functions.rs:26-30); the lifetime is `'static` unless given. -/
structure Attrs where
  unsend : Bool
  unsync : Bool
  lt : Option Text
deriving DecidableEq, Repr

def unsend : Text := ['u', 'n', 's', 'e', 'n', 'd']
def unsync : Text := ['u', 'n', 's', 'y', 'n', 'c']

/-- One attribute (functions.rs:45-59) and what it sets (functions.rs:70-76). -/
def attr (this : Attrs) : Tok → Option Attrs
  | .lt l => some { this with lt := some l }
  | .id s => if s = unsend then some { this with unsend := true } else if s = unsync then some { this with unsync := true } else none
  | _ => none

/-- `Attrs::parse` (functions.rs:60-79): attributes, separated by commas. -/
def attrs : List Tok → Attrs → Option Attrs
  | [], this => some this
  | [t], this => attr this t
  | t :: .comma :: r, this => match attr this t with
    | some this => attrs r this
    | none => none
  | _ :: _ :: _, _ => none

end Verif.Macros.Options
