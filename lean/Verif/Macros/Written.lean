import Verif.Macros.Traits

/-! Model of how `#[stabby] trait` reads the types in signatures (`From<&Type> for Ty`, stabby-macros/src/traits.rs) and of the tokens it writes
for them (`ToTokens for Ty`). -/
namespace Verif.Macros.Written
open Verif.Macros.Traits (Ident Lt Ty OTy Tys Args Gens)

mutual

/-- `syn::Type`.  The names of the parameters of function pointers are left out.  `other` are the types for which the macro panics by design: slices,
trait objects, `impl`, `_`, macros, variadic functions. -/
inductive Syn where
  | path (q : QSelf) (colon : Bool) (segs : Segs)
  | bareFn (lifetimes : Option Nat) (unsafety : Bool) (abi : Option Nat) (inputs : Syns) (output : OSyn)
  /-- delimiters that can't be seen, from `macro_rules!` -/
  | group (t : Syn)
  | paren (t : Syn)
  | array (t : Syn) (len : Nat)
  | ptr (mutable : Bool) (t : Syn)
  | reference (lifetime : Option Lt) (mutable : Bool) (t : Syn)
  | tuple (ts : Syns)
  | never
  | other (tokens : Nat)

/-- `Option<syn::QSelf>`: `<T as a::Trait>::X` is the path `a::Trait::X` with `T` and position 2.  `pre` is a prefix `<T as Trait>` which the macro
writes. -/
inductive QSelf where
  | none
  | some (t : Syn) (position : Nat)
  | pre (p : Nat)

/-- The segments of a path.  `Self` takes no arguments. -/
inductive Segs where
  | nil
  | self (next : Segs)
  | seg (i : Ident) (args : SArgs) (next : Segs)

/-- `syn::PathArguments`; `paren` is `(A) -> B`, as after `Fn`. -/
inductive SArgs where
  | none
  | angle (gs : SGens)
  | paren (inputs : Syns) (output : OSyn)

/-- The arguments in `<..>`.  Constants, bindings and constraints are tokens. -/
inductive SGens where
  | nil
  | lifetime (l : Lt) (gs : SGens)
  | type (t : Syn) (gs : SGens)
  | other (tokens : Nat) (gs : SGens)

/-- Types separated by commas. -/
inductive Syns where
  | nil
  | cons (t : Syn) (ts : Syns)

/-- `syn::ReturnType`. -/
inductive OSyn where
  | none
  | some (t : Syn)

end

deriving instance DecidableEq for Syn, QSelf, Segs, SArgs, SGens, Syns, OSyn
deriving instance Repr for Syn, QSelf, Segs, SArgs, SGens, Syns, OSyn

/-- A segment whose arguments have been read. -/
inductive Seg where
  | self
  | seg (i : Ident) (args : Args)

/-- `Ty::from_iter` (traits.rs:1147-1176) on segments whose arguments have been read; `none` is the panic of `unwrap`. -/
def build : List Seg → Option Ty
  | [] => none
  | .self :: r => (build r).map .selfRef
  | [.seg i a] => some (.path i a .none)
  | .seg i a :: r => (build r).map fun n => .path i a (.some n)

mutual

/-- `From<&Type> for Ty` (traits.rs:1221-1315); `none` is a panic. -/
def fromSyn : Syn → Option Ty
  | .path .none colon segs => (fromSegs segs).bind fun s => (build s).map fun t => if colon then .leadingColon t else t
  | .path (.some t pos) _ segs => (fromSyn t).bind fun t => (fromSegs segs).bind fun s => (build (s.take pos)).bind fun a =>
      (build (s.drop pos)).map fun n => .qualified t a n
  | .path (.pre _) _ _ => none
  | .bareFn l u a i o => (fromSyns i).bind fun i => (fromOSyn o).map fun o => .bareFn l u a i o
  | .group t => fromSyn t
  | .paren _ => none
  | .array t n => (fromSyn t).map (.array · n)
  | .ptr m t => (fromSyn t).map (.ptr (!m) m)
  | .reference l m t => (fromSyn t).map (.reference l m)
  | .tuple .nil => some .unit
  | .tuple (.cons _ _) => none
  | .never => some .never
  | .other _ => none

/-- The arguments of the segments (traits.rs:1152-1170). -/
def fromSegs : Segs → Option (List Seg)
  | .nil => some []
  | .self r => (fromSegs r).map (.self :: ·)
  | .seg i a r => (fromArgs a).bind fun a => (fromSegs r).map (.seg i a :: ·)

def fromArgs : SArgs → Option Args
  | .none => some .none
  | .angle gs => (fromGens gs).map .angle
  | .paren _ _ => none

def fromGens : SGens → Option Gens
  | .nil => some .nil
  | .lifetime l gs => (fromGens gs).map (.lifetime l)
  | .type t gs => (fromSyn t).bind fun t => (fromGens gs).map (.type t)
  | .other k gs => (fromGens gs).map (.other k)

def fromSyns : Syns → Option Tys
  | .nil => some .nil
  | .cons t ts => (fromSyn t).bind fun t => (fromSyns ts).map (.cons t)

/-- The type that a function returns (traits.rs:1262-1265). -/
def fromOSyn : OSyn → Option Ty
  | .none => some .unit
  | .some t => fromSyn t

end

/-- Tokens.  `lit` are the tokens of the length of an array, `gen` those of an argument that is neither a type nor a lifetime, `binder` those of
`for<..>`, `pre` those of a prefix. -/
inductive Tok where
  | id (i : Ident) | self
  | lifetime (l : Lt) | lit (n : Nat) | gen (n : Nat) | binder (n : Nat) | abi (n : Nat) | pre (n : Nat)
  | amp | star | const | mut | fn | unsafety | as
  | bang | lparen | rparen | lbrack | rbrack | semi | colon2 | lt | gt | comma | arrow
deriving DecidableEq, Repr

/-- `quote!(#x)` for an optional token. -/
def opt (f : A → Tok) : Option A → List Tok
  | none => []
  | some a => [f a]

/-- `quote!(#x)` for a keyword that may be absent. -/
def flag (t : Tok) : Bool → List Tok
  | false => []
  | true => [t]

mutual

/-- `ToTokens for Ty` (traits.rs:1054-1101). -/
def print : Ty → List Tok
  | .never => [.bang]
  | .unit => [.lparen, .rparen]
  | .arbitrary p n => .pre p :: .colon2 :: print n
  | .selfRef t => .self :: .colon2 :: print t
  | .reference l m e => .amp :: opt .lifetime l ++ flag .mut m ++ print e
  | .ptr c m e => .star :: flag .const c ++ flag .mut m ++ print e
  | .array e n => .lbrack :: print e ++ [.semi, .lit n, .rbrack]
  | .bareFn l u a i o => opt .binder l ++ flag .unsafety u ++ opt .abi a ++ .fn :: .lparen :: printTys i ++ .rparen :: .arrow :: print o
  | .path g a n => .id g :: printArgs a ++ printO n
  | .leadingColon n => .colon2 :: print n
  | .qualified t a n => .lt :: print t ++ .as :: print a ++ .gt :: .colon2 :: print n

/-- The rest of a path (traits.rs:1089-1091). -/
def printO : OTy → List Tok
  | .none => []
  | .some t => .colon2 :: print t

/-- `#(#inputs,)*`. -/
def printTys : Tys → List Tok
  | .nil => []
  | .cons t ts => print t ++ .comma :: printTys ts

/-- `ToTokens for Arguments` (traits.rs:1046-1053). -/
def printArgs : Args → List Tok
  | .none => []
  | .angle gs => .colon2 :: .lt :: printGens gs ++ [.gt]

/-- `#(#generics,)*` with `ToTokens for GenericArgument` (traits.rs:1035-1045). -/
def printGens : Gens → List Tok
  | .nil => []
  | .lifetime l gs => .lifetime l :: .comma :: printGens gs
  | .type t gs => print t ++ .comma :: printGens gs
  | .other k gs => .gen k :: .comma :: printGens gs

end

end Verif.Macros.Written
