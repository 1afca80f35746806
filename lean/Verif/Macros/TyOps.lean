import Verif.Typenum.Model
/-! Model of `tyeval!` (stabby-macros/src/tyops.rs): the parser `TyExpr::from` and the translation `tyeval`.

A panic of the macro is a compile error and is modelled by `none`.  `syn::parse2`, which checks that the tokens of a path form a
type, is a parameter.  Delimiters of groups are not told apart, as in the code. -/
namespace Verif.Macros
open Verif.Typenum (U Bit)

/-- `proc_macro2::TokenTree`; `joint` is the spacing of a punctuation character. -/
inductive Tok where
  | group (ts : List Tok)
  | ident (s : String)
  | punct (c : Char) (joint : Bool)
  | lit

/-- The binary operators (tyops.rs:24-29). -/
inductive BinOp where
  | add | sub | rem | or | and | eq
deriving DecidableEq

/-- `TyExpr` (tyops.rs:19-30). -/
inductive TyExpr where
  | ty (p : List Tok)
  | not (e : TyExpr)
  | tern (c t f : TyExpr)
  | bin (op : BinOp) (l r : TyExpr)

/-- `TyOps` (tyops.rs:31-42) other than `Type`. -/
inductive Kind where
  | not | tern | bin (op : BinOp)
deriving DecidableEq

/-- Where the loop is.  The code looks ahead after `:`, `=` and `<`; here the lookahead is a mode: the second character of `::`
or `==` is expected, or the tokens up to the closing `>` are collected (`count` brackets are open). -/
inductive Mode where
  | normal
  | colon
  | eq
  | angle (count : Nat) (braced : List Tok)

/-- The variables of the loop (tyops.rs:50-62); `op = none` is `TyOps::Type`. -/
structure PSt where
  mode : Mode
  path : List Tok
  accept : Bool
  inTern : Bool
  op : Option Kind
  types : List TyExpr

/-- Their initial values. -/
def PSt.init : PSt := ⟨.normal, [], true, false, none, []⟩

/-- A token with what `TyExpr::from` makes of it if it is a group. -/
structure Item where
  tok : Tok
  sub : Option TyExpr

/-- `set_op` (tyops.rs:55-61). -/
def PSt.setOp (s : PSt) (k : Kind) : Option PSt :=
  match s.op with
  | none => some { s with op := some k }
  | some _ => none

/-- The end of the branch of operators (tyops.rs:139-143): the path becomes an operand. -/
def PSt.flush (okTy : List Tok → Bool) (s : PSt) : Option PSt :=
  match s.path with
  | [] => some { s with accept := true }
  | p => if okTy p then some { s with types := s.types ++ [.ty p], path := [], accept := true } else none

/-- `set_op` followed by the end of the branch. -/
def PSt.operator (okTy : List Tok → Bool) (s : PSt) (k : Kind) : Option PSt :=
  match s.setOp k with
  | none => none
  | some s' => s'.flush okTy

/-- The path with a pair of angle brackets (tyops.rs:134, `quote!(#path < #braced >)`). -/
def closeAngle (path braced : List Tok) : List Tok := path ++ .punct '<' false :: (braced ++ [.punct '>' false])

/-- The branch of punctuation (tyops.rs:77-144) outside of a lookahead. -/
def PSt.punct (okTy : List Tok → Bool) (s : PSt) (c : Char) (joint : Bool) : Option PSt :=
  if c = ':' then
    if joint then some { s with mode := .colon }
    else if s.inTern then ({ s with inTern := false } : PSt).flush okTy
    else none
  else if c = '!' then
    if joint then none
    else match s.setOp .not with
      | none => none
      | some s' => if s.path.isEmpty then some s' else none
  else if c = '?' then
    match s.setOp .tern with
    | none => none
    | some s' => ({ s' with inTern := true } : PSt).flush okTy
  else if c = '+' then s.operator okTy (.bin .add)
  else if c = '-' then s.operator okTy (.bin .sub)
  else if c = '%' then s.operator okTy (.bin .rem)
  else if c = '|' then s.operator okTy (.bin .or)
  else if c = '&' then s.operator okTy (.bin .and)
  else if c = '=' then (if joint then some { s with mode := .eq } else none)
  else if c = '<' then some { s with mode := .angle 1 [] }
  else none

/-- The number of open angle brackets after a token (tyops.rs:123-132). -/
def angleCount (count : Nat) : Tok → Nat
  | .punct c _ => if c = '<' then count + 1 else if c = '>' then count - 1 else count
  | _ => count

/-- One token of the loop (tyops.rs:63-147). -/
def PSt.step (okTy : List Tok → Bool) (s : PSt) (i : Item) : Option PSt :=
  match s.mode with
  | .normal =>
    match i.tok with
    | .group _ =>
      match i.sub with
      | none => none
      | some e => some { s with types := s.types ++ [e], accept := false }
    | .ident x => if s.accept then some { s with path := s.path ++ [.ident x], accept := false } else none
    | .punct c joint => s.punct okTy c joint
    | .lit => none
  | .colon =>
    match i.tok with
    | .punct c _ =>
      if c = ':' then some { s with mode := .normal, path := s.path ++ [.punct ':' true, .punct ':' false], accept := true }
      else none
    | _ => none
  | .eq =>
    match i.tok with
    | .punct c _ => if c = '=' then ({ s with mode := .normal } : PSt).operator okTy (.bin .eq) else none
    | _ => none
  | .angle count braced =>
    if angleCount count i.tok = 0 then some { s with mode := .normal, path := closeAngle s.path braced }
    else some { s with mode := .angle (angleCount count i.tok) (braced ++ [i.tok]) }

/-- The loop (tyops.rs:63-147). -/
def loop (okTy : List Tok → Bool) : List Item → PSt → Option PSt
  | [], s => some s
  | i :: is, s =>
    match s.step okTy i with
    | none => none
    | some s' => loop okTy is s'

/-- The number of operands an operation has and what is made of them (tyops.rs:153-205). -/
def build (op : Option Kind) (types : List TyExpr) : Option TyExpr :=
  match op, types with
  | none, [e] => some e
  | some .not, [e] => some (.not e)
  | some .tern, [c, t, f] => some (.tern c t f)
  | some (.bin o), [l, r] => some (.bin o l r)
  | _, _ => none

/-- After the loop (tyops.rs:148-205).  An unfinished `::` or `==` is an `unwrap` of `None`; an unclosed bracket is closed. -/
def PSt.finish (okTy : List Tok → Bool) (s : PSt) : Option TyExpr :=
  let s' : Option PSt := match s.mode with
    | .normal => some s
    | .angle _ braced => some { s with mode := .normal, path := closeAngle s.path braced }
    | _ => none
  match s' with
  | none => none
  | some s' =>
    match s'.flush okTy with
    | none => none
    | some s'' => build s''.op s''.types

/-- `TyExpr::from` (tyops.rs:48-206) on a stream whose groups are done. -/
def parseItems (okTy : List Tok → Bool) (is : List Item) : Option TyExpr :=
  match loop okTy is .init with
  | none => none
  | some s => s.finish okTy

mutual
/-- A token, with `TyExpr::from` applied to it if it is a group (tyops.rs:66). -/
def Tok.item (okTy : List Tok → Bool) : Tok → Item
  | .group ts => ⟨.group ts, parseItems okTy (items okTy ts)⟩
  | .ident s => ⟨.ident s, none⟩
  | .punct c j => ⟨.punct c j, none⟩
  | .lit => ⟨.lit, none⟩
/-- All tokens of a stream. -/
def items (okTy : List Tok → Bool) : List Tok → List Item
  | [] => []
  | t :: ts => t.item okTy :: items okTy ts
end

/-- `TyExpr::from` (tyops.rs:48-206). -/
def parse (okTy : List Tok → Bool) (ts : List Tok) : Option TyExpr := parseItems okTy (items okTy ts)

/-! ### Translation -/

/-- The associated types the translation uses. -/
inductive Assoc where
  | Add | AbsSub | Mod | BitOr | BitAnd | Equal | Not | UTernary
deriving DecidableEq

/-- The produced type: a path, or `<self as typenum2::..>::name<args>`. -/
inductive TyOut where
  | ty (p : List Tok)
  | assoc1 (self : TyOut) (name : Assoc)
  | assoc2 (self : TyOut) (name : Assoc) (arg : TyOut)
  | assoc3 (self : TyOut) (name : Assoc) (arg1 arg2 : TyOut)

/-- The associated type of a binary operator (tyops.rs:213-237, 248-252). -/
def BinOp.assoc : BinOp → Assoc
  | .add => .Add
  | .sub => .AbsSub
  | .rem => .Mod
  | .or => .BitOr
  | .and => .BitAnd
  | .eq => .Equal

/-- `tyeval` (tyops.rs:209-254). -/
def tyeval : TyExpr → TyOut
  | .ty p => .ty p
  | .bin o l r => .assoc2 (tyeval l) o.assoc (tyeval r)
  | .not e => .assoc1 (tyeval e) .Not
  | .tern c t f => .assoc3 (tyeval c) .UTernary (tyeval t) (tyeval f)

/-- A type-level number or boolean. -/
inductive TVal where
  | num (u : U)
  | bit (b : Bit)
deriving DecidableEq

/-- The compiler's resolution of the associated types of `IUnsigned` and `IBit` (typenum2/unsigned.rs), by the model of
`Verif.Typenum`.  `Mod` demands a power of two, `UTernary` numbers; anything else is a compile error. -/
def resolve (env : List Tok → Option TVal) : TyOut → Option TVal
  | .ty p => env p
  | .assoc1 x name =>
    match resolve env x, name with
    | some (.bit b), .Not => some (.bit (Verif.Typenum.Bit.not' b))
    | _, _ => none
  | .assoc2 x name y =>
    match resolve env x, name, resolve env y with
    | some (.num a), .Add, some (.num b) => some (.num (a.add b))
    | some (.num a), .AbsSub, some (.num b) => some (.num (a.absSub b))
    | some (.num a), .Mod, some (.num b) => if b.isPow2 then some (.num (a.mod b)) else none
    | some (.num a), .BitOr, some (.num b) => some (.num (a.bitOr b))
    | some (.num a), .BitAnd, some (.num b) => some (.num (a.bitAnd b))
    | some (.num a), .Equal, some (.num b) => some (.bit (a.equal b))
    | _, _, _ => none
  | .assoc3 x name y z =>
    match resolve env x, name, resolve env y, resolve env z with
    | some (.bit c), .UTernary, some (.num a), some (.num b) => some (.num (Verif.Typenum.Bit.ternary c a b))
    | _, _, _, _ => none

end Verif.Macros
