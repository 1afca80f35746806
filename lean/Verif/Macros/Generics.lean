import Verif.Macros.Bounds

/-! Model of what `#[stabby]` makes of the parameters and the `where` clauses of structs, enums and unions (stabby-macros/src/structs.rs:102-263,
enums.rs:139-330, 423-652, unions.rs:55-101, utils.rs:18-70, lib.rs:350-377): the heads of the items and implementations that are generated.

Bounds, defaults, and types are opaque.  A predicate is a single token: none has a comma outside of brackets. -/
namespace Verif.Macros.Generics
open Verif.Macros.Bounds (GParam)

/-- The type of a field after `unself`, or that of a variant without fields (enums.rs:179, 228, 461). -/
inductive FTy where
  | unit
  | ty (n : Nat)
  deriving DecidableEq, Repr

/-- The type `repr_stabby` gives to variants (enums.rs:458-469). -/
inductive RTy where
  | leaf (t : FTy)
  | result (a b : RTy)
  deriving DecidableEq, Repr

/-- A predicate of a `where` clause: one of the user's, `T: IStable`, `A: IDeterminantProvider<B>`, or `#layout: IStable` for the layouts that
are made of `FieldPair`, `Struct` and `Union`. -/
inductive Pred where
  | user (n : Nat)
  | stable (t : RTy)
  | det (a b : RTy)
  | layout
  deriving DecidableEq, Repr

inductive Tok where
  | lt (n : Nat)
  | id (n : Nat)
  | const
  | colon
  | bound (b : Nat)
  | ty (t : Nat)
  | eq
  | val (v : Nat)
  | comma
  | pred (p : Pred)
  deriving DecidableEq, Repr

/-! ### `syn` and utils.rs -/

/-- `: A + B`, which `syn` leaves out if there are no bounds.  The `+` are left out. -/
def boundsToks (bs : List Nat) : List Tok := if bs = [] then [] else .colon :: bs.map .bound

def defaultToks : Option Nat → List Tok
  | none => []
  | some v => [.eq, .val v]

/-- How `syn` prints a parameter. -/
def paramToks : GParam → List Tok
  | .lifetime n bs => .lt n :: boundsToks bs
  | .type n bs d => .id n :: (boundsToks bs ++ defaultToks d)
  | .const n t d => [.const, .id n, .colon, .ty t] ++ defaultToks d

/-- `Punctuated`, with commas between the elements. -/
def punctuated : List (List Tok) → List Tok
  | [] => []
  | [s] => s
  | s :: s' :: ss => s ++ .comma :: punctuated (s' :: ss)

/-- `#generics`: `syn` prints lifetimes first, and leaves out the `where` clause. -/
def generics (ps : List GParam) : List Tok :=
  punctuated ((ps.filter GParam.isLifetime ++ ps.filter (fun p => !p.isLifetime)).map paramToks)

/-- `<#unbound_generics>` of enums.rs:149 and unions.rs:69: the parameters as they were written. -/
def paramsAsArgs (ps : List GParam) : List Tok := punctuated (ps.map paramToks)

/-- `SeparatedGenerics::to_tokens` (utils.rs:24-36), each of the three lists being filled by a function of the parameters. -/
def separated (f : GParam → List Tok) (ps : List GParam) : List Tok :=
  (ps.filter GParam.isLifetime ++ ps.filter GParam.isType ++ ps.filter GParam.isConst).flatMap (fun p => f p ++ [.comma])

/-- `unbound_generics` (utils.rs:37-51) -/
def unbound : GParam → List Tok
  | .lifetime n _ => [.lt n]
  | .type n _ _ => [.id n]
  | .const n _ _ => [.id n]

/-- `generics_without_defaults` (utils.rs:52-70) -/
def withoutDefault : GParam → List Tok
  | .lifetime n bs => .lt n :: .colon :: bs.map .bound
  | .type n bs _ => .id n :: .colon :: bs.map .bound
  | .const n t _ => [.const, .id n, .colon, .ty t]

/-! ### The bounds of reports -/

/-- A field of a report (lib.rs:350-352): a type, or the report of a variant with several fields or named ones (enums.rs:183-214). -/
inductive Field where
  | ty (t : FTy)
  | variant (ts : List FTy)
  deriving DecidableEq, Repr

/-- A step of the loop for types (lib.rs:361-365): the types that have been seen, and the predicates so far. -/
def boundsTy (s : List FTy × List Tok) (t : FTy) : List FTy × List Tok :=
  if t ∈ s.1 then s else (t :: s.1, .pred (.stable (.leaf t)) :: .comma :: s.2)

/-- A step of the loop (lib.rs:359-371). -/
def boundsField (s : List FTy × List Tok) : Field → List FTy × List Tok
  | .ty t => boundsTy s t
  | .variant ts => ts.foldl boundsTy s

/-- `Report::bounds` (lib.rs:353-377) -/
def reportBounds (fs : List Field) : List Tok := (fs.foldl boundsField ([], [])).2

/-! ### Items -/

inductive Shape where
  | named
  | tuple
  | unit
  /-- an enum with `#[repr(u*)]`, `#[repr(C)]` or both -/
  | enumRepr
  /-- an enum with `#[repr(stabby)]`, or without `repr` if `check` holds (enums.rs:237-250) -/
  | enumStabby (check : Bool)
  | union
  deriving DecidableEq, Repr

/-- A type as it is written.  `trailing` tells if the `where` clause ends with a comma; `needs` are the user's predicates without which the types of the
fields are not well formed. -/
structure Written where
  shape : Shape
  params : List GParam
  preds : List Nat
  trailing : Bool
  fields : List Field
  needs : List Nat

/-- `#clauses`, `#bounds2`: the predicates of the `where` clause. -/
def Written.clauses (w : Written) : List Tok :=
  punctuated (w.preds.map fun p => [.pred (.user p)]) ++ if w.trailing && !w.preds.isEmpty then [.comma] else []

/-- `#where_clause`: `syn` prints nothing if it has no predicates. -/
def Written.whereClause (w : Written) : Option (List Tok) := if w.preds = [] then none else some w.clauses

/-- What comes between braces, between parentheses, or nothing. -/
inductive Body where
  | braces
  | parens
  | nothing
  deriving DecidableEq, Repr

/-- A generated type: its parameters, and the `where` clause before and after the body. -/
structure ItemDef where
  params : List Tok
  before : Option (List Tok)
  body : Body
  after : Option (List Tok)
  deriving DecidableEq, Repr

/-- An `impl`: its parameters, the arguments of the type it is for, its `where` clause, and the arguments that are given to the auxiliary type in it. -/
structure ImplHead where
  params : List Tok
  args : List Tok
  preds : List Tok
  auxArgs : Option (List Tok)
  deriving DecidableEq, Repr

structure Output where
  item : ItemDef
  aux : Option ItemDef
  impls : List ImplHead
  deriving DecidableEq, Repr

def body : Shape → Body
  | .tuple => .parens
  | .unit => .nothing
  | _ => .braces

/-- `structs::stabby` (structs.rs:102, 119-173, 229-262): the `where` clause comes before the body, whichever it is. -/
def struct (w : Written) : Output :=
  let item : ItemDef := ⟨generics w.params, w.whereClause, body w.shape, none⟩
  let preds := .pred .layout :: .comma :: reportBounds w.fields ++ w.clauses
  let head : ImplHead := ⟨separated withoutDefault w.params, separated unbound w.params, preds, none⟩
  ⟨item, some item, [head, { head with auxArgs := some (separated unbound w.params) }]⟩

/-- `enums::stabby` for enums with an explicit `repr` (enums.rs:139, 299-309) and `unions::stabby` (unions.rs:55, 69, 81-89). -/
def plain (w : Written) : Output :=
  ⟨⟨generics w.params, none, .braces, none⟩, none,
    [⟨generics w.params, paramsAsArgs w.params, reportBounds w.fields ++ [.pred .layout], none⟩]⟩

/-- `Variants::recursion` (enums.rs:382-395) for the type and the bounds of `repr_stabby` (enums.rs:458-469). -/
def result (vs : List FTy) : RTy × List Tok :=
  if h : 1 < vs.length then
    let a := result (vs.take (vs.length / 2))
    let b := result (vs.drop (vs.length / 2))
    (.result a.1 b.1, [.pred (.det a.1 b.1), .comma, .pred (.stable b.1), .comma] ++ a.2 ++ b.2)
  else (.leaf (vs.headD .unit), [])
termination_by vs.length
decreasing_by
  · rw [List.length_take]; omega
  · rw [List.length_drop]; omega

/-- The field of a variant (enums.rs:337-363): those with more are refused before (enums.rs:197-219). -/
def Field.leaf : Field → FTy
  | .ty t => t
  | .variant ts => ts.headD .unit

/-- `enums::repr_stabby` (enums.rs:423-652) -/
def stabbyEnum (check : Bool) (w : Written) : Output :=
  let r := result (w.fields.map Field.leaf)
  let bounds := r.2 ++ w.clauses
  let rb := reportBounds w.fields
  let stable : List Tok := [.pred (.stable r.1)]
  let args := separated unbound w.params
  ⟨⟨generics w.params, none, .parens, some (rb ++ bounds)⟩,
    if check then some ⟨separated withoutDefault w.params, some bounds, .braces, none⟩ else none,
    [⟨separated withoutDefault w.params, args, rb ++ bounds ++ stable, none⟩, ⟨generics w.params, args, rb ++ bounds, none⟩] ++
      if check then [⟨separated withoutDefault w.params, args, rb ++ bounds ++ stable, some args⟩] else []⟩

/-- `#[stabby]` on a type. -/
def expand (w : Written) : Output :=
  match w.shape with
  | .named => struct w
  | .tuple => struct w
  | .unit => struct w
  | .enumRepr => plain w
  | .union => plain w
  | .enumStabby check => stabbyEnum check w

end Verif.Macros.Generics
