import Verif.Dyn.Model

/-! Model of `vtable!` and `dynptr!` (stabby-macros/src/lib.rs:106-236) on the tokens that they are given, with syn's grammar of types as far as it is
reached by them (syn 1.0, `Type::parse`). -/
namespace Verif.Macros.DynPtr
open Verif.Dyn

/-- A bound: a trait (numbered), or one of the markers. -/
inductive Bound where
  | trait (n : Nat)
  | send
  | sync
deriving DecidableEq, Repr

/-- Tokens; the path of a trait with its arguments is a single one. -/
inductive Tok where
  | amp | mutable | dyn | plus | open | close | langle | rangle | comma | colon2
  | lt (n : Nat)
  | id (n : Nat)
  | bound (b : Bound)
deriving DecidableEq, Repr

/-- `syn::TypeParamBound`. -/
inductive Item where
  | bound (b : Bound)
  | lt (n : Nat)
deriving DecidableEq, Repr

mutual
/-- `syn::Type`: paths, references, trait objects, types in parentheses.  Only the last segment of a path may have arguments, and no path is
qualified. -/
inductive Ty where
  | path (leading : Bool) (segs : List Nat) (turbofish : Bool) (args : Args)
  | plain (leading : Bool) (segs : List Nat)
  | trait (b : Bound)
  | ref (lt : Option Nat) (isMut : Bool) (elem : Ty)
  | obj (items : List Item)
  | paren (t : Ty)
/-- The arguments of a path. -/
inductive Args where
  | nil
  | lt (n : Nat) (r : Args)
  | ty (t : Ty) (r : Args)
end

/-- `TypeParamBound::parse_multiple` of syn, where `plus` says whether there may be more than one bound. -/
def items (plus : Bool) : List Tok → Option (List Item × List Tok)
  | .bound b :: .plus :: r => if plus then match items plus r with
      | some (l, r) => some (.bound b :: l, r)
      | none => some ([.bound b], r)
    else some ([.bound b], .plus :: r)
  | .lt n :: .plus :: r => if plus then match items plus r with
      | some (l, r) => some (.lt n :: l, r)
      | none => some ([.lt n], r)
    else some ([.lt n], .plus :: r)
  | .bound b :: r => some ([.bound b], r)
  | .lt n :: r => some ([.lt n], r)
  | _ => none

/-- `TypeTraitObject::parse_bounds` of syn: at least one of the bounds is a trait. -/
def object (plus : Bool) (r : List Tok) : Option (Ty × List Tok) :=
  match items plus r with
  | none => none
  | some (l, r) => if l.any (fun i => match i with | .bound _ => true | .lt _ => false) then some (.obj l, r) else none

/-- The segments of a path, `a::b::c`, without arguments. -/
def segments : List Tok → Option (List Nat × List Tok)
  | .id n :: .colon2 :: .id m :: r => (segments (.id m :: r)).map fun (l, r) => (n :: l, r)
  | .id n :: r => some ([n], r)
  | _ => none

/-- A path with the arguments of its last segment, which `args` parses. -/
def path (args : List Tok → Option (Args × List Tok)) (leading : Bool) (r : List Tok) : Option (Ty × List Tok) :=
  match segments r with
  | some (segs, .langle :: r) => (args r).map fun (a, r) => (.path leading segs false a, r)
  | some (segs, .colon2 :: .langle :: r) => (args r).map fun (a, r) => (.path leading segs true a, r)
  | some (segs, r) => some (.plain leading segs, r)
  | none => none

mutual
/-- `Type::parse` (`plus`) and `Type::without_plus` of syn.  The first argument bounds the depth. -/
def ty : Nat → Bool → List Tok → Option (Ty × List Tok)
  | 0, _, _ => none
  | n + 1, plus, r =>
    match r with
    | .open :: r => match ty n true r with
      | some (t, .close :: r) => some (.paren t, r)
      | _ => none
    | .amp :: .lt l :: .mutable :: r => (ty n false r).map fun (t, r) => (.ref (some l) true t, r)
    | .amp :: .lt l :: r => (ty n false r).map fun (t, r) => (.ref (some l) false t, r)
    | .amp :: .mutable :: r => (ty n false r).map fun (t, r) => (.ref none true t, r)
    | .amp :: r => (ty n false r).map fun (t, r) => (.ref none false t, r)
    | .dyn :: r => object plus r
    | .bound b :: r => if plus && r.head? = some .plus then object plus (.bound b :: r) else some (.trait b, r)
    | .lt l :: r => object plus (.lt l :: r)
    | .colon2 :: r => path (args n) true r
    | r => path (args n) false r
/-- Arguments, up to the closing `>`. -/
def args : Nat → List Tok → Option (Args × List Tok)
  | 0, _ => none
  | n + 1, r =>
    match r with
    | .rangle :: r => some (.nil, r)
    | .lt l :: .comma :: r => (args n r).map fun (a, r) => (.lt l a, r)
    | .lt l :: .rangle :: r => some (.lt l .nil, r)
    | r => match ty n true r with
      | some (t, .comma :: r) => (args n r).map fun (a, r) => (.ty t a, r)
      | some (t, .rangle :: r) => some (.ty t .nil, r)
      | _ => none
end

/-- `PtrType` (lib.rs:128-132), with the tokens of the path. -/
inductive Ptr where
  | path (leading : Bool) (segs : List Nat)
  | ref
  | refMut
deriving DecidableEq, Repr

/-- The loop over the bounds in `DynPtr::parse` (lib.rs:198-209). -/
def split : List Item → List Bound → Option Nat → Option (List Bound × Option Nat)
  | [], bs, lt => some (bs, lt)
  | .bound b :: r, bs, lt => split r (bs ++ [b]) lt
  | .lt n :: r, bs, lt => if lt.isSome then none else split r bs (some n)

/-- `DynPtr::parse` (lib.rs:138-212), after the type; panics are `none`. -/
def dynPtr : Ty → Option (Ptr × List Bound × Option Nat)
  | .path leading segs false (.ty (.obj l) .nil) => (split l [] none).map fun (bs, lt) => (.path leading segs, bs, lt)
  | .ref lt true (.obj l) => (split l [] lt).map fun (bs, lt) => (.refMut, bs, lt)
  | .ref lt false (.obj l) => (split l [] lt).map fun (bs, lt) => (.ref, bs, lt)
  | _ => none

/-- `<dyn Bound as CompoundVt>::Vt<vt>` (vtable/mod.rs:271-276, 396-398, 420-422; traits.rs:750-757). -/
def wrap (vt : Vt) : Bound → Vt
  | .trait n => .table n vt
  | .send => .send vt
  | .sync => .sync vt

/-- A type that `dynptr!` gives: `Dyn<'lt, path<()>, vt>`, `Dyn<'lt, &'lt mut (), vt>` or `DynRef<'lt, vt>`; without a number, the lifetime is
`'static`. -/
inductive Out where
  | dyn (lt : Option Nat) (leading : Bool) (segs : List Nat) (vt : Vt)
  | dynMut (lt : Option Nat) (vt : Vt)
  | dynRef (lt : Option Nat) (vt : Vt)
deriving DecidableEq, Repr

/-- `dynptr!` (lib.rs:219-236).  What is left after the type is an error. -/
def dynptr (toks : List Tok) : Option Out :=
  match ty (toks.length + 1) true toks with
  | some (t, []) => (dynPtr t).map fun (ptr, bs, lt) =>
    let vt := bs.foldl wrap .drop
    match ptr with
    | .path leading segs => .dyn lt leading segs vt
    | .refMut => .dynMut lt vt
    | .ref => .dynRef lt vt
  | _ => none

/-- The loop of `vtable!` (lib.rs:117-123). -/
def vtables : List Item → Vt → Option Vt
  | [], vt => some vt
  | .bound b :: r, vt => vtables r (wrap vt b)
  | .lt _ :: _, _ => none

/-- What is separated by `+` (`Punctuated::parse_separated_nonempty`; what is left is an error). -/
def separated : List Tok → Option (List Item)
  | [.bound b] => some [.bound b]
  | [.lt n] => some [.lt n]
  | .bound b :: .plus :: r => (separated r).map (.bound b :: ·)
  | .lt n :: .plus :: r => (separated r).map (.lt n :: ·)
  | _ => none

/-- `vtable!` (lib.rs:106-126). -/
def vtable (toks : List Tok) : Option Vt :=
  match separated toks with
  | some l => vtables l .drop
  | none => none

end Verif.Macros.DynPtr
