import Verif.Macros.Traits

/-! Model of what `#[stabby] trait` makes of bounds: those of associated types (stabby-macros/src/traits.rs:332-392, 540-559, 619-649), those of the
parameters of the trait (traits.rs:504-533; stabby-macros/src/utils.rs:72-148), and the trait's `where` clause, which nothing reads. -/
namespace Verif.Macros.Bounds
open Verif.Macros.Traits

/-- A bound as it is written: `?`, `for<..>` and a path, or a lifetime. -/
inductive Bound where
  | trait (maybe : Bool) (binder : Option Nat) (t : Ty)
  | lifetime (l : Lt)
  deriving DecidableEq

/-- An item of a trait with its bounds. -/
inductive BItem where
  | method (m : Method)
  | assoc (name : Nat) (bounds : List Bound)

def BItem.item : BItem → Item
  | .method m => .method m
  | .assoc n _ => .assoc n

/-- `DynTraitBound` (traits.rs:162-166). -/
structure DynBound where
  target : Ty
  lifetimes : Option Nat
  bound : Ty ⊕ Lt
  deriving DecidableEq

/-- The type of an associated type (traits.rs:339-359); those that are generic make the macro panic. -/
def assocTy (name : Nat) : Ty := .path (.user name) .none .none

/-- A step of the loop over the bounds of an associated type (traits.rs:360-389): the modifier of the bound is not looked at. -/
def dynBound (name : Nat) : Bound → DynBound
  | .trait _ b t => ⟨.selfRef (assocTy name), b, .inl t⟩
  | .lifetime l => ⟨.selfRef (assocTy name), none, .inr l⟩

/-- `DynTraitDescription::bounds` (traits.rs:360-390). -/
def bounds : List BItem → List DynBound
  | [] => []
  | .method _ :: is => bounds is
  | .assoc n bs :: is => bs.map (dynBound n) ++ bounds is

/-- `self_dependent_types` (traits.rs:391, 401-406). -/
def sdts (is : List BItem) : List Ty := (describe (is.map BItem.item) false).sdts

/-- A token of a `where` clause; types are single tokens. -/
inductive Tok where
  | ty (t : Ty)
  | binder (n : Nat)
  | lt (l : Lt)
  | colon
  | comma
  | plus
  deriving DecidableEq

/-- `#lifetimes` -/
def binder : Option Nat → List Tok
  | none => []
  | some n => [.binder n]

/-- One element of `vt_bounds` (traits.rs:543-557); `none` is the panic of `unselfed`. -/
def vtBound (s : List Ty) (b : DynBound) : Option (List Tok) :=
  (unselfed s b.target).bind fun target => match b.bound with
    | .inl bound => (unselfed s bound).map fun bound => .ty target :: .colon :: binder b.lifetimes ++ [.ty bound, .comma]
    | .inr l => some [.ty target, .colon, .lt l]

/-- `#(#vt_bounds)*` (traits.rs:540-559), the `where` clause of the vtable and of most of the other items (traits.rs:680, 696-712, 754, 768, 798, 830,
857, 879). -/
def vtBounds (s : List Ty) : List DynBound → Option (List Tok)
  | [] => some []
  | b :: bs => (vtBound s b).bind fun t => (vtBounds s bs).map (t ++ ·)

/-- `#(#tys: 'stabby_vt_lt,)*` (traits.rs:730-731) -/
def outlive (l : Lt) : List Ty → List Tok
  | [] => []
  | t :: ts => .ty t :: .colon :: .lt l :: .comma :: outlive l ts

/-- The `where` clause of the implementation of `IConstConstructor` (traits.rs:727-731): `implementor` stands for `StabbyArbitraryType`, `asTrait` for
the trait with its arguments, `types` for the type parameters of the trait, `l` for `'stabby_vt_lt`. -/
def ctorBounds (implementor asTrait : Ty) (types : List Ty) (l : Lt) (s : List Ty) (bs : List DynBound) : Option (List Tok) :=
  (vtBounds s bs).map fun b => .ty implementor :: .colon :: .ty asTrait :: .comma :: b ++ outlive l types ++
    outlive l ((List.range s.length).map fun n => .path (.unselfed n) .none .none)

/-- The bound of a `DynTraitBound` as it is put into `{Trait}Dyn` (traits.rs:635-638). -/
def sdtBound (b : DynBound) : List Tok := match b.bound with
  | .inl t => binder b.lifetimes ++ [.ty t]
  | .inr l => [.lt l]

/-- A step of the fold (traits.rs:625-646). -/
def addBound (ty : Ty) (acc : Option (List Tok)) (b : DynBound) : Option (List Tok) := match b.target with
  | .selfRef target => if tyEq target ty then some (match acc with
      | some acc => acc ++ .plus :: sdtBound b
      | none => sdtBound b) else acc
  | _ => acc

/-- `sdtbounds` (traits.rs:620-649): what comes after the name of an associated type of `{Trait}Dyn`. -/
def sdtBounds (bs : List DynBound) (ty : Ty) : List Tok := match bs.foldl (addBound ty) none with
  | some ts => .colon :: ts
  | none => []

/-! ### Parameters -/

/-- A parameter of a trait, with its bounds and default. -/
inductive GParam where
  | lifetime (n : Nat) (bounds : List Nat)
  | type (n : Nat) (bounds : List Nat) (default : Option Nat)
  | const (n : Nat) (ty : Nat) (default : Option Nat)
  deriving DecidableEq

/-- What is put between angle brackets: a parameter as it was written, the identifier of a type, or `_stabby_unselfed_n`. -/
inductive GArg where
  | param (p : GParam)
  | ident (n : Nat)
  | unselfed (n : Nat)
  deriving DecidableEq

/-- The loop of `vt_generics` (traits.rs:504-529). -/
def genericsLoop (bounded : Bool) : Option Nat → List GParam → List GArg
  | none, [] => []
  | some n, [] => (List.range n).map .unselfed
  | o, .lifetime l b :: ps => .param (.lifetime l b) :: genericsLoop bounded o ps
  | none, .type t b d :: ps => (if bounded then .param (.type t b d) else .ident t) :: genericsLoop bounded none ps
  | some n, .type t b d :: ps => (List.range n).map .unselfed ++ (if bounded then .param (.type t b d) else .ident t) :: genericsLoop bounded none ps
  | o, .const c t d :: ps => .param (.const c t d) :: genericsLoop bounded o ps

/-- `vt_generics::<BOUNDED>` (traits.rs:504-533) -/
def generics (bounded : Bool) (n : Nat) (ps : List GParam) : List GArg := genericsLoop bounded (some n) ps

def GParam.isLifetime : GParam → Bool
  | .lifetime _ _ => true
  | _ => false

def GParam.isType : GParam → Bool
  | .type _ _ _ => true
  | _ => false

def GParam.isConst : GParam → Bool
  | .const _ _ _ => true
  | _ => false

/-- The parameters of `{Trait}Dyn` and of the implementations that don't use `vt_generics`, without those that the macro adds (traits.rs:721-725, 750-753,
762-767, 778-788; stabby-macros/src/utils.rs:81-112). -/
def implGenerics (n : Nat) (ps : List GParam) : List GArg :=
  (ps.filter GParam.isLifetime).map .param ++ (List.range n).map .unselfed ++ (ps.filter GParam.isType).map .param ++
    (ps.filter GParam.isConst).map .param

/-- A trait: its parameters, its `where` clause, its items. -/
structure Trait where
  params : List GParam
  where_ : List (List Tok)
  items : List BItem

/-- The `where` clause of the implementation of `CompoundVt` for `dyn Trait<..>` (traits.rs:754). -/
def Trait.compound (t : Trait) : Option (List Tok) := vtBounds (sdts t.items) (bounds t.items)

end Verif.Macros.Bounds
