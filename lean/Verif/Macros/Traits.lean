/-! Executable model of `#[stabby] trait` (`stabby-macros/src/traits.rs`): the types that occur in the signatures of methods, the types
that depend on `Self`, the vtable that is generated, and the condition under which that vtable is `IStable`. -/
namespace Verif.Macros.Traits

/-- An identifier: one written by the user, or `_stabby_unselfed_{n}` (traits.rs:141-143).  Users can also write the latter. -/
inductive Ident where
  | user (n : Nat)
  | unselfed (n : Nat)
  deriving DecidableEq, Repr

/-- A lifetime that is written in a type. -/
inductive Lt where
  | static
  | named (n : Nat)
  deriving DecidableEq, Repr

mutual

/-- `Ty` (traits.rs:895-938).  Calling conventions, lengths of arrays, `for<..>` binders and the tokens of `prefix` are numbered. -/
inductive Ty where
  | never
  | unit
  | arbitrary (pre : Nat) (next : Ty)
  | selfRef (ty : Ty)
  | reference (lifetime : Option Lt) (mutable : Bool) (elem : Ty)
  | ptr (const mutable : Bool) (elem : Ty)
  | array (elem : Ty) (len : Nat)
  | bareFn (lifetimes : Option Nat) (unsafety : Bool) (abi : Option Nat) (inputs : Tys) (output : Ty)
  | path (segment : Ident) (arguments : Args) (next : OTy)
  | leadingColon (next : Ty)
  | qualified (target asTrait next : Ty)

/-- `Option<Box<Ty>>`. -/
inductive OTy where
  | none
  | some (t : Ty)

/-- `Vec<Ty>`. -/
inductive Tys where
  | nil
  | cons (t : Ty) (ts : Tys)

/-- `Arguments` (traits.rs:1022-1026). -/
inductive Args where
  | none
  | angle (gs : Gens)

/-- `Vec<GenericArgument>` (traits.rs:1027-1034).  Constants, bindings and constraints are tokens: they are copied as they are
(`g => g.clone()`, traits.rs:117, 1384). -/
inductive Gens where
  | nil
  | lifetime (l : Lt) (gs : Gens)
  | type (t : Ty) (gs : Gens)
  | other (tokens : Nat) (gs : Gens)

end

deriving instance DecidableEq for Ty, OTy, Tys, Args, Gens
deriving instance Repr for Ty, OTy, Tys, Args, Gens

/-- `SelfDependentTypes::find` (traits.rs:45-48).  The code compares the tokens of the types. -/
def find (s : List Ty) (t : Ty) : Option Nat := s.findIdx? (fun u => decide (u = t))

/-- `SelfDependentTypes::push` (traits.rs:32-39). -/
def push (s : List Ty) (t : Ty) : List Ty := if (find s t).isNone then s ++ [t] else s

/-- `SelfDependentTypes::extend` (traits.rs:40-44). -/
def extend (s : List Ty) (ts : List Ty) : List Ty := ts.foldl push s

mutual

/-- `SelfDependentTypes::unselfed` (traits.rs:49-137); `none` is the panic. -/
def unselfed (s : List Ty) : Ty → Option Ty
  | .never => some .never
  | .unit => some .unit
  | .selfRef t => (find s t).map (fun n => .path (.unselfed n) .none .none)
  | .arbitrary p n => (unselfed s n).map (.arbitrary p)
  | .reference l m e => (unselfed s e).map (.reference l m)
  | .ptr c m e => (unselfed s e).map (.ptr c m)
  | .array e n => (unselfed s e).map (.array · n)
  | .bareFn l u a i o => (unselfedTys s i).bind fun i => (unselfed s o).map (.bareFn l u a i)
  | .path g a n => (unselfedArgs s a).bind fun a => (unselfedO s n).map (.path g a)
  | .leadingColon n => (unselfed s n).map .leadingColon
  | .qualified t a n => (unselfed s t).bind fun t => (unselfed s a).bind fun a => (unselfed s n).map (.qualified t a)

def unselfedO (s : List Ty) : OTy → Option OTy
  | .none => some .none
  | .some t => (unselfed s t).map .some

def unselfedTys (s : List Ty) : Tys → Option Tys
  | .nil => some .nil
  | .cons t ts => (unselfed s t).bind fun t => (unselfedTys s ts).map (.cons t)

def unselfedArgs (s : List Ty) : Args → Option Args
  | .none => some .none
  | .angle gs => (unselfedGens s gs).map .angle

def unselfedGens (s : List Ty) : Gens → Option Gens
  | .nil => some .nil
  | .lifetime l gs => (unselfedGens s gs).map (.lifetime l)
  | .type t gs => (unselfed s t).bind fun t => (unselfedGens s gs).map (.type t)
  | .other k gs => (unselfedGens s gs).map (.other k)

end

mutual

/-- `Ty::replace_self` (traits.rs:1322-1404). -/
def replaceSelf (w : Nat) : Ty → Ty
  | .never => .never
  | .unit => .unit
  | .selfRef t => .arbitrary w t
  | .arbitrary p n => .arbitrary p (replaceSelf w n)
  | .reference l m e => .reference l m (replaceSelf w e)
  | .ptr c m e => .ptr c m (replaceSelf w e)
  | .array e n => .array (replaceSelf w e) n
  | .bareFn l u a i o => .bareFn l u a (replaceSelfTys w i) (replaceSelf w o)
  | .path g a n => .path g (replaceSelfArgs w a) (replaceSelfO w n)
  | .leadingColon n => .leadingColon (replaceSelf w n)
  | .qualified t a n => .qualified (replaceSelf w t) (replaceSelf w a) (replaceSelf w n)

def replaceSelfO (w : Nat) : OTy → OTy
  | .none => .none
  | .some t => .some (replaceSelf w t)

def replaceSelfTys (w : Nat) : Tys → Tys
  | .nil => .nil
  | .cons t ts => .cons (replaceSelf w t) (replaceSelfTys w ts)

def replaceSelfArgs (w : Nat) : Args → Args
  | .none => .none
  | .angle gs => .angle (replaceSelfGens w gs)

def replaceSelfGens (w : Nat) : Gens → Gens
  | .nil => .nil
  | .lifetime l gs => .lifetime l (replaceSelfGens w gs)
  | .type t gs => .type (replaceSelf w t) (replaceSelfGens w gs)
  | .other k gs => .other k (replaceSelfGens w gs)

end

mutual

/-- `Ty::rec_self_dependent_types` (traits.rs:1177-1219): what is pushed, in that order. -/
def selfDependent : Ty → List Ty
  | .selfRef t => [t]
  | .never => []
  | .unit => []
  | .leadingColon e => selfDependent e
  | .arbitrary _ e => selfDependent e
  | .reference _ _ e => selfDependent e
  | .ptr _ _ e => selfDependent e
  | .array e _ => selfDependent e
  | .bareFn _ _ _ i o => selfDependent o ++ selfDependentTys i
  | .path _ a n => selfDependentArgs a ++ selfDependentO n
  | .qualified t a n => selfDependent t ++ selfDependent a ++ selfDependent n

def selfDependentO : OTy → List Ty
  | .none => []
  | .some t => selfDependent t

def selfDependentTys : Tys → List Ty
  | .nil => []
  | .cons t ts => selfDependent t ++ selfDependentTys ts

def selfDependentArgs : Args → List Ty
  | .none => []
  | .angle gs => selfDependentGens gs

def selfDependentGens : Gens → List Ty
  | .nil => []
  | .lifetime _ gs => selfDependentGens gs
  | .type t gs => selfDependent t ++ selfDependentGens gs
  | .other _ gs => selfDependentGens gs

end

mutual

/-- `PartialEq for Ty` (traits.rs:939-1016). -/
def tyEq : Ty → Ty → Bool
  | .arbitrary p n, .arbitrary p' n' => p == p' && tyEq n n'
  | .selfRef t, .selfRef t' => tyEq t t'
  | .reference l m e, .reference l' m' e' => decide (l = l') && m == m' && tyEq e e'
  | .ptr c m e, .ptr c' m' e' => c == c' && m == m' && tyEq e e'
  | .array _ _, _ => false
  | .bareFn _ _ _ _ _, _ => false
  | .path g _ n, .path g' _ n' => decide (g = g') && otyEq n n'
  | .leadingColon n, .leadingColon n' => tyEq n n'
  | .qualified t a n, .qualified t' a' n' => tyEq t t' && tyEq a a' && tyEq n n'
  | .never, .never => true
  | .unit, .unit => true
  | _, _ => false

def otyEq : OTy → OTy → Bool
  | .none, .none => true
  | .some t, .some t' => tyEq t t'
  | _, _ => false

end

mutual

/-- `Ty::elide_lifetime` (traits.rs:1103-1146). -/
def elide : Ty → Ty
  | .never => .never
  | .unit => .unit
  | .reference l m e => .reference (l.map fun _ => .static) m (elide e)
  | .array e n => .array (elide e) n
  | .ptr c m e => .ptr c m (elide e)
  | .leadingColon n => .leadingColon (elide n)
  | .arbitrary p n => .arbitrary p (elide n)
  | .selfRef t => .selfRef (elide t)
  | .bareFn l u a i o => .bareFn l u a i o
  | .path g a n => .path g (elideArgs a) (elideO n)
  | .qualified t a n => .qualified (elide t) (elide a) (elide n)

def elideO : OTy → OTy
  | .none => .none
  | .some t => .some (elide t)

def elideArgs : Args → Args
  | .none => .none
  | .angle gs => .angle (elideGens gs)

def elideGens : Gens → Gens
  | .nil => .nil
  | .lifetime _ gs => .lifetime .static (elideGens gs)
  | .type t gs => .type (elide t) (elideGens gs)
  | .other k gs => .other k (elideGens gs)

end

/-- `DynTraitFn` (traits.rs:167-175).  Calling conventions, `unsafe` and the lifetimes of the receiver are left out: they are copied.
-/
structure Method where
  name : Nat
  mutable : Bool
  inputs : List Ty
  output : Option Ty

/-- An item of a trait: a method or an associated type. -/
inductive Item where
  | method (m : Method)
  | assoc (name : Nat)

/-- `DynTraitDescription` (traits.rs:151-161), without generics, bounds of associated types and attributes. -/
structure Desc where
  functions : List Method
  mutFunctions : List Method
  sdts : List Ty
  check : Bool

/-- `DynTraitFn::self_dependent_types` (traits.rs:411-420). -/
def Method.selfDependent (m : Method) : List Ty :=
  (match m.output with | some t => Traits.selfDependent t | none => []) ++ m.inputs.flatMap Traits.selfDependent

/-- The loop over the items (traits.rs:246-396): one step. -/
def addItem (d : Desc) : Item → Desc
  | .method m =>
    if m.mutable then { d with mutFunctions := d.mutFunctions ++ [m] } else { d with functions := d.functions ++ [m] }
  | .assoc n => { d with sdts := push d.sdts (.path (.user n) .none .none) }

/-- `From<(&mut ItemTrait, bool)> for DynTraitDescription` (traits.rs:207-406), for the items that it accepts. -/
def describe (items : List Item) (checked : Bool) : Desc :=
  let d := items.foldl addItem ⟨[], [], [], checked⟩
  { d with sdts := extend d.sdts ((d.functions ++ d.mutFunctions).flatMap Method.selfDependent) }

/-- `self.functions.iter().chain(&self.mut_functions)`: the order of the fields of the vtable (traits.rs:584-598). -/
def Desc.methods (d : Desc) : List Method := d.functions ++ d.mutFunctions

/-- The types of a function pointer, without the receiver. -/
structure Sig where
  inputs : List Ty
  output : Option Ty
  deriving DecidableEq

/-- `DynTraitFn::field_signature` (traits.rs:472-498): the type of the field of the vtable. -/
def fieldSig (s : List Ty) (m : Method) : Option Sig :=
  (m.inputs.mapM (unselfed s)).bind fun i =>
    match m.output with
    | none => some ⟨i, none⟩
    | some o => (unselfed s o).map fun o => ⟨i, some o⟩

/-- `DynTraitFn::ptr_signature` (traits.rs:421-447): the type to which the method of the implementor is coerced before `transmute`;
`w` stands for `<StabbyArbitraryType as Trait<..>>`. -/
def ptrSig (w : Nat) (m : Method) : Sig := ⟨m.inputs.map (replaceSelf w), m.output.map (replaceSelf w)⟩

/-- The condition of `StableIf`. -/
inductive Cond where
  | unit
  | type (t : Ty)
  | union (c : Cond) (t : Ty)

/-- A part of the condition: the type, when `unselfed` did not change it (traits.rs:451-458, 463-464). -/
def condOf (s : List Ty) (t : Ty) : Option Ty :=
  match unselfed s t with
  | some u => if tyEq u t then some (elide u) else none
  | none => none

/-- The condition before the inputs are added (traits.rs:451-462). -/
def outputCond (s : List Ty) : Option Ty → Cond
  | none => .unit
  | some t => match condOf s t with
    | some u => .type u
    | none => .unit

/-- A step of the loop over the inputs (traits.rs:463-469). -/
def addInput (s : List Ty) (c : Cond) (t : Ty) : Cond :=
  match condOf s t with
  | some u => .union c u
  | none => c

/-- `DynTraitFn::stability_cond` (traits.rs:448-471). -/
def stabilityCond (s : List Ty) (m : Method) : Cond := m.inputs.foldl (addInput s) (outputCond s m.output)

/-- Whether the condition is `IStable`, given which types are: `()` is, `Union<A, B>` is when both are
(istable.rs:527). -/
def Cond.holds (stable : Ty → Prop) : Cond → Prop
  | .unit => True
  | .type t => stable t
  | .union c t => c.holds stable ∧ stable t

/-- Whether the vtable is `IStable`: all its fields are.  A field is `StableLike<fn, &'static ()>`, which is always `IStable`
(lib.rs:260-271), or when the trait is checked `StableIf<_, Cond>`, which is when the condition is (lib.rs:346-357; traits.rs:599-606). -/
def Desc.stable (stable : Ty → Prop) (d : Desc) : Prop :=
  ∀ m ∈ d.methods, if d.check then (stabilityCond d.sdts m).holds stable else True

/-- Whether the vtable of `dyn FnOnce(I0, ..) -> O` is `IStable`: its only field is `StableIf<StableLike<fn, &'static ()>, O>`
(gen_closures.rs:51-54). -/
def onceStable (stable : Ty → Prop) (_inputs : List Ty) (output : Ty) : Prop := (Cond.type output).holds stable

/-- The vtables of `dyn FnMut(I0, ..) -> O` and `dyn Fn(I0, ..) -> O` are those of `CallMut` and `Call`, which are not checked
(gen_closures.rs:109-114, 120-128, 134-136). -/
def callDesc (mutable : Bool) (inputs : List Ty) (output : Ty) : Desc := describe [.method ⟨0, mutable, inputs, some output⟩] false

/-- The constant vtable of a type (traits.rs:721-747): the methods stored in the fields, in the order of the fields. -/
def Desc.slots (d : Desc) : List Nat := d.methods.map (·.name)

/-- `self.vtable().tderef().#fn_ids`: the position of the field that a method of the trait object reads (traits.rs:805, 837, 887). -/
def Desc.slotOf (d : Desc) (name : Nat) : Option Nat := d.methods.findIdx? (fun m => m.name == name)

/-- The methods of `{Trait}Dyn`, implemented by `DynRef` and `Dyn` (traits.rs:779-842). -/
def Desc.shared (d : Desc) : List Nat := d.functions.map (·.name)

/-- The methods of `{Trait}DynMut`, implemented by `Dyn` (traits.rs:845-891). -/
def Desc.exclusive (d : Desc) : List Nat := d.mutFunctions.map (·.name)

/-- A generic parameter of a trait. -/
inductive Param where
  | lifetime (n : Nat)
  | type (n : Nat)
  | const (n : Nat)
  deriving DecidableEq, Repr

/-- A parameter of the generated vtable: one of the trait's, or a type that depends on `Self`. -/
inductive VtParam where
  | param (p : Param)
  | unselfed (n : Nat)
  deriving DecidableEq, Repr

/-- The loop of `vt_generics` (traits.rs:504-529); `n` is the number of types that depend on `Self`, when they have not been put yet. -/
def vtGenericsLoop : Option Nat → List Param → List VtParam
  | none, [] => []
  | some n, [] => (List.range n).map .unselfed
  | o, .lifetime l :: ps => .param (.lifetime l) :: vtGenericsLoop o ps
  | none, .type t :: ps => .param (.type t) :: vtGenericsLoop none ps
  | some n, .type t :: ps => (List.range n).map .unselfed ++ .param (.type t) :: vtGenericsLoop none ps
  | o, .const c :: ps => .param (.const c) :: vtGenericsLoop o ps

/-- `vt_generics` (traits.rs:504-534): the parameters with which the vtable is declared. -/
def vtGenerics (n : Nat) (ps : List Param) : List VtParam := vtGenericsLoop (some n) ps

/-- `Generics::lifetimes` (stabby-macros/src/utils.rs:83-92). -/
def Param.isLifetime : Param → Bool
  | .lifetime _ => true
  | _ => false

/-- `Generics::types` (stabby-macros/src/utils.rs:93-102). -/
def Param.isType : Param → Bool
  | .type _ => true
  | _ => false

/-- `vt_signature` (traits.rs:660-666): the arguments with which the vtable is used everywhere else. -/
def vtSignature (n : Nat) (ps : List Param) : List VtParam :=
  (ps.filter Param.isLifetime).map .param ++ (List.range n).map .unselfed ++
    (ps.filter Param.isType).map .param

/-- The tokens before the parameters of a function pointer. -/
inductive Tok where
  | forLifetimes
  | abi
  | unsafety
  | fn
  deriving DecidableEq, Repr

/-- `quote!(#forgen #generics #abi #unsafety fn(..))`: the head of the types of the fields of the vtable and of the pointers
(traits.rs:446, 497). -/
def pointerHead (generic isUnsafe : Bool) : List Tok :=
  (if generic then [.forLifetimes] else []) ++ [.abi] ++ (if isUnsafe then [.unsafety] else []) ++ [.fn]

end Verif.Macros.Traits
