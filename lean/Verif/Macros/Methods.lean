/-! Model of what `#[stabby] trait` makes of the lifetimes and the calling conventions of methods (stabby-macros/src/traits.rs:176-193, 246-331, 421-447,
472-498).  Types are lists of the lifetimes that occur in them, outside of nested function types: all that the macro does to types keeps these as they
are, but for associated types of `Self`, which have none. -/
namespace Verif.Macros.Methods

/-- A lifetime as it is written: `'_` or nothing, `'static`, or a name. -/
inductive Lt where
  | elided
  | static
  | named (n : Nat)
  deriving DecidableEq, Repr

/-- Calling conventions. -/
inductive Conv where
  | cc | system | stdcall | aapcs | cdecl | fastcall | win64 | sysv64 | cUnwind | systemUnwind
  | other (n : Nat)
  deriving DecidableEq, Repr

/-- What comes before `fn`: nothing, `extern`, or `extern` with a convention. -/
inductive Abi where
  | none
  | extern
  | named (c : Conv)
  deriving DecidableEq, Repr

/-- The first parameter of a method. -/
inductive Receiver where
  | ref (lt : Lt) (mutable : Bool)
  | other
  deriving DecidableEq, Repr

/-- A parameter of a method: a lifetime with its bounds; all others are `type`. -/
inductive GParam where
  | lifetime (n : Nat) (bounds : List Lt)
  | type (n : Nat)
  deriving DecidableEq, Repr

/-- A method of a trait.  `bounded` are the lifetimes of the predicates of its `where` clause. -/
structure Method where
  isAsync : Bool
  variadic : Bool
  isUnsafe : Bool
  abi : Abi
  params : List GParam
  receiver : Receiver
  inputs : List (List Lt)
  output : List Lt
  bounded : List (List Lt)
  deriving DecidableEq, Repr

/-- `DynTraitFn` (traits.rs:167-175), without the name. -/
structure DynFn where
  params : List GParam
  abi : Conv
  isUnsafe : Bool
  lt : Lt
  mutable : Bool
  inputs : List (List Lt)
  output : List Lt
  deriving DecidableEq, Repr

/-- The conventions that are accepted (traits.rs:282-285). -/
def accepted : Conv → Bool
  | .other _ => false
  | _ => true

/-- The convention of a method (traits.rs:276-291); `none` is the panic. -/
def conv : Abi → Option Conv
  | .none => none
  | .extern => some .cc
  | .named c => if accepted c then some c else none

def GParam.isLifetime : GParam → Bool
  | .lifetime _ _ => true
  | .type _ => false

/-- What is read of a method (traits.rs:248-330); `none` is a panic. -/
def readMethod (m : Method) : Option DynFn :=
  if m.isAsync || m.variadic || m.params.any (fun g => !g.isLifetime) then none
  else (conv m.abi).bind fun c => match m.receiver with
    | .ref lt mutable => some ⟨m.params, c, m.isUnsafe, lt, mutable, m.inputs, m.output⟩
    | .other => none

/-- What comes before `fn`, each as it is written. -/
inductive Qual where
  | unsafe_
  | extern (c : Conv)
  deriving DecidableEq, Repr

/-- A type of function pointers: the lifetimes after `for`, what comes before `fn`, the parameters and the output. -/
structure Pointer where
  params : List GParam
  quals : List Qual
  inputs : List (List Lt)
  output : List Lt
  deriving DecidableEq, Repr

/-- The type of the field of the vtable and of the pointer to the implementation: they differ in the type behind the receiver only (traits.rs:421-447,
472-498). -/
def pointer (f : DynFn) : Pointer := ⟨f.params, .extern f.abi :: (if f.isUnsafe then [.unsafe_] else []), [f.lt] :: f.inputs, f.output⟩

/-- The method of `{Trait}Dyn` or `{Trait}DynMut` (traits.rs:176-193): the `where` clause is not there. -/
def method (f : DynFn) : Method :=
  ⟨false, false, f.isUnsafe, .named f.abi, f.params, .ref f.lt f.mutable, f.inputs, f.output, []⟩

end Verif.Macros.Methods
