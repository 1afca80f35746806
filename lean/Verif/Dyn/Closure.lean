/-! Trait objects of closures (stabby-macros/src/gen_closures.rs:16-139, expanded once by stabby-abi/src/closure.rs:16).

Identifiers that are made of a fixed text and a number (`format_ident!("_{i}")`) are modelled by the number.  Closures are state machines: the
state is what they captured, and user code may change it also through `&self` (interior mutability).  Who frees the memory of a box and in
which order is in `Alloc/Box.lean`. -/
namespace Verif.Dyn.Closure

/-- The three families of traits, in the order `Fn`, `FnMut`, `FnOnce`. -/
inductive Kind where
  | shared | exclusive | once
  deriving DecidableEq, Repr

/-- Lifetimes in the signature of a `dyn Fn(..) -> ..`: of the surrounding code, or bound by the signature itself, as are the elided ones
(`Fn(&u8)` is `for<'a> Fn(&'a u8)`). -/
inductive Lt where
  | outer (n : Nat)
  | bound (n : Nat)
  deriving DecidableEq, Repr

/-- Types of arguments and results. -/
inductive Ty where
  | named (n : Nat)
  | ref (l : Lt) (t : Ty)
  | pair (a b : Ty)
  deriving DecidableEq, Repr

/-- `Fn(inputs) -> output`. -/
structure Sig where
  inputs : List Ty
  output : Ty
  deriving DecidableEq, Repr

/-- The numbers of arguments for which traits are generated (gen_closures.rs:18). -/
def arities : List Nat := List.range 10

/-- `argtys` and `args` (gen_closures.rs:27-28): the names of the type parameters and of the arguments for `i` arguments. -/
def argtys (i : Nat) : List Nat := List.range i
def args (i : Nat) : List Nat := List.range i

/-- Whether the type has a lifetime bound by the signature. -/
def Ty.binds : Ty → Bool
  | .named _ => false
  | .ref (.bound _) _ => true
  | .ref (.outer _) t => t.binds
  | .pair a b => a.binds || b.binds

/-- The headers `impl<O, I0, ..> CompoundVt for dyn Fn(I0, ..) -> O` (gen_closures.rs:78-80, 120-122, 134-136) with types for the
parameters.  No type that stands for a parameter mentions a lifetime bound by the signature, which is not in scope there. -/
def headerAt (i : Nat) (θ : Nat → Ty) (o : Ty) : Sig := ⟨(argtys i).map θ, o⟩

/-- Whether `dyn FnX sig` has a vtable: a header with as many arguments matches.  It fixes the types of the parameters, which must be types
of the scope of the header. -/
def hasVt (s : Sig) : Bool := arities.contains s.inputs.length && s.inputs.all (fun t => !t.binds) && !s.output.binds

/-- What a trait object is made of: `&F`, `&mut F`, a box, an `Arc`; boxes of the default allocator or of another one. -/
inductive Ptr where
  | ref | refMut | box (default : Bool) | arc
  deriving DecidableEq, Repr

/-- Whether the pointer is an `IPtrMut` (fatptr.rs:63-67; alloc/boxed.rs:231-235); there is no other implementation. -/
def Ptr.isMut : Ptr → Bool
  | .refMut | .box _ => true
  | _ => false

/-- Whether the method of a family can be called on the object `Dyn<P, vtable!(FnX)>` (`DynRef` for `&F`); `allocRs` is the feature.
* `call` is in `CallNDyn`, which `DynRef` and all `Dyn` have (traits.rs:778-842).
* `call_mut` is in `CallMutNDyn`, which needs `IPtrMut` (traits.rs:862-890).
* `call_once` is in `CallOnceDynN`, which there is with the feature, for `Box<()>` in the default allocator (gen_closures.rs:30-33, 65-77).
Each needs the vtable of its own family; the supertrait of `CallN` (gen_closures.rs:125) is not in its vtable. -/
def callable (allocRs : Bool) (p : Ptr) (vt m : Kind) : Bool :=
  match m with
  | .shared => vt == .shared
  | .exclusive => vt == .exclusive && p.isMut
  | .once => vt == .once && p == .box true && allocRs

/-- A function with parameters `names` that passes the variables `passed` on: `none` if it does not compile, because two parameters have the
same name, or a variable is not one of them. -/
def forward {V : Type} (names passed : List Nat) (vals : List V) : Option (List V) :=
  if names.length = vals.length ∧ names.Nodup then passed.mapM (fun x => (names.zip vals).lookup x) else none

/-- The methods of `{Trait}Dyn` and `{Trait}DynMut`, for a method with `n` arguments after the receiver: the parameters (traits.rs:187-190) and
what is passed to the function of the vtable (traits.rs:562-572, 573-583, 805, 837, 887). -/
def dynParams (n : Nat) : List Nat := (List.range n).map (fun i => i)
def dynPassed (n : Nat) : List Nat := (List.range n).foldl (fun r i => r ++ [i]) []

/-- What the closure is called with when the method of the object is called with `vals`.
* `call` and `call_mut`: the method of the trait object passes them on, and the implementation for closures calls `self(..)`
  (gen_closures.rs:115-119, 129-133).
* `call_once`: the method of the trait object (gen_closures.rs:69-75), then the implementation (44-46). -/
def received {V : Type} (m : Kind) (vals : List V) : Option (List V) :=
  let n := vals.length
  let viaObject := match m with
    | .shared | .exclusive => forward (dynParams n) (dynPassed n) vals
    | .once => forward (args n) (args n) vals
  viaObject.bind (fun vs => forward (args n) (args n) vs)

/-- A closure: what a call does to what was captured, and the result, or `none` if it unwinds. -/
abbrev Body (σ V : Type) := σ → List V → σ × Option V

/-- What can be observed of a call: what the closure was given, in which state, and the result; or that it unwound to the caller; or that the
process was stopped. -/
inductive Event (σ V : Type) where
  | returned (state : σ) (given : List V) (result : V)
  | unwound (state : σ) (given : List V)
  | aborted (state : σ) (given : List V)
  deriving DecidableEq, Repr

/-- A program that calls the method `m` of an object with each of the lists of values in turn; an unwinding call would be caught.
All functions on the way are `extern "C"` (gen_closures.rs:37, 42, 113, 128, 116, 130), which abort when something unwinds out of them.  `none` if it does
not compile.  A program that calls `call_once` does so once, for the object is moved. -/
def throughObject {σ V : Type} (m : Kind) (f : Body σ V) (s : σ) : List (List V) → Option (List (Event σ V))
  | [] => some []
  | vals :: rest =>
    (received m vals).bind fun given =>
      match f s given with
      | (s', some r) => if m = .once then some [.returned s given r] else (throughObject m f s' rest).map (.returned s given r :: ·)
      | (_, none) => some [.aborted s given]

/-- The names exported for one number of arguments: traits (gen_closures.rs:19-21), vtables (23-25; those of `#[stabby]` traits are
`StabbyVtable{Trait}`, traits.rs:501-503) and traits of objects (26; traits.rs:674-675). -/
inductive Exported where
  | trait (k : Kind) (i : Nat)
  | vtable (k : Kind) (i : Nat)
  | dyn (k : Kind) (i : Nat)
  | dynMut (k : Kind) (i : Nat)
  deriving DecidableEq, Repr

def exportedAt (allocRs : Bool) (i : Nat) : List Exported :=
  (if allocRs then [.trait .once i, .vtable .once i, .dyn .once i] else []) ++
  [.trait .exclusive i, .vtable .exclusive i, .dyn .exclusive i, .dynMut .exclusive i] ++
  [.trait .shared i, .vtable .shared i, .dyn .shared i, .dynMut .shared i]

def exported (allocRs : Bool) : List Exported := arities.flatMap (exportedAt allocRs)

end Verif.Dyn.Closure
