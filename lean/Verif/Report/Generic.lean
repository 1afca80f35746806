import Verif.Report.Model

/-! Reports of generic and of recursive types (stabby-macros/src/lib.rs:426-463, 485-711; stabby-abi/src/istable.rs:594-596). -/
namespace Verif.Report.Generic
open Verif.Report

/-- A lifetime: `'static` (also for pointers without lifetime), one of the program, or a parameter of the declaration. -/
inductive Lt where
  | static
  | named (n : Nat)
  | param (i : Nat)
deriving DecidableEq

/-- Module, name, kind and version of a `#[stabby]` type. -/
structure Header where
  module : Str
  name : Str
  kind : TyTy
  version : Nat
deriving DecidableEq

/-- Types.  A type defined with `#[stabby]` comes with its arguments (lifetimes, constants, types) and with the fields of its declaration, in which
`param`, `var` and `self` refer to these arguments and to the type itself.  Lengths of arrays are part of the name of `wrap` (`[T;3]`,
stable_impls/mod.rs:927-983): those given by a parameter are left out. -/
inductive Ty where
  | var (i : Nat)
  /-- `Self`, or the name of the type that is being declared, without arguments (lib.rs:494-497) -/
  | self
  | prim (name : Str)
  /-- references, pointers, arrays, ... -/
  | wrap (name : Str) (lt : Lt) (t : Ty)
  | phantom (t : Ty)
  | item (h : Header) (lts : List Lt) (consts : List Nat) (args : List Ty) (fields : List (Str × Ty))

def phantomName : Str := [99, 111, 114, 101, 58, 58, 109, 97, 114, 107, 101, 114, 58, 58, 80, 104, 97, 110, 116, 111, 109, 68, 97, 116, 97] -- "core::marker::PhantomData"
def istableModule : Str := [115, 116, 97, 98, 98, 121, 95, 97, 98, 105, 58, 58, 105, 115, 116, 97, 98, 108, 101] -- "stabby_abi::istable"
def selfName : Str := [95, 83, 101, 108, 102] -- "_Self"

/-- `<_Self as IStable>::REPORT` (istable.rs:594-596). -/
def selfReport : Report := .mk selfName istableModule .none .struct 0

/-- What a type parameter without argument stands for: does not happen. -/
def noReport : Report := .mk [] implsModule .none .struct 0

mutual
/-- `IStable::REPORT` for given reports of the type parameters.  The layout and the report of `#[stabby]` types are computed from field types in
which `Self` is replaced by `_Self` (structs.rs:138, 156; enums.rs:189, 207, 222; unions.rs:73).  `PhantomData`'s has no fields
(stable_impls/mod.rs:256-266); lifetimes and constants do not occur (lib.rs:426-463). -/
def rep (env : Nat → Report) : Ty → Report
  | .var i => env i
  | .self => selfReport
  | .prim n => .mk n implsModule .none .struct 0
  | .wrap n _ t => .mk n implsModule (.some inner (rep env t) .none) .struct 0
  | .phantom _ => .mk phantomName implsModule .none .struct 0
  | .item h _ _ args fs => .mk h.name h.module (repFields (fun i => (reps env args).getD i noReport) .none fs) h.kind h.version
def reps (env : Nat → Report) : List Ty → List Report
  | [] => []
  | t :: ts => rep env t :: reps env ts
/-- The last field comes first (lib.rs:426-445). -/
def repFields (env : Nat → Report) (acc : Fields) : List (Str × Ty) → Fields
  | [] => acc
  | (n, t) :: fs => repFields env (.some n (rep env t) acc) fs
end

/-- The report of a type without parameters. -/
def report (t : Ty) : Report := rep (fun _ => noReport) t

/-! ### What types are -/

def substLt (lts : List Lt) : Lt → Lt
  | .param i => lts.getD i .static
  | l => l

mutual
/-- The type of a field, for given arguments and a given `Self`. -/
def subst (lts : List Lt) (args : List Ty) (s : Ty) : Ty → Ty
  | .var i => args.getD i (.prim [])
  | .self => s
  | .prim n => .prim n
  | .wrap n l t => .wrap n (substLt lts l) (subst lts args s t)
  | .phantom t => .phantom (subst lts args s t)
  | .item h ls cs as fs => .item h (ls.map (substLt lts)) cs (substs lts args s as) fs
def substs (lts : List Lt) (args : List Ty) (s : Ty) : List Ty → List Ty
  | [] => []
  | t :: ts => subst lts args s t :: substs lts args s ts
end

/-- A type, written out to a certain depth. -/
inductive Shape where
  | cut
  | prim (name : Str)
  | wrap (name : Str) (lt : Lt) (t : Shape)
  | phantom (t : Shape)
  | item (h : Header) (lts : List Lt) (consts : List Nat) (fields : List (Str × Shape))

/-- A type written out: `Self` stands for the type itself. -/
def unfold : Nat → Ty → Shape
  | 0, _ => .cut
  | _ + 1, .var _ => .cut
  | _ + 1, .self => .cut
  | _ + 1, .prim n => .prim n
  | k + 1, .wrap n l t => .wrap n l (unfold k t)
  | k + 1, .phantom t => .phantom (unfold k t)
  | k + 1, .item h ls cs as fs => .item h ls cs (fs.map fun f => (f.1, unfold k (subst ls as (.item h ls cs as fs) f.2)))

end Verif.Report.Generic
