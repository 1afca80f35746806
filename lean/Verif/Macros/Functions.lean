/-! Executable model of `#[stabby] fn` and `#[stabby::export] fn` (`stabby-macros/src/functions.rs`), and of the rules of Rust that decide whether what they
expand to compiles. -/
namespace Verif.Macros.Functions

/-- A type in a signature: which one, and whether it has references whose lifetime is elided. -/
structure Ty where
  id : Nat
  elided : Bool
  deriving DecidableEq, Repr

/-- The calling convention that is written: none, `extern`, `extern "name"`. -/
inductive Abi where
  | absent
  | unnamed
  | named (name : String)
  deriving DecidableEq, Repr

/-- A parameter: `self`, `&self`, `&mut self`; or a pattern (is it a plain identifier?) with a type. -/
inductive Param where
  | receiver
  | typed (plain : Bool) (t : Ty)
  deriving DecidableEq, Repr

/-- `syn::ItemFn`, without its visibility and attributes (which are copied).  `uses` are the positions of the parameters that the body uses without moving them:
because their type is `Copy`, or by reference. -/
structure Fn where
  abi : Abi
  isConst : Bool
  isAsync : Bool
  isUnsafe : Bool
  generics : Nat
  wheres : Nat
  params : List Param
  output : Option Ty
  uses : List Nat
  deriving DecidableEq, Repr

/-- `Attrs` (functions.rs:26-40): `none` is `'static`. -/
structure Attrs where
  unsend : Bool := false
  unsync : Bool := false
  lt : Option Nat := none
  deriving DecidableEq, Repr

/-- Qualifiers of a function. -/
inductive Qual where
  | constQ | asyncQ | unsafeQ | externQ
  deriving DecidableEq, Repr

/-- A return type: nothing, a type, `Dyn<'lt, Box<()>, vtable!(Future<Output = t> + Send? + Sync?)>`. -/
inductive Ret where
  | unit
  | ty (t : Ty)
  | future (lt : Option Nat) (output : Option Ty) (send sync : Bool)
  deriving DecidableEq, Repr

/-- What is expanded to: a function with its qualifiers in the order in which they are written, and the types that are asserted to be stable; `none` is `Self`. -/
structure Emitted where
  quals : List Qual
  abi : String
  generics : Nat
  wheres : Nat
  params : List Param
  output : Ret
  asserts : List (Option Ty)
  /-- the body is in an `async` block (without `move`) -/
  asyncBlock : Bool
  uses : List Nat
  deriving DecidableEq, Repr

/-- The calling conventions that are accepted (functions.rs:107-118). -/
def conventions : List String :=
  ["C", "system", "stdcall", "aapcs", "cdecl", "fastcall", "win64", "sysv64", "C-unwind", "system-unwind"]

/-- The convention (functions.rs:101-124); `none` is the panic. -/
def convention : Abi → Option String
  | .absent => some "C"
  | .unnamed => some "C"
  | .named n => if n ∈ conventions then some n else none

/-- What a parameter is asserted to be (functions.rs:129-132). -/
def assertParam : Param → Option Ty
  | .receiver => none
  | .typed _ t => some t

/-- `#[stabby] fn` (functions.rs:79-160).  The qualifiers are written as `unsafe const extern`; `#generics` writes the parameters, but not the `where` clause. -/
def stabby (a : Attrs) (f : Fn) : Option Emitted :=
  (convention f.abi).map fun abi =>
    { quals := (if f.isUnsafe then [.unsafeQ] else []) ++ (if f.isConst then [.constQ] else []) ++ [.externQ]
      abi
      generics := f.generics
      wheres := 0
      params := f.params
      output := if f.isAsync then .future a.lt f.output (!a.unsend) (!a.unsync) else match f.output with
        | none => .unit
        | some t => .ty t
      asserts := (match f.output with | none => [] | some t => [some t]) ++ f.params.map assertParam
      asyncBlock := f.isAsync
      uses := f.uses }

/-- The position of a qualifier in the grammar of Rust. -/
def Qual.rank : Qual → Nat
  | .constQ => 0
  | .asyncQ => 1
  | .unsafeQ => 2
  | .externQ => 3

/-- Qualifiers are written in the order `const async unsafe extern`. -/
def inOrder : List Qual → Bool
  | q :: r :: l => decide (q.rank < r.rank) && inOrder (r :: l)
  | _ => true

/-- What rustc accepts: the qualifiers are in order, the asserted types are stable, the bounds that the body needs (those of the `where` clause of the
source) are there, an `async` block that is returned captures no parameter by reference, and `Box` is a name for stabby's box if it is mentioned. -/
def accepts (stable : Option Ty → Bool) (boxIsStabby : Bool) (needed : Nat) (e : Emitted) : Bool :=
  inOrder e.quals && e.asserts.all stable && decide (needed ≤ e.wheres) && (!e.asyncBlock || (e.uses.isEmpty && boxIsStabby))

/-! ### `#[stabby::export]` -/

/-- A type `async? unsafe? abi? fn(inputs) -> output`. -/
structure FnTy where
  isAsync : Bool
  isUnsafe : Bool
  abi : Abi
  params : List Param
  output : Option Ty
  deriving DecidableEq, Repr

/-- The signature that `export_with_report` (functions.rs:307-350) writes. -/
def signature (f : Fn) : FnTy := ⟨f.isAsync, f.isUnsafe, f.abi, f.params, f.output⟩

/-- The convention of a function pointer type: none is Rust's. -/
def FnTy.convention (t : FnTy) : String :=
  match t.abi with
  | .absent => "Rust"
  | .unnamed => "C"
  | .named n => n

/-- A function pointer type is well-formed: it is not `async`, the parameters are identifiers and types. -/
def FnTy.wellFormed (t : FnTy) : Bool :=
  !t.isAsync && t.params.all fun p => match p with
    | .receiver => false
    | .typed plain _ => plain

/-- It is `IStable` (stable_impls/mod.rs:849-910): up to 15 parameters, all types stable, `C` or `C-unwind`, and not for all lifetimes at once. -/
def FnTy.stable (stable : Option Ty → Bool) (t : FnTy) : Bool :=
  (t.convention == "C" || t.convention == "C-unwind") && decide (t.params.length ≤ 15) &&
  (t.params.all fun p => match p with
    | .receiver => false
    | .typed _ t => stable (some t) && !t.elided) &&
  match t.output with
    | none => true
    | some t => stable (some t) && !t.elided

/-- The function that is emitted can be given out as that function pointer: it is not generic, and convention, safety, parameters and result are the same. -/
def coerces (e : Emitted) (t : FnTy) : Bool :=
  decide (e.generics = 0) && e.abi == t.convention && (e.quals.contains .unsafeQ == t.isUnsafe) && e.params == t.params &&
  match e.output, t.output with
    | .unit, none => true
    | .ty x, some y => x == y
    | _, _ => false

/-- Whether an exported function compiles: the definition does, the signature is a type, which is stable, and the function has it. -/
def exportAccepts (stable : Option Ty → Bool) (boxIsStabby : Bool) (f : Fn) : Bool :=
  match stabby {} f with
  | none => false
  | some e => accepts stable boxIsStabby f.wheres e && (signature f).wellFormed && (signature f).stable stable && coerces e (signature f)

end Verif.Macros.Functions
