import Verif.Macros.Canary

/-! Model of what `#[stabby::import]` expands to (stabby-macros/src/functions.rs:383-502), and of Rust's resolution of names in it. -/
namespace Verif.Import.Expand
open Verif.Macros

abbrev Name := List Char

/-- A path to a type: `::n`, `n`, `self::n` or `super::n`; only the first segments matter. -/
inductive Path where
  | root (n : Name)
  | name (n : Name)
  | self (n : Name)
  | super (n : Name)
deriving DecidableEq, Repr

/-- `async? unsafe? fn<..>(inputs) -> output`, with the number of parameters in `<..>`. -/
structure Sig where
  isUnsafe : Bool
  generics : Nat
  inputs : List Path
  output : Option Path
deriving DecidableEq, Repr

/-- A function of the block, with its attributes and visibility (numbered). -/
structure Fn where
  attrs : List Nat
  vis : Nat
  name : Name
  isAsync : Bool
  sig : Sig
deriving DecidableEq, Repr

/-- An item of the block. -/
inductive Item where
  | fn (f : Fn)
  | static (n : Name)
  | type (n : Name)
  | other
deriving DecidableEq, Repr

/-- The attribute's arguments `key = "value"` and the block that it is on; the calling convention of the block is copied to where it is needed. -/
structure Block where
  args : List (Name × Name)
  attrs : List Nat
  items : List Item

/-- What is declared in the `extern` block of the expansion. -/
inductive Extern where
  /-- an item as it was written -/
  | item (i : Item)
  /-- `pub(crate) fn name();` -/
  | canary (n : Name)
  /-- `fn name() -> &'static TypeReport;` -/
  | report (n : Name)
  /-- `fn name(report: &TypeReport) -> Option<sig>;` -/
  | stabbied (n : Name) (sig : Sig)
deriving DecidableEq, Repr

/-- A `pub static` of the expansion. -/
inductive Static where
  /-- `CanariedImport::new(symbol, || canaries)` -/
  | canaried (n : Name) (sig : Sig) (symbol : Name) (canaries : List Name)
  /-- `CheckedImport::new(stabbied, report, <sig as IStable>::REPORT)` -/
  | checked (n : Name) (sig : Sig) (stabbied report : Name)
deriving DecidableEq, Repr

/-- `#vis use modid::inner as outer;` -/
structure Use where
  vis : Nat
  inner : Name
  outer : Name
deriving DecidableEq, Repr

/-- `mod modid { #(attrs)* #[link(link)] extern { externs } statics } uses`. -/
structure Expansion where
  attrs : List Nat
  link : List (Name × Name)
  externs : List Extern
  statics : List Static
  uses : List Use
deriving DecidableEq, Repr

/-- The argument that isn't one of `#[link]` (functions.rs:413). -/
def key : Name := "canaries".toList

/-- One argument (functions.rs:410-418). -/
def parseArg (alphabetic : Char → Bool) (this : Option Nat × List (Name × Name)) (arg : Name × Name) : Option (Option Nat × List (Name × Name)) :=
  if arg.1 = key then (Canary.fromStr alphabetic arg.2).map fun s => (some s, this.2) else some (this.1, this.2 ++ [arg])

/-- `ImportArgs` (functions.rs:399-421): the canaries, and the arguments of `#[link]`; `none` is the panic of `unwrap`. -/
def parseArgs (alphabetic : Char → Bool) (args : List (Name × Name)) : Option (Option Nat × List (Name × Name)) :=
  args.foldlM (parseArg alphabetic) (none, [])

/-- The names that are made from a function's (functions.rs:448, 471, 472). -/
def canariedName (n : Name) : Name := n ++ "_canaried".toList
def stabbiedName (n : Name) : Name := n ++ "_stabbied_v3".toList
def reportName (n : Name) : Name := stabbiedName n ++ "_report".toList

/-- An item with canaries (functions.rs:440-464). -/
def canariedItem (b : Canary.Build) (spec : Nat) (e : Expansion) : Item → Option Expansion
  | .fn f => do
    let cs ← Canary.canaries spec
    let ids ← Canary.all (cs.map fun c => (Canary.suffix b c).map (f.name ++ ·))
    some { e with
      externs := e.externs ++ .item (.fn f) :: ids.map .canary
      statics := e.statics ++ [.canaried (canariedName f.name) { f.sig with isUnsafe := true } f.name ids]
      uses := e.uses ++ [⟨f.vis, canariedName f.name, f.name⟩] }
  | .static _ => none
  | .type n => some { e with externs := e.externs ++ [.item (.type n)] }
  | .other => none

/-- An item without canaries (functions.rs:468-487). -/
def checkedItem (e : Expansion) : Item → Option Expansion
  | .fn f =>
    if f.isAsync then none else
    some { e with
      externs := e.externs ++ [.report (reportName f.name), .stabbied (stabbiedName f.name) f.sig]
      statics := e.statics ++ [.checked f.name f.sig (stabbiedName f.name) (reportName f.name)]
      uses := e.uses ++ [⟨f.vis, f.name, f.name⟩] }
  | .static _ => none
  | .type n => some { e with externs := e.externs ++ [.item (.type n)] }
  | .other => none

/-- `import` (functions.rs:423-502). -/
def expand (alphabetic : Char → Bool) (b : Canary.Build) (block : Block) : Option Expansion := do
  let (canaries, link) ← parseArgs alphabetic block.args
  let e : Expansion := ⟨block.attrs, link, [], [], []⟩
  match canaries with
  | some spec => block.items.foldlM (canariedItem b spec) e
  | none => block.items.foldlM checkedItem e

/-! ### Resolution of names -/

/-- What types names stand for, seen from the module of the block: declared or imported there, in its parent module, in the prelude (with the names of
crates), and after `::`. -/
structure Env where
  here : Name → Option Nat
  above : Name → Option Nat
  prelude : Name → Option Nat
  root : Name → Option Nat

/-- The type that a path stands for in the module of the block. -/
def Env.resolve (v : Env) : Path → Option Nat
  | .root n => v.root n
  | .name n => (v.here n).or (v.prelude n)
  | .self n => v.here n
  | .super n => v.above n

/-- The modules as seen from the module of the expansion, in which only the foreign types of the block are declared; `foreign` says which types these
are. -/
def Env.inside (v : Env) (foreign : Name → Nat) (e : Expansion) : Env where
  here n := if .item (.type n) ∈ e.externs then some (foreign n) else none
  above := v.here
  prelude := v.prelude
  root := v.root

end Verif.Import.Expand
