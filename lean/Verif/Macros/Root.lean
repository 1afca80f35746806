/-! Model of how generated code names stabby-abi: `tl_mod` (stabby-macros/src/lib.rs:52-70), which all macros call.

`proc_macro_crate::crate_name` is not in the repository; it is modelled after its version 3 (Cargo.toml:51 admits 1 to 3).  It reads the tables of the
manifest, whatever cargo then does with their entries. -/
namespace Verif.Macros.Root

/-- Names of packages and crates. -/
abbrev Name := List Char

/-- An entry of `[dependencies]` or `[dev-dependencies]`: its key, its `package = ".."`, its table, and whether cargo builds it (`optional` dependencies
need a feature, those of `[target.'cfg(..)']` a target). -/
structure Dep where
  key : Name
  package : Option Name
  dev : Bool
  enabled : Bool
deriving DecidableEq

def Dep.pkg (d : Dep) : Name := d.package.getD d.key

/-- A package: its name, and the entries in the order in which `crate_name` reads them. -/
structure Manifest where
  name : Name
  deps : List Dep
deriving DecidableEq

/-- Hyphens are underscores in the names of crates. -/
def sanitize (n : Name) : Name := n.map fun c => if c = '-' then '_' else c

/-- `proc_macro_crate::FoundCrate`. -/
inductive Found where
  | itself
  | name (n : Name)
deriving DecidableEq

/-- `proc_macro_crate::crate_name(package)`; `outside`: integration tests and benches, for which cargo sets `CARGO_TARGET_TMPDIR`.  Of several entries for a
package the last one wins. -/
def crateName (m : Manifest) (outside : Bool) (package : Name) : Option Found :=
  if m.name = package then some (if outside then .name (sanitize m.name) else .itself)
  else ((m.deps.filter fun d => d.pkg = package).getLast?).map fun d => .name (sanitize d.key)

def stabbyAbi : Name := ['s', 't', 'a', 'b', 'b', 'y', '-', 'a', 'b', 'i']
def stabby : Name := ['s', 't', 'a', 'b', 'b', 'y']

/-- What generated paths start with: `crate` or the name of a crate, then `::abi` or nothing. -/
structure Path where
  start : Found
  abi : Bool
deriving DecidableEq

/-- `tl_mod` (lib.rs:52-70); `none`: it panics. -/
def tlMod (m : Manifest) (outside : Bool) : Option Path :=
  match crateName m outside stabbyAbi with
  | some f => some ⟨f, false⟩
  | none => (crateName m outside stabby).map fun f => ⟨f, true⟩

end Verif.Macros.Root
