import Verif.Layout.Macro
import Verif.Sum.Variants

/-! `has_optimal_layout` and the assertions that use it (stabby-macros/src/structs.rs:117, 133, 202-214, 258-260; enums.rs:546-579). -/
namespace Verif.Layout.Optimal
open Verif.Layout Verif.Sum

/-- `has_optimal_layout` of a struct (structs.rs:258-260): `rust` is the size rustc gives to the same fields without `repr`. -/
def structOptimal (fields : List Lay) (rust : Nat) : Bool := decide ((structOf fields).size ≤ rust)

/-- Whether the struct compiles: the assertion is emitted unless `no_opt` is given, the struct has generics (lifetimes included), or
`repr(align)` (structs.rs:117, 133, 202). -/
def structAccepted (noOpt : Bool) (generics : Nat) (reprAlign : Bool) (fields : List Lay) (rust : Nat) : Bool :=
  !((!noOpt && generics = 0) && !reprAlign) || structOptimal fields rust

/-- `has_optimal_layout` of an enum without `repr` (enums.rs:557-559): `reprU8` is the size of the same enum with `#[repr(u8)]`. -/
def enumOptimal (variants : List Ty) (reprU8 : Nat) : Bool := decide ((build variants).ty.lay.size < reprU8)

end Verif.Layout.Optimal
