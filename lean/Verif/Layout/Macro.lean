import Verif.Layout.Padding

/-! Layout expressions emitted by `#[stabby]` on structs, unions and explicit-repr enums (stabby-macros). -/
namespace Verif.Layout

/-- Fields in declaration order are nested to the left: `FieldPair<FieldPair<A, B>, C>`
(stabby-macros/src/structs.rs:136-142, 155-161). -/
def nestFields : Lay → List Lay → Lay
  | acc, [] => acc
  | acc, f :: fs => nestFields (Lay.fieldPair acc f) fs

/-- A `#[stabby] struct` without `repr(align)` (structs.rs:177-192): `()` when it has no field, else
`Struct<nested fields>`. -/
def structOf : List Lay → Lay
  | [] => Lay.unit
  | f :: fs => Lay.struct (nestFields f fs)

/-- The alignment number built by halving (structs.rs:181-185). -/
def alignOf : (fuel : Nat) → Nat → Nat
  | 0, _ => 1
  | fuel + 1, n => if n > 1 then 2 * alignOf fuel (n / 2) else 1

/-- A `#[stabby] #[repr(align(n))] struct` (structs.rs:180-187). -/
def alignedStructOf (n : Nat) : List Lay → Lay
  | [] => Lay.unit
  | f :: fs => Lay.alignedStruct (nestFields f fs) (alignOf n n)

/-- Union members are nested to the left from `()` (stabby-macros/src/unions.rs:69-75). -/
def nestUnion : Lay → List Lay → Lay
  | acc, [] => acc
  | acc, f :: fs => nestUnion (Lay.union acc f) fs

/-- A `#[stabby] union` (unions.rs:69-98): size and alignment of the nested unions, no niche. -/
def unionOf (members : List Lay) : Lay :=
  { nestUnion Lay.unit members with fv := .none, ub := [], oneNiche := .b0 }

/-- A `#[stabby] enum` with an explicit representation (stabby-macros/src/enums.rs:169-222, 267, 306-320):
`Tuple<tag, Union<Union<(), A>, B>>`, `HasExactlyOneNiche = B0`.  Unit variants are not part of the union. -/
def enumOf (tag : Lay) (payloads : List Lay) : Lay :=
  { Lay.tuple2 tag (nestUnion Lay.unit payloads) with oneNiche := .b0 }

/-- The payload of a variant with several fields (enums.rs:177-186, 193-203): fields nested from `()`, in a `Struct`. -/
def variantOf (fields : List Lay) : Lay := Lay.struct (nestFields Lay.unit fields)

end Verif.Layout
