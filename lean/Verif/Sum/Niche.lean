import Verif.Sum.Model

/-! What stabby claims about the niches of types (`IStable::HasExactlyOneNiche`), including the types of core whose layout depends on
them (stable_impls/mod.rs:534-551, 694-810). -/
namespace Verif.Sum
open Verif.Layout

/-- Types.  A `leaf` has a hand-written `IStable` implementation; `spare` is the number of values that its scalar may not take,
which is not part of what stabby computes. -/
inductive NTy where
  | leaf (l : Lay) (spare : Nat)
  | fieldPair (a b : NTy)
  | struct (t : NTy)
  | alignedStruct (t : NTy) (align : Nat)
  | union (a b : NTy)
  | array (t : NTy) (n : Nat)
  | result (ok err : NTy)
  /-- `ManuallyDrop<T>` and `Pin<T>`. -/
  | transparent (t : NTy)
  | maybeUninit (t : NTy)
  | unsafeCell (t : NTy)
  /-- A `#[repr(uN)]` enum with a tag of `width` bytes of which `used` values are variants, and the union of its payloads. -/
  | enum (width used : Nat) (payload : NTy)
  /-- `core::option::Option<T>`. -/
  | coreOption (t : NTy)
  /-- `core::result::Result<T, E>` for an `E` of size 0. -/
  | coreResultOk (t e : NTy)
  /-- `core::result::Result<E, T>` for an `E` of size 0. -/
  | coreResultErr (e t : NTy)

namespace NTy

/-- The `IStable` associated types.  `MaybeUninit`, `UnsafeCell`, `ManuallyDrop` and `Pin` have those of `T`
(stable_impls/mod.rs:534-551, 676-680); an enum with explicit representation is a tag and a union, with
`HasExactlyOneNiche = B0` (stabby-macros/src/enums.rs:267, 306-312; a unit variant is no part of the union);
`Option<T>` (707-729) and `Result` (750-810) have size and alignment of `T` and claim no niche. -/
def lay : NTy → Lay
  | leaf l _ => l
  | fieldPair a b => Lay.fieldPair a.lay b.lay
  | struct t => Lay.struct t.lay
  | alignedStruct t al => Lay.alignedStruct t.lay al
  | union a b => Lay.union a.lay b.lay
  | array t n => Lay.array t.lay n
  | result ok err => resultLay ok.lay err.lay
  | transparent t => t.lay
  | maybeUninit t => t.lay
  | unsafeCell t => t.lay
  | enum w _ p => { Lay.tuple2 (Lay.prim w w .none .b0 false) p.lay with oneNiche := .b0 }
  | coreOption t => ⟨t.lay.size, t.lay.align, .none, [], .b0, t.lay.indirections⟩
  | coreResultOk t e => ⟨t.lay.size, t.lay.align, .none, [], .b0, t.lay.indirections || e.lay.indirections⟩
  | coreResultErr e t => ⟨t.lay.size, t.lay.align, .none, [], .b0, e.lay.indirections || t.lay.indirections⟩

/-- Which types are `IStable`: `Option<T>` requires `T::HasExactlyOneNiche = B1` (stable_impls/mod.rs:696-707), and so does `Result`
for one side, the other being of size 0 (739-744, 750-751, 775-789). -/
def Stable : NTy → Prop
  | leaf _ _ => True
  | fieldPair a b => a.Stable ∧ b.Stable
  | struct t => t.Stable
  | alignedStruct t _ => t.Stable
  | union a b => a.Stable ∧ b.Stable
  | array t _ => t.Stable
  | result ok err => ok.Stable ∧ err.Stable
  | transparent t => t.Stable
  | maybeUninit t => t.Stable
  | unsafeCell t => t.Stable
  | enum _ _ p => p.Stable
  | coreOption t => t.Stable ∧ t.lay.oneNiche = .b1
  | coreResultOk t e => t.Stable ∧ e.Stable ∧ t.lay.oneNiche = .b1 ∧ e.lay.size = 0
  | coreResultErr e t => e.Stable ∧ t.Stable ∧ t.lay.oneNiche = .b1 ∧ e.lay.size = 0

end NTy
end Verif.Sum
