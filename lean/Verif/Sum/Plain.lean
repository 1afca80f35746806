import Verif.Sum.Model
import Verif.Layout.Macro

/-! Which types stabby considers plain data (`IPod`, istable.rs:83-104). -/
namespace Verif.Sum
open Verif.Layout

/-- Types, with what their values really consist of.  A `leaf` is a type with a hand-written `IStable` implementation
(stable_impls/mod.rs): `pointer` says whether a value of the type is an address; it is not part of what stabby computes. -/
inductive PTy where
  | leaf (l : Lay) (pointer : Bool)
  | fieldPair (a b : PTy)
  | struct (t : PTy)
  | alignedStruct (t : PTy) (align : Nat)
  | union (a b : PTy)
  | array (t : PTy) (n : Nat)
  | result (ok err : PTy)
  /-- `StableLike<T, As>` (lib.rs:172-176): a `T` that claims the layout of `As`. -/
  | like (t as : PTy)
  /-- `NotPod<T>` (istable.rs:106-109). -/
  | notPod (t : PTy)

namespace PTy

/-- The `IStable` associated types.  `StableLike<T, As>` (lib.rs:262-274) has those of `As`; `NotPod<T>` (istable.rs:119-130)
those of `T` except `ContainsIndirections = B1`; the rest as in `Ty.lay`. -/
def lay : PTy → Lay
  | leaf l _ => l
  | fieldPair a b => Lay.fieldPair a.lay b.lay
  | struct t => Lay.struct t.lay
  | alignedStruct t al => Lay.alignedStruct t.lay al
  | union a b => Lay.union a.lay b.lay
  | array t n => Lay.array t.lay n
  | result ok err => resultLay ok.lay err.lay
  | like _ as => as.lay
  | notPod t => { t.lay with indirections := true }

/-- `T: IStable<ContainsIndirections = B0>`, which with `Copy` makes `T: IPod` (istable.rs:100). -/
def pod (t : PTy) : Bool := !t.lay.indirections

/-- `&T`, `&mut T`, `NonNull<T>` and function pointers on a 64-bit target (stable_impls/mod.rs:566-570, 664-674, 849-910). -/
def pointer : PTy := leaf ⟨8, 8, .byte 0 0 (.byte 1 0 (.byte 2 0 (.byte 3 0 (.byte 4 0 (.byte 5 0 (.byte 6 0 (.byte 7 0 .none))))))), [], .b1, true⟩ true

/-- `NonZeroUsize` on a 64-bit target (stable_impls/mod.rs:449-459). -/
def nonZeroUsize : PTy := leaf ⟨8, 8, .byte 0 0 (.byte 1 0 (.byte 2 0 (.byte 3 0 (.byte 4 0 (.byte 5 0 (.byte 6 0 (.byte 7 0 .none))))))), [], .b1, false⟩ false

/-- `u32` (stable_impls/mod.rs:350-360). -/
def u32 : PTy := leaf ⟨4, 4, .none, [], .b0, false⟩ false

/-- `VtDrop` (vtable/mod.rs:346-353), a `#[stabby] struct` that derives `Copy`, with the single field
`drop: StableLike<unsafe extern "C" fn(&mut ()), NonZeroUsize>`. -/
def vtDrop : PTy := struct (like pointer nonZeroUsize)

end PTy
end Verif.Sum
