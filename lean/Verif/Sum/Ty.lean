import Verif.Sum.Model

/-! The universe of types whose layout stabby computes. -/
namespace Verif.Sum
open Verif.Layout

/-- Types.  `prim` is any type with a hand-written `IStable` implementation without unused bits
(stable_impls/mod.rs: integers, floats, `bool`, `NonZero*`, pointers, references, function pointers,
`Ordering`, atomics...).  The rest are the combinators of istable.rs and result.rs.
`ManuallyDrop<T>`, `Pin<T>`, `NotPod<T>` have the layout of `T` and are identified with it. -/
inductive Ty where
  | prim (size align : Nat) (fv : Fv) (one : Sat) (ind : Bool)
  | fieldPair (a b : Ty)
  | struct (t : Ty)
  | alignedStruct (t : Ty) (align : Nat)
  | union (a b : Ty)
  | array (t : Ty) (n : Nat)
  | result (ok err : Ty)
  deriving DecidableEq, Repr

/-- The `IStable` associated types of a type. -/
def Ty.lay : Ty → Lay
  | .prim s a fv one ind => Lay.prim s a fv one ind
  | .fieldPair a b => Lay.fieldPair a.lay b.lay
  | .struct t => Lay.struct t.lay
  | .alignedStruct t al => Lay.alignedStruct t.lay al
  | .union a b => Lay.union a.lay b.lay
  | .array t n => Lay.array t.lay n
  | .result ok err => resultLay ok.lay err.lay

namespace Ty
/-- `()` (stable_impls/mod.rs:244-254). -/
def unit : Ty := prim 0 1 .none .b0 false
/-- `u8` (stable_impls/mod.rs:300-310). -/
def u8 : Ty := prim 1 1 .none .b0 false
/-- `u16` (stable_impls/mod.rs:325-335). -/
def u16 : Ty := prim 2 2 .none .b0 false
/-- `u32` (stable_impls/mod.rs:350-360). -/
def u32 : Ty := prim 4 4 .none .b0 false
/-- `u64` on a 64-bit target (stable_impls/mod.rs:375-385). -/
def u64 : Ty := prim 8 8 .none .b0 false
/-- `usize` and raw pointers on a 64-bit target (stable_impls/mod.rs:435-445, 554-564). -/
def usize : Ty := prim 8 8 .none .b0 false
/-- `bool` (stable_impls/mod.rs:286-296). -/
def bool : Ty := prim 1 1 (.range 2 255 0) .saturator false
/-- `core::cmp::Ordering` (stable_impls/mod.rs:985-995). -/
def ordering : Ty := prim 1 1 (.range 2 254 0) .b0 false
/-- `nz_holes!` (stable_impls/mod.rs:235-242): all the listed bytes are zero. -/
def nzHoles : List Nat → Fv
  | [] => .none
  | o :: r => .byte o 0 (nzHoles r)
/-- `NonZeroU8` (stable_impls/mod.rs:313-323). -/
def nonZeroU8 : Ty := prim 1 1 (nzHoles [0]) .b1 false
/-- `NonZeroU16` (stable_impls/mod.rs:338-348). -/
def nonZeroU16 : Ty := prim 2 2 (nzHoles [0, 1]) .b1 false
/-- `NonZeroU32` (stable_impls/mod.rs:363-373). -/
def nonZeroU32 : Ty := prim 4 4 (nzHoles [0, 1, 2, 3]) .b1 false
/-- `NonZeroU64` on a 64-bit target (stable_impls/mod.rs:388-398). -/
def nonZeroU64 : Ty := prim 8 8 (nzHoles [0, 1, 2, 3, 4, 5, 6, 7]) .b1 false
/-- `&T`, `&mut T`, `NonNull<T>`, `extern "C" fn` on a 64-bit target (stable_impls/mod.rs:566-570, 664-674, 849-910). -/
def ref : Ty := prim 8 8 (nzHoles [0, 1, 2, 3, 4, 5, 6, 7]) .b1 true
/-- `stabby::option::Option<T>` wraps `Result<T, ()>` (option.rs). -/
def option (t : Ty) : Ty := struct (result t unit)
/-- `Tuple2<A, B>`. -/
def tuple2 (a b : Ty) : Ty := struct (fieldPair a b)
/-- `Tuple3<A, B, C>`. -/
def tuple3 (a b c : Ty) : Ty := struct (fieldPair (fieldPair a b) c)
end Ty

end Verif.Sum
