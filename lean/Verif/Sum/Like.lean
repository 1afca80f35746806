import Verif.Sum.Model
/-! Model of types declared to be like others: `StableLike<T, As>` and `NoNiches` (stabby-abi/src/lib.rs:164-305). -/
namespace Verif.Sum.Like
open Verif.Layout Verif.Sum

/-- What becomes of a program that calls `StableLike::<T, As>::new`: it compiles, or one of the two panics of `CHECK` stops it. -/
inductive Outcome where
  | compiles | size | align
deriving DecidableEq, Repr

/-- `ConstChecks::CHECK` (lib.rs:197-212), of a `T` of that `size_of` and `align_of`; `new` evaluates it (lib.rs:218-225), and so does nothing else
(`Clone`, lib.rs:187-194, starts from a value that `new` made). -/
def check (size align : Nat) (as : Lay) : Outcome :=
  if size ≠ as.size then .size
  else if align ≠ as.align then .align
  else .compiles

/-- `IStable for StableLike<T, As>` (lib.rs:262-274). -/
def likeLay (as : Lay) : Lay := ⟨as.size, as.align, as.fv, as.ub, as.oneNiche, as.indirections⟩

/-- `IStable for NoNiches<Size, Align, HasExactlyOneNiche, ContainsIndirections>` (lib.rs:290-305). -/
def noNiches (size align : Nat) (one : Sat) (ind : Bool) : Lay := ⟨size, align, .none, [], one, ind⟩

end Verif.Sum.Like
