import Verif.Sum.Ty
import Verif.Layout.Spec

/-! What it means for memory to represent a value of a type. -/
namespace Verif.Sum
open Verif.Layout

/-- Abstract values. -/
inductive Val where
  | raw (bytes : List Byte)
  | pair (a b : Val)
  | nil
  | ok (v : Val)
  | err (v : Val)

/-- `n` consecutive elements of `size` bytes each. -/
def RepArray (R : Val → Mem → Prop) (size : Nat) : Nat → Val → Mem → Prop
  | 0, v, _ => v = .nil
  | n + 1, .pair v vs, m => R v m ∧ RepArray R size n vs (m.at size)
  | _ + 1, _, _ => False

/-- `Rep t v m`: the memory `m` represents the value `v` of type `t`.
* a primitive is its bytes, which are not a forbidden value;
* a pair of fields is the first field at offset 0, and the second at the first offset past the first field
  that its alignment allows;
* a struct is its fields, an array its elements;
* a union is its bytes, all of them;
* a sum is in the state that `is_ok` reports, and the pointer handed out for that state sees the payload. -/
def Rep : Ty → Val → Mem → Prop
  | .prim s _ fv _ _, .raw bs, m => bs.length = s ∧ (∀ i (h : i < bs.length), m i = bs[i]) ∧ ¬ fv.Forbids m
  | .fieldPair a b, .pair va vb, m =>
    Rep a va m ∧ Rep b vb (m.at (alignUp a.lay.size b.lay.align))
  | .struct t, v, m => Rep t v m
  | .alignedStruct t _, v, m => Rep t v m
  | .union a b, .raw bs, m =>
    bs.length = (Lay.union a.lay b.lay).size ∧ ∀ i (h : i < bs.length), m i = bs[i]
  | .array t n, v, m => RepArray (Rep t) t.lay.size n v m
  | .result a b, .ok v, m => isOk a.lay b.lay m = true ∧ Rep a v (okPtr a.lay b.lay m)
  | .result a b, .err v, m => isOk a.lay b.lay m = false ∧ Rep b v (errPtr a.lay b.lay m)
  | _, _, _ => False

/-- Well-formed types: the hand-written layouts of primitives are sensible (alignment is a power of two,
forbidden values are inside the type), and the storage of each sum is a whole number of its
alignment units (the case where it is not is property C12). -/
def Ty.WF : Ty → Prop
  | .prim s a fv _ _ => Pow2 a ∧ fv.WF ∧ (∀ o ∈ fv.offsets, o < s)
  | .fieldPair a b => a.WF ∧ b.WF
  | .struct t => t.WF
  | .alignedStruct t al => t.WF ∧ Pow2 al
  | .union a b => a.WF ∧ b.WF
  | .array t _ => t.WF
  | .result a b => a.WF ∧ b.WF ∧ max a.lay.size b.lay.size % max a.lay.align b.lay.align = 0

/-- The values of a type: what a Rust program can put in it. -/
def HasTyArray (H : Val → Prop) : Nat → Val → Prop
  | 0, v => v = .nil
  | n + 1, .pair v vs => H v ∧ HasTyArray H n vs
  | _ + 1, _ => False

/-- `HasTy t v`: `v` is a value of type `t`. -/
def HasTy : Ty → Val → Prop
  | .prim s _ fv _ _, .raw bs => bs.length = s ∧ ¬ fv.Forbids (fun i => bs.getD i 0)
  | .fieldPair a b, .pair va vb => HasTy a va ∧ HasTy b vb
  | .struct t, v => HasTy t v
  | .alignedStruct t _, v => HasTy t v
  | .union a b, .raw bs => bs.length = (Lay.union a.lay b.lay).size
  | .array t n, v => HasTyArray (HasTy t) n v
  | .result a _, .ok v => HasTy a v
  | .result _ b, .err v => HasTy b v
  | _, _ => False

end Verif.Sum
