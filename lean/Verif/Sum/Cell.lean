import Verif.Sum.Spec

/-! Payloads that can be changed through shared references. -/
namespace Verif.Sum
open Verif.Layout

/-- Types with the places where their bytes may change through a `&`: `cell t` is `UnsafeCell<T>`, which takes everything from `T`
(stable_impls/mod.rs:547-551), or an atomic, which takes everything from the type it holds (mod.rs:572-660).  A cell inside of a cell adds nothing. -/
inductive CTy where
  | plain (t : Ty)
  | cell (t : Ty)
  | fieldPair (a b : CTy)
  | struct (t : CTy)
  | alignedStruct (t : CTy) (align : Nat)
  | array (t : CTy) (n : Nat)
  | result (ok err : CTy)

/-- The type without the places. -/
def CTy.ty : CTy → Ty
  | .plain t => t
  | .cell t => t
  | .fieldPair a b => .fieldPair a.ty b.ty
  | .struct t => .struct t.ty
  | .alignedStruct t al => .alignedStruct t.ty al
  | .array t n => .array t.ty n
  | .result a b => .result a.ty b.ty

/-- The bytes that `is_ok` may read, all of them without synchronisation (enums/mod.rs:71-73, 83-85, 132-135, 178-181, 210-212; result.rs:384-386). -/
def Det.reads : Det → List Nat
  | .bit => [0]
  | .endd => []
  | .valueIsErr o _ tail => o :: tail.reads
  | .bitIsErr o _ => [o]
  | .not d => d.reads

/-- `n` consecutive elements, one of which has the byte. -/
def CellsArray (C : Mem → Nat → Prop) (size : Nat) : Nat → Mem → Nat → Prop
  | 0, _, _ => False
  | n + 1, m, i => C m i ∨ ∃ j, i = size + j ∧ CellsArray C size n (m.at size) j

/-- Whether byte `i` may be written by someone who has a `&` to the value in memory `m`.  Of sums, `match_ref`, `as_ref` and so on hand out a `&` to
the payload of the state that `is_ok` reports (result.rs:266-295, 400-407; option.rs:91-115), and leave no guard that puts the tag back. -/
def Cells : CTy → Mem → Nat → Prop
  | .plain _, _, _ => False
  | .cell t, _, i => i < t.lay.size
  | .fieldPair a b, m, i => Cells a m i ∨ ∃ j, i = alignUp a.ty.lay.size b.ty.lay.align + j ∧ Cells b (m.at (alignUp a.ty.lay.size b.ty.lay.align)) j
  | .struct t, m, i => Cells t m i
  | .alignedStruct t _, m, i => Cells t m i
  | .array t n, m, i => CellsArray (Cells t) t.ty.lay.size n m i
  | .result a b, m, i =>
    if isOk a.ty.lay b.ty.lay m then ∃ j, i = okOffset a.ty.lay b.ty.lay + j ∧ Cells a (okPtr a.ty.lay b.ty.lay m) j
    else ∃ j, i = errOffset a.ty.lay b.ty.lay + j ∧ Cells b (errPtr a.ty.lay b.ty.lay m) j

def HoldArray (H : Mem → Mem → Prop) (size : Nat) : Nat → Mem → Mem → Prop
  | 0, _, _ => True
  | n + 1, m, m' => H m m' ∧ HoldArray H size n (m.at size) (m'.at size)

/-- Where there are cells in `m`, there are values of their types in `m'`. -/
def Hold : CTy → Mem → Mem → Prop
  | .plain _, _, _ => True
  | .cell t, _, m' => ∃ v, Rep t v m'
  | .fieldPair a b, m, m' =>
    Hold a m m' ∧ Hold b (m.at (alignUp a.ty.lay.size b.ty.lay.align)) (m'.at (alignUp a.ty.lay.size b.ty.lay.align))
  | .struct t, m, m' => Hold t m m'
  | .alignedStruct t _, m, m' => Hold t m m'
  | .array t n, m, m' => HoldArray (Hold t) t.ty.lay.size n m m'
  | .result a b, m, m' =>
    if isOk a.ty.lay b.ty.lay m then Hold a (okPtr a.ty.lay b.ty.lay m) (okPtr a.ty.lay b.ty.lay m')
    else Hold b (errPtr a.ty.lay b.ty.lay m) (errPtr a.ty.lay b.ty.lay m')

/-- What a program with a `&` to the value may do: write values to cells, each with any bytes for the padding in it. -/
def Step (t : CTy) (m m' : Mem) : Prop := (∀ i, i < t.ty.lay.size → ¬ Cells t m i → m' i = m i) ∧ Hold t m m'

/-- `RMutex<T>` and `RRwLock<T>` of the crate `abi_stable` on a 64-bit target, which have the layout of a struct of a pointer, a cell and a reference
(stable_impls/abi_stable.rs:169-200). -/
def CTy.rmutex (t : Ty) : CTy := .struct (.fieldPair (.fieldPair (.plain .usize) (.cell t)) (.plain .ref))

end Verif.Sum
