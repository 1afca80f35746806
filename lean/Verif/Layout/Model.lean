import Verif.Typenum.Model

/-!
Executable model of stabby's layout computations (`stabby-abi/src/istable.rs`).

Sizes, alignments and offsets are `Nat` here.  In the source they are typenum types; C01/C02
(`Verif.Props.Typenum`) prove that every typenum operation used by these computations
(`Add`, `AbsSub`, `Max`, `NextMultipleOf`, `Divide`, `Mul`, comparisons, `TruncateAtRightmostOne`)
computes the corresponding `Nat` operation and that equal numbers are equal types.  Bytes of masks
and of forbidden values are `BitVec 8`, because every such number in the source is ≤ 255 and is
read at run time through `U8`.
-/
namespace Verif.Layout

/-- A byte. -/
abbrev Byte := BitVec 8
/-- The memory seen through a pointer: the byte at each offset from it. -/
abbrev Mem := Nat → Byte

/-- The memory seen through `ptr.add(o)`. -/
def Mem.at (m : Mem) (o : Nat) : Mem := fun i => m (o + i)
/-- `*ptr.add(o) = b`. -/
def Mem.set (m : Mem) (o : Nat) (b : Byte) : Mem := fun i => if i = o then b else m i
/-- `ptr.add(o).write(value)` where `value` occupies `n` bytes whose contents are `src`. -/
def Mem.write (m : Mem) (o n : Nat) (src : Mem) : Mem :=
  fun i => if o ≤ i ∧ i < o + n then src (i - o) else m i

/-- `IUnsigned::NextMultipleOf` (typenum2/unsigned.rs:388-389). -/
def nextMul (n a : Nat) : Nat := if n % a = 0 then n else n + (a - n % a)

/-! ### Bit masks: `End` and `Array<Offset, T, Rest>` seen as `IBitMask` -/

/-- `IBitMask` (istable.rs:214-272): `End` is `[]`, `Array<Offset, T, Rest>` is `(Offset, T) :: Rest`. -/
abbrev Mask := List (Nat × Byte)

namespace Mask
/-- `ByteAt<O>` (istable.rs:239, 251). -/
def byteAt : Mask → Nat → Byte
  | [], _ => 0
  | (p, v) :: r, o => if p = o then v else byteAt r o
/-- `BitOr<T>` (istable.rs:240, 261): list concatenation. -/
def bitOr : Mask → Mask → Mask
  | [], t => t
  | e :: r, t => e :: bitOr r t
/-- `Shift<O>` (istable.rs:241, 262). -/
def shift : Mask → Nat → Mask
  | [], _ => []
  | (p, v) :: r, o => (p + o, v) :: shift r o
/-- `BitAnd<Mask>` (istable.rs:242, 252-260). -/
def bitAnd : Mask → Mask → Mask
  | [], _ => []
  | (p, v) :: r, t =>
    if v &&& byteAt t p = 0 then bitAnd r t else (p, v &&& byteAt t p) :: bitAnd r t
/-- `HasFreeByteAt<O>` (istable.rs:243, 263-264). -/
def hasFreeByteAt : Mask → Nat → Bool
  | [], _ => false
  | (p, v) :: r, o => (decide (o = p) && decide (v = 255)) || hasFreeByteAt r o
/-- `TruncateAtRightmostOne` of a byte: its lowest set bit (typenum2/unsigned.rs:453, 487, 536;
`C01_lowestBit` shows the typenum computation does this). -/
def lowBit (v : Byte) : Byte := v &&& (0 - v)
/-- `ExtractBit` (istable.rs:244, 265-269). -/
def extractBit : Mask → Mask
  | [] => []
  | (p, v) :: r => if v - lowBit v ≠ 0 then (p, v - lowBit v) :: r else r
end Mask

/-- `PaddingBitMask` (typenum2/unsigned.rs:416, 541-545). -/
def padMask : Nat → Mask
  | 0 => []
  | n + 1 => (0, 255) :: (padMask n).shift 1

/-! ### Forbidden values -/

/-- `IForbiddenValues` implementors (istable.rs:274-371): `End`, `Array<Offset, T, Rest>`,
`Or<A, B>`, `ForbiddenRange<Min, Max, Offset>`. -/
inductive Fv where
  | none
  | byte (off : Nat) (val : Byte) (rest : Fv)
  | or (a b : Fv)
  | range (min max : Byte) (off : Nat)
  deriving DecidableEq, Repr

/-- `ISingleForbiddenValue` implementors (istable.rs:290-328): `Saturator`, or a list of bytes
(`End` is `bytes []`). -/
inductive Sfv where
  | saturator
  | bytes (l : List (Nat × Byte))
  deriving DecidableEq, Repr

namespace Sfv
/-- `Push<O, T>` (istable.rs:310, 316, 324). -/
def push : Sfv → Nat → Byte → Sfv
  | saturator, _, _ => saturator
  | bytes l, o, v => bytes ((o, v) :: l)
/-- `Or<T>` (istable.rs:311, 317, 325). -/
def or : Sfv → Sfv → Sfv
  | saturator, t => t
  | bytes [], t => t
  | bytes (e :: l), _ => bytes (e :: l)
/-- `And<T>` (istable.rs:312, 318, 326). -/
def and : Sfv → Sfv → Sfv
  | saturator, _ => saturator
  | bytes _, t => t
/-- `Resolve` (istable.rs:313, 319, 327), as the list of bytes. -/
def resolve : Sfv → List (Nat × Byte)
  | saturator => []
  | bytes l => l
end Sfv

namespace Fv
/-- `Shift<O>` (istable.rs:301, 332, 344, 360). -/
def shift : Fv → Nat → Fv
  | none, _ => none
  | byte p v r, o => byte (p + o) v (shift r o)
  | or a b, o => or (shift a o) (shift b o)
  | range mn mx p, o => range mn mx (p + o)
/-- `SelectFrom<Mask>` (istable.rs:303, 334-337, 346-347, 362-363); `AsForbiddenValue` is `End` for
`B1` and `Saturator` for `B0` (typenum2/unsigned.rs:115, 137). -/
def selectFrom : Fv → Mask → Sfv
  | none, _ => .bytes []
  | byte p v r, m =>
    (if m.hasFreeByteAt p then Sfv.bytes [] else Sfv.saturator).and ((selectFrom r m).push p v)
  | or a b, m => (selectFrom a m).or (selectFrom b m)
  | range mn _ p, m => if m.hasFreeByteAt p then .bytes [(p, mn)] else .bytes []
/-- `SelectOne` (istable.rs:304, 338, 348, 364), as the list of bytes. -/
def selectOne : Fv → List (Nat × Byte)
  | none => []
  | byte p v r => (p, v) :: selectOne r
  | or a _ => selectOne a
  | range mn _ p => [(p, mn)]
/-- `is_invalid(ptr)` (istable.rs:305-307, 339-341, 349-351, 365-368). -/
def isInvalid : Fv → Mem → Bool
  | none, _ => false
  | byte p v r, m => decide (m p = v) && isInvalid r m
  | or a b, m => isInvalid a m || isInvalid b m
  | range mn mx p, m => decide (mn ≤ m p) && decide (m p ≤ mx)
end Fv

/-- `ISaturatingAdd` implementors `B0`, `B1`, `Saturator` (istable.rs:414-439). -/
inductive Sat where
  | b0 | b1 | saturator
  deriving DecidableEq, Repr

/-- `SaturatingAddB1` (istable.rs:425, 429, 434). -/
def Sat.addB1 : Sat → Sat
  | b0 => b1
  | b1 => saturator
  | saturator => saturator
/-- `SaturatingAdd<B>` (istable.rs:424, 430, 435). -/
def Sat.add : Sat → Sat → Sat
  | b0, b => b
  | b1, b => b.addB1
  | saturator, _ => saturator

/-- The associated types of an `IStable` implementation (istable.rs:30-46). -/
structure Lay where
  size : Nat
  align : Nat
  fv : Fv
  ub : Mask
  oneNiche : Sat
  indirections : Bool
  deriving DecidableEq, Repr

namespace Lay
/-- `IStable::size()` (istable.rs:55-59). -/
def sizeFn (t : Lay) : Nat := t.size + ((t.align - (t.size % t.align)) % t.align)

/-- `impl IStable for ()` (stable_impls/mod.rs:244-254). -/
def unit : Lay := ⟨0, 1, .none, [], .b0, false⟩

/-- A primitive: the `IStable` implementations of stable_impls/mod.rs all have `UnusedBits = End`
and only differ by their size, alignment, forbidden values and claims. -/
def prim (size align : Nat) (fv : Fv) (one : Sat) (ind : Bool) : Lay := ⟨size, align, fv, [], one, ind⟩

/-- `AlignedAfter<T, Start>` (istable.rs:545-558). -/
def alignedAfter (t : Lay) (start : Nat) : Lay where
  align := t.align
  size := t.size + nextMul start t.align
  fv := t.fv.shift (nextMul start t.align)
  ub := ((padMask (nextMul start t.align - start)).shift start).bitOr
    (t.ub.shift (nextMul start t.align))
  oneNiche := t.oneNiche
  indirections := t.indirections

/-- `FieldPair<A, B>` (istable.rs:385-403). -/
def fieldPair (a b : Lay) : Lay where
  fv := .or a.fv (alignedAfter b a.size).fv
  ub := a.ub.bitOr (alignedAfter b a.size).ub
  size := (alignedAfter b a.size).size
  align := max a.align b.align
  oneNiche := if (alignedAfter b a.size).size = a.size + b.size then
    a.oneNiche.add (alignedAfter b a.size).oneNiche else .saturator
  indirections := a.indirections || b.indirections

/-- `Struct<T>` (istable.rs:561-575). -/
def struct (t : Lay) : Lay where
  size := nextMul t.size t.align
  align := t.align
  fv := t.fv
  ub := t.ub.bitOr ((padMask (nextMul t.size t.align - t.size)).shift t.size)
  oneNiche := if t.size = nextMul t.size t.align then t.oneNiche else .saturator
  indirections := t.indirections

/-- `AlignedStruct<T, Align>` (istable.rs:578-592). -/
def alignedStruct (t : Lay) (align : Nat) : Lay where
  size := nextMul t.size (max align t.align)
  align := max align t.align
  fv := t.fv
  ub := t.ub.bitOr ((padMask (nextMul t.size t.align - t.size)).shift t.size)
  oneNiche := if t.size = nextMul t.size (max align t.align) then t.oneNiche else .saturator
  indirections := t.indirections

/-- `Union<A, B>` (istable.rs:527-539). -/
def union (a b : Lay) : Lay where
  fv := .none
  ub := []
  size := nextMul (max a.size b.size) (max a.align b.align)
  align := max a.align b.align
  oneNiche := .b0
  indirections := a.indirections || b.indirections

/-- `[T; N]` (stable_impls/mod.rs:947-964). -/
def array (t : Lay) (n : Nat) : Lay where
  size := t.size * n
  align := t.align
  fv := if n = 1 then t.fv else .none
  ub := if n = 1 then t.ub else []
  oneNiche := if n = 0 then .b0 else if n = 1 then t.oneNiche else .saturator
  indirections := t.indirections

/-- `Tuple2<A, B>`: a `#[stabby] struct` of two fields (macro output, stabby-macros/src/structs.rs). -/
def tuple2 (a b : Lay) : Lay := struct (fieldPair a b)
/-- `Tuple3<A, B, C>`. -/
def tuple3 (a b c : Lay) : Lay := struct (fieldPair (fieldPair a b) c)

end Lay
end Verif.Layout
