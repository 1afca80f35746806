import Verif.Layout.Model

/-! Padding types and array types computed from a typenum number (typenum2/unsigned.rs). -/
namespace Verif.Layout
open Verif.Typenum

/-- `PadByte` (typenum2/unsigned.rs:41-56). -/
def padByte : Lay := ⟨1, 1, .none, [(0, 255)], .b0, false⟩

/-- `IBitBase::_Padding` (typenum2/unsigned.rs:114, 136). -/
def bitPadding (b : Bit) : Lay := if b then padByte else Lay.unit

/-- `OneMoreByte<L>` (typenum2/unsigned.rs:467-483). -/
def oneMoreByte (l : Lay) : Lay where
  size := l.size + 1
  align := 1
  fv := l.fv
  ub := l.ub.bitOr [(l.size, 255)]
  oneNiche := l.oneNiche
  indirections := l.indirections

/-- `IUnsigned::Padding` (typenum2/unsigned.rs:386, 410, 534) through
`PaddingHelper<Double, Bit>` (typenum2/unsigned.rs:503-513): two copies of the padding of the most
significant digits, and one byte if the last digit is 1. -/
def padding : U → Lay
  | .term => Lay.unit
  | .int msb b =>
    { size := 2 * (padding msb).size + (if b then 1 else 0)
      align := 1
      fv := .none
      ub := (Lay.tuple3 (padding msb) (padding msb) (bitPadding b)).ub
      oneNiche := .b0
      indirections := false }

/-- The Rust type built for an array: the tree of tuples (typenum2/unsigned.rs:417-418, 546-556). -/
inductive Arr where
  | unit
  | elem
  | tuple (a b : Arr)
  deriving DecidableEq, Repr

/-- The layout of that tree when the element type has layout `t`. -/
def Arr.lay (t : Lay) : Arr → Lay
  | unit => Lay.unit
  | elem => t
  | tuple a b => Lay.tuple2 (a.lay t) (b.lay t)

/-- `_AddToArray<LsbArray, ArrayStack>` (typenum2/unsigned.rs:417, 546-555) for element layout `t`. -/
def addToArray (t : Lay) : U → Arr → Arr → Arr
  | .term, lsb, _ => lsb
  | .int msb b, lsb, stack =>
    addToArray t msb
      (if b then (if (lsb.lay t).size = 0 then stack else .tuple stack lsb) else lsb)
      (.tuple stack stack)

/-- `IUnsignedBase::Array<T>` (typenum2/unsigned.rs:418, 556). -/
def arrayOf (t : Lay) : U → Arr
  | .term => .unit
  | .int msb b => addToArray t (.int msb b) .unit .elem

/-- `Alignment::AsUint` (typenum2/unsigned.rs:575-627): a type without niches whose size and
alignment are both the alignment (`u8`..`u128`, `Align32`...`Align65536`). -/
def asUint (align : Nat) : Lay := Lay.prim align align .none .b0 false

end Verif.Layout
