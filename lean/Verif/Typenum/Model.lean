/-!
# Type-level naturals (`stabby-abi/src/typenum2/unsigned.rs`)

The trait-level program is modelled as functions on the syntax of the type-level numbers.
An associated type `<A as IUnsigned>::Op<B>` becomes `A.op B`; the recursion is the one of the impls.

Simplification: `Saturator` (the error number, lines 420-446) is not a constructor of `U`; the two places that
can produce it (`_NonZero`, `_TruncateAtRightmostOne` of zero) return `none`.
-/
namespace Verif.Typenum

/-- Bits `B0`/`B1` are `Bool` (unsigned.rs:95-138). The derived connectives of `IBit` (unsigned.rs:215-240). -/
abbrev Bit := Bool

namespace Bit
/-- unsigned.rs:100,122 `_And`. -/
def and' : Bit → Bit → Bit
  | false, _ => false
  | true, t => t
/-- unsigned.rs:101,123 `_Or`. -/
def or' : Bit → Bit → Bit
  | false, t => t
  | true, _ => true
/-- unsigned.rs:102,124 `_Not`. -/
def not' : Bit → Bit
  | false => true
  | true => false
/-- unsigned.rs:103,125 `_Ternary` and its bounded variants `_UTernary`, `_BTernary`, ... (104-113,126-135). -/
def ternary {α : Type _} : Bit → α → α → α
  | false, _, b => b
  | true, a, _ => a
/-- unsigned.rs:230 `Xor<T> = (Self & !T) | (T & !Self)`. -/
def xor' (a t : Bit) : Bit := or' (and' a (not' t)) (and' t (not' a))
/-- unsigned.rs:231 `Equals`. -/
def equals (a t : Bit) : Bit := not' (xor' a t)
/-- unsigned.rs:232 `AdderSum`. -/
def adderSum (a r c : Bit) : Bit := xor' (xor' a r) c
/-- unsigned.rs:233-234 `AdderCarry = (Rhs & Carry) | (Self & (Rhs ^ Carry))`. -/
def adderCarry (a r c : Bit) : Bit := or' (and' r c) (and' a (xor' r c))
/-- unsigned.rs:235 `SuberSum`. -/
def suberSum (a r c : Bit) : Bit := adderSum a r c
/-- unsigned.rs:236-239 `SuberCarry = (!Self & (Rhs | Carry)) | (Self & (Rhs & Carry))`. -/
def suberCarry (a r c : Bit) : Bit := or' (and' (not' a) (or' r c)) (and' a (and' r c))
end Bit

/-- unsigned.rs:27-34: `UTerm` is zero, `UInt<Msbs, Bit>` appends a least significant bit. -/
inductive U where
  | term
  | int (msb : U) (b : Bit)
  deriving DecidableEq, Repr

namespace U
open Bit

/-- unsigned.rs:398,516 `Bit`. -/
def bit : U → Bit
  | term => false
  | int _ b => b
/-- unsigned.rs:399,517 `Msb`. -/
def msb : U → U
  | term => term
  | int m _ => m
/-- unsigned.rs:397,515 `_U128 = (Msb::_U128 << 1) | Bit` in 128-bit arithmetic. -/
def u128 : U → BitVec 128
  | term => 0
  | int m b => (m.u128 <<< 1) ||| (if b then 1 else 0)

/-- unsigned.rs:362-368 `USIZE`, `U64`, `U32`, `U16`, `U8`: `_U128 as _`, which keeps the low `w` bits. -/
def constant (w : Nat) (a : U) : BitVec w := a.u128.setWidth w

/-- unsigned.rs:400,518 `_IsUTerm` (true for every spelling of zero). -/
def isTerm : U → Bit
  | term => true
  | int m b => and' (not' b) m.isTerm
/-- unsigned.rs:403,519 `_Simplified`. -/
def simplified : U → U
  | term => term
  | int m b => ternary (isTerm (int m b)) term (int m.simplified b)
/-- unsigned.rs:401,520 `_BitAndInner`. -/
def bitAndInner : U → U → U
  | term, _ => term
  | int m b, t => int (m.bitAndInner t.msb) (and' b t.bit)
/-- unsigned.rs:402,521 `_BitOrInner`. -/
def bitOrInner : U → U → U
  | term, t => t
  | int m b, t => int (m.bitOrInner t.msb) (or' b t.bit)
/-- unsigned.rs:369 `BitAnd`. -/
def bitAnd (a t : U) : U := (a.bitAndInner t).simplified
/-- unsigned.rs:370 `BitOr`. -/
def bitOr (a t : U) : U := (a.bitOrInner t).simplified
/-- unsigned.rs:404,522 `_Equals` (= `Equal`, 371). -/
def equal : U → U → Bit
  | term, t => t.isTerm
  | int m b, t => and' (equals b t.bit) (m.equal t.msb)
/-- unsigned.rs:372 `NotEqual`. -/
def notEqual (a t : U) : Bit := not' (a.equal t)
/-- unsigned.rs:407,523-524 `_Greater<T, Hint>`; `Hint` carries the verdict of the less significant bits. -/
def greaterH : U → U → Bit → Bit
  | term, t, hint => and' hint t.isTerm
  | int m b, t, hint => m.greaterH t.msb (ternary t.bit (and' hint b) (or' hint b))
/-- unsigned.rs:373 `Greater`. -/
def greater (a t : U) : Bit := a.greaterH t false
/-- unsigned.rs:374 `GreaterOrEq`. -/
def greaterOrEq (a t : U) : Bit := or' (a.greater t) (a.equal t)
/-- unsigned.rs:375 `SmallerOrEq`. -/
def smallerOrEq (a t : U) : Bit := not' (a.greater t)
/-- unsigned.rs:376 `Smaller`. -/
def smaller (a t : U) : Bit := not' (a.greaterOrEq t)

/-- `U1` as generated by build.rs:24-36. -/
def one : U := int term true

/-- `Increment` is `U1` on zero (unsigned.rs:405) and `Self::_Add<UTerm, B1>` on `UInt` (525);
unfolding `_Add<UTerm, Carry>` (526-527) gives this recursion. `inc_eq_addC` (Lemmas) restates line 525. -/
def addTermC : U → Bit → U
  | term, c => ternary c one term
  | int m b, c => int (m.addTermC (adderCarry b false c)) (adderSum b false c)
/-- unsigned.rs:405,525 `Increment`. -/
def increment (a : U) : U := a.addTermC true
/-- unsigned.rs:406,526-527 `_Add<T, Carry>`. -/
def addC : U → U → Bit → U
  | term, t, c => ternary c t.increment t
  | int m b, t, c => int (m.addC t.msb (adderCarry b t.bit c)) (adderSum b t.bit c)
/-- unsigned.rs:377 `Add`. -/
def add (a t : U) : U := a.addC t false
/-- unsigned.rs:408,528-529 `_Sub<T, Carry>`. -/
def subC : U → U → Bit → U
  | term, _, _ => term
  | int m b, t, c => int (m.subC t.msb (suberCarry b t.bit c)) (suberSum b t.bit c)
/-- unsigned.rs:378-381 `AbsSub`. -/
def absSub (a t : U) : U := (ternary (a.greater t) (a.subC t false) (t.subC a false)).simplified
/-- unsigned.rs:382 `Min`. -/
def min (a t : U) : U := ternary (a.greater t) t a
/-- unsigned.rs:383 `Max`. -/
def max (a t : U) : U := ternary (a.greater t) a t
/-- unsigned.rs:409,530-531 `_Truncate<T>`. -/
def truncateInner : U → U → U
  | term, _ => term
  | int m b, t => ternary t.isTerm term (int (m.truncateInner (t.absSub one)) b)
/-- unsigned.rs:384 `Truncate`. -/
def truncate (a t : U) : U := (a.truncateInner t).simplified
/-- unsigned.rs:411,532-533 `_SatDecrement`. -/
def satDecrement : U → U
  | term => term
  | int m b => (ternary b (int m false) (int m.satDecrement true)).simplified
/-- unsigned.rs:412,535 `NextPow2` (the number of significant bits). -/
def nextPow2 : U → U
  | term => term
  | int m b => m.nextPow2.add (ternary (isTerm (int m b)) term one)
/-- unsigned.rs:415,538-540 `_Mul` (= `Mul`, 394). -/
def mul : U → U → U
  | term, _ => term
  | int m b, t => (ternary b t term).add (simplified (int (m.mul t) false))
/-- unsigned.rs:414,537 `_NonZero`; `none` is `Saturator`. -/
def nonZero : U → Option U
  | term => none
  | int m b => some (int m b)
/-- unsigned.rs:413,536 `_TruncateAtRightmostOne`; `none` is `Saturator`
(simplification: `UInt<Saturator, B0>`, reachable only from non-canonical zeroes, is also `none`). -/
def truncAtRightmostOne : U → Option U
  | term => none
  | int m b => ternary b (some one) (m.truncAtRightmostOne.map (int · false))
/-- unsigned.rs:390-393 `Cmp`. -/
def cmp (a t : U) : Ordering := ternary (a.equal t) .eq (ternary (a.greater t) .gt .lt)

/-- The types for which `IPowerOf2` is implemented (unsigned.rs:558 and 565). -/
def isPow2 : U → Bool
  | term => false
  | int m true => m.isTerm
  | int m false => m.isPow2
/-- unsigned.rs:559,566 `Log2`. Only meaningful under `isPow2`. -/
def log2 : U → U
  | term => term
  | int _ true => term
  | int m false => m.log2.increment
/-- unsigned.rs:562,569-570 `Modulate<T>` (= `T % Self`). Only meaningful under `isPow2`. -/
def modulate : U → U → U
  | term, _ => term
  | int _ true, _ => term
  | int m false, t => simplified (int (m.modulate t.msb) t.bit)
/-- unsigned.rs:563,571 `Divide<T>` (= `T / Self`). Only meaningful under `isPow2`. -/
def divide : U → U → U
  | term, t => t
  | int _ true, t => t
  | int m false, t => m.divide t.msb
/-- unsigned.rs:385 `Mod<T>`. -/
def mod (a t : U) : U := t.modulate a
/-- unsigned.rs:388-389 `NextMultipleOf<T> = ((Self % T) == U0) ? Self : (Self + (T - (Self % T)))`. -/
def nextMultipleOf (a t : U) : U :=
  ternary ((a.mod t).equal term) a (a.add (t.absSub (a.mod t)))
/-- unsigned.rs:560-561,567-568 `IPowerOf2::Min/Max`, and 582 `Alignment::Max`: same ternary as `IUnsigned`. -/
def pmax (a t : U) : U := ternary (a.greater t) a t

/-- build.rs:24-36 `u(i)`: the type named `U{i}`. The loop pushes the bits of `i` least significant first and
then wraps them most significant first. -/
def bitsOfFuel : Nat → Nat → List Bit
  | 0, _ => []
  | f+1, i => if i = 0 then [] else (i % 2 == 1) :: bitsOfFuel f (i / 2)
/-- The `while i > 0 { ids.push(i & 1); i >>= 1 }` loop (build.rs:27-31); it runs at most `i` times. -/
def bitsOf (i : Nat) : List Bit := bitsOfFuel i i
/-- build.rs:32-35. -/
def ofNat (i : Nat) : U := (bitsOf i).reverse.foldl (fun r b => int r b) term

end U
end Verif.Typenum
