import Verif.Typenum.Model

/-! `Saturator` as a type-level number (typenum2/unsigned.rs:420-458): "an Exception-like value that indicates a computation can never succeed"
(istable.rs:437-439).

`Typenum/Model.lean` has the numbers without it; the functions here are the same implementations on numbers that may have it at the end, as in
`UInt<Saturator, B0>`. -/
namespace Verif.Typenum

/-- unsigned.rs:27-34 and istable.rs:437-439. -/
inductive S where
  | term
  | sat
  | int (msb : S) (b : Bit)
  deriving DecidableEq, Repr

namespace S
open Bit

/-- unsigned.rs:397,515 `_U128` without the limit of 128 bits; `none`: the constant panics, which is an error of the compiler (421-422). -/
def value : S → Option Nat
  | term => some 0
  | sat => none
  | int m b => m.value.map (fun n => 2 * n + (if b then 1 else 0))

/-- unsigned.rs:398,425,516 `Bit`. -/
def bit : S → Bit
  | term => false
  | sat => false
  | int _ b => b
/-- unsigned.rs:399,426,517 `Msb`. -/
def msb : S → S
  | term => term
  | sat => sat
  | int m _ => m
/-- unsigned.rs:400,427,518 `_IsUTerm`. -/
def isTerm : S → Bit
  | term => true
  | sat => true
  | int m b => and' (not' b) m.isTerm
/-- unsigned.rs:403,430,519 `_Simplified`. -/
def simplified : S → S
  | term => term
  | sat => sat
  | int m b => ternary (isTerm (int m b)) term (int m.simplified b)
/-- unsigned.rs:401,428,520 `_BitAndInner`. -/
def bitAndInner : S → S → S
  | term, _ => term
  | sat, _ => sat
  | int m b, t => int (m.bitAndInner t.msb) (and' b t.bit)
/-- unsigned.rs:402,429,521 `_BitOrInner`. -/
def bitOrInner : S → S → S
  | term, t => t
  | sat, _ => sat
  | int m b, t => int (m.bitOrInner t.msb) (or' b t.bit)
/-- unsigned.rs:369 `BitAnd`. -/
def bitAnd (a t : S) : S := (a.bitAndInner t).simplified
/-- unsigned.rs:370 `BitOr`. -/
def bitOr (a t : S) : S := (a.bitOrInner t).simplified
/-- unsigned.rs:404,431,522 `_Equals` (= `Equal`, 371). -/
def equal : S → S → Bit
  | term, t => t.isTerm
  | sat, t => t.isTerm
  | int m b, t => and' (equals b t.bit) (m.equal t.msb)
/-- unsigned.rs:407,434,523-524 `_Greater`. -/
def greaterH : S → S → Bit → Bit
  | term, t, hint => and' hint t.isTerm
  | sat, t, hint => and' hint t.isTerm
  | int m b, t, hint => m.greaterH t.msb (ternary t.bit (and' hint b) (or' hint b))
/-- unsigned.rs:373 `Greater`. -/
def greater (a t : S) : Bit := a.greaterH t false

/-- `U1` (build.rs:24-36). -/
def one : S := int term true

/-- `_Add<UTerm, Carry>`: as in `U.addTermC`; for `Saturator`, unsigned.rs:433. -/
def addTermC : S → Bit → S
  | term, c => ternary c one term
  | sat, c => ternary c one term
  | int m b, c => int (m.addTermC (adderCarry b false c)) (adderSum b false c)
/-- unsigned.rs:405,432,525 `Increment`. -/
def increment : S → S
  | sat => sat
  | a => a.addTermC true
/-- unsigned.rs:406,433,526-527 `_Add<T, Carry>`. -/
def addC : S → S → Bit → S
  | term, t, c => ternary c t.increment t
  | sat, t, c => ternary c t.increment t
  | int m b, t, c => int (m.addC t.msb (adderCarry b t.bit c)) (adderSum b t.bit c)
/-- unsigned.rs:377 `Add`. -/
def add (a t : S) : S := a.addC t false
/-- unsigned.rs:408,435,528-529 `_Sub<T, Carry>`. -/
def subC : S → S → Bit → S
  | term, _, _ => term
  | sat, _, _ => sat
  | int m b, t, c => int (m.subC t.msb (suberCarry b t.bit c)) (suberSum b t.bit c)
/-- unsigned.rs:378-381 `AbsSub`. -/
def absSub (a t : S) : S := (ternary (a.greater t) (a.subC t false) (t.subC a false)).simplified
/-- unsigned.rs:382 `Min`. -/
def min (a t : S) : S := ternary (a.greater t) t a
/-- unsigned.rs:383 `Max`. -/
def max (a t : S) : S := ternary (a.greater t) a t
/-- unsigned.rs:409,436,530-531 `_Truncate<T>`. -/
def truncateInner : S → S → S
  | term, _ => term
  | sat, _ => sat
  | int m b, t => ternary t.isTerm term (int (m.truncateInner (t.absSub one)) b)
/-- unsigned.rs:384 `Truncate`. -/
def truncate (a t : S) : S := (a.truncateInner t).simplified
/-- unsigned.rs:411,438,532-533 `_SatDecrement`. -/
def satDecrement : S → S
  | term => term
  | sat => sat
  | int m b => (ternary b (int m false) (int m.satDecrement true)).simplified
/-- unsigned.rs:412,439,535 `NextPow2`. -/
def nextPow2 : S → S
  | term => term
  | sat => sat
  | int m b => m.nextPow2.add (ternary (isTerm (int m b)) term one)
/-- unsigned.rs:415,442,538-540 `_Mul` (= `Mul`, 394). -/
def mul : S → S → S
  | term, _ => term
  | sat, _ => sat
  | int m b, t => (ternary b t term).add (simplified (int (m.mul t) false))
/-- unsigned.rs:414,441,537 `_NonZero` (= `NonZero`, 387). -/
def nonZero : S → S
  | term => sat
  | sat => sat
  | int m b => int m b
/-- unsigned.rs:413,440,536 `_TruncateAtRightmostOne`. -/
def truncAtRightmostOne : S → S
  | term => sat
  | sat => sat
  | int m b => ternary b one (int m.truncAtRightmostOne false)
/-- `NonZero::Decrement` (unsigned.rs:456,485-486); it is only there for what implements `NonZero`, which `UTerm` does not. -/
def decrement : S → Option S
  | term => none
  | sat => some sat
  | int m b => some (ternary b (int m false) (int m.satDecrement true)).simplified
/-- unsigned.rs:562,569-570 `Modulate<T>`, for a number `m` for which `IPowerOf2` is implemented, which it isn't for `Saturator`. -/
def modulate : U → S → S
  | .term, _ => term
  | .int _ true, _ => term
  | .int m false, t => simplified (int (modulate m t.msb) t.bit)
/-- unsigned.rs:563,571 `Divide<T>`, likewise. -/
def divide : U → S → S
  | .term, t => t
  | .int _ true, t => t
  | .int m false, t => divide m t.msb

/-- The numbers without `Saturator`. -/
def of : U → S
  | .term => term
  | .int m b => int (of m) b

/-- unsigned.rs:388-389 `NextMultipleOf<T>`. -/
def nextMultipleOf (a : S) (t : U) : S :=
  ternary ((modulate t a).equal term) a (a.add ((of t).absSub (modulate t a)))

end S
end Verif.Typenum
