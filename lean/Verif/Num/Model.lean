/-! Model of stabby-abi/src/num.rs.  A base integer of `w` bits is a `BitVec w`; the typenum bit count of
the macro argument is the number `n`, with `0 < n < w` for every invocation (num.rs:520-1131).  Of the formatting impls, only
which base integer they print is modelled. -/
namespace Verif.Num

/-! ### `makeumask!` (num.rs:245-377): the raw value is the private field `.0` -/
namespace U
variable {w : Nat} (n : Nat)

/-- `MASK = base::MAX >> (8 * size_of::<base>() - bits)` (num.rs:258-260). -/
def mask : BitVec w := BitVec.allOnes w >>> (w - n)
/-- `MAX` (num.rs:262). -/
def max : BitVec w := mask n
/-- `MIN` (num.rs:264), also the derived `Default` (num.rs:255). -/
def min : BitVec w := 0#w
/-- `new` (num.rs:266-271). -/
def new (value : BitVec w) : Option (BitVec w) := if value ≤ mask n then some value else none
/-- `get` (num.rs:273-275). -/
def get (self : BitVec w) : BitVec w := self &&& mask n
/-- `BitAnd<base>` and `BitAnd` (num.rs:317-328). -/
def bitand (self rhs : BitVec w) : BitVec w := self &&& rhs
/-- `BitOr` (num.rs:337-342). -/
def bitor (self rhs : BitVec w) : BitVec w := self ||| rhs
/-- `BitOr<base>` (num.rs:343-348), the output is a base integer. -/
def bitorBase (self rhs : BitVec w) : BitVec w := get n self ||| rhs
/-- `core`'s `checked_add`. -/
def checkedAdd (a b : BitVec w) : Option (BitVec w) := if a.toNat + b.toNat < 2 ^ w then some (a + b) else none
/-- `Add` (num.rs:357-363): the argument of `unwrap_unchecked`; `none` is undefined behaviour. -/
def add (self rhs : BitVec w) : Option (BitVec w) := checkedAdd (get n self) (get n rhs)
/-- `Sub<base>` (num.rs:364-369) in a build without overflow checks. -/
def subBase (self rhs : BitVec w) : BitVec w := get n self - rhs
/-- `Sub` (num.rs:370-375) in a build without overflow checks. -/
def sub (self rhs : BitVec w) : BitVec w := get n self - get n rhs
/-- The derived `PartialEq` (num.rs:255). -/
def eq (a b : BitVec w) : Bool := a == b
/-- The derived `Ord` (num.rs:255). -/
def cmp (a b : BitVec w) : Ordering := compare a.toNat b.toNat

/-- The base integer that `Display`, `Debug` and the other formatting impls print (num.rs:277-316). -/
def shown (self : BitVec w) : BitVec w := self

/-- The values a user can build: the constructors, and the operators closed on the type (num.rs:262-376), with
subtractions that do not overflow. -/
inductive Made : BitVec w → Prop
  | max : Made (max n)
  | min : Made min
  | new {v x} : new n v = some x → Made x
  | bitandBase {x} (rhs) : Made x → Made (bitand x rhs)
  | bitand {x y} : Made x → Made y → Made (bitand x y)
  | bitor {x y} : Made x → Made y → Made (bitor x y)
  | subBase {x} (rhs) : Made x → rhs ≤ get n x → Made (subBase n x rhs)
  | sub {x y} : Made x → Made y → get n y ≤ get n x → Made (sub n x y)
end U

/-! ### `makeimask!` (num.rs:379-494) -/
namespace I
variable {w : Nat} (n : Nat)

/-- `MASK = (base::MAX >> (8 * size_of::<base>() - bits)) | (1 << (bits - 1))` (num.rs:392-395). -/
def mask : BitVec w := (BitVec.intMax w).sshiftRight (w - n) ||| (1#w <<< (n - 1))
/-- `MAX = Self(base::MAX >> bits)` (num.rs:397-398). -/
def max : BitVec w := (BitVec.intMax w).sshiftRight n
/-- `MIN = Self(1 << (bits - 1))` (num.rs:400-401). -/
def min : BitVec w := 1#w <<< (n - 1)
/-- `sign_extend` (num.rs:409-413); `>>` binds tighter than `|`. -/
def signExtend (value : BitVec w) : BitVec w :=
  let shift := w - n
  value ||| ((value &&& min n) <<< shift).sshiftRight (shift - 1)
/-- `get` (num.rs:415-417). -/
def get (self : BitVec w) : BitVec w := signExtend n (self &&& mask n)
/-- `new` (num.rs:403-408). -/
def new (value : BitVec w) : Option (BitVec w) :=
  if value.toInt ≤ (get n (max n : BitVec w)).toInt ∧ value.toInt ≥ (get n (min n : BitVec w)).toInt then some value else none
/-- The derived `PartialEq` (num.rs:389). -/
def eq (a b : BitVec w) : Bool := a == b
/-- The derived `Ord` (num.rs:389) compares the base integers, which are signed. -/
def cmp (a b : BitVec w) : Ordering := compare a.toInt b.toInt
/-- `BitAnd` (num.rs:465-470) and `BitAnd<base>` (459-464). -/
def bitand (self rhs : BitVec w) : BitVec w := self &&& rhs
/-- `BitOr` (num.rs:479-484). -/
def bitor (self rhs : BitVec w) : BitVec w := self ||| rhs
/-- The base integer that `Display`, `Debug` and the other formatting impls print (num.rs:419-458). -/
def shown (self : BitVec w) : BitVec w := self

/-- The values a user can build from those `new` accepts with the operators between values of the type (num.rs:465-492), and the
derived `Default` (num.rs:389). -/
inductive Made : BitVec w → Prop
  | default : Made 0#w
  | new {v x} : new n v = some x → Made x
  | bitand {x y} : Made x → Made y → Made (bitand x y)
  | bitor {x y} : Made x → Made y → Made (bitor x y)
end I

/-! ### `define_non_max!` and `define_non_x!` (num.rs:13-193) -/

/-- `core::num::NonZero*`. -/
structure NonZero (w : Nat) where
  val : BitVec w
  ne : val ≠ 0#w

/-- `core`'s `NonZero::new`. -/
def NonZero.new {w} (v : BitVec w) : Option (NonZero w) := if h : v ≠ 0#w then some ⟨v, h⟩ else none

namespace NonMax
variable {w : Nat}
/-- `new` (num.rs:28-33). -/
def new (n : BitVec w) : Option (NonZero w) :=
  match NonZero.new (~~~n) with
  | some n => some n
  | none => none
/-- `get` (num.rs:44-46). -/
def get (self : NonZero w) : BitVec w := ~~~self.val
/-- The derived `PartialEq` (num.rs:19). -/
def eq (a b : NonZero w) : Bool := a.val == b.val
/-- `Ord` (num.rs:64-68). -/
def cmp (a b : NonZero w) : Ordering := compare (get a).toNat (get b).toNat
/-- What `Hash` feeds to the hasher (num.rs:69-73). -/
def hashed (a : NonZero w) : BitVec w := get a
end NonMax

namespace NonX
variable {w : Nat} (forbidden : BitVec w)
/-- `new` (num.rs:109-114). -/
def new (n : BitVec w) : Option (NonZero w) :=
  match NonZero.new (n - forbidden) with
  | some n => some n
  | none => none
/-- `get` (num.rs:125-127). -/
def get (self : NonZero w) : BitVec w := self.val + forbidden
/-- The derived `PartialEq` (num.rs:100). -/
def eq (a b : NonZero w) : Bool := a.val == b.val
/-- `Ord` for the unsigned types (num.rs:145-149). -/
def cmpU (a b : NonZero w) : Ordering := compare (get forbidden a).toNat (get forbidden b).toNat
/-- `Ord` for the signed types (num.rs:145-149). -/
def cmpI (a b : NonZero w) : Ordering := compare (get forbidden a).toInt (get forbidden b).toInt
/-- What `Hash` feeds to the hasher (num.rs:150-154). -/
def hashed (a : NonZero w) : BitVec w := get forbidden a
end NonX

end Verif.Num
