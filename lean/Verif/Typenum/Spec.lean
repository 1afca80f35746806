import Verif.Typenum.Model
/-! Specification vocabulary for C01-C03: the natural number a type-level number denotes, and canonical spelling. -/
namespace Verif.Typenum
namespace U

/-- The number a type denotes (specification). -/
def val : U → Nat
  | term => 0
  | int m b => 2 * m.val + b.toNat

/-- No leading zero bit (specification). -/
def Canonical : U → Prop
  | term => True
  | int m b => m.Canonical ∧ (m = term → b = true)

/-- |x - y| on naturals (specification). -/
def absDiff (x y : Nat) : Nat := if x ≤ y then y - x else x - y

end U
end Verif.Typenum
