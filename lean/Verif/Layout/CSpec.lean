import Verif.Layout.Spec

/-! The C layout algorithm, written independently of stabby: fields are placed in order, each at the
first offset past the previous one that its alignment allows. -/
namespace Verif.Layout

/-- Offsets given to fields, starting from `cursor`. -/
def cPlace : Nat → List Lay → List (Nat × Lay)
  | _, [] => []
  | cursor, f :: fs => (alignUp cursor f.align, f) :: cPlace (alignUp cursor f.align + f.size) fs

/-- First byte past the last field. -/
def cEnd : Nat → List Lay → Nat
  | cursor, [] => cursor
  | cursor, f :: fs => cEnd (alignUp cursor f.align + f.size) fs

/-- Largest alignment. -/
def cAlign : List Lay → Nat
  | [] => 1
  | f :: fs => max f.align (cAlign fs)

/-- Largest size. -/
def cMaxSize : List Lay → Nat
  | [] => 0
  | f :: fs => max f.size (cMaxSize fs)

/-- Size of the C struct with these fields. -/
def cStructSize (fs : List Lay) : Nat := alignUp (cEnd 0 fs) (cAlign fs)

/-- Size of the C union with these members. -/
def cUnionSize (fs : List Lay) : Nat := alignUp (cMaxSize fs) (cAlign fs)

/-- Byte `i` is inside one of the placed fields. -/
def Covered (pl : List (Nat × Lay)) (i : Nat) : Prop := ∃ o f, (o, f) ∈ pl ∧ o ≤ i ∧ i < o + f.size

end Verif.Layout
