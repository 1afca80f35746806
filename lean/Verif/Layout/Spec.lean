import Verif.Layout.Model

/-! Vocabulary to state what masks and forbidden values mean, independently of how the code uses them. -/
namespace Verif.Layout

/-- Bit `b` of byte `i` is listed as unused by the mask. -/
def Mask.Unused (k : Mask) (i b : Nat) : Prop := ∃ v, (i, v) ∈ k ∧ v.getLsbD b = true

/-- Two memories agree on every bit of the first `size` bytes that the mask does not list as unused. -/
def SameUsed (size : Nat) (ub : Mask) (m m' : Mem) : Prop :=
  ∀ i, i < size → ∀ b, b < 8 → ¬ ub.Unused i b → (m i).getLsbD b = (m' i).getLsbD b

/-- The memory holds a forbidden value: `Array<O₁, V₁, Array<O₂, V₂, ... End>>` forbids the byte `Oᵢ` from
being `Vᵢ` for all `i` at once; `Or` is the union of both sets; `ForbiddenRange` forbids all the bytes
of the range (repr-stabby.md, documentation of `IForbiddenValues`). -/
def Fv.Forbids : Fv → Mem → Prop
  | .none, _ => False
  | .byte o v .none, m => m o = v
  | .byte o v r, m => m o = v ∧ Fv.Forbids r m
  | .or a b, m => Fv.Forbids a m ∨ Fv.Forbids b m
  | .range mn mx o, m => mn ≤ m o ∧ m o ≤ mx

/-- All the offsets mentioned. -/
def Fv.offsets : Fv → List Nat
  | .none => []
  | .byte o _ r => o :: Fv.offsets r
  | .or a b => Fv.offsets a ++ Fv.offsets b
  | .range _ _ o => [o]

/-- A list of bytes (not nested unions or ranges). -/
def Fv.IsBytes : Fv → Prop
  | .none => True
  | .byte _ _ r => Fv.IsBytes r
  | _ => False

/-- Well-formed sets of forbidden values: multi-byte values are lists of bytes at distinct offsets,
ranges are not empty. -/
def Fv.WF : Fv → Prop
  | .none => True
  | .byte o _ r => Fv.IsBytes r ∧ o ∉ Fv.offsets r ∧ Fv.WF r
  | .or a b => Fv.WF a ∧ Fv.WF b
  | .range mn mx _ => mn ≤ mx

/-- `a` is a power of two. -/
def Pow2 (a : Nat) : Prop := ∃ k, a = 2 ^ k

/-- The least multiple of `a` that is at least `n` (for `a > 0`). -/
def alignUp (n a : Nat) : Nat := (n + a - 1) / a * a

end Verif.Layout
