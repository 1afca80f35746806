import Verif.Layout.Model
/-! The specification of `#[repr(stabby)]` (repr-stabby.md), as a program.

The document describes the determinant of a `Result` by a Python program (repr-stabby.md:47-94).  This file is that program, over lists
of bytes, without reference to the implementation.  Where the Python program uses a name that it does not define (`offset` in
`can_contain`), the argument is meant; a forbidden value of several bytes fits if all of its bytes do. -/
namespace Verif.Sum.Document
open Verif.Layout (Byte)

/-- What the document says about a type: its size, its alignment, its forbidden values in order, each a list of `(byte_offset, value)`, and its unused
bits, one byte of mask per byte (repr-stabby.md:4-8). -/
structure Doc where
  size : Nat
  align : Nat
  fvs : List (List (Nat × Byte))
  unbits : List Byte
  deriving DecidableEq, Repr

/-- The determinants (repr-stabby.md:99-102). -/
inductive Tag where
  | bit
  | valueIsErr (fv : List (Nat × Byte))
  | bitIsErr (byte bit : Nat)
  | not (t : Tag)
  deriving DecidableEq, Repr

/-- `(determinant, ok_shift, err_shift, remaining_unbits)`. -/
structure Plan where
  tag : Tag
  okShift : Nat
  errShift : Nat
  unbits : List Byte
  deriving DecidableEq, Repr

/-- `Unbits.pad`, `Unbits.shift`, `Unbits.can_contain` and `&` (repr-stabby.md:51-62, 81). -/
def pad (m : List Byte) (target : Nat) : List Byte := m ++ List.replicate (target - m.length) 255
def shift (m : List Byte) (by_ : Nat) : List Byte := List.replicate by_ 255 ++ m
def canContain (m : List Byte) (offset : Nat) : Bool := m[offset]? == some 255
def and (a b : List Byte) : List Byte := List.zipWith (· &&& ·) a b

/-- `rightmost_one`: the index of the lowest bit that is one. -/
def rightmostOne (v : Byte) : Nat := ((List.range 8).find? (fun b => v.getLsbD b)).getD 0

/-- `Unbits.extract_bit` (repr-stabby.md:63-70). -/
def extractBit (m : List Byte) : Option (Nat × Nat × List Byte) :=
  (m.findIdx? (· != 0)).map fun o =>
    let v := (m[o]?).getD 0
    (o, rightmostOne v, m.set o (v ^^^ (1#8 <<< rightmostOne v)))

/-- `next_multiple`. -/
def nextMultiple (n a : Nat) : Nat := (n + a - 1) / a * a

/-- How the document is read.  As it is written, `Err`'s forbidden values are looked for at their offsets inside of `Err`, wherever `Err` is
(`shifted` is false), and `ValueIsErr` is returned for a forbidden value of `Err` (`exchanged` is false), although that value never means `Err`. -/
structure Reading where
  shifted : Bool
  exchanged : Bool
  deriving DecidableEq, Repr

/-- `U`'s size (repr-stabby.md:75). -/
def unionSize (ok err : Doc) : Nat := max (nextMultiple ok.size err.align) (nextMultiple err.size ok.align)

/-- `for i in range(8)` (repr-stabby.md:78-93); `fuel` is the number of iterations left. -/
def loop (r : Reading) (ok err : Doc) (okUnbits : List Byte) (n : Nat) : Nat → Nat → Plan
  | 0, _ => ⟨.bit, 0, 0, List.replicate n 0⟩
  | fuel + 1, i =>
    let s := i * err.align
    let errUnbits := pad (shift err.unbits s) n
    let unbits := and okUnbits errUnbits
    let errFvs := if r.shifted then err.fvs.map (fun fv => fv.map (fun (o, v) => (o + s, v))) else err.fvs
    match errFvs.find? (fun fv => fv.all (fun (o, _) => canContain okUnbits o)) with
    | some fv => ⟨if r.exchanged then .not (.valueIsErr fv) else .valueIsErr fv, 0, s, unbits⟩
    | none =>
      match ok.fvs.find? (fun fv => fv.all (fun (o, _) => canContain errUnbits o)) with
      | some fv => ⟨if r.exchanged then .valueIsErr fv else .not (.valueIsErr fv), 0, s, unbits⟩
      | none =>
        match extractBit unbits with
        | some (byte, bit, rest) => ⟨.bitIsErr byte bit, 0, s, rest⟩
        | none => if err.size + s + err.align > n then ⟨.bit, 0, 0, List.replicate n 0⟩ else loop r ok err okUnbits n fuel (i + 1)

/-- `determinant` for `Ok.size >= Err.size` (repr-stabby.md:75-93). -/
def larger (r : Reading) (ok err : Doc) : Plan := loop r ok err (pad ok.unbits (unionSize ok err)) (unionSize ok err) 8 0

/-- `determinant` (repr-stabby.md:71-93). -/
def determinant (r : Reading) (ok err : Doc) : Plan :=
  if ok.size < err.size then
    let p := larger r err ok
    ⟨.not p.tag, p.errShift, p.okShift, p.unbits⟩
  else larger r ok err

/-- Whether the memory of a `Result` holds `Ok` (repr-stabby.md:99-102). -/
def Tag.isOk : Tag → (Nat → Byte) → Bool
  | .bit, m => !(m 0).getLsbD 0
  | .valueIsErr fv, m => !fv.all (fun (o, v) => m o == v)
  | .bitIsErr o b, m => !(m o).getLsbD b
  | .not t, m => !t.isOk m

/-- Whether there is a tag beside the union. -/
def Tag.apart : Tag → Bool
  | .bit => true
  | .not t => t.apart
  | _ => false

/-- The size and the offset of the union `U` (repr-stabby.md:96-102): alone, or after a tag of one byte, as in a `repr(C)` struct. -/
def unionAt (r : Reading) (ok err : Doc) : Nat := if (determinant r ok err).tag.apart then nextMultiple 1 (max ok.align err.align) else 0
def size (r : Reading) (ok err : Doc) : Nat := unionAt r ok err + nextMultiple (max ok.size err.size) (max ok.align err.align)

/-- A tree of variants. -/
inductive Tree (α : Type) where
  | leaf (a : α)
  | node (l r : Tree α)
  deriving DecidableEq, Repr

/-- `binary_tree` (repr-stabby.md:36-41): a list of one variant is the variant, a list of two is a `Result`. -/
def binaryTree {α : Type} : List α → Option (Tree α)
  | [] => none
  | [a] => some (.leaf a)
  | [a, b] => some (.node (.leaf a) (.leaf b))
  | a :: b :: c :: rest =>
    let buffer := a :: b :: c :: rest
    let pivot := buffer.length / 2
    match binaryTree (buffer.take pivot), binaryTree (buffer.drop pivot) with
    | some l, some r => some (.node l r)
    | _, _ => none
termination_by l => l.length
decreasing_by
  · simp only [List.length_take, List.length_cons]; omega
  · simp only [List.length_drop, List.length_cons]; omega

end Verif.Sum.Document
