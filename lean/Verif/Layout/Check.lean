import Verif.Layout.Model
/-! Model of the compile-time check of declared layouts: `check!` (stabby-abi/src/stable_impls/mod.rs:137-233). -/
namespace Verif.Layout.Check
open Verif.Layout

/-- What rustc says of a type: `size_of`, `align_of`, and the sizes of `Option` and `Option<Option>` of it. -/
structure Rustc where
  size : Nat
  align : Nat
  optSize : Nat
  optOptSize : Nat

/-! The literals of `check!`, in ASCII. -/

/-- "'s alignment was mis-evaluated by stabby, this is definitely a bug and may cause UB. Please create an issue using this link: http -/
def alignA : List Nat := [39, 115, 32, 97, 108, 105, 103, 110, 109, 101, 110, 116, 32, 119, 97, 115, 32, 109, 105, 115, 45, 101, 118, 97, 108, 117, 97, 116, 101, 100, 32, 98, 121, 32, 115, 116, 97, 98, 98, 121, 44, 32, 116, 104, 105, 115, 32, 105, 115, 32, 100, 101, 102, 105, 110, 105, 116, 101, 108, 121, 32, 97, 32, 98, 117, 103, 32, 97, 110, 100, 32, 109, 97, 121, 32, 99, 97, 117, 115, 101, 32, 85, 66, 46, 32, 80, 108, 101, 97, 115, 101, 32, 99, 114, 101, 97, 116, 101, 32, 97, 110, 32, 105, 115, 115, 117, 101, 32, 117, 115, 105, 110, 103, 32, 116, 104, 105, 115, 32, 108, 105, 110, 107, 58, 32, 104, 116, 116, 112, 115, 58, 47, 47, 103, 105, 116, 104, 117, 98, 46, 99, 111, 109, 47, 90, 101, 116, 116, 97, 83, 99, 97, 108, 101, 76, 97, 98, 115, 47, 115, 116, 97, 98, 98, 121, 47, 105, 115, 115, 117, 101, 115, 47, 110, 101, 119, 63, 116, 105, 116, 108, 101, 61]
/-- '%20misaligned%20on%20' -/
def alignB : List Nat := [37, 50, 48, 109, 105, 115, 97, 108, 105, 103, 110, 101, 100, 37, 50, 48, 111, 110, 37, 50, 48]
/-- '&body=Stabby%20says%20' -/
def body : List Nat := [38, 98, 111, 100, 121, 61, 83, 116, 97, 98, 98, 121, 37, 50, 48, 115, 97, 121, 115, 37, 50, 48]
/-- '%2C%20Rust%20says%20' -/
def says : List Nat := [37, 50, 67, 37, 50, 48, 82, 117, 115, 116, 37, 50, 48, 115, 97, 121, 115, 37, 50, 48]
/-- '\\r\\n' -/
def eol : List Nat := [13, 10]
/-- "'s size was mis-evaluated by stabby, this is definitely a bug and may cause UB. Please create an issue using this link: https://g -/
def sizeA : List Nat := [39, 115, 32, 115, 105, 122, 101, 32, 119, 97, 115, 32, 109, 105, 115, 45, 101, 118, 97, 108, 117, 97, 116, 101, 100, 32, 98, 121, 32, 115, 116, 97, 98, 98, 121, 44, 32, 116, 104, 105, 115, 32, 105, 115, 32, 100, 101, 102, 105, 110, 105, 116, 101, 108, 121, 32, 97, 32, 98, 117, 103, 32, 97, 110, 100, 32, 109, 97, 121, 32, 99, 97, 117, 115, 101, 32, 85, 66, 46, 32, 80, 108, 101, 97, 115, 101, 32, 99, 114, 101, 97, 116, 101, 32, 97, 110, 32, 105, 115, 115, 117, 101, 32, 117, 115, 105, 110, 103, 32, 116, 104, 105, 115, 32, 108, 105, 110, 107, 58, 32, 104, 116, 116, 112, 115, 58, 47, 47, 103, 105, 116, 104, 117, 98, 46, 99, 111, 109, 47, 90, 101, 116, 116, 97, 83, 99, 97, 108, 101, 76, 97, 98, 115, 47, 115, 116, 97, 98, 98, 121, 47, 105, 115, 115, 117, 101, 115, 47, 110, 101, 119, 63, 116, 105, 116, 108, 101, 61]
/-- '%20missized%20on%20' -/
def sizeB : List Nat := [37, 50, 48, 109, 105, 115, 115, 105, 122, 101, 100, 37, 50, 48, 111, 110, 37, 50, 48]
/-- "'s niches were mis-evaluated by stabby, this is definitely a bug and may cause UB. Please create an issue using this link: https: -/
def nicheA : List Nat := [39, 115, 32, 110, 105, 99, 104, 101, 115, 32, 119, 101, 114, 101, 32, 109, 105, 115, 45, 101, 118, 97, 108, 117, 97, 116, 101, 100, 32, 98, 121, 32, 115, 116, 97, 98, 98, 121, 44, 32, 116, 104, 105, 115, 32, 105, 115, 32, 100, 101, 102, 105, 110, 105, 116, 101, 108, 121, 32, 97, 32, 98, 117, 103, 32, 97, 110, 100, 32, 109, 97, 121, 32, 99, 97, 117, 115, 101, 32, 85, 66, 46, 32, 80, 108, 101, 97, 115, 101, 32, 99, 114, 101, 97, 116, 101, 32, 97, 110, 32, 105, 115, 115, 117, 101, 32, 117, 115, 105, 110, 103, 32, 116, 104, 105, 115, 32, 108, 105, 110, 107, 58, 32, 104, 116, 116, 112, 115, 58, 47, 47, 103, 105, 116, 104, 117, 98, 46, 99, 111, 109, 47, 90, 101, 116, 116, 97, 83, 99, 97, 108, 101, 76, 97, 98, 115, 47, 115, 116, 97, 98, 98, 121, 47, 105, 115, 115, 117, 101, 115, 47, 110, 101, 119, 63, 116, 105, 116, 108, 101, 61]
/-- '%20has%20niches%20but%20stabby%20does%20not%20find%20any' -/
def niche0 : List Nat := [37, 50, 48, 104, 97, 115, 37, 50, 48, 110, 105, 99, 104, 101, 115, 37, 50, 48, 98, 117, 116, 37, 50, 48, 115, 116, 97, 98, 98, 121, 37, 50, 48, 100, 111, 101, 115, 37, 50, 48, 110, 111, 116, 37, 50, 48, 102, 105, 110, 100, 37, 50, 48, 97, 110, 121]
/-- '%20has%20no%20niches%20but%20stabby%20claims%20one%20found%20exactly' -/
def niche1 : List Nat := [37, 50, 48, 104, 97, 115, 37, 50, 48, 110, 111, 37, 50, 48, 110, 105, 99, 104, 101, 115, 37, 50, 48, 98, 117, 116, 37, 50, 48, 115, 116, 97, 98, 98, 121, 37, 50, 48, 99, 108, 97, 105, 109, 115, 37, 50, 48, 111, 110, 101, 37, 50, 48, 102, 111, 117, 110, 100, 37, 50, 48, 101, 120, 97, 99, 116, 108, 121]
/-- '%20has%20multiple%20niches%20but%20stabby%20claims%20one%20found%20exactly' -/
def niche2 : List Nat := [37, 50, 48, 104, 97, 115, 37, 50, 48, 109, 117, 108, 116, 105, 112, 108, 101, 37, 50, 48, 110, 105, 99, 104, 101, 115, 37, 50, 48, 98, 117, 116, 37, 50, 48, 115, 116, 97, 98, 98, 121, 37, 50, 48, 99, 108, 97, 105, 109, 115, 37, 50, 48, 111, 110, 101, 37, 50, 48, 102, 111, 117, 110, 100, 37, 50, 48, 101, 120, 97, 99, 116, 108, 121]

/-- `fmt2digit` (mod.rs:167-169), of a `u8`. -/
def fmt2 (n : Nat) : List Nat := [48 + n / 10, 48 + n % 10]
/-- `fmt6digit` (mod.rs:184-193), of a `usize`. -/
def fmt6 (n : Nat) : List Nat :=
  [48 + n / 100000 % 10, 48 + n / 10000 % 10, 48 + n / 1000 % 10, 48 + n / 100 % 10, 48 + n / 10 % 10, 48 + n % 10]

/-- Lines 157-174; `as u8` keeps the low byte. -/
def alignPart (name arch : List Nat) (l : Lay) (r : Rustc) : List Nat :=
  if l.align % 256 ≠ r.align % 256 then
    name ++ alignA ++ name ++ alignB ++ arch ++ body ++ fmt2 (l.align % 256) ++ says ++ fmt2 (r.align % 256) ++ eol
  else []
/-- Lines 175-198. -/
def sizePart (name arch : List Nat) (l : Lay) (r : Rustc) : List Nat :=
  if l.size ≠ r.size then name ++ sizeA ++ name ++ sizeB ++ arch ++ body ++ fmt6 l.size ++ says ++ fmt6 r.size ++ eol else []
/-- Lines 199-226. -/
def nichePart (name : List Nat) (l : Lay) (r : Rustc) : List Nat :=
  match l.oneNiche with
  | .b0 => if r.size = r.optSize then name ++ nicheA ++ name ++ niche0 ++ eol else []
  | .b1 =>
    (if r.size ≠ r.optSize then name ++ nicheA ++ name ++ niche1 ++ eol else []) ++
      (if r.size = r.optOptSize then name ++ nicheA ++ name ++ niche2 ++ eol else [])
  | .saturator => []

/-- What is written into the buffer. -/
def message (name arch : List Nat) (l : Lay) (r : Rustc) : List Nat := alignPart name arch l r ++ sizePart name arch l r ++ nichePart name l r

/-- What becomes of the program: it compiles, or does not because of a panic with this text, or because of an index out of the bounds of the buffer. -/
inductive Outcome where
  | compiles
  | panics (text : List Nat)
  | outOfBounds
deriving DecidableEq

/-- `check!` (mod.rs:137-233): the buffer has 1024 bytes. -/
def check (name arch : List Nat) (l : Lay) (r : Rustc) : Outcome :=
  if 1024 < (message name arch l r).length then .outOfBounds
  else if (message name arch l r).length ≠ 0 then .panics (message name arch l r) else .compiles

end Verif.Layout.Check
