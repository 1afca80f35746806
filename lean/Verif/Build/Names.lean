import Verif.Typenum.Model
/-!
# What `stabby-abi/build.rs` writes

The aliases of type-level numbers (`unsigned.rs`, included at `stabby-abi/src/typenum2/unsigned.rs:18`) and the tuples (`tuples.rs`, included at `stabby-abi/src/lib.rs:406`), as text.

Simplifications: text is a list of characters; only the parts of a generated item that depend on the number are represented (the surrounding tokens are the same for all items);
writing the files does not fail; formatting of numbers is core's, modelled by its loop.
-/
namespace Verif.Build
open Verif.Typenum

abbrev Text := List Char

/-- The digits core uses for `{}`, `{:X}` and `{:b}`. -/
def digit (d : Nat) : Char := if d < 10 then Char.ofNat (48 + d) else Char.ofNat (55 + d)

/-- The loop of core's formatting: least significant digit first, written from the end of the buffer towards its start. -/
def fmtLoop (b : Nat) : Nat → Nat → Text → Text
  | 0, _, acc => acc
  | f+1, n, acc => if n / b = 0 then digit (n % b) :: acc else fmtLoop b f (n / b) (digit (n % b) :: acc)

/-- `{n}` (`b = 10`), `{n:X}` (`b = 16`), `{n:b}` (`b = 2`). -/
def fmt (b n : Nat) : Text := fmtLoop b (n + 1) n []

/-- `format!("UInt<{result}, B{bit}>")` (stabby-abi/build.rs:33). -/
def wrap (result : Text) (bit : Bit) : Text :=
  ['U', 'I', 'n', 't', '<'] ++ result ++ [',', ' ', 'B'] ++ fmt 10 bit.toNat ++ ['>']

/-- `u(i)` (stabby-abi/build.rs:24-36). -/
def u (i : Nat) : Text := (U.bitsOf i).reverse.foldl wrap ['U', 'T', 'e', 'r', 'm']

/-- `/// {doc}\npub type {name} = {ty};` -/
structure Alias where
  doc : Text
  name : Text
  ty : Text
  deriving DecidableEq, Repr

/-- The loop over `0..=SEQ_MAX` (stabby-abi/build.rs:42-47). -/
def seqAliases (seqMax : Nat) : List Alias :=
  (List.range (seqMax + 1)).flatMap fun i =>
    [⟨fmt 10 i, 'U' :: fmt 10 i, u i⟩,
     ⟨fmt 10 i, 'U' :: 'x' :: fmt 16 i, u i⟩,
     ⟨fmt 10 i, 'U' :: 'b' :: fmt 2 i, u i⟩]

/-- The loop over the powers of ten (stabby-abi/build.rs:48-57). -/
def tenAliases (seqMax n : Nat) : List Alias :=
  (List.range n).flatMap fun i =>
    ⟨fmt 10 i, ['U', '1', '0', 'p', 'o', 'w'] ++ fmt 10 i, u (10 ^ i)⟩ ::
    if seqMax < 10 ^ i then
      [⟨fmt 10 i, 'U' :: fmt 10 (10 ^ i), u (10 ^ i)⟩,
       ⟨fmt 10 i, 'U' :: 'x' :: fmt 16 (10 ^ i), u (10 ^ i)⟩,
       ⟨fmt 10 i, 'U' :: 'b' :: fmt 2 (10 ^ i), u (10 ^ i)⟩]
    else []

/-- The loop over the powers of two (stabby-abi/build.rs:58-65). -/
def twoAliases (seqMax n : Nat) : List Alias :=
  (List.range n).flatMap fun i =>
    ⟨fmt 10 i, ['U', '2', 'p', 'o', 'w'] ++ fmt 10 i, u (2 ^ i)⟩ ::
    if seqMax < 2 ^ i then [⟨fmt 10 i, 'U' :: fmt 10 (2 ^ i), u (2 ^ i)⟩] else []

/-- `typenum_unsigned` (stabby-abi/build.rs:38-67) with its three bounds as parameters. -/
def aliases (seqMax tens twos : Nat) : List Alias :=
  seqAliases seqMax ++ tenAliases seqMax tens ++ twoAliases seqMax twos

/-- The file as generated: `SEQ_MAX` is 1000 (stabby-abi/build.rs:39), `0..39` (48), `0..128` (58). -/
def unsignedRs : List Alias := aliases 1000 39 128

/-- `(0..i).fold(String::new(), |mut acc, it| { write!(acc, "T{it}, ") .. })` (stabby-abi/build.rs:93-104): the names that are written, each followed by a comma. -/
def idents (pre : Text) (i : Nat) : List Text := (List.range i).map fun it => pre ++ fmt 10 it

/-- A generated tuple (stabby-abi/build.rs:75-92): `pub struct Tuple{i}<{generics}>({fields});` and its two conversions, whose patterns and expressions are lists of names. -/
structure TupleDef where
  name : Text
  generics : List Text
  /-- the types of the fields, `pub` left out -/
  fields : List Text
  /-- the pattern and the expression of `From<({generics})>` -/
  fromPat : List Text
  fromExpr : List Text
  /-- the pattern and the expression of `From<Tuple{i}<{generics}>>` -/
  intoPat : List Text
  intoExpr : List Text
  deriving DecidableEq, Repr

/-- One round of the loop of `tuples` (stabby-abi/build.rs:72-106). -/
def tupleDef (i : Nat) : TupleDef :=
  { name := ['T', 'u', 'p', 'l', 'e'] ++ fmt 10 i
    generics := idents ['T'] i
    fields := idents ['T'] i
    fromPat := idents ['f', 'i', 'e', 'l', 'd'] i
    fromExpr := idents ['f', 'i', 'e', 'l', 'd'] i
    intoPat := idents ['f', 'i', 'e', 'l', 'd'] i
    intoExpr := idents ['f', 'i', 'e', 'l', 'd'] i }

/-- `tuples` (stabby-abi/build.rs:69-108). -/
def tuples (maxTuple : Nat) : List TupleDef := (List.range (maxTuple + 1)).map tupleDef

/-- `str::parse::<usize>` of core on a 64-bit target: an optional plus, at least one digit, no overflow. -/
def digitsUsize : Nat → Text → Option Nat
  | v, [] => some v
  | v, c :: cs =>
    if 48 ≤ c.toNat ∧ c.toNat < 58 then
      let v' := 10 * v + (c.toNat - 48)
      if v' < 2 ^ 64 then digitsUsize v' cs else none
    else none
def parseUsize : Text → Option Nat
  | [] => none
  | '+' :: [] => none
  | '+' :: c :: cs => digitsUsize 0 (c :: cs)
  | c :: cs => digitsUsize 0 (c :: cs)

/-- `CARGO_CFG_STABBY_MAX_TUPLE` to the greatest arity (stabby-abi/build.rs:113-115). -/
def maxTuple (var : Option Text) : Nat :=
  Nat.max (match var with
    | none => 32
    | some s => (parseUsize s).getD 32) 10

end Verif.Build
