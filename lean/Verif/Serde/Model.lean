/-! Executable model of the `serde` implementations of stabby's types.

A serialised value is a tree of serde's data model.  A format is what a `Deserializer` does with it: formats give the tree back that was
serialised, but they choose how strings are handed to visitors (borrowed from the input, or not), whether a sequence can be read as bytes, and what size they announce for a
sequence.  Integers and the visitors of core's and serde's own types are serde's. -/
namespace Verif.Serde

/-- serde's data model, as far as the types below use it. -/
inductive Node where
  | num (n : Int)
  | str (s : List Char)
  | seq (l : List Node)
  | none
  | some (n : Node)
  | variant (name : String) (n : Node)
  deriving Repr

/-- How a deserializer hands over a string: `visit_borrowed_str`, `visit_str`, `visit_string`. -/
inductive Mode where
  | borrowed | transient | owned
  deriving DecidableEq, Repr

/-- A format. -/
structure Format where
  /-- how strings are handed to visitors -/
  mode : List Char → Mode
  /-- whether the format can read a sequence of bytes as bytes, which it then lends to the visitor (formats that do not describe themselves) -/
  bytes : Bool
  /-- `SeqAccess::size_hint` -/
  hint : List Node → Option Nat

/-- The types: integers in a range, integers without one value (`NonMax*`, `NonX*`), text, sequences, `Option`, `Result`, borrowed bytes. -/
inductive Ty where
  | int (lo hi : Int)
  | nonX (lo hi x : Int)
  /-- `Str` -/
  | strRef
  | string | boxedStr | arcStr
  | vec (t : Ty) | boxedSlice (t : Ty) | arcSlice (t : Ty)
  | option (t : Ty)
  | result (t e : Ty)
  /-- `Slice<u8>` -/
  | bytesRef
  deriving DecidableEq, Repr

mutual
/-- The values. -/
inductive Val where
  | int (n : Int)
  | text (s : List Char)
  | list (l : Vals)
  | none
  | some (v : Val)
  | ok (v : Val)
  | err (v : Val)
  deriving Repr
inductive Vals where
  | nil
  | cons (v : Val) (l : Vals)
  deriving Repr
end

mutual
/-- Whether a value has a type. -/
def HasTy : Ty → Val → Prop
  | .int lo hi, .int n => lo ≤ n ∧ n ≤ hi
  | .nonX lo hi x, .int n => lo ≤ n ∧ n ≤ hi ∧ n ≠ x
  | .strRef, .text _ => True
  | .string, .text _ => True
  | .boxedStr, .text _ => True
  | .arcStr, .text _ => True
  | .vec t, .list l => HaveTy t l
  | .boxedSlice t, .list l => HaveTy t l
  | .arcSlice t, .list l => HaveTy t l
  | .option _, .none => True
  | .option t, .some v => HasTy t v
  | .result t _, .ok v => HasTy t v
  | .result _ e, .err v => HasTy e v
  | .bytesRef, .list l => HaveTy (.int 0 255) l
  | _, _ => False
def HaveTy : Ty → Vals → Prop
  | _, .nil => True
  | t, .cons v l => HasTy t v ∧ HaveTy t l
end

mutual
/-- `Serialize`: integers as themselves, `NonMax*` and `NonX*` as the integer (`serde(into)`, num.rs:20-22, 101-103); text as `&str` (str.rs:137-152, alloc/string.rs:375-383,
alloc/boxed.rs:524-532, alloc/sync.rs:958-966); sequences as `&[T]` (slice.rs:207-224, alloc/vec.rs:843-851, alloc/boxed.rs:507-515, alloc/sync.rs:941-949); `Option` and `Result` as core's
(option.rs:188-199, result.rs:568-580). -/
def ser : Val → Node
  | .int n => .num n
  | .text s => .str s
  | .list l => .seq (sers l)
  | .none => .none
  | .some v => .some (ser v)
  | .ok v => .variant "Ok" (ser v)
  | .err v => .variant "Err" (ser v)
def sers : Vals → List Node
  | .nil => []
  | .cons v l => ser v :: sers l
end

/-- An integer of a range, by serde. -/
def deInt (lo hi : Int) : Node → Option Val
  | .num n => if lo ≤ n ∧ n ≤ hi then some (.int n) else none
  | _ => none

/-- `serde(try_from)` (num.rs:20-22, 101-103): the integer, then `Self::new` (num.rs:52-57, 132-137). -/
def deNonX (lo hi x : Int) (n : Node) : Option Val :=
  match deInt lo hi n with
  | some (.int k) => if k ≠ x then some (.int k) else none
  | _ => none

/-- `StrVisitor` (str.rs:161-173): only `visit_borrowed_str` is implemented. -/
def visitStr : Mode → List Char → Option Val
  | .borrowed, s => some (.text s)
  | _, _ => none

/-- `Str::deserialize` (str.rs:153-160). -/
def deStr (f : Format) : Node → Option Val
  | .str s => visitStr (f.mode s) s
  | _ => none

/-- `String::deserialize` (alloc/string.rs:384-391) goes through `Str::deserialize`; `BoxedStr` and `ArcStr` through `String` (alloc/boxed.rs:533-540, alloc/sync.rs:967-974). -/
def deString (f : Format) (n : Node) : Option Val := deStr f n

mutual
/-- `Deserialize`.  Sequences: `VecVisitor` (alloc/vec.rs:852-877), through which the slices go (alloc/boxed.rs:516-523, alloc/sync.rs:950-957).  Borrowed bytes: `BytesVisitor`
only implements `visit_borrowed_bytes` (slice.rs:225-245).  `Option` and `Result`: core's (option.rs:200-210, result.rs:581-591). -/
def de (f : Format) : Ty → Node → Option Val
  | .int lo hi, n => deInt lo hi n
  | .nonX lo hi x, n => deNonX lo hi x n
  | .strRef, n => deStr f n
  | .string, n => deString f n
  | .boxedStr, n => deString f n
  | .arcStr, n => deString f n
  | .vec t, .seq l => (des f t l).map .list
  | .boxedSlice t, .seq l => (des f t l).map .list
  | .arcSlice t, .seq l => (des f t l).map .list
  | .option _, .none => some .none
  | .option t, .some n => (de f t n).map .some
  | .result t e, .variant name n =>
    if name = "Ok" then (de f t n).map .ok else if name = "Err" then (de f e n).map .err else none
  | .bytesRef, .seq l => if f.bytes then (des f (.int 0 255) l).map .list else none
  | _, _ => none
def des (f : Format) (t : Ty) : List Node → Option Vals
  | [] => some .nil
  | n :: l => match de f t n, des f t l with
    | some v, some k => some (.cons v k)
    | _, _ => none
end

/-- How many elements `VecVisitor` makes room for before it reads the first one (alloc/vec.rs:870). -/
def reserved (f : Format) (l : List Node) : Nat := (f.hint l).getD 0

end Verif.Serde
