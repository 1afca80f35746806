/-! Executable model of `Slice`, `SliceMut` (`stabby-abi/src/slice.rs`), `Str` and `StrMut` (`stabby-abi/src/str.rs`).

Memory holds elements: `mem a` is the element at the address `a`, in units of the size of the elements, which are not zero-sized; `none` is memory that
is not allocated or not initialised.  A reference must point to an element; `none` as a result is undefined behaviour. -/
namespace Verif.Slice
variable {α : Type}

/-- Memory. -/
abbrev Mem (α : Type) := Nat → Option α

/-- `&[T]`, `&mut [T]`, `&str`, `&mut str`: where it starts, how many elements it has. -/
structure Ref where
  start : Nat
  len : Nat
  deriving DecidableEq, Repr

/-- `Slice` (slice.rs:21-29) and `SliceMut` (slice.rs:115-123): both fields are public. -/
structure Slice where
  start : Nat
  len : Nat
  deriving DecidableEq, Repr

/-- What a `&[T]` holds. -/
def contents (m : Mem α) (start : Nat) : Nat → Option (List α)
  | 0 => some []
  | n + 1 => match m start, contents m (start + 1) n with
    | some x, some l => some (x :: l)
    | _, _ => none

/-- A reference that the language allows. -/
def Ref.valid (m : Mem α) (r : Ref) : Bool := (contents m r.start r.len).isSome

/-- `Slice::new`, `From<&[T]>`, `From<&mut [T]>` (slice.rs:42-68), `SliceMut::from` (173-181): `as_ptr` and `len`. -/
def Slice.new (r : Ref) : Slice := ⟨r.start, r.len⟩

/-- `From<SliceMut> for Slice` (slice.rs:182-190). -/
def Slice.ofMut (s : Slice) : Slice := ⟨s.start, s.len⟩

/-- `from_raw_parts(p, len)`. -/
def fromRawParts (m : Mem α) (p len : Nat) : Option Ref := if (contents m p len).isSome then some ⟨p, len⟩ else none

/-- `start.as_ref()`, `start.as_mut()`: a reference to the first element, used as a pointer from then on. -/
def asRef (m : Mem α) (p : Nat) : Option Nat := if (m p).isSome then some p else none

/-- `Slice::as_slice` (slice.rs:50-53). -/
def Slice.asSlice (m : Mem α) (s : Slice) : Option Ref := fromRawParts m s.start s.len

/-- `Deref for Slice`, `From<Slice> for &[T]` (slice.rs:70-80), `Deref` and `DerefMut for SliceMut` (129-139), `From<SliceMut>` for `&mut [T]` and `&[T]`
(191-201): the pointer goes through `as_ref` or `as_mut`. -/
def Slice.deref (m : Mem α) (s : Slice) : Option Ref :=
  match asRef m s.start with
  | some p => fromRawParts m p s.len
  | none => none

/-- `*r` of a slice: its elements. -/
def Ref.get (m : Mem α) (r : Ref) : Option (List α) := contents m r.start r.len

/-- `PartialEq for Slice` and `SliceMut` (slice.rs:82-89, 141-148). -/
def Slice.eq [DecidableEq α] (m : Mem α) (a b : Slice) : Option Bool :=
  match a.deref m, b.deref m with
  | some x, some y => match x.get m, y.get m with
    | some l, some k => some (l == k)
    | _, _ => none
  | _, _ => none

/-- `Hash for Slice` and `SliceMut` (slice.rs:106-113, 165-172): what core's `[T]` feeds to the hasher, as a function of the elements. -/
def Slice.hash {β : Type} (m : Mem α) (h : List α → β) (s : Slice) : Option β :=
  match s.deref m with
  | some x => (x.get m).map h
  | none => none

/-- `s[i] = x`, through `DerefMut` (slice.rs:134-139).  Outside of the slice it panics and changes nothing. -/
def Slice.set (m : Mem α) (s : Slice) (i : Nat) (x : α) : Option (Mem α) :=
  match s.deref m with
  | some r => some (if i < r.len then (fun a => if a = r.start + i then some x else m a) else m)
  | none => none

/-- `Str::as_str`, `Deref for Str`, `From<Str> for &str` (str.rs:35-38, 50-65): `as_slice`. -/
def Str.asStr (m : Mem α) (s : Slice) : Option Ref := s.asSlice m

/-- `PartialEq for Str` is derived (str.rs:23): it is that of `Slice`. -/
def Str.eq [DecidableEq α] (m : Mem α) (a b : Slice) : Option Bool := a.eq m b

/-- `PartialOrd for Str` (str.rs:76-80): compares what `Deref` gives. -/
def Str.cmp (m : Mem α) (c : List α → List α → Ordering) (a b : Slice) : Option Ordering :=
  match Str.asStr m a, Str.asStr m b with
  | some x, some y => match x.get m, y.get m with
    | some l, some k => some (c l k)
    | _, _ => none
  | _, _ => none

/-- `Deref for StrMut`, `From<StrMut>` for `&str` and `&mut str` (str.rs:92-126): they go through `SliceMut`. -/
def StrMut.deref (m : Mem α) (s : Slice) : Option Ref := s.deref m

end Verif.Slice
