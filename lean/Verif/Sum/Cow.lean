import Verif.Sum.Combi
import Verif.Sum.Variants

/-! `Cow` and `CowStr` (stabby/src/allocs/borrow.rs). -/
namespace Verif.Sum
open Verif.Layout

/-- `Cow<'a, Borrowed>` (borrow.rs:25-32): an enum of two variants, `&'a Borrowed` and the owned type. -/
def cowTree (o : Ty) : Tree := build [.ref, o]
def cowTy (o : Ty) : Ty := .result .ref o
/-- `Cow::Borrowed(r)` (borrow.rs:30). -/
def cowBorrowed (o : Ty) (r : Mem) : Mem := (cowTree o).ctor 0 r
/-- `Cow::Owned(x)` (borrow.rs:31). -/
def cowOwned (o : Ty) (x : Mem) : Mem := (cowTree o).ctor 1 x
/-- `Cow::into_owned` (borrow.rs:39-41); `clone` is `ToOwned::to_owned` of the borrowed value. -/
def intoOwned (o : Ty) (clone : Mem → MRun Mem) (m : Mem) : MRun Mem := matchOwned .ref o m clone .pure
/-- `Cow::to_owned` (borrow.rs:42-44). -/
def toOwned (o : Ty) (clone : Mem → MRun Mem) (m : Mem) : MRun Mem := (intoOwned o clone m).bind fun x => .pure (cowOwned o x)
/-- `Borrow for Cow` (borrow.rs:46-54): the reference inside, or what `Borrow` of the owned value gives. -/
def cowBorrow (o : Ty) (borrow : Mem → MRun Mem) (m : Mem) : MRun Mem := matchRef .ref o m .pure borrow

/-- `Slice<'a, u8>` (slice.rs:22-29), of which `Str<'a>` is a struct (str.rs:24-26); markers have no bytes (C04). -/
def strTy : Ty := .struct (.struct (.fieldPair .ref .usize))
/-- `String` (alloc/string.rs:12-14) around `Vec<u8>` (alloc/vec.rs:24-29, 45-47) with an allocator `alloc`. -/
def stringTy (alloc : Ty) : Ty := .struct (.struct (.struct (.fieldPair (.fieldPair (.fieldPair (.struct .ref) .ref) .ref) alloc)))
/-- `CowStr<'a>` (borrow.rs:56-60); `String` is the one of the default allocator, which has no bytes (rust_alloc.rs:6-8, libc_alloc.rs:40-42). -/
def cowStrTree : Tree := build [strTy, stringTy (.struct (.array .u8 0))]

end Verif.Sum
