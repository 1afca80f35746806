import Verif.BTree.Model
import Verif.Vec.Model

/-! Model of what is written when containers are formatted, and of writing into vectors.

A `Formatter` is a state with a function that writes text into it and says whether that worked; so is what formats an element.  Options of formatters are
part of what formats an element: nothing here changes them. -/
namespace Verif.Fmt

/-- What writes: the state after it, and whether it is `Ok`. -/
abbrev Act (σ : Type) := σ → σ × Bool

/-- `?` between two things that write. -/
def andThen (a b : Act σ) : Act σ := fun s => if (a s).2 then b (a s).1 else a s

/-- The loop of `LowerHex` and `UpperHex` for `Vec`, `BoxedSlice` and `ArcSlice` (stabby-abi/src/alloc/vec.rs:597-605, 610-618,
stabby-abi/src/alloc/boxed.rs:454-462, 467-475, stabby-abi/src/alloc/sync.rs:605-613, 618-626). -/
def hexLoop (write : List Char → Act σ) (item : α → Act σ) : Bool → List α → Act σ
  | _, [] => fun s => (s, true)
  | true, x :: l => andThen (item x) (hexLoop write item false l)
  | false, x :: l => andThen (write [':']) (andThen (item x) (hexLoop write item false l))

/-- `fmt` of `LowerHex` and `UpperHex` for `Vec`, `BoxedSlice` and `ArcSlice` (stabby-abi/src/alloc/vec.rs:595-620, stabby-abi/src/alloc/boxed.rs:452-477,
stabby-abi/src/alloc/sync.rs:603-628). -/
def hex (write : List Char → Act σ) (item : α → Act σ) (l : List α) : Act σ := hexLoop write item true l

/-- What `Debug` writes of a tree: characters, and values by their own `Debug`. -/
inductive Tok (α : Type) where
  | chr (c : Char)
  | val (v : α)
  deriving DecidableEq, Repr

/-- Items with `, ` between them. -/
def commas : List (List (Tok α)) → List (Tok α)
  | [] => []
  | [x] => x
  | x :: y :: l => x ++ .chr ',' :: .chr ' ' :: commas (y :: l)

/-- core's `DebugSet` (without `#`): the entries in braces. -/
def debugSet (l : List (List (Tok α))) : List (Tok α) := .chr '{' :: commas l ++ [.chr '}']

/-- `Debug` of a node (stabby-abi/src/alloc/collections/arc_btree.rs:225-237); `none` on access to what isn't there, and if the recursion is deeper than `fuel`. -/
def debugNode : Nat → BTree.Heap α → Nat → Option (List (Tok α))
  | 0, _, _ => none
  | fuel + 1, h, a => do
    let n ← h.look a
    let es ← BTree.entries n
    let acc ← es.foldlM (fun acc e => do
      match e.smaller with
      | none => return acc ++ [[.val e.value]]
      | some s => return acc ++ [← debugNode fuel h s] ++ [[.val e.value]]) []
    match n.greater with
    | none => return debugSet acc
    | some g => return debugSet (acc ++ [← debugNode fuel h g])

/-- The name that comes first. -/
def treeName : List Char := ['A', 'r', 'c', 'B', 'T', 'r', 'e', 'e', 'S', 'e', 't']

/-- `Debug` of `ArcBTreeSet` (arc_btree.rs:210-216). -/
def debugTree (fuel : Nat) (h : BTree.Heap α) (s : BTree.Set) : Option (List (Tok α)) :=
  (match s.root with
    | none => some [Tok.chr '{', Tok.chr '}']
    | some a => debugNode fuel h a).map (treeName.map Tok.chr ++ ·)

/-- `write` of `std::io::Write for Vec<u8>` (stabby-abi/src/alloc/vec.rs:797-802): how many bytes were written, `none` being an error; the outer `none` is
undefined behaviour. -/
def ioWrite (e : Vec.Env) (s : Vec.St UInt8) (buf : List UInt8) : Option (Option Nat × Vec.St UInt8) :=
  (Vec.tryCopyExtend e s buf).map fun
    | (.allocErr, s) => (none, s)
    | (_, s) => (some buf.length, s)

end Verif.Fmt
