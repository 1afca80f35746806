import Verif.Vec.Shared

/-! Model of `String`, `BoxedStr`, `ArcStr` and `WeakStr` (stabby-abi/src/alloc/string.rs): each wraps the container of bytes of the same
kind. -/
namespace Verif.Vec

/-- `core::str::from_utf8`, by Lean's own validation of UTF-8. -/
def fromUtf8 (l : List UInt8) : Bool := l.toByteArray.validateUTF8

/-- Operations.  The variable holds bytes (`Vec<u8>`, `BoxedSlice<u8>`, `ArcSlice<u8>`) or text (`String`, `BoxedStr`, `ArcStr` and
`WeakStr`). -/
inductive TOp where
  /-- any operation on bytes -/
  | bytes (op : AOp UInt8)
  /-- operations that text forwards to its bytes: conversions between `String`, `BoxedStr` and `ArcStr`, `as_str`, `drop`, and those on handles
  (string.rs:152-217, 219-265, 266-325) -/
  | text (op : AOp UInt8)
  /-- `drop(v); v = String::from(s)` (string.rs:138-142) -/
  | fromStr (s : List UInt8)
  /-- `Vec::<u8>::from(string)` (string.rs:70-74) -/
  | intoBytes
  /-- `String::try_from(vec)` (string.rs:76-82) -/
  | tryFrom
  /-- `try_concat` (string.rs:39-48), `fmt::Write::write_str` (string.rs:346-350) -/
  | concat (s : List UInt8)
  /-- `string += s` (string.rs:64-68) -/
  | addAssign (s : List UInt8)
  /-- an edit through `as_str_mut` (string.rs:34-38, 168-171, 281-285) -/
  | edit (g : List UInt8 → List UInt8)

/-- The operations of `AOp` that exist on text: those that do not take bytes. -/
def onText : AOp UInt8 → Bool
  | .plain (.vec _) | .plain (.tryPush _) | .replace _ _ => false
  | _ => true

/-- Overwrites the first bytes of a buffer by the result of an edit. -/
def patch (cells : List (Option UInt8)) (new : List UInt8) : List (Option UInt8) := new.map some ++ cells.drop new.length

/-- `+=` and `+` use `copy_extend`, which unwraps (vec.rs:289-294). -/
def copyExtend (e : Env) (s : St UInt8) (t : List UInt8) : Option (Res UInt8 × St UInt8) := do
  match ← tryCopyExtend e s t with
  | (.allocErr, s) => return (.panic, s)
  | (r, s) => return (r, s)

/-- An edit through `as_str_mut`; for an `ArcStr` only if it is the only handle. -/
def editOwner (p : Owner UInt8 × St UInt8) (g : List UInt8 → List UInt8) : Option (Owner UInt8 × St UInt8) :=
  match p.1 with
  | .plain .vec => do
    let l ← slice p.2.v 0 p.2.v.len
    return (p.1, { p.2 with v := p.2.v.withCells (patch p.2.v.cells (g l)) })
  | .plain (.boxed b) => do
    let l ← b.asSlice
    return (.plain (.boxed { b with block := b.block.map fun k => { k with cells := patch k.cells (g l) } }), p.2)
  | .arc a =>
    if a.arcs = 0 then some p
    else do
      a.live
      if a.isUnique then do
        let l ← slice a.buf 0 a.len
        return (.arc { a with b := { a.b with cells := patch a.b.cells (g l) } }, p.2)
      else return p

/-- One operation; `b` says whether the variable holds text.  Operations that do not type-check are ignored. -/
def tstep (e : AEnv) (b : Bool) (p : Owner UInt8 × St UInt8) (op : TOp) : Option (Res UInt8 × Bool × Owner UInt8 × St UInt8) :=
  match op with
  | .bytes op =>
    if b then some (.unit, b, p) else do
      let (r, p) ← astep e p op
      return (r, b, p)
  | .text op =>
    if b && onText op then do
      let (r, p) ← astep e p op
      return (r, b, p)
    else some (.unit, b, p)
  | .fromStr t =>
    match p.1 with
    | .arc _ => some (.unit, b, p)
    | .plain v => do
      let (_, _, s) ← bstep e.toEnv (v, p.2) .drop
      let (r, s) ← copyExtend e.toEnv s t
      return (r, true, .plain .vec, s)
  | .intoBytes =>
    match p.1 with
    | .plain .vec => some (.unit, false, p)
    | _ => some (.unit, b, p)
  | .tryFrom =>
    if b then some (.unit, b, p) else
    match p.1 with
    | .plain .vec => do
      let l ← slice p.2.v 0 p.2.v.len
      if fromUtf8 l then return (.unit, true, p)
      else return (.moved none, false, .plain .vec, ← dropVec p.2)
    | _ => some (.unit, b, p)
  | .concat t =>
    match b, p.1 with
    | true, .plain .vec => do
      let (r, s) ← tryCopyExtend e.toEnv p.2 t
      return (r, b, .plain .vec, s)
    | _, _ => some (.unit, b, p)
  | .addAssign t =>
    match b, p.1 with
    | true, .plain .vec => do
      let (r, s) ← copyExtend e.toEnv p.2 t
      return (r, b, .plain .vec, s)
    | _, _ => some (.unit, b, p)
  | .edit g =>
    if b then do return (.unit, b, ← editOwner p g) else some (.unit, b, p)

/-- A history. -/
def trun (e : AEnv) (b : Bool) (p : Owner UInt8 × St UInt8) : List TOp → Option (List (Res UInt8) × Bool × Owner UInt8 × St UInt8)
  | [] => some ([], b, p)
  | op :: ops => do
    let (r, b, p) ← tstep e b p op
    let (rs, b, p) ← trun e b p ops
    return (r :: rs, b, p)

end Verif.Vec
