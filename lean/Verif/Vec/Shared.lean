import Verif.Vec.Boxed

/-! Model of `ArcSlice` and `WeakSlice` (stabby-abi/src/alloc/sync.rs) used by one thread at a time.  The concurrent behaviour of the
counters is modelled in `Verif.Arc`. -/
namespace Verif.Vec
variable {α : Type}

/-- `USIZE_TOP_BIT` (sync.rs:40). -/
def TOP : Nat := 9223372036854775808
/-- The value left by `fetch_or(USIZE_TOP_BIT)`, `fetch_and(!USIZE_TOP_BIT)`, `fetch_add(1)` and `fetch_sub(1)` on a `usize`. -/
def orTop (c : Nat) : Nat := if c < TOP then c + TOP else c
def clearTop (c : Nat) : Nat := if c < TOP then c else c - TOP
def incr (c : Nat) : Nat := (c + 1) % W
def decr (c : Nat) : Nat := (c + (W - 1)) % W

/-- The environment of the vector and the size of the allocator, which is stored in the prefix. -/
structure AEnv extends Env where
  asz : Nat

/-- The block behind the handles of an `ArcSlice` (sync.rs:402-404) with the counters of its prefix, whether it was released, and the
number of `ArcSlice`s and `WeakSlice`s the program holds.  All handles have the same `start` and `end`. -/
structure Shared (α : Type) where
  b : Block α
  len : Nat
  strong : Nat
  weak : Nat
  freed : Bool
  arcs : Nat
  weaks : Nat
deriving DecidableEq

/-- `From<Vec> for ArcSlice` (sync.rs:500-539); `none` in the second component when the allocation failed (`expect`).  In the branch without
capacity the allocator is written to the prefix of the dangling `slice.start`; when the allocator is zero-sized no byte is
written, which the model accepts. -/
def toArc (e : AEnv) (s : St α) : Option (Res α × Option (Shared α) × St α) :=
  if s.v.cap ≠ 0 then
    match s.v.block with
    | none => none
    | some b => some (.unit, some ⟨{ b with pcap := s.v.cap }, s.v.len, 1, 1, false, 1, 0⟩, { s with v := .new })
  else if e.ok s.tries (bytes e.toEnv 0) then
    if e.asz ≠ 0 ∧ s.v.block = none then none
    else some (.unit, some ⟨⟨List.replicate (room e.toEnv (bytes e.toEnv 0)) none, 0⟩, s.v.len, 1, 1, false, 1, 0⟩,
      { s with v := .new, tries := s.tries + 1, allocs := s.allocs + 1 })
  else some (.panic, none, { s with v := .new, tries := s.tries + 1, refused := s.refused + 1 })

/-- The elements as a vector's buffer. -/
def Shared.buf (a : Shared α) : Vec α := ⟨some a.b, a.len, 0⟩

/-- Access to a released block is undefined behaviour. -/
def Shared.live (a : Shared α) : Option Unit := if a.freed then none else some ()

/-- `Drop for WeakSlice` (sync.rs:712-724). -/
def Shared.dropWeak (a : Shared α) (s : St α) : Option (Shared α × St α) := do
  a.live
  let a' := { a with weak := decr a.weak }
  if a.weak ≠ 1 then return (a', s)
  else return ({ a' with freed := true }, { s with frees := s.frees + 1 })

/-- `Drop for ArcSlice` (sync.rs:585-597). -/
def Shared.dropArc (a : Shared α) (s : St α) : Option (Shared α × St α) := do
  a.live
  let a' := { a with strong := decr a.strong }
  if a.strong ≠ 1 then return (a', s)
  else do
    let items ← slice a.buf 0 a.len
    a'.dropWeak { s with dropped := s.dropped ++ items }

/-- `WeakSlice::upgrade` (sync.rs:650-666). -/
def Shared.upgrade (a : Shared α) : Option (Bool × Shared α) := do
  a.live
  if a.strong = 0 ∨ a.strong = TOP then return (false, { a with strong := 0 })
  else return (true, { a with strong := clearTop (incr (orTop a.strong)) })

/-- `WeakSlice::force_upgrade` (sync.rs:670-684). -/
def Shared.forceUpgrade (a : Shared α) : Option (Shared α) := do
  a.live
  let a' := { a with strong := incr a.strong }
  if a.strong = 0 ∨ a.strong = TOP then return { a' with weak := incr a.weak } else return a'

/-- `ArcSlice::is_unique` (sync.rs:451-453). -/
def Shared.isUnique (a : Shared α) : Bool := a.strong == 1 && a.weak == 1

/-- `TryFrom<ArcSlice> for Vec` (sync.rs:540-563), for elements with a size. -/
def Shared.toVec (a : Shared α) (s : St α) : Option (Option (St α)) := do
  a.live
  if a.isUnique then return some { s with v := ⟨some a.b, a.len, a.b.pcap⟩ } else return none

/-- A variable holding a vector, a boxed slice, or any number of handles on a shared slice. -/
inductive Owner (α : Type) where
  | plain (v : Var α)
  | arc (a : Shared α)
deriving DecidableEq

/-- Once the program has no handle left, it starts again with a new vector. -/
def settle (a : Shared α) : Owner α := if a.arcs = 0 ∧ a.weaks = 0 then .plain .vec else .arc a

/-- Operations. -/
inductive AOp (α : Type) where
  | plain (op : BOp α)
  | toArc
  | toVec
  | clone
  | dropArc
  | downgrade
  | cloneWeak
  | dropWeak
  | upgrade
  | forceUpgrade
  | slice
  | strongCount
  | weakCount
  | isUnique
  /-- `mem::replace(&mut a.as_slice_mut()?[i], x)` (sync.rs:429-433) -/
  | replace (i : Nat) (x : α)

/-- An operation on a handle of a shared slice; `none` inside when the program has no such handle. -/
def Shared.step (a : Shared α) (s : St α) : AOp α → Option (Option (Res α × Owner α × St α))
  | .toVec => if a.arcs = 0 then some none else do
    match ← a.toVec s with
    | some s => return some (.unit, .plain .vec, s)
    | none => return some (.moved none, .arc a, s)
  | .clone => if a.arcs = 0 then some none else do
    -- sync.rs:476-483
    a.live
    return some (.unit, .arc { a with strong := incr a.strong, arcs := a.arcs + 1 }, s)
  | .dropArc => if a.arcs = 0 then some none else do
    let (a, s) ← a.dropArc s
    return some (.unit, settle { a with arcs := a.arcs - 1 }, s)
  | .downgrade => if a.arcs = 0 then some none else do
    -- sync.rs:704-711
    a.live
    return some (.unit, .arc { a with weak := incr a.weak, weaks := a.weaks + 1 }, s)
  | .cloneWeak => if a.weaks = 0 then some none else do
    -- sync.rs:686-693
    a.live
    return some (.unit, .arc { a with weak := incr a.weak, weaks := a.weaks + 1 }, s)
  | .dropWeak => if a.weaks = 0 then some none else do
    let (a, s) ← a.dropWeak s
    return some (.unit, settle { a with weaks := a.weaks - 1 }, s)
  | .upgrade => if a.weaks = 0 then some none else do
    match ← a.upgrade with
    | (true, a) => return some (.unit, .arc { a with arcs := a.arcs + 1 }, s)
    | (false, a) => return some (.moved none, .arc a, s)
  | .forceUpgrade => if a.weaks = 0 then some none else do
    let a ← a.forceUpgrade
    return some (.unit, .arc { a with arcs := a.arcs + 1 }, s)
  | .slice => if a.arcs = 0 then some none else do
    a.live
    return some (.refs (← Verif.Vec.slice a.buf 0 a.len), .arc a, s)
  | .strongCount => if a.arcs = 0 then some none else do
    a.live
    return some (.count a.strong, .arc a, s)
  | .weakCount => if a.arcs = 0 then some none else do
    a.live
    return some (.count a.weak, .arc a, s)
  | .isUnique => if a.arcs = 0 then some none else do
    a.live
    return some (.count (if a.isUnique then 1 else 0), .arc a, s)
  | .replace i x => if a.arcs = 0 then some none else do
    a.live
    if a.isUnique then
      if i < a.len then do
        let old ← read a.buf i
        return some (.moved (some old), .arc { a with b := { a.b with cells := a.b.cells.set i (some x) } }, s)
      else return some (.panic, .arc a, { s with dropped := s.dropped ++ [x] })
    else return some (.back x, .arc a, s)
  | .plain _ | .toArc => some none

/-- One operation; operations that do not type-check on the current variable are ignored. -/
def astep (e : AEnv) (p : Owner α × St α) (op : AOp α) : Option (Res α × Owner α × St α) :=
  match p.1 with
  | .plain v =>
    match op with
    | .plain op => do
      let (r, v, s) ← bstep e.toEnv (v, p.2) op
      return (r, .plain v, s)
    | .toArc =>
      match v with
      | .vec => do
        match ← Vec.toArc e p.2 with
        | (r, some a, s) => return (r, .arc a, s)
        | (r, none, s) => return (r, .plain .vec, s)
      | .boxed _ => some (.unit, p)
    | _ => some (.unit, p)
  | .arc a => do
    match ← a.step p.2 op with
    | some x => return x
    | none => return (.unit, p)

/-- A history. -/
def arun (e : AEnv) (p : Owner α × St α) : List (AOp α) → Option (List (Res α) × Owner α × St α)
  | [] => some ([], p)
  | op :: ops => do
    let (r, p) ← astep e p op
    let (rs, p) ← arun e p ops
    return (r :: rs, p)

/-- `From<Arc> for ArcSlice` (sync.rs:484-494): an `Arc` is a shared slice of one element; the slice made of it keeps the counters, the
`capacity` of the prefix becomes 1, and the `Arc` taken by value is dropped when the function returns. -/
def arcToSlice (a : Shared α) (s : St α) : Option (Shared α × St α) := do
  a.live
  let a := { a with b := { a.b with pcap := 1 } }
  a.dropArc s

end Verif.Vec
