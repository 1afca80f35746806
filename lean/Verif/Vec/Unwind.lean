import Verif.Vec.Steps

/-! `Vec` when user code unwinds (alloc/vec.rs): destructors of elements, `Clone` of elements, and iterators given to `extend`.

`bad x` says that the destructor of `x` unwinds (having dropped `x`).  Rust's drop glue for slices drops the remaining elements
when one destructor unwinds, then unwinds; a destructor that unwinds while the thread is unwinding already aborts the process. -/
namespace Verif.Vec
variable {α : Type}

/-- How drop glue ends. -/
inductive Fate where
  | fine
  | unwound
  | aborted
deriving DecidableEq

/-- Drop glue on a slice, if the thread is unwinding already or not: what was dropped, and how it ended. -/
def glue (bad : α → Bool) : Bool → List α → List α × Fate
  | _, [] => ([], .fine)
  | true, x :: xs =>
    if bad x then ([x], .aborted) else (x :: (glue bad true xs).1, (glue bad true xs).2)
  | false, x :: xs =>
    if bad x then (x :: (glue bad true xs).1, if (glue bad true xs).2 = .aborted then .aborted else .unwound)
    else (x :: (glue bad false xs).1, (glue bad false xs).2)

/-- How a call ends: it returns, or unwinds after having handed out `outs`, or the process is gone. -/
inductive Exit (α : Type) where
  | done (r : Res α)
  | unwound (outs : List α)
  | aborted
deriving DecidableEq

/-- The vector and its ledger; `lost` counts the blocks that nobody will release any more (they are taken off `allocs`). -/
structure USt (α : Type) where
  s : St α
  lost : Nat

/-- User code: which destructors unwind; what `clone` returns, `none` if it unwinds. -/
structure User (α : Type) where
  bad : α → Bool
  cl : α → Option α

/-- `core::ptr::drop_in_place` on the elements `i..i+n`. -/
def dropGlue (bad : α → Bool) (unw : Bool) (s : St α) (i n : Nat) : Option (Fate × St α) := do
  let xs ← slice s.v i n
  return ((glue bad unw xs).2, { s with dropped := s.dropped ++ (glue bad unw xs).1 })

/-- `truncate` (vec.rs:247-255): the length is set after the elements were dropped. -/
def truncateU (bad : α → Bool) (s : St α) (n : Nat) : Option (Exit α × St α) :=
  if s.v.len ≤ n then some (.done .unit, s)
  else do
    match ← dropGlue bad false s n (s.v.len - n) with
    | (.fine, s) => return (.done .unit, setLen s n)
    | (.unwound, s) => return (.unwound [], s)
    | (.aborted, s) => return (.aborted, s)

/-- `Drop for Vec` (vec.rs:539-546): when the glue unwinds, the block is not released. -/
def dropVecU (bad : α → Bool) (unw : Bool) (u : USt α) : Option (Fate × USt α) := do
  match ← dropGlue bad unw u.s 0 u.s.v.len with
  | (.fine, s) =>
    if s.v.cap ≠ 0 then return (.fine, ⟨← free s, u.lost⟩) else return (.fine, ⟨{ s with v := .new }, u.lost⟩)
  | (f, s) =>
    if s.v.cap ≠ 0 then return (f, ⟨{ s with v := .new, allocs := s.allocs - 1 }, u.lost + 1⟩) else return (f, ⟨{ s with v := .new }, u.lost⟩)

/-- `mem::take(&mut v).into_iter()`, `k` calls to `next`, and `Drop for IntoIter` (vec.rs:661-668), then the drop of its field, which also
runs when the former unwinds. -/
def intoIterU (bad : α → Bool) (u : USt α) (k : Nat) : Option (Exit α × USt α) := do
  let (xs, it) ← IntoIter.take ⟨u.s, 0⟩ k
  match ← dropGlue bad false it.s it.index (it.s.v.len - it.index) with
  | (.fine, s) =>
    match ← dropVecU bad false ⟨setLen s 0, u.lost⟩ with
    | (.fine, u) => return (.done (.yielded xs), u)
    | (.unwound, u) => return (.unwound xs, u)
    | (.aborted, u) => return (.aborted, u)
  | (.unwound, s) =>
    match ← dropVecU bad true ⟨s, u.lost⟩ with
    | (.aborted, u) => return (.aborted, u)
    | (_, u) => return (.unwound xs, u)
  | (.aborted, s) => return (.aborted, ⟨s, u.lost⟩)

/-- `v.drain(from..to)`, `k` calls to `next`, then `Drop for Drain` (vec.rs:723-739), or `stop` before it: when the glue unwinds, the tail
stays where it is and the length stays `from`. -/
def drainU (bad : α → Bool) (s : St α) (fro to k : Nat) (stop : Bool) : Option (Exit α × St α) :=
  match drainNew s fro to with
  | none => some (.unwound [], s)
  | some d => do
    let (xs, d) ← d.take k
    let d := if stop then { d with to := d.index } else d
    match ← dropGlue bad false d.s d.index (d.to - d.index) with
    | (.fine, s) => do
      let v ← copyCells s.v d.to d.fro (d.orig - d.to)
      return (.done (.yielded xs), setLen { s with v := v } (d.orig - d.to + d.fro))
    | (.unwound, s) => return (.unwound xs, s)
    | (.aborted, s) => return (.aborted, s)

/-- Values dropped while unwinding. -/
def unwindDrop (bad : α → Bool) (s : St α) (xs : List α) : Exit α × St α :=
  (if (glue bad true xs).2 = .aborted then .aborted else .unwound [], { s with dropped := s.dropped ++ (glue bad true xs).1 })

/-- `push` (vec.rs:151-157). -/
def pushU (bad : α → Bool) (e : Env) (s : St α) (x : α) : Option (Exit α × St α) :=
  if s.v.len = s.v.cap then
    match tryGrow e s with
    | (false, s) => some (unwindDrop bad s [x])
    | (true, s) => do return (.done .unit, ← pushRaw s x)
  else do return (.done .unit, ← pushRaw s x)

/-- `push` of all the items of an iterator, which then ends or unwinds. -/
def pushAllU (bad : α → Bool) (e : Env) (boom : Bool) (s : St α) : List α → Option (Exit α × St α)
  | [] => some (if boom then .unwound [] else .done .unit, s)
  | x :: xs =>
    if s.v.len = s.v.cap then
      match tryGrow e s with
      | (false, s) => some (unwindDrop bad s (x :: xs))
      | (true, s) => do pushAllU bad e boom (← pushRaw s x) xs
    else do pushAllU bad e boom (← pushRaw s x) xs

/-- `extend` (vec.rs:555-571) with an iterator that yields `l` and then ends, or unwinds if `boom`. -/
def extendU (bad : α → Bool) (e : Env) (s : St α) (l : List α) (lo : Nat) (hi : Option Nat) (boom : Bool) : Option (Exit α × St α) :=
  match hi with
  | some hi =>
    match tryReserve e s hi with
    | (false, s) => some (unwindDrop bad s l)
    | (true, s) => do
      let v ← writeAll s.v s.v.len l
      return (if boom then .unwound [] else .done .unit, { s with v := { v with len := s.v.len + l.length } })
  | none =>
    match tryReserve e s lo with
    | (false, s) => some (unwindDrop bad s l)
    | (true, s) => pushAllU bad e boom s l

/-- The clones made before `clone` unwinds, if it does. -/
def clones (cl : α → Option α) : List α → List α × Bool
  | [] => ([], true)
  | x :: xs =>
    match cl x with
    | none => ([], false)
    | some y => (y :: (clones cl xs).1, (clones cl xs).2)

/-- `drop(v.clone())` (vec.rs:454-463): the length of the clone is set at the end. -/
def cloneU (w : User α) (e : Env) (u : USt α) : Option (Exit α × USt α) :=
  match tryReserve e { u.s with v := .new } u.s.v.len with
  | (false, r) => some (.unwound [], ⟨{ r with v := u.s.v }, u.lost⟩)
  | (true, r) => do
    let items ← slice u.s.v 0 u.s.v.len
    let v ← writeAll r.v 0 (clones w.cl items).1
    if (clones w.cl items).2 then
      match ← dropVecU w.bad false ⟨setLen { r with v := v } u.s.v.len, u.lost⟩ with
      | (.fine, r) => return (.done .unit, ⟨{ r.s with v := u.s.v }, r.lost⟩)
      | (.unwound, r) => return (.unwound [], ⟨{ r.s with v := u.s.v }, r.lost⟩)
      | (.aborted, r) => return (.aborted, ⟨{ r.s with v := u.s.v }, r.lost⟩)
    else
      match ← dropVecU w.bad true ⟨{ r with v := v }, u.lost⟩ with
      | (.aborted, r) => return (.aborted, ⟨{ r.s with v := u.s.v }, r.lost⟩)
      | (_, r) => return (.unwound [], ⟨{ r.s with v := u.s.v }, r.lost⟩)

/-- Operations of a history on one vector variable. -/
inductive UOp (α : Type) where
  /-- operations that run no user code -/
  | tryPush (x : α)
  | pop
  | remove (i : Nat)
  | swap (i j : Nat)
  | swapRemove (i : Nat)
  | reserve (n : Nat)
  | index (i : Nat)
  | asSlice
  /-- the others -/
  | push (x : α)
  | extend (l : List α) (lo : Nat) (hi : Option Nat) (boom : Bool)
  | truncate (n : Nat)
  | drain (fro to k : Nat) (stop : Bool)
  | intoIter (k : Nat)
  | clone
  | drop

/-- A panic without user code. -/
def Exit.of : Res α → Exit α
  | .panic => .unwound []
  | r => .done r

def plainU (u : USt α) (x : Option (Res α × St α)) : Option (Exit α × USt α) := x.map fun p => (Exit.of p.1, ⟨p.2, u.lost⟩)
def withLost (u : USt α) (x : Option (Exit α × St α)) : Option (Exit α × USt α) := x.map fun p => (p.1, ⟨p.2, u.lost⟩)

/-- One operation; unwinding is caught by the caller. -/
def ustep (w : User α) (e : Env) (u : USt α) : UOp α → Option (Exit α × USt α)
  | .tryPush x => plainU u (tryPush e u.s x)
  | .pop => plainU u (pop u.s)
  | .remove i => plainU u (remove u.s i)
  | .swap i j => plainU u (swap u.s i j)
  | .swapRemove i => plainU u (swapRemove u.s i)
  | .reserve n => plainU u (reserve e u.s n)
  | .index i => plainU u (index u.s i)
  | .asSlice => plainU u (asSlice u.s)
  | .push x => withLost u (pushU w.bad e u.s x)
  | .extend l lo hi boom => withLost u (extendU w.bad e u.s l lo hi boom)
  | .truncate n => withLost u (truncateU w.bad u.s n)
  | .drain f t k stop => withLost u (drainU w.bad u.s f t k stop)
  | .intoIter k => intoIterU w.bad u k
  | .clone => cloneU w e u
  | .drop => do
    match ← dropVecU w.bad false u with
    | (.fine, u) => return (.done .unit, u)
    | (.unwound, u) => return (.unwound [], u)
    | (.aborted, u) => return (.aborted, u)

/-- A history; it ends when the process is gone. -/
def urun (w : User α) (e : Env) (u : USt α) : List (UOp α) → Option (List (Exit α) × USt α)
  | [] => some ([], u)
  | op :: ops => do
    match ← ustep w e u op with
    | (.aborted, u) => return ([.aborted], u)
    | (x, u) => do
      let (xs, u) ← urun w e u ops
      return (x :: xs, u)

end Verif.Vec
