import Verif.Sync.Model

/-! Model of `ArcSlice` and `WeakSlice` (stabby-abi/src/alloc/sync.rs) of `Copy` elements shared by any number of threads, with
`WeakSlice::force_upgrade`, which brings slices without strong handles back.  As in `Sync/Model.lean`, one allocation is modelled, every atomic
access is one step, and steps of different threads interleave arbitrarily (sequential consistency).  `Copy` elements have no destructor.  Uniqueness
checks are the subject of C24. -/
namespace Verif.Sync.Force
open Verif.Sync

structure Cfg where
  /-- the counters of `AllocPrefix` (alloc/mod.rs:227-238) -/
  strong : Nat
  weak : Nat
  /-- the allocation has been released -/
  freed : Bool
  /-- number of times the allocation was released -/
  released : Nat
  /-- handles at rest (possibly borrowed) -/
  arcs : Nat
  weaks : Nat
  /-- calls of `upgrade` that are about to execute `fetch_add`, `fetch_and`, and `store(0)` -/
  adding : Nat
  anding : Nat
  failing : Nat
  /-- calls of `force_upgrade` about to increment the weak counter -/
  forcing : Nat
  /-- calls of `ArcSlice::drop` about to drop their `WeakSlice` -/
  unweaking : Nat
  /-- calls of `WeakSlice::drop` about to free the allocation -/
  freeing : Nat
deriving DecidableEq, Repr

/-- Upgrades in flight. -/
def Cfg.upgrading (c : Cfg) : Nat := c.adding + c.anding + c.failing

/-- `From<Vec>` (sync.rs:500-539): both counters are 1. -/
def Cfg.new : Cfg := ⟨1, 1, false, 0, 1, 0, 0, 0, 0, 0, 0, 0⟩

inductive Act where
  /-- read the elements through an `ArcSlice` (sync.rs:470-475) -/
  | read
  /-- `ArcSlice::clone` (sync.rs:476-483) -/
  | clone
  /-- `ArcSlice::drop` (sync.rs:585-597): `fetch_sub`, then the drop of a `WeakSlice` -/
  | dropArc | unweak
  /-- `From<&ArcSlice> for WeakSlice` (sync.rs:704-711) -/
  | downgrade
  /-- `WeakSlice::clone` (sync.rs:686-693) -/
  | cloneWeak
  /-- `WeakSlice::drop` (sync.rs:712-724): `fetch_sub`, then the release of the allocation -/
  | dropWeak | free
  /-- `WeakSlice::upgrade` (sync.rs:651-665): `fetch_or`, then either `store(0)` or `fetch_add` and `fetch_and` -/
  | upLoad | upAdd | upAnd | upStore
  /-- `WeakSlice::force_upgrade` (sync.rs:670-684): `fetch_add` on the strong counter, then, if it was zero, on the weak counter -/
  | forceStrong | forceWeak
deriving DecidableEq, Repr

/-- Whether a safe program may take this step: it must have the handle it acts on; a borrowed `WeakSlice` isn't dropped. -/
def can (c : Cfg) : Act → Bool
  | .read | .clone | .dropArc | .downgrade => 0 < c.arcs
  | .cloneWeak | .upLoad | .forceStrong => 0 < c.weaks
  | .dropWeak => if c.upgrading + c.forcing = 0 then 0 < c.weaks else 1 < c.weaks
  | .unweak => 0 < c.unweaking
  | .free => 0 < c.freeing
  | .upAdd => 0 < c.adding
  | .upAnd => 0 < c.anding
  | .upStore => 0 < c.failing
  | .forceWeak => 0 < c.forcing

/-- Drop of a `WeakSlice`: `fetch_sub` on the weak counter; who reads 1 frees. -/
def subWeak (c : Cfg) : Cfg :=
  { c with weak := decr c.weak, freeing := if c.weak = 1 then c.freeing + 1 else c.freeing }

/-- The effect of a step; `none` is a use of released memory. -/
def step (c : Cfg) (a : Act) : Option Cfg :=
  if c.freed then none else
  match a with
  | .read => some c
  | .clone => some { c with strong := incr c.strong, arcs := c.arcs + 1 }
  | .dropArc =>
    some { c with strong := decr c.strong, arcs := c.arcs - 1, unweaking := if c.strong = 1 then c.unweaking + 1 else c.unweaking }
  | .unweak => some (subWeak { c with unweaking := c.unweaking - 1 })
  | .downgrade => some { c with weak := incr c.weak, weaks := c.weaks + 1 }
  | .cloneWeak => some { c with weak := incr c.weak, weaks := c.weaks + 1 }
  | .dropWeak => some (subWeak { c with weaks := c.weaks - 1 })
  | .free => some { c with freed := true, released := c.released + 1, freeing := c.freeing - 1 }
  | .upLoad =>
    if c.strong = 0 ∨ c.strong = TOP then some { c with strong := orTop c.strong, failing := c.failing + 1 }
    else some { c with strong := orTop c.strong, adding := c.adding + 1 }
  | .upAdd => some { c with strong := incr c.strong, adding := c.adding - 1, anding := c.anding + 1 }
  | .upAnd => some { c with strong := clearTop c.strong, anding := c.anding - 1, arcs := c.arcs + 1 }
  | .upStore => some { c with strong := 0, failing := c.failing - 1 }
  | .forceStrong =>
    if c.strong = 0 ∨ c.strong = TOP then some { c with strong := incr c.strong, forcing := c.forcing + 1 }
    else some { c with strong := incr c.strong, arcs := c.arcs + 1 }
  | .forceWeak => some { c with weak := incr c.weak, forcing := c.forcing - 1, arcs := c.arcs + 1 }

/-- An interleaving. -/
def run (c : Cfg) : List Act → Option Cfg
  | [] => some c
  | a :: as => do run (← step c a) as

/-- The interleaving is one that safe programs can show. -/
def possible (c : Cfg) : List Act → Bool
  | [] => true
  | a :: as => can c a && match step c a with
    | some c => possible c as
    | none => as.isEmpty

end Verif.Sync.Force
