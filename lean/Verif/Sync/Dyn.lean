import Verif.Sync.Model

/-! Model of how trait-object pointers release and upgrade their pointer (stabby-abi/src/alloc/sync.rs, alloc/boxed.rs, fatptr.rs), in one thread. -/
namespace Verif.Sync

/-- The rest of `Weak::drop` after its `fetch_sub` (sync.rs:386-395). -/
def finishWeak (c : Cfg) : Option Cfg := if 0 < c.freeing then step c .free else some c

/-- `Drop for Weak`, to its end (sync.rs:382-396). -/
def weakDrop (c : Cfg) : Option Cfg := do finishWeak (← step c .dropWeak)

/-- `Drop for Arc`, to its end (sync.rs:285-299). -/
def arcDrop (c : Cfg) : Option Cfg := do
  let c ← step c .dropArc
  if 0 < c.destroying then finishWeak (← step (← step c .destroy) .unweak) else return c

/-- `Weak::upgrade`, to its end (sync.rs:358-372); whether it returns an `Arc`. -/
def upgrade (c : Cfg) : Option (Bool × Cfg) := do
  let c ← step c .upLoad
  if 0 < c.adding then return (true, ← step (← step c .upAdd) .upAnd) else return (false, ← step c .upStore)

/-- A `Weak` made by `from_raw` and dropped at once: its `fetch_sub` on the weak counter and the release. -/
def dropRawWeak (c : Cfg) : Option Cfg :=
  if c.freed then none
  else if c.weak ≠ 1 then some { c with weak := decr c.weak }
  else some { c with weak := decr c.weak, freed := true, released := c.released + 1 }

/-- The body of `IPtrOwned::drop` that `Arc` and `Weak` share (sync.rs:743-758, 771-786): decrement of the strong counter; if it was 1, the drop
function of the vtable is called on the value and a `Weak` is dropped. -/
def iptrDrop (c : Cfg) : Option Cfg :=
  if c.freed then none else
  let old := c.strong
  let c := { c with strong := decr old }
  if old ≠ 1 then some c
  else if c.value then dropRawWeak { c with value := false, destroyed := c.destroyed + 1 }
  else none

/-- Drop of a `Dyn<Arc<()>, _>` (fatptr.rs `Drop for Dyn`, sync.rs:743-758). -/
def dynArcDrop (c : Cfg) : Option Cfg := iptrDrop { c with arcs := c.arcs - 1 }

/-- Drop of a `Dyn<Weak<()>, _>` (sync.rs:771-786). -/
def dynWeakDrop (c : Cfg) : Option Cfg := iptrDrop { c with weaks := c.weaks - 1 }

/-- `Dyn<Weak<()>, _>::upgrade(self)` (sync.rs:818-827): upgrades, then `self` is dropped. -/
def dynUpgrade (c : Cfg) : Option (Bool × Cfg) := do
  let (b, c) ← upgrade c
  return (b, ← dynWeakDrop c)

/-- A box: its value, its allocation. -/
structure BoxCfg where
  value : Bool
  freed : Bool
  destroyed : Nat
  released : Nat
deriving DecidableEq, Repr

/-- `Box::free` (boxed.rs:198-203). -/
def boxFree (b : BoxCfg) : Option BoxCfg := if b.freed then none else some { b with freed := true, released := b.released + 1 }

/-- `drop_in_place` on the value, or the drop function of the vtable. -/
def boxDestroy (b : BoxCfg) : Option BoxCfg :=
  if b.freed || !b.value then none else some { b with value := false, destroyed := b.destroyed + 1 }

/-- `Drop for Box` (boxed.rs:247-256). -/
def boxDrop (b : BoxCfg) : Option BoxCfg := do boxFree (← boxDestroy b)

/-- `IPtrOwned for Box` (boxed.rs:236-246): creates a reference to the value, calls the drop function, frees. -/
def dynBoxDrop (b : BoxCfg) : Option BoxCfg := do
  if b.freed || !b.value then none
  else boxFree { b with value := false, destroyed := b.destroyed + 1 }

/-- `IPtrOwned for &mut T` (fatptr.rs:68-70). -/
def dynMutDrop (b : BoxCfg) : Option BoxCfg := some b

end Verif.Sync
