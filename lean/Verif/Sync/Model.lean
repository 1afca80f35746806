/-! Model of `Arc` and `Weak` (stabby-abi/src/alloc/sync.rs) shared by any number of threads.

One allocation is modelled, with its two counters.  Every atomic access is one step, and steps of different threads interleave
arbitrarily (sequential consistency; see `Sync/Order.lean` for the memory orderings).  A thread in the middle of an operation is only
determined by where it is in this operation, so the model keeps the number of threads at each place.  Handles are anonymous: an operation
that borrows a handle keeps at least one handle of its kind from being dropped. -/
namespace Verif.Sync

/-- `usize` on 64-bit targets. -/
def W : Nat := 2 ^ 64

/-- `USIZE_TOP_BIT` (sync.rs:40). -/
def TOP : Nat := 2 ^ 63

/-- `fetch_add(1)`: wraps. -/
def incr (n : Nat) : Nat := (n + 1) % W
/-- `fetch_sub(1)`: wraps. -/
def decr (n : Nat) : Nat := (n + (W - 1)) % W
/-- `fetch_or(USIZE_TOP_BIT)`. -/
def orTop (n : Nat) : Nat := if n < TOP then n + TOP else n
/-- `fetch_and(!USIZE_TOP_BIT)`. -/
def clearTop (n : Nat) : Nat := if n < TOP then n else n - TOP

structure Cfg where
  /-- the counters of `AllocPrefix` (alloc/mod.rs:227-238) -/
  strong : Nat
  weak : Nat
  /-- the value is initialised -/
  value : Bool
  /-- the allocation has been released -/
  freed : Bool
  /-- number of times the value was destroyed or moved out -/
  destroyed : Nat
  /-- number of times the allocation was released -/
  released : Nat
  /-- handles at rest (possibly borrowed) -/
  arcs : Nat
  weaks : Nat
  /-- calls of `Weak::upgrade` that are about to execute `fetch_add`, `fetch_and`, and `store(0)` -/
  adding : Nat
  anding : Nat
  failing : Nat
  /-- calls of `Arc::drop` about to destroy the value, and about to drop their `Weak` -/
  destroying : Nat
  unweaking : Nat
  /-- calls of `Weak::drop` about to free the allocation -/
  freeing : Nat
  /-- `Arc`s mutably borrowed or consumed by a call of `get_mut`, `make_mut` or `try_into_inner` that has read a strong count of 1 -/
  checking : Nat
  /-- `Arc`s through which exclusive access has been granted -/
  exclusive : Nat
  /-- an upgrade in flight has been in flight together with another one (not part of the program's state, used to state theorems) -/
  overlapped : Bool
deriving DecidableEq, Repr

def positive : Nat → Bool
  | 0 => false
  | _ + 1 => true

/-- Upgrades in flight. -/
def Cfg.upgrading (c : Cfg) : Nat := c.adding + c.anding + c.failing

/-- `Arc::new` (sync.rs:92-122): both counters are 1. -/
def Cfg.new : Cfg := ⟨1, 1, true, false, 0, 0, 1, 0, 0, 0, 0, 0, 0, 0, 0, 0, false⟩

inductive Act where
  /-- read the value through an `Arc` (sync.rs:308-313) -/
  | read
  /-- write the value through exclusive access (sync.rs:194-210) -/
  | write
  /-- `Arc::clone` (sync.rs:300-307) -/
  | clone
  /-- `Arc::drop` (sync.rs:285-299): `fetch_sub`, then the destruction of the value, then the drop of a `Weak` -/
  | dropArc | destroy | unweak
  /-- `Arc::downgrade` (sync.rs:270-273, 334-341) -/
  | downgrade
  /-- `Weak::clone` (sync.rs:374-381) -/
  | cloneWeak
  /-- `Weak::drop` (sync.rs:382-396): `fetch_sub`, then the release of the allocation -/
  | dropWeak | free
  /-- `Weak::upgrade` (sync.rs:358-372): `fetch_or`, then either `store(0)` or `fetch_add` and `fetch_and` -/
  | upLoad | upAdd | upAnd | upStore
  /-- `Arc::is_unique` called by `get_mut`, `make_mut` or `try_into_inner` (sync.rs:225-268): load of `strong`, then load of `weak` -/
  | loadStrong | loadWeak
  /-- the exclusive access ends, the handle remains -/
  | endAccess
  /-- `try_into_inner` moves the value out (sync.rs:260-269) -/
  | intoInner
deriving DecidableEq, Repr

/-- Whether a safe program may take this step: it must have the handle it acts on. -/
def can (c : Cfg) : Act → Bool
  | .read | .clone | .dropArc | .downgrade | .loadStrong => 0 < c.arcs
  | .write | .endAccess | .intoInner => 0 < c.exclusive
  | .cloneWeak | .upLoad => 0 < c.weaks
  | .dropWeak => if c.upgrading = 0 then 0 < c.weaks else 1 < c.weaks
  | .destroy => 0 < c.destroying
  | .unweak => 0 < c.unweaking
  | .free => 0 < c.freeing
  | .upAdd => 0 < c.adding
  | .upAnd => 0 < c.anding
  | .upStore => 0 < c.failing
  | .loadWeak => 0 < c.checking

/-- Drop of a `Weak`: `fetch_sub` on the weak counter; who reads 1 frees. -/
def subWeak (c : Cfg) : Cfg :=
  { c with weak := decr c.weak, freeing := if c.weak = 1 then c.freeing + 1 else c.freeing }

/-- When an upgrade returns. -/
def upDone (c : Cfg) : Cfg := { c with overlapped := c.overlapped && positive c.upgrading }

/-- The effect of a step; `none` is undefined behaviour: use of a destroyed value or of released memory, double destruction,
double release. -/
def step (c : Cfg) (a : Act) : Option Cfg :=
  if c.freed then none else
  match a with
  | .read => if c.value then some c else none
  | .write => if c.value then some c else none
  | .clone => some { c with strong := incr c.strong, arcs := c.arcs + 1 }
  | .dropArc =>
    some { c with strong := decr c.strong, arcs := c.arcs - 1,
                  destroying := if c.strong = 1 then c.destroying + 1 else c.destroying }
  | .destroy =>
    if c.value then
      some { c with value := false, destroyed := c.destroyed + 1, destroying := c.destroying - 1, unweaking := c.unweaking + 1 }
    else none
  | .unweak => some (subWeak { c with unweaking := c.unweaking - 1 })
  | .downgrade => some { c with weak := incr c.weak, weaks := c.weaks + 1 }
  | .cloneWeak => some { c with weak := incr c.weak, weaks := c.weaks + 1 }
  | .dropWeak => some (subWeak { c with weaks := c.weaks - 1 })
  | .free => some { c with freed := true, released := c.released + 1, freeing := c.freeing - 1 }
  | .upLoad =>
    let c' := { c with strong := orTop c.strong, overlapped := c.overlapped || positive c.upgrading }
    if c.strong = 0 ∨ c.strong = TOP then some { c' with failing := c.failing + 1 }
    else some { c' with adding := c.adding + 1 }
  | .upAdd => some { c with strong := incr c.strong, adding := c.adding - 1, anding := c.anding + 1 }
  | .upAnd => some (upDone { c with strong := clearTop c.strong, anding := c.anding - 1, arcs := c.arcs + 1 })
  | .upStore => some (upDone { c with strong := 0, failing := c.failing - 1 })
  | .loadStrong => if c.strong = 1 then some { c with arcs := c.arcs - 1, checking := c.checking + 1 } else some c
  | .loadWeak =>
    if c.weak = 1 then some { c with checking := c.checking - 1, exclusive := c.exclusive + 1 }
    else some { c with checking := c.checking - 1, arcs := c.arcs + 1 }
  | .endAccess => some { c with exclusive := c.exclusive - 1, arcs := c.arcs + 1 }
  | .intoInner =>
    if c.value then
      some { c with value := false, destroyed := c.destroyed + 1, exclusive := c.exclusive - 1, unweaking := c.unweaking + 1 }
    else none

/-- An interleaving. -/
def run (c : Cfg) : List Act → Option Cfg
  | [] => some c
  | a :: as => do run (← step c a) as

/-- The interleaving is one that safe programs can show. -/
def possible (c : Cfg) : List Act → Bool
  | [] => true
  | a :: as => can c a && match step c a with
    | some c => possible c as
    | none => as.isEmpty

end Verif.Sync
