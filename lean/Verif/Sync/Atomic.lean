/-! Model of `AtomicArc` (stabby-abi/src/alloc/sync.rs:831-935): one cell, any number of `Arc`s (numbered) and of threads.

Atomic accesses of the cell and of the strong counters are single steps, interleaved.  `Arc`s themselves are reduced to their strong counter;
their own operations are the subject of C22.  Weak handles are left out. -/
namespace Verif.Sync.Atomic

def upd {α : Type} (f : Nat → α) (t : Nat) (x : α) : Nat → α := fun u => if u = t then x else f u

structure Cfg where
  /-- the pointer in the cell -/
  cell : Option Nat
  /-- the cell has not been dropped -/
  alive : Bool
  /-- strong counter of every allocation, as long as it is allocated -/
  strong : Nat → Option Nat
  /-- handles outside of the cell -/
  owns : Nat → Nat
  /-- calls of `load`, `is` or `compare_exchange` that have read this pointer and are about to increment its counter -/
  loading : Nat → Nat
  /-- allocations made so far -/
  made : Nat

/-- A cell made of `None` (sync.rs:857-865). -/
def Cfg.new : Cfg := ⟨none, true, fun _ => none, fun _ => 0, fun _ => 0, 0⟩

inductive Act where
  /-- `Arc::new`: the next allocation -/
  | mk
  /-- `Arc::clone` and `Arc::drop` -/
  | clone (i : Nat)
  | drop (i : Nat)
  /-- `load` (sync.rs:866-876) reads the pointer; `is` (sync.rs:883-907) with a pointer that differs does the same -/
  | loadPtr
  /-- `increment_strong_count` and `Arc::from_raw` -/
  | loadInc (i : Nat)
  /-- `store` (sync.rs:877-881) -/
  | store (v : Option Nat)
  /-- `compare_exchange` (sync.rs:908-935): its atomic operation -/
  | cas (cur new : Option Nat)
  /-- `Drop for AtomicArc` (sync.rs:841-853) -/
  | dropCell
deriving DecidableEq, Repr

/-- Handles needed for an argument. -/
def uses (v : Option Nat) (i : Nat) : Nat := if v = some i then 1 else 0

/-- Whether a safe program may take this step. -/
def can (c : Cfg) : Act → Prop
  | .mk => True
  | .clone i | .drop i => 0 < c.owns i
  | .loadPtr => c.alive = true
  | .loadInc i => 0 < c.loading i
  | .store v => c.alive = true ∧ ∀ i, uses v i ≤ c.owns i
  | .cas cur new => c.alive = true ∧ ∀ i, uses cur i + uses new i ≤ c.owns i
  | .dropCell => c.alive = true ∧ ∀ i, c.loading i = 0

/-- Decrement of a strong counter, release at 0. -/
def release (c : Cfg) (i : Nat) : Option Cfg :=
  match c.strong i with
  | none => none
  | some n => some { c with strong := upd c.strong i (if n = 1 then none else some (n - 1)) }

/-- A handle is taken from its owner. -/
def take (c : Cfg) : Option Nat → Cfg
  | none => c
  | some i => { c with owns := upd c.owns i (c.owns i - 1) }

/-- A handle is given to a caller. -/
def give (c : Cfg) : Option Nat → Cfg
  | none => c
  | some i => { c with owns := upd c.owns i (c.owns i + 1) }

/-- The effect of a step; `none` is undefined behaviour: a counter of released memory is accessed. -/
def step (c : Cfg) : Act → Option Cfg
  | .mk => some { c with strong := upd c.strong c.made (some 1), owns := upd c.owns c.made 1, made := c.made + 1 }
  | .clone i =>
    match c.strong i with
    | none => none
    | some n => some { c with strong := upd c.strong i (some (n + 1)), owns := upd c.owns i (c.owns i + 1) }
  | .drop i => release { c with owns := upd c.owns i (c.owns i - 1) } i
  | .loadPtr =>
    match c.cell with
    | none => some c
    | some i => some { c with loading := upd c.loading i (c.loading i + 1) }
  | .loadInc i =>
    match c.strong i with
    | none => none
    | some n => some { c with strong := upd c.strong i (some (n + 1)), owns := upd c.owns i (c.owns i + 1),
                              loading := upd c.loading i (c.loading i - 1) }
  | .store v => some { take c v with cell := v }
  | .cas cur new =>
    let c' := take c new
    if c.cell = cur then some (give { c' with cell := new } cur)
    else match c.cell with
      | none => some c'
      | some i => some { c' with loading := upd c.loading i (c.loading i + 1) }
  | .dropCell =>
    match c.cell with
    | none => some { c with alive := false }
    | some i => release { c with cell := none, alive := false } i

def run (c : Cfg) : List Act → Option Cfg
  | [] => some c
  | a :: as => do run (← step c a) as

/-- Every step is possible for safe programs. -/
def Possible (c : Cfg) : List Act → Prop
  | [] => True
  | a :: as => can c a ∧ ∀ c', step c a = some c' → Possible c' as

end Verif.Sync.Atomic
