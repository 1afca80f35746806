/-! Model of stabby-abi/src/checked_import.rs: `CheckedImport` and `CanariedImport`.

Any number of threads call `as_ref` (or `deref`) concurrently, with one step per access to shared memory.  The flag is read and written in a single total order;
whether the write of the symbol happens before a read of it is tracked separately (`knows`), from the orderings written in the source. -/
namespace Verif.Import

/-- `UNCHECKED`, `VALIDATED`, `INVALIDATED`, `LOCKED` (checked_import.rs:82-85). -/
inductive Flag where
  | unchecked
  | validated
  | invalidated
  | locked
deriving DecidableEq, Repr

/-- Where a thread is in `as_ref` (checked_import.rs:110-143).  Symbols are natural numbers. -/
inductive Pc where
  /-- outside of `as_ref` -/
  | idle
  /-- about to load the flag (checked_import.rs:112) -/
  | looping
  /-- it loaded `UNCHECKED` and is running the checker (checked_import.rs:113) -/
  | checking
  /-- the checker returned `Some(v)` (checked_import.rs:114) -/
  | have_ (v : Nat)
  /-- the checker returned `None` (checked_import.rs:132) -/
  | failed
  /-- the exchange succeeded (checked_import.rs:115-123) -/
  | locked (v : Nat)
  /-- the symbol is written (checked_import.rs:126) -/
  | written
  /-- it returned `Ok` of the symbol, or `Err` -/
  | done (r : Option Nat)
deriving DecidableEq, Repr

/-- The state: the flag, the cell `result` (`none` while uninitialised), the threads; for each thread whether it knows of the write of the cell, and whether the last
write of the flag does (release); and ledgers: what the checker returned so far, what `as_ref` returned so far, the number of writes to the cell, the symbols dropped,
and whether a read of the cell raced with the write. -/
structure Cfg where
  flag : Flag
  cell : Option Nat
  ts : List Pc
  knows : Nat → Bool
  msg : Bool
  checks : List (Option Nat)
  outs : List (Option Nat)
  writes : Nat
  dropped : List Nat
  raced : Bool

/-- `new` (checked_import.rs:89-101). -/
def Cfg.new (n : Nat) : Cfg := ⟨.unchecked, none, List.replicate n .idle, fun _ => false, false, [], [], 0, [], false⟩

def upd {α : Type} (f : Nat → α) (i : Nat) (x : α) : Nat → α := fun j => if j = i then x else f j

def setPc (c : Cfg) (t : Nat) (p : Pc) : Cfg := { c with ts := c.ts.set t p }

/-- `assume_init_ref` (checked_import.rs:128, 137) by thread `t`, and return.  `none` if the cell is uninitialised. -/
def readCell (c : Cfg) (t : Nat) : Option Cfg := match c.cell with
  | none => none
  | some v => some { setPc c t (.done (some v)) with outs := c.outs ++ [some v], raced := c.raced || !c.knows t }

inductive Act where
  /-- call of `as_ref` -/
  | call (t : Nat)
  /-- load of the flag and the branch taken (checked_import.rs:112, 137-139) -/
  | load (t : Nat)
  /-- the checker returns -/
  | check (t : Nat) (r : Option Nat)
  /-- `store(INVALIDATED)` and return (checked_import.rs:133-134) -/
  | invalidate (t : Nat)
  /-- `compare_exchange_weak` (checked_import.rs:115-122), which may fail for no reason -/
  | cas (t : Nat) (spurious : Bool)
  /-- write of the symbol (checked_import.rs:126) -/
  | write (t : Nat)
  /-- `store(VALIDATED)` and return (checked_import.rs:127-128) -/
  | publish (t : Nat)
  /-- the caller goes on -/
  | leave (t : Nat)

def Act.thread : Act → Nat
  | .call t | .load t | .check t _ | .invalidate t | .cas t _ | .write t | .publish t | .leave t => t

/-- One step.  `acquire` tells whether the load of the flag has acquire semantics (in the code it is `Relaxed`).  Steps that the thread cannot make are ignored. -/
def step (acquire : Bool) (c : Cfg) (a : Act) : Option Cfg :=
  match a, c.ts[a.thread]? with
  | .call t, some .idle => some (setPc c t .looping)
  | .load t, some .looping =>
    let c := if acquire && c.msg then { c with knows := upd c.knows t true } else c
    match c.flag with
    | .unchecked => some (setPc c t .checking)
    | .validated => readCell c t
    | .invalidated => some { setPc c t (.done none) with outs := c.outs ++ [none] }
    | .locked => some c
  | .check t r, some .checking => match r with
    | some v => some { setPc c t (.have_ v) with checks := c.checks ++ [some v] }
    | none => some { setPc c t .failed with checks := c.checks ++ [none] }
  | .invalidate t, some .failed => some { setPc c t (.done none) with flag := .invalidated, msg := false, outs := c.outs ++ [none] }
  | .cas t spurious, some (.have_ v) =>
    if c.flag = .unchecked ∧ spurious = false then some { setPc c t (.locked v) with flag := .locked }
    else some { setPc c t .looping with dropped := c.dropped ++ [v] }
  | .write t, some (.locked v) => some { setPc c t .written with cell := some v, writes := c.writes + 1, knows := upd c.knows t true }
  | .publish t, some .written => readCell { c with flag := .validated, msg := c.knows t } t
  | .leave t, some (.done _) => some (setPc c t .idle)
  | _, _ => some c

def run (acquire : Bool) (c : Cfg) : List Act → Option Cfg
  | [] => some c
  | a :: as => do run acquire (← step acquire c a) as

/-- `drop` (checked_import.rs:151-157), with exclusive access: the symbol is dropped if the flag is `VALIDATED`; `none` if it is uninitialised then. -/
def drop (c : Cfg) : Option Cfg :=
  if c.flag = .validated then match c.cell with
    | none => none
    | some v => some { c with dropped := c.dropped ++ [v] }
  else some c

/-! ### CanariedImport (checked_import.rs:18-48) -/
namespace Canary

/-- A thread in `deref`: calling the canary, or done. -/
inductive Pc where
  | idle
  | canary
  | done
deriving DecidableEq, Repr

/-- `checked`, the threads; the number of calls of the canary that began, and that returned. -/
structure Cfg where
  checked : Bool
  ts : List Pc
  begun : Nat
  returned : Nat

def Cfg.new (n : Nat) : Cfg := ⟨false, List.replicate n .idle, 0, 0⟩

inductive Act where
  /-- `swap(1)` (checked_import.rs:43): the first caller calls the canary, the others return the symbol -/
  | deref (t : Nat)
  /-- the canary returns -/
  | back (t : Nat)
  /-- the caller goes on -/
  | leave (t : Nat)

def step (c : Cfg) : Act → Cfg
  | .deref t => match c.ts[t]? with
    | some .idle => if c.checked then { c with ts := c.ts.set t .done } else { c with checked := true, ts := c.ts.set t .canary, begun := c.begun + 1 }
    | _ => c
  | .back t => match c.ts[t]? with
    | some .canary => { c with ts := c.ts.set t .done, returned := c.returned + 1 }
    | _ => c
  | .leave t => match c.ts[t]? with
    | some .done => { c with ts := c.ts.set t .idle }
    | _ => c

def run (c : Cfg) (as : List Act) : Cfg := as.foldl step c

end Canary
end Verif.Import
