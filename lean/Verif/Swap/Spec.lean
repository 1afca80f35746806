import Verif.Swap.Lemmas
/-! Executions of `Verif.Swap.Model`, and what it means for the calls to `edit` to behave as if executed one after the other. -/
namespace Verif.Swap
variable {V : Type}

/-- The state after the first `T` steps of a schedule, with `n` threads; `none` if undefined behaviour was met. -/
def exec (empty : V) (keep : Bool) (n : Nat) (s : Nat → Act V) : Nat → Option (Cfg V)
  | 0 => some (Cfg.new n)
  | T + 1 => do step empty keep (← exec empty keep n s T) (s T)

/-- Nobody runs between a thread's reading of the pointer and its taking a handle through it. -/
def NoRace (empty : V) (keep : Bool) (n : Nat) (s : Nat → Act V) (T : Nat) : Prop :=
  ∀ i < T, ∀ c, exec empty keep n s i = some c → ∀ t f seen cur, c.ts[t]? = some (.loaded f seen cur) → s i = .copy t

/-- No root is allocated at an address that a thread in the middle of its loop still remembers as `current`, and no closure changes in place the tree it
was given. -/
def NoAba (empty : V) (keep : Bool) (n : Nat) (s : Nat → Act V) (T : Nat) : Prop :=
  ∀ i < T, (∀ t, s i ≠ .mutate t) ∧ ∀ c, exec empty keep n s i = some c → ∀ t a early, s i = .make t a early →
    ∀ (u : Nat) (p : Pc V), c.ts[u]? = some p → p.cur ≠ some a

/-- Step `i` is the beginning of a call `edit(f)` by thread `t`. -/
def Begins (empty : V) (keep : Bool) (n : Nat) (s : Nat → Act V) (i t : Nat) (f : Fn V) : Prop :=
  ∃ c, exec empty keep n s i = some c ∧ s i = .start t f ∧ c.ts[t]? = some .idle

/-- Step `j` ends a call `edit(f)` of thread `t`, whose closure was called with `seen` (the last call comes first). -/
def Ends (empty : V) (keep : Bool) (n : Nat) (s : Nat → Act V) (j t : Nat) (f : Fn V) (seen : List V) : Prop :=
  ∃ c, exec empty keep n s j = some c ∧ s j = .cas t ∧
    ∃ cur new kept, c.ts[t]? = some (.ready f seen cur new kept) ∧ (cur = new ∨ c.cell = cur)

/-- The value of the set before step `i` is `x`. -/
def At (empty : V) (keep : Bool) (n : Nat) (s : Nat → Act V) (i : Nat) (x : V) : Prop :=
  ∃ c, exec empty keep n s i = some c ∧ c.content empty = x

/-- What the closure's answer makes of the value `x`. -/
def Next.apply (empty : V) : Next V → V → V
  | .same, x => x
  | .null, _ => empty
  | .node v, _ => v

/-- The first `T` steps of a schedule are linearised by `lin`: `lin i = some j` says that the call that ends at step `j` takes effect at step `i`. -/
structure Linearizes (empty : V) (keep : Bool) (n : Nat) (s : Nat → Act V) (T : Nat) (lin : Nat → Option Nat) : Prop where
  /-- A step at which no call takes effect leaves the value of the set alone. -/
  quiet : ∀ i < T, lin i = none → ∀ x y, At empty keep n s i x → At empty keep n s (i + 1) y → y = x
  /-- A step at which a call takes effect replaces the value by the answer of the call's closure to that value. -/
  effect : ∀ i < T, ∀ j, lin i = some j → ∃ t f prev x, Ends empty keep n s j t f (x :: prev) ∧ At empty keep n s i x ∧
    At empty keep n s (i + 1) ((f (x :: prev)).apply empty x)
  /-- Every call that ended takes effect exactly once, between its beginning and its end.  Its closure's earlier answers, which were discarded, were
  given to values that the set had during the call, and were not `same`. -/
  once : ∀ j < T, ∀ t f seen, Ends empty keep n s j t f seen → ∃ i b, lin i = some j ∧ (∀ i', lin i' = some j → i' = i) ∧ b ≤ i ∧ i ≤ j ∧
    Begins empty keep n s b t f ∧ (∀ j', b < j' → j' < j → ∀ f' seen', ¬ Ends empty keep n s j' t f' seen') ∧
    (∀ y ∈ seen.tail, ∃ i', b ≤ i' ∧ i' ≤ i ∧ At empty keep n s i' y) ∧ (∀ r, r <:+ seen.tail → r ≠ [] → f r ≠ .same)

end Verif.Swap
