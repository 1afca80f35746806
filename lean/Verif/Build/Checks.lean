/-! Model of `unreachable_unchecked!`, `assert_unchecked!` and `assert_eq_unchecked!` (stabby-abi/src/lib.rs:424-479) in programs, and of the functions of stabby that use them.

The state of a program is any type; code that does not use the macros is any function of it.  A panic of a check that failed is told from other panics. -/
namespace Verif.Build.Checks

/-- How code ends; `spin`: not within the given number of rounds. -/
inductive Out (σ : Type) where
  | done (s : σ)
  | panic (s : σ)
  | checkFailed (s : σ)
  | ub
  | spin

def Out.bind {σ : Type} : Out σ → (σ → Out σ) → Out σ
  | .done s, f => f s
  | .panic s, _ => .panic s
  | .checkFailed s, _ => .checkFailed s
  | .ub, _ => .ub
  | .spin, _ => .spin

/-- How an operand ends. -/
inductive Val (σ α : Type) where
  | value (a : α) (s : σ)
  | panic (s : σ)
  | ub

/-- How a crate is compiled: `debug_assertions`, and the values of `--cfg stabby_check_unreachable` (`none`: without a value). -/
structure Flags where
  debug : Bool
  check : List (Option String)

/-- `cfg!(any(debug_assertions, stabby_check_unreachable = "true"))` (lib.rs:427, 447, 471): of the crate in which the macro is expanded. -/
def Flags.checked (f : Flags) : Bool := f.debug || f.check.contains (some "true")

/-- `unreachable_unchecked!()` (lib.rs:425-433). -/
def unreachable {σ : Type} (f : Flags) (s : σ) : Out σ := if f.checked then .checkFailed s else .ub

/-- `assert_unchecked!(e, message)` (lib.rs:444-454): the operands of the message are evaluated when a check fails. -/
def assert {σ : Type} (f : Flags) (e : σ → Val σ Bool) (message : σ → Val σ Unit) (s : σ) : Out σ :=
  match e s with
  | .panic s => .panic s
  | .ub => .ub
  | .value true s => .done s
  | .value false s =>
    if f.checked then
      match message s with
      | .value _ s => .checkFailed s
      | .panic s => .checkFailed s
      | .ub => .ub
    else .ub

/-- `assert_eq_unchecked!(a, b, message)` (lib.rs:468-478): `assert_eq!` uses `==`, the other branch uses `!=`. -/
def assertEq {σ α : Type} (f : Flags) (eq ne : α → α → Bool) (a b : σ → Val σ α) (message : σ → Val σ Unit) (s : σ) : Out σ :=
  match a s with
  | .panic s => .panic s
  | .ub => .ub
  | .value x s =>
    match b s with
    | .panic s => .panic s
    | .ub => .ub
    | .value y s =>
      if f.checked then
        if eq x y then .done s
        else
          match message s with
          | .value _ s => .checkFailed s
          | .panic s => .checkFailed s
          | .ub => .ub
      else if ne x y then .ub else .done s

/-- Programs: code of the crate `i` uses the macros as that crate is compiled. -/
inductive Prog (σ : Type) : Type 1 where
  | code (f : σ → Out σ)
  | unreachable (i : Nat)
  | assert (i : Nat) (e : σ → Val σ Bool) (message : σ → Val σ Unit)
  | assertEq (i : Nat) (α : Type) (eq ne : α → α → Bool) (a b : σ → Val σ α) (message : σ → Val σ Unit)
  | seq (p q : Prog σ)
  | ite (c : σ → Bool) (p q : Prog σ)
  | loop (c : σ → Bool) (p : Prog σ)
  /-- `catch_unwind` of `p`; when it unwinds, `q` -/
  | catch (p q : Prog σ)

/-- At most `n` rounds. -/
def repeated {σ : Type} (c : σ → Bool) (f : σ → Out σ) : Nat → σ → Out σ
  | 0, s => if c s then .spin else .done s
  | n + 1, s => if c s then (f s).bind (repeated c f n) else .done s

/-- Running a program whose crates are compiled like `fl`, with at most `n` rounds of each loop. -/
def run {σ : Type} (fl : Nat → Flags) (n : Nat) : Prog σ → σ → Out σ
  | .code f, s => f s
  | .unreachable i, s => Checks.unreachable (fl i) s
  | .assert i e m, s => Checks.assert (fl i) e m s
  | .assertEq i _ eq ne a b m, s => Checks.assertEq (fl i) eq ne a b m s
  | .seq p q, s => (run fl n p s).bind (run fl n q)
  | .ite c p q, s => if c s then run fl n p s else run fl n q s
  | .loop c p, s => repeated c (run fl n p) n s
  | .catch p q, s =>
    match run fl n p s with
    | .panic s => run fl n q s
    | .checkFailed s => run fl n q s
    | o => o

/-! ### Functions that use them -/

/-- What a function returns. -/
inductive Ret (α : Type) where
  | ok (a : α)
  | panic
  | checkFailed
  | ub
deriving DecidableEq

def unreachableRet {α : Type} (f : Flags) : Ret α := if f.checked then .checkFailed else .ub

/-- `Result::unwrap_unchecked` (result.rs:435-437), `unwrap_err_unchecked` (452-454), `Option::unwrap_unchecked` (option.rs:173-176). -/
def unwrapUnchecked {α ε : Type} (f : Flags) : Except ε α → Ret α
  | .ok a => .ok a
  | .error _ => unreachableRet f
def unwrapErrUnchecked {α ε : Type} (f : Flags) : Except ε α → Ret ε
  | .ok _ => unreachableRet f
  | .error e => .ok e
def optUnwrapUnchecked {α : Type} (f : Flags) : Option α → Ret α
  | some a => .ok a
  | none => unreachableRet f

/-- A `Box` or an `Arc`: where it is, its allocator, and the value unless it is `MaybeUninit`. -/
structure Owner (τ α : Type) where
  addr : Nat
  alloc : α
  val : Option τ
deriving DecidableEq

/-- `try_make_in` (boxed.rs:87-111, sync.rs:92-119): `ans` is the allocator's answer, `ctor` what the constructor writes and whether it reports success. -/
def tryMakeIn {τ α : Type} (ctor : Option τ × Bool) (a : α) (ans : Option Nat) : Except (Except α (Owner τ α)) (Owner τ α) :=
  match ans with
  | none => .error (.error a)
  | some p => if ctor.2 then .ok ⟨p, a, ctor.1⟩ else .error (.ok ⟨p, a, none⟩)

/-- `try_new_in` (boxed.rs:115-135, sync.rs:123-143). -/
def tryNewIn {τ α : Type} (f : Flags) (v : τ) (a : α) (ans : Option Nat) : Ret (Except (τ × α) (Owner τ α)) :=
  match tryMakeIn (some v, true) a ans with
  | .ok o => .ok (.ok o)
  | .error (.error a) => .ok (.error (v, a))
  | .error (.ok _) => unreachableRet f

/-- `make_in` (boxed.rs:148-158, sync.rs:156-166). -/
def makeIn {τ α : Type} (ctor : Option τ × Bool) (a : α) (ans : Option Nat) : Ret (Except (Owner τ α) (Owner τ α)) :=
  match tryMakeIn ctor a ans with
  | .ok o => .ok (.ok o)
  | .error (.ok u) => .ok (.error u)
  | .error (.error _) => .panic

/-- `new_in` (boxed.rs:163-168, sync.rs:171-176); this `unwrap_unchecked` is that of core's `Result`, which does not check. -/
def newIn {τ α : Type} (v : τ) (a : α) (ans : Option Nat) : Ret (Owner τ α) :=
  match makeIn (some v, true) a ans with
  | .ok (.ok o) => .ok o
  | .ok (.error _) => .ub
  | .panic => .panic
  | .checkFailed => .checkFailed
  | .ub => .ub

/-! ### Which invocations there are -/

/-- The arguments of an invocation are separated by commas, the last one may be followed by one. -/
structure Call where
  args : Nat
  trailing : Bool
deriving DecidableEq

/-- The patterns `$($e:expr,)^k $($t:tt)*` (lib.rs:445, 469) and `()` (426). -/
def Call.matches (c : Call) (k : Nat) : Bool := k < c.args || (k == c.args && c.trailing)
def acceptsAssert (c : Call) : Bool := c.matches 1
def acceptsAssertEq (c : Call) : Bool := c.matches 2
def acceptsUnreachable (c : Call) : Bool := c.args == 0 && !c.trailing

end Verif.Build.Checks
