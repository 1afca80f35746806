/-! Model of stabby/src/time.rs.  `u64`, `u32` and `u128` are `Nat` with explicit overflow checks (`none` stands for the
panic of a build with overflow checks); the `i64` of `AtomicDuration` is a `BitVec 64`.  For floats
(`from_secs_f64`, `as_secs_f64`) see `Time/Convert.lean`; the operating system clocks (`now`) are not modelled. -/
namespace Verif.Time

/-- `Duration` (time.rs:6-11); `secs` is a `u64`, `nanos` a `u32`. -/
structure Duration where
  secs : Nat
  nanos : Nat
deriving DecidableEq, Repr

/-- Both fields fit in their integer types. -/
def Duration.Fits (d : Duration) : Prop := d.secs < 2 ^ 64 ∧ d.nanos < 2 ^ 32

namespace Duration
/-- `from_millis` (time.rs:21-26); the cast to `u32` truncates. -/
def fromMillis (millis : Nat) : Duration := ⟨millis / 1000, (millis % 1000 * 1000000) % 2 ^ 32⟩
/-- `from_micros` (time.rs:28-33). -/
def fromMicros (micros : Nat) : Duration := ⟨micros / 1000000, (micros % 1000000 * 1000) % 2 ^ 32⟩
/-- `as_nanos` (time.rs:52-54), a `u128`. -/
def asNanos (d : Duration) : Nat := d.secs * 1000000000 + d.nanos
/-- `subsec_nanos` (time.rs:60-62). -/
def subsecNanos (d : Duration) : Nat := d.nanos
/-- `subsec_micros` (time.rs:64-66). -/
def subsecMicros (d : Duration) : Nat := d.subsecNanos / 1000
/-- `subsec_millis` (time.rs:68-70). -/
def subsecMillis (d : Duration) : Nat := d.subsecNanos / 1000000

/-- Checked addition of `bits`-wide integers. -/
def addChecked (bits a b : Nat) : Option Nat := if a + b < 2 ^ bits then some (a + b) else none

/-- `add_assign` (time.rs:72-78), used by `add` (79-85) and by `SystemTime` and `Instant` (191-202, 264-275). -/
def add (self rhs : Duration) : Option Duration := do
  let nanos ← addChecked 32 self.nanos rhs.nanos
  let t ← addChecked 64 rhs.secs (nanos / 1000000000)
  let secs ← addChecked 64 self.secs t
  some ⟨secs, nanos % 1000000000⟩

/-- The derived `Ord` (time.rs:5): fields in declaration order. -/
def cmp (a b : Duration) : Ordering := (compare a.secs b.secs).then (compare a.nanos b.nanos)

/-- `core::time::Duration::new` as documented: carries whole seconds, panics on overflow.  Used by
`From<Duration> for core::time::Duration` (time.rs:94-98). -/
def toCore (d : Duration) : Option Duration := do
  let secs ← addChecked 64 d.secs (d.nanos / 1000000000)
  some ⟨secs, d.nanos % 1000000000⟩
/-- `From<core::time::Duration>` (time.rs:86-93). -/
def fromCore (d : Duration) : Duration := ⟨d.secs, d.nanos⟩
end Duration

/-- `Sign` (time.rs:113-119). -/
inductive Sign where
  | positive
  | negative
deriving DecidableEq, Repr

/-- `i64_to_duration` (time.rs:121-131), in a build without overflow checks (`-i64::MIN = i64::MIN`). -/
def i64ToDuration (t : BitVec 64) : Duration × Sign :=
  let neg := t.msb
  let t := if neg then -t else t
  let sign := if neg then .negative else .positive
  let micros := (t &&& 0xfffff#64).toNat % 2 ^ 32
  let secs := (t.sshiftRight 20).toNat
  (⟨secs, (micros * 1000) % 2 ^ 32⟩, sign)

/-- `duration_to_i64` (time.rs:132-138), in a build without overflow checks. -/
def durationToI64 (t : Duration) (sign : Sign) : BitVec 64 :=
  let t := (BitVec.ofNat 64 t.secs <<< 20) + BitVec.ofNat 64 t.subsecMicros
  match sign with
  | .positive => t
  | .negative => -t

/-- The atomic operations of `AtomicDuration` (time.rs:146-158) on the cell; each is one atomic operation of the
underlying `AtomicI64`, so a concurrent history is a list of them in modification order.
`AtomicInstant::{store, swap, load}` (318-328) are the same with `Sign::Positive`. -/
inductive Op where
  | load
  | store (d : Duration) (s : Sign)
  | swap (d : Duration) (s : Sign)

/-- One operation: the new content of the cell and the result. -/
def Op.step (cell : BitVec 64) : Op → BitVec 64 × Option (Duration × Sign)
  | .load => (cell, some (i64ToDuration cell))
  | .store d s => (durationToI64 d s, none)
  | .swap d s => (durationToI64 d s, some (i64ToDuration cell))

/-- A history from `AtomicDuration::new` (time.rs:160-164): the results of the operations in order. -/
def runFrom (cell : BitVec 64) : List Op → List (Option (Duration × Sign))
  | [] => []
  | op :: ops => (op.step cell).2 :: runFrom (op.step cell).1 ops

end Verif.Time
