import Verif.Time.Model

/-! Durations as floating-point numbers of seconds, and the conversions between stabby's and std's points in time (stabby/src/time.rs:35-58, 174-328). -/
namespace Verif.Time

/-! ### Floating-point numbers -/

/-- `f64` (IEEE 754 binary64), as far as `from_secs_f64` distinguishes them: `fin m e` is `m * 2^e`; `-0.` is `fin 0 0`. -/
inductive F64 where
  | nan
  /-- less than 0, `-inf` included -/
  | negative
  | inf
  | fin (m : Nat) (e : Int)
deriving DecidableEq

/-- Of 53 bits, and in range. -/
def F64.WF : F64 → Prop
  | .fin m e => m < 2 ^ 53 ∧ -1074 ≤ e ∧ e ≤ 971
  | _ => True

/-- Rounding to 53 bits, to nearest, ties to even (IEEE 754, roundTiesToEven), of `n`, or of a number strictly between `n` and `n + 1` if `sticky` (then `n` has at
least 54 bits).  Scaling by powers of two does not matter: results are never subnormal, nor too large, here. -/
def round53 (n : Nat) (sticky : Bool) : Nat :=
  let sh := n.log2 - 52
  if sh = 0 then n
  else
    let q := n / 2 ^ sh
    let r := n % 2 ^ sh
    if 2 ^ (sh - 1) < r ∨ (r = 2 ^ (sh - 1) ∧ (sticky = true ∨ q % 2 = 1)) then (q + 1) * 2 ^ sh else q * 2 ^ sh

/-- `Duration::from_secs_f64` (time.rs:40-46): `floor` and `% 1.` are exact, casts of floats saturate and turn NaN to 0; `inf % 1.` is NaN.  `none` is a panic. -/
def Duration.fromSecsF64 : F64 → Option Duration
  | .nan => none
  | .negative => none
  | .inf => some ⟨2 ^ 64 - 1, 0⟩
  | .fin m e =>
    let u := m * 2 ^ e.toNat
    let d := 2 ^ (-e).toNat
    some ⟨min (u / d) (2 ^ 64 - 1), min (round53 (u % d * 1000000000) false / d) (2 ^ 32 - 1)⟩

/-- `Duration::as_secs_f64` (time.rs:56-58), times `2^200`: the `u128` is rounded, and so is the quotient. -/
def Duration.asSecsF64 (d : Duration) : Nat :=
  let n := round53 d.asNanos false * 2 ^ 200
  if n = 0 then 0 else round53 (n / 1000000000) (decide (n % 1000000000 ≠ 0))

/-! ### Points in time -/

/-- `std::time::SystemTime` and `std::time::Instant`: nanoseconds since `UNIX_EPOCH`, or since the zeroed `Instant` (time.rs:260-263).  On Unix, seconds are an `i64`. -/
structure StdTime where
  ns : Int
deriving DecidableEq

/-- Representable. -/
def StdTime.Fits (t : StdTime) : Prop := -(2 ^ 63 * 1000000000) ≤ t.ns ∧ t.ns < 2 ^ 63 * 1000000000

/-- `From<std::time::SystemTime> for SystemTime` (time.rs:204-213) and `From<std::time::Instant> for Instant` (time.rs:276-280), whose `duration_since` saturates:
what is before the epoch becomes the epoch. -/
def fromStd (t : StdTime) : Duration := ⟨t.ns.toNat / 1000000000, t.ns.toNat % 1000000000⟩

/-- `From<SystemTime> for std::time::SystemTime` (time.rs:214-218) and `From<Instant> for std::time::Instant` (time.rs:281-285): converts the duration, and adds
it to the epoch; `none` is a panic. -/
def toStd (d : Duration) : Option StdTime := do
  let d ← d.toCore
  if d.secs < 2 ^ 63 then some ⟨d.secs * 1000000000 + d.nanos⟩ else none

/-- `AtomicInstant` (time.rs:288-328): `update` writes the time of the clock, in whole durations since the epoch. -/
inductive IOp where
  | update (now : Duration)
  | swap (t : Duration)
  | load
  | store (t : Duration)

/-- The new content, and what is returned. -/
def IOp.step (cell : BitVec 64) : IOp → BitVec 64 × Option Duration
  | .update now => (durationToI64 now .positive, some (i64ToDuration cell).1)
  | .swap t => (durationToI64 t .positive, some (i64ToDuration cell).1)
  | .load => (cell, some (i64ToDuration cell).1)
  | .store t => (durationToI64 t .positive, none)

/-- Operations in their order on the cell, from `AtomicInstant::epoch` (time.rs:299-304) or any content. -/
def irun (cell : BitVec 64) : List IOp → BitVec 64
  | [] => cell
  | op :: ops => irun (op.step cell).1 ops

end Verif.Time
