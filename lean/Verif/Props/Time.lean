import Verif.Time.Model

/-! Properties C36 and C37. -/
namespace Verif.Props.Time
open Verif.Time
set_option linter.unusedSimpArgs false
set_option linter.unusedVariables false

/-! ### C36 -/

/-- Normalised: what `core::time::Duration` guarantees. -/
def Normal (d : Duration) : Prop := d.secs < 2 ^ 64 ∧ d.nanos < 1000000000

/-- The represented number of nanoseconds. -/
def total (d : Duration) : Nat := d.secs * 1000000000 + d.nanos

/-- The addition of normalised durations succeeds exactly if the sum is representable, and then it is exact and normalised. -/
theorem C36_add (a b : Duration) (ha : Normal a) (hb : Normal b) :
    (total a + total b < 2 ^ 64 * 1000000000 → ∃ r, a.add b = some r ∧ Normal r ∧ total r = total a + total b) ∧
    (2 ^ 64 * 1000000000 ≤ total a + total b → a.add b = none) := by
  obtain ⟨sa, na⟩ := a
  obtain ⟨sb, nb⟩ := b
  simp only [Normal, total] at *
  have h32 : na + nb < 2 ^ 32 := by omega
  constructor
  · intro ht
    have h1 : sb + (na + nb) / 1000000000 < 2 ^ 64 := by omega
    have h2 : sa + (sb + (na + nb) / 1000000000) < 2 ^ 64 := by omega
    refine ⟨⟨sa + (sb + (na + nb) / 1000000000), (na + nb) % 1000000000⟩, ?_, ⟨h2, Nat.mod_lt _ (by decide)⟩, by dsimp only; omega⟩
    simp only [Duration.add, Duration.addChecked, if_pos h32, Option.bind_eq_bind, Option.bind_some, if_pos h1, if_pos h2]
  · intro ht
    simp only [Duration.add, Duration.addChecked, if_pos h32, Option.bind_eq_bind, Option.bind_some]
    by_cases h1 : sb + (na + nb) / 1000000000 < 2 ^ 64
    · rw [if_pos h1]
      have h2 : ¬ sa + (sb + (na + nb) / 1000000000) < 2 ^ 64 := by omega
      simp only [Option.bind_some, if_neg h2, Option.bind_none]
    · rw [if_neg h1]; rfl

/-- Conversions from milliseconds and microseconds are exact and normalised. -/
theorem C36_from (n : Nat) (h : n < 2 ^ 64) :
    (Normal (Duration.fromMillis n) ∧ total (Duration.fromMillis n) = n * 1000000) ∧
    (Normal (Duration.fromMicros n) ∧ total (Duration.fromMicros n) = n * 1000) := by
  simp only [Normal, total, Duration.fromMillis, Duration.fromMicros]
  have h1 : (n % 1000 * 1000000) % 2 ^ 32 = n % 1000 * 1000000 :=
    Nat.mod_eq_of_lt (Nat.lt_of_lt_of_le (Nat.mul_lt_mul_of_pos_right (Nat.mod_lt n (by decide)) (by decide)) (by decide))
  have h2 : (n % 1000000 * 1000) % 2 ^ 32 = n % 1000000 * 1000 :=
    Nat.mod_eq_of_lt (Nat.lt_of_lt_of_le (Nat.mul_lt_mul_of_pos_right (Nat.mod_lt n (by decide)) (by decide)) (by decide))
  rw [h1, h2]
  omega

/-- Conversions to nanoseconds and parts of a second agree with the represented number, without overflow of `u128`. -/
theorem C36_to (d : Duration) (h : Normal d) :
    d.asNanos = total d ∧ d.asNanos < 2 ^ 128 ∧ d.secs = total d / 1000000000 ∧
    d.subsecNanos = total d % 1000000000 ∧ d.subsecMicros = total d / 1000 % 1000000 ∧
    d.subsecMillis = total d / 1000000 % 1000 := by
  simp only [Normal, total, Duration.asNanos, Duration.subsecMicros, Duration.subsecMillis, Duration.subsecNanos] at *
  refine ⟨trivial, ?_, ?_, ?_, ?_, ?_⟩ <;> omega

/-- Comparison agrees with the represented numbers. -/
theorem C36_cmp (a b : Duration) (ha : Normal a) (hb : Normal b) : a.cmp b = compare (total a) (total b) := by
  obtain ⟨sa, na⟩ := a
  obtain ⟨sb, nb⟩ := b
  simp only [Normal, total, Duration.cmp] at *
  have lt {x y : Nat} (h : x < y) : compare x y = .lt := Nat.compare_eq_lt.2 h
  have gt {x y : Nat} (h : y < x) : compare x y = .gt := Nat.compare_eq_gt.2 h
  rcases Nat.lt_trichotomy sa sb with h | h | h
  · rw [lt h, lt (show sa * 1000000000 + na < sb * 1000000000 + nb by omega)]; rfl
  · subst h
    rw [Nat.compare_eq_eq.2 rfl]
    show compare na nb = _
    rcases Nat.lt_trichotomy na nb with h | h | h
    · rw [lt h, lt (show sa * 1000000000 + na < sa * 1000000000 + nb by omega)]
    · subst h; rw [Nat.compare_eq_eq.2 rfl, Nat.compare_eq_eq.2 rfl]
    · rw [gt h, gt (show sa * 1000000000 + nb < sa * 1000000000 + na by omega)]
  · rw [gt h, gt (show sb * 1000000000 + nb < sa * 1000000000 + na by omega)]; rfl

/-- Round trips with `core::time::Duration`: a normalised duration is kept; any other keeps its number of nanoseconds
or panics exactly when it has too many seconds. -/
theorem C36_core (d : Duration) (h : d.Fits) :
    (Normal d → d.toCore.map Duration.fromCore = some d) ∧
    (total d < 2 ^ 64 * 1000000000 → ∃ r, d.toCore = some r ∧ Normal r ∧ total r = total d) ∧
    (2 ^ 64 * 1000000000 ≤ total d → d.toCore = none) := by
  obtain ⟨s, n⟩ := d
  simp only [Normal, total, Duration.Fits, Duration.toCore, Duration.addChecked] at *
  refine ⟨?_, ?_, ?_⟩
  · rintro ⟨h1, h2⟩
    have : n / 1000000000 = 0 := by omega
    rw [this, Nat.mod_eq_of_lt h2, Nat.add_zero, if_pos h1]; rfl
  · intro ht
    refine ⟨⟨s + n / 1000000000, n % 1000000000⟩, ?_, ⟨?_, ?_⟩, ?_⟩
    · rw [if_pos (by omega)]; rfl
    all_goals dsimp only; omega
  · intro ht
    rw [if_neg (by omega)]; rfl

/-- 1.6 s + 2.7 s = 4.3 s; adding one nanosecond to the largest duration overflows. -/
example : (⟨1, 600000000⟩ : Duration).add ⟨2, 700000000⟩ = some ⟨4, 300000000⟩ ∧
    (⟨2 ^ 64 - 1, 999999999⟩ : Duration).add ⟨0, 1⟩ = none ∧ Duration.fromMillis 4300 = ⟨4, 300000000⟩ := by decide
example : Normal ⟨1, 600000000⟩ ∧ Normal ⟨2 ^ 64 - 1, 999999999⟩ := by simp only [Normal]; omega

/-- A duration built with more than 10^9 nanoseconds (fields are public and `new` does not normalise) is not ordered by its
length, and an addition may overflow although the sum is representable. -/
theorem C36_unnormalised_refuted : ∃ a b : Duration, a.Fits ∧ b.Fits ∧ total a > total b ∧ a.cmp b = .lt ∧
    total a + total a < 2 ^ 64 * 1000000000 ∧ a.add a = none :=
  ⟨⟨0, 4000000000⟩, ⟨1, 0⟩, by simp only [Duration.Fits]; omega, by simp only [Duration.Fits]; omega,
    by decide, by decide, by decide, by decide⟩

/-! ### C37 -/

/-- The encoding of a duration of less than `2^43` seconds, as a number. -/
theorem encode_toNat (d : Duration) (hs : d.secs < 2 ^ 43) (hn : d.nanos < 1000000000) :
    (durationToI64 d .positive).toNat = d.secs * 2 ^ 20 + d.nanos / 1000 := by
  simp only [durationToI64, Duration.subsecMicros, Duration.subsecNanos, BitVec.toNat_add, BitVec.toNat_shiftLeft,
    BitVec.toNat_ofNat, Nat.shiftLeft_eq]
  omega

theorem decode_nonneg (t : BitVec 64) (h : t.toNat < 2 ^ 63) :
    i64ToDuration t = (⟨t.toNat / 2 ^ 20, t.toNat % 2 ^ 20 * 1000⟩, .positive) := by
  have hm : t.msb = false := by rw [BitVec.msb_eq_decide]; simp only [decide_eq_false_iff_not]; omega
  have hand : t.toNat &&& 1048575 = t.toNat % 2 ^ 20 := Nat.and_two_pow_sub_one_eq_mod _ 20
  simp only [i64ToDuration, hm, Bool.false_eq_true, if_false, BitVec.toNat_sshiftRight_of_msb_false hm, BitVec.toNat_and,
    Nat.shiftRight_eq_div_pow]
  rw [show (0xfffff#64).toNat = 1048575 from rfl, hand]
  congr 2
  omega

/-- A stored positive duration is loaded back, truncated to microseconds. -/
theorem C37_round_trip_positive (d : Duration) (hs : d.secs < 2 ^ 43) (hn : d.nanos < 1000000000) :
    i64ToDuration (durationToI64 d .positive) = (⟨d.secs, d.nanos / 1000 * 1000⟩, .positive) := by
  have he := encode_toNat d hs hn
  rw [decode_nonneg _ (by rw [he]; omega), he]
  have h1 : (d.secs * 2 ^ 20 + d.nanos / 1000) / 2 ^ 20 = d.secs := by omega
  have h2 : (d.secs * 2 ^ 20 + d.nanos / 1000) % 2 ^ 20 = d.nanos / 1000 := by omega
  rw [h1, h2]

/-- A stored negative duration is loaded back, truncated to microseconds, if at least one microsecond long.
What is missing from C37: the sign of a duration below one microsecond, and durations of `2^43` seconds or more. -/
theorem C37_round_trip_negative_partial (d : Duration) (hs : d.secs < 2 ^ 43) (hn : d.nanos < 1000000000)
    (hz : 0 < d.secs ∨ 1000 ≤ d.nanos) :
    i64ToDuration (durationToI64 d .negative) = (⟨d.secs, d.nanos / 1000 * 1000⟩, .negative) := by
  have he := encode_toNat d hs hn
  have hneg : durationToI64 d .negative = -durationToI64 d .positive := rfl
  rw [hneg]
  generalize durationToI64 d .positive = t at *
  have h2 : (-t).toNat = 2 ^ 64 - t.toNat := by rw [BitVec.toNat_neg]; omega
  have hm : (-t).msb = true := by rw [BitVec.msb_eq_decide, h2]; simp only [decide_eq_true_eq]; omega
  have hm' : t.msb = false := by rw [BitVec.msb_eq_decide]; simp only [decide_eq_false_iff_not]; omega
  have hd := decode_nonneg t (by omega)
  simp only [i64ToDuration, hm, hm', Bool.false_eq_true, if_false, if_true, BitVec.neg_neg] at hd ⊢
  rw [Prod.mk.injEq] at hd
  rw [hd.1, he]
  have h1 : (d.secs * 2 ^ 20 + d.nanos / 1000) / 2 ^ 20 = d.secs := by omega
  have h3 : (d.secs * 2 ^ 20 + d.nanos / 1000) % 2 ^ 20 = d.nanos / 1000 := by omega
  rw [h1, h3]

/-- The stored encoding preserves the order of signed durations (to the microsecond). -/
theorem C37_order (a b : Duration) (sa sb : Sign) (ha : a.secs < 2 ^ 43 ∧ a.nanos < 1000000000)
    (hb : b.secs < 2 ^ 43 ∧ b.nanos < 1000000000) :
    let micros (d : Duration) (s : Sign) : Int := match s with
      | .positive => (d.secs * 1000000 + d.nanos / 1000 : Nat)
      | .negative => -((d.secs * 1000000 + d.nanos / 1000 : Nat) : Int)
    (durationToI64 a sa).toInt < (durationToI64 b sb).toInt ↔ micros a sa < micros b sb := by
  have h1 := encode_toNat a ha.1 ha.2
  have h2 := encode_toNat b hb.1 hb.2
  have hn : ∀ d, durationToI64 d .negative = -durationToI64 d .positive := fun _ => rfl
  have hi : ∀ t : BitVec 64, t.toNat < 2 ^ 63 → t.toInt = t.toNat ∧ (-t).toInt = -(t.toNat : Int) := by
    intro t ht
    constructor
    · rw [BitVec.toInt_eq_toNat_cond, if_pos (by omega)]
    · rw [BitVec.toInt_eq_toNat_cond, BitVec.toNat_neg]
      split <;> omega
  obtain ⟨p1, p2⟩ := hi _ (by rw [h1]; omega : (durationToI64 a .positive).toNat < 2 ^ 63)
  obtain ⟨q1, q2⟩ := hi _ (by rw [h2]; omega : (durationToI64 b .positive).toNat < 2 ^ 63)
  cases sa <;> cases sb <;> simp only [hn, p1, p2, q1, q2, h1, h2] <;> omega

/-- In any history, a load (or swap) that follows a store or swap of `d`, with only loads in between, returns `d` truncated
to microseconds. -/
theorem C37_history (cell : BitVec 64) (before : List Op) (d : Duration) (loads : Nat) (isSwap : Bool)
    (hs : d.secs < 2 ^ 43) (hn : d.nanos < 1000000000) :
    (runFrom cell (before ++ (if isSwap then .swap d .positive else .store d .positive) ::
        (List.replicate loads .load ++ [.load])))[before.length + 1 + loads]? =
      some (some (⟨d.secs, d.nanos / 1000 * 1000⟩, .positive)) := by
  induction before generalizing cell with
  | nil =>
    have : ∀ (c : BitVec 64), (Op.step c (if isSwap then .swap d .positive else .store d .positive)).1 = durationToI64 d .positive := by
      intro c; cases isSwap <;> rfl
    simp only [List.nil_append, List.length_nil, Nat.zero_add, runFrom, this]
    rw [show 1 + loads = loads + 1 by omega, List.getElem?_cons_succ]
    induction loads with
    | zero => simp [runFrom, Op.step, C37_round_trip_positive d hs hn]
    | succ k ih => simp only [List.replicate_succ, List.cons_append, runFrom, Op.step, List.getElem?_cons_succ]; exact ih
  | cons op ops ih =>
    simp only [List.cons_append, runFrom, List.length_cons]
    rw [show ops.length + 1 + 1 + loads = (ops.length + 1 + loads) + 1 by omega, List.getElem?_cons_succ]
    exact ih _

/-- In any history, a swap returns what a load in its place would have returned: the value of the last store or swap before it. -/
theorem C37_swap_returns_previous (cell : BitVec 64) (before after : List Op) (d : Duration) (s : Sign) :
    (runFrom cell (before ++ .swap d s :: after))[before.length]? = (runFrom cell (before ++ .load :: after))[before.length]? := by
  induction before generalizing cell with
  | nil => rfl
  | cons op ops ih => simp only [List.cons_append, runFrom, List.length_cons, List.getElem?_cons_succ]; exact ih _

example : runFrom 0 [.store ⟨1, 5000⟩ .positive, .swap ⟨2, 0⟩ .positive, .load] = [none, some (⟨1, 5000⟩, .positive), some (⟨2, 0⟩, .positive)] := by decide

example : i64ToDuration (durationToI64 ⟨12, 345678901⟩ .negative) = (⟨12, 345678000⟩, .negative) := by decide

/-- Half a microsecond before the epoch is loaded as a positive zero. -/
theorem C37_negative_zero_refuted : i64ToDuration (durationToI64 ⟨0, 500⟩ .negative) = (⟨0, 0⟩, .positive) := by decide

/-- `2^43` seconds are loaded as a negative duration of the same length, and `2^44` as zero; `MAX`
(time.rs:142) is not normalised. -/
theorem C37_large_refuted : (i64ToDuration (durationToI64 ⟨2 ^ 43, 0⟩ .positive)).2 = .negative ∧
    i64ToDuration (durationToI64 ⟨2 ^ 44, 0⟩ .positive) = (⟨0, 0⟩, .positive) ∧
    1000000000 ≤ (i64ToDuration (BitVec.intMax 64)).1.nanos := by decide

/-! ### Exactly which times survive -/

theorem encode_wraps (d : Duration) (hn : d.nanos < 1000000000) :
    (durationToI64 d .positive).toNat = (d.secs * 2 ^ 20 + d.nanos / 1000) % 2 ^ 64 := by
  simp only [durationToI64, Duration.subsecMicros, Duration.subsecNanos, BitVec.toNat_add, BitVec.toNat_shiftLeft,
    BitVec.toNat_ofNat, Nat.shiftLeft_eq]
  omega

theorem decode_neg (t : BitVec 64) (h : 2 ^ 63 < t.toNat) :
    i64ToDuration t = (⟨(2 ^ 64 - t.toNat) / 2 ^ 20, (2 ^ 64 - t.toNat) % 2 ^ 20 * 1000⟩, .negative) := by
  have hlt := t.isLt
  have h2 : (-t).toNat = 2 ^ 64 - t.toNat := by rw [BitVec.toNat_neg]; omega
  have hm : t.msb = true := by rw [BitVec.msb_eq_decide]; simp only [decide_eq_true_eq]; omega
  have hm' : (-t).msb = false := by rw [BitVec.msb_eq_decide]; simp only [decide_eq_false_iff_not]; omega
  have hd := decode_nonneg (-t) (by omega)
  simp only [i64ToDuration, hm, hm', Bool.false_eq_true, if_false, if_true] at hd ⊢
  rw [Prod.mk.injEq] at hd
  rw [hd.1, h2]

/-- A normalised time is loaded back, truncated to microseconds, with its sign, exactly if it is shorter than `2^43` seconds and,
if negative, at least a microsecond long; or if it is the one negative time that the two wraps put back together. -/
theorem C37_round_trip_iff (d : Duration) (s : Sign) (h : Normal d) :
    i64ToDuration (durationToI64 d s) = (⟨d.secs, d.nanos / 1000 * 1000⟩, s) ↔
      (d.secs < 2 ^ 43 ∧ (s = .negative → 0 < d.secs ∨ 1000 ≤ d.nanos))
        ∨ (s = .negative ∧ d.secs = 2 ^ 64 - 2 ^ 43 ∧ d.nanos < 1000) := by
  obtain ⟨hs, hn⟩ := h
  have he := encode_wraps d hn
  have hmin : ∀ t : BitVec 64, t.toNat = 2 ^ 63 → i64ToDuration t = (⟨2 ^ 64 - 2 ^ 43, 0⟩, .negative) := by
    intro t ht
    have : t = BitVec.intMin 64 := BitVec.eq_of_toNat_eq (by rw [ht]; rfl)
    subst this
    decide
  have key : ∀ (t : BitVec 64) (a b : Nat) (s : Sign), i64ToDuration t = (⟨a, b⟩, s) ↔
      (t.toNat < 2 ^ 63 ∧ a = t.toNat / 2 ^ 20 ∧ b = t.toNat % 2 ^ 20 * 1000 ∧ s = .positive)
        ∨ (2 ^ 63 < t.toNat ∧ a = (2 ^ 64 - t.toNat) / 2 ^ 20 ∧ b = (2 ^ 64 - t.toNat) % 2 ^ 20 * 1000 ∧ s = .negative)
        ∨ (t.toNat = 2 ^ 63 ∧ a = 2 ^ 64 - 2 ^ 43 ∧ b = 0 ∧ s = .negative) := by
    intro t a b s
    rcases Nat.lt_trichotomy t.toNat (2 ^ 63) with h | h | h
    · rw [decode_nonneg t h]
      have h1 : ¬2 ^ 63 < t.toNat := by omega
      have h2 : ¬t.toNat = 2 ^ 63 := by omega
      simp only [Prod.mk.injEq, Duration.mk.injEq, h, h1, h2, true_and, false_and, or_false]
      constructor
      · rintro ⟨⟨rfl, rfl⟩, rfl⟩; exact ⟨rfl, rfl, rfl⟩
      · rintro ⟨rfl, rfl, rfl⟩; exact ⟨⟨rfl, rfl⟩, rfl⟩
    · rw [hmin t h]
      have h1 : ¬2 ^ 63 < t.toNat := by omega
      have h2 : ¬t.toNat < 2 ^ 63 := by omega
      simp only [Prod.mk.injEq, Duration.mk.injEq, h, h1, h2, true_and, false_and, or_false, false_or]
      constructor
      · rintro ⟨⟨rfl, rfl⟩, rfl⟩; simp
      · rintro h
        simp at h
        obtain ⟨rfl, rfl, rfl⟩ := h; exact ⟨⟨rfl, rfl⟩, rfl⟩
    · rw [decode_neg t h]
      have h1 : ¬t.toNat < 2 ^ 63 := by omega
      have h2 : ¬t.toNat = 2 ^ 63 := by omega
      simp only [Prod.mk.injEq, Duration.mk.injEq, h, h1, h2, true_and, false_and, or_false, false_or]
      constructor
      · rintro ⟨⟨rfl, rfl⟩, rfl⟩; exact ⟨rfl, rfl, rfl⟩
      · rintro ⟨rfl, rfl, rfl⟩; exact ⟨⟨rfl, rfl⟩, rfl⟩
  cases s with
  | positive =>
    rw [key, he]
    simp only [reduceCtorEq, and_false, or_false, false_and, false_imp_iff, and_true]
    omega
  | negative =>
    have hneg : durationToI64 d .negative = -durationToI64 d .positive := rfl
    have h2 : (-durationToI64 d .positive).toNat = (2 ^ 64 - (d.secs * 2 ^ 20 + d.nanos / 1000) % 2 ^ 64) % 2 ^ 64 := by
      rw [BitVec.toNat_neg, he]
    rw [hneg, key, h2]
    simp only [reduceCtorEq, and_false, false_or, forall_const, true_and, and_true]
    omega

/-- The time that the wraps put back together. -/
example : i64ToDuration (durationToI64 ⟨2 ^ 64 - 2 ^ 43, 999⟩ .negative) = (⟨2 ^ 64 - 2 ^ 43, 0⟩, .negative) := by decide

end Verif.Props.Time
