import Verif.Time.Convert
import Verif.Props.Time

/-! C80: seconds as floating-point numbers, and points in time of std. -/
namespace Verif.Props.TimeConv
open Verif.Time Verif.Props.Time

/-! ### Rounding -/

/-- Rounding moves a number of `52 + sh` bits by at most half of `2^sh`. -/
theorem round53_spec (n : Nat) (st : Bool) (hst : st = true → 2 ^ 53 ≤ n) : ∃ sh : Nat, (sh = 0 ∧ round53 n st = n ∧ n < 2 ^ 53) ∨
    (0 < sh ∧ 2 ^ (sh + 52) ≤ n ∧ n < 2 ^ (sh + 53) ∧ 2 ^ sh ∣ round53 n st ∧
      round53 n st ≤ n + 2 ^ (sh - 1) ∧ n ≤ round53 n st + 2 ^ (sh - 1) ∧ n / 2 ^ sh * 2 ^ sh ≤ round53 n st) := by
  by_cases h0 : n.log2 - 52 = 0
  · refine ⟨0, .inl ⟨rfl, by simp [round53, h0], ?_⟩⟩
    by_cases hn : n = 0
    · subst hn; decide
    · rw [← Nat.log2_lt hn]; omega
  · refine ⟨n.log2 - 52, .inr ?_⟩
    have hn : n ≠ 0 := by intro e; subst e; simp at h0
    have hlo : 2 ^ n.log2 ≤ n := Nat.log2_self_le hn
    have hhi : n < 2 ^ (n.log2 + 1) := Nat.lt_log2_self
    rw [show n.log2 - 52 + 52 = n.log2 by omega, show n.log2 - 52 + 53 = n.log2 + 1 by omega]
    refine ⟨by omega, hlo, hhi, ?_⟩
    unfold round53
    generalize hsh : n.log2 - 52 = sh at *
    have hpos : 0 < 2 ^ sh := Nat.two_pow_pos sh
    have hhalf : 2 ^ sh = 2 * 2 ^ (sh - 1) := by rw [← Nat.pow_succ', show (sh - 1).succ = sh by omega]
    have hdm := Nat.div_add_mod n (2 ^ sh)
    have hml := Nat.mod_lt n hpos
    rw [Nat.mul_comm] at hdm
    simp only [if_neg h0]
    generalize n / 2 ^ sh = q at *
    generalize n % 2 ^ sh = r at *
    split
    · rename_i hc
      have : 2 ^ (sh - 1) ≤ r := by rcases hc with h | h <;> omega
      have e : (q + 1) * 2 ^ sh = q * 2 ^ sh + 2 ^ sh := Nat.succ_mul q _
      refine ⟨⟨q + 1, Nat.mul_comm ..⟩, ?_, ?_, ?_⟩ <;> rw [e] <;> omega
    · rename_i hc
      have : r ≤ 2 ^ (sh - 1) := by
        by_cases h : 2 ^ (sh - 1) < r
        · exact absurd (.inl h) hc
        · omega
      refine ⟨⟨q, Nat.mul_comm ..⟩, ?_, ?_, ?_⟩ <;> omega

/-- The number of nanoseconds of a fraction `k / 2^s` of a second, as computed. -/
theorem frac_bounds (k s r : Nat) (hk : k < 2 ^ s) (h53 : k < 2 ^ 53) (hr : r = round53 (k * 1000000000) false / 2 ^ s) :
    r < 1000000000 ∧ r * 2 ^ s * 2 ^ 24 ≤ k * 1000000000 * 2 ^ 24 + 2 ^ s ∧ k * 1000000000 < (r + 1) * 2 ^ s := by
  have hS : 0 < 2 ^ s := Nat.two_pow_pos s
  obtain ⟨sh, ⟨-, he, hlt⟩ | ⟨h0, hlo, hhi, hdvd, hup, hdown, hfl⟩⟩ := round53_spec (k * 1000000000) false (by simp)
  · rw [he] at hr
    have h1 : r * 2 ^ s ≤ k * 1000000000 := by rw [hr]; exact Nat.div_mul_le_self ..
    refine ⟨?_, ?_, ?_⟩
    · rw [hr, Nat.div_lt_iff_lt_mul hS]
      omega
    · exact Nat.le_trans (Nat.mul_le_mul_right _ h1) (Nat.le_add_right ..)
    · rw [hr]
      have := Nat.lt_div_mul_add hS (a := k * 1000000000)
      rw [Nat.succ_mul]; exact this
  · -- the shift is well below `s`
    have hlt : 2 ^ (sh + 52) < 2 ^ (s + 30) := by
      calc 2 ^ (sh + 52) ≤ k * 1000000000 := hlo
        _ < 2 ^ s * 1000000000 := Nat.mul_lt_mul_of_pos_right hk (by decide)
        _ ≤ 2 ^ s * 2 ^ 30 := Nat.mul_le_mul_left _ (by decide)
        _ = 2 ^ (s + 30) := (Nat.pow_add ..).symm
    have hss : sh + 52 < s + 30 := (Nat.pow_lt_pow_iff_right (by decide)).1 hlt
    have hhalf : 2 ^ (sh - 1) * 2 ^ 24 ≤ 2 ^ s := by
      rw [← Nat.pow_add]; exact Nat.pow_le_pow_right (by decide) (by omega)
    have hrR : r * 2 ^ s ≤ round53 (k * 1000000000) false := by rw [hr]; exact Nat.div_mul_le_self ..
    have hRr : round53 (k * 1000000000) false < (r + 1) * 2 ^ s := by
      have := Nat.lt_div_mul_add hS (a := round53 (k * 1000000000) false)
      rw [Nat.succ_mul, hr]; exact this
    refine ⟨?_, ?_, ?_⟩
    · rw [hr, Nat.div_lt_iff_lt_mul hS]
      by_cases hs : s ≤ 53
      · have : 2 ^ (sh - 1) ≤ 2 ^ 29 := Nat.pow_le_pow_right (by decide) (by omega)
        have e29 : (2 : Nat) ^ 29 = 536870912 := by decide
        omega
      · have h2 : 2 * 2 ^ 53 ≤ 2 ^ s := by
          rw [← Nat.pow_succ']; exact Nat.pow_le_pow_right (by decide) (by omega)
        have e24 : (2 : Nat) ^ 24 = 16777216 := by decide
        omega
    · have := Nat.mul_le_mul_right (2 ^ 24) (Nat.le_trans hrR hup)
      rw [Nat.add_mul] at this
      exact Nat.le_trans this (Nat.add_le_add_left hhalf _)
    · -- whole nanoseconds are multiples of the shift
      have hd : 2 ^ sh ∣ (r + 1) * 2 ^ s := by
        refine Nat.dvd_trans ?_ (Nat.dvd_mul_left ..)
        exact Nat.pow_dvd_pow 2 (by omega)
      by_cases hc : k * 1000000000 < (r + 1) * 2 ^ s
      · exact hc
      · exfalso
        obtain ⟨c, hc'⟩ := hd
        have : c ≤ k * 1000000000 / 2 ^ sh := by
          rw [Nat.le_div_iff_mul_le (Nat.two_pow_pos sh), Nat.mul_comm, ← hc']; omega
        have : c * 2 ^ sh ≤ k * 1000000000 / 2 ^ sh * 2 ^ sh := Nat.mul_le_mul_right _ this
        rw [Nat.mul_comm (2 ^ sh) c] at hc'
        omega

/-- A non-negative number of seconds gives a normalised duration: not more than `2^-24` nanoseconds above the number, and less than a nanosecond below. -/
theorem C80_from_f64_partial (m : Nat) (e : Int) (hw : (F64.fin m e).WF) (hr : m * 2 ^ e.toNat < 2 ^ 64 * 2 ^ (-e).toNat) :
    ∃ d, Duration.fromSecsF64 (.fin m e) = some d ∧ Normal d ∧
      total d * 2 ^ (-e).toNat * 2 ^ 24 ≤ m * 2 ^ e.toNat * 1000000000 * 2 ^ 24 + 2 ^ (-e).toNat ∧
      m * 2 ^ e.toNat * 1000000000 < (total d + 1) * 2 ^ (-e).toNat := by
  obtain ⟨hm, -, -⟩ := hw
  refine ⟨_, rfl, ?_⟩
  have hD : 0 < 2 ^ (-e).toNat := Nat.two_pow_pos _
  have hk : m * 2 ^ e.toNat % 2 ^ (-e).toNat < 2 ^ 53 := by
    by_cases he : 0 ≤ e
    · rw [show (-e).toNat = 0 by omega, Nat.pow_zero, Nat.mod_one]; decide
    · rw [show e.toNat = 0 by omega, Nat.pow_zero, Nat.mul_one]
      exact Nat.lt_of_le_of_lt (Nat.mod_le ..) hm
  obtain ⟨h1, h2, h3⟩ := frac_bounds _ _ _ (Nat.mod_lt _ hD) hk rfl
  have hq : m * 2 ^ e.toNat / 2 ^ (-e).toNat < 2 ^ 64 := by rw [Nat.div_lt_iff_lt_mul hD]; exact hr
  have hdm := Nat.div_add_mod (m * 2 ^ e.toNat) (2 ^ (-e).toNat)
  generalize m * 2 ^ e.toNat = u at *
  generalize 2 ^ (-e).toNat = D at *
  dsimp only [Normal, total]
  rw [Nat.min_eq_left (by omega), Nat.min_eq_left (a := round53 (u % D * 1000000000) false / D) (by omega)]
  generalize round53 (u % D * 1000000000) false / D = r at *
  generalize u / D = q at *
  generalize u % D = k at *
  have hu : u * 1000000000 = D * q * 1000000000 + k * 1000000000 := by rw [← hdm, Nat.add_mul]
  have e1 : (q * 1000000000 + r) * D = D * q * 1000000000 + r * D := by
    rw [Nat.add_mul, Nat.mul_comm D q, Nat.mul_right_comm]
  have e2 : (q * 1000000000 + r + 1) * D = D * q * 1000000000 + (r + 1) * D := by
    rw [Nat.add_assoc, Nat.add_mul, Nat.mul_comm D q, Nat.mul_right_comm]
  refine ⟨⟨hq, h1⟩, ?_, ?_⟩
  · rw [hu, e1, Nat.add_mul, Nat.add_mul (D * q * 1000000000), Nat.add_assoc]
    exact Nat.add_le_add_left h2 _
  · rw [hu, e2]
    exact Nat.add_lt_add_left h3 _

/-- 0.1 is `7205759403792794 * 2^-56`. -/
example : (F64.fin 7205759403792794 (-56)).WF ∧ 7205759403792794 * 2 ^ (-56 : Int).toNat < 2 ^ 64 * 2 ^ (-(-56) : Int).toNat ∧
    Duration.fromSecsF64 (.fin 7205759403792794 (-56)) = some ⟨0, 100000000⟩ := by
  refine ⟨⟨by omega, by omega, by omega⟩, by decide +kernel, by decide +kernel⟩

/-- Panics exactly on NaN and on numbers below 0. -/
theorem C80_panics (x : F64) : Duration.fromSecsF64 x = none ↔ x = .nan ∨ x = .negative := by
  cases x <;> simp [Duration.fromSecsF64]

/-- How far two numbers are apart. -/
def dist (a b : Nat) : Nat := (a - b) + (b - a)

/-- Rounding gives a number of 53 bits that is nearest to the exact one, in halves `2 * n`, or `2 * n + 1` if sticky; if two are equally near, the even one. -/
theorem C80_round (n : Nat) (st : Bool) : (n < 2 ^ 53 → round53 n st = n) ∧
    (∀ sh, 0 < sh → 2 ^ (sh + 52) ≤ n → n < 2 ^ (sh + 53) → ∃ k, round53 n st = k * 2 ^ sh ∧ ∀ j,
      dist (2 * (k * 2 ^ sh)) (2 * n + st.toNat) ≤ dist (2 * (j * 2 ^ sh)) (2 * n + st.toNat) ∧
      (j ≠ k → dist (2 * (k * 2 ^ sh)) (2 * n + st.toNat) = dist (2 * (j * 2 ^ sh)) (2 * n + st.toNat) → k % 2 = 0)) := by
  constructor
  · intro h
    by_cases h0 : n = 0
    · subst h0; cases st <;> decide
    · have : n.log2 < 53 := (Nat.log2_lt h0).mpr h
      simp [round53, show n.log2 - 52 = 0 by omega]
  · intro sh h0 hlo hhi
    have hn : n ≠ 0 := by have := Nat.two_pow_pos (sh + 52); omega
    have h1 : n.log2 < sh + 53 := (Nat.log2_lt hn).mpr hhi
    have h2 : sh + 52 ≤ n.log2 := (Nat.le_log2 hn).mpr hlo
    have e : n.log2 - 52 = sh := by omega
    unfold round53
    rw [e]
    dsimp only
    rw [if_neg (by omega)]
    have hhalf : 2 ^ sh = 2 * 2 ^ (sh - 1) := by rw [← Nat.pow_succ', show (sh - 1).succ = sh by omega]
    have hdm := Nat.div_add_mod n (2 ^ sh)
    have hml := Nat.mod_lt n (Nat.two_pow_pos sh)
    have hH := Nat.two_pow_pos (sh - 1)
    generalize n / 2 ^ sh = q at *
    generalize n % 2 ^ sh = r at *
    generalize 2 ^ (sh - 1) = H at *
    generalize 2 ^ sh = P at *
    clear hlo hhi h1 h2 e h0
    have hs : st.toNat = if st then 1 else 0 := by cases st <;> rfl
    rw [Nat.mul_comm] at hdm
    have hup : (q + 1) * P = q * P + P := Nat.succ_mul q P
    have hj : ∀ j : Nat, j = q ∨ j = q + 1 ∨ (j * P + P ≤ q * P) ∨ ((q + 1) * P + P ≤ j * P) := by
      intro j
      by_cases h1 : j < q
      · exact .inr (.inr (.inl (by rw [← Nat.succ_mul]; exact Nat.mul_le_mul_right P h1)))
      · by_cases h2 : q + 1 < j
        · exact .inr (.inr (.inr (by rw [← Nat.succ_mul]; exact Nat.mul_le_mul_right P h2)))
        · omega
    rw [hup] at hj
    have hst : st = true ↔ st.toNat = 1 := by cases st <;> simp
    have hs1 : st.toNat ≤ 1 := by cases st <;> decide
    simp only [hst]
    clear hs hst
    generalize st.toNat = s at *
    split
    · next hc =>
      refine ⟨q + 1, rfl, fun j => ?_⟩
      rw [hup]
      rcases hj j with rfl | rfl | h | h
      · generalize j * P = J at *
        simp only [dist]; omega
      · rw [hup]
        generalize q * P = J at *
        simp only [dist]; omega
      · generalize j * P = J at *
        generalize q * P = Q at *
        simp only [dist]; omega
      · generalize j * P = J at *
        generalize q * P = Q at *
        simp only [dist]; omega
    · next hc =>
      refine ⟨q, rfl, fun j => ?_⟩
      rcases hj j with rfl | rfl | h | h
      · generalize j * P = J at *
        simp only [dist]; omega
      · rw [hup]
        generalize q * P = J at *
        simp only [dist]; omega
      · generalize j * P = J at *
        generalize q * P = Q at *
        simp only [dist]; omega
      · generalize j * P = J at *
        generalize q * P = Q at *
        simp only [dist]; omega

example : round53 (2 ^ 53 + 1) false = 2 ^ 53 ∧ round53 (2 ^ 53 + 3) false = 2 ^ 53 + 4 ∧ round53 (2 ^ 53 + 1) true = 2 ^ 53 + 2 := by decide +kernel

/-- All numbers from `2^64` on become the largest number of seconds. -/
theorem C80_saturates (m : Nat) (e : Int) (hw : (F64.fin m e).WF) (h : 2 ^ 64 * 2 ^ (-e).toNat ≤ m * 2 ^ e.toNat) :
    Duration.fromSecsF64 (.fin m e) = some ⟨2 ^ 64 - 1, 0⟩ ∧ Duration.fromSecsF64 .inf = some ⟨2 ^ 64 - 1, 0⟩ := by
  obtain ⟨hm, -, -⟩ := hw
  have he : 0 ≤ e := by
    apply Decidable.byContradiction
    intro hc
    rw [show e.toNat = 0 by omega] at h
    have := Nat.two_pow_pos (-e).toNat
    omega
  have h1 : (-e).toNat = 0 := by omega
  rw [h1] at h
  refine ⟨?_, rfl⟩
  simp only [Duration.fromSecsF64, h1, Nat.pow_zero, Nat.div_one, Nat.mod_one, Option.some.injEq, Duration.mk.injEq]
  exact ⟨by omega, by decide⟩

/-- The rounding error of `as_secs_f64` is at most `2^-50` of the number. -/
theorem C80_as_f64 (d : Duration) :
    d.asSecsF64 * 1000000000 * 2 ^ 50 ≤ d.asNanos * 2 ^ 200 * (2 ^ 50 + 1) ∧ d.asNanos * 2 ^ 200 * (2 ^ 50 - 1) ≤ d.asSecsF64 * 1000000000 * 2 ^ 50 := by
  have rel : ∀ (n : Nat) (st : Bool), (st = true → 2 ^ 53 ≤ n) → round53 n st * 2 ^ 53 ≤ n * (2 ^ 53 + 1) ∧ n * (2 ^ 53 - 1) ≤ round53 n st * 2 ^ 53 := by
    intro n st hst
    obtain ⟨sh, ⟨-, he, -⟩ | ⟨h0, hlo, -, -, hup, hdown, -⟩⟩ := round53_spec n st hst
    · rw [he]; omega
    · have : 2 ^ (sh - 1) * 2 ^ 53 ≤ n := by
        rw [← Nat.pow_add, show sh - 1 + 53 = sh + 52 by omega]; exact hlo
      omega
  obtain ⟨a1, a2⟩ := rel d.asNanos false (by simp)
  unfold Duration.asSecsF64
  generalize round53 d.asNanos false = n at *
  generalize d.asNanos = N at *
  dsimp only
  have e200 : (2 : Nat) ^ 200 = 1606938044258990275541962092341162602522202993782792835301376 := by decide
  split
  · rename_i h
    have hn : n = 0 := by omega
    subst hn
    omega
  · rename_i h
    have hn : 0 < n := by
      rcases Nat.eq_zero_or_pos n with e | e
      · subst e; simp at h
      · exact e
    have hbig : 2 ^ 53 ≤ n * 2 ^ 200 / 1000000000 := by
      have h53 : 2 ^ 53 * 1000000000 ≤ 2 ^ 200 := by decide +kernel
      exact (Nat.le_div_iff_mul_le (by omega)).2 (Nat.le_trans h53 (Nat.le_mul_of_pos_left _ hn))
    obtain ⟨b1, b2⟩ := rel (n * 2 ^ 200 / 1000000000) (decide (n * 2 ^ 200 % 1000000000 ≠ 0)) fun _ => hbig
    generalize round53 (n * 2 ^ 200 / 1000000000) (decide (n * 2 ^ 200 % 1000000000 ≠ 0)) = R at *
    omega

/-- Refuted: 2.3 (`5179139571476070 * 2^-51`, which is what `as_secs_f64` gives for 2.3s, and is closer to 2300000000ns than to any other number of nanoseconds) becomes
2.299999999s: digits are cut off, not rounded. -/
theorem C80_nearest_refuted : (Duration.mk 2 300000000).asSecsF64 = 5179139571476070 * 2 ^ 149 ∧
    Duration.fromSecsF64 (.fin 5179139571476070 (-51)) = some ⟨2, 299999999⟩ := by decide +kernel

/-- Refuted: numbers that are too large, and infinity, become the largest number of seconds, without a panic. -/
theorem C80_large_refuted : Duration.fromSecsF64 .inf = some ⟨2 ^ 64 - 1, 0⟩ ∧
    ∀ e : Int, 12 ≤ e → Duration.fromSecsF64 (.fin (2 ^ 52) e) = some ⟨2 ^ 64 - 1, 0⟩ := by
  refine ⟨rfl, fun e he => ?_⟩
  have h1 : (-e).toNat = 0 := by omega
  have h2 : 2 ^ 64 - 1 ≤ 2 ^ 52 * 2 ^ e.toNat := by
    rw [← Nat.pow_add]
    exact Nat.le_trans (by decide) (Nat.pow_le_pow_right (n := 2) (by decide) (show 64 ≤ 52 + e.toNat by omega))
  simp only [Duration.fromSecsF64, h1, Nat.pow_zero, Nat.div_one, Nat.mod_one, Nat.zero_mul]
  rw [Nat.min_eq_right h2]
  rfl

/-! ### Points in time -/

theorem toStd_normal (d : Duration) (h : Normal d) : toStd d = if d.secs < 2 ^ 63 then some ⟨total d⟩ else none := by
  obtain ⟨s, n⟩ := d
  simp only [Normal, toStd, Duration.toCore, Duration.addChecked, total] at *
  rw [if_pos (by omega)]
  simp only [Option.bind_eq_bind, Option.bind_some, show s + n / 1000000000 = s by omega, show n % 1000000000 = n by omega]
  split
  · rename_i hs
    simp only [Option.some.injEq, StdTime.mk.injEq]
    omega
  · rfl

/-- Points from the epoch on survive the way to stabby and back. -/
theorem C80_std_partial (t : StdTime) (h : t.Fits) (h0 : 0 ≤ t.ns) : Normal (fromStd t) ∧ toStd (fromStd t) = some t := by
  obtain ⟨ns⟩ := t
  simp only [StdTime.Fits] at *
  have hn : Normal (fromStd ⟨ns⟩) := by simp only [Normal, fromStd]; omega
  refine ⟨hn, ?_⟩
  rw [toStd_normal _ hn, if_pos (by simp only [fromStd]; omega)]
  simp only [total, fromStd, Option.some.injEq, StdTime.mk.injEq]
  omega
example : (⟨1700000000123456789⟩ : StdTime).Fits ∧ fromStd ⟨1700000000123456789⟩ = ⟨1700000000, 123456789⟩ := by
  refine ⟨by simp only [StdTime.Fits]; omega, by decide⟩

/-- Points of stabby's are the same points of std's, or do not fit. -/
theorem C80_stabby (d : Duration) (h : Normal d) : toStd d = if d.secs < 2 ^ 63 then some ⟨total d⟩ else none := toStd_normal d h

/-- Points of stabby's survive the way to std and back. -/
theorem C80_stabby_back (d : Duration) (h : Normal d) (t : StdTime) (ht : toStd d = some t) : fromStd t = d := by
  rw [C80_stabby d h] at ht
  split at ht
  · obtain ⟨s, n⟩ := d
    simp only [Option.some.injEq] at ht
    subst ht
    simp only [Normal, total, fromStd, Duration.mk.injEq] at *
    omega
  · cases ht
example : toStd ⟨3, 5⟩ = some ⟨3000000005⟩ := by decide

/-- The order of points is kept, up to those before the epoch becoming equal. -/
theorem C80_order (a b : StdTime) : total (fromStd a) ≤ total (fromStd b) ↔ max a.ns 0 ≤ max b.ns 0 := by
  obtain ⟨a⟩ := a
  obtain ⟨b⟩ := b
  simp only [total, fromStd]
  omega

/-- Adding commutes with the conversion. -/
theorem C80_add (d x r : Duration) (t : StdTime) (hd : Normal d) (hx : Normal x) (ht : toStd d = some t) (hr : d.add x = some r) (hf : r.secs < 2 ^ 63) :
    toStd r = some ⟨t.ns + total x⟩ := by
  have hlt : total d + total x < 2 ^ 64 * 1000000000 := by
    by_cases h : total d + total x < 2 ^ 64 * 1000000000
    · exact h
    · have := (C36_add d x hd hx).2 (by omega)
      rw [this] at hr; cases hr
  obtain ⟨r', hr', hn, htot⟩ := (C36_add d x hd hx).1 hlt
  rw [hr] at hr'
  obtain rfl := Option.some.inj hr'
  rw [C80_stabby r hn, if_pos hf, htot]
  rw [C80_stabby d hd] at ht
  split at ht
  · obtain rfl := Option.some.inj ht
    simp
  · cases ht
example : (Duration.mk 1 999999999).add ⟨0, 2⟩ = some ⟨2, 1⟩ := by decide

/-- Refuted: a point before the epoch (a file of 1969) becomes the epoch. -/
theorem C80_before_refuted (t : StdTime) (h : t.ns < 0) : toStd (fromStd t) = some ⟨0⟩ ∧ t ≠ ⟨0⟩ := by
  obtain ⟨ns⟩ := t
  dsimp only at h
  have : ns.toNat = 0 := by omega
  refine ⟨?_, by intro e; cases e; omega⟩
  rw [fromStd]; dsimp only; rw [this]; decide

/-- The last point written, in microseconds, is what an atomic instant gives; nothing else changes it. -/
theorem C80_atomic (cell : BitVec 64) (before : List IOp) (t : Duration) (ht : t.secs < 2 ^ 43 ∧ t.nanos < 1000000000) (op : IOp)
    (hop : op = .update t ∨ op = .swap t ∨ op = .store t) (loads : Nat) (next : IOp) (hn : ∀ x, next ≠ .store x) :
    (next.step (irun cell (before ++ op :: List.replicate loads .load))).2 = some ⟨t.secs, t.nanos / 1000 * 1000⟩ := by
  have hrun : ∀ c, irun c (List.replicate loads IOp.load) = c := by
    intro c
    induction loads with
    | zero => rfl
    | succ n ih => rw [List.replicate_succ, irun]; exact ih
  have happ : ∀ (xs ys : List IOp) c, irun c (xs ++ ys) = irun (irun c xs) ys := by
    intro xs
    induction xs with
    | nil => intros; rfl
    | cons x xs ih => intro ys c; exact ih ys _
  rw [happ, irun, hrun]
  have hcell : (op.step (irun cell before)).1 = durationToI64 t .positive := by rcases hop with rfl | rfl | rfl <;> rfl
  rw [hcell]
  have hd := C37_round_trip_positive t ht.1 ht.2
  cases next with
  | store x => exact absurd rfl (hn x)
  | _ => simp [IOp.step, hd]
example : ((IOp.load).step (irun 0 [.store ⟨7, 5⟩, .update ⟨3, 2500⟩, .load])).2 = some ⟨3, 2000⟩ := by decide

end Verif.Props.TimeConv
