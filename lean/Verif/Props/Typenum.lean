import Verif.Typenum.Lemmas
/-!
# C01, C02: type-level arithmetic

`U.val t` is the number the type `t` denotes, `U.Canonical t` says its spelling has no leading zero bit
(both in `Verif.Typenum.Spec`). The operators are those of the model of `unsigned.rs`.
-/
namespace Verif.Props.Typenum
open Verif.Typenum Verif.Typenum.U

/-- The constant `U128` is the denoted number in 128-bit arithmetic. -/
theorem C01_u128 (a : U) : a.u128 = BitVec.ofNat 128 a.val := by
  induction a with
  | term => rfl
  | int m b ih =>
    simp only [u128, ih]
    apply BitVec.eq_of_getLsbD_eq
    intro i hi
    simp only [BitVec.getLsbD_or, BitVec.getLsbD_shiftLeft, BitVec.getLsbD_ofNat, val_int]
    cases i with
    | zero => cases b <;> simp [Nat.testBit_zero]
    | succ i =>
      have e : (2 * m.val + b.toNat).testBit (i+1) = m.val.testBit i := by
        rw [Nat.testBit_succ]; congr 1; have := Bool.toNat_le b; omega
      rw [e]
      have : i < 128 := by omega
      cases b <;> simp [hi, this]
example : (ofNat 300).u128 = 300 := by decide +kernel

/-- What programs read of a number, as integers of `w` bits: the number modulo `2 ^ w`, so the number itself if and only if it fits. -/
theorem C01_constants (w : Nat) (hw : w ≤ 128) (a : U) :
    (a.constant w).toNat = a.val % 2 ^ w ∧ ((a.constant w).toNat = a.val ↔ a.val < 2 ^ w) := by
  have h : (a.constant w).toNat = a.val % 2 ^ w := by
    rw [U.constant, BitVec.toNat_setWidth, C01_u128, BitVec.toNat_ofNat]
    exact Nat.mod_mod_of_dvd _ (Nat.pow_dvd_pow 2 hw)
  refine ⟨h, ?_⟩
  rw [h]
  exact ⟨fun e => by rw [← e]; exact Nat.mod_lt _ (Nat.two_pow_pos w), Nat.mod_eq_of_lt⟩
example : ((U.ofNat 300).constant 8).toNat = 44 := by decide +kernel
example : ((U.ofNat 300).constant 64).toNat = 300 := by decide +kernel

theorem C01_add (a b : U) : (a.add b).val = a.val + b.val := val_add a b
theorem C01_mul (a b : U) : (a.mul b).val = a.val * b.val := val_mul a b
theorem C01_increment (a : U) : a.increment.val = a.val + 1 := val_increment a
/-- Decrement saturates at zero. Stated for canonical spellings: `UInt<UTerm, B0>` decrements to 1. -/
theorem C01_satDecrement (a : U) (h : a.Canonical) : a.satDecrement.val = a.val - 1 := val_satDecrement h
theorem C01_absSub (a b : U) : (a.absSub b).val = absDiff a.val b.val := val_absSub a b
theorem C01_min (a b : U) : (a.min b).val = Nat.min a.val b.val := by
  simp only [U.min, ternary_eq, Nat.min_def]
  split <;> rename_i h <;> rw [greater_iff] at h <;> split <;> omega
theorem C01_max (a b : U) : (a.max b).val = Nat.max a.val b.val := by
  simp only [U.max, ternary_eq, Nat.max_def]
  split <;> rename_i h <;> rw [greater_iff] at h <;> split <;> omega
/-- `Max` of powers of two (used for alignments). -/
theorem C01_alignment_max (a b : U) : (a.pmax b).val = Nat.max a.val b.val := by
  simp only [U.pmax, ternary_eq, Nat.max_def]
  split <;> rename_i h <;> rw [greater_iff] at h <;> split <;> omega
example : ((ofNat 8).pmax (ofNat 4)).val = 8 := by decide +kernel
theorem C01_bitAnd (a b : U) : (a.bitAnd b).val = a.val &&& b.val := by
  simp [bitAnd, val_bitAndInner]
theorem C01_bitOr (a b : U) : (a.bitOr b).val = a.val ||| b.val := by
  simp [bitOr, val_bitOrInner]
/-- `Truncate<T>` keeps the `T` least significant bits. -/
theorem C01_truncate (a b : U) : (a.truncate b).val = a.val % 2 ^ b.val := by
  simp [truncate, val_truncateInner]
theorem C01_bitLength (a : U) : a.nextPow2.val = if a.val = 0 then 0 else a.val.log2 + 1 := val_nextPow2 a

/-- The comparison bits decide the order of the denoted numbers. -/
theorem C01_compare (a b : U) :
    (a.equal b = true ↔ a.val = b.val) ∧ (a.notEqual b = true ↔ a.val ≠ b.val) ∧
    (a.greater b = true ↔ a.val > b.val) ∧ (a.greaterOrEq b = true ↔ a.val ≥ b.val) ∧
    (a.smaller b = true ↔ a.val < b.val) ∧ (a.smallerOrEq b = true ↔ a.val ≤ b.val) ∧
    a.cmp b = compare a.val b.val := by
  have h1 := equal_iff a b
  have h2 := greater_iff a b
  refine ⟨h1, ?_, h2, ?_, ?_, ?_, ?_⟩
  · simp [notEqual, ← h1]
  · simp only [greaterOrEq, or'_eq, Bool.or_eq_true, h1, h2]; omega
  · have h3 : a.smaller b = !(a.greater b || a.equal b) := by simp [smaller, greaterOrEq]
    rw [h3]; cases hg : a.greater b <;> cases he : a.equal b <;> simp [hg, he] at h1 h2 ⊢ <;> omega
  · simp only [smallerOrEq, not'_eq, Bool.not_eq_true', ← Bool.not_eq_true, h2]; omega
  · simp only [cmp, ternary_eq]
    rcases Nat.lt_trichotomy a.val b.val with h | h | h
    · rw [if_neg (by rw [h1]; omega), if_neg (by rw [h2]; omega)]
      exact (Nat.compare_eq_lt.mpr h).symm
    · rw [if_pos (h1.mpr h)]; exact (Nat.compare_eq_eq.mpr h).symm
    · rw [if_neg (by rw [h1]; omega), if_pos (h2.mpr h)]
      exact (Nat.compare_eq_gt.mpr h).symm

/-- `IPowerOf2` is implemented exactly for the powers of two, and `Log2` is their logarithm. -/
theorem C01_pow2 (a : U) : (a.isPow2 = true ↔ ∃ k, a.val = 2 ^ k) ∧
    (a.isPow2 = true → a.val = 2 ^ a.log2.val) :=
  ⟨⟨fun h => ⟨_, isPow2_spec h⟩, fun ⟨_, h⟩ => isPow2_of_val h⟩, isPow2_spec⟩
theorem C01_mod (a p : U) (h : p.isPow2 = true) : (a.mod p).val = a.val % p.val := val_modulate h a
theorem C01_divide (a p : U) (h : p.isPow2 = true) : (p.divide a).val = a.val / p.val := val_divide h a
/-- `NextMultipleOf<P>` is the least multiple of `P` that is at least `Self`. -/
theorem C01_nextMultipleOf (a p : U) (h : p.isPow2 = true) :
    p.val ∣ (a.nextMultipleOf p).val ∧ a.val ≤ (a.nextMultipleOf p).val ∧
    ∀ n, p.val ∣ n → a.val ≤ n → (a.nextMultipleOf p).val ≤ n := by
  have hp : 0 < p.val := by rw [isPow2_spec h]; exact Nat.two_pow_pos _
  rw [val_nextMultipleOf h]
  generalize a.val = x at *
  generalize p.val = y at *
  have hdm := Nat.div_add_mod x y
  have hlt := Nat.mod_lt x hp
  split
  · rename_i h0
    exact ⟨Nat.dvd_of_mod_eq_zero h0, Nat.le_refl _, fun n _ hn => hn⟩
  · rename_i h0
    refine ⟨⟨x / y + 1, ?_⟩, by omega, ?_⟩
    · rw [Nat.mul_add]; omega
    · rintro n ⟨k, rfl⟩ hn
      have : x / y < k := by
        rcases Nat.lt_or_ge (x / y) k with h' | h'
        · exact h'
        · have := Nat.mul_le_mul_left y h'; omega
      have := Nat.mul_le_mul_left y (show x / y + 1 ≤ k from this)
      rw [Nat.mul_add] at this
      omega
/-- `TruncateAtRightmostOne` isolates the lowest set bit; zero is rejected (`Saturator`). -/
theorem C01_lowestBit (a : U) :
    (a.val = 0 → a.truncAtRightmostOne = none) ∧
    (a.val ≠ 0 → ∃ r k, a.truncAtRightmostOne = some r ∧ r.val = 2 ^ k ∧
      a.val.testBit k = true ∧ ∀ j < k, a.val.testBit j = false) := by
  refine ⟨(truncAtRightmostOne_spec a).1, fun h => ?_⟩
  obtain ⟨r, k, h1, _, h3, h4, h5⟩ := (truncAtRightmostOne_spec a).2 h
  exact ⟨r, k, h1, h3, h4, h5⟩
/-- The names generated by build.rs denote the number in the name, canonically. -/
theorem C01_names (i : Nat) : (ofNat i).val = i ∧ (ofNat i).Canonical := bitsOf_fold i

-- Non-trivial instances (26 rounded up to 8, 10 & 6, 11 % 8).
example : (ofNat 8).isPow2 = true ∧ ((ofNat 26).nextMultipleOf (ofNat 8)).val = 32 := by decide +kernel
example : ((ofNat 10).bitAnd (ofNat 6)) = ofNat 2 ∧ ((ofNat 11).mod (ofNat 8)) = ofNat 3 := by decide +kernel
example : (ofNat 1000).Canonical := (C01_names 1000).2
/-- The hypothesis of `C01_satDecrement` is needed. -/
example : (int term false).satDecrement.val = 1 := by decide +kernel

/-- C02: with canonical operands, every operator returns the canonical spelling. -/
theorem C02_ops_canonical (a b : U) (ha : a.Canonical) (hb : b.Canonical) :
    (a.add b).Canonical ∧ (a.mul b).Canonical ∧ (a.absSub b).Canonical ∧ (a.min b).Canonical ∧
    (a.max b).Canonical ∧ (a.bitAnd b).Canonical ∧ (a.bitOr b).Canonical ∧ (a.truncate b).Canonical ∧
    a.increment.Canonical ∧ a.satDecrement.Canonical ∧ a.nextPow2.Canonical ∧ (a.mod b).Canonical ∧
    (b.divide a).Canonical ∧ (a.nextMultipleOf b).Canonical ∧ a.log2.Canonical ∧
    (∀ r, a.truncAtRightmostOne = some r → r.Canonical) := by
  refine ⟨canonical_add ha hb, canonical_mul _ hb, canonical_simplified _, ?_, ?_, canonical_simplified _,
    canonical_simplified _, canonical_simplified _, canonical_increment ha, ?_, canonical_nextPow2 _,
    canonical_modulate _ _, canonical_divide _ ha, canonical_nextMultipleOf ha, canonical_log2 _, ?_⟩
  · simp only [U.min, ternary_eq]; split <;> assumption
  · simp only [U.max, ternary_eq]; split <;> assumption
  · cases a with
    | term => trivial
    | int m b => exact canonical_simplified _
  · intro r hr
    by_cases h0 : a.val = 0
    · rw [(truncAtRightmostOne_spec a).1 h0] at hr; cases hr
    · obtain ⟨r', _, h1, h2, _⟩ := (truncAtRightmostOne_spec a).2 h0
      rw [h1] at hr; cases hr; exact h2

/-- C02: canonical spellings are unique, so equal numbers are equal types and every canonical type is
one of the generated names. -/
theorem C02_unique (a b : U) (ha : a.Canonical) (hb : b.Canonical) :
    (a = b ↔ a.val = b.val) ∧ a = ofNat a.val :=
  ⟨⟨fun h => h ▸ rfl, canonical_ext ha hb⟩, canonical_ext ha (C01_names _).2 (C01_names _).1.symm⟩
example : (ofNat 3).add (ofNat 4) = (ofNat 10).absSub (ofNat 3) :=
  ((C02_unique _ _ (canonical_add (C01_names 3).2 (C01_names 4).2) (canonical_simplified _)).1).2 (by decide +kernel)

end Verif.Props.Typenum
