import Verif.Num.Model

namespace Verif.Num

theorem U.mask_toNat {w n : Nat} (h : n ≤ w) : (U.mask n : BitVec w).toNat = 2 ^ n - 1 := by
  unfold U.mask
  rw [BitVec.toNat_ushiftRight, BitVec.toNat_allOnes, Nat.shiftRight_eq_div_pow]
  have hp : 2 ^ w = 2 ^ n * 2 ^ (w - n) := by rw [← Nat.pow_add]; congr 1; omega
  have h1 : 0 < 2 ^ (w - n) := Nat.two_pow_pos _
  have h2 : 0 < 2 ^ n := Nat.two_pow_pos _
  rw [hp]
  apply Nat.div_eq_of_lt_le
  · rw [Nat.sub_mul, Nat.one_mul]; omega
  · rw [Nat.sub_add_cancel h2]
    have : 0 < 2 ^ n * 2 ^ (w - n) := Nat.mul_pos h2 h1
    omega

theorem U.get_toNat {w n : Nat} (h : n ≤ w) (x : BitVec w) : (U.get n x).toNat = x.toNat % 2 ^ n := by
  unfold U.get
  rw [BitVec.toNat_and, U.mask_toNat h, Nat.and_two_pow_sub_one_eq_mod]

theorem U.le_mask {w n : Nat} (h : n ≤ w) (x : BitVec w) : x ≤ U.mask n ↔ x.toNat < 2 ^ n := by
  rw [BitVec.le_def, U.mask_toNat h]
  have : 0 < 2 ^ n := Nat.two_pow_pos _
  omega

theorem U.made_lt {w n : Nat} (h : n ≤ w) {x : BitVec w} (hx : U.Made n x) : x.toNat < 2 ^ n := by
  have hp : 0 < 2 ^ n := Nat.two_pow_pos _
  induction hx with
  | max => rw [U.max, U.mask_toNat h]; omega
  | min => exact hp
  | new he =>
    unfold U.new at he
    split at he
    · cases he; exact (U.le_mask h _).1 ‹_›
    · cases he
  | bitandBase rhs _ ih => exact Nat.lt_of_le_of_lt (by rw [U.bitand, BitVec.toNat_and]; exact Nat.and_le_left) ih
  | bitand _ _ ih _ => exact Nat.lt_of_le_of_lt (by rw [U.bitand, BitVec.toNat_and]; exact Nat.and_le_left) ih
  | bitor _ _ ih1 ih2 => rw [U.bitor, BitVec.toNat_or]; exact Nat.or_lt_two_pow ih1 ih2
  | subBase rhs _ hle ih =>
    rw [U.subBase, BitVec.toNat_sub_of_le hle, U.get_toNat h]
    exact Nat.lt_of_le_of_lt (Nat.sub_le _ _) (Nat.mod_lt _ hp)
  | sub _ _ hle ih1 _ =>
    rw [U.sub, BitVec.toNat_sub_of_le hle, U.get_toNat h]
    exact Nat.lt_of_le_of_lt (Nat.sub_le _ _) (Nat.mod_lt _ hp)

theorem intMax_msb {w : Nat} : (BitVec.intMax w).msb = false := by
  rw [BitVec.msb_eq_getLsbD_last, BitVec.getLsbD_intMax]
  simp; omega

theorem I.min_bit {w n : Nat} (h0 : 0 < n) (h : n < w) (i : Nat) :
    (I.min n : BitVec w).getLsbD i = decide (i = n - 1) := by
  unfold I.min
  rw [BitVec.getLsbD_shiftLeft, BitVec.getLsbD_one]
  rw [Bool.eq_iff_iff]
  simp only [Bool.and_eq_true, decide_eq_true_eq, Bool.not_eq_true', decide_eq_false_iff_not]
  omega

theorem I.mask_bit {w n : Nat} (h0 : 0 < n) (h : n < w) (i : Nat) :
    (I.mask n : BitVec w).getLsbD i = decide (i < n) := by
  have := I.min_bit h0 h i
  unfold I.min at this
  unfold I.mask
  rw [BitVec.getLsbD_or, BitVec.getLsbD_sshiftRight, this, intMax_msb, BitVec.getLsbD_intMax, Bool.eq_iff_iff]
  simp only [Bool.and_eq_true, Bool.or_eq_true, decide_eq_true_eq, Bool.not_eq_true', decide_eq_false_iff_not]
  split
  · simp only [decide_eq_true_eq]; omega
  · simp; omega

theorem I.get_bit {w n : Nat} (h0 : 0 < n) (h : n < w) (x : BitVec w) (i : Nat) (hi : i < w) :
    (I.get n x).getLsbD i = if i < n then x.getLsbD i else x.getLsbD (n - 1) := by
  have hmin := I.min_bit (w := w) h0 h
  have hmask := I.mask_bit (w := w) h0 h
  have hin : ∀ j, (x &&& I.mask n &&& I.min n).getLsbD j = (x.getLsbD (n - 1) && decide (j = n - 1)) := by
    intro j
    rw [BitVec.getLsbD_and, BitVec.getLsbD_and, hmin, hmask]
    by_cases hj : j = n - 1
    · subst hj
      have : n - 1 < n := by omega
      simp [this]
    · simp [hj]
  have hsh : ∀ j, j < w → ((x &&& I.mask n &&& I.min n) <<< (w - n)).getLsbD j = (x.getLsbD (n - 1) && decide (j = w - 1)) := by
    intro j hj
    rw [BitVec.getLsbD_shiftLeft, hin, Bool.eq_iff_iff]
    simp only [Bool.and_eq_true, decide_eq_true_eq, Bool.not_eq_true', decide_eq_false_iff_not]
    constructor
    · rintro ⟨_, h1, h2⟩; exact ⟨h1, by omega⟩
    · rintro ⟨h1, h2⟩; exact ⟨⟨hj, by omega⟩, h1, by omega⟩
  unfold I.get I.signExtend
  dsimp only
  rw [BitVec.getLsbD_or, BitVec.getLsbD_sshiftRight, BitVec.getLsbD_and, hmask, BitVec.msb_eq_getLsbD_last, hsh (w - 1) (by omega)]
  have hnw : ¬ w ≤ i := by omega
  by_cases hin' : i < n
  · rw [if_pos hin', if_pos (by omega), hsh _ (by omega)]
    have : ¬ (w - n - 1 + i = w - 1) := by omega
    simp [this, hin']
  · rw [if_neg hin']
    by_cases he : i = n
    · rw [if_pos (by omega), hsh _ (by omega)]
      have : w - n - 1 + i = w - 1 := by omega
      simp [this, hnw, hin']
    · rw [if_neg (by omega)]
      simp [hnw, hin']

theorem I.get_eq {w n : Nat} (h0 : 0 < n) (h : n < w) (x : BitVec w) : I.get n x = (x.setWidth n).signExtend w := by
  apply BitVec.eq_of_getLsbD_eq
  intro i hi
  rw [I.get_bit h0 h x i hi, BitVec.getLsbD_signExtend]
  have hi' : i < w := hi
  split
  · simp [hi', *]
  · rw [BitVec.msb_eq_getLsbD_last]
    have : n - 1 < n := by omega
    simp [hi', BitVec.getLsbD_setWidth, this]

/-- `get` is the signed value of the low `n` bits. -/
theorem I.get_toInt {w n : Nat} (h0 : 0 < n) (h : n < w) (x : BitVec w) : (I.get n x).toInt = Int.bmod x.toNat (2 ^ n) := by
  rw [I.get_eq h0 h, BitVec.toInt_signExtend_of_le (by omega), BitVec.toInt_setWidth]

theorem I.max_toNat {w n : Nat} : (I.max n : BitVec w).toNat = 2 ^ (w - 1 - n) - 1 := by
  unfold I.max
  rw [BitVec.toNat_sshiftRight_of_msb_false intMax_msb, BitVec.toNat_intMax, Nat.shiftRight_eq_div_pow]
  by_cases hn : n ≤ w - 1
  · have h1 : 0 < 2 ^ n := Nat.two_pow_pos _
    have h2 : 0 < 2 ^ (w - 1 - n) := Nat.two_pow_pos _
    have hp : 2 ^ (w - 1) = 2 ^ (w - 1 - n) * 2 ^ n := by rw [← Nat.pow_add]; congr 1; omega
    rw [hp]
    have : 0 < 2 ^ (w - 1 - n) * 2 ^ n := Nat.mul_pos h2 h1
    apply Nat.div_eq_of_lt_le
    · rw [Nat.sub_mul, Nat.one_mul]; omega
    · rw [Nat.sub_add_cancel h2]; omega
  · have h1 : w - 1 - n = 0 := by omega
    rw [h1]
    have : 2 ^ (w - 1) ≤ 2 ^ n := Nat.pow_le_pow_right (by omega) (by omega)
    have h2 : 0 < 2 ^ (w - 1) := Nat.two_pow_pos _
    exact Nat.div_eq_of_lt (by omega)

theorem I.min_toNat {w n : Nat} (h0 : 0 < n) (h : n < w) : (I.min n : BitVec w).toNat = 2 ^ (n - 1) := by
  unfold I.min
  rw [BitVec.toNat_shiftLeft, BitVec.toNat_ofNat, Nat.one_mod_two_pow (by omega), Nat.shiftLeft_eq, Nat.one_mul]
  exact Nat.mod_eq_of_lt (Nat.pow_lt_pow_right (by omega) (by omega))

theorem two_pow_pred {n : Nat} (h : 0 < n) : (2 : Nat) ^ n = 2 * 2 ^ (n - 1) := by
  rw [← Nat.pow_succ']; congr 1; omega

theorem I.get_min {w n : Nat} (h0 : 0 < n) (h : n < w) : (I.get n (I.min n : BitVec w)).toInt = -2 ^ (n - 1) := by
  rw [I.get_toInt h0 h, I.min_toNat h0 h, two_pow_pred h0]
  have : 0 < 2 ^ (n - 1) := Nat.two_pow_pos _
  have e : ((2 ^ (n - 1) : Nat) : Int) = 2 ^ (n - 1) := by simp
  rw [← e]
  generalize (2 : Nat) ^ (n - 1) = k at *
  rw [Int.bmod_def, Int.emod_eq_of_lt (by omega) (by omega)]
  rw [if_neg (by omega)]
  omega

theorem I.get_max {w n : Nat} (h0 : 0 < n) (h : n < w) : (I.get n (I.max n : BitVec w)).toInt =
    if w ≤ 2 * n then 2 ^ (w - 1 - n) - 1 else -1 := by
  rw [I.get_toInt h0 h, I.max_toNat]
  have hp := two_pow_pred h0
  have h1 : 0 < 2 ^ (n - 1) := Nat.two_pow_pos _
  have h2 : 0 < 2 ^ (w - 1 - n) := Nat.two_pow_pos _
  have e : ((2 ^ (w - 1 - n) : Nat) : Int) = 2 ^ (w - 1 - n) := by simp
  split
  · have : 2 ^ (w - 1 - n) ≤ 2 ^ (n - 1) := Nat.pow_le_pow_right (by omega) (by omega)
    rw [← e]
    rw [Int.bmod_def, hp]
    generalize (2 : Nat) ^ (n - 1) = k at *
    generalize (2 : Nat) ^ (w - 1 - n) = l at *
    rw [Int.emod_eq_of_lt (by omega) (by omega)]
    rw [if_pos (by omega)]
    omega
  · have hq : 2 ^ (w - 1 - n) = 2 ^ n * 2 ^ (w - 1 - n - n) := by rw [← Nat.pow_add]; congr 1; omega
    have h3 : 0 < 2 ^ (w - 1 - n - n) := Nat.two_pow_pos _
    have hmod : ((2 ^ (w - 1 - n) - 1 : Nat) : Int) % ((2 ^ n : Nat) : Int) = (2 ^ n - 1 : Nat) := by
      rw [← Int.natCast_emod, hq]
      congr 1
      generalize (2 : Nat) ^ (w - 1 - n - n) = q at *
      obtain ⟨q', rfl⟩ : ∃ q', q = q' + 1 := ⟨q - 1, by omega⟩
      rw [Nat.mul_add, Nat.mul_one]
      have h4 : 0 < 2 ^ n := Nat.two_pow_pos _
      rw [Nat.add_sub_assoc h4, Nat.mul_add_mod, Nat.mod_eq_of_lt (by omega)]
    rw [Int.bmod_def, hmod, hp]
    generalize (2 : Nat) ^ (n - 1) = k at *
    rw [if_neg (by omega)]
    omega

/-- A base integer in the range of `n` bits is the sign extension of its low bits. -/
theorem I.get_of_range {w n : Nat} (h0 : 0 < n) (h : n < w) (v : BitVec w) (h1 : -2 ^ (n - 1) ≤ v.toInt)
    (h2 : v.toInt < 2 ^ (n - 1)) : I.get n v = v := by
  apply BitVec.eq_of_toInt_eq
  rw [I.get_toInt h0 h]
  have hd : ((2 ^ n : Nat) : Int) ∣ (v.toNat : Int) - v.toInt := by
    rw [BitVec.toInt_eq_toNat_cond]
    split
    · simp
    · rw [show (v.toNat : Int) - (v.toNat - (2 ^ w : Nat)) = (2 ^ w : Nat) by omega]
      exact Int.natCast_dvd_natCast.2 (Nat.pow_dvd_pow 2 (by omega))
  have e : ((2 ^ (n - 1) : Nat) : Int) = 2 ^ (n - 1) := by simp
  rw [← e] at h1 h2
  have hb : Int.bmod v.toNat (2 ^ n) = Int.bmod v.toInt (2 ^ n) := by
    rw [show (v.toNat : Int) = v.toInt + (v.toNat - v.toInt) by omega]
    obtain ⟨c, hc⟩ := hd
    rw [hc]
    exact Int.add_mul_bmod_self_left ..
  rw [hb]
  rw [two_pow_pred h0]
  generalize (2 : Nat) ^ (n - 1) = k at *
  rw [Int.bmod_def]
  by_cases hneg : v.toInt < 0
  · have : v.toInt % ((2 * k : Nat) : Int) = v.toInt + (2 * k : Nat) := by
      rw [← Int.add_emod_right]
      exact Int.emod_eq_of_lt (by omega) (by omega)
    rw [this]; split <;> omega
  · rw [Int.emod_eq_of_lt (by omega) (by omega), if_pos (by omega)]

end Verif.Num
