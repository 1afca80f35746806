import Verif.Num.Lemmas

/-! Properties C33, C34, C35.  `w` is the width of the base integer, `n` the number of bits of the type. -/
namespace Verif.Props.Num
open Verif.Num

/-! ### C33: `u1` .. `u127` -/

/-- `new` accepts exactly the values below `2^n` and keeps them. -/
theorem C33_new {w n : Nat} (h : n < w) (v : BitVec w) :
    (v.toNat < 2 ^ n → ∃ x, U.new n v = some x ∧ U.get n x = v) ∧ (2 ^ n ≤ v.toNat → U.new n v = none) := by
  constructor
  · intro hv
    refine ⟨v, by rw [U.new, if_pos ((U.le_mask (Nat.le_of_lt h) v).2 hv)], BitVec.eq_of_toNat_eq ?_⟩
    rw [U.get_toNat (Nat.le_of_lt h), Nat.mod_eq_of_lt hv]
  · intro hv
    rw [U.new, if_neg]
    rw [U.le_mask (Nat.le_of_lt h)]; omega

/-- `get` reads the low `n` bits, whatever the others are. -/
theorem C33_get {w n : Nat} (h : n < w) (raw : BitVec w) : (U.get n raw).toNat = raw.toNat % 2 ^ n :=
  U.get_toNat (Nat.le_of_lt h) raw

/-- `MIN` and `MAX` are the bounds. -/
theorem C33_bounds {w n : Nat} (h : n < w) :
    (U.get n (U.max n : BitVec w)).toNat = 2 ^ n - 1 ∧ (U.get n (U.min : BitVec w)).toNat = 0 := by
  have hp : 0 < 2 ^ n := Nat.two_pow_pos _
  constructor
  · rw [C33_get h, U.max, U.mask_toNat (Nat.le_of_lt h)]; exact Nat.mod_eq_of_lt (by omega)
  · rw [C33_get h]; simp [U.min]

/-- `+` never reaches the undefined behaviour of `unwrap_unchecked` and is exact, for any content of the unused bits. -/
theorem C33_add {w n : Nat} (h : n < w) (a b : BitVec w) :
    ∃ r, U.add n a b = some r ∧ r.toNat = (U.get n a).toNat + (U.get n b).toNat := by
  have hp : 0 < 2 ^ n := Nat.two_pow_pos _
  have h1 := Nat.mod_lt a.toNat hp
  have h2 := Nat.mod_lt b.toNat hp
  rw [← C33_get h] at h1 h2
  have h3 : 2 ^ (n + 1) ≤ 2 ^ w := Nat.pow_le_pow_right (by omega) h
  rw [Nat.pow_succ] at h3
  have hlt : (U.get n a).toNat + (U.get n b).toNat < 2 ^ w := by omega
  exact ⟨_, by rw [U.add, U.checkedAdd, if_pos hlt], by rw [BitVec.toNat_add, Nat.mod_eq_of_lt hlt]⟩

/-- `-` is exact when it does not underflow. -/
theorem C33_sub {w n : Nat} (h : n < w) (a b : BitVec w) (hle : (U.get n b).toNat ≤ (U.get n a).toNat) :
    (U.get n (U.sub n a b)).toNat = (U.get n a).toNat - (U.get n b).toNat := by
  have hp : 0 < 2 ^ n := Nat.two_pow_pos _
  have h1 := Nat.mod_lt a.toNat hp
  rw [← C33_get h] at h1
  rw [C33_get h, U.sub, BitVec.toNat_sub_of_le hle]
  exact Nat.mod_eq_of_lt (by omega)

/-- `&` and `|` act on the represented numbers. -/
theorem C33_bit_ops {w n : Nat} (h : n < w) (a b : BitVec w) :
    U.get n (U.bitand a b) = U.get n a &&& U.get n b ∧ U.get n (U.bitor a b) = U.get n a ||| U.get n b ∧
      U.get n (U.bitand a b) = U.get n a &&& b ∧ U.bitorBase n a b = U.get n a ||| b := by
  refine ⟨?_, ?_, ?_, rfl⟩ <;> apply BitVec.eq_of_getLsbD_eq <;> intro i _ <;>
    simp only [U.get, U.bitand, U.bitor, BitVec.getLsbD_and, BitVec.getLsbD_or] <;>
    cases a.getLsbD i <;> cases b.getLsbD i <;> cases (U.mask n : BitVec w).getLsbD i <;> rfl

/-- Equality, order and formatting agree with the represented numbers, for all values built by constructors and operators without
overflow.  What is missing: wrapped subtractions, see `C33_eq_refuted`. -/
theorem C33_eq_ord_partial {w n : Nat} (h : n < w) (a b : BitVec w) (ha : U.Made n a) (hb : U.Made n b) :
    (U.eq a b = true ↔ U.get n a = U.get n b) ∧ U.cmp a b = compare (U.get n a).toNat (U.get n b).toNat ∧
      U.shown a = U.get n a := by
  have e1 : U.get n a = a := BitVec.eq_of_toNat_eq (by rw [C33_get h, Nat.mod_eq_of_lt (U.made_lt (Nat.le_of_lt h) ha)])
  have e2 : U.get n b = b := BitVec.eq_of_toNat_eq (by rw [C33_get h, Nat.mod_eq_of_lt (U.made_lt (Nat.le_of_lt h) hb)])
  rw [e1, e2]
  exact ⟨by simp [U.eq], rfl, rfl⟩

/-- `u6`: 40 + 30 and 5 - 3, with garbage in the high bits. -/
example : U.add 6 (0b11101000#8) (0b10011110#8) = some 70 ∧ U.get 6 (U.sub 6 (0b11000101#8) 3#8) = 2 := by decide
example : U.Made 6 (U.sub 6 5#8 3#8) := .sub (.new (v := 5) (by decide)) (.new (v := 3) (by decide)) (by decide)

/-- Without overflow checks, `u6::MIN - u6(1)` has the value 63 of `u6::MAX`, but is neither equal to it nor ordered or
printed as it. -/
theorem C33_eq_refuted : let x := U.sub 6 (U.min : BitVec 8) 1#8
    U.get 6 x = U.get 6 (U.max 6) ∧ U.eq x (U.max 6) = false ∧ U.cmp x (U.max 6) = .gt ∧ (U.shown x).toNat = 255 := by
  decide

/-- Every subtraction that wraps, of every type, makes a value that is neither equal to the one that `new` makes of the same number nor ordered or printed
as it. -/
theorem C33_wrap_refuted {w n : Nat} (h : n < w) (a b : BitVec w) (hlt : (U.get n a).toNat < (U.get n b).toNat) :
    let x := U.sub n a b
    (U.get n x).toNat = (U.get n a).toNat + 2 ^ n - (U.get n b).toNat ∧ U.new n (U.get n x) = some (U.get n x) ∧
      U.get n (U.get n x) = U.get n x ∧ U.eq x (U.get n x) = false ∧ U.cmp x (U.get n x) = .gt ∧ U.shown x ≠ U.get n x := by
  intro x
  have hp : 0 < 2 ^ n := Nat.two_pow_pos _
  have h1 := Nat.mod_lt a.toNat hp
  have h2 := Nat.mod_lt b.toNat hp
  rw [← C33_get h] at h1 h2
  have hw : (2 : Nat) ^ (n + 1) ≤ 2 ^ w := Nat.pow_le_pow_right (by omega) h
  rw [Nat.pow_succ] at hw
  have hx : x.toNat = (U.get n a).toNat + 2 ^ w - (U.get n b).toNat := by
    show (U.get n a - U.get n b).toNat = _
    rw [BitVec.toNat_sub]
    have := (U.get n a).isLt
    have := (U.get n b).isLt
    rw [Nat.mod_eq_of_lt (by omega)]
    omega
  have hd : (2 : Nat) ^ w = 2 ^ n * 2 ^ (w - n) := by rw [← Nat.pow_add]; congr 1; omega
  have hg : (U.get n x).toNat = (U.get n a).toNat + 2 ^ n - (U.get n b).toNat := by
    rw [C33_get h, hx]
    have hq : 1 ≤ 2 ^ (w - n) := Nat.two_pow_pos _
    obtain ⟨q, hq'⟩ : ∃ q, 2 ^ (w - n) = q + 1 := ⟨2 ^ (w - n) - 1, by omega⟩
    rw [hd, hq', Nat.mul_succ]
    rw [show (U.get n a).toNat + (2 ^ n * q + 2 ^ n) - (U.get n b).toNat = ((U.get n a).toNat + 2 ^ n - (U.get n b).toNat) + 2 ^ n * q by omega,
      Nat.add_mul_mod_self_left, Nat.mod_eq_of_lt (by omega)]
  have hne : x.toNat > (U.get n x).toNat := by rw [hx, hg]; omega
  have hne' : x ≠ U.get n x := fun e => by rw [← e] at hne; omega
  have hgg : U.get n (U.get n x) = U.get n x := BitVec.eq_of_toNat_eq (by rw [C33_get h]; exact Nat.mod_eq_of_lt (by rw [hg]; omega))
  refine ⟨hg, ?_, hgg, by simpa [U.eq] using hne', Nat.compare_eq_gt.2 hne, hne'⟩
  rw [U.new, if_pos ((U.le_mask (Nat.le_of_lt h) _).2 (by rw [hg]; omega))]

example : (U.get 6 (3 : BitVec 8)).toNat < (U.get 6 (5 : BitVec 8)).toNat := by decide

/-! ### C34: `i1` .. `i127` -/

/-- `get` reads the low `n` bits as a two's complement number, whatever the others are. -/
theorem C34_get {w n : Nat} (h0 : 0 < n) (h : n < w) (raw : BitVec w) :
    (I.get n raw).toInt = (raw.setWidth n).toInt := by
  rw [I.get_toInt h0 h, BitVec.toInt_setWidth]

/-- `MIN` is the lower bound. -/
theorem C34_min {w n : Nat} (h0 : 0 < n) (h : n < w) : (I.get n (I.min n : BitVec w)).toInt = -2 ^ (n - 1) :=
  I.get_min h0 h

/-- `MAX` is the upper bound exactly for the types whose width is half the one of their base. -/
theorem C34_max_iff {w n : Nat} (h0 : 0 < n) (h : n < w) :
    (I.get n (I.max n : BitVec w)).toInt = 2 ^ (n - 1) - 1 ↔ w = 2 * n := by
  rw [I.get_max h0 h]
  split
  · constructor
    · intro he
      have he' : (2 : Int) ^ (w - 1 - n) = 2 ^ (n - 1) := by omega
      have he2 : (2 : Nat) ^ (w - 1 - n) = 2 ^ (n - 1) := by exact_mod_cast he'
      have := (Nat.pow_right_inj (by omega)).1 he2
      omega
    · intro he
      rw [show w - 1 - n = n - 1 by omega]
  · have : (0 : Int) < 2 ^ (n - 1) := Int.pow_pos (by omega)
    constructor <;> intro he <;> omega

/-- The upper bound is wrong: the largest `i6` is 1, and the only `i3` are negative. -/
theorem C34_max_refuted : (I.get 6 (I.max 6 : BitVec 8)).toInt = 1 ∧ I.new 6 (2#8) = none ∧
    (I.get 3 (I.max 3 : BitVec 8)).toInt = -1 ∧ I.new 3 (0#8) = none := by decide

/-- `new` accepts exactly the values between `MIN` and `MAX` and keeps them.  What is missing: `MAX` is not
`2^(n-1) - 1`, except for half-width types. -/
theorem C34_new_partial {w n : Nat} (h0 : 0 < n) (h : n < w) (v : BitVec w) :
    ((-2 ^ (n - 1) ≤ v.toInt ∧ v.toInt ≤ (I.get n (I.max n : BitVec w)).toInt) → ∃ x, I.new n v = some x ∧ I.get n x = v) ∧
    (¬ (-2 ^ (n - 1) ≤ v.toInt ∧ v.toInt ≤ (I.get n (I.max n : BitVec w)).toInt) → I.new n v = none) := by
  have hmin := C34_min (w := w) h0 h
  have hp : (0 : Int) < 2 ^ (n - 1) := Int.pow_pos (by omega)
  constructor
  · rintro ⟨h1, h2⟩
    refine ⟨v, by rw [I.new, if_pos ⟨h2, by rw [hmin]; exact h1⟩], I.get_of_range h0 h v h1 ?_⟩
    have hm := I.get_max (w := w) h0 h
    split at hm
    · have : (2 : Nat) ^ (w - 1 - n) ≤ 2 ^ (n - 1) := Nat.pow_le_pow_right (by omega) (by omega)
      have : (2 : Int) ^ (w - 1 - n) ≤ 2 ^ (n - 1) := by exact_mod_cast this
      omega
    · omega
  · intro hn
    rw [I.new, if_neg]
    rw [hmin]; omega

/-- The half-width types (`i4`, and `i8`-, `i16`-, `i32`-, `i64`-sized ones if they existed) are exact. -/
theorem C34_half_width {n : Nat} (h0 : 0 < n) (v : BitVec (2 * n)) :
    (∃ x, I.new n v = some x ∧ I.get n x = v) ↔ -2 ^ (n - 1) ≤ v.toInt ∧ v.toInt ≤ 2 ^ (n - 1) - 1 := by
  have hm := (C34_max_iff (w := 2 * n) h0 (by omega)).2 rfl
  have := C34_new_partial (w := 2 * n) h0 (by omega) v
  rw [hm] at this
  constructor
  · rintro ⟨x, hx, _⟩
    refine Classical.byContradiction fun hn => ?_
    rw [this.2 hn] at hx; cases hx
  · exact this.1

example : I.new 4 (7#8) = some 7#8 ∧ I.get 4 (0b11111001#8) = (-7 : BitVec 8) ∧ I.get 4 (0b00001001#8) = (-7 : BitVec 8) := by
  decide

/-- `&` and `|` act on the represented numbers. -/
theorem C34_bit_ops {w n : Nat} (h0 : 0 < n) (h : n < w) (a b : BitVec w) :
    I.get n (I.bitand a b) = I.get n a &&& I.get n b ∧ I.get n (I.bitor a b) = I.get n a ||| I.get n b := by
  simp only [I.get_eq h0 h, I.bitand, I.bitor, BitVec.setWidth_and, BitVec.signExtend_and, BitVec.setWidth_or, BitVec.signExtend_or, and_self]
example : I.get 6 (I.bitand (-5 : BitVec 8) 1) = 1 ∧ I.get 6 (I.bitor (-32 : BitVec 8) 1) = -31 := by decide

/-- What the values built by `new` and the operators contain is the number they represent. -/
theorem I.made_get {w n : Nat} (h0 : 0 < n) (h : n < w) {a : BitVec w} (ha : I.Made n a) : I.get n a = a := by
  induction ha with
  | default =>
    rw [I.get_eq h0 h]
    apply BitVec.eq_of_toInt_eq
    rw [BitVec.toInt_signExtend_of_le (by omega)]
    simp
  | @new u a hu =>
    have h1 := C34_new_partial h0 h u
    by_cases hc : -2 ^ (n - 1) ≤ u.toInt ∧ u.toInt ≤ (I.get n (I.max n : BitVec w)).toInt
    · obtain ⟨x, hx, hg⟩ := h1.1 hc
      rw [I.new] at hu
      split at hu
      · cases hu
        rw [I.new, if_pos ‹_›] at hx
        cases hx
        exact hg
      · cases hu
    · rw [h1.2 hc] at hu; cases hu
  | bitand _ _ ih1 ih2 => rw [(C34_bit_ops h0 h _ _).1, ih1, ih2]; rfl
  | bitor _ _ ih1 ih2 => rw [(C34_bit_ops h0 h _ _).2, ih1, ih2]; rfl

/-- Equality, order and formatting agree with the represented number for the values built from `new` with the operators of the
type.  What is missing: `MIN` (see `C34_min_eq_refuted`) and `&` with a base integer (see `C34_bitand_base_refuted`). -/
theorem C34_eq_ord_partial {w n : Nat} (h0 : 0 < n) (h : n < w) (a b : BitVec w) (ha : I.Made n a) (hb : I.Made n b) :
    (I.eq a b = true ↔ I.get n a = I.get n b) ∧ I.cmp a b = compare (I.get n a).toInt (I.get n b).toInt ∧
      I.shown a = I.get n a := by
  rw [I.made_get h0 h ha, I.made_get h0 h hb]
  exact ⟨by simp [I.eq], rfl, rfl⟩
example : I.Made 6 (I.bitor (-5 : BitVec 8) 1) := .bitor (.new (v := -5) (by decide)) (.new (v := 1) (by decide))

/-- `i6(-1) & 0x3f` represents -1, but differs from it, is ordered above it and prints as 63. -/
theorem C34_bitand_base_refuted : ∃ x, I.new 6 (-1 : BitVec 8) = some x ∧ I.get 6 (I.bitand x 0x3f#8) = I.get 6 x ∧
    I.eq (I.bitand x 0x3f#8) x = false ∧ I.cmp (I.bitand x 0x3f#8) x = .gt ∧ (I.shown (I.bitand x 0x3f#8)).toInt = 63 :=
  ⟨-1, by decide⟩

example : I.new 6 (-5 : BitVec 8) = some (-5) ∧ I.new 6 (1 : BitVec 8) = some 1 := by decide

/-- `MIN` is not equal to the same number built by `new`, is ordered above zero and prints as a positive number. -/
theorem C34_min_eq_refuted : ∃ x, I.new 6 (-32 : BitVec 8) = some x ∧ I.get 6 x = I.get 6 (I.min 6) ∧
    I.eq x (I.min 6) = false ∧ I.cmp (I.min 6 : BitVec 8) 0#8 = .gt ∧ (I.shown (I.min 6 : BitVec 8)).toInt = 32 :=
  ⟨-32, by decide⟩

/-- ... in every one of these types. -/
theorem C34_min_eq_all_refuted {w n : Nat} (h0 : 0 < n) (h : n < w) : ∃ x : BitVec w, I.new n x = some x ∧ I.get n x = I.get n (I.min n) ∧
    I.eq x (I.min n) = false ∧ I.cmp (I.min n : BitVec w) 0#w = .gt ∧ (I.shown (I.min n : BitVec w)).toInt = 2 ^ (n - 1) := by
  have hp : 0 < 2 ^ (n - 1) := Nat.two_pow_pos _
  have e : ((2 ^ (n - 1) : Nat) : Int) = 2 ^ (n - 1) := by simp
  have hx := C34_min (w := w) h0 h
  have hm : (I.min n : BitVec w).toInt = 2 ^ (n - 1) := by
    have h1 := I.min_toNat (w := w) h0 h
    have h2 : (2 : Nat) ^ n ≤ 2 ^ (w - 1) := Nat.pow_le_pow_right (by omega) (by omega)
    have h3 := two_pow_pred h0
    have h4 : (2 : Nat) ^ w = 2 * 2 ^ (w - 1) := two_pow_pred (by omega)
    rw [BitVec.toInt_eq_toNat_of_lt (by omega), h1, e]
  have hgx := I.get_of_range h0 h (I.get n (I.min n : BitVec w)) (by rw [hx]; omega) (by rw [hx]; omega)
  refine ⟨I.get n (I.min n), ?_, hgx, ?_, ?_, hm⟩
  · rw [I.new, if_pos]
    refine ⟨?_, Int.le_refl _⟩
    rw [hx, I.get_max h0 h]
    have : (0 : Int) < 2 ^ (w - 1 - n) := Int.pow_pos (by omega)
    split <;> omega
  · have : I.get n (I.min n : BitVec w) ≠ I.min n := fun e' => by rw [e'] at hx; omega
    simpa [I.eq] using this
  · rw [I.cmp, hm, BitVec.toInt_zero]
    exact Int.compare_eq_gt.2 (by omega)
example : I.new 6 (-32 : BitVec 8) = some (-32) ∧ (I.min 6 : BitVec 8) = 32 := by decide

/-! ### C35 -/

theorem nonZero_new {w} (v : BitVec w) : (v = 0#w ∧ NonZero.new v = none) ∨ ∃ h : v ≠ 0#w, NonZero.new v = some ⟨v, h⟩ := by
  by_cases h : v = 0#w
  · exact .inl ⟨h, by simp [NonZero.new, h]⟩
  · exact .inr ⟨h, by simp [NonZero.new, h]⟩

/-- `NonMax::new` refuses exactly the largest integer; `get` gives back the value; the stored image is never zero. -/
theorem C35_non_max {w : Nat} (v : BitVec w) :
    (v = BitVec.allOnes w → NonMax.new v = none) ∧
    (v ≠ BitVec.allOnes w → ∃ x, NonMax.new v = some x ∧ NonMax.get x = v ∧ x.val ≠ 0#w) := by
  have hz : ~~~v = 0#w ↔ v = BitVec.allOnes w := by
    constructor
    · intro h; rw [← BitVec.not_not (b := v), h, BitVec.not_zero]
    · intro h; rw [h, BitVec.not_allOnes]
  rcases nonZero_new (~~~v) with ⟨h0, h1⟩ | ⟨h0, h1⟩
  · exact ⟨fun _ => by rw [NonMax.new, h1], fun h => absurd (hz.1 h0) h⟩
  · exact ⟨fun h => absurd (hz.2 h) h0, fun _ => ⟨_, by rw [NonMax.new, h1], by simp [NonMax.get], h0⟩⟩

/-- Equality, order and hash of `NonMax` are the ones of the integer. -/
theorem C35_non_max_ops {w : Nat} (a b : NonZero w) :
    (NonMax.eq a b = true ↔ NonMax.get a = NonMax.get b) ∧
    NonMax.cmp a b = compare (NonMax.get a).toNat (NonMax.get b).toNat ∧ (NonMax.cmp a b = .eq ↔ NonMax.eq a b = true) ∧
    (NonMax.eq a b = true ↔ NonMax.hashed a = NonMax.hashed b) := by
  have h1 : NonMax.eq a b = true ↔ NonMax.get a = NonMax.get b := by
    simp [NonMax.eq, NonMax.get]
  refine ⟨h1, rfl, ?_, h1⟩
  rw [h1, NonMax.cmp, Nat.compare_eq_eq]
  exact ⟨fun h => BitVec.eq_of_toNat_eq h, fun h => by rw [h]⟩

/-- `NonX::<F>::new` refuses exactly `F`; `get` gives back the value; the stored image is never zero. -/
theorem C35_non_x {w : Nat} (f v : BitVec w) :
    (v = f → NonX.new f v = none) ∧
    (v ≠ f → ∃ x, NonX.new f v = some x ∧ NonX.get f x = v ∧ x.val ≠ 0#w) := by
  have hz : v - f = 0#w ↔ v = f := by
    constructor
    · intro h
      have := congrArg (· + f) h
      simpa [BitVec.sub_add_cancel] using this
    · intro h; rw [h, BitVec.sub_self]
  rcases nonZero_new (v - f) with ⟨h0, h1⟩ | ⟨h0, h1⟩
  · exact ⟨fun _ => by rw [NonX.new, h1], fun h => absurd (hz.1 h0) h⟩
  · exact ⟨fun h => absurd (hz.2 h) h0, fun _ => ⟨_, by rw [NonX.new, h1], by simp [NonX.get, BitVec.sub_add_cancel], h0⟩⟩

/-- Equality, order (unsigned and signed) and hash of `NonX` are the ones of the integer. -/
theorem C35_non_x_ops {w : Nat} (f : BitVec w) (a b : NonZero w) :
    (NonX.eq a b = true ↔ NonX.get f a = NonX.get f b) ∧
    NonX.cmpU f a b = compare (NonX.get f a).toNat (NonX.get f b).toNat ∧
    NonX.cmpI f a b = compare (NonX.get f a).toInt (NonX.get f b).toInt ∧
    (NonX.eq a b = true ↔ NonX.hashed f a = NonX.hashed f b) := by
  have h1 : NonX.eq a b = true ↔ NonX.get f a = NonX.get f b := by
    simp only [NonX.eq, NonX.get, beq_iff_eq]
    constructor
    · intro h; rw [h]
    · intro h
      have := congrArg (· - f) h
      simpa [BitVec.add_sub_cancel] using this
  exact ⟨h1, rfl, rfl, h1⟩

/-- `NonXI8::<72>` holds -128 and refuses 72. -/
example : (NonX.new (72 : BitVec 8) (-128)).map (NonX.get 72) = some (-128) ∧ (NonX.new (72 : BitVec 8) 72).isNone := by decide
/-- `NonMaxU8` holds 254 as `NonZero(1)`. -/
example : (NonMax.new (254 : BitVec 8)).map (·.val) = some 1 ∧ (NonMax.new (255 : BitVec 8)).isNone := by decide

end Verif.Props.Num
