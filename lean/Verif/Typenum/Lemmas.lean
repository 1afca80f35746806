import Verif.Typenum.Spec
/-! Helper lemmas for the type-level naturals. -/
namespace Verif.Typenum
namespace U
open Bit

@[simp] theorem and'_eq (a b : Bit) : and' a b = (a && b) := by cases a <;> rfl
@[simp] theorem or'_eq (a b : Bit) : or' a b = (a || b) := by cases a <;> rfl
@[simp] theorem not'_eq (a : Bit) : not' a = !a := by cases a <;> rfl
@[simp] theorem ternary_eq {α} (c : Bit) (a b : α) : ternary c a b = if c then a else b := by cases c <;> rfl
@[simp] theorem xor'_eq (a b : Bit) : xor' a b = (a ^^ b) := by cases a <;> cases b <;> rfl
@[simp] theorem equals_eq (a b : Bit) : equals a b = (a == b) := by cases a <;> cases b <;> rfl

@[simp] theorem val_term : val term = 0 := rfl
@[simp] theorem val_int (m b) : val (int m b) = 2 * m.val + b.toNat := rfl
@[simp] theorem val_one : val one = 1 := rfl

theorem val_split (t : U) : t.val = 2 * t.msb.val + t.bit.toNat := by cases t <;> simp [msb, bit]

theorem isTerm_iff (t : U) : t.isTerm = true ↔ t.val = 0 := by
  induction t with
  | term => simp [isTerm]
  | int m b ih => cases b <;> simp [isTerm, ih] <;> omega

theorem isTerm_eq (t : U) : t.isTerm = decide (t.val = 0) := by
  rw [Bool.eq_iff_iff, isTerm_iff]; simp

@[simp] theorem val_simplified (t : U) : t.simplified.val = t.val := by
  induction t with
  | term => rfl
  | int m b ih =>
    simp only [simplified, ternary_eq]
    split
    · rename_i h; rw [isTerm_iff] at h; simp [h]
    · simp [ih]

theorem canonical_val_zero {t : U} (h : t.Canonical) (h0 : t.val = 0) : t = term := by
  induction t with
  | term => rfl
  | int m b ih =>
    simp only [val_int] at h0
    have : m = term := ih h.1 (by omega)
    have := h.2 this
    subst this; simp at h0

theorem canonical_int {m : U} {b : Bit} (hm : m.Canonical) (h : 2 * m.val + b.toNat ≠ 0) :
    (int m b).Canonical := by
  refine ⟨hm, ?_⟩
  intro e; subst e; cases b <;> simp_all

@[simp] theorem canonical_simplified (t : U) : t.simplified.Canonical := by
  induction t with
  | term => trivial
  | int m b ih =>
    simp only [simplified, ternary_eq]
    split
    · trivial
    · rename_i h; rw [isTerm_iff] at h
      exact canonical_int ih (by simpa using h)

theorem canonical_ext : ∀ {a b : U}, a.Canonical → b.Canonical → a.val = b.val → a = b
  | term, b, _, hb, h => (canonical_val_zero hb (by simpa using h.symm)).symm
  | int m x, term, ha, _, h => canonical_val_zero ha (by simpa using h)
  | int m x, int n y, ha, hb, h => by
    simp only [val_int] at h
    have hxy : x = y := by
      have := congrArg (· % 2) h
      cases x <;> cases y <;> simp at this ⊢ <;> omega
    subst hxy
    have : m.val = n.val := by omega
    rw [canonical_ext ha.1 hb.1 this]

theorem simplified_of_canonical {t : U} (h : t.Canonical) : t.simplified = t :=
  canonical_ext (canonical_simplified t) h (val_simplified t)

theorem canonical_msb {t : U} (h : t.Canonical) : t.msb.Canonical := by
  cases t with
  | term => trivial
  | int m b => exact h.1

theorem toNat_xor3 (a r c : Bool) :
    2 * (adderCarry a r c).toNat + (adderSum a r c).toNat = a.toNat + r.toNat + c.toNat := by
  cases a <;> cases r <;> cases c <;> rfl

theorem toNat_sub3 (a r c : Bool) :
    a.toNat + 2 * (suberCarry a r c).toNat = r.toNat + c.toNat + (suberSum a r c).toNat := by
  cases a <;> cases r <;> cases c <;> rfl

theorem val_addTermC (a : U) (c : Bit) : (a.addTermC c).val = a.val + c.toNat := by
  induction a generalizing c with
  | term => cases c <;> simp [addTermC]
  | int m b ih =>
    simp only [addTermC, val_int, ih]
    have := toNat_xor3 b false c
    simp at this; omega

@[simp] theorem val_increment (a : U) : a.increment.val = a.val + 1 := by
  simp [increment, val_addTermC]

theorem val_addC (a t : U) (c : Bit) : (a.addC t c).val = a.val + t.val + c.toNat := by
  induction a generalizing t c with
  | term => cases c <;> simp [addC]
  | int m b ih =>
    simp only [addC, val_int, ih]
    have := toNat_xor3 b t.bit c
    have := val_split t
    omega

/-- unsigned.rs:525, literally: `Increment = Self::_Add<UTerm, B1>`. -/
theorem inc_eq_addC (m : U) (b : Bit) : (int m b).increment = (int m b).addC term true := by
  have key : ∀ (a : U) (c : Bit), a.addTermC c = a.addC term c := by
    intro a
    induction a with
    | term => intro c; cases c <;> rfl
    | int m b ih => intro c; simp only [addTermC, addC, ih]; rfl
  exact key _ _

@[simp] theorem val_add (a t : U) : (a.add t).val = a.val + t.val := by simp [add, val_addC]

theorem canonical_addTermC {a : U} (h : a.Canonical) (c : Bit) : (a.addTermC c).Canonical := by
  induction a generalizing c with
  | term => cases c <;> simp [addTermC, Canonical, one]
  | int m b ih =>
    apply canonical_int (ih h.1 _)
    have h1 := val_addTermC m (adderCarry b false c)
    have h2 := toNat_xor3 b false c
    have : (int m b).val ≠ 0 := fun e => by have := canonical_val_zero h e; simp at this
    simp only [val_int] at this; simp only [Bool.toNat_false] at h2
    omega

theorem canonical_increment {a : U} (h : a.Canonical) : a.increment.Canonical := canonical_addTermC h _

theorem canonical_addC {a t : U} (ha : a.Canonical) (ht : t.Canonical) (c : Bit) : (a.addC t c).Canonical := by
  induction a generalizing t c with
  | term => cases c <;> simp [addC, ht, canonical_increment ht]
  | int m b ih =>
    apply canonical_int (ih ha.1 (canonical_msb ht) _)
    have h1 := val_addC m t.msb (adderCarry b t.bit c)
    have h2 := toNat_xor3 b t.bit c
    have : (int m b).val ≠ 0 := fun e => by have := canonical_val_zero ha e; simp at this
    simp only [val_int] at this
    omega

theorem canonical_add {a t : U} (ha : a.Canonical) (ht : t.Canonical) : (a.add t).Canonical :=
  canonical_addC ha ht _

theorem bit_toNat_inj {a b : Bool} : a.toNat = b.toNat ↔ a = b := by cases a <;> cases b <;> simp

theorem equal_iff (a t : U) : a.equal t = true ↔ a.val = t.val := by
  induction a generalizing t with
  | term => simp only [equal, isTerm_iff, val_term]; omega
  | int m b ih =>
    have := val_split t
    simp only [equal, and'_eq, equals_eq, Bool.and_eq_true, beq_iff_eq, ih, val_int]
    constructor
    · rintro ⟨rfl, h⟩; omega
    · intro h
      have hb : b.toNat = t.bit.toNat := by
        have := Bool.toNat_le b; have := Bool.toNat_le t.bit; omega
      exact ⟨bit_toNat_inj.mp hb, by omega⟩

theorem greaterH_iff (a t : U) (h : Bit) :
    a.greaterH t h = true ↔ (a.val > t.val ∨ (a.val = t.val ∧ h = true)) := by
  induction a generalizing t h with
  | term =>
    simp only [greaterH, and'_eq, Bool.and_eq_true, isTerm_iff, val_term]
    constructor
    · rintro ⟨h, e⟩; right; exact ⟨e.symm, h⟩
    · rintro (h' | ⟨e, h⟩)
      · omega
      · exact ⟨h, e.symm⟩
  | int m b ih =>
    have hs := val_split t
    simp only [greaterH, ih, val_int, hs]
    generalize t.msb.val = y
    generalize m.val = x
    generalize t.bit = tb
    cases b <;> cases tb <;> cases h <;> simp <;> omega

theorem greater_iff (a t : U) : a.greater t = true ↔ a.val > t.val := by simp [greater, greaterH_iff]

theorem val_subC (a t : U) (c : Bit) (h : t.val + c.toNat ≤ a.val) :
    (a.subC t c).val = a.val - t.val - c.toNat := by
  induction a generalizing t c with
  | term => simp at h; simp [subC]
  | int m b ih =>
    have hs := val_split t
    have h3 := toNat_sub3 b t.bit c
    simp only [val_int] at h
    have : t.msb.val + (suberCarry b t.bit c).toNat ≤ m.val := by
      have := Bool.toNat_le (suberSum b t.bit c); have := Bool.toNat_le b
      omega
    simp only [subC, val_int, ih _ _ this]
    omega

@[simp] theorem val_absSub (a t : U) : (a.absSub t).val = absDiff a.val t.val := by
  simp only [absSub, val_simplified, ternary_eq, absDiff]
  split
  · rename_i h; rw [greater_iff] at h
    rw [val_subC _ _ _ (by simp; omega)]; simp; omega
  · rename_i h; rw [greater_iff] at h
    rw [val_subC _ _ _ (by simp; omega)]; simp; omega

theorem val_bitAndInner (a t : U) : (a.bitAndInner t).val = a.val &&& t.val := by
  induction a generalizing t with
  | term => simp [bitAndInner]
  | int m b ih =>
    have hs := val_split t
    simp only [bitAndInner, val_int, ih, and'_eq]
    rw [hs]
    apply Nat.eq_of_testBit_eq
    intro i
    cases i with
    | zero => cases b <;> cases t.bit <;> simp [Nat.testBit_zero, Nat.testBit_and, Nat.add_mod]
    | succ i =>
      have e : ∀ (x : Nat) (z : Bool), (2 * x + z.toNat).testBit (i+1) = x.testBit i := by
        intro x z
        rw [Nat.testBit_succ]; congr 1; have := Bool.toNat_le z; omega
      rw [e, Nat.testBit_and, Nat.testBit_and, e, e]

theorem val_bitOrInner (a t : U) : (a.bitOrInner t).val = a.val ||| t.val := by
  induction a generalizing t with
  | term => simp [bitOrInner]
  | int m b ih =>
    have hs := val_split t
    simp only [bitOrInner, val_int, ih, or'_eq]
    rw [hs]
    apply Nat.eq_of_testBit_eq
    intro i
    cases i with
    | zero => cases b <;> cases t.bit <;> simp [Nat.testBit_zero, Nat.testBit_or, Nat.add_mod]
    | succ i =>
      have e : ∀ (x : Nat) (z : Bool), (2 * x + z.toNat).testBit (i+1) = x.testBit i := by
        intro x z
        rw [Nat.testBit_succ]; congr 1; have := Bool.toNat_le z; omega
      rw [e, Nat.testBit_or, Nat.testBit_or, e, e]

theorem val_truncateInner (a t : U) : (a.truncateInner t).val = a.val % 2 ^ t.val := by
  induction a generalizing t with
  | term => simp [truncateInner]
  | int m b ih =>
    simp only [truncateInner, ternary_eq]
    split
    · rename_i h; rw [isTerm_iff] at h; simp [h, Nat.mod_one]
    · rename_i h; rw [isTerm_iff] at h
      obtain ⟨n, hn⟩ : ∃ n, t.val = n + 1 := ⟨t.val - 1, by omega⟩
      simp only [val_int, ih, val_absSub, hn, val_one]
      have : absDiff (n+1) 1 = n := by unfold absDiff; split <;> omega
      rw [this, Nat.pow_succ, Nat.mul_comm (2^n) 2, Nat.mod_mul]
      have := Bool.toNat_le b
      have e1 : (2 * m.val + b.toNat) % 2 = b.toNat := by omega
      have e2 : (2 * m.val + b.toNat) / 2 = m.val := by omega
      rw [e1, e2]; omega

theorem val_satDecrement {a : U} (h : a.Canonical) : a.satDecrement.val = a.val - 1 := by
  induction a with
  | term => rfl
  | int m b ih =>
    simp only [satDecrement, val_simplified, ternary_eq]
    cases b with
    | true => simp
    | false =>
      have hm : m.val ≠ 0 := by
        intro e
        have := h.2 (canonical_val_zero h.1 e); simp at this
      simp [ih h.1]; omega

theorem val_nextPow2 (a : U) : a.nextPow2.val = if a.val = 0 then 0 else a.val.log2 + 1 := by
  induction a with
  | term => rfl
  | int m b ih =>
    have hi : (ternary (isTerm (int m b)) term one).val = if (int m b).val = 0 then 0 else 1 := by
      have h := isTerm_iff (int m b)
      cases hx : isTerm (int m b) <;> simp [hx] at h ⊢ <;> assumption
    simp only [nextPow2, val_add, ih, hi]
    have hv : (int m b).val = 2 * m.val + b.toNat := rfl
    have := Bool.toNat_le b
    generalize (int m b).val = v at *
    by_cases hm : m.val = 0
    · have : v = 0 ∨ v = 1 := by omega
      rcases this with h | h <;> simp [hm, h]; decide
    · have h0 : ¬ v = 0 := by omega
      rw [if_neg hm, if_neg h0, if_neg h0]
      have hl : v.log2 = m.val.log2 + 1 := by
        rw [Nat.log2_def, if_pos (by omega)]
        congr 2; omega
      omega

theorem val_mul (a t : U) : (a.mul t).val = a.val * t.val := by
  induction a with
  | term => simp [mul]
  | int m b ih =>
    simp only [mul, val_add, ternary_eq, val_simplified, val_int, ih]
    cases b <;> simp <;> grind

theorem canonical_mul {t : U} (a : U) (ht : t.Canonical) : (a.mul t).Canonical := by
  cases a with
  | term => trivial
  | int m b =>
    simp only [mul, ternary_eq]
    apply canonical_add
    · split
      · exact ht
      · trivial
    · exact canonical_simplified _

theorem truncAtRightmostOne_spec (a : U) :
    (a.val = 0 → a.truncAtRightmostOne = none) ∧
    (a.val ≠ 0 → ∃ r k, a.truncAtRightmostOne = some r ∧ r.Canonical ∧ r.val = 2 ^ k ∧
      a.val.testBit k = true ∧ ∀ j < k, a.val.testBit j = false) := by
  induction a with
  | term => simp [truncAtRightmostOne]
  | int m b ih =>
    simp only [truncAtRightmostOne, ternary_eq]
    have e : ∀ (i : Nat) (z : Bool), (2 * m.val + z.toNat).testBit (i+1) = m.val.testBit i := by
      intro i z
      rw [Nat.testBit_succ]; congr 1; have := Bool.toNat_le z; omega
    cases b with
    | true =>
      simp only [val_int, Bool.toNat_true, ↓reduceIte]
      refine ⟨by omega, fun _ => ⟨one, 0, rfl, ⟨trivial, fun _ => rfl⟩, rfl, ?_, by simp⟩⟩
      simp [Nat.testBit_zero]
    | false =>
      simp only [val_int, Bool.toNat_false, Nat.add_zero, Bool.false_eq_true, ↓reduceIte]
      refine ⟨fun h => by rw [ih.1 (by omega)]; rfl, fun h => ?_⟩
      obtain ⟨r, k, h1, h2, h3, h4, h5⟩ := ih.2 (by omega)
      have ef := fun i => e i false
      simp only [Bool.toNat_false, Nat.add_zero] at ef
      refine ⟨int r false, k+1, by rw [h1]; rfl, ?_, ?_, ?_, ?_⟩
      · apply canonical_int h2; rw [h3]; have := Nat.two_pow_pos k; simp; omega
      · simp [h3, Nat.pow_succ]; omega
      · rw [ef]; exact h4
      · intro j hj
        cases j with
        | zero => simp [Nat.testBit_zero]
        | succ j => rw [ef]; exact h5 j (by omega)

theorem isPow2_spec {a : U} (h : a.isPow2 = true) : a.val = 2 ^ a.log2.val := by
  induction a with
  | term => simp [isPow2] at h
  | int m b ih =>
    cases b with
    | true => simp [isPow2, isTerm_iff] at h; simp [log2, h]
    | false =>
      simp only [isPow2] at h
      simp [log2, ih h, Nat.pow_succ]; omega

theorem isPow2_of_val {a : U} {k : Nat} (h : a.val = 2 ^ k) : a.isPow2 = true := by
  induction a generalizing k with
  | term => have := Nat.two_pow_pos k; simp at h; omega
  | int m b ih =>
    cases b with
    | true =>
      simp at h
      cases k with
      | zero => simp [isPow2, isTerm_iff]; simp at h; omega
      | succ k => rw [Nat.pow_succ] at h; omega
    | false =>
      simp at h
      cases k with
      | zero => simp at h; omega
      | succ k => rw [Nat.pow_succ] at h; simp only [isPow2]; exact ih (k := k) (by omega)

theorem val_modulate {p : U} (h : p.isPow2 = true) (t : U) : (p.modulate t).val = t.val % p.val := by
  induction p generalizing t with
  | term => simp [isPow2] at h
  | int m b ih =>
    cases b with
    | true => simp [isPow2, isTerm_iff] at h; simp [modulate, h, Nat.mod_one]
    | false =>
      simp only [isPow2] at h
      simp only [modulate, val_simplified, val_int, ih h]
      have hs := val_split t
      rw [hs, Bool.toNat_false, Nat.add_zero, Nat.mod_mul]
      have := Bool.toNat_le t.bit
      have e1 : (2 * t.msb.val + t.bit.toNat) % 2 = t.bit.toNat := by omega
      have e2 : (2 * t.msb.val + t.bit.toNat) / 2 = t.msb.val := by omega
      rw [e1, e2]; omega

theorem canonical_modulate (p t : U) : (p.modulate t).Canonical := by
  cases p with
  | term => trivial
  | int m b => cases b with
    | true => trivial
    | false => exact canonical_simplified _

theorem val_divide {p : U} (h : p.isPow2 = true) (t : U) : (p.divide t).val = t.val / p.val := by
  induction p generalizing t with
  | term => simp [isPow2] at h
  | int m b ih =>
    cases b with
    | true => simp [isPow2, isTerm_iff] at h; simp [divide, h]
    | false =>
      simp only [isPow2] at h
      simp only [divide, val_int, ih h]
      have hs := val_split t
      rw [hs, Bool.toNat_false, Nat.add_zero, ← Nat.div_div_eq_div_mul]
      congr 1
      have := Bool.toNat_le t.bit
      omega

theorem canonical_divide (p : U) {t : U} (ht : t.Canonical) : (p.divide t).Canonical := by
  induction p generalizing t with
  | term => exact ht
  | int m b ih => cases b with
    | true => exact ht
    | false => exact ih (canonical_msb ht)

theorem canonical_nextMultipleOf {a t : U} (ha : a.Canonical) : (a.nextMultipleOf t).Canonical := by
  simp only [nextMultipleOf, ternary_eq]
  split
  · exact ha
  · exact canonical_add ha (canonical_simplified _)

theorem val_nextMultipleOf {t : U} (ht : t.isPow2 = true) (a : U) :
    (a.nextMultipleOf t).val = if a.val % t.val = 0 then a.val else a.val + (t.val - a.val % t.val) := by
  have hp : 0 < t.val := by rw [isPow2_spec ht]; exact Nat.two_pow_pos _
  simp only [nextMultipleOf, ternary_eq, mod, equal_iff, val_modulate ht, val_term]
  split
  · rfl
  · rename_i h
    have := Nat.mod_lt a.val hp
    simp only [val_add, val_absSub, val_modulate ht, absDiff]
    rw [if_neg (by omega)]

theorem canonical_nextPow2 (a : U) : a.nextPow2.Canonical := by
  induction a with
  | term => trivial
  | int m b ih =>
    simp only [nextPow2, ternary_eq]
    apply canonical_add ih
    split <;> simp [Canonical, one]

theorem canonical_log2 (a : U) : a.log2.Canonical := by
  induction a with
  | term => trivial
  | int m b ih => cases b with
    | true => trivial
    | false => exact canonical_increment ih

theorem bitsOfFuel_fold (f i : Nat) (hf : i ≤ f) :
    ((bitsOfFuel f i).reverse.foldl (fun r b => int r b) term).val = i ∧
    ((bitsOfFuel f i).reverse.foldl (fun r b => int r b) term).Canonical := by
  induction f generalizing i with
  | zero => obtain rfl : i = 0 := by omega
            exact ⟨rfl, trivial⟩
  | succ f ih =>
    rw [bitsOfFuel]
    split
    · rename_i h; subst h; exact ⟨rfl, trivial⟩
    · rename_i h
      obtain ⟨h1, h2⟩ := ih (i/2) (by omega)
      simp only [List.reverse_cons, List.foldl_append, List.foldl_cons, List.foldl_nil, val_int, h1]
      have hb : (i % 2 == 1).toNat = i % 2 := by
        rcases Nat.mod_two_eq_zero_or_one i with h | h <;> simp [h]
      refine ⟨by omega, canonical_int h2 ?_⟩
      rw [h1, hb]; omega

theorem bitsOf_fold (i : Nat) : (ofNat i).val = i ∧ (ofNat i).Canonical := bitsOfFuel_fold i i (Nat.le_refl i)

end U
end Verif.Typenum
