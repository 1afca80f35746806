import Verif.Typenum.Failure
import Verif.Typenum.Lemmas

/-! C92: a type-level computation that failed stays failed. -/
namespace Verif.Props.Failure
open Verif.Typenum

/-- A number that cannot be used: its constants panic. -/
def Failed (a : S) : Prop := a.value = none

/-! ### Numbers without `Saturator` -/

theorem of_value (a : U) : (S.of a).value = some a.val := by
  induction a with
  | term => rfl
  | int m b ih =>
    simp only [S.of, S.value, ih, Option.map_some, U.val]
    try (cases b <;> simp <;> omega)

theorem of_bit (a : U) : (S.of a).bit = a.bit := by cases a <;> rfl
theorem of_msb (a : U) : (S.of a).msb = S.of a.msb := by cases a <;> rfl
theorem of_ternary (c : Bit) (a t : U) : Bit.ternary c (S.of a) (S.of t) = S.of (Bit.ternary c a t) := by cases c <;> rfl
theorem of_isTerm (a : U) : (S.of a).isTerm = a.isTerm := by
  induction a with
  | term => rfl
  | int m b ih => simp only [S.of, S.isTerm, U.isTerm, ih]
theorem of_simplified (a : U) : (S.of a).simplified = S.of a.simplified := by
  induction a with
  | term => rfl
  | int m b ih =>
    have h := of_isTerm (.int m b)
    simp only [S.of] at h
    rw [S.of, S.simplified, U.simplified, ih, ← of_ternary, h]
    rfl
theorem of_bitAndInner (a t : U) : (S.of a).bitAndInner (S.of t) = S.of (a.bitAndInner t) := by
  induction a generalizing t with
  | term => rfl
  | int m b ih => simp only [S.of, S.bitAndInner, U.bitAndInner, of_msb, of_bit, ih]
theorem of_bitOrInner (a t : U) : (S.of a).bitOrInner (S.of t) = S.of (a.bitOrInner t) := by
  induction a generalizing t with
  | term => rfl
  | int m b ih => simp only [S.of, S.bitOrInner, U.bitOrInner, of_msb, of_bit, ih]
theorem of_equal (a t : U) : (S.of a).equal (S.of t) = a.equal t := by
  induction a generalizing t with
  | term => exact of_isTerm t
  | int m b ih => simp only [S.of, S.equal, U.equal, of_msb, of_bit, ih]
theorem of_greaterH (a t : U) (h : Bit) : (S.of a).greaterH (S.of t) h = a.greaterH t h := by
  induction a generalizing t h with
  | term => simp only [S.of, S.greaterH, U.greaterH, of_isTerm]
  | int m b ih => simp only [S.of, S.greaterH, U.greaterH, of_msb, of_bit, ih]
theorem of_addTermC (a : U) (c : Bit) : (S.of a).addTermC c = S.of (a.addTermC c) := by
  induction a generalizing c with
  | term => cases c <;> rfl
  | int m b ih => simp only [S.of, S.addTermC, U.addTermC, ih]
theorem of_increment (a : U) : (S.of a).increment = S.of a.increment := by
  cases a with
  | term => rfl
  | int m b => exact of_addTermC (.int m b) true
theorem of_addC (a t : U) (c : Bit) : (S.of a).addC (S.of t) c = S.of (a.addC t c) := by
  induction a generalizing t c with
  | term => simp only [S.of, S.addC, U.addC, of_increment, of_ternary]
  | int m b ih => simp only [S.of, S.addC, U.addC, of_msb, of_bit, ih]
theorem of_subC (a t : U) (c : Bit) : (S.of a).subC (S.of t) c = S.of (a.subC t c) := by
  induction a generalizing t c with
  | term => rfl
  | int m b ih => simp only [S.of, S.subC, U.subC, of_msb, of_bit, ih]
theorem of_absSub (a t : U) : (S.of a).absSub (S.of t) = S.of (a.absSub t) := by
  simp only [S.absSub, U.absSub, S.greater, U.greater, of_greaterH, of_subC, of_ternary, of_simplified]
theorem of_truncateInner (a t : U) : (S.of a).truncateInner (S.of t) = S.of (a.truncateInner t) := by
  induction a generalizing t with
  | term => rfl
  | int m b ih =>
    have h1 : S.one = S.of U.one := rfl
    simp only [S.of, S.truncateInner, U.truncateInner, of_isTerm, h1, of_absSub, ih]
    exact of_ternary _ .term (.int _ b)
theorem of_satDecrement (a : U) : (S.of a).satDecrement = S.of a.satDecrement := by
  induction a with
  | term => rfl
  | int m b ih =>
    simp only [S.of, S.satDecrement, U.satDecrement, ih]
    rw [← of_simplified, ← of_ternary]
    rfl
theorem of_nextPow2 (a : U) : (S.of a).nextPow2 = S.of a.nextPow2 := by
  induction a with
  | term => rfl
  | int m b ih =>
    have h1 : ∀ c, Bit.ternary c S.term S.one = S.of (Bit.ternary c .term .one) := fun c => of_ternary c .term .one
    have h := of_isTerm (.int m b)
    simp only [S.of] at h
    simp only [S.of, S.nextPow2, U.nextPow2, ih, h, h1]
    exact of_addC _ _ _
theorem of_mul (a t : U) : (S.of a).mul (S.of t) = S.of (a.mul t) := by
  induction a with
  | term => rfl
  | int m b ih =>
    have h1 : Bit.ternary b (S.of t) S.term = S.of (Bit.ternary b t .term) := of_ternary b t .term
    simp only [S.of, S.mul, U.mul, ih, h1]
    rw [← S.of, of_simplified]
    exact of_addC _ _ _
theorem of_modulate (m a : U) : S.modulate m (S.of a) = S.of (m.modulate a) := by
  induction m generalizing a with
  | term => rfl
  | int m b ih =>
    cases b
    · simp only [S.modulate, U.modulate, of_msb, of_bit, ih, ← S.of.eq_2, of_simplified]
    · rfl
theorem of_divide (m a : U) : S.divide m (S.of a) = S.of (m.divide a) := by
  induction m generalizing a with
  | term => rfl
  | int m b ih =>
    cases b
    · simp only [S.divide, U.divide, of_msb, ih]
    · rfl

/-- **C92**: without `Saturator`, numbers are computed with as in `Typenum/Model.lean`; in particular no operation on them fails but those
on zero that need another number. -/
theorem C92_numbers (a t : U) :
    (S.of a).bitAnd (S.of t) = S.of (a.bitAnd t) ∧ (S.of a).bitOr (S.of t) = S.of (a.bitOr t) ∧ (S.of a).add (S.of t) = S.of (a.add t) ∧
    (S.of a).absSub (S.of t) = S.of (a.absSub t) ∧ (S.of a).mul (S.of t) = S.of (a.mul t) ∧ (S.of a).min (S.of t) = S.of (a.min t) ∧
    (S.of a).max (S.of t) = S.of (a.max t) ∧ (S.of a).truncate (S.of t) = S.of (a.truncate t) ∧ (S.of a).equal (S.of t) = a.equal t ∧
    (S.of a).greater (S.of t) = a.greater t ∧ (S.of a).increment = S.of a.increment ∧ (S.of a).satDecrement = S.of a.satDecrement ∧
    (S.of a).nextPow2 = S.of a.nextPow2 ∧ S.modulate t (S.of a) = S.of (a.mod t) ∧ S.divide t (S.of a) = S.of (t.divide a) ∧
    (S.of a).nextMultipleOf t = S.of (a.nextMultipleOf t) ∧ (S.of a).nonZero = (a.nonZero.map S.of).getD .sat ∧ (S.of a).value = some a.val := by
  have hg : ∀ a t, (S.of a).greater (S.of t) = a.greater t := fun a t => of_greaterH a t false
  refine ⟨?_, ?_, of_addC _ _ _, of_absSub _ _, of_mul _ _, ?_, ?_, ?_, of_equal _ _, hg _ _, of_increment _, of_satDecrement _, of_nextPow2 _, of_modulate _ _,
    of_divide _ _, ?_, ?_, of_value _⟩
  · simp only [S.bitAnd, U.bitAnd, of_bitAndInner, of_simplified]
  · simp only [S.bitOr, U.bitOr, of_bitOrInner, of_simplified]
  · simp only [S.min, U.min, hg, of_ternary]
  · simp only [S.max, U.max, hg, of_ternary]
  · simp only [S.truncate, U.truncate, of_truncateInner, of_simplified]
  · have h0 : S.term = S.of .term := rfl
    simp only [S.nextMultipleOf, U.nextMultipleOf, U.mod, of_modulate, of_absSub, h0, of_equal]
    rw [show (S.of a).add (S.of (t.absSub (t.modulate a))) = S.of (a.add (t.absSub (t.modulate a))) from of_addC _ _ _, of_ternary]
  · cases a <;> rfl

/-- **C92**: the lowest set bit and the predecessor of numbers that are not zero; zero has no lowest set bit, and `UTerm` no predecessor. -/
theorem C92_nonzero (a : U) :
    (∀ r, a.truncAtRightmostOne = some r → (S.of a).truncAtRightmostOne = S.of r) ∧
    (a.truncAtRightmostOne = none → Failed (S.of a).truncAtRightmostOne) ∧
    (a ≠ .term → (S.of a).decrement = some (S.of a.satDecrement)) ∧ (S.of .term).decrement = none := by
  have h : ∀ a : U, (∀ r, a.truncAtRightmostOne = some r → (S.of a).truncAtRightmostOne = S.of r) ∧
      (a.truncAtRightmostOne = none → Failed (S.of a).truncAtRightmostOne) := by
    intro a
    induction a with
    | term => exact ⟨nofun, fun _ => rfl⟩
    | int m b ih =>
      cases b with
      | true => exact ⟨fun r hr => by cases hr; rfl, nofun⟩
      | false =>
        constructor
        · intro r hr
          cases hm : m.truncAtRightmostOne with
          | none => simp [U.truncAtRightmostOne, Bit.ternary, hm] at hr
          | some q =>
            simp [U.truncAtRightmostOne, Bit.ternary, hm] at hr
            subst hr
            simp only [S.of, S.truncAtRightmostOne, Bit.ternary, ih.1 q hm]
        · intro hr
          cases hm : m.truncAtRightmostOne with
          | none =>
            have := ih.2 hm
            simp only [Failed] at this
            simp [Failed, S.of, S.truncAtRightmostOne, Bit.ternary, S.value, this]
          | some q => simp [U.truncAtRightmostOne, Bit.ternary, hm] at hr
  refine ⟨(h a).1, (h a).2, fun hne => ?_, rfl⟩
  cases a with
  | term => exact absurd rfl hne
  | int m b => exact congrArg some (of_satDecrement (.int m b))

/-- Twelve: its lowest set bit is four, its predecessor eleven. -/
example : (S.of (.int (.int (.int (.int .term true) true) false) false)).truncAtRightmostOne.value = some 4 ∧
    ((S.of (.int (.int (.int (.int .term true) true) false) false)).decrement.map S.value) = some (some 11) := by decide +kernel

/-! ### `Saturator` on the right -/

theorem right_bitAndInner (a : U) : (S.of a).bitAndInner .sat = (S.of a).bitAndInner .term := by
  induction a with
  | term => rfl
  | int m b ih => simp only [S.of, S.bitAndInner, S.msb, S.bit, ih]
theorem right_equal (a : U) : (S.of a).equal .sat = (S.of a).equal .term := by
  induction a with
  | term => rfl
  | int m b ih => simp only [S.of, S.equal, S.msb, S.bit, ih]
theorem right_greaterH (a : U) (h : Bit) : (S.of a).greaterH .sat h = (S.of a).greaterH .term h := by
  induction a generalizing h with
  | term => rfl
  | int m b ih => simp only [S.of, S.greaterH, S.msb, S.bit, ih]
theorem right_subC (a : U) (c : Bit) : (S.of a).subC .sat c = (S.of a).subC .term c := by
  induction a generalizing c with
  | term => rfl
  | int m b ih => simp only [S.of, S.subC, S.msb, S.bit, ih]
theorem right_mul (a : U) : (S.of a).mul .sat = (S.of a).mul .term := by
  induction a with
  | term => rfl
  | int m b ih =>
    simp only [S.of, S.mul, ih]
    cases b <;> rfl
theorem right_addC (a : U) (c : Bit) : Failed ((S.of a).addC .sat c) := by
  induction a generalizing c with
  | term => cases c <;> rfl
  | int m b ih =>
    have := ih (Bit.adderCarry b false c)
    unfold Failed at *
    simp only [S.of, S.addC, S.msb, S.bit, S.value, this, Option.map_none]
theorem right_bitOrInner (a : U) : Failed ((S.of a).bitOrInner .sat) := by
  induction a with
  | term => rfl
  | int m b ih =>
    unfold Failed at *
    simp only [S.of, S.bitOrInner, S.msb, S.bit, S.value, ih, Option.map_none]

theorem right_bitOr (a : U) (hc : a.Canonical) (hn : a ≠ .term) :
    ((S.of a).bitOrInner .sat).isTerm = false ∧ Failed ((S.of a).bitOrInner .sat).simplified := by
  induction a with
  | term => exact absurd rfl hn
  | int m b ih =>
    by_cases hm : m = .term
    · subst hm
      obtain rfl := hc.2 rfl
      exact ⟨rfl, rfl⟩
    · obtain ⟨h1, h2⟩ := ih hc.1 hm
      have h3 : (S.int ((S.of m).bitOrInner .sat) (Bit.or' b false)).isTerm = false := by
        simp only [S.isTerm, h1]
        cases b <;> rfl
      refine ⟨h3, ?_⟩
      unfold Failed at *
      simp only [S.of, S.bitOrInner, S.msb, S.bit, S.simplified, h3, Bit.ternary, S.value, h2, Option.map_none]

theorem isTerm_zero (a : U) : (S.of a).equal .term = decide (a.val = 0) := by
  have := of_equal a .term
  rw [show S.of .term = S.term from rfl] at this
  rw [this, Bool.eq_iff_iff, U.equal_iff, decide_eq_true_iff]
  rfl

theorem greater_zero (a : U) : (S.of a).greater .term = decide (a.val ≠ 0) := by
  have := of_greaterH a .term false
  rw [show S.of .term = S.term from rfl] at this
  rw [S.greater, this, Bool.eq_iff_iff, decide_eq_true_iff]
  have := U.greater_iff a .term
  rw [U.greater] at this
  rw [this]
  simp [U.val, Nat.pos_iff_ne_zero]

theorem sub_term (a : U) : (S.of a).subC .term false = S.of a := by
  induction a with
  | term => rfl
  | int m b ih =>
    simp only [S.of, S.subC, S.msb, S.bit]
    have h1 : Bit.suberCarry b false false = false := by cases b <;> rfl
    have h2 : Bit.suberSum b false false = b := by cases b <;> rfl
    rw [h1, h2, ih]

theorem sat_greater (t : S) : S.sat.greater t = false := rfl

/-- **C92**: what `Saturator` as the second operand gives, for every number: adding it and, but for zero, joining its bits fails.

Partial: this is all that is kept of the failure; see `C92_right_refuted`. -/
theorem C92_right_partial (a : U) (hc : a.Canonical) :
    Failed ((S.of a).add .sat) ∧ Failed ((S.of a).bitOr .sat) ∧ (a.val ≠ 0 → Failed ((S.of a).min .sat)) ∧ (a.val = 0 → Failed ((S.of a).max .sat)) ∧
    (a.val = 0 → Failed ((S.of a).absSub .sat)) := by
  have hg : (S.of a).greater .sat = decide (a.val ≠ 0) := by rw [← greater_zero]; exact right_greaterH a false
  refine ⟨right_addC a false, ?_, ?_, ?_, ?_⟩
  · by_cases h : a = .term
    · subst h; rfl
    · exact (right_bitOr a hc h).2
  · intro h
    rw [S.min, hg, decide_eq_true h]; rfl
  · intro h
    rw [S.max, hg, decide_eq_false (by simpa using h)]; rfl
  · intro h
    rw [S.absSub, hg, decide_eq_false (by simpa using h)]; rfl

/-- **C92**: `Saturator` as the first operand, for every second: these fail. -/
theorem C92_left_partial (t : S) (m : U) :
    Failed (S.sat.bitAnd t) ∧ Failed (S.sat.bitOr t) ∧ Failed (S.sat.mul t) ∧ Failed (S.sat.truncate t) ∧ Failed (S.sat.min t) ∧ Failed S.sat.increment ∧
    Failed S.sat.satDecrement ∧ Failed S.sat.nextPow2 ∧ Failed S.sat.nonZero ∧ Failed S.sat.truncAtRightmostOne ∧ S.sat.decrement = some .sat ∧
    Failed (S.divide m .sat) ∧ Failed (S.sat.nextMultipleOf m) := by
  have hd : ∀ m, S.divide m .sat = .sat := by
    intro m
    induction m with
    | term => rfl
    | int m b ih => cases b <;> simp only [S.divide, S.msb, ih]
  have hm : ∀ m, (S.modulate m .sat).isTerm = true := by
    intro m
    induction m with
    | term => rfl
    | int m b ih =>
      cases b
      · have h : (S.int (S.modulate m .sat) false).isTerm = true := by simp only [S.isTerm, ih]; rfl
        simp only [S.modulate, S.msb, S.bit, S.simplified, h]
        rfl
      · rfl
  have he : ∀ x : S, x.isTerm = true → x.equal .term = true := by
    intro x
    induction x with
    | term => intro _; rfl
    | sat => intro _; rfl
    | int m b ih =>
      intro h
      cases b
      · exact ih (by simpa [S.isTerm, Bit.and', Bit.not'] using h)
      · cases h
  refine ⟨rfl, rfl, rfl, rfl, rfl, rfl, rfl, rfl, rfl, rfl, rfl, ?_, ?_⟩
  · unfold Failed; rw [hd]; rfl
  · unfold Failed
    rw [S.nextMultipleOf, he _ (hm m)]
    rfl

/-- **C92 refuted** for the second operand: with every number, `Saturator` is zero for `&`, `*`, `Truncate`, `==`, `>`, and for `-` and the maximum with a number
that isn't zero. -/
theorem C92_right_refuted (a : U) :
    ((S.of a).bitAnd .sat).value = some 0 ∧ ((S.of a).mul .sat).value = some 0 ∧ ((S.of a).truncate .sat).value = some 0 ∧
    (S.of a).equal .sat = decide (a.val = 0) ∧ (S.of a).greater .sat = decide (a.val ≠ 0) ∧
    (a.val ≠ 0 → ((S.of a).absSub .sat).value = some a.val ∧ ((S.of a).max .sat).value = some a.val) := by
  have hg : (S.of a).greater .sat = decide (a.val ≠ 0) := by rw [← greater_zero]; exact right_greaterH a false
  have h0 : S.term = S.of .term := rfl
  refine ⟨?_, ?_, ?_, by rw [right_equal, isTerm_zero], hg, ?_⟩
  · rw [S.bitAnd, right_bitAndInner, h0, of_bitAndInner, of_simplified, of_value, U.val_simplified, U.val_bitAndInner]
    simp [U.val]
  · rw [right_mul, h0, of_mul, of_value, U.val_mul]
    simp [U.val]
  · cases a <;> rfl
  · intro h
    refine ⟨?_, ?_⟩
    · rw [S.absSub, hg, decide_eq_true h, Bit.ternary, right_subC, sub_term, of_simplified, of_value, U.val_simplified]
    · rw [S.max, hg, decide_eq_true h, Bit.ternary, of_value]

/-- **C92 refuted** for the first operand: adding a number to `Saturator` gives this number, and so do its distance and the maximum; it is equal to zero only, what has it as digits may be greater than zero, its remainder
is zero; and zero without its last bit, which is a failure, is zero again once it is simplified. -/
theorem C92_left_refuted (t : S) (a m : U) (hm : m.isPow2 = true) :
    S.sat.add t = t ∧ (S.sat.absSub (S.of a)).value = some a.val ∧ S.sat.max t = t ∧ S.sat.equal (S.of a) = decide (a.val = 0) ∧ (S.int .sat true).greater .term = true ∧ (S.modulate m .sat).value = some 0 ∧
    Failed (S.int S.term.nonZero false) ∧ (S.int S.term.nonZero false).simplified = .term := by
  have hmod : ∀ m : U, m.isPow2 = true → S.modulate m .sat = .term := by
    intro m
    induction m with
    | term => intro h; cases h
    | int m b ih =>
      intro h
      cases b
      · simp only [S.modulate, S.msb, S.bit, ih h]
        rfl
      · rfl
  refine ⟨rfl, ?_, rfl, ?_, rfl, by rw [hmod m hm]; rfl, rfl, rfl⟩
  case refine_2 =>
    rw [← isTerm_zero]
    induction a with
    | term => rfl
    | int m b ih =>
      have hs : (S.of m).isTerm = (S.of m).equal .term := ih
      simp only [S.equal, S.of, S.isTerm, S.bit, S.msb, hs]
      cases b <;> rfl
  rw [S.absSub, sat_greater, Bit.ternary, right_subC, sub_term, of_simplified, of_value, U.val_simplified]

example : (U.ofNat 5).Canonical ∧ (U.ofNat 5).val = 5 ∧ (S.of (U.ofNat 5)).bitAnd .sat = .term ∧ (S.of (U.ofNat 5)).absSub .sat = S.of (U.ofNat 5) := by
  refine ⟨⟨⟨⟨trivial, ?_⟩, ?_⟩, ?_⟩, ?_, ?_, ?_⟩ <;> decide
example : S.sat.add (S.of (U.ofNat 7)) = S.of (U.ofNat 7) ∧ Failed ((S.of (U.ofNat 7)).add .sat) ∧ (U.ofNat 8).isPow2 = true := ⟨by decide, by unfold Failed; decide, by decide⟩

end Verif.Props.Failure
