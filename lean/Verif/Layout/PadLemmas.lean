import Verif.Layout.Good
import Verif.Typenum.Lemmas

namespace Verif.Layout
open Lay Verif.Typenum

theorem padMask_add (a b : Nat) : padMask (a + b) = padMask a ++ (padMask b).shift a := by
  induction a with
  | zero => simp [padMask, Mask.shift_zero]
  | succ a ih =>
    rw [Nat.add_right_comm, padMask, ih, padMask, Mask.shift_append, Mask.shift_shift, List.cons_append]

theorem nextMul_one_right (n : Nat) : nextMul n 1 = n := nextMul_self (Nat.mod_one n)

theorem padding_facts (u : U) : (padding u).size = u.val ∧ (padding u).align = 1 ∧ (padding u).ub = padMask u.val ∧
    (padding u).fv = .none := by
  induction u with
  | term => exact ⟨rfl, rfl, rfl, rfl⟩
  | int m b ih =>
    obtain ⟨h1, h2, h3, h4⟩ := ih
    refine ⟨?_, rfl, ?_, rfl⟩
    · cases b <;> simp [padding, h1, U.val]
    · cases b
      · simp [padding, Lay.tuple3, Lay.struct, Lay.fieldPair, Lay.alignedAfter, bitPadding, Lay.unit, h1, h2, h3,
          nextMul_one_right, Mask.bitOr_eq, padMask, Mask.shift, U.val, Nat.two_mul, padMask_add]
      · simp [padding, Lay.tuple3, Lay.struct, Lay.fieldPair, Lay.alignedAfter, bitPadding, padByte, h1, h2, h3,
          nextMul_one_right, Mask.bitOr_eq, padMask, Mask.shift, U.val, Nat.two_mul, padMask_add]

/-- Where the elements of an array tree are. -/
def Arr.offsets (t : Lay) : Arr → Nat → List Nat
  | .unit, _ => []
  | .elem, base => [base]
  | .tuple a b, base => a.offsets t base ++ b.offsets t (base + alignUp (a.lay t).size (b.lay t).align)

/-- The tree is `k` contiguous elements. -/
structure IsRun (t : Lay) (a : Arr) (k : Nat) : Prop where
  size : (a.lay t).size = k * t.size
  align : (a.lay t).align = if k = 0 then 1 else t.align
  offs : ∀ base, a.offsets t base = (List.range k).map (fun i => base + i * t.size)
  empty : k = 0 → a = .unit

theorem IsRun.tuple {t : Lay} (hp : 0 < t.align) (hm : t.size % t.align = 0) {a b : Arr} {j k : Nat}
    (ha : IsRun t a j) (hb : IsRun t b k) (hj : 0 < j) (hk : 0 < k) : IsRun t (.tuple a b) (j + k) := by
  have e1 : (b.lay t).align = t.align := by rw [hb.align, if_neg (by omega)]
  have e2 : (a.lay t).align = t.align := by rw [ha.align, if_neg (by omega)]
  have hmul : ∀ n, n * t.size % t.align = 0 := fun n => by rw [Nat.mul_mod, hm]; simp
  have e3 : nextMul (a.lay t).size (b.lay t).align = j * t.size := by
    rw [e1, ha.size, nextMul_self (hmul j)]
  have e4 : ((Arr.tuple a b).lay t).align = t.align := by
    simp only [Arr.lay, Lay.tuple2, Lay.struct, Lay.fieldPair]; omega
  refine ⟨?_, ?_, ?_, by omega⟩
  · simp only [Arr.lay, Lay.tuple2, Lay.struct, Lay.fieldPair, Lay.alignedAfter, e3]
    rw [e1, e2, hb.size, Nat.max_self, ← Nat.add_mul, nextMul_self (hmul _), Nat.add_comm]
  · rw [e4, if_neg (by omega)]
  · intro base
    simp only [Arr.offsets]
    rw [← nextMul_eq (by omega), e3, ha.offs, hb.offs, List.range_add, List.map_append, List.map_map]
    congr 1
    apply List.map_congr_left
    intro i _
    simp only [Function.comp, Nat.add_mul]; omega

theorem addToArray_run {t : Lay} (hp : 0 < t.align) (hm : t.size % t.align = 0) (h0 : 0 < t.size) (u : U) {lsb stack : Arr}
    {r s : Nat} (hl : IsRun t lsb r) (hs : IsRun t stack s) (hs0 : 0 < s) :
    IsRun t (addToArray t u lsb stack) (r + s * u.val) := by
  induction u generalizing lsb stack r s with
  | term => simpa [addToArray, U.val] using hl
  | int m b ih =>
    rw [addToArray]
    have h2 := IsRun.tuple hp hm hs hs hs0 hs0
    cases b
    · have := ih hl h2 (by omega)
      simp only [U.val, Bool.toNat_false, Bool.false_eq_true, if_false, Nat.add_zero]
      rw [Nat.mul_comm 2, ← Nat.mul_assoc, Nat.mul_right_comm, Nat.mul_two]
      exact this
    · have hl' : IsRun t (if (lsb.lay t).size = 0 then stack else .tuple stack lsb) (s + r) := by
        by_cases hr : r = 0
        · subst hr
          rw [if_pos (by rw [hl.size]; simp)]; exact hs
        · rw [if_neg]
          · exact IsRun.tuple hp hm hs hl hs0 (by omega)
          · rw [hl.size]
            have := Nat.mul_pos (Nat.pos_of_ne_zero hr) h0; omega
      have := ih hl' h2 (by omega)
      simp only [U.val, Bool.toNat_true, if_true]
      have e : r + s * (2 * m.val + 1) = s + r + (s + s) * m.val := by
        rw [Nat.mul_add, Nat.mul_one, ← Nat.two_mul s, ← Nat.mul_assoc, Nat.mul_comm s 2]; omega
      rw [e]; exact this

theorem arrayOf_run {t : Lay} (hp : 0 < t.align) (hm : t.size % t.align = 0) (h0 : 0 < t.size) (u : U) :
    IsRun t (arrayOf t u) u.val := by
  have hu : IsRun t .unit 0 := ⟨by simp [Arr.lay, Lay.unit], by simp [Arr.lay, Lay.unit], by simp [Arr.offsets], fun _ => rfl⟩
  have he : IsRun t .elem 1 := ⟨by simp [Arr.lay], by simp [Arr.lay], by simp [Arr.offsets], by simp⟩
  cases u with
  | term => exact hu
  | int m b =>
    have := addToArray_run hp hm h0 (.int m b) hu he (by omega)
    simpa [arrayOf] using this

end Verif.Layout
