import Verif.Layout.Lemmas

/-! The layout combinators preserve `Lay.Good`. -/
namespace Verif.Layout
namespace Lay

theorem Good.unit : Good Lay.unit :=
  ⟨⟨0, rfl⟩, .nil _ _, trivial, by simp [Lay.unit, Fv.offsets], by simp [Lay.unit, Fv.offsets]⟩

theorem Good.prim {s a : Nat} {fv : Fv} {one : Sat} {ind : Bool} (ha : Pow2 a) (hf : fv.WF)
    (hr : ∀ o ∈ fv.offsets, o < s) : Good (Lay.prim s a fv one ind) :=
  ⟨ha, .nil _ _, hf, hr, by simp [Lay.prim]⟩

theorem alignedAfter_ub (b : Lay) (start : Nat) :
    (b.alignedAfter start).ub =
      (padMask (nextMul start b.align - start)).shift start ++ b.ub.shift (nextMul start b.align) := by
  simp [alignedAfter, Mask.bitOr_eq]

theorem Good.fieldPair {a b : Lay} (ha : a.Good) (hb : b.Good) : (a.fieldPair b).Good := by
  have hle := le_nextMul a.size b.align
  have hpad : ((padMask (nextMul a.size b.align - a.size)).shift a.size).Good a.size (nextMul a.size b.align) := by
    have := Mask.Good.padAt (nextMul a.size b.align - a.size) a.size
    rwa [Nat.add_sub_cancel' hle] at this
  have hsh : (b.ub.shift (nextMul a.size b.align)).Good (nextMul a.size b.align)
      (b.size + nextMul a.size b.align) := by
    have := hb.ub.shift (nextMul a.size b.align)
    rwa [Nat.zero_add] at this
  refine ⟨ha.align.max hb.align, ?_, ⟨ha.fvWF, Fv.wf_shift hb.fvWF⟩, ?_, ?_⟩
  · simp only [Lay.fieldPair, Mask.bitOr_eq, alignedAfter_ub]
    exact ha.ub.append (hi := b.size + nextMul a.size b.align) (hpad.append hsh hle (by omega)) (by omega)
      (by omega)
  · intro o ho
    simp only [Lay.fieldPair, alignedAfter, Fv.offsets, Fv.offsets_shift, List.mem_append, List.mem_map] at ho ⊢
    rcases ho with ho | ⟨x, hx, rfl⟩
    · have := ha.fvRange o ho; omega
    · have := hb.fvRange x hx; omega
  · intro o ho v hm
    simp only [Lay.fieldPair, alignedAfter, Fv.offsets, Fv.offsets_shift, List.mem_append, List.mem_map,
      Mask.bitOr_eq] at ho hm
    rcases ho with ho | ⟨x, hx, rfl⟩
    · have h1 := ha.fvRange o ho
      rcases hm with hm | hm | hm
      · exact ha.fvUsed o ho v hm
      · have := hpad.range o v hm; omega
      · have := hsh.range o v hm; omega
    · rcases hm with hm | hm | hm
      · have := ha.ub.range _ v hm; omega
      · have := hpad.range _ v hm; omega
      · obtain ⟨j, hj, hm⟩ := Mask.mem_shift.1 hm
        have : x = j := by omega
        subst this
        exact hb.fvUsed x hx v hm

theorem good_tail {t : Lay} {n size : Nat} (h : t.Good) (hn : t.size + n ≤ size)
    {one : Sat} {al : Nat} (hal : Pow2 al) :
    Good ⟨size, al, t.fv, t.ub.bitOr ((padMask n).shift t.size), one, t.indirections⟩ := by
  have hpad := Mask.Good.padAt n t.size
  refine ⟨hal, ?_, h.fvWF, ?_, ?_⟩
  · rw [Mask.bitOr_eq]
    exact (h.ub.append hpad (by omega) (by omega)).mono (Nat.le_refl _) hn
  · intro o ho
    have := h.fvRange o ho
    simp only; omega
  · intro o ho v hm
    simp only [Mask.bitOr_eq, List.mem_append] at hm
    have h1 := h.fvRange o ho
    rcases hm with hm | hm
    · exact h.fvUsed o ho v hm
    · have := hpad.range _ v hm; omega

theorem Good.struct {t : Lay} (h : t.Good) : (t.struct).Good :=
  good_tail h (by have := le_nextMul t.size t.align; omega) h.align

theorem nextMul_le_of_dvd {n a b : Nat} (ha : 0 < a) (hb : 0 < b) (h : a ∣ b) : nextMul n a ≤ nextMul n b := by
  have h1 : nextMul n b % a = 0 := by
    have h2 := nextMul_mod (n := n) hb
    exact Nat.mod_eq_zero_of_dvd (Nat.dvd_trans h (Nat.dvd_of_mod_eq_zero h2))
  have hle := le_nextMul n b
  rw [nextMul_eq ha, alignUp]
  obtain ⟨q, hq⟩ := Nat.dvd_of_mod_eq_zero h1
  rw [hq] at hle ⊢
  rw [Nat.mul_comm a q]
  apply Nat.mul_le_mul_right
  have : (n + a - 1) / a < q + 1 := by
    rw [Nat.div_lt_iff_lt_mul ha, Nat.add_mul, Nat.mul_comm q a]; omega
  omega

theorem Good.alignedStruct {t : Lay} (h : t.Good) {al : Nat} (hal : Pow2 al) : (t.alignedStruct al).Good := by
  have hm := hal.max h.align
  refine good_tail h ?_ hm
  have h1 := nextMul_le_of_dvd (n := t.size) h.align.pos hm.pos (hal.dvd_max_right h.align)
  have := le_nextMul t.size t.align
  omega

theorem Good.union {a b : Lay} (ha : a.Good) (hb : b.Good) : (a.union b).Good :=
  ⟨ha.align.max hb.align, .nil _ _, trivial, by simp [Lay.union, Fv.offsets], by simp [Lay.union, Fv.offsets]⟩

theorem Good.array {t : Lay} (h : t.Good) (n : Nat) : (t.array n).Good := by
  by_cases hn : n = 1
  · subst hn
    refine ⟨h.align, ?_, ?_, ?_, ?_⟩
    · simpa [Lay.array] using h.ub
    · simpa [Lay.array] using h.fvWF
    · simpa [Lay.array] using h.fvRange
    · simpa [Lay.array] using h.fvUsed
  · refine ⟨h.align, ?_, ?_, ?_, ?_⟩
    · simp only [Lay.array, if_neg hn]; exact .nil _ _
    · simp only [Lay.array, if_neg hn]; trivial
    · simp [Lay.array, if_neg hn, Fv.offsets]
    · simp [Lay.array, if_neg hn, Fv.offsets]

end Lay
end Verif.Layout
