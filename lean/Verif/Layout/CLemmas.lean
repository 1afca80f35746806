import Verif.Layout.Macro
import Verif.Layout.CSpec
import Verif.Layout.Good

namespace Verif.Layout
open Lay

theorem le_alignUp {n a : Nat} (ha : 0 < a) : n ≤ alignUp n a := by rw [← nextMul_eq ha]; exact le_nextMul n a

theorem nest_align' {acc : Lay} {fs : List Lay} (h1 : 0 < acc.align) :
    (nestFields acc fs).align = max acc.align (cAlign fs) := by
  induction fs generalizing acc with
  | nil => simp only [nestFields, cAlign]; omega
  | cons f fs ih =>
    rw [nestFields, ih (by simp only [fieldPair]; omega)]
    simp only [fieldPair, cAlign]; omega

theorem le_cEnd {fs : List Lay} (hf : ∀ f ∈ fs, 0 < f.align) (c : Nat) : c ≤ cEnd c fs := by
  induction fs generalizing c with
  | nil => exact Nat.le_refl _
  | cons f fs ih =>
    have h1 := le_alignUp (n := c) (hf f (by simp))
    have h2 := ih (fun f h => hf f (by simp [h])) (alignUp c f.align + f.size)
    simp only [cEnd]; omega

theorem nest_size {acc : Lay} {fs : List Lay} (hf : ∀ f ∈ fs, 0 < f.align) :
    (nestFields acc fs).size = cEnd acc.size fs := by
  induction fs generalizing acc with
  | nil => rfl
  | cons f fs ih =>
    have ha := hf f (by simp)
    rw [nestFields, ih (fun g hg => hf g (by simp [hg])), cEnd]
    simp only [fieldPair, alignedAfter, nextMul_eq ha, Nat.add_comm]

theorem nest_good {acc : Lay} {fs : List Lay} (ha : acc.Good) (hf : ∀ f ∈ fs, f.Good) : (nestFields acc fs).Good := by
  induction fs generalizing acc with
  | nil => exact ha
  | cons f fs ih => exact ih (ha.fieldPair (hf f (by simp))) (fun g hg => hf g (by simp [hg]))

theorem place_ge {c : Nat} {fs : List Lay} (hf : ∀ f ∈ fs, 0 < f.align) {o : Nat} {f : Lay} (h : (o, f) ∈ cPlace c fs) :
    c ≤ o ∧ o + f.size ≤ cEnd c fs := by
  induction fs generalizing c with
  | nil => simp [cPlace] at h
  | cons g fs ih =>
    have hg := le_alignUp (n := c) (hf g (by simp))
    have hend : ∀ c, c ≤ cEnd c fs := le_cEnd (fun f h => hf f (by simp [h]))
    rcases List.mem_cons.1 h with h | h
    · cases h
      have := hend (alignUp c f.align + f.size)
      simp only [cEnd]; omega
    · have := ih (fun f h => hf f (by simp [h])) h
      simp only [cEnd]; omega

theorem place_disjoint {c : Nat} {fs : List Lay} (hf : ∀ f ∈ fs, 0 < f.align) :
    (cPlace c fs).Pairwise (fun x y => x.1 + x.2.size ≤ y.1) := by
  induction fs generalizing c with
  | nil => exact .nil
  | cons f fs ih =>
    refine .cons ?_ (ih (fun f h => hf f (by simp [h])))
    rintro ⟨o, g⟩ h
    exact (place_ge (fun f h => hf f (by simp [h])) h).1

/-- The unused bits of nested fields: those of the fields, and every bit between fields. -/
theorem nest_unused {acc : Lay} {fs : List Lay} (hf : ∀ f ∈ fs, f.Good) {i b : Nat} (hb : b < 8) :
    (nestFields acc fs).ub.Unused i b ↔
      acc.ub.Unused i b ∨ (∃ o f j, (o, f) ∈ cPlace acc.size fs ∧ i = o + j ∧ f.ub.Unused j b) ∨
      (acc.size ≤ i ∧ i < cEnd acc.size fs ∧ ¬ Covered (cPlace acc.size fs) i) := by
  induction fs generalizing acc with
  | nil =>
    simp only [nestFields, cPlace, cEnd, Covered, List.not_mem_nil, false_and, exists_false, not_false_eq_true,
      false_or, and_true]
    constructor
    · exact .inl
    · rintro (h | ⟨h1, h2⟩)
      · exact h
      · omega
  | cons f fs ih =>
    have ha := (hf f (by simp)).align.pos
    have hfs : ∀ g ∈ fs, 0 < g.align := fun g hg => (hf g (by simp [hg])).align.pos
    have hle := le_alignUp (n := acc.size) ha
    have hsz : (acc.fieldPair f).size = alignUp acc.size f.align + f.size := by
      simp only [fieldPair, alignedAfter, nextMul_eq ha, Nat.add_comm]
    have hend : alignUp acc.size f.align + f.size ≤ cEnd (alignUp acc.size f.align + f.size) fs := le_cEnd hfs _
    have hpair : (acc.fieldPair f).ub.Unused i b ↔ acc.ub.Unused i b ∨
        (acc.size ≤ i ∧ i < alignUp acc.size f.align) ∨ (∃ j, i = alignUp acc.size f.align + j ∧ f.ub.Unused j b) := by
      simp only [fieldPair, Mask.bitOr_eq, alignedAfter, nextMul_eq ha, Mask.unused_append, Mask.unused_shift]
      constructor
      · rintro (h | ⟨j, h1, h2⟩ | ⟨j, h1, h2⟩)
        · exact .inl h
        · rw [Mask.unused_pad hb] at h2; exact .inr (.inl (by omega))
        · exact .inr (.inr ⟨j, by omega, h2⟩)
      · rintro (h | h | ⟨j, h1, h2⟩)
        · exact .inl h
        · exact .inr (.inl ⟨i - acc.size, by omega, (Mask.unused_pad hb).2 (by omega)⟩)
        · exact .inr (.inr ⟨j, by omega, h2⟩)
    rw [nestFields, ih (fun g hg => hf g (by simp [hg])), hpair, hsz]
    simp only [cPlace, cEnd]
    have hcov : Covered ((alignUp acc.size f.align, f) :: cPlace (alignUp acc.size f.align + f.size) fs) i ↔
        (alignUp acc.size f.align ≤ i ∧ i < alignUp acc.size f.align + f.size) ∨
          Covered (cPlace (alignUp acc.size f.align + f.size) fs) i := by
      simp only [Covered, List.mem_cons, Prod.mk.injEq]
      constructor
      · rintro ⟨o, g, ⟨rfl, rfl⟩ | h, h'⟩
        · exact .inl h'
        · exact .inr ⟨o, g, h, h'⟩
      · rintro (h | ⟨o, g, h, h'⟩)
        · exact ⟨_, _, .inl ⟨rfl, rfl⟩, h⟩
        · exact ⟨o, g, .inr h, h'⟩
    rw [hcov]
    constructor
    · rintro ((h | h | ⟨j, h1, h2⟩) | ⟨o, g, j, h1, h2, h3⟩ | ⟨h1, h2, h3⟩)
      · exact .inl h
      · refine .inr (.inr ⟨by omega, by omega, ?_⟩)
        rintro (h' | ⟨o, g, hm, h1, h2⟩)
        · omega
        · have := (place_ge hfs hm).1; omega
      · exact .inr (.inl ⟨_, f, j, by simp, h1, h2⟩)
      · exact .inr (.inl ⟨o, g, j, by simp [h1], h2, h3⟩)
      · refine .inr (.inr ⟨by omega, h2, ?_⟩)
        rintro (h' | h')
        · omega
        · exact h3 h'
    · rintro (h | ⟨o, g, j, h1, h2, h3⟩ | ⟨h1, h2, h3⟩)
      · exact .inl (.inl h)
      · rcases List.mem_cons.1 h1 with h1 | h1
        · cases h1; exact .inl (.inr (.inr ⟨j, h2, h3⟩))
        · exact .inr (.inl ⟨o, g, j, h1, h2, h3⟩)
      · rcases Nat.lt_or_ge i (alignUp acc.size f.align) with h4 | h4
        · exact .inl (.inr (.inl ⟨h1, h4⟩))
        · rcases Nat.lt_or_ge i (alignUp acc.size f.align + f.size) with h5 | h5
          · exact absurd (.inl ⟨h4, h5⟩) h3
          · exact .inr (.inr ⟨h5, h2, fun h => h3 (.inr h)⟩)

/-- The forbidden values of nested fields are those of the fields, each at its offset. -/
theorem nest_forbids {acc : Lay} {fs : List Lay} (hf : ∀ f ∈ fs, 0 < f.align) {m : Mem} :
    (nestFields acc fs).fv.Forbids m ↔
      acc.fv.Forbids m ∨ ∃ o f, (o, f) ∈ cPlace acc.size fs ∧ f.fv.Forbids (m.at o) := by
  induction fs generalizing acc with
  | nil => simp [nestFields, cPlace]
  | cons f fs ih =>
    have ha := hf f (by simp)
    have hsz : (acc.fieldPair f).size = alignUp acc.size f.align + f.size := by
      simp only [fieldPair, alignedAfter, nextMul_eq ha, Nat.add_comm]
    rw [nestFields, ih (fun g hg => hf g (by simp [hg])), hsz]
    simp only [fieldPair, alignedAfter, Fv.Forbids, Fv.forbids_shift, nextMul_eq ha, cPlace, List.mem_cons,
      Prod.mk.injEq]
    constructor
    · rintro ((h | h) | ⟨o, g, h, h'⟩)
      · exact .inl h
      · exact .inr ⟨_, _, .inl ⟨rfl, rfl⟩, h⟩
      · exact .inr ⟨o, g, .inr h, h'⟩
    · rintro (h | ⟨o, g, ⟨rfl, rfl⟩ | h, h'⟩)
      · exact .inl (.inl h)
      · exact .inl (.inr h')
      · exact .inr ⟨o, g, h, h'⟩

end Verif.Layout
