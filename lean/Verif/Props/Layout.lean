import Verif.Layout.CLemmas
import Verif.Layout.PadLemmas

/-! Properties C03, C04, C07, C08, C54. -/
namespace Verif.Props.Layout
open Verif.Layout Verif.Typenum

/-! ### C03 -/

/-- The padding type of `N` bytes is `N` bytes of alignment 1, each of its bits is reported unused,
no other bit is, and it forbids nothing. -/
theorem C03_padding (n : U) :
    (padding n).size = n.val ∧ (padding n).align = 1 ∧
      (∀ i b, b < 8 → ((padding n).ub.Unused i b ↔ i < n.val)) ∧ (padding n).fv = .none := by
  obtain ⟨h1, h2, h3, h4⟩ := padding_facts n
  refine ⟨h1, h2, fun i b hb => ?_, h4⟩
  rw [h3]; exact Mask.unused_pad hb

/-- A padding byte is the padding type of one byte; padding holds no pointer. -/
theorem C03_padding_byte (n : U) (h : n.val = 1) : padByte.size = (padding n).size ∧ padByte.align = (padding n).align ∧
    (∀ i b, b < 8 → (padByte.ub.Unused i b ↔ (padding n).ub.Unused i b)) ∧ padByte.indirections = false ∧ ∀ k, (padding k).indirections = false := by
  obtain ⟨h1, h2, h3, _⟩ := C03_padding n
  refine ⟨by rw [h1, h]; rfl, by rw [h2]; rfl, fun i b hb => ?_, rfl, fun k => by cases k <;> rfl⟩
  rw [h3 i b hb, h]
  have hp : padByte.ub = padMask 1 := by decide
  rw [hp]; exact Mask.unused_pad hb
example : (U.ofNat 1).val = 1 := by decide +kernel

/-- The mask used for padding inside structs lists exactly the bits of the first `n` bytes. -/
theorem C03_padding_mask (n i b : Nat) (hb : b < 8) : (padMask n).Unused i b ↔ i < n := Mask.unused_pad hb

example : (padding (U.ofNat 5)).size = 5 ∧ (padding (U.ofNat 5)).ub.length = 5 := by decide +kernel

/-- The array type for `N` elements of a non-zero-sized `T` is `N * size_of::<T>()` bytes long, and its
elements are at offsets `0, size, 2 * size, ...`.  What is missing from C03: zero-sized elements
(see `C03_array_zst_refuted`). -/
theorem C03_array_partial (t : Lay) (ha : 0 < t.align) (hm : t.size % t.align = 0) (h0 : 0 < t.size) (n : U) :
    ((arrayOf t n).lay t).size = n.val * t.size ∧
      (arrayOf t n).offsets t 0 = (List.range n.val).map (· * t.size) := by
  have := arrayOf_run ha hm h0 n
  refine ⟨this.size, ?_⟩
  rw [this.offs]
  apply List.map_congr_left
  intro i _; omega

example : (arrayOf ⟨2, 2, .none, [], .b0, false⟩ (U.ofNat 5)).offsets ⟨2, 2, .none, [], .b0, false⟩ 0 = [0, 2, 4, 6, 8] := by
  decide +kernel

/-- An array of 3 zero-sized elements only holds 2 of them: the code takes the accumulator of the low
bits for empty when its size is zero (typenum2/unsigned.rs:548-551). -/
theorem C03_array_zst_refuted : ∃ (t : Lay) (n : U), t.size % t.align = 0 ∧ n.val = 3 ∧
    ((arrayOf t n).offsets t 0).length = 2 :=
  ⟨Lay.unit, U.ofNat 3, by decide, by decide, by decide +kernel⟩

theorem lay_zst {t : Lay} (h : t.size = 0) : ∀ a : Arr, (a.lay t).size = 0
  | .unit => rfl
  | .elem => h
  | .tuple a b => by
    have ha := lay_zst h a
    have hb := lay_zst h b
    simp [Arr.lay, Lay.tuple2, Lay.struct, Lay.fieldPair, Lay.alignedAfter, ha, hb, nextMul_zero]

/-- The number of elements of the tree. -/
def elements : Arr → Nat
  | .unit => 0
  | .elem => 1
  | .tuple a b => elements a + elements b

theorem offsets_length (t : Lay) : ∀ (a : Arr) (o : Nat), (a.offsets t o).length = elements a
  | .unit, _ => rfl
  | .elem, _ => rfl
  | .tuple a b, o => by simp [Arr.offsets, elements, offsets_length t a, offsets_length t b]

theorem addToArray_zst {t : Lay} (h : t.size = 0) : ∀ (n : U) (lsb stack : Arr), elements (addToArray t n lsb stack) =
    if n.val = 0 then elements lsb else 2 ^ n.val.log2 * elements stack
  | .term, _, _ => rfl
  | .int m b, lsb, stack => by
    rw [addToArray, addToArray_zst h m, if_pos (lay_zst h lsb), U.val_int]
    by_cases hm : m.val = 0
    · rw [if_pos hm, hm]; cases b <;> simp [show Nat.log2 1 = 0 from rfl]
    · have hl : (2 * m.val + b.toNat).log2 = m.val.log2 + 1 := by
        rw [Nat.log2_def, if_pos (by omega)]
        congr 2
        have := Bool.toNat_le b; omega
      rw [if_neg hm, if_neg (by omega), hl, Nat.pow_succ, elements, Nat.mul_assoc, Nat.two_mul]

/-- Exactly how many elements an array of zero-sized elements holds: the largest power of two that is not above its length.  So arrays of other lengths
are wrong. -/
theorem C03_array_zst (t : Lay) (h : t.size = 0) (n : U) :
    ((arrayOf t n).offsets t 0).length = if n.val = 0 then 0 else 2 ^ n.val.log2 := by
  cases n with
  | term => rfl
  | int m b => rw [arrayOf, offsets_length, addToArray_zst h]; simp [elements]
example : ((arrayOf Lay.unit (U.ofNat 23)).offsets Lay.unit 0).length = 16 := by decide +kernel

/-- Appending a padding byte: one byte longer, exactly that byte is unused in addition, the same values are forbidden. -/
theorem C03_one_more_byte (l : Lay) (i b : Nat) (h8 : b < 8) :
    (oneMoreByte l).size = l.size + 1 ∧ (oneMoreByte l).align = 1 ∧ ((oneMoreByte l).ub.Unused i b ↔ (l.ub.Unused i b ∨ i = l.size)) ∧
    (∀ m, (oneMoreByte l).fv.Forbids m ↔ l.fv.Forbids m) := by
  refine ⟨rfl, rfl, ?_, fun m => Iff.rfl⟩
  simp only [oneMoreByte]
  rw [Mask.bitOr_eq, Mask.unused_append]
  refine or_congr Iff.rfl ?_
  rw [Mask.unused_cons]
  constructor
  · rintro (⟨h, _⟩ | ⟨v, h, _⟩)
    · exact h
    · simp at h
  · intro h; exact .inl ⟨h, getLsbD_255 ⟨b, h8⟩⟩

/-- `size()`, which generic code uses at run time, is the size rounded up to the alignment: the least multiple of the alignment
that is at least the size. -/
theorem C03_size_fn (t : Lay) (ha : 0 < t.align) : t.sizeFn % t.align = 0 ∧ t.size ≤ t.sizeFn ∧
    (∀ k, t.size ≤ k * t.align → t.sizeFn ≤ k * t.align) ∧ (t.size % t.align = 0 → t.sizeFn = t.size) := by
  have hd := Nat.div_add_mod t.size t.align
  have hm := Nat.mod_lt t.size ha
  generalize t.size / t.align = q at hd
  by_cases h0 : t.size % t.align = 0
  · have he : t.sizeFn = t.size := by simp [Lay.sizeFn, h0]
    rw [he]
    exact ⟨h0, Nat.le_refl _, fun k hk => hk, fun _ => rfl⟩
  · have he : t.sizeFn = t.align * (q + 1) := by
      rw [Lay.sizeFn, Nat.mod_eq_of_lt (by omega : t.align - t.size % t.align < t.align), Nat.mul_succ]
      omega
    rw [he]
    refine ⟨Nat.mul_mod_right _ _, by rw [Nat.mul_succ]; omega, ?_, fun h => (h0 h).elim⟩
    intro k hk
    rw [Nat.mul_comm k] at hk ⊢
    apply Nat.mul_le_mul_left
    apply Nat.lt_of_mul_lt_mul_left (a := t.align)
    omega

example : (Lay.mk 5 4 .none [] .b0 false).sizeFn = 8 ∧ (Lay.mk 8 4 .none [] .b0 false).sizeFn = 8 := by decide

/-! ### C04 -/

/-- Size and alignment of a `#[stabby] struct` are those of the C struct. -/
theorem C04_size_align (fs : List Lay) (hf : ∀ f ∈ fs, 0 < f.align) :
    (structOf fs).size = cStructSize fs ∧ (structOf fs).align = cAlign fs := by
  cases fs with
  | nil => exact ⟨by simp [structOf, Lay.unit, cStructSize, cEnd, cAlign, alignUp], rfl⟩
  | cons f fs =>
    have ha := hf f (by simp)
    have h1 := nest_align' (acc := f) (fs := fs) ha
    have h2 := nest_size (acc := f) (fs := fs) (fun g hg => hf g (by simp [hg]))
    have h0 : alignUp 0 f.align = 0 := by rw [← nextMul_eq ha, nextMul_zero]
    refine ⟨?_, by simp [structOf, Lay.struct, h1, cAlign]⟩
    simp only [structOf, Lay.struct, cStructSize, cEnd, cAlign, h1, h2, h0, Nat.zero_add]
    exact nextMul_eq (by omega)

/-- The niches of the struct are where the C offsets of its fields put them: a bit is reported unused iff
it is an unused bit of the field at that place, or belongs to no field. -/
theorem C04_unused_bits (fs : List Lay) (hf : ∀ f ∈ fs, f.Good) (i b : Nat) (hb : b < 8) :
    (structOf fs).ub.Unused i b ↔
      (∃ o f j, (o, f) ∈ cPlace 0 fs ∧ i = o + j ∧ f.ub.Unused j b) ∨
      (i < cStructSize fs ∧ ¬ Covered (cPlace 0 fs) i) := by
  cases fs with
  | nil =>
    have : cStructSize [] = 0 := by simp [cStructSize, cEnd, cAlign, alignUp]
    rw [this]
    simp [structOf, Lay.unit, cPlace, Mask.Unused]
  | cons f fs =>
    have hp : ∀ g ∈ f :: fs, 0 < g.align := fun g hg => (hf g hg).align.pos
    have ha := hp f (by simp)
    have h0 : alignUp 0 f.align = 0 := by rw [← nextMul_eq ha, nextMul_zero]
    have hfs : ∀ g ∈ fs, g.Good := fun g hg => hf g (by simp [hg])
    have hfp : ∀ g ∈ fs, 0 < g.align := fun g hg => hp g (by simp [hg])
    have hsz := (C04_size_align (f :: fs) hp).1
    have hns := nest_size (acc := f) hfp
    have hnest := nest_unused (acc := f) hfs (i := i) hb
    have hpl : cPlace 0 (f :: fs) = (0, f) :: cPlace f.size fs := by simp [cPlace, h0]
    have hce : f.size ≤ cEnd f.size fs := le_cEnd hfp _
    have hle : cEnd f.size fs ≤ (structOf (f :: fs)).size := by
      have := le_nextMul (nestFields f fs).size (nestFields f fs).align
      simp only [structOf, Lay.struct]; omega
    have hcov : Covered (cPlace 0 (f :: fs)) i ↔ i < f.size ∨ Covered (cPlace f.size fs) i := by
      rw [hpl]
      constructor
      · rintro ⟨o, g, hm, h1, h2⟩
        rcases List.mem_cons.1 hm with hm | hm
        · cases hm; exact .inl (by omega)
        · exact .inr ⟨o, g, hm, h1, h2⟩
      · rintro (h | ⟨o, g, hm, h⟩)
        · exact ⟨0, f, by simp, by omega, by omega⟩
        · exact ⟨o, g, by simp [hm], h⟩
    have hs : (structOf (f :: fs)).ub.Unused i b ↔ (nestFields f fs).ub.Unused i b ∨
        (cEnd f.size fs ≤ i ∧ i < (structOf (f :: fs)).size) := by
      have e : (structOf (f :: fs)).ub = (nestFields f fs).ub ++
          (padMask ((structOf (f :: fs)).size - (nestFields f fs).size)).shift (nestFields f fs).size := by
        simp [structOf, Lay.struct, Mask.bitOr_eq]
      rw [e, Mask.unused_append, Mask.unused_shift, hns]
      constructor
      · rintro (h | ⟨j, h1, h2⟩)
        · exact .inl h
        · rw [Mask.unused_pad hb] at h2; exact .inr (by omega)
      · rintro (h | h)
        · exact .inl h
        · exact .inr ⟨i - cEnd f.size fs, by omega, (Mask.unused_pad hb).2 (by omega)⟩
    rw [hs, hnest, hcov, ← hsz, hpl]
    constructor
    · rintro ((h | ⟨o, g, j, h1, h2⟩ | ⟨h1, h2, h3⟩) | ⟨h1, h2⟩)
      · exact .inl ⟨0, f, i, by simp, by omega, h⟩
      · exact .inl ⟨o, g, j, by simp [h1], h2⟩
      · exact .inr ⟨by omega, by rintro (h | h); omega; exact h3 h⟩
      · refine .inr ⟨h2, ?_⟩
        rintro (h | ⟨o, g, hm, h3, h4⟩)
        · omega
        · have := (place_ge hfp hm).2; omega
    · rintro (⟨o, g, j, h1, h2, h3⟩ | ⟨h1, h2⟩)
      · rcases List.mem_cons.1 h1 with h1 | h1
        · cases h1
          have : i = j := by omega
          subst this; exact .inl (.inl h3)
        · exact .inl (.inr (.inl ⟨o, g, j, h1, h2, h3⟩))
      · rcases Nat.lt_or_ge i (cEnd f.size fs) with h3 | h3
        · refine .inl (.inr (.inr ⟨?_, h3, fun h => h2 (.inr h)⟩))
          rcases Nat.lt_or_ge i f.size with h4 | h4
          · exact absurd (.inl h4) h2
          · exact h4
        · exact .inr ⟨h3, h1⟩

/-- The forbidden values of the struct are those of its fields, looked for at the C offset of the field. -/
theorem C04_forbidden_values (fs : List Lay) (hf : ∀ f ∈ fs, 0 < f.align) (m : Mem) :
    (structOf fs).fv.Forbids m ↔ ∃ o f, (o, f) ∈ cPlace 0 fs ∧ f.fv.Forbids (m.at o) := by
  cases fs with
  | nil => simp [structOf, Lay.unit, Fv.Forbids, cPlace]
  | cons f fs =>
    have ha := hf f (by simp)
    have h0 : alignUp 0 f.align = 0 := by rw [← nextMul_eq ha, nextMul_zero]
    have hm0 : m.at 0 = m := by funext i; simp [Mem.at]
    have := nest_forbids (acc := f) (fs := fs) (fun g hg => hf g (by simp [hg])) (m := m)
    simp only [structOf, Lay.struct, this, cPlace, h0, Nat.zero_add, List.mem_cons, Prod.mk.injEq]
    constructor
    · rintro (h | ⟨o, g, h, h'⟩)
      · exact ⟨0, f, .inl ⟨rfl, rfl⟩, by rwa [hm0]⟩
      · exact ⟨o, g, .inr h, h'⟩
    · rintro ⟨o, g, ⟨rfl, rfl⟩ | h, h'⟩
      · rw [hm0] at h'; exact .inl h'
      · exact .inr ⟨o, g, h, h'⟩

/-- Fields do not overlap, are aligned, and fit in the struct. -/
theorem C04_fields_disjoint (fs : List Lay) (hf : ∀ f ∈ fs, Pow2 f.align) :
    (cPlace 0 fs).Pairwise (fun x y => x.1 + x.2.size ≤ y.1) ∧
      ∀ o f, (o, f) ∈ cPlace 0 fs → o % f.align = 0 ∧ f.align ∣ (structOf fs).align ∧
        o + f.size ≤ (structOf fs).size := by
  have hp : ∀ f ∈ fs, 0 < f.align := fun f h => (hf f h).pos
  refine ⟨place_disjoint hp, ?_⟩
  intro o f h
  obtain ⟨h1, h2⟩ := C04_size_align fs hp
  have hal : ∀ (c : Nat) (l : List Lay), (∀ f ∈ l, 0 < f.align) → (o, f) ∈ cPlace c l → o % f.align = 0 ∧ f ∈ l := by
    intro c l
    induction l generalizing c with
    | nil => intro _ h; simp [cPlace] at h
    | cons g l ih =>
      intro hl h
      rcases List.mem_cons.1 h with h | h
      · cases h
        exact ⟨by rw [alignUp, Nat.mul_mod_left], by simp⟩
      · have := ih _ (fun f h => hl f (by simp [h])) h
        exact ⟨this.1, by simp [this.2]⟩
  obtain ⟨h3, h4⟩ := hal 0 fs hp h
  have hpa : ∀ l : List Lay, (∀ f ∈ l, Pow2 f.align) → Pow2 (cAlign l) ∧ ∀ f ∈ l, f.align ≤ cAlign l := by
    intro l
    induction l with
    | nil => intro _; exact ⟨⟨0, rfl⟩, by simp⟩
    | cons g l ih =>
      intro hl
      obtain ⟨i1, i2⟩ := ih (fun f h => hl f (by simp [h]))
      refine ⟨(hl g (by simp)).max i1, ?_⟩
      intro f hf
      simp only [cAlign]
      rcases List.mem_cons.1 hf with rfl | hf
      · omega
      · have := i2 f hf; omega
  obtain ⟨h5, h6⟩ := hpa fs hf
  refine ⟨h3, ?_, ?_⟩
  · rw [h2]; exact (hf f h4).dvd_of_le h5 (h6 f h4)
  · rw [h1, cStructSize]
    have := (place_ge hp h).2
    have := le_alignUp (n := cEnd 0 fs) h5.pos
    omega

/-- A struct of a `u8`, a `u32` and a `bool`: offsets 0, 4, 8, size 12, byte 8 is forbidden to be 2. -/
example : let fs := [Lay.prim 1 1 .none .b0 false, Lay.prim 4 4 .none .b0 false, Lay.prim 1 1 (.range 2 255 0) .saturator false]
    (cPlace 0 fs).map Prod.fst = [0, 4, 8] ∧ (structOf fs).size = 12 ∧ (structOf fs).align = 4 ∧
      (structOf fs).ub = [(1, 255), (2, 255), (3, 255), (9, 255), (10, 255), (11, 255)] := by decide +kernel

theorem alignOf_pow2 (fuel n : Nat) (h : n ≤ fuel) (hn : Pow2 n) : alignOf fuel n = n := by
  induction fuel generalizing n with
  | zero => have := hn.pos; omega
  | succ fuel ih =>
    unfold alignOf
    obtain ⟨k, rfl⟩ := hn
    cases k with
    | zero => simp
    | succ k =>
      have h2 : 2 ^ (k + 1) / 2 = 2 ^ k := by rw [Nat.pow_succ]; omega
      have hk : 0 < 2 ^ k := Nat.two_pow_pos k
      rw [if_pos (by rw [Nat.pow_succ]; omega), h2, ih (2 ^ k) (by rw [Nat.pow_succ] at h; omega) ⟨k, rfl⟩, Nat.pow_succ]
      omega

/-- `#[repr(align(n))]` on a struct with fields: alignment `max(n, C alignment)`, size rounded up to it. -/
theorem C04_repr_align (n : Nat) (hn : Pow2 n) (fs : List Lay) (hne : fs ≠ []) (hf : ∀ f ∈ fs, 0 < f.align) :
    (alignedStructOf n fs).align = max n (cAlign fs) ∧
      (alignedStructOf n fs).size = alignUp (cEnd 0 fs) (max n (cAlign fs)) := by
  cases fs with
  | nil => exact absurd rfl hne
  | cons f fs =>
    have ha := hf f (by simp)
    have h1 := nest_align' (acc := f) (fs := fs) ha
    have h2 := nest_size (acc := f) (fs := fs) (fun g hg => hf g (by simp [hg]))
    have h0 : alignUp 0 f.align = 0 := by rw [← nextMul_eq ha, nextMul_zero]
    simp only [alignedStructOf, Lay.alignedStruct, alignOf_pow2 n n (Nat.le_refl _) hn, h1, h2, cAlign, cEnd, h0,
      Nat.zero_add, true_and]
    exact nextMul_eq (by have := hn.pos; omega)

example : (alignedStructOf 16 [Lay.prim 1 1 .none .b0 false]).size = 16 := by decide +kernel

/-- On a struct without fields, `#[repr(align(n))]` is ignored by the computed layout, while the compiler
honours it: the computed alignment is 1. -/
theorem C04_repr_align_empty_refuted (n : Nat) (h : 1 < n) : (alignedStructOf n []).align ≠ max n (cAlign []) := by
  show 1 ≠ _
  omega
example : (alignedStructOf 16 []).align = 1 ∧ max 16 (cAlign []) = 16 := by decide

/-! ### C07 -/

theorem nestUnion_facts (acc : Lay) (fs : List Lay) (ha : Pow2 acc.align) (hf : ∀ f ∈ fs, Pow2 f.align)
    (hm : acc.size % acc.align = 0) :
    (nestUnion acc fs).align = max acc.align (cAlign fs) ∧
      (nestUnion acc fs).size = alignUp (max acc.size (cMaxSize fs)) (max acc.align (cAlign fs)) := by
  induction fs generalizing acc with
  | nil =>
    have h1 := ha.pos
    have h2 : max acc.align 1 = acc.align := by omega
    refine ⟨by simp only [nestUnion, cAlign]; omega, ?_⟩
    simp only [nestUnion, cAlign, cMaxSize, h2, Nat.max_zero]
    rw [← nextMul_eq h1, nextMul_self hm]
  | cons f fs ih =>
    have hfa := hf f (by simp)
    have hma : Pow2 (max acc.align f.align) := ha.max hfa
    have := ih (acc.union f) hma (fun g hg => hf g (by simp [hg])) (nextMul_mod hma.pos)
    refine ⟨by rw [nestUnion, this.1]; simp only [Lay.union, cAlign]; omega, ?_⟩
    rw [nestUnion, this.2]
    simp only [Lay.union, cAlign, cMaxSize]
    have hc : Pow2 (cAlign fs) := by
      clear this ih hm
      induction fs with
      | nil => exact ⟨0, rfl⟩
      | cons g fs ih => exact (hf g (by simp)).max (ih (fun x hx => hf x (by
          rcases List.mem_cons.1 hx with rfl | hx
          · simp
          · simp [hx])))
    have hbig := hma.max hc
    have hd : max acc.align f.align ∣ max (max acc.align f.align) (cAlign fs) := hma.dvd_max_left hc
    rw [← nextMul_eq hbig.pos, show max acc.align (max f.align (cAlign fs)) = max (max acc.align f.align) (cAlign fs) by omega,
      ← nextMul_eq hbig.pos, nextMul_eq hma.pos]
    -- rounding the partial maximum up to a divisor of the final alignment does not change the result
    generalize max acc.align f.align = a at *
    generalize max a (cAlign fs) = A at *
    have key : ∀ n, nextMul (alignUp n a) A = nextMul n A := by
      intro n
      obtain ⟨q, rfl⟩ := hd
      have hq : 0 < q := Nat.pos_of_mul_pos_left hbig.pos
      rw [nextMul_eq hbig.pos, nextMul_eq hbig.pos]
      simp only [alignUp]
      congr 1
      have e1 : (n + a - 1) / a * a + a * q - 1 = (a - 1) + a * ((n + a - 1) / a + (q - 1)) := by
        rw [Nat.mul_add, Nat.mul_sub, Nat.mul_one, Nat.mul_comm a ((n + a - 1) / a)]
        have := hma.pos
        have : a ≤ a * q := Nat.le_mul_of_pos_right a hq
        omega
      have e3 : (a - 1) / a = 0 := Nat.div_eq_of_lt (by have := hma.pos; omega)
      rw [e1, ← Nat.div_div_eq_div_mul, Nat.add_mul_div_left _ _ hma.pos, e3, Nat.zero_add]
      have e2 : n + a * q - 1 = (n + a - 1) + a * (q - 1) := by
        rw [Nat.mul_sub, Nat.mul_one]
        have := hma.pos
        have : a ≤ a * q := Nat.le_mul_of_pos_right a hq
        omega
      rw [e2, ← Nat.div_div_eq_div_mul, Nat.add_mul_div_left _ _ hma.pos]
    have mono : ∀ x y, x ≤ y → nextMul x A ≤ nextMul y A := by
      intro x y h
      rw [nextMul_eq hbig.pos, nextMul_eq hbig.pos]
      simp only [alignUp]
      exact Nat.mul_le_mul_right _ (Nat.div_le_div_right (by omega))
    have hmax : ∀ x y, nextMul (max x y) A = max (nextMul x A) (nextMul y A) := by
      intro x y
      rcases Nat.le_total x y with h | h
      · rw [Nat.max_eq_right h, Nat.max_eq_right (mono _ _ h)]
      · rw [Nat.max_eq_left h, Nat.max_eq_left (mono _ _ h)]
    rw [hmax, key, ← hmax]
    congr 1
    omega

/-- A `#[stabby] union` has the size and alignment of the C union, and reports no unused bit and no
forbidden value, so nothing is ever stored in its niches. -/
theorem C07_union (members : List Lay) (hf : ∀ f ∈ members, Pow2 f.align) :
    (unionOf members).size = cUnionSize members ∧ (unionOf members).align = cAlign members ∧
      (∀ i b, ¬ (unionOf members).ub.Unused i b) ∧ (∀ m, ¬ (unionOf members).fv.Forbids m) := by
  obtain ⟨h1, h2⟩ := nestUnion_facts Lay.unit members ⟨0, rfl⟩ hf (by decide)
  have hc : 1 ≤ cAlign members := by
    clear h1 h2 hf
    induction members with
    | nil => exact Nat.le_refl _
    | cons f fs ih => simp only [cAlign]; omega
  have e1 : max Lay.unit.align (cAlign members) = cAlign members := by simp only [Lay.unit]; omega
  have e2 : max Lay.unit.size (cMaxSize members) = cMaxSize members := by simp [Lay.unit]
  rw [e1] at h1 h2
  rw [e2] at h2
  exact ⟨h2, h1, fun i b ⟨v, hm, _⟩ => by simp [unionOf] at hm, fun m h => h⟩

example : (unionOf [Lay.prim 5 1 .none .b0 false, Lay.prim 4 4 .none .b0 false]).size = 8 ∧
    (unionOf [Lay.prim 1 1 (.range 2 255 0) .b0 false, Lay.prim 1 1 (.range 2 255 0) .b0 false]).fv = .none := by
  decide +kernel

/-! ### C08 -/

/-- Where the compiler puts a payload of alignment `a` in a `#[repr(uN)]` enum with a tag of `tag` bytes:
each variant is its own `repr(C)` struct starting with the tag (RFC 2195). -/
def primReprOffset (tag a : Nat) : Nat := alignUp tag a

/-- Where the compiler puts the payloads of a `#[repr(C, uN)]` enum: the tag is followed by one union of
all the payloads (RFC 2195). -/
def cReprOffset (tag : Nat) (payloads : List Lay) : Nat := alignUp tag (cAlign payloads)

theorem cAlign_pow2 {fs : List Lay} (hf : ∀ f ∈ fs, Pow2 f.align) : Pow2 (cAlign fs) ∧ ∀ f ∈ fs, f.align ≤ cAlign fs := by
  induction fs with
  | nil => exact ⟨⟨0, rfl⟩, by simp⟩
  | cons g l ih =>
    obtain ⟨i1, i2⟩ := ih (fun f h => hf f (by simp [h]))
    refine ⟨(hf g (by simp)).max i1, ?_⟩
    intro f hf
    simp only [cAlign]
    rcases List.mem_cons.1 hf with rfl | hf
    · omega
    · have := i2 f hf; omega

theorem size_le_cMaxSize {fs : List Lay} {f : Lay} (h : f ∈ fs) : f.size ≤ cMaxSize fs := by
  induction fs with
  | nil => simp at h
  | cons g l ih =>
    simp only [cMaxSize]
    rcases List.mem_cons.1 h with rfl | h
    · omega
    · have := ih h; omega

theorem nestUnion_good (acc : Lay) (fs : List Lay) (ha : acc.Good) (hf : ∀ f ∈ fs, f.Good) : (nestUnion acc fs).Good := by
  induction fs generalizing acc with
  | nil => exact ha
  | cons f fs ih => exact ih _ (ha.union (hf f (by simp))) (fun g hg => hf g (by simp [hg]))

theorem nestUnion_ub (acc : Lay) (l : List Lay) (h : acc.ub = []) : (nestUnion acc l).ub = [] := by
  induction l generalizing acc with
  | nil => exact h
  | cons f l ih => exact ih _ rfl

/-- The bits stabby reports unused in an explicit-repr enum: those of the bytes that are neither in the tag
nor in the union placed after it. -/
theorem enumOf_unused {tag : Nat} {payloads : List Lay} (hp : Pow2 tag) (hf : ∀ f ∈ payloads, f.Good) {i b : Nat}
    (hb : b < 8) :
    (enumOf (Lay.prim tag tag .none .b0 false) payloads).ub.Unused i b →
      tag ≤ i ∧ ¬ (cReprOffset tag payloads ≤ i ∧ i < cReprOffset tag payloads + cUnionSize payloads) := by
  have hu := C07_union payloads (fun f h => (hf f h).align)
  have hsz : (nestUnion Lay.unit payloads).size = cUnionSize payloads := hu.1
  have hal : (nestUnion Lay.unit payloads).align = cAlign payloads := hu.2.1
  have gt : (Lay.prim tag tag .none .b0 false).Good := Lay.Good.prim hp trivial (by simp [Fv.offsets])
  have gu := nestUnion_good Lay.unit payloads Lay.Good.unit hf
  have hub := nestUnion_ub Lay.unit payloads rfl
  have key := C04_unused_bits [Lay.prim tag tag .none .b0 false, nestUnion Lay.unit payloads]
    (by intro f h; simp only [List.mem_cons, List.not_mem_nil, or_false] at h; rcases h with rfl | rfl <;> assumption)
    i b hb
  have h0 : alignUp 0 tag = 0 := by rw [← nextMul_eq hp.pos, nextMul_zero]
  have hpl : cPlace 0 [Lay.prim tag tag .none .b0 false, nestUnion Lay.unit payloads] =
      [(0, Lay.prim tag tag .none .b0 false), (cReprOffset tag payloads, nestUnion Lay.unit payloads)] := by
    simp [cPlace, Lay.prim, h0, hal, cReprOffset]
  intro h
  rcases key.1 h with ⟨o, f, j, hm, _, hj⟩ | ⟨_, hc⟩
  · rw [hpl] at hm
    simp only [List.mem_cons, Prod.mk.injEq, List.not_mem_nil, or_false] at hm
    obtain ⟨v, hv, _⟩ := hj
    rcases hm with ⟨_, rfl⟩ | ⟨_, rfl⟩
    · simp [Lay.prim] at hv
    · rw [hub] at hv; simp at hv
  · rw [hpl] at hc
    constructor
    · apply Nat.le_of_not_lt
      intro hlt
      exact hc ⟨0, Lay.prim tag tag .none .b0 false, by simp, by omega, by simp only [Lay.prim]; omega⟩
    · rintro ⟨h1, h2⟩
      exact hc ⟨cReprOffset tag payloads, nestUnion Lay.unit payloads, by simp, h1, by rw [hsz]; exact h2⟩

/-- For `#[repr(C, uN)]` enums: no bit of the tag nor of any payload, where the compiler puts them, is
reported unused.  What is missing from C08: `#[repr(uN)]` (see `C08_repr_u_iff` and `C08_repr_u_refuted`). -/
theorem C08_repr_c_partial (tag : Nat) (hp : Pow2 tag) (payloads : List Lay) (hf : ∀ f ∈ payloads, f.Good) :
    let E := enumOf (Lay.prim tag tag .none .b0 false) payloads
    (∀ i b, i < tag → b < 8 → ¬ E.ub.Unused i b) ∧
      ∀ f ∈ payloads, ∀ j b, j < f.size → b < 8 → ¬ E.ub.Unused (cReprOffset tag payloads + j) b := by
  refine ⟨fun i b hi hb h => ?_, fun f hm j b hj hb h => ?_⟩
  · have := (enumOf_unused hp hf hb h).1; omega
  · have h1 := size_le_cMaxSize hm
    have h2 := le_alignUp (n := cMaxSize payloads) (cAlign_pow2 (fun f h => (hf f h).align)).1.pos
    have h3 := (enumOf_unused hp hf hb h).2
    exact h3 ⟨by omega, by unfold cUnionSize; omega⟩

example : (enumOf (Lay.prim 1 1 .none .b0 false) [Lay.prim 1 1 .none .b0 false, Lay.prim 4 4 .none .b0 false]).ub =
    [(1, 255), (2, 255), (3, 255)] ∧
    cReprOffset 1 [Lay.prim 1 1 .none .b0 false, Lay.prim 4 4 .none .b0 false] = 4 := by decide +kernel

/-- For `#[repr(uN)]` enums, the niches miss the payload of a variant exactly when the payload is empty or
is placed by the compiler where the union of all the payloads would be. -/
theorem C08_repr_u_iff (tag : Nat) (hp : Pow2 tag) (payloads : List Lay) (hf : ∀ f ∈ payloads, f.Good) (f : Lay)
    (hm : f ∈ payloads) :
    (∀ j b, j < f.size → b < 8 → ¬ (enumOf (Lay.prim tag tag .none .b0 false) payloads).ub.Unused
      (primReprOffset tag f.align + j) b) ↔
    f.size = 0 ∨ primReprOffset tag f.align = cReprOffset tag payloads := by
  have hpw := cAlign_pow2 (fun f h => (hf f h).align)
  have hfa := (hf f hm).align
  constructor
  · intro h
    by_cases h0 : f.size = 0
    · exact .inl h0
    · right
      have hle : primReprOffset tag f.align ≤ cReprOffset tag payloads := by
        unfold primReprOffset cReprOffset
        rw [← nextMul_eq hfa.pos, ← nextMul_eq hpw.1.pos]
        exact Lay.nextMul_le_of_dvd hfa.pos hpw.1.pos (hfa.dvd_of_le hpw.1 (hpw.2 f hm))
      apply Nat.le_antisymm hle
      apply Nat.le_of_not_lt
      intro hlt
      apply h 0 0 (by omega) (by omega)
      -- the first byte of the payload is between the tag and the union
      have hu := C07_union payloads (fun f h => (hf f h).align)
      have hal : (nestUnion Lay.unit payloads).align = cAlign payloads := hu.2.1
      have gt : (Lay.prim tag tag .none .b0 false).Good := Lay.Good.prim hp trivial (by simp [Fv.offsets])
      have gu := nestUnion_good Lay.unit payloads Lay.Good.unit hf
      refine (C04_unused_bits [Lay.prim tag tag .none .b0 false, nestUnion Lay.unit payloads]
        (by intro f h; simp only [List.mem_cons, List.not_mem_nil, or_false] at h; rcases h with rfl | rfl <;> assumption)
        _ 0 (by omega)).2 (.inr ?_)
      have h0 : alignUp 0 tag = 0 := by rw [← nextMul_eq hp.pos, nextMul_zero]
      have hpl : cPlace 0 [Lay.prim tag tag .none .b0 false, nestUnion Lay.unit payloads] =
          [(0, Lay.prim tag tag .none .b0 false), (cReprOffset tag payloads, nestUnion Lay.unit payloads)] := by
        simp [cPlace, Lay.prim, h0, hal, cReprOffset]
      have htag := le_alignUp (n := tag) hfa.pos
      have hend := (place_ge (c := 0) (fs := [Lay.prim tag tag .none .b0 false, nestUnion Lay.unit payloads])
        (by intro f h; simp only [List.mem_cons, List.not_mem_nil, or_false] at h
            rcases h with rfl | rfl
            · exact hp.pos
            · exact gu.align.pos) (o := cReprOffset tag payloads) (f := nestUnion Lay.unit payloads)
        (by rw [hpl]; simp)).2
      constructor
      · have hA : 0 < cAlign [Lay.prim tag tag .none .b0 false, nestUnion Lay.unit payloads] := by
          simp only [cAlign, Lay.prim]; have := hp.pos; omega
        have := le_alignUp (n := cEnd 0 [Lay.prim tag tag .none .b0 false, nestUnion Lay.unit payloads]) hA
        unfold cStructSize; omega
      · rw [hpl]
        rintro ⟨o, g, hg, h1, h2⟩
        simp only [List.mem_cons, Prod.mk.injEq, List.not_mem_nil, or_false] at hg
        rcases hg with ⟨rfl, rfl⟩ | ⟨rfl, rfl⟩
        · simp only [Lay.prim, primReprOffset] at h2; omega
        · omega
  · rintro (h | h) j b hj hb
    · omega
    · rw [h]; exact (C08_repr_c_partial tag hp payloads hf).2 f hm j b hj hb

/-- `#[repr(u8)] enum E { A(u8), B(u32) }`: the compiler puts the payload of `A` at byte 1, which is
reported unused although stabby's and the compiler's size and alignment agree. -/
theorem C08_repr_u_refuted : ∃ payloads : List Lay, ∃ f ∈ payloads, 0 < f.size ∧
    (enumOf (Lay.prim 1 1 .none .b0 false) payloads).ub.Unused (primReprOffset 1 f.align) 0 ∧
    (enumOf (Lay.prim 1 1 .none .b0 false) payloads).size = 8 :=
  ⟨[Lay.prim 1 1 .none .b0 false, Lay.prim 4 4 .none .b0 false], Lay.prim 1 1 .none .b0 false, by simp,
    by decide, ⟨255, by decide +kernel, by decide⟩, by decide +kernel⟩

/-! ### C54 -/

/-- `is_invalid` never rejects an image that is not forbidden. -/
theorem C54_is_invalid_sound_partial (f : Fv) (m : Mem) (h : f.isInvalid m = true) : f.Forbids m := by
  induction f with
  | none => simp [Fv.isInvalid] at h
  | byte o v r ih =>
    simp only [Fv.isInvalid, Bool.and_eq_true, decide_eq_true_eq] at h
    rw [Fv.forbids_byte]
    exact ⟨h.1, .inr (ih h.2)⟩
  | or a b iha ihb =>
    simp only [Fv.isInvalid, Bool.or_eq_true] at h
    exact h.elim (fun h => .inl (iha h)) (fun h => .inr (ihb h))
  | range mn mx o =>
    simp only [Fv.isInvalid, Bool.and_eq_true, decide_eq_true_eq] at h
    exact h

example : (Fv.range 2 255 0).isInvalid (fun _ => 7) = true := by decide

/-- The alternatives of a forbidden value. -/
def alternatives : Fv → List Fv
  | .or a b => alternatives a ++ alternatives b
  | f => [f]

/-- Exactly what `is_invalid` sees: the forbidden ranges among the alternatives. -/
theorem C54_is_invalid_iff (f : Fv) (hf : f.WF) (m : Mem) :
    f.isInvalid m = true ↔ ∃ mn mx o, Fv.range mn mx o ∈ alternatives f ∧ mn ≤ m o ∧ m o ≤ mx := by
  induction f with
  | none => simp [Fv.isInvalid, alternatives]
  | byte o v r ih =>
    have hb : ∀ r : Fv, r.IsBytes → r.isInvalid m = false := by
      intro r h
      induction r with
      | none => rfl
      | byte o v r ih => simp [Fv.isInvalid, ih h]
      | or => exact h.elim
      | range => exact h.elim
    have : r.isInvalid m = false := hb r (by obtain ⟨h1, h2, h3⟩ := hf; first | exact h1 | exact h2 | exact h3)
    simp [Fv.isInvalid, alternatives, this]
  | or a b iha ihb =>
    simp only [Fv.isInvalid, Bool.or_eq_true, alternatives, List.mem_append, iha hf.1, ihb hf.2]
    constructor
    · rintro (⟨mn, mx, o, h, h'⟩ | ⟨mn, mx, o, h, h'⟩)
      · exact ⟨mn, mx, o, .inl h, h'⟩
      · exact ⟨mn, mx, o, .inr h, h'⟩
    · rintro ⟨mn, mx, o, h | h, h'⟩
      · exact .inl ⟨mn, mx, o, h, h'⟩
      · exact .inr ⟨mn, mx, o, h, h'⟩
  | range mn mx o =>
    simp only [Fv.isInvalid, Bool.and_eq_true, decide_eq_true_eq, alternatives, List.mem_singleton, Fv.range.injEq]
    constructor
    · intro h; exact ⟨mn, mx, o, ⟨rfl, rfl, rfl⟩, h⟩
    · rintro ⟨_, _, _, ⟨rfl, rfl, rfl⟩, h⟩; exact h

/-- So for types all of whose forbidden values are ranges, such as `bool`, `Ordering` and structures of them, it is exact. -/
theorem C54_ranges (f : Fv) (hf : ∀ g ∈ alternatives f, g = .none ∨ ∃ mn mx o, g = .range mn mx o) (m : Mem) :
    f.isInvalid m = true ↔ f.Forbids m := by
  refine ⟨C54_is_invalid_sound_partial f m, fun h => ?_⟩
  induction f with
  | none => exact h.elim
  | byte o v r => rcases hf _ (List.mem_singleton.mpr rfl) with h | ⟨_, _, _, h⟩ <;> cases h
  | or a b iha ihb =>
    simp only [alternatives, List.mem_append] at hf
    simp only [Fv.isInvalid, Bool.or_eq_true]
    exact h.elim (fun h => .inl (iha (fun g hg => hf g (.inl hg)) h)) (fun h => .inr (ihb (fun g hg => hf g (.inr hg)) h))
  | range mn mx o =>
    simp only [Fv.isInvalid, Bool.and_eq_true, decide_eq_true_eq]
    exact h
example : let f := (Lay.tuple2 (Lay.prim 1 1 (.range 2 255 0) .saturator false) (Lay.prim 1 1 (.range 2 254 0) .b0 false)).fv
    alternatives f = [.range 2 255 0, .range 2 254 1] ∧ f.isInvalid (fun i => if i = 1 then 3 else 1) = true := by decide +kernel

/-- `is_invalid` misses every forbidden value given by a list of bytes: it says that a zero is a valid
`NonZeroU8`. -/
theorem C54_is_invalid_complete_refuted :
    (∃ (f : Fv) (m : Mem), f.Forbids m ∧ f.isInvalid m = false) ∧ ∀ (f : Fv) (m : Mem), f.IsBytes → f.isInvalid m = false := by
  refine ⟨⟨.byte 0 0 .none, fun _ => 0, rfl, by decide⟩, ?_⟩
  intro f m h
  induction f with
  | none => rfl
  | byte o v r ih => simp [Fv.isInvalid, ih h]
  | or => exact h.elim
  | range => exact h.elim

end Verif.Props.Layout
