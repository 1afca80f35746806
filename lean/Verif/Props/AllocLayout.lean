import Verif.Alloc.Arith
/-! C47: the layout arithmetic of stabby-abi/src/alloc/mod.rs agrees with the layout rules of C. -/
namespace Verif.Props.AllocLayout
open Verif.Alloc

/-- `r` is the least multiple of `a` that is at least `n`. -/
def IsCeil (n a r : Nat) : Prop := a ∣ r ∧ n ≤ r ∧ ∀ m, a ∣ m → n ≤ m → r ≤ m

/-- `r` is the layout C gives to a struct of a field laid out as `x` followed by one laid out as `y`: the second field goes to
the first offset that suits its alignment, and the size is padded to the larger alignment. -/
def IsCStruct (x y r : Layout) : Prop :=
  r.align = max x.align y.align ∧ ∃ off, IsCeil x.size y.align off ∧ IsCeil (off + y.size) r.align r.size

/-- C47 (`realign`): the size becomes the least multiple of the new alignment that is not smaller, unless that is not a
`usize`. -/
theorem C47_realign (l : Layout) (a : Nat) (ha : 0 < a) (h : l.size + a ≤ 2 ^ 64) :
    (l.realign a).align = a ∧ IsCeil l.size a (l.realign a).size := by
  have := realign_size l a ha h
  exact ⟨rfl, Nat.dvd_of_mod_eq_zero this.1, this.2.1, fun m hm hl => this.2.2.2 m (Nat.mod_eq_zero_of_dvd hm) hl⟩

example : (Layout.realign ⟨33, 4⟩ 16) = ⟨48, 16⟩ := rfl

/-- C47 (`array`): `n` elements, one after the other, unless that is not a `usize`. -/
theorem C47_array (t : Layout) (n : Nat) (h : t.size * n < 2 ^ 64) :
    (t.array n).size = t.size * n ∧ (t.array n).align = t.align ∧
      ∀ i, i < n → t.size * i + t.size ≤ (t.array n).size := by
  have e : (t.array n).size = t.size * n := Nat.mod_eq_of_lt h
  refine ⟨e, rfl, fun i hi => ?_⟩
  rw [e, ← Nat.mul_succ]
  exact Nat.mul_le_mul_left _ hi

example : (Layout.array ⟨12, 4⟩ 5) = ⟨60, 4⟩ := rfl

/-- C47 (`concat`): the C layout of the pair, when the alignments are powers of two and the size of the second part is a multiple
of its alignment, as it is for every Rust type and every array of them.

Partial: the last hypothesis is needed (`C47_concat_refuted`), and so is that the sizes do not overflow
(`C47_overflow_refuted`). -/
theorem C47_concat_partial (x y : Layout) (hx : ∃ k, x.align = 2 ^ k) (hy : ∃ k, y.align = 2 ^ k) (hs : y.align ∣ y.size)
    (h : x.size + y.size + max x.align y.align ≤ 2 ^ 64) : IsCStruct x y (x.concat y) := by
  have px := pow2_pos hx
  have py := pow2_pos hy
  have hc := concat_size x y px h
  have ho := alignOffset_spec x.size y.align py
  refine ⟨concat_align x y, x.size + alignOffset x.size y.align,
    ⟨Nat.dvd_of_mod_eq_zero ho.1, by omega, fun m hm hl => ho.2.2 m (Nat.mod_eq_zero_of_dvd hm) hl⟩, ?_⟩
  rw [concat_align]
  have hd : y.align ∣ max x.align y.align := by
    rcases Nat.le_total x.align y.align with hle | hle
    · rw [Nat.max_eq_right hle]; exact Nat.dvd_refl _
    · rw [Nat.max_eq_left hle]; exact pow2_dvd hy hx hle
  refine ⟨Nat.dvd_of_mod_eq_zero hc.1, ?_, ?_⟩
  · -- the size is a multiple of `y.align` past `x.size + y.size`, so its part past `y.size` is one past `x.size`
    have hm : (x.concat y).size % y.align = 0 := mod_of_dvd_mod hd hc.1
    have hm2 : ((x.concat y).size - y.size) % y.align = 0 :=
      Nat.mod_eq_zero_of_dvd (Nat.dvd_sub (Nat.dvd_of_mod_eq_zero hm) hs)
    have := ho.2.2 _ hm2 (by omega)
    omega
  · intro m hm hl
    exact hc.2.2.2 m (Nat.mod_eq_zero_of_dvd hm) (by omega)

example : IsCStruct ⟨5, 1⟩ ⟨12, 4⟩ (Layout.concat ⟨5, 1⟩ ⟨12, 4⟩) ∧ Layout.concat ⟨5, 1⟩ ⟨12, 4⟩ = ⟨20, 4⟩ :=
  ⟨C47_concat_partial _ _ ⟨0, rfl⟩ ⟨2, rfl⟩ ⟨3, rfl⟩ (by decide), rfl⟩

/-- C47 (`concat`): exactly when the result is the C layout of the pair: the padding behind the second part, which is computed, is not less than that
in front of it, which is not. -/
theorem C47_concat_iff (x y : Layout) (hx : ∃ k, x.align = 2 ^ k) (hy : ∃ k, y.align = 2 ^ k)
    (h : x.size + y.size + max x.align y.align ≤ 2 ^ 64) :
    IsCStruct x y (x.concat y) ↔ alignOffset x.size y.align ≤ alignOffset (x.size + y.size) (max x.align y.align) := by
  have px := pow2_pos hx
  have py := pow2_pos hy
  have hc := concat_size x y px h
  have ho := alignOffset_spec x.size y.align py
  have hm := alignOffset_spec (x.size + y.size) (max x.align y.align) (by omega)
  have he : (x.concat y).size = x.size + y.size + alignOffset (x.size + y.size) (max x.align y.align) := by
    have h1 := hc.2.2.2 _ hm.1 (by omega)
    have h2 := hm.2.2 _ hc.1 hc.2.1
    omega
  constructor
  · rintro ⟨-, off, ⟨hd, hl, hmin⟩, -, h2, -⟩
    have := ho.2.2 off (Nat.mod_eq_zero_of_dvd hd) hl
    omega
  · intro hle
    refine ⟨concat_align x y, x.size + alignOffset x.size y.align,
      ⟨Nat.dvd_of_mod_eq_zero ho.1, by omega, fun m hm hl => ho.2.2 m (Nat.mod_eq_zero_of_dvd hm) hl⟩, ?_⟩
    rw [concat_align]
    refine ⟨Nat.dvd_of_mod_eq_zero hc.1, by omega, fun m hm hl => hc.2.2.2 m (Nat.mod_eq_zero_of_dvd hm) (by omega)⟩

example : alignOffset 5 4 ≤ alignOffset (5 + 12) (max 1 4) := by decide
example : ¬ alignOffset 32 64 ≤ alignOffset (32 + 1) (max 8 64) := by decide

/-- C47 does not hold for arbitrary layouts: `concat` adds the sizes before it considers the alignment of the second part. -/
theorem C47_concat_refuted :
    ∃ x y : Layout, (∃ k, x.align = 2 ^ k) ∧ (∃ k, y.align = 2 ^ k) ∧ x.size + y.size + max x.align y.align ≤ 2 ^ 64 ∧
      ¬ IsCStruct x y (x.concat y) ∧
      -- not even with the alignment of `y` as the only requirement on its place: the pair does not fit
      ∀ off, y.align ∣ off → x.size ≤ off → (x.concat y).size < off + y.size := by
  have key : ∀ off, 64 ∣ off → 32 ≤ off → (Layout.concat ⟨32, 8⟩ ⟨1, 64⟩).size < off + 1 := by
    intro off hd hl
    show 64 < off + 1
    omega
  refine ⟨⟨32, 8⟩, ⟨1, 64⟩, ⟨3, rfl⟩, ⟨6, rfl⟩, by decide, ?_, key⟩
  rintro ⟨_, off, ⟨hd, hl, _⟩, _, h2, _⟩
  exact absurd (key off hd hl) (by simp only at h2; omega)

/-- C47 does not hold past the end of `usize`: in a release build the requested size wraps to something small, and nothing
reports it. -/
theorem C47_overflow_refuted :
    (∃ (t : Layout) (n : Nat), t.size < 2 ^ 64 ∧ n < 2 ^ 64 ∧ (t.array n).size < t.size * n ∧ (t.array n).size = 0) ∧
    (∃ x y : Layout, x.size < 2 ^ 64 ∧ y.size < 2 ^ 64 ∧ (x.concat y).size < x.size) :=
  ⟨⟨⟨8, 8⟩, 2 ^ 61, by decide, by decide, by decide, rfl⟩, ⟨32, 8⟩, ⟨2 ^ 64 - 16, 8⟩, by decide, by decide, by decide⟩

/-- C47 (`next_matching`): the first address that is not below `p` and suits the alignment, unless it is past the end of memory. -/
theorem C47_next_matching (l : Layout) (p : Nat) (ha : 0 < l.align) (h : p + l.align ≤ 2 ^ 64) :
    IsCeil p l.align (l.nextMatching p) := by
  have ho := alignOffset_spec p l.align ha
  have e : l.nextMatching p = p + alignOffset p l.align := Nat.mod_eq_of_lt (by omega)
  rw [e]
  exact ⟨Nat.dvd_of_mod_eq_zero ho.1, by omega, fun m hm hl => ho.2.2 m (Nat.mod_eq_zero_of_dvd hm) hl⟩

example : Layout.nextMatching ⟨0, 16⟩ 33 = 48 := rfl

/-- C47 (`AllocPrefix::skip_to`): the offset of a field that follows the prefix. -/
theorem C47_skip_to (n a : Nat) (ha : 0 < a) : IsCeil n a (skipTo n a) := by
  have h2 := Nat.mod_lt n ha
  unfold skipTo
  by_cases hs : n % a = 0
  · rw [if_neg (by simp [hs])]
    exact ⟨Nat.dvd_of_mod_eq_zero hs, Nat.le_refl _, fun m _ h => h⟩
  · rw [if_pos hs]
    have e : n + a - n % a = n + (a - n % a) := by omega
    rw [e]
    exact ⟨Nat.dvd_of_mod_eq_zero (mod_fill _ _ ha), by omega,
      fun m hm h => least_above _ _ _ ha (Nat.mod_eq_zero_of_dvd hm) h hs⟩

example : skipTo 32 64 = 64 := rfl

end Verif.Props.AllocLayout
