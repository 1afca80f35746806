import Verif.Alloc.Model
/-! Facts about the layout arithmetic of `Verif.Alloc.Model`. -/
namespace Verif.Alloc

theorem mod_fill (s a : Nat) (ha : 0 < a) : (s + (a - s % a)) % a = 0 := by
  have h1 := Nat.div_add_mod s a
  have h2 := Nat.mod_lt s ha
  have : s + (a - s % a) = a * (s / a + 1) := by rw [Nat.mul_add]; omega
  rw [this]; exact Nat.mul_mod_right _ _

/-- Between `s` and a multiple of `a` above it there is at least the distance to the next multiple. -/
theorem least_above (s a m : Nat) (ha : 0 < a) (hm : m % a = 0) (h : s ≤ m) (hs : s % a ≠ 0) : s + (a - s % a) ≤ m := by
  have h2 := Nat.mod_lt s ha
  have h1 := Nat.div_add_mod s a
  have h3 := Nat.div_add_mod m a
  rw [hm] at h3
  have : s / a < m / a := by
    rcases Nat.lt_or_ge (s / a) (m / a) with h4 | h4
    · exact h4
    · have := Nat.mul_le_mul_left a h4
      omega
  have h5 : a * (s / a + 1) ≤ a * (m / a) := Nat.mul_le_mul_left a this
  rw [Nat.mul_add] at h5
  omega

theorem realign_align (l : Layout) (a : Nat) : (l.realign a).align = a := rfl

theorem realign_size (l : Layout) (a : Nat) (ha : 0 < a) (h : l.size + a ≤ W) :
    (l.realign a).size % a = 0 ∧ l.size ≤ (l.realign a).size ∧ (l.realign a).size < l.size + a ∧
      ∀ m, m % a = 0 → l.size ≤ m → (l.realign a).size ≤ m := by
  have h2 := Nat.mod_lt l.size ha
  by_cases hs : l.size % a = 0
  · have : (l.realign a).size = l.size := by
      show (l.size + (a - l.size % a) * (if l.size % a ≠ 0 then 1 else 0)) % W = l.size
      rw [if_neg (by simp [hs])]
      rw [Nat.mod_eq_of_lt (by omega)]; omega
    rw [this]
    exact ⟨hs, Nat.le_refl _, by omega, fun m _ h => h⟩
  · have : (l.realign a).size = l.size + (a - l.size % a) := by
      show (l.size + (a - l.size % a) * (if l.size % a ≠ 0 then 1 else 0)) % W = _
      rw [if_pos hs]
      rw [Nat.mod_eq_of_lt (by omega)]; omega
    rw [this]
    exact ⟨mod_fill _ _ ha, by omega, by omega, fun m hm h => least_above _ _ _ ha hm h hs⟩

theorem concat_align (l o : Layout) : (l.concat o).align = max l.align o.align := by
  show (if l.align < o.align then o.align else l.align) = _
  split <;> omega

theorem concat_size (l o : Layout) (hl : 0 < l.align) (h : l.size + o.size + max l.align o.align ≤ W) :
    (l.concat o).size % max l.align o.align = 0 ∧ l.size + o.size ≤ (l.concat o).size ∧
      (l.concat o).size < l.size + o.size + max l.align o.align ∧
      ∀ m, m % max l.align o.align = 0 → l.size + o.size ≤ m → (l.concat o).size ≤ m := by
  have e : (if l.align < o.align then o.align else l.align) = max l.align o.align := by split <;> omega
  have hw : (l.size + o.size) % W = l.size + o.size := Nat.mod_eq_of_lt (by omega)
  have := realign_size ⟨(l.size + o.size) % W, l.align⟩ (max l.align o.align) (by omega) (by rw [hw]; exact h)
  simp only [hw] at this
  simpa [Layout.concat, e, hw] using this

theorem alignOffset_spec (p a : Nat) (ha : 0 < a) :
    (p + alignOffset p a) % a = 0 ∧ alignOffset p a < a ∧ ∀ m, m % a = 0 → p ≤ m → p + alignOffset p a ≤ m := by
  have h2 := Nat.mod_lt p ha
  by_cases hs : p % a = 0
  · have : alignOffset p a = 0 := by unfold alignOffset; rw [hs]; simp
    rw [this]; exact ⟨by simpa using hs, ha, fun m _ h => by omega⟩
  · have : alignOffset p a = a - p % a := by
      unfold alignOffset; exact Nat.mod_eq_of_lt (by omega)
    rw [this]
    exact ⟨mod_fill _ _ ha, by omega, fun m hm h => least_above _ _ _ ha hm h hs⟩

theorem alignOffset_zero (p a : Nat) (h : p % a = 0) : alignOffset p a = 0 := by
  unfold alignOffset; rw [h]; simp

theorem isPow2_iff (a : Nat) : isPow2 a = true ↔ ∃ k, a = 2 ^ k := by
  unfold isPow2
  constructor
  · intro h; exact ⟨a.log2, by simpa using h⟩
  · rintro ⟨k, rfl⟩; simp [Nat.log2_two_pow]

theorem pow2_dvd {a b : Nat} (ha : ∃ k, a = 2 ^ k) (hb : ∃ k, b = 2 ^ k) (h : a ≤ b) : a ∣ b := by
  obtain ⟨i, rfl⟩ := ha; obtain ⟨j, rfl⟩ := hb
  exact Nat.pow_dvd_pow 2 ((Nat.pow_le_pow_iff_right (by omega)).1 h)

theorem pow2_pos {a : Nat} (ha : ∃ k, a = 2 ^ k) : 0 < a := by
  obtain ⟨i, rfl⟩ := ha; exact Nat.two_pow_pos i

theorem mod_of_dvd_mod {a b x : Nat} (h : a ∣ b) (hx : x % b = 0) : x % a = 0 :=
  Nat.mod_eq_zero_of_dvd (Nat.dvd_trans h (Nat.dvd_of_mod_eq_zero hx))

theorem add_mod_zero {a x y : Nat} (hx : x % a = 0) (hy : y % a = 0) : (x + y) % a = 0 :=
  Nat.mod_eq_zero_of_dvd (Nat.dvd_add (Nat.dvd_of_mod_eq_zero hx) (Nat.dvd_of_mod_eq_zero hy))

end Verif.Alloc
