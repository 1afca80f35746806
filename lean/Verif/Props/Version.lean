import Verif.Build.Version
import Mathlib.Data.Nat.Prime.Basic
import Mathlib.Data.Nat.Prime.Defs
import Mathlib.Data.Nat.GCD.Basic
import Mathlib.Tactic.Ring

/-! Property C115. -/
namespace Verif.Props.Version
open Verif.Build.Version

/-- What README.md:160 says a version is, at each level. -/
def level (api abi : Nat) : Nat := 2 ^ api * 3 ^ abi

def encode (api abi : V) : V := ⟨level api.major abi.major, level api.minor abi.minor, level api.patch abi.patch⟩

/-- Order of versions (semver.org, 11.2). -/
def Le (v w : V) : Prop :=
  v.major < w.major ∨ v.major = w.major ∧ (v.minor < w.minor ∨ v.minor = w.minor ∧ v.patch ≤ w.patch)

/-- What cargo accepts for a requirement `v`, if the major version is not zero. -/
def Caret (v w : V) : Prop := w.major = v.major ∧ Le v w

/-! ### Numbers -/

theorem odd3 (b : Nat) : 3 ^ b % 2 = 1 := by
  induction b with
  | zero => rfl
  | succ b ih => rw [Nat.pow_succ]; omega

theorem two_mod (a : Nat) : 2 ^ a % 3 ≠ 0 := by
  induction a with
  | zero => decide
  | succ a ih => rw [Nat.pow_succ]; omega

theorem level_pos (a b : Nat) : 0 < level a b := Nat.mul_pos (Nat.two_pow_pos a) (Nat.pow_pos (by decide))

theorem level_succ (a b : Nat) : level (a + 1) b = 2 * level a b := by unfold level; rw [Nat.pow_succ]; ring_nf
theorem level_succ' (a b : Nat) : level a (b + 1) = 3 * level a b := by unfold level; rw [Nat.pow_succ]; ring_nf

theorem two_dvd {a b : Nat} : 2 ∣ level a b ↔ 0 < a := by
  cases a with
  | zero =>
    have := odd3 b
    simp only [level, Nat.pow_zero, Nat.one_mul]
    omega
  | succ a => rw [level_succ]; exact ⟨fun _ => by omega, fun _ => Nat.dvd_mul_right _ _⟩

theorem three_dvd {a b : Nat} : 3 ∣ level a b ↔ 0 < b := by
  cases b with
  | zero =>
    have := two_mod a
    simp only [level, Nat.pow_zero, Nat.mul_one]
    omega
  | succ b => rw [level_succ']; exact ⟨fun _ => by omega, fun _ => Nat.dvd_mul_right _ _⟩

theorem level_add (a b c d : Nat) : level (a + c) (b + d) = level a b * level c d := by
  unfold level; rw [Nat.pow_add, Nat.pow_add]; ring_nf

theorem level_inj {a b c d : Nat} (h : level a b = level c d) : a = c ∧ b = d := by
  induction a generalizing c with
  | zero =>
    have hc : c = 0 := by
      have h1 : ¬ 2 ∣ level 0 b := fun h => absurd (two_dvd.1 h) (by decide)
      rw [h, two_dvd] at h1; omega
    subst hc
    refine ⟨rfl, ?_⟩
    simp only [level, Nat.pow_zero, Nat.one_mul] at h
    exact Nat.pow_right_injective (by decide) h
  | succ a ih =>
    have hc : 0 < c := two_dvd.1 (h ▸ two_dvd.2 (Nat.succ_pos a))
    obtain ⟨c, rfl⟩ : ∃ k, c = k + 1 := ⟨c - 1, by omega⟩
    rw [level_succ, level_succ] at h
    obtain ⟨h1, h2⟩ := ih (Nat.eq_of_mul_eq_mul_left (by decide) h)
    exact ⟨by omega, h2⟩

theorem level_le {a b c d : Nat} (h1 : a ≤ c) (h2 : b ≤ d) : level a b ≤ level c d :=
  Nat.mul_le_mul (Nat.pow_le_pow_right (by decide) h1) (Nat.pow_le_pow_right (by decide) h2)

theorem level_lt {a b c d : Nat} (h1 : a ≤ c) (h2 : b ≤ d) (h : a ≠ c ∨ b ≠ d) : level a b < level c d := by
  refine Nat.lt_of_le_of_ne (level_le h1 h2) fun e => ?_
  obtain ⟨e1, e2⟩ := level_inj e
  rcases h with h | h
  · exact h e1
  · exact h e2

/-- **C115.** A version is that of one API and one ABI only. -/
theorem C115_unique {api abi api' abi' : V} (h : encode api abi = encode api' abi') : api = api' ∧ abi = abi' := by
  obtain ⟨a, b, c⟩ := api
  obtain ⟨a', b', c'⟩ := api'
  obtain ⟨d, e, f⟩ := abi
  obtain ⟨d', e', f'⟩ := abi'
  simp only [encode, V.mk.injEq] at h ⊢
  obtain ⟨h1, h2, h3⟩ := h
  have := level_inj h1
  have := level_inj h2
  have := level_inj h3
  omega

/-! ### The script -/

theorem round_exact {a c : Nat} (hc : c < 2 ^ 53) : round53 (2 ^ a * c) = 2 ^ a * c := by
  unfold round53
  split
  · rfl
  · rename_i hq
    dsimp only
    have hne : 2 ^ a * c ≠ 0 := by omega
    have hL : (2 ^ a * c).log2 < a + 53 := (Nat.log2_lt hne).2 (by
      rw [Nat.pow_add]; exact Nat.mul_lt_mul_of_pos_left hc (Nat.two_pow_pos a))
    have hd : 2 ^ ((2 ^ a * c).log2 - 52) ∣ 2 ^ a * c := Nat.dvd_trans (Nat.pow_dvd_pow 2 (by omega)) (Nat.dvd_mul_right _ _)
    rw [Nat.mod_eq_zero_of_dvd hd, if_pos (.inl (Nat.two_pow_pos _)), Nat.div_mul_cancel hd]

theorem loop_two {a b fuel : Nat} (hb : 3 ^ b < 2 ^ 53) (hx : level a b < 2 ^ 1024) (hf : a ≤ fuel) : loop 2 fuel (level a b) = some a := by
  induction a generalizing fuel with
  | zero =>
    cases fuel with
    | zero => rfl
    | succ fuel =>
      have := odd3 b
      simp only [level, Nat.pow_zero, Nat.one_mul] at *
      unfold loop
      rw [if_neg (by omega)]
  | succ a ih =>
    obtain ⟨fuel, rfl⟩ : ∃ k, fuel = k + 1 := ⟨fuel - 1, by omega⟩
    have hp := level_pos a b
    rw [level_succ] at hx ⊢
    have hdiv : divide (2 * level a b) 2 = some (level a b) := by
      unfold divide
      rw [Nat.mul_div_cancel_left _ (by decide)]
      unfold level at hx ⊢
      rw [round_exact hb]
      dsimp only
      rw [if_pos (by omega)]
    unfold loop
    rw [if_pos ⟨by omega, Nat.mul_mod_right _ _⟩, hdiv, Option.bind_some, ih (by omega) (by omega)]
    rfl

theorem loop_three {a b fuel : Nat} (hb : 3 ^ b < 2 ^ 53) (hx : level a b < 2 ^ 1024) (hf : b ≤ fuel) : loop 3 fuel (level a b) = some b := by
  induction b generalizing fuel with
  | zero =>
    cases fuel with
    | zero => rfl
    | succ fuel =>
      have := two_mod a
      simp only [level, Nat.pow_zero, Nat.mul_one] at *
      unfold loop
      rw [if_neg (by omega)]
  | succ b ih =>
    obtain ⟨fuel, rfl⟩ : ∃ k, fuel = k + 1 := ⟨fuel - 1, by omega⟩
    have hp := level_pos a b
    have hb' : 3 ^ b < 2 ^ 53 := by rw [Nat.pow_succ] at hb; omega
    rw [level_succ'] at hx ⊢
    have hdiv : divide (3 * level a b) 3 = some (level a b) := by
      unfold divide
      rw [Nat.mul_div_cancel_left _ (by decide)]
      unfold level at hx ⊢
      rw [round_exact hb']
      dsimp only
      rw [if_pos (by omega)]
    unfold loop
    rw [if_pos ⟨by omega, Nat.mul_mod_right _ _⟩, hdiv, Option.bind_some, ih hb' (by omega) (by omega)]
    rfl

theorem le_log {a b : Nat} : a ≤ (level a b).log2 ∧ b ≤ (level a b).log2 := by
  have hne : level a b ≠ 0 := Nat.ne_of_gt (level_pos a b)
  have h2 : 2 ^ b ≤ 3 ^ b := Nat.pow_le_pow_left (by decide) b
  refine ⟨(Nat.le_log2 hne).2 ?_, (Nat.le_log2 hne).2 ?_⟩
  · exact Nat.le_mul_of_pos_right _ (Nat.pow_pos (by decide))
  · exact Nat.le_trans h2 (Nat.le_mul_of_pos_left _ (Nat.two_pow_pos a))

/-- Numbers that the script can factor: no more than 33 for the ABI, and not too large for a float. -/
def Small (api abi : Nat) : Prop := abi ≤ 33 ∧ level api abi < 2 ^ 1024

theorem factor_level {a b : Nat} (h : Small a b) : factor (level a b) 2 = some a ∧ factor (level a b) 3 = some b := by
  have h3 : 3 ^ b < 2 ^ 53 := Nat.lt_of_le_of_lt (Nat.pow_le_pow_right (by decide) h.1) (by decide)
  have := @le_log a b
  exact ⟨loop_two h3 h.2 (by omega), loop_three h3 h.2 (by omega)⟩

/-- **C115.** The header that the script writes names the API and the ABI that the version is made of.  Missing: numbers that are too large for the floats it
divides with (see `C115_header_refuted`). -/
theorem C115_header_partial (api abi : V) (h1 : Small api.major abi.major) (h2 : Small api.minor abi.minor) (h3 : Small api.patch abi.patch) :
    header (encode api abi) = some (api, abi) := by
  simp only [header, factorVersion, encode, factor_level h1, factor_level h2, factor_level h3]

/-- The headers of the changelog (CHANGELOG.md:1, 5, 8, 75, 78, 85, 92). -/
example : header ⟨36, 2, 2⟩ = some (⟨2, 1, 1⟩, ⟨2, 0, 0⟩) ∧ header ⟨36, 2, 1⟩ = some (⟨2, 1, 0⟩, ⟨2, 0, 0⟩) ∧ header ⟨36, 1, 1⟩ = some (⟨2, 0, 0⟩, ⟨2, 0, 0⟩) ∧
    header ⟨6, 2, 2⟩ = some (⟨1, 1, 1⟩, ⟨1, 0, 0⟩) ∧ header ⟨6, 4, 1⟩ = some (⟨1, 2, 0⟩, ⟨1, 0, 0⟩) ∧ header ⟨6, 2, 1⟩ = some (⟨1, 1, 0⟩, ⟨1, 0, 0⟩) ∧
    header ⟨6, 1, 1⟩ = some (⟨1, 0, 0⟩, ⟨1, 0, 0⟩) := by decide +kernel

/-- Refuted: the script divides floats: the ABI of patch `3 ^ 35` is said to be `0.0.1`, and the API of patch `2 * 3 ^ 34` to be `0.0.4`. -/
theorem C115_header_refuted : header (encode ⟨0, 0, 0⟩ ⟨0, 0, 35⟩) = some (⟨0, 0, 0⟩, ⟨0, 0, 1⟩) ∧
    header (encode ⟨0, 0, 1⟩ ⟨0, 0, 34⟩) = some (⟨0, 0, 4⟩, ⟨0, 0, 34⟩) := by decide +kernel

/-- Refuted: the script stops with an error for quotients that are too large for a float; `2 ^ 1024` is still read. -/
theorem C115_overflow_refuted : header (encode ⟨0, 0, 1025⟩ ⟨0, 0, 0⟩) = none ∧ header (encode ⟨0, 0, 1024⟩ ⟨0, 0, 0⟩) = some (⟨0, 0, 1024⟩, ⟨0, 0, 0⟩) := by
  decide +kernel

/-- Refuted: the script does not refuse versions that are not made of those of an API and an ABI, such as `10.1.1` and `36.0.1`. -/
theorem C115_refuses_refuted : header ⟨10, 1, 1⟩ = some (⟨1, 0, 0⟩, ⟨0, 0, 0⟩) ∧ header ⟨36, 0, 1⟩ = some (⟨2, 0, 0⟩, ⟨2, 0, 0⟩) ∧
    ∀ api abi, encode api abi ≠ ⟨10, 1, 1⟩ ∧ encode api abi ≠ ⟨36, 0, 1⟩ := by
  refine ⟨by decide +kernel, by decide +kernel, fun api abi => ⟨fun h => ?_, fun h => ?_⟩⟩
  · simp only [encode, V.mk.injEq] at h
    obtain ⟨h, _⟩ := h
    have h2 : 0 < api.major := two_dvd.1 (show 2 ∣ level api.major abi.major by rw [h]; decide)
    obtain ⟨k, hk⟩ : ∃ k, api.major = k + 1 := ⟨api.major - 1, by omega⟩
    rw [hk, level_succ] at h
    have h5 : level k abi.major = 5 := by omega
    have hk0 : k = 0 := by
      have : ¬ 2 ∣ level k abi.major := by rw [h5]; decide
      rw [two_dvd] at this; omega
    have hb0 : abi.major = 0 := by
      have : ¬ 3 ∣ level k abi.major := by rw [h5]; decide
      rw [three_dvd] at this; omega
    rw [hk0, hb0] at h5
    exact absurd h5 (by decide)
  · simp only [encode, V.mk.injEq] at h
    have := level_pos api.minor abi.minor
    omega

/-! ### Upgrades -/

/-- **C115.** A release that takes back neither API nor ABI has a greater version. -/
theorem C115_monotone {api abi api' abi' : V} (h1 : Le api api') (h2 : Le abi abi') : Le (encode api abi) (encode api' abi') := by
  unfold Le at h1 h2
  simp only [Le, encode]
  by_cases hM : api.major = api'.major ∧ abi.major = abi'.major
  · rw [hM.1, hM.2]
    refine .inr ⟨rfl, ?_⟩
    by_cases hm : api.minor = api'.minor ∧ abi.minor = abi'.minor
    · rw [hm.1, hm.2]
      exact .inr ⟨rfl, level_le (by omega) (by omega)⟩
    · exact .inl (level_lt (by omega) (by omega) (by omega))
  · exact .inl (level_lt (by omega) (by omega) (by omega))

example : Le ⟨1, 1, 1⟩ ⟨2, 0, 0⟩ ∧ Le ⟨1, 0, 0⟩ ⟨2, 0, 0⟩ ∧ encode ⟨2, 0, 0⟩ ⟨2, 0, 0⟩ = ⟨36, 1, 1⟩ :=
  ⟨.inl (by decide), .inl (by decide), by decide⟩

/-- Dividing a level of the new version by that of the old tells what changed at that level. -/
def TellsChange (api abi api' abi' : Nat) : Prop :=
  level api abi ∣ level api' abi' ∧ (2 ∣ level api' abi' / level api abi ↔ api ≠ api') ∧ (3 ∣ level api' abi' / level api abi ↔ abi ≠ abi')

theorem tells {a b c d : Nat} (h1 : a ≤ c) (h2 : b ≤ d) : TellsChange a b c d := by
  obtain ⟨x, rfl⟩ := Nat.exists_eq_add_of_le h1
  obtain ⟨y, rfl⟩ := Nat.exists_eq_add_of_le h2
  unfold TellsChange
  rw [level_add, Nat.mul_div_cancel_left _ (level_pos a b), two_dvd, three_dvd]
  exact ⟨Nat.dvd_mul_right _ _, by omega, by omega⟩

/-- **C115.** Dividing versions tells whether API or ABI changed (README.md:161), at the first level where one of them did.  Missing: the levels after it (see
`C115_hidden_refuted`). -/
theorem C115_division_partial {api abi api' abi' : V} (h1 : Le api api') (h2 : Le abi abi') :
    TellsChange api.major abi.major api'.major abi'.major ∧
    ((encode api abi).major = (encode api' abi').major → TellsChange api.minor abi.minor api'.minor abi'.minor ∧
      ((encode api abi).minor = (encode api' abi').minor → TellsChange api.patch abi.patch api'.patch abi'.patch)) := by
  unfold Le at h1 h2
  refine ⟨tells (by omega) (by omega), fun hM => ?_⟩
  have hM := level_inj hM
  refine ⟨tells (by omega) (by omega), fun hm => ?_⟩
  have hm := level_inj hm
  exact tells (by omega) (by omega)

/-- From 6.2.2 to 36.1.1 both changed, and 36 / 6 is a multiple of 2 and of 3. -/
example : encode ⟨1, 1, 1⟩ ⟨1, 0, 0⟩ = ⟨6, 2, 2⟩ ∧ encode ⟨2, 0, 0⟩ ⟨2, 0, 0⟩ = ⟨36, 1, 1⟩ ∧ 2 ∣ 36 / 6 ∧ 3 ∣ 36 / 6 := by decide

/-- Refuted: from 6.1.2 to 12.1.3 the ABI changed, but at each level the division leaves a rest or its result is no multiple of 3. -/
theorem C115_hidden_refuted : encode ⟨1, 0, 1⟩ ⟨1, 0, 0⟩ = ⟨6, 1, 2⟩ ∧ encode ⟨2, 0, 0⟩ ⟨1, 0, 1⟩ = ⟨12, 1, 3⟩ ∧ Le ⟨1, 0, 1⟩ ⟨2, 0, 0⟩ ∧ Le ⟨1, 0, 0⟩ ⟨1, 0, 1⟩ ∧
    ¬ 3 * 6 ∣ 12 ∧ ¬ 3 * 1 ∣ 1 ∧ ¬ 3 * 2 ∣ 3 :=
  ⟨by decide, by decide, .inl (by decide), .inr ⟨rfl, .inr ⟨rfl, by decide⟩⟩, by decide, by decide, by decide⟩

theorem le_antisymm {v w : V} (h1 : Le v w) (h2 : Le w v) : v = w := by
  obtain ⟨a, b, c⟩ := v
  obtain ⟨d, e, f⟩ := w
  simp only [Le, V.mk.injEq] at *
  omega

/-- **C115.** If of any two releases one takes back neither API nor ABI of the other, what cargo accepts for a requirement has the same major versions of API
and ABI, and is not behind in either.  The major version is never zero, where cargo would go by the minor version. -/
theorem C115_caret (releases : List (V × V)) (hr : releases.Pairwise fun r s => Le r.1 s.1 ∧ Le r.2 s.2) {r s : V × V} (h1 : r ∈ releases)
    (h2 : s ∈ releases) (h : Caret (encode r.1 r.2) (encode s.1 s.2)) :
    (s.1.major = r.1.major ∧ s.2.major = r.2.major) ∧ Le r.1 s.1 ∧ Le r.2 s.2 ∧ 0 < (encode r.1 r.2).major := by
  have hM := level_inj h.1
  refine ⟨hM, ?_⟩
  have hpos := level_pos r.1.major r.2.major
  have refl : ∀ v, Le v v := fun v => .inr ⟨rfl, .inr ⟨rfl, Nat.le_refl _⟩⟩
  have key : (Le r.1 s.1 ∧ Le r.2 s.2) ∨ (Le s.1 r.1 ∧ Le s.2 r.2) := by
    induction releases with
    | nil => cases h1
    | cons x xs ih =>
      obtain ⟨hx, hxs⟩ := List.pairwise_cons.1 hr
      rcases List.mem_cons.1 h1 with rfl | h1'
      · rcases List.mem_cons.1 h2 with rfl | h2'
        · exact .inl ⟨refl _, refl _⟩
        · exact .inl (hx _ h2')
      · rcases List.mem_cons.1 h2 with rfl | h2'
        · exact .inr (hx _ h1')
        · exact ih hxs h1' h2'
  rcases key with k | k
  · exact ⟨k.1, k.2, hpos⟩
  · obtain ⟨e1, e2⟩ := C115_unique (le_antisymm h.2 (C115_monotone k.1 k.2))
    rw [e1, e2]
    exact ⟨refl _, refl _, by rw [← e1, ← e2]; exact hpos⟩

/-- The releases in the changelog. -/
example : [((⟨1, 0, 0⟩ : V), (⟨1, 0, 0⟩ : V)), (⟨1, 1, 0⟩, ⟨1, 0, 0⟩), (⟨1, 1, 1⟩, ⟨1, 0, 0⟩), (⟨2, 0, 0⟩, ⟨2, 0, 0⟩), (⟨2, 1, 0⟩, ⟨2, 0, 0⟩),
    (⟨2, 1, 1⟩, ⟨2, 0, 0⟩)].Pairwise (fun r s => Le r.1 s.1 ∧ Le r.2 s.2) ∧ Caret (encode ⟨2, 0, 0⟩ ⟨2, 0, 0⟩) (encode ⟨2, 1, 1⟩ ⟨2, 0, 0⟩) := by
  simp [Le, Caret, encode, level]

/-- Refuted: numbers alone do not ensure this: for a requirement of 36.2.1, with API 2.1.0, cargo accepts 36.3.1, with API 2.0.0. -/
theorem C115_caret_refuted : encode ⟨2, 1, 0⟩ ⟨2, 0, 0⟩ = ⟨36, 2, 1⟩ ∧ encode ⟨2, 0, 0⟩ ⟨2, 1, 0⟩ = ⟨36, 3, 1⟩ ∧ Caret ⟨36, 2, 1⟩ ⟨36, 3, 1⟩ ∧
    ¬ Le ⟨2, 1, 0⟩ ⟨2, 0, 0⟩ := by
  refine ⟨by decide, by decide, ⟨rfl, .inr ⟨rfl, .inl (by decide)⟩⟩, ?_⟩
  simp [Le]

end Verif.Props.Version
