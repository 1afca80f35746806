import Verif.Layout.Check
import Verif.Props.Platform
/-! C106: layouts that rustc disagrees with do not compile. -/
namespace Verif.Props.Check
open Verif.Layout Verif.Layout.Platform Verif.Layout.Check

/-- What `check!` is to make sure of. -/
def Agrees (l : Lay) (r : Rustc) : Prop :=
  l.size = r.size ∧ l.align = r.align ∧ (l.oneNiche = .b0 → r.optSize ≠ r.size) ∧ (l.oneNiche = .b1 → r.optSize = r.size ∧ r.optOptSize ≠ r.size)

theorem alignPart_nil (name arch : List Nat) (l : Lay) (r : Rustc) : alignPart name arch l r = [] ↔ l.align % 256 = r.align % 256 := by
  unfold alignPart
  split
  · rename_i h; simp [eol]; exact h
  · rename_i h; simpa using h

theorem sizePart_nil (name arch : List Nat) (l : Lay) (r : Rustc) : sizePart name arch l r = [] ↔ l.size = r.size := by
  unfold sizePart
  split
  · rename_i h; simp [eol]; exact h
  · rename_i h; simpa using h

theorem nichePart_nil (name : List Nat) (l : Lay) (r : Rustc) : nichePart name l r = [] ↔
    (l.oneNiche = .b0 → r.optSize ≠ r.size) ∧ (l.oneNiche = .b1 → r.optSize = r.size ∧ r.optOptSize ≠ r.size) := by
  unfold nichePart
  cases h : l.oneNiche with
  | saturator => simp
  | b0 =>
    by_cases h1 : r.size = r.optSize
    · simp [h1, eol]
    · simp [h1, Ne.symm h1]
  | b1 =>
    by_cases h1 : r.size = r.optSize
    · by_cases h2 : r.size = r.optOptSize
      · simp [h1, ← h2, eol]
      · have h3 : ¬ r.optSize = r.optOptSize := by rw [← h1]; exact h2
        simp [h1, h3, Ne.symm h3]
    · simp [h1, Ne.symm h1, eol]

theorem message_nil (name arch : List Nat) (l : Lay) (r : Rustc) : message name arch l r = [] ↔
    l.align % 256 = r.align % 256 ∧ l.size = r.size ∧
    (l.oneNiche = .b0 → r.optSize ≠ r.size) ∧ (l.oneNiche = .b1 → r.optSize = r.size ∧ r.optOptSize ≠ r.size) := by
  rw [← alignPart_nil name arch, ← sizePart_nil name arch, ← nichePart_nil name]
  simp [message]

theorem compiles_iff (name arch : List Nat) (l : Lay) (r : Rustc) : check name arch l r = .compiles ↔ message name arch l r = [] := by
  unfold check
  split
  · rename_i h
    constructor
    · intro e; cases e
    · intro e; rw [e] at h; simp at h
  · split
    · rename_i h1 h2
      constructor
      · intro e; cases e
      · intro e; rw [e] at h2; simp at h2
    · rename_i h1 h2
      exact ⟨fun _ => List.length_eq_zero_iff.1 (Decidable.not_not.1 h2), fun _ => rfl⟩

/-- C106: a type is accepted exactly if what is declared for it is what rustc says, whatever its name.  Partial: for alignments below 256, the
others being compared by their low bytes. -/
theorem C106_check_partial (name arch : List Nat) (l : Lay) (r : Rustc) (hl : l.align < 256) (hr : r.align < 256) :
    check name arch l r = .compiles ↔ Agrees l r := by
  rw [compiles_iff, message_nil, Nat.mod_eq_of_lt hl, Nat.mod_eq_of_lt hr]
  unfold Agrees
  constructor
  · rintro ⟨h1, h2, h3⟩; exact ⟨h2, h1, h3⟩
  · rintro ⟨h1, h2, h3⟩; exact ⟨h2, h1, h3⟩

/-- `u32` -/
def name32 : List Nat := [117, 51, 50]
/-- `x86_64` -/
def x86 : List Nat := [120, 56, 54, 95, 54, 52]

example : check name32 x86 (declU Platform.x64 .w32) ⟨4, 4, 8, 12⟩ = .compiles := by decide +kernel
example : check name32 x86 (declU Platform.x64 .w32) ⟨4, 2, 6, 8⟩ ≠ .compiles := by decide +kernel

/-- C106 without the bound: sizes and niches are compared in full. -/
theorem C106_sound (name arch : List Nat) (l : Lay) (r : Rustc) (h : check name arch l r = .compiles) :
    l.size = r.size ∧ l.align % 256 = r.align % 256 ∧ (l.oneNiche = .b0 → r.optSize ≠ r.size) ∧
    (l.oneNiche = .b1 → r.optSize = r.size ∧ r.optOptSize ≠ r.size) := by
  obtain ⟨h1, h2, h3⟩ := (message_nil name arch l r).1 ((compiles_iff name arch l r).1 h)
  exact ⟨h2, h1, h3⟩
example : check name32 x86 ⟨4, 4, .none, [], .b1, false⟩ ⟨4, 4, 4, 8⟩ = .compiles := by decide +kernel

/-- C106 does not hold for large alignments: 256 is taken for 512. -/
theorem C106_align_refuted (name arch : List Nat) : ∃ (l : Lay) (r : Rustc), ¬ Agrees l r ∧ check name arch l r = .compiles := by
  refine ⟨⟨512, 256, .none, [], .b0, false⟩, ⟨512, 512, 1024, 1536⟩, ?_, ?_⟩
  · intro h; exact absurd h.2.1 (by decide)
  · rw [compiles_iff, message_nil]; refine ⟨rfl, rfl, ?_, ?_⟩ <;> simp

/-- C106: if all types that `check!` is applied to are accepted for a target, their sizes and alignments are those of the target.  This is what C63
starts from. -/
theorem C106_platform (t : Target) (name : Prim → List Nat) (arch : List Nat) (r : Prim → Rustc)
    (hs : ∀ p, (r p).size = Platform.rustSize t p) (ha : ∀ p, (r p).align = Platform.rustAlign t p)
    (hd : ∀ p ∈ checked, (decl t p).align < 256) (hr : ∀ p ∈ checked, Platform.rustAlign t p < 256)
    (h : ∀ p ∈ checked, check (name p) arch (decl t p) (r p) = .compiles) :
    ∀ p ∈ checked, (decl t p).size = Platform.rustSize t p ∧ (decl t p).align = Platform.rustAlign t p := by
  intro p hp
  obtain ⟨h1, h2, -⟩ := (C106_check_partial (name p) arch (decl t p) (r p) (hd p hp) (by rw [ha]; exact hr p hp)).1 (h p hp)
  exact ⟨h1.trans (hs p), h2.trans (ha p)⟩

/-- The sizes of options on x86-64. -/
def answers (p : Prim) : Rustc :=
  let s := Platform.rustSize Platform.x64 p
  let a := Platform.rustAlign Platform.x64 p
  ⟨s, a, if (decl Platform.x64 p).oneNiche = .b0 then s + a else s, if (decl Platform.x64 p).oneNiche = .b1 then s + a else s + 2 * a⟩
example : (∀ p ∈ checked, (decl Platform.x64 p).align < 256) ∧ (∀ p ∈ checked, Platform.rustAlign Platform.x64 p < 256) ∧
    ∀ p ∈ checked, check name32 x86 (decl Platform.x64 p) (answers p) = .compiles := by decide +kernel

/-! ### The text -/

/-- C106: the literals, as they are in the source. -/
theorem C106_literals :
    alignA = "'s alignment was mis-evaluated by stabby, this is definitely a bug and may cause UB. Please create an issue using this link: https://github.com/ZettaScaleLabs/stabby/issues/new?title=".toList.map Char.toNat ∧
    alignB = "%20misaligned%20on%20".toList.map Char.toNat ∧
    body = "&body=Stabby%20says%20".toList.map Char.toNat ∧
    says = "%2C%20Rust%20says%20".toList.map Char.toNat ∧
    eol = "\r\n".toList.map Char.toNat ∧
    sizeA = "'s size was mis-evaluated by stabby, this is definitely a bug and may cause UB. Please create an issue using this link: https://github.com/ZettaScaleLabs/stabby/issues/new?title=".toList.map Char.toNat ∧
    sizeB = "%20missized%20on%20".toList.map Char.toNat ∧
    nicheA = "'s niches were mis-evaluated by stabby, this is definitely a bug and may cause UB. Please create an issue using this link: https://github.com/ZettaScaleLabs/stabby/issues/new?title=".toList.map Char.toNat ∧
    niche0 = "%20has%20niches%20but%20stabby%20does%20not%20find%20any".toList.map Char.toNat ∧
    niche1 = "%20has%20no%20niches%20but%20stabby%20claims%20one%20found%20exactly".toList.map Char.toNat ∧
    niche2 = "%20has%20multiple%20niches%20but%20stabby%20claims%20one%20found%20exactly".toList.map Char.toNat := by decide +kernel

/-- `Option`s are not smaller than what they hold. -/
def Grows (r : Rustc) : Prop := r.size ≤ r.optSize ∧ r.optSize ≤ r.optOptSize

theorem lengths : alignA.length = 183 ∧ alignB.length = 21 ∧ body.length = 22 ∧ says.length = 20 ∧ eol.length = 2 ∧ sizeA.length = 178 ∧
    sizeB.length = 19 ∧ nicheA.length = 181 ∧ niche0.length = 56 ∧ niche1.length = 68 ∧ niche2.length = 74 := by decide +kernel

/-- C106: the text fits the buffer.  Partial: for names of up to 39 bytes. -/
theorem C106_fits_partial (name arch : List Nat) (l : Lay) (r : Rustc) (hn : name.length ≤ 39) (ha : arch.length ≤ 12) (hr : Grows r) :
    check name arch l r ≠ .outOfBounds := by
  obtain ⟨l1, l2, l3, l4, l5, l6, l7, l8, l9, l10, l11⟩ := lengths
  have h1 : (alignPart name arch l r).length ≤ 342 := by
    unfold alignPart; split
    · simp only [List.length_append, l1, l2, l3, l4, l5, fmt2, List.length_cons, List.length_nil]; omega
    · simp
  have h2 : (sizePart name arch l r).length ≤ 343 := by
    unfold sizePart; split
    · simp only [List.length_append, l6, l7, l3, l4, l5, fmt6, List.length_cons, List.length_nil]; omega
    · simp
  have h3 : (nichePart name l r).length ≤ 335 := by
    unfold nichePart
    cases l.oneNiche with
    | saturator => simp
    | b0 =>
      simp only; split
      · simp only [List.length_append, l8, l9, l5]; omega
      · simp
    | b1 =>
      simp only
      by_cases h4 : r.size = r.optSize
      · rw [if_neg (by simpa using h4)]
        split
        · simp only [List.length_append, l8, l11, l5, List.length_nil]; omega
        · simp
      · have h5 : r.size ≠ r.optOptSize := by have := hr.1; have := hr.2; omega
        rw [if_pos h4, if_neg h5]
        simp only [List.length_append, l8, l10, l5, List.length_nil]; omega
  have h4 : (message name arch l r).length ≤ 1020 := by unfold message; simp only [List.length_append]; omega
  unfold check
  rw [if_neg (by omega)]
  split <;> simp

example : Grows ⟨4, 4, 8, 12⟩ ∧ name32.length ≤ 39 ∧ x86.length ≤ 12 ∧
    check name32 x86 ⟨8, 8, .none, [], .b0, false⟩ ⟨4, 4, 4, 8⟩ ≠ .compiles := by unfold Grows; decide +kernel

/-- C106: for longer names, such as that of the receivers of abi_stable's channels, there may be no text at all.  The program does not compile
nevertheless (`C106_check_partial`). -/
theorem C106_fits_refuted : ∃ (name : List Nat) (l : Lay) (r : Rustc), name.length = 60 ∧ Grows r ∧ check name x86 l r = .outOfBounds :=
  ⟨List.replicate 60 97, ⟨8, 8, .none, [], .b0, false⟩, ⟨4, 4, 4, 8⟩, by decide +kernel, by unfold Grows; decide, by decide +kernel⟩

/-- The number written with these digits. -/
def value (ds : List Nat) : Nat := ds.foldl (fun n d => 10 * n + (d - 48)) 0

/-- C106: sizes are written in decimal.  Partial: sizes below a million. -/
theorem C106_digits_partial (n : Nat) (h : n < 1000000) : value (fmt6 n) = n ∧ (fmt6 n).length = 6 ∧ ∀ d ∈ fmt6 n, 48 ≤ d ∧ d ≤ 57 := by
  refine ⟨?_, rfl, ?_⟩
  · simp only [value, fmt6, List.foldl_cons, List.foldl_nil]; omega
  · intro d hd
    simp only [fmt6, List.mem_cons, List.not_mem_nil, or_false] at hd
    omega
example : fmt6 65536 = [48, 54, 53, 53, 51, 54] := by decide

/-- C106: so are alignments, below 100. -/
theorem C106_align_digits_partial (n : Nat) (h : n < 100) : value (fmt2 n) = n ∧ ∀ d ∈ fmt2 n, 48 ≤ d ∧ d ≤ 57 := by
  refine ⟨?_, ?_⟩
  · simp only [value, fmt2, List.foldl_cons, List.foldl_nil]; omega
  · intro d hd
    simp only [fmt2, List.mem_cons, List.not_mem_nil, or_false] at hd
    omega
example : fmt2 16 = [49, 54] := by decide

/-- C106: the text about a wrong size names the type, the architecture, what stabby says and what Rust says, in this order. -/
theorem C106_size_text (name arch : List Nat) (l : Lay) (r : Rustc) (h : l.size ≠ r.size) :
    ∃ before after, message name arch l r = before ++ (name ++ sizeA ++ name ++ sizeB ++ arch ++ body ++ fmt6 l.size ++ says ++ fmt6 r.size ++ eol) ++ after := by
  refine ⟨alignPart name arch l r, nichePart name l r, ?_⟩
  unfold message sizePart
  rw [if_pos h]
example : (⟨8, 8, .none, [], .b0, false⟩ : Lay).size ≠ (⟨4, 8, 16, 24⟩ : Rustc).size := by decide

/-- C106: so does that about a wrong alignment. -/
theorem C106_align_text (name arch : List Nat) (l : Lay) (r : Rustc) (h : l.align ≠ r.align) (hl : l.align < 256) (hr : r.align < 256) :
    ∃ after, message name arch l r = (name ++ alignA ++ name ++ alignB ++ arch ++ body ++ fmt2 l.align ++ says ++ fmt2 r.align ++ eol) ++ after := by
  refine ⟨sizePart name arch l r ++ nichePart name l r, ?_⟩
  unfold message alignPart
  rw [Nat.mod_eq_of_lt hl, Nat.mod_eq_of_lt hr, if_pos h, List.append_assoc]
example : (⟨8, 8, .none, [], .b0, false⟩ : Lay).align ≠ (⟨8, 4, 12, 16⟩ : Rustc).align := by decide

/-- C106: and what is said about niches. -/
theorem C106_niche_text (name arch : List Nat) (l : Lay) (r : Rustc) :
    (l.oneNiche = .b0 → r.size = r.optSize → ∃ before, message name arch l r = before ++ (name ++ nicheA ++ name ++ niche0 ++ eol)) ∧
    (l.oneNiche = .b1 → r.size ≠ r.optSize → r.size ≠ r.optOptSize → ∃ before, message name arch l r = before ++ (name ++ nicheA ++ name ++ niche1 ++ eol)) ∧
    (l.oneNiche = .b1 → r.size = r.optOptSize → ∃ before, message name arch l r = before ++ (name ++ nicheA ++ name ++ niche2 ++ eol)) := by
  refine ⟨fun h h1 => ⟨alignPart name arch l r ++ sizePart name arch l r, ?_⟩, fun h h1 h2 => ⟨alignPart name arch l r ++ sizePart name arch l r, ?_⟩, fun h h1 => ?_⟩
  · unfold message nichePart; rw [h]; dsimp only; rw [if_pos h1]
  · unfold message nichePart; rw [h]; dsimp only; rw [if_pos h1, if_neg h2, List.append_nil]
  · refine ⟨alignPart name arch l r ++ sizePart name arch l r ++ (if r.size ≠ r.optSize then name ++ nicheA ++ name ++ niche1 ++ eol else []), ?_⟩
    unfold message nichePart; rw [h]; dsimp only; rw [if_pos h1]; simp only [List.append_assoc]

/-- C106: the buffer is of 1024 bytes: longer texts are out of it, and others are the panic's. -/
theorem C106_outcome (name arch : List Nat) (l : Lay) (r : Rustc) :
    (check name arch l r = .outOfBounds ↔ 1024 < (message name arch l r).length) ∧
    ∀ text, check name arch l r = .panics text ↔ message name arch l r = text ∧ text ≠ [] ∧ text.length ≤ 1024 := by
  unfold check
  refine ⟨?_, fun text => ?_⟩
  · split
    · simp_all
    · split <;> simp_all
  · split
    · rename_i h
      simp only [reduceCtorEq, false_iff]
      rintro ⟨rfl, -, h2⟩; omega
    · rename_i h
      split
      · rename_i h1
        simp only [Outcome.panics.injEq]
        exact ⟨fun e => ⟨e, fun e' => h1 (by rw [e, e']; rfl), by rw [← e]; omega⟩, fun e => e.1⟩
      · rename_i h1
        simp only [reduceCtorEq, false_iff]
        rintro ⟨rfl, h2, -⟩
        exact h1 (fun e => h2 (List.length_eq_zero_iff.1 e))

/-- C106: sizes that are a million apart are refused, but the text says that they are the same; an alignment of 128 is written `<8`. -/
theorem C106_text_refuted : ∃ (l : Lay) (r : Rustc), l.size ≠ r.size ∧ fmt6 l.size = fmt6 r.size ∧
    (∃ text, check name32 x86 l r = .panics text) ∧ fmt2 128 = [60, 56] := by
  refine ⟨⟨1000000, 8, .none, [], .b0, false⟩, ⟨0, 8, 8, 16⟩, by decide, by decide, ⟨_, by unfold check; rw [if_neg, if_pos] <;> decide +kernel⟩, by decide⟩

end Verif.Props.Check
