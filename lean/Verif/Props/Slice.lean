import Verif.Slice.Model

/-! C69: ABI-stable slices and strings are views of the slice that they were made from. -/
namespace Verif.Props.Slice
open Verif.Slice
variable {α : Type}

/-- The elements that a slice has, one by one. -/
def Holds (m : Mem α) (start : Nat) (l : List α) : Prop := ∀ i (h : i < l.length), m (start + i) = some l[i]

theorem contents_iff (m : Mem α) (start : Nat) (l : List α) : contents m start l.length = some l ↔ Holds m start l := by
  induction l generalizing start with
  | nil => simp [contents, Holds]
  | cons x l ih =>
    simp only [List.length_cons, contents]
    constructor
    · intro h
      cases h1 : m start with
      | none => simp [h1] at h
      | some y =>
        cases h2 : contents m (start + 1) l.length with
        | none => simp [h1, h2] at h
        | some k =>
          simp only [h1, h2, Option.some.injEq, List.cons.injEq] at h
          obtain ⟨rfl, rfl⟩ := h
          intro i hi
          cases i with
          | zero => exact h1
          | succ i =>
            have := (ih (start + 1)).mp h2 i (by simpa using hi)
            simpa [Nat.add_assoc, Nat.add_comm 1 i] using this
    · intro h
      have h1 : m start = some x := h 0 (by simp)
      have h2 : Holds m (start + 1) l := by
        intro i hi
        have := h (i + 1) (by simpa using hi)
        simpa [Nat.add_assoc, Nat.add_comm 1 i] using this
      rw [h1, (ih (start + 1)).mpr h2]

theorem contents_length {m : Mem α} {start n : Nat} {l : List α} (h : contents m start n = some l) : l.length = n := by
  induction n generalizing start l with
  | zero => simp only [contents, Option.some.injEq] at h; rw [← h]; rfl
  | succ n ih =>
    simp only [contents] at h
    split at h
    · rename_i hk; cases h; rw [List.length_cons, ih hk]
    · cases h

/-- What a reference holds. -/
theorem get_iff (m : Mem α) (r : Ref) (l : List α) : r.get m = some l ↔ l.length = r.len ∧ Holds m r.start l := by
  constructor
  · intro h
    have e := contents_length h
    refine ⟨e, ?_⟩
    rw [← contents_iff, e]
    exact h
  · rintro ⟨e, h⟩
    rw [← contents_iff, e] at h
    exact h

/-- **C69.** `Slice::new` and `as_slice`, `Str::new` and `as_str` are inverse to each other, for all references, also empty ones. -/
theorem C69_round_trip (m : Mem α) (r : Ref) (h : r.valid m = true) :
    (Slice.new r).asSlice m = some r ∧ Str.asStr m (Slice.new r) = some r ∧ (Slice.ofMut (Slice.new r)).asSlice m = some r := by
  unfold Ref.valid at h
  simp [Slice.new, Slice.ofMut, Slice.asSlice, Str.asStr, fromRawParts, h]

theorem head_isSome {m : Mem α} {r : Ref} (h : r.valid m = true) (hl : r.len ≠ 0) : (m r.start).isSome := by
  obtain ⟨s, n⟩ := r
  cases n with
  | zero => exact absurd rfl hl
  | succ n =>
    simp only [Ref.valid, contents] at h
    split at h
    · rename_i hx _; rw [hx]; rfl
    · cases h

theorem deref_new {m : Mem α} {r : Ref} (h : r.valid m = true) (hl : r.len ≠ 0) : (Slice.new r).deref m = some r := by
  have h' := head_isSome h hl
  unfold Ref.valid at h
  simp [Slice.new, Slice.deref, asRef, fromRawParts, h, h']

/-- **C69 (partial).** All conversions of slices that are not empty give the same memory back. -/
theorem C69_deref_partial (m : Mem α) (r : Ref) (h : r.valid m = true) (hl : r.len ≠ 0) :
    (Slice.new r).deref m = some r ∧ StrMut.deref m (Slice.new r) = some r := ⟨deref_new h hl, deref_new h hl⟩

/-- **C69 (partial).** Slices that are not empty are equal exactly if their elements are, equal slices have equal hashes, which are those of core's slices. -/
theorem C69_eq_partial [DecidableEq α] {β : Type} (m : Mem α) (hash : List α → β) (r s : Ref) (hr : r.valid m = true) (hs : s.valid m = true)
    (hrl : r.len ≠ 0) (hsl : s.len ≠ 0) :
    (Slice.new r).eq m (Slice.new s) = some (decide (r.get m = s.get m)) ∧ Str.eq m (Slice.new r) (Slice.new s) = some (decide (r.get m = s.get m)) ∧
    (Slice.new r).hash m hash = (r.get m).map hash := by
  obtain ⟨l, hl⟩ := Option.isSome_iff_exists.mp hr
  obtain ⟨k, hk⟩ := Option.isSome_iff_exists.mp hs
  have e : (Slice.new r).eq m (Slice.new s) = some (decide (r.get m = s.get m)) := by
    unfold Slice.eq
    rw [deref_new hr hrl, deref_new hs hsl]
    simp only [Ref.get, hl, hk, Option.some.injEq]
    by_cases hlk : l = k <;> simp [hlk]
  refine ⟨e, e, ?_⟩
  unfold Slice.hash
  rw [deref_new hr hrl]

/-- **C69.** Strings compare as core's do, also empty ones. -/
theorem C69_cmp (m : Mem α) (c : List α → List α → Ordering) (r s : Ref) (l k : List α) (hl : r.get m = some l) (hk : s.get m = some k) :
    Str.cmp m c (Slice.new r) (Slice.new s) = some (c l k) := by
  have h1 : r.valid m = true := by unfold Ref.valid; unfold Ref.get at hl; rw [hl]; rfl
  have h2 : s.valid m = true := by unfold Ref.valid; unfold Ref.get at hk; rw [hk]; rfl
  unfold Str.cmp
  rw [(C69_round_trip m r h1).2.1, (C69_round_trip m s h2).2.1]
  simp only [hl, hk]

/-- **C69 (partial).** Writing through a `SliceMut` changes that element of the slice it was made from, and nothing else. -/
theorem C69_write_partial (m : Mem α) (r : Ref) (l : List α) (h : r.get m = some l) (i : Nat) (hi : i < r.len) (x : α) :
    ∃ m', (Slice.new r).set m i x = some m' ∧ r.get m' = some (l.set i x) ∧ ∀ a, a ≠ r.start + i → m' a = m a := by
  have hv : r.valid m = true := by unfold Ref.valid; unfold Ref.get at h; rw [h]; rfl
  refine ⟨fun a => if a = r.start + i then some x else m a, ?_, ?_, ?_⟩
  · unfold Slice.set
    rw [deref_new hv (by omega)]
    simp [hi]
  · obtain ⟨e, hh⟩ := (get_iff m r l).mp h
    rw [get_iff]
    refine ⟨by simpa using e, ?_⟩
    intro j hj
    simp only [List.length_set] at hj
    by_cases hij : j = i
    · subst hij; simp
    · have h1 : ¬ (r.start + j = r.start + i) := by omega
      have h2 : ¬ i = j := fun e => hij e.symm
      simp only [h1, if_false, hh j hj, List.getElem_set, h2]
  · intro a ha
    simp [ha]

/-- **C69, refuted part.** Dereferencing a slice that was made from an empty slice makes a reference to memory that does not belong to it, which is undefined
behaviour when there is nothing: as in `Slice::new(&[])` and `Str::new("") == Str::new("")`. -/
theorem C69_empty_refuted [DecidableEq α] (m : Mem α) (p : Nat) (h : m p = none) :
    (⟨p, 0⟩ : Ref).valid m = true ∧ (Slice.new ⟨p, 0⟩).deref m = none ∧ Str.eq m (Slice.new ⟨p, 0⟩) (Slice.new ⟨p, 0⟩) = none ∧
    StrMut.deref m (Slice.new ⟨p, 0⟩) = none := by
  simp [Ref.valid, contents, Slice.new, Slice.deref, StrMut.deref, Str.eq, Slice.eq, asRef, h]

/-- **C69, refuted part.** The fields of `Slice` and `SliceMut` are public: safe code can lengthen any slice, or make one from nothing, and read what is there. -/
theorem C69_forge_refuted (m : Mem α) (r : Ref) (h : m (r.start + r.len) = none) :
    ∃ s : Slice, s.start = (Slice.new r).start ∧ s.asSlice m = none ∧ s.deref m = none := by
  refine ⟨{ Slice.new r with len := r.len + 1 }, rfl, ?_⟩
  have : contents m r.start (r.len + 1) = none := by
    cases e : contents m r.start (r.len + 1) with
    | none => rfl
    | some l =>
      have hl := contents_length e
      have := (get_iff m ⟨r.start, r.len + 1⟩ l).mp e
      have := this.2 r.len (by rw [hl]; omega)
      simp only at this
      rw [h] at this
      cases this
  constructor
  · simp [Slice.asSlice, Slice.new, fromRawParts, this]
  · simp only [Slice.deref, Slice.new, asRef]
    by_cases hp : (m r.start).isSome
    · simp [hp, fromRawParts, this]
    · simp [hp]

/-- Three elements at the address 8. -/
def exMem : Mem Nat := fun a => if 8 ≤ a ∧ a < 11 then some (a * 10) else none

example : (⟨8, 3⟩ : Ref).valid exMem = true ∧ (⟨8, 3⟩ : Ref).get exMem = some [80, 90, 100] ∧ exMem 1 = none ∧ exMem (8 + 3) = none := by decide

example : ((Slice.new ⟨8, 3⟩).set exMem 1 5).bind (fun m => (⟨8, 3⟩ : Ref).get m) = some [80, 5, 100] := by decide

end Verif.Props.Slice
