import Verif.Layout.Includes

/-! C93: `Includes` tells whether bits are included in a set. -/
namespace Verif.Props.Includes
open Verif.Layout

/-- Every bit of `sub` is in `set`. -/
def Within (set sub : Mask) : Prop := ∀ x ∈ sub, set.byteAt x.1 &&& x.2 = x.2

/-- The answer that `sub` is included is `sub`, and otherwise `End`. -/
def Answers (set sub : Mask) : Prop := (Within set sub → includes set sub = some sub) ∧ (¬ Within set sub → includes set sub = some [])

theorem computer_eq (set : Mask) (x : Nat × Byte) :
    computer set x = if x.1 ∈ set.map (·.1) then (if set.byteAt x.1 = 255 then some (some x) else some none) else none := by
  induction set with
  | nil => simp [computer]
  | cons a r ih =>
    obtain ⟨o, t⟩ := a
    simp only [computer, Mask.byteAt, List.map_cons, List.mem_cons]
    by_cases h : x.1 = o
    · simp [h]
    · rw [if_neg h, ih]
      have h' : ¬ o = x.1 := fun e => h e.symm
      simp [h, h']

/-- **C93**: exactly what the answer is: there is one if every byte of `sub` is mentioned by the set, or one of them has no elements; it is `sub` if these bytes are
unused as a whole, and `End` otherwise. -/
theorem C93_output (set sub : Mask) (h : set ≠ []) (hm : ∀ x ∈ sub, x.1 ∈ set.map (·.1)) :
    includes set sub = some (if ∀ x ∈ sub, set.byteAt x.1 = 255 then sub else []) := by
  induction sub with
  | nil => simp [includes]
  | cons x rest ih =>
    have ih := ih (fun y hy => hm y (.tail _ hy))
    have h1 : x.1 ∈ set.map (·.1) := hm x (.head _)
    simp only [includes, if_neg h, ih, computer_eq, if_pos h1, Option.bind_eq_bind, Option.bind_some]
    by_cases h2 : set.byteAt x.1 = 255
    · rw [if_pos h2]
      by_cases h3 : ∀ y ∈ rest, set.byteAt y.1 = 255
      · rw [if_pos h3, if_pos (by simpa [h2] using h3)]
        cases rest <;> simp [arrayify]
      · rw [if_neg h3, if_neg (by simp only [List.mem_cons, forall_eq_or_imp]; exact fun e => h3 e.2)]
        cases rest with
        | nil => simp at h3
        | cons => simp [arrayify]
    · rw [if_neg h2, if_neg (c := ∀ y ∈ x :: rest, set.byteAt y.1 = 255) (fun e => h2 (e x (.head _)))]
      simp [arrayify]

/-- **C93**: without elements on either side, the answer is `End`. -/
theorem C93_empty (set : Mask) : includes set [] = some [] ∧ includes [] set = some [] := by
  cases set <;> simp [includes]

/-- **C93**: a byte that the set doesn't mention leaves no answer: the program is refused. -/
theorem C93_none (set sub : Mask) (h : set ≠ []) (hm : ∃ x ∈ sub, x.1 ∉ set.map (·.1)) : includes set sub = none := by
  induction sub with
  | nil => obtain ⟨x, hx, _⟩ := hm; cases hx
  | cons x rest ih =>
    simp only [includes, if_neg h]
    by_cases hr : ∃ y ∈ rest, y.1 ∉ set.map (·.1)
    · rw [ih hr]; rfl
    · have hx : x.1 ∉ set.map (·.1) := by
        obtain ⟨y, hy, hn⟩ := hm
        rcases List.mem_cons.mp hy with rfl | hy
        · exact hn
        · exact absurd ⟨y, hy, hn⟩ hr
      rw [computer_eq, if_neg hx]
      cases includes set rest <;> rfl

/-- **C93**: the answer that bits are included is right, and names all of them.

Partial: it isn't given whenever they are; see `C93_refuted`. -/
theorem C93_sound_partial (set sub out : Mask) (h : includes set sub = some out) (ho : out ≠ []) : out = sub ∧ Within set sub := by
  by_cases hs : set = []
  · subst hs
    cases sub <;> simp [includes] at h <;> first | exact absurd h.symm ho | exact absurd h ho
  by_cases hm : ∀ x ∈ sub, x.1 ∈ set.map (·.1)
  · rw [C93_output set sub hs hm] at h
    split at h
    · rename_i h2
      refine ⟨(Option.some.inj h).symm, fun x hx => ?_⟩
      rw [h2 x hx]
      exact BitVec.allOnes_and
    · exact absurd (Option.some.inj h).symm ho
  · rw [C93_none set sub hs (by simpa using hm)] at h
    cases h

example : includes [(0, 255), (3, 255)] [(3, 255), (0, 1)] = some [(3, 255), (0, 1)] := by decide
example : includes [(0, 255), (3, 254)] [(3, 2), (0, 1)] = some [] ∧ includes [(0, 255)] [(1, 1)] = none := by decide

/-- **C93 refuted**: a bit of a byte that is only unused in part isn't found, and a byte that isn't mentioned makes the program be refused instead of the
answer that it isn't included. -/
theorem C93_refuted : (Within [(0, 254)] [(0, 2)] ∧ ¬ Answers [(0, 254)] [(0, 2)]) ∧ (¬ Within [(0, 255)] [(1, 1)] ∧ ¬ Answers [(0, 255)] [(1, 1)]) := by
  have h1 : Within [(0, 254)] [(0, 2)] := by intro x hx; rw [List.mem_singleton.mp hx]; decide
  have h2 : ¬ Within [(0, 255)] [(1, 1)] := fun h => absurd (h (1, 1) (.head _)) (by decide)
  exact ⟨⟨h1, fun h => absurd (h.1 h1) (by decide)⟩, ⟨h2, fun h => absurd (h.2 h2) (by decide)⟩⟩

end Verif.Props.Includes
