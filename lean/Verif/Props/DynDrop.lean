import Verif.Sync.Dyn
import Verif.Props.Arc

/-! Property C25. -/
namespace Verif.Props.DynDrop
set_option linter.unusedSimpArgs false
open Verif.Sync Verif.Props.Arc

/-- Dropping a `Dyn<Arc>` is dropping the `Arc`, in every state in which no other operation is in progress. -/
theorem C25_arc (c : Cfg) (h : Idle c) : dynArcDrop c = arcDrop c := by
  obtain ⟨_, h2, h3, h4, _, _⟩ := h
  obtain ⟨strong, weak, value, freed, destroyed, released, arcs, weaks, adding, anding, failing, destroying, unweaking, freeing, checking, exclusive, overlapped⟩ := c
  dsimp only at h2 h3 h4
  subst h2 h3 h4
  cases freed
  · by_cases hs : strong = 1
    · cases value
      · simp [dynArcDrop, arcDrop, iptrDrop, dropRawWeak, step, hs]
      · by_cases hw : weak = 1 <;> simp [dynArcDrop, arcDrop, iptrDrop, dropRawWeak, step, hs, hw, finishWeak, subWeak]
    · simp [dynArcDrop, arcDrop, iptrDrop, dropRawWeak, step, hs]
  · simp [dynArcDrop, arcDrop, iptrDrop, dropRawWeak, step]

example : Idle Cfg.new := by simp [Idle, Cfg.new, Cfg.upgrading]
example : dynArcDrop Cfg.new = some ⟨0, 0, false, true, 1, 1, 0, 0, 0, 0, 0, 0, 0, 0, 0, 0, false⟩ := by decide +kernel

/-- Dropping a `Dyn<Box>` is dropping the `Box`, in every state: the value is destroyed once, the allocation released once. -/
theorem C25_box (b : BoxCfg) : dynBoxDrop b = boxDrop b := by
  obtain ⟨v, f, d, r⟩ := b
  cases v <;> cases f <;> simp [dynBoxDrop, boxDrop, boxDestroy, boxFree]

theorem C25_box_once : dynBoxDrop ⟨true, false, 0, 0⟩ = some ⟨false, true, 1, 1⟩ := rfl

/-- Dropping a `Dyn<&mut _>` leaves the value alone. -/
theorem C25_mut (b : BoxCfg) : dynMutDrop b = some b := rfl

/-- The states of sequential programs: no operation in progress, and the invariant of C22. -/
def Rest (c : Cfg) : Prop := Idle c ∧ Inv c ∧ strongs c + c.weaks < 4611686018427387904

attribute [local irreducible] incr decr W TOP

/-- Dropping a `Dyn<Weak>` never acts like dropping the `Weak`, in any state in which the value is alive: it takes away a strong count, and destroys
the value if there is one `Arc`. -/
theorem C25_weak_refuted (c : Cfg) (h : Rest c) (ha : 0 < strongs c) (hw : 0 < c.weaks) :
    ∃ c', dynWeakDrop c = some c' ∧ weakDrop c ≠ some c' ∧ c'.strong = strongs c' - 1 ∧
      (strongs c = 1 → strongs c' = 1 ∧ c'.destroyed = 1) := by
  obtain ⟨hid, hi, hb⟩ := h
  obtain ⟨i1, i2, i3, i4, i5, i6⟩ := hid
  have tw := w_eq
  rcases hi with hl | hd
  · obtain ⟨h1, h2, ⟨z1, z2, z3, z4, z5, z6⟩, h3, h4, h5, h6, h7, h8, h9, h10⟩ := hl
    obtain ⟨strong, weak, value, freed, destroyed, released, arcs, weaks, adding, anding, failing, destroying, unweaking, freeing, checking, exclusive, overlapped⟩ := c
    simp only [strongs, Cfg.upgrading] at *
    obtain ⟨h4a, h4b, h4c⟩ := h4 (by omega)
    obtain rfl : exclusive = 0 := i6
    obtain rfl : checking = 0 := i5
    obtain rfl : adding = 0 := by omega
    obtain rfl : anding = 0 := by omega
    have hd1 : decr strong = strong - 1 := decr_eq (by omega) (by omega)
    have hd2 : decr weak = weak - 1 := decr_eq (by omega) (by omega)
    have hwd : weakDrop ⟨strong, weak, value, freed, destroyed, released, arcs, weaks, 0, 0, failing, destroying, unweaking, freeing, 0, 0, overlapped⟩ =
        some ⟨strong, weak - 1, value, freed, destroyed, released, arcs, weaks - 1, 0, 0, failing, destroying, unweaking, freeing, 0, 0, overlapped⟩ := by
      simp [weakDrop, step, h2, subWeak, finishWeak, hd2, z3, show weak ≠ 1 by omega]
    by_cases hs : strong = 1
    · refine ⟨⟨strong - 1, weak - 1, false, freed, destroyed + 1, released, arcs, weaks - 1, 0, 0, failing, destroying, unweaking, freeing, 0, 0, overlapped⟩, ?_, ?_, ?_, ?_⟩
      · simp only [dynWeakDrop, iptrDrop, h2, dropRawWeak, hd1, hd2]
        simp [hs, h1, show weak ≠ 1 by omega]
      · rw [hwd]; intro hq; injection hq with hq; injection hq; omega
      · show strong - 1 = arcs + 0 + 0 - 1; omega
      · intro _; exact ⟨by show arcs + 0 + 0 = 1; omega, by show destroyed + 1 = 1; omega⟩
    · refine ⟨⟨strong - 1, weak, value, freed, destroyed, released, arcs, weaks - 1, 0, 0, failing, destroying, unweaking, freeing, 0, 0, overlapped⟩, ?_, ?_, ?_, ?_⟩
      · simp only [dynWeakDrop, iptrDrop, h2, hd1]
        simp [hs]
      · rw [hwd]; intro hq; injection hq with hq; injection hq; omega
      · show strong - 1 = arcs + 0 + 0 - 1; omega
      · intro hq; omega
  · have := hd.none
    simp only [strongs] at ha
    omega

/-- With one `Arc` and one `Dyn<Weak>`, dropping the latter makes the former dangle. -/
theorem C25_dangling_refuted : ∃ c c', run Cfg.new [.downgrade] = some c ∧ dynWeakDrop c = some c' ∧ c'.arcs = 1 ∧ step c' .read = none :=
  ⟨⟨1, 2, true, false, 0, 0, 1, 1, 0, 0, 0, 0, 0, 0, 0, 0, false⟩, ⟨0, 1, false, false, 1, 0, 1, 0, 0, 0, 0, 0, 0, 0, 0, 0, false⟩,
    by decide +kernel, by decide +kernel, rfl, by decide⟩

/-- Upgrading a `Dyn<Weak>` gives an `Arc` that is not counted. -/
theorem C25_upgrade_refuted : ∃ c c', run Cfg.new [.downgrade] = some c ∧ dynUpgrade c = some (true, c') ∧ c'.strong = 1 ∧ c'.arcs = 2 :=
  ⟨⟨1, 2, true, false, 0, 0, 1, 1, 0, 0, 0, 0, 0, 0, 0, 0, false⟩, ⟨1, 2, true, false, 0, 0, 2, 0, 0, 0, 0, 0, 0, 0, 0, 0, false⟩,
    by decide +kernel, by decide +kernel, rfl, rfl⟩

/-- Upgrading a `Dyn<Weak>` after the value was destroyed makes the counter wrap, and the next upgrade succeed. -/
theorem C25_upgrade_dead_refuted : ∃ c c1 c2, run Cfg.new [.downgrade, .cloneWeak, .dropArc, .destroy, .unweak] = some c ∧
    dynUpgrade c = some (false, c1) ∧ upgrade c1 = some (true, c2) ∧ c2.value = false :=
  ⟨⟨0, 2, false, false, 1, 0, 0, 2, 0, 0, 0, 0, 0, 0, 0, 0, false⟩, ⟨18446744073709551615, 2, false, false, 1, 0, 0, 1, 0, 0, 0, 0, 0, 0, 0, 0, false⟩,
    ⟨0, 2, false, false, 1, 0, 1, 1, 0, 0, 0, 0, 0, 0, 0, 0, false⟩, by decide +kernel, by decide +kernel, by decide +kernel, rfl⟩

end Verif.Props.DynDrop
