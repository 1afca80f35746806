import Verif.Layout.Good
import Verif.Sum.Model

/-! Soundness of determinants. -/
namespace Verif.Sum
open Verif.Layout

/-- Setting the determinant to `ok` (`true`) or `err` (`false`), and writing it in the storage. -/
def enc (d : Det) (b : Bool) (m : Mem) : Mem := writeSelf d b (if b then d.ok m else d.err m)

theorem enc_not (d : Det) (b : Bool) (m : Mem) : enc (.not d) b m = enc d (!b) m := by
  cases b <;> simp [enc, writeSelf, Det.self, Det.ok, Det.err]

/-! #### `ValueIsErr` lists -/

theorem into_ok (l : List (Nat × Byte)) (m : Mem) : (intoValueIsErr l).ok m = m := by
  induction l generalizing m with
  | nil => simp [intoValueIsErr, Det.ok]
  | cons e r ih => obtain ⟨o, v⟩ := e; simp [intoValueIsErr, Det.ok, ih]

theorem into_self (l : List (Nat × Byte)) (b : Bool) : (intoValueIsErr l).self b = none := by
  induction l with
  | nil => rfl
  | cons e r ih => obtain ⟨o, v⟩ := e; simp [intoValueIsErr, Det.self, ih]

theorem into_lay (l : List (Nat × Byte)) : (intoValueIsErr l).lay = Lay.unit := by
  induction l with
  | nil => rfl
  | cons e r ih => obtain ⟨o, v⟩ := e; simp [intoValueIsErr, Det.lay, ih, Lay.unit]

theorem into_err_not_mem {l : List (Nat × Byte)} {o : Nat} (m : Mem) (h : ∀ v, (o, v) ∉ l) :
    (intoValueIsErr l).err m o = m o := by
  induction l generalizing m with
  | nil => simp [intoValueIsErr, Det.err]
  | cons e r ih =>
    obtain ⟨p, w⟩ := e
    simp only [intoValueIsErr, Det.err]
    rw [ih _ (fun v hv => h v (List.mem_cons_of_mem _ hv))]
    unfold Mem.set
    rw [if_neg]
    rintro rfl
    exact h w (by simp)

theorem into_err_mem {l : List (Nat × Byte)} {o : Nat} {v : Byte} (m : Mem) (hd : (l.map Prod.fst).Nodup)
    (h : (o, v) ∈ l) : (intoValueIsErr l).err m o = v := by
  induction l generalizing m with
  | nil => simp at h
  | cons e r ih =>
    obtain ⟨p, w⟩ := e
    simp only [List.map_cons, List.nodup_cons] at hd
    simp only [intoValueIsErr, Det.err]
    rcases List.mem_cons.1 h with h | h
    · cases h
      rw [into_err_not_mem]
      · simp [Mem.set]
      · intro v hv; exact hd.1 (List.mem_map.2 ⟨_, hv, rfl⟩)
    · exact ih _ hd.2 h

theorem into_isOk (l : List (Nat × Byte)) (m : Mem) :
    (intoValueIsErr l).isOk m = false ↔ ∀ o v, (o, v) ∈ l → m o = v := by
  induction l with
  | nil => simp [intoValueIsErr, Det.isOk]
  | cons e r ih =>
    obtain ⟨p, w⟩ := e
    simp only [intoValueIsErr, Det.isOk, Bool.or_eq_false_iff, ih, decide_eq_false_iff_not,
      Decidable.not_not, List.mem_cons, Prod.mk.injEq]
    constructor
    · rintro ⟨h1, h2⟩ o v (⟨rfl, rfl⟩ | h)
      · exact h1
      · exact h2 o v h
    · intro h
      exact ⟨h p w (.inl ⟨rfl, rfl⟩), fun o v hv => h o v (.inr hv)⟩

/-- A determinant `d` for variants at `okOff` and `errOff`, leaving the bits of `E` unused in the first
`size` bytes. -/
structure Sound (okL errL : Lay) (okOff errOff : Nat) (d : Det) (E : Mask) (size : Nat) : Prop where
  okKeeps : ∀ m i b, i < okL.size → b < 8 → ¬ okL.ub.Unused i b →
    (enc d true m (okOff + i)).getLsbD b = (m (okOff + i)).getLsbD b
  errKeeps : ∀ m i b, i < errL.size → b < 8 → ¬ errL.ub.Unused i b →
    (enc d false m (errOff + i)).getLsbD b = (m (errOff + i)).getLsbD b
  okIs : ∀ m, ¬ okL.fv.Forbids (m.at okOff) → d.isOk (enc d true m) = true
  errIs : ∀ m, ¬ errL.fv.Forbids (m.at errOff) → d.isOk (enc d false m) = false
  stable : ∀ m m', SameUsed size E m m' → d.isOk m = d.isOk m'
  expOk : ∀ i b, i < okL.size → b < 8 → E.Unused (okOff + i) b → okL.ub.Unused i b
  expErr : ∀ i b, i < errL.size → b < 8 → E.Unused (errOff + i) b → errL.ub.Unused i b
  good : E.Good 0 size
  okFits : okOff + okL.size ≤ size
  errFits : errOff + errL.size ≤ size

theorem Sound.swap {okL errL : Lay} {okOff errOff : Nat} {d : Det} {E : Mask} {size : Nat}
    (h : Sound okL errL okOff errOff d E size) : Sound errL okL errOff okOff (.not d) E size where
  okKeeps := fun m i b hi hb hu => by rw [enc_not]; exact h.errKeeps m i b hi hb hu
  errKeeps := fun m i b hi hb hu => by rw [enc_not]; exact h.okKeeps m i b hi hb hu
  okIs := fun m hm => by rw [enc_not, Det.isOk]; simp only [Bool.not_true]; rw [h.errIs m hm]; rfl
  errIs := fun m hm => by rw [enc_not, Det.isOk]; simp only [Bool.not_false]; rw [h.okIs m hm]; rfl
  stable := fun m m' hm => by rw [Det.isOk, Det.isOk, h.stable m m' hm]
  expOk := h.expErr
  expErr := h.expOk
  good := h.good
  okFits := h.errFits
  errFits := h.okFits

theorem sound_valueIsErr {okL errL : Lay} {okOff errOff : Nat} {l : List (Nat × Byte)} {E : Mask} {size : Nat}
    (hp : Fv.Picks (okL.fv.shift okOff) l)
    (hlt : ∀ o v, (o, v) ∈ l → o < size)
    (hfree : ∀ o v, (o, v) ∈ l → ∀ i b, o = errOff + i → i < errL.size → b < 8 → errL.ub.Unused i b)
    (hE : ∀ o v, (o, v) ∈ l → ∀ w, (o, w) ∉ E)
    (expOk : ∀ i b, i < okL.size → b < 8 → E.Unused (okOff + i) b → okL.ub.Unused i b)
    (expErr : ∀ i b, i < errL.size → b < 8 → E.Unused (errOff + i) b → errL.ub.Unused i b)
    (good : E.Good 0 size) (okFits : okOff + okL.size ≤ size) (errFits : errOff + errL.size ≤ size) :
    Sound okL errL okOff errOff (intoValueIsErr l) E size := by
  have e1 : ∀ m, enc (intoValueIsErr l) true m = m := fun m => by
    simp [enc, writeSelf, into_self, into_ok]
  have e2 : ∀ m, enc (intoValueIsErr l) false m = (intoValueIsErr l).err m := fun m => by
    simp [enc, writeSelf, into_self]
  refine ⟨?_, ?_, ?_, ?_, ?_, expOk, expErr, good, okFits, errFits⟩
  · intro m i b _ _ _; rw [e1]
  · intro m i b hi hb hu
    rw [e2, into_err_not_mem]
    intro v hv
    exact hu (hfree _ v hv i b rfl hi hb)
  · intro m hm
    rw [e1]
    cases hc : (intoValueIsErr l).isOk m with
    | true => rfl
    | false =>
      rw [into_isOk] at hc
      exact absurd (Fv.forbids_shift.1 (hp.forbidden m hc)) hm
  · intro m _
    rw [e2, into_isOk]
    intro o v hv
    exact into_err_mem m hp.nodup hv
  · intro m m' hs
    have key : ∀ o v, (o, v) ∈ l → m o = m' o := fun o v hv => hs.byte (hlt o v hv) (hE o v hv)
    have iff : (intoValueIsErr l).isOk m = false ↔ (intoValueIsErr l).isOk m' = false := by
      rw [into_isOk, into_isOk]
      constructor
      · intro h o v hv; rw [← key o v hv]; exact h o v hv
      · intro h o v hv; rw [key o v hv]; exact h o v hv
    cases h1 : (intoValueIsErr l).isOk m <;> cases h2 : (intoValueIsErr l).isOk m' <;> simp_all

theorem and_xor_255 : ∀ k : Byte, ∀ x : Byte, x &&& (255 ^^^ k) &&& k = 0 := by
  intro k x
  apply byte_ext
  intro i hi
  have h255 : (255 : Byte).getLsbD i = true := getLsbD_255 ⟨i, hi⟩
  rw [BitVec.getLsbD_and, BitVec.getLsbD_and, BitVec.getLsbD_xor, h255]
  cases k.getLsbD i <;> simp

theorem or_and_ne_zero {k x : Byte} (h : k ≠ 0) : (x ||| k) &&& k ≠ 0 := by
  intro h0
  apply h
  apply byte_ext
  intro i hi
  have := congrArg (fun z => BitVec.getLsbD z i) h0
  simp only [BitVec.getLsbD_and, BitVec.getLsbD_or] at this
  cases hk : k.getLsbD i
  · simp
  · rw [hk] at this; simp at this

theorem sound_bitIsErr {okL errL : Lay} {okOff errOff o : Nat} {k : Byte} {E : Mask} {size : Nat}
    (hk : k ≠ 0) (hlt : o < size)
    (hok : ∀ i b, o = okOff + i → i < okL.size → b < 8 → (k = 1 ∨ k.getLsbD b = true) → okL.ub.Unused i b)
    (herr : ∀ i b, o = errOff + i → i < errL.size → b < 8 → (k = 1 ∨ k.getLsbD b = true) → errL.ub.Unused i b)
    (hE : ∀ b, b < 8 → k.getLsbD b = true → ¬ E.Unused o b)
    (expOk : ∀ i b, i < okL.size → b < 8 → E.Unused (okOff + i) b → okL.ub.Unused i b)
    (expErr : ∀ i b, i < errL.size → b < 8 → E.Unused (errOff + i) b → errL.ub.Unused i b)
    (good : E.Good 0 size) (okFits : okOff + okL.size ≤ size) (errFits : errOff + errL.size ≤ size) :
    Sound okL errL okOff errOff (.bitIsErr o k) E size := by
  have e1 : ∀ m, enc (.bitIsErr o k) true m =
      (if k = 1 then m.set o 0 else m).set o ((if k = 1 then m.set o 0 else m) o &&& (255 ^^^ k)) := fun m => rfl
  have e2 : ∀ m, enc (.bitIsErr o k) false m =
      (if k = 1 then m.set o 0 else m).set o ((if k = 1 then m.set o 0 else m) o ||| k) := fun m => rfl
  refine ⟨?_, ?_, ?_, ?_, ?_, expOk, expErr, good, okFits, errFits⟩
  · intro m i b hi hb hu
    rw [e1]
    by_cases h : okOff + i = o
    · subst h
      have h1 : k ≠ 1 := fun h1 => hu (hok i b rfl hi hb (.inl h1))
      have h2 : k.getLsbD b = false := by
        cases h2 : k.getLsbD b with
        | false => rfl
        | true => exact absurd (hok i b rfl hi hb (.inr h2)) hu
      simp only [if_neg h1, Mem.set, if_pos, BitVec.getLsbD_and, BitVec.getLsbD_xor, h2,
        getLsbD_255 ⟨b, hb⟩]
      simp
    · unfold Mem.set
      rw [if_neg h]
      split <;> simp [h]
  · intro m i b hi hb hu
    rw [e2]
    by_cases h : errOff + i = o
    · subst h
      have h1 : k ≠ 1 := fun h1 => hu (herr i b rfl hi hb (.inl h1))
      have h2 : k.getLsbD b = false := by
        cases h2 : k.getLsbD b with
        | false => rfl
        | true => exact absurd (herr i b rfl hi hb (.inr h2)) hu
      simp only [if_neg h1, Mem.set, if_pos, BitVec.getLsbD_or, h2, Bool.or_false]
    · unfold Mem.set
      rw [if_neg h]
      split <;> simp [h]
  · intro m _
    rw [e1]
    simp only [Det.isOk, Mem.set, if_pos, decide_eq_true_eq]
    exact and_xor_255 _ _
  · intro m _
    rw [e2]
    simp only [Det.isOk, Mem.set, if_pos, decide_eq_false_iff_not]
    exact or_and_ne_zero hk
  · intro m m' hs
    simp only [Det.isOk]
    have : m o &&& k = m' o &&& k := by
      apply byte_ext
      intro b hb
      rw [BitVec.getLsbD_and, BitVec.getLsbD_and]
      cases h : k.getLsbD b with
      | false => simp
      | true => rw [hs o hlt b hb (hE b hb h)]
    rw [this]

theorem sound_bit {okL errL : Lay} {okOff errOff : Nat} {E : Mask} {size : Nat}
    (h1 : 0 < okOff) (h2 : 0 < errOff) (h0 : 0 < size) (hE : ¬ E.Unused 0 0)
    (expOk : ∀ i b, i < okL.size → b < 8 → E.Unused (okOff + i) b → okL.ub.Unused i b)
    (expErr : ∀ i b, i < errL.size → b < 8 → E.Unused (errOff + i) b → errL.ub.Unused i b)
    (good : E.Good 0 size) (okFits : okOff + okL.size ≤ size) (errFits : errOff + errL.size ≤ size) :
    Sound okL errL okOff errOff .bit E size := by
  refine ⟨?_, ?_, ?_, ?_, ?_, expOk, expErr, good, okFits, errFits⟩
  · intro m i b hi hb hu
    have : okOff + i ≠ 0 := by omega
    simp only [enc, writeSelf, Det.self, Mem.set, if_neg this, Det.ok, if_pos]
  · intro m i b hi hb hu
    have : errOff + i ≠ 0 := by omega
    simp only [enc, writeSelf, Det.self, Mem.set, if_neg this, Det.err, Bool.false_eq_true, if_false]
  · intro m _
    simp [enc, writeSelf, Det.self, Mem.set, Det.isOk]
  · intro m _
    simp [enc, writeSelf, Det.self, Mem.set, Det.isOk]
  · intro m m' hs
    simp only [Det.isOk]
    have : m 0 &&& 1 = m' 0 &&& 1 := by
      apply byte_ext
      intro b hb
      rw [BitVec.getLsbD_and, BitVec.getLsbD_and]
      by_cases h : b = 0
      · subst h; rw [hs 0 h0 0 hb hE]
      · have : (1 : Byte).getLsbD b = false := by
          have : ∀ b : Fin 8, b.val ≠ 0 → (1 : Byte).getLsbD b = false := by decide
          exact this ⟨b, hb⟩ h
        rw [this]; simp only [Bool.and_false]
    rw [this]

end Verif.Sum
