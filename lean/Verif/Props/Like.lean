import Verif.Sum.Like
import Verif.Sum.Variants
/-! Property C108. -/
namespace Verif.Props.Like
open Verif.Layout Verif.Sum Verif.Sum.Like

/-! ### Specification -/

/-- A type that stabby knows nothing of: its size, its alignment, and which bytes are which of its values.  Bytes past its size are not its. -/
structure Foreign where
  Value : Type
  size : Nat
  align : Nat
  rep : Value → Mem → Prop
  within : ∀ v m m', (∀ i, i < size → m i = m' i) → rep v m → rep v m'

/-- What the documentation of `StableLike` asks for: no value of `T` is one of the forbidden values of `As`, and `T` does not look at the bits that
`As` does not use. -/
def Honest (T : Foreign) (as : Lay) : Prop :=
  ∀ v m, T.rep v m → ¬ as.fv.Forbids m ∧ ∀ m', SameUsed as.size as.ub m m' → T.rep v m'

/-- The types of stabby, seen from rustc. -/
def ofTy (t : Ty) : Foreign where
  Value := Val
  size := t.lay.size
  align := t.lay.align
  rep v m := t.WF ∧ Rep t v m
  within := fun _ _ _ hm hr => ⟨hr.1, rep_congr hr.1 hr.2 (sameUsed_of_eq hm)⟩

/-! ### What compiles -/

/-- C108: `StableLike::new` compiles if and only if the size and the alignment of `T` are those that `As` declares. -/
theorem C108_check (T : Foreign) (as : Lay) : check T.size T.align as = .compiles ↔ T.size = as.size ∧ T.align = as.align := by
  unfold check
  split
  · rename_i h; simp [h]
  · split
    · rename_i h; simp [h]
    · rename_i h1 h2; simp only [ne_eq, Decidable.not_not] at h1 h2; simp [h1, h2]

/-- C108: and the error says what differs: the size first. -/
theorem C108_errors (T : Foreign) (as : Lay) : (check T.size T.align as = .size ↔ T.size ≠ as.size) ∧
    (check T.size T.align as = .align ↔ T.size = as.size ∧ T.align ≠ as.align) := by
  unfold check
  by_cases h1 : T.size = as.size <;> by_cases h2 : T.align = as.align <;> simp [h1, h2]

/-! ### Honest links -/

/-- C108: values of a type with an honest link, in stabby's sums.  Partial: storages that are truncated (C12), and links that are not honest. -/
theorem C108_honest_partial (T U : Foreign) (a b : Ty) (ha : a.WF) (hb : b.WF) (hs : max a.lay.size b.lay.size % max a.lay.align b.lay.align = 0)
    (hT : Honest T a.lay) (hU : Honest U b.lay) :
    (∀ v src, T.rep v src →
      isOk (likeLay a.lay) (likeLay b.lay) (mkOk (likeLay a.lay) (likeLay b.lay) src) = true ∧
      T.rep v (okPtr (likeLay a.lay) (likeLay b.lay) (mkOk (likeLay a.lay) (likeLay b.lay) src))) ∧
    (∀ v src, U.rep v src →
      isOk (likeLay a.lay) (likeLay b.lay) (mkErr (likeLay a.lay) (likeLay b.lay) src) = false ∧
      U.rep v (errPtr (likeLay a.lay) (likeLay b.lay) (mkErr (likeLay a.lay) (likeLay b.lay) src))) := by
  have ga := ty_good ha
  have gb := ty_good hb
  have s := result_sound ga gb hs
  have ea : likeLay a.lay = a.lay := rfl
  have eb : likeLay b.lay = b.lay := rfl
  rw [ea, eb]
  refine ⟨fun v src hv => ?_, fun v src hv => ?_⟩
  · rw [mkOk_eq]
    refine ⟨s.okIs _ ?_, (hT v src hv).2 _ (okKeeps_same s _ src)⟩
    rw [← ga.forbids_congr (write_same _ src _ _ _)]
    exact (hT v src hv).1
  · rw [mkErr_eq]
    refine ⟨s.errIs _ ?_, (hU v src hv).2 _ (errKeeps_same s _ src)⟩
    rw [← gb.forbids_congr (write_same _ src _ _ _)]
    exact (hU v src hv).1

/-- C108: every type of stabby is honestly like itself. -/
theorem C108_itself (t : Ty) : Honest (ofTy t) t.lay :=
  fun _ _ h => ⟨rep_not_forbidden h.1 h.2, fun _ hm => ⟨h.1, rep_congr h.1 h.2 hm⟩⟩

/-- C108: every type is honestly like `NoNiches` of its size, as the documentation says. -/
theorem C108_no_niches (T : Foreign) (align : Nat) (one : Sat) (ind : Bool) : Honest T (noNiches T.size align one ind) := by
  intro v m h
  refine ⟨by simp [noNiches, Fv.Forbids], fun m' hm => T.within v m m' (fun i hi => ?_) h⟩
  exact hm.byte hi (by simp [noNiches])

/-- C108: when `As` has no unused bits, as primitive types have none, a link is honest if and only if no value of `T` is forbidden. -/
theorem C108_honest_iff (T : Foreign) (as : Lay) (hs : T.size = as.size) (hu : as.ub = []) :
    Honest T as ↔ ∀ v m, T.rep v m → ¬ as.fv.Forbids m := by
  refine ⟨fun h v m hr => (h v m hr).1, fun h v m hr => ⟨h v m hr, fun m' hm => T.within v m m' (fun i hi => ?_) hr⟩⟩
  exact hm.byte (by omega) (by simp [hu])

/-- Function pointers, which the vtables of the library declare to be like `NonZeroUsize`: eight bytes that are not all zero. -/
def function : Foreign where
  Value := Nat → Byte
  size := 8
  align := 8
  rep v m := (∀ i, i < 8 → m i = v i) ∧ ∃ i, i < 8 ∧ v i ≠ 0
  within := fun _ _ _ h hr => ⟨fun i hi => by rw [← h i hi]; exact hr.1 i hi, hr.2⟩

/-- C108: ... which is honest. -/
theorem C108_functions : check function.size function.align Ty.nonZeroU64.lay = .compiles ∧ Honest function Ty.nonZeroU64.lay := by
  refine ⟨by decide, (C108_honest_iff function _ (by decide) (by decide)).2 fun v m h hf => ?_⟩
  obtain ⟨i, hi, hne⟩ := h.2
  refine hne ((h.1 i hi).symm.trans ?_)
  simp only [Ty.nonZeroU64, Ty.lay, Lay.prim, Ty.nzHoles, Fv.Forbids] at hf
  obtain ⟨h0, h1, h2, h3, h4, h5, h6, h7⟩ := hf
  rcases (by omega : i = 0 ∨ i = 1 ∨ i = 2 ∨ i = 3 ∨ i = 4 ∨ i = 5 ∨ i = 6 ∨ i = 7) with rfl | rfl | rfl | rfl | rfl | rfl | rfl | rfl <;> assumption

/-- `NoNiches` is one of the types that C108_honest_partial is about. -/
theorem C108_no_niches_ty (size align : Nat) (one : Sat) (ind : Bool) (h : Pow2 align) :
    ∃ t : Ty, t.WF ∧ t.lay = noNiches size align one ind :=
  ⟨.prim size align .none one ind, ⟨h, trivial, by simp [Fv.offsets]⟩, rfl⟩

/-- An `i24` in four bytes, of which the last is never looked at. -/
def i24 : Foreign where
  Value := Byte × Byte × Byte
  size := 4
  align := 4
  rep v m := m 0 = v.1 ∧ m 1 = v.2.1 ∧ m 2 = v.2.2
  within := fun _ _ _ h hr => ⟨by rw [← h 0 (by omega)]; exact hr.1, by rw [← h 1 (by omega)]; exact hr.2.1, by rw [← h 2 (by omega)]; exact hr.2.2⟩
example : Honest i24 (noNiches 4 4 .saturator false) := C108_no_niches i24 4 .saturator false
example : i24.rep (1, 2, 3) (fun i => BitVec.ofNat 8 (i + 1)) := by simp [i24]
example : check i24.size i24.align (noNiches 4 4 .saturator false) = .compiles := by decide

/-! ### Links that are not honest -/

/-- C108: exactly which values of `T` are taken for `None` (or any other zero-sized error), when `As` has a niche that is not a bit. -/
theorem C108_taken_iff (a e : Ty) (ha : a.WF) (he : e.lay.size = 0) (hn : a.lay.fv.selectOne ≠ []) (src : Mem) :
    isOk (likeLay a.lay) e.lay (mkOk (likeLay a.lay) e.lay src) = false ↔ ∀ o v, (o, v) ∈ a.lay.fv.selectOne → src o = v := by
  have ea : likeLay a.lay = a.lay := rfl
  have ga := ty_good ha
  have hp : Fv.Picks a.lay.fv a.lay.fv.selectOne := Fv.selectOne_picks ga.fvWF hn
  have hd : (provider a.lay e.lay).det = intoValueIsErr a.lay.fv.selectOne ∧ (provider a.lay e.lay).okShift = 0 := by
    unfold provider
    rw [if_pos (by omega)]
    unfold inner
    rw [if_pos he]
    cases hf : a.lay.fv.selectOne with
    | nil => exact absurd hf hn
    | cons p l => obtain ⟨o, v⟩ := p; simp [withUnit]
  have ho : okOffset a.lay e.lay = 0 := by
    unfold okOffset detSize
    rw [hd.1, hd.2, into_lay]
    exact (Nat.zero_add _).trans (nextMul_zero _)
  rw [ea, mkOk_eq, isOk, hd.1, enc, if_pos rfl, into_ok, writeSelf, into_self, into_isOk, ho]
  refine forall_congr' fun o => forall_congr' fun v => ⟨fun h hm => ?_, fun h hm => ?_⟩
  all_goals
    have hlt := ga.fvRange o (hp.sub o v hm)
    have hh := h hm
    have hw : Mem.write (fun _ => 0) 0 a.lay.size src o = src o := by
      unfold Mem.write; rw [if_pos (by omega)]; rfl
  · exact hw.symm.trans hh
  · exact hw.trans hh

/-- C108: so `T` is safe as `As` in `Option`s only if it has no value there. -/
theorem C108_needed (T : Foreign) (a : Ty) (ha : a.WF) (hn : a.lay.fv.selectOne ≠ [])
    (h : ∀ v src, T.rep v src → isOk (likeLay a.lay) Ty.unit.lay (mkOk (likeLay a.lay) Ty.unit.lay src) = true) (v : T.Value) (src : Mem)
    (hr : T.rep v src) : ∃ o b, (o, b) ∈ a.lay.fv.selectOne ∧ src o ≠ b := by
  have h1 := h v src hr
  have h2 := (not_congr (C108_taken_iff a Ty.unit ha rfl hn src)).1 (by rw [h1]; simp)
  simp only [Classical.not_forall] at h2
  obtain ⟨o, b, hm, hne⟩ := h2
  exact ⟨o, b, hm, hne⟩

/-- `u8`: every byte is a value. -/
def u8 : Foreign where
  Value := Byte
  size := 1
  align := 1
  rep v m := m 0 = v
  within := fun _ _ _ h hr => by rw [← h 0 (by omega)]; exact hr

/-- C108: `StableLike::new` is safe and checks neither forbidden values nor unused bits: `StableLike::<u8, bool>::new(2)` compiles, and `Some` of it is
`None`. -/
theorem C108_none_refuted : check u8.size u8.align Ty.bool.lay = .compiles ∧
    ∀ src, u8.rep (2 : Byte) src → isOk (likeLay Ty.bool.lay) Ty.unit.lay (mkOk (likeLay Ty.bool.lay) Ty.unit.lay src) = false := by
  refine ⟨by decide, fun src h => ?_⟩
  refine (C108_taken_iff Ty.bool Ty.unit ⟨⟨0, rfl⟩, by simp [Fv.WF], by simp [Fv.offsets]⟩ rfl (by decide +kernel) src).2 ?_
  have : Ty.bool.lay.fv.selectOne = [(0, 2)] := by decide +kernel
  rw [this]
  intro o v hm
  simp only [List.mem_cons, Prod.mk.injEq, List.not_mem_nil, or_false] at hm
  rw [hm.1, hm.2]; exact h

/-- A pair of a `u8` and an integer of eight bytes, `repr(C)`. -/
def tagged : Foreign where
  Value := Byte × (Nat → Byte)
  size := 16
  align := 8
  rep v m := m 0 = v.1 ∧ ∀ i, i < 8 → m (8 + i) = v.2 i
  within := fun _ _ _ h hr => ⟨by rw [← h 0 (by omega)]; exact hr.1, fun i hi => by rw [← h (8 + i) (by omega)]; exact hr.2 i hi⟩

/-- C108: ... so safe programs make references to whatever address they like: as a `(bool, u64)`, `Ok((2, address))` is the `Err` that holds the
reference to that address. -/
theorem C108_confusion_refuted : check tagged.size tagged.align (Ty.tuple2 .bool .u64).lay = .compiles ∧
    ∀ (address : Nat → Byte) (src : Mem), tagged.rep ((2 : Byte), address) src →
      isOk (likeLay (Ty.tuple2 .bool .u64).lay) Ty.ref.lay (mkOk (likeLay (Ty.tuple2 .bool .u64).lay) Ty.ref.lay src) = false ∧
      ∀ i, i < 8 → errPtr (likeLay (Ty.tuple2 .bool .u64).lay) Ty.ref.lay (mkOk (likeLay (Ty.tuple2 .bool .u64).lay) Ty.ref.lay src) i = address i := by
  refine ⟨by decide +kernel, fun address src h => ?_⟩
  have ea : likeLay (Ty.tuple2 .bool .u64).lay = (Ty.tuple2 .bool .u64).lay := rfl
  have hd : (provider (Ty.tuple2 .bool .u64).lay Ty.ref.lay).det = intoValueIsErr [(0, 2)] := by decide +kernel
  have ho : okOffset (Ty.tuple2 .bool .u64).lay Ty.ref.lay = 0 := by decide +kernel
  have hx : errOffset (Ty.tuple2 .bool .u64).lay Ty.ref.lay = 8 := by decide +kernel
  have hsz : (Ty.tuple2 .bool .u64).lay.size = 16 := by decide +kernel
  have hm : mkOk (Ty.tuple2 .bool .u64).lay Ty.ref.lay src = Mem.write (fun _ => 0) 0 16 src := by
    rw [mkOk_eq, hd, enc, if_pos rfl, into_ok, writeSelf, into_self, ho, hsz]
  rw [ea, hm, isOk, hd, errPtr, hx]
  refine ⟨?_, fun i hi => ?_⟩
  · rw [into_isOk]
    intro o v hv
    simp only [List.mem_cons, Prod.mk.injEq, List.not_mem_nil, or_false] at hv
    rw [hv.1, hv.2]; exact h.1
  · rw [Mem.at, Mem.write, if_pos (by omega)]; exact h.2 i hi

example : tagged.rep ((2 : Byte), fun _ => 0) (fun i => if i = 0 then 2 else 0) := by
  refine ⟨rfl, fun i _ => ?_⟩
  show (if 8 + i = 0 then (2 : Byte) else 0) = 0
  rw [if_neg (by omega)]

/-- C108: ... and making a sum changes values: as an `Option<()>`, which only uses one bit, `Some` of every byte is that byte without its second bit. -/
theorem C108_unused_refuted : check u8.size u8.align (Ty.result .unit .unit).lay = .compiles ∧
    ∀ (v : Byte) (src : Mem), u8.rep v src →
      isOk (likeLay (Ty.result .unit .unit).lay) Ty.unit.lay (mkOk (likeLay (Ty.result .unit .unit).lay) Ty.unit.lay src) = true ∧
      u8.rep (v &&& 253) (okPtr (likeLay (Ty.result .unit .unit).lay) Ty.unit.lay (mkOk (likeLay (Ty.result .unit .unit).lay) Ty.unit.lay src)) := by
  refine ⟨by decide +kernel, fun v src h => ?_⟩
  have ea : likeLay (Ty.result .unit .unit).lay = (Ty.result .unit .unit).lay := rfl
  have hd : (provider (Ty.result .unit .unit).lay Ty.unit.lay).det = .bitIsErr 0 2 := by decide +kernel
  have ho : okOffset (Ty.result .unit .unit).lay Ty.unit.lay = 0 := by decide +kernel
  have hsz : (Ty.result .unit .unit).lay.size = 1 := by decide +kernel
  have hm : mkOk (Ty.result .unit .unit).lay Ty.unit.lay src 0 = v &&& 253 := by
    rw [mkOk_eq, hd, ho, hsz]
    change src 0 = v at h
    simp only [enc, writeSelf, Det.self, Det.ok]
    simp [Mem.set, Mem.write, h]
  rw [ea]
  constructor
  · rw [isOk, hd, Det.isOk, hm]
    have : ∀ v : Byte, v &&& 253 &&& 2 = 0 := by decide
    exact decide_eq_true (this v)
  · rw [okPtr, ho]; exact hm

end Verif.Props.Like
