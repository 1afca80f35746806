import Verif.Sum.Variants
import Verif.Layout.CSpec

/-! Properties C05, C06, C09 to C14, C53. -/
namespace Verif.Props.Sum
open Verif.Layout Verif.Sum

/-! ### C05, C06 -/

/-- Memory that represents a value of a type still represents it, and only it, after any change of the
bits that the type reports unused (and of anything outside the type). -/
theorem C05_unused_bits (t : Ty) (h : t.WF) (v : Val) (m m' : Mem) (hr : Rep t v m)
    (hm : ∀ i, i < t.lay.size → ∀ b, b < 8 → (m i).getLsbD b ≠ (m' i).getLsbD b → t.lay.ub.Unused i b) :
    Rep t v m' ∧ ∀ v', Rep t v' m' → v' = v := by
  have : Rep t v m' := rep_congr h hr (fun i hi b hb hu => by
    cases h1 : (m i).getLsbD b <;> cases h2 : (m' i).getLsbD b <;> first | rfl | exact absurd (hm i hi b hb (by rw [h1, h2]; simp)) hu)
  exact ⟨this, fun v' hv' => rep_det hv' this⟩

/-- The bits reported unused are inside the type. -/
theorem C05_unused_in_range (t : Ty) (h : t.WF) (i b : Nat) (hu : t.lay.ub.Unused i b) : i < t.lay.size := by
  obtain ⟨v, hm, _⟩ := hu
  exact ((ty_good h).ub.range i v hm).2

/-- No memory that represents a value is one of the type's forbidden values, even after the unused bits
have been changed. -/
theorem C06_forbidden_values (t : Ty) (h : t.WF) (v : Val) (m m' : Mem) (hr : Rep t v m)
    (hm : SameUsed t.lay.size t.lay.ub m m') : ¬ t.lay.fv.Forbids m' :=
  rep_not_forbidden h (rep_congr h hr hm)

/-- Every value of every type has a representation, so C05, C06, C09, C10, C11 are not vacuous. -/
theorem C05_every_value_has_an_image (t : Ty) (h : t.WF) (v : Val) (hv : HasTy t v) : Rep t v (encode t v) :=
  encode_rep h hv

theorem pow2_1 : Pow2 1 := ⟨0, rfl⟩
theorem pow2_2 : Pow2 2 := ⟨1, rfl⟩
theorem pow2_4 : Pow2 4 := ⟨2, rfl⟩
theorem pow2_8 : Pow2 8 := ⟨3, rfl⟩

/-- `Result<Tuple2<u8, u16>, Result<u32, ()>>`: a sum inside a sum, that uses the padding byte. -/
def exTy : Ty := .result (.tuple2 .u8 .u16) (.result .u32 .unit)

example : exTy.WF := by
  refine ⟨⟨⟨pow2_1, trivial, by simp [Fv.offsets]⟩, pow2_2, trivial, by simp [Fv.offsets]⟩,
    ⟨⟨pow2_4, trivial, by simp [Fv.offsets]⟩, ⟨pow2_1, trivial, by simp [Fv.offsets]⟩, by decide +kernel⟩,
    by decide +kernel⟩
example : HasTy exTy (.err (.ok (.raw [1, 2, 3, 4]))) := by simp [HasTy, exTy, Fv.Forbids, Ty.u32]
example : exTy.lay.size = 8 ∧ exTy.lay.align = 4 ∧ exTy.lay.ub = [(1, 0xFE)] := by decide +kernel

/-- The layout of a `MaybeUninit<T>` is the one of `T`, with the forbidden values of `T`
(stable_impls/mod.rs:541-545), but any byte is a valid `MaybeUninit<bool>`. -/
theorem C06_maybe_uninit_refuted : ∃ (maybeUninitBool : Lay) (m : Mem), maybeUninitBool = Ty.bool.lay ∧
    maybeUninitBool.fv.Forbids m ∧
    -- so that `Some(MaybeUninit::new(...))` holding that byte reads back as `None`
    isOk maybeUninitBool Ty.unit.lay (mkOk maybeUninitBool Ty.unit.lay m) = false :=
  ⟨Ty.bool.lay, fun _ => 2, rfl, by simp [Ty.bool, Ty.lay, Lay.prim, Fv.Forbids], by decide +kernel⟩

/-! ### C09, C10, C11 -/

/-- `Result::Ok(v)` is observed as `Ok` and yields `v`, whatever the unused bits of the source.  What
is missing from C09: pairs of types whose storage is truncated (C12). -/
theorem C09_ok_round_trip_partial (ok err : Ty) (h : (Ty.result ok err).WF) (v : Val) (src : Mem) (hr : Rep ok v src) :
    let m := mkOk ok.lay err.lay src
    isOk ok.lay err.lay m = true ∧ Rep ok v (okPtr ok.lay err.lay m) ∧
      ∀ v', Rep ok v' (okPtr ok.lay err.lay m) → v' = v := by
  have := mkOk_rep h hr
  exact ⟨this.1, this.2, fun v' h' => rep_det h' this.2⟩

/-- `Result::Err(v)` is observed as `Err` and yields `v`. -/
theorem C09_err_round_trip_partial (ok err : Ty) (h : (Ty.result ok err).WF) (v : Val) (src : Mem) (hr : Rep err v src) :
    let m := mkErr ok.lay err.lay src
    isOk ok.lay err.lay m = false ∧ Rep err v (errPtr ok.lay err.lay m) ∧
      ∀ v', Rep err v' (errPtr ok.lay err.lay m) → v' = v := by
  have := mkErr_rep h hr
  exact ⟨this.1, this.2, fun v' h' => rep_det h' this.2⟩

/-- `Option::Some(v)` and `Option::None` for any type whose size is a multiple of its alignment: the
storage is never truncated. -/
theorem C09_option (t : Ty) (h : t.WF) (hs : t.lay.size % t.lay.align = 0) (v : Val) (src : Mem) (hr : Rep t v src) :
    (isOk t.lay Ty.unit.lay (mkOk t.lay Ty.unit.lay src) = true ∧
      Rep t v (okPtr t.lay Ty.unit.lay (mkOk t.lay Ty.unit.lay src))) ∧
    ∀ any, isOk t.lay Ty.unit.lay (mkErr t.lay Ty.unit.lay any) = false := by
  have hu : Ty.unit.WF := ⟨pow2_1, trivial, by simp [Fv.offsets]⟩
  have hp := (ty_good h).align.pos
  have e1 : Ty.unit.lay.size = 0 := rfl
  have e2 : Ty.unit.lay.align = 1 := rfl
  have hwf : (Ty.result t Ty.unit).WF := by
    refine ⟨h, hu, ?_⟩
    rw [e1, e2, Nat.max_zero, show max t.lay.align 1 = t.lay.align by omega]; exact hs
  have h1 := C09_ok_round_trip_partial t Ty.unit hwf v src hr
  refine ⟨⟨h1.1, h1.2.1⟩, fun any => ?_⟩
  exact (C09_err_round_trip_partial t Ty.unit hwf (.raw []) any ⟨rfl, by simp, by simp [Fv.Forbids]⟩).1

/-- `Option<bool>` is one byte: `None` is stored as 2; `Some(true)` as 1. -/
example : (resultLay Ty.bool.lay Ty.unit.lay).size = 1 ∧ mkErr Ty.bool.lay Ty.unit.lay (fun _ => 0) 0 = 2 ∧
    mkOk Ty.bool.lay Ty.unit.lay (fun _ => 1) 0 = 1 := by decide +kernel

example : (resultLay Ty.u8.lay Ty.nonZeroU16.lay).size = 4 := by decide +kernel

/-- After a write of any valid value through the guard of `Ok`, the result is still `Ok` and holds that value. -/
theorem C10_ok_guard_partial (ok err : Ty) (h : (Ty.result ok err).WF) (m src : Mem) (old new : Val)
    (hm : Rep (.result ok err) (.ok old) m) (hw : Rep ok new src) :
    Rep (.result ok err) (.ok new) (okGuardWrite ok.lay err.lay m src) := by
  obtain ⟨h1, h2⟩ := okGuard (ty_good h.1) (ty_good h.2.1) h.2.2 hm.1 (rep_not_forbidden h.1 hw)
  exact ⟨h1, rep_congr h.1 hw h2⟩

/-- After a write of any valid value through the guard of `Err`, the result is still `Err` and holds that value. -/
theorem C10_err_guard_partial (ok err : Ty) (h : (Ty.result ok err).WF) (m src : Mem) (old new : Val)
    (hm : Rep (.result ok err) (.err old) m) (hw : Rep err new src) :
    Rep (.result ok err) (.err new) (errGuardWrite ok.lay err.lay m src) := by
  obtain ⟨h1, h2⟩ := errGuard (ty_good h.1) (ty_good h.2.1) h.2.2 hm.1 (rep_not_forbidden h.2.1 hw)
  exact ⟨h1, rep_congr h.2.1 hw h2⟩

/-- The niches a result exports: changing them changes neither the variant nor the payload, and a result
exports no forbidden value at all. -/
theorem C11_exported_niches_partial (ok err : Ty) (h : (Ty.result ok err).WF) (m m' : Mem)
    (hm : SameUsed (Ty.result ok err).lay.size (Ty.result ok err).lay.ub m m') :
    isOk ok.lay err.lay m = isOk ok.lay err.lay m' ∧
      (∀ v, Rep ok v (okPtr ok.lay err.lay m) → Rep ok v (okPtr ok.lay err.lay m')) ∧
      (∀ v, Rep err v (errPtr ok.lay err.lay m) → Rep err v (errPtr ok.lay err.lay m')) ∧
      ∀ any, ¬ (Ty.result ok err).lay.fv.Forbids any := by
  have s := result_sound (ty_good h.1) (ty_good h.2.1) h.2.2
  refine ⟨s.stable m m' hm, fun v hv => rep_congr h.1 hv ?_, fun v hv => rep_congr h.2.1 hv ?_, fun _ hf => hf⟩
  · intro i hi n hn hu
    exact hm _ (by have := s.okFits; simp only [Ty.lay]; omega) n hn (fun hE => hu (s.expOk i n hi hn hE))
  · intro i hi n hn hu
    exact hm _ (by have := s.errFits; simp only [Ty.lay]; omega) n hn (fun hE => hu (s.expErr i n hi hn hE))

/-- `Option<Option<Option<bool>>>` takes one more byte, whose seven other bits are exported, and so on:
`Result<(), ()>` is one byte with seven bits exported, `Option<Result<(), ()>>` still one byte. -/
example : (Ty.result .unit .unit).lay.ub = [(0, 254)] ∧ (Ty.result (.result .unit .unit) .unit).lay.size = 1 ∧
    (Ty.result (.result .unit .unit) .unit).lay.ub = [(0, 252)] := by decide +kernel

/-- Moving the result copies its storage and nothing else; what was stored is still there.  (Of truncated storage that is not true, for then
the last byte of the larger payload is outside: `C12_storage_iff`.) -/
theorem C09_moved (ok err : Ty) (h : (Ty.result ok err).WF) (v : Val) (src m' : Mem) :
    (Rep ok v src → (∀ i, i < storageBytes ok.lay err.lay → m' i = mkOk ok.lay err.lay src i) →
      isOk ok.lay err.lay m' = true ∧ Rep ok v (okPtr ok.lay err.lay m')) ∧
    (Rep err v src → (∀ i, i < storageBytes ok.lay err.lay → m' i = mkErr ok.lay err.lay src i) →
      isOk ok.lay err.lay m' = false ∧ Rep err v (errPtr ok.lay err.lay m')) := by
  have hs : storageBytes ok.lay err.lay = (Ty.result ok err).lay.size := by
    have hpos : 0 < resAlign ok.lay err.lay := ((ty_good h.1).align.max (ty_good h.2.1).align).pos
    have hdet : detSize ok.lay err.lay % resAlign ok.lay err.lay = 0 := nextMul_mod hpos
    have h3 : (resultLay ok.lay err.lay).size % resAlign ok.lay err.lay = 0 := by
      have := h.2.2
      rw [show (resultLay ok.lay err.lay).size = detSize ok.lay err.lay + max ok.lay.size err.lay.size from rfl, Nat.add_mod, hdet, Nat.zero_add,
        Nat.mod_mod]
      exact this
    exact Nat.div_mul_cancel (Nat.dvd_of_mod_eq_zero h3)
  constructor
  · intro hr hm
    have := mkOk_rep h hr
    have hR : Rep (.result ok err) (.ok v) (mkOk ok.lay err.lay src) := this
    exact rep_congr h hR (fun i hi b hb hu => by rw [hm i (by rw [hs]; exact hi)])
  · intro hr hm
    have := mkErr_rep h hr
    have hR : Rep (.result ok err) (.err v) (mkErr ok.lay err.lay src) := this
    exact rep_congr h hR (fun i hi b hb hu => by rw [hm i (by rw [hs]; exact hi)])

/-! ### C12 -/

/-- Both payloads fit in the storage exactly when the size of the larger is a multiple of the larger alignment. -/
theorem C12_storage_iff (ok err : Lay) (gok : ok.Good) (gerr : err.Good) :
    (okOffset ok err + ok.size ≤ storageBytes ok err ∧ errOffset ok err + err.size ≤ storageBytes ok err) ↔
      max ok.size err.size % max ok.align err.align = 0 := by
  have hpos : 0 < resAlign ok err := (gok.align.max gerr.align).pos
  have hdet : detSize ok err % resAlign ok err = 0 := nextMul_mod hpos
  have hdm := Nat.div_add_mod (resultLay ok err).size (resAlign ok err)
  rw [Nat.mul_comm] at hdm
  have hsize : (resultLay ok err).size = detSize ok err + max ok.size err.size := rfl
  have hmod : (resultLay ok err).size % resAlign ok err = max ok.size err.size % max ok.align err.align := by
    rw [hsize, Nat.add_mod, hdet, Nat.zero_add, Nat.mod_mod]; rfl
  have hst : storageBytes ok err = (resultLay ok err).size / resAlign ok err * resAlign ok err := rfl
  constructor
  · rintro ⟨h1, h2⟩
    have h3 : detSize ok err ≤ okOffset ok err := Nat.le_add_left _ _
    have h4 : detSize ok err ≤ errOffset ok err := Nat.le_add_left _ _
    omega
  · intro h
    have s := result_sound gok gerr h
    have h1 := s.okFits
    have h2 := s.errFits
    omega

/-- Payloads are written inside the storage and at aligned addresses.  What is missing from C12: pairs whose
larger size is not a multiple of the larger alignment, see `C12_storage_iff` and `C12_storage_refuted`. -/
theorem C12_storage_partial (ok err : Lay) (gok : ok.Good) (gerr : err.Good)
    (hs : max ok.size err.size % max ok.align err.align = 0) (addr : Nat) (ha : addr % resAlign ok err = 0) :
    okOffset ok err + ok.size ≤ storageBytes ok err ∧ errOffset ok err + err.size ≤ storageBytes ok err ∧
      (addr + okOffset ok err) % ok.align = 0 ∧ (addr + errOffset ok err) % err.align = 0 := by
  obtain ⟨h1, h2⟩ := (C12_storage_iff ok err gok gerr).2 hs
  refine ⟨h1, h2, ?_⟩
  have d1 : ok.align ∣ resAlign ok err := gok.align.dvd_max_left gerr.align
  have d2 : err.align ∣ resAlign ok err := gok.align.dvd_max_right gerr.align
  have ha' := Nat.dvd_of_mod_eq_zero ha
  have a1 := Nat.dvd_trans d1 ha'
  have a2 := Nat.dvd_trans d2 ha'
  have o1 : ok.align ∣ okOffset ok err := by
    cases res_ok gok gerr with
    | niche _ _ _ _ _ alOk _ => exact Nat.dvd_of_mod_eq_zero alOk
    | bit _ _ okOff _ _ => rw [okOff]; exact d1
  have o2 : err.align ∣ errOffset ok err := by
    cases res_ok gok gerr with
    | niche _ _ _ _ _ _ alErr => exact Nat.dvd_of_mod_eq_zero alErr
    | bit _ _ _ errOff _ => rw [errOff]; exact d2
  exact ⟨Nat.mod_eq_zero_of_dvd (Nat.dvd_add a1 o1), Nat.mod_eq_zero_of_dvd (Nat.dvd_add a2 o2)⟩

example : storageBytes (Ty.tuple2 .u8 .u16).lay (Ty.tuple2 .u16 .u16).lay = 6 := by decide +kernel

/-- `Result<[u8; 5], u32>`: the storage is 4 bytes, the `Ok` payload is 5 bytes. -/
theorem C12_storage_refuted : ∃ ok err : Ty, ok.WF ∧ err.WF ∧
    storageBytes ok.lay err.lay < okOffset ok.lay err.lay + ok.lay.size :=
  ⟨.array .u8 5, .u32, ⟨pow2_1, trivial, by simp [Fv.offsets]⟩, ⟨pow2_4, trivial, by simp [Fv.offsets]⟩, by decide +kernel⟩

/-! ### C13 -/

/-- A result is never larger than the C tagged union of its payloads, and has the size of the larger payload
when no separate tag is stored. -/
theorem C13_size (ok err : Lay) (gok : ok.Good) (gerr : err.Good) :
    (resultLay ok err).size ≤ cStructSize [Lay.prim 1 1 .none .b0 false, Lay.union ok err] ∧
      ((provider ok err).det.isNicheTrick = true → (resultLay ok err).size = max ok.size err.size) ∧
      ((provider ok err).det.isNicheTrick = false →
        (resultLay ok err).size = max ok.align err.align + max ok.size err.size) := by
  have hA := (gok.align.max gerr.align).pos
  have hsize : (resultLay ok err).size = detSize ok err + max ok.size err.size := rfl
  have hun := le_nextMul (max ok.size err.size) (max ok.align err.align)
  have hc : cStructSize [Lay.prim 1 1 .none .b0 false, Lay.union ok err] ≥
      max ok.align err.align + max ok.size err.size := by
    have e0 : alignUp 0 1 = 0 := by decide
    have e1 : alignUp 1 (max ok.align err.align) = max ok.align err.align := by
      rw [← nextMul_eq hA, nextMul_one hA]
    have h1 : 0 < cAlign [Lay.prim 1 1 .none .b0 false, Lay.union ok err] := by
      simp only [cAlign, Lay.prim]; omega
    have := le_nextMul (cEnd 0 [Lay.prim 1 1 .none .b0 false, Lay.union ok err])
      (cAlign [Lay.prim 1 1 .none .b0 false, Lay.union ok err])
    rw [nextMul_eq h1] at this
    unfold cStructSize
    refine Nat.le_trans ?_ this
    simp only [cEnd, Lay.prim, Lay.union, e0, Nat.zero_add, e1]
    omega
  cases res_ok gok gerr with
  | niche det0 self trick ub sound alOk alErr =>
    refine ⟨by omega, fun _ => by omega, fun h => ?_⟩
    rw [trick] at h; cases h
  | bit det det1 okOff errOff ub =>
    have hr : resAlign ok err = max ok.align err.align := rfl
    refine ⟨by omega, fun h => ?_, fun _ => by omega⟩
    rcases det with e | e <;> rw [e] at h <;> cases h

example : (resultLay Ty.u8.lay Ty.u8.lay).size = 2 ∧ (resultLay Ty.bool.lay Ty.unit.lay).size = 1 ∧
    (resultLay Ty.ref.lay Ty.unit.lay).size = 8 := by decide +kernel

/-- The number of bits that a mask lists. -/
def bits : Mask → Nat
  | [] => 0
  | (_, v) :: r => ((List.range 8).filter (fun b => v.getLsbD b)).length + bits r

/-- `stabby::option::Option<T>`: a struct around `Result<T, ()>`. -/
def optionLay (t : Lay) : Lay := Lay.struct (resultLay t Lay.unit)

theorem bits_extractBit {o : Nat} {v : Byte} {r : Mask} (hv : v ≠ 0) : bits (Mask.extractBit ((o, v) :: r)) + 1 = bits ((o, v) :: r) := by
  have h : ∀ n : Fin 256, BitVec.ofNat 8 n.val ≠ 0 →
      ((List.range 8).filter (fun b => (BitVec.ofNat 8 n.val - Mask.lowBit (BitVec.ofNat 8 n.val)).getLsbD b)).length + 1 =
        ((List.range 8).filter (fun b => (BitVec.ofNat 8 n.val).getLsbD b)).length := by decide +kernel
  have h1 := h ⟨v.toNat, v.isLt⟩
  simp only [BitVec.ofNat_toNat, BitVec.setWidth_eq] at h1
  have h1 := h1 hv
  simp only [Mask.extractBit]
  split
  · simp only [bits]; omega
  · rename_i h0
    have h0 : v - Mask.lowBit v = 0 := by simpa using h0
    rw [h0] at h1
    have : ((List.range 8).filter (fun b => (0 : Byte).getLsbD b)).length = 0 := by decide
    simp only [bits]; omega

theorem optionLay_step {t : Lay} (g : t.Good) (hm : t.size % t.align = 0) (hf : t.fv.selectOne = []) (hb : 0 < bits t.ub) :
    (optionLay t).Good ∧ (optionLay t).size = t.size ∧ (optionLay t).size % (optionLay t).align = 0 ∧ (optionLay t).fv.selectOne = [] ∧
    bits (optionLay t).ub + 1 = bits t.ub := by
  have hp := g.align.pos
  have ha : (resultLay t Lay.unit).align = t.align := by
    show max t.align 1 = t.align
    omega
  have hprov : provider t Lay.unit = ⟨0, 0, (withUnit [] t.ub).det, (withUnit [] t.ub).exported⟩ := by
    have : (withUnit [] t.ub).errShift = 0 := by
      unfold withUnit; split <;> rfl
    simp [provider, inner, Lay.unit, hf, this]
  have hub0 : t.ub ≠ [] := by intro h; rw [h] at hb; simp [bits] at hb
  obtain ⟨⟨o, v⟩, r, hub⟩ : ∃ e r, t.ub = e :: r := by
    cases h : t.ub with
    | nil => exact (hub0 h).elim
    | cons e r => exact ⟨e, r, rfl⟩
  have hv : v ≠ 0 := (g.ub.top o v (by rw [hub]; exact List.mem_cons_self)).1
  have htrick : (provider t Lay.unit).det.isNicheTrick = true := by
    rw [hprov, hub]; rfl
  have hsz : (resultLay t Lay.unit).size = t.size := by
    have := ((C13_size t Lay.unit g Lay.Good.unit).2.1) htrick
    rw [this]; simp [Lay.unit]
  have hubr : (resultLay t Lay.unit).ub = Mask.extractBit t.ub := by
    cases res_ok g Lay.Good.unit with
    | niche _ _ _ ub _ _ _ => rw [ub, hprov, hub]; rfl
    | bit det _ _ _ _ => rcases det with e | e <;> rw [e] at htrick <;> cases htrick
  have hgr : (resultLay t Lay.unit).Good := by
    refine result_good g Lay.Good.unit ?_
    have h1 : max t.size Lay.unit.size = t.size := by simp [Lay.unit]
    have h2 : max t.align Lay.unit.align = t.align := ha
    rw [h1, h2]; exact hm
  have hn : nextMul (resultLay t Lay.unit).size (resultLay t Lay.unit).align = (resultLay t Lay.unit).size := by
    rw [hsz, ha]; exact nextMul_self hm
  refine ⟨hgr.struct, ?_, ?_, rfl, ?_⟩
  · show nextMul (resultLay t Lay.unit).size (resultLay t Lay.unit).align = t.size
    rw [hn, hsz]
  · show nextMul (resultLay t Lay.unit).size (resultLay t Lay.unit).align % (resultLay t Lay.unit).align = 0
    rw [hn, hsz, ha, hm]
  · simp only [optionLay, Lay.struct, hn, Nat.sub_self, padMask, Mask.bitOr_eq, hubr]
    simp only [Mask.shift, List.map_nil, List.append_nil]
    rw [hub]; exact bits_extractBit hv

/-- Each `Option` around a type uses up exactly one of its unused bits: a type with `k` unused bits can be nested in `k` options
without growing.  (`selectOne = []`: the type has no forbidden value that would be used up first.) -/
theorem C13_nested_options (t : Lay) (g : t.Good) (hm : t.size % t.align = 0) (hf : t.fv.selectOne = []) (n : Nat) (hn : n ≤ bits t.ub) :
    (Nat.rec t (fun _ l => optionLay l) n : Lay).size = t.size ∧ bits (Nat.rec t (fun _ l => optionLay l) n : Lay).ub + n = bits t.ub := by
  have h : ∀ n, n ≤ bits t.ub → (Nat.rec t (fun _ l => optionLay l) n : Lay).Good ∧
      (Nat.rec t (fun _ l => optionLay l) n : Lay).size = t.size ∧
      (Nat.rec t (fun _ l => optionLay l) n : Lay).size % (Nat.rec t (fun _ l => optionLay l) n : Lay).align = 0 ∧
      (Nat.rec t (fun _ l => optionLay l) n : Lay).fv.selectOne = [] ∧ bits (Nat.rec t (fun _ l => optionLay l) n : Lay).ub + n = bits t.ub := by
    intro n
    induction n with
    | zero => intro _; exact ⟨g, rfl, hm, hf, rfl⟩
    | succ n ih =>
      intro hn
      have ⟨h1, h2, h3, h4, h5⟩ := ih (by omega)
      have ⟨s1, s2, s3, s4, s5⟩ := optionLay_step h1 h3 h4 (by omega)
      exact ⟨s1, s2.trans h2, s3, s4, by simp only at s5 ⊢; omega⟩
  exact ⟨(h n hn).2.1, (h n hn).2.2.2.2⟩

/-- `Tuple2<u8, u16>` has eight unused bits. -/
example : (Ty.tuple2 .u8 .u16).lay.fv.selectOne = [] ∧ bits (Ty.tuple2 .u8 .u16).lay.ub = 8 ∧
    (Ty.tuple2 .u8 .u16).lay.size % (Ty.tuple2 .u8 .u16).lay.align = 0 := by decide +kernel

/-! ### C14 -/

/-- For an enum with any list of two or more variants: the closure called is the one of the variant
that was built, and it sees the value. -/
theorem C14_dispatch_partial (vs : List Ty) (hn : 2 ≤ vs.length) (h : (build vs).ty.WF) (i : Nat) (ty : Ty)
    (hi : vs[i]? = some ty) (v : Val) (src : Mem) (hr : Rep ty v src) :
    let called := (build vs).dispatch 0 ((build vs).ctor i src)
    called.1 = i ∧ Rep ty v called.2 ∧ ∀ v', Rep ty v' called.2 → v' = v := by
  have hne : vs ≠ [] := by intro e; subst e; simp at hn
  have hi' : (build vs).leaves[i]? = some ty := by rw [build_leaves vs hne]; exact hi
  have := dispatch_rep hi' 0 (ctor_rep h hi' hr)
  exact ⟨by omega, this.2, fun v' h' => rep_det h' this.2⟩

/-- After a write through `match_mut`, matching again calls the closure of the same variant with the written value. -/
theorem C14_match_mut_partial (vs : List Ty) (hn : 2 ≤ vs.length) (h : (build vs).ty.WF) (i : Nat) (ty : Ty)
    (hi : vs[i]? = some ty) (v w : Val) (src new : Mem) (hr : Rep ty v src) (hw : Rep ty w new) :
    let called := (build vs).dispatch 0 ((build vs).matchMut ((build vs).ctor i src) new)
    called.1 = i ∧ Rep ty w called.2 := by
  have hne : vs ≠ [] := by intro e; subst e; simp at hn
  have hi' : (build vs).leaves[i]? = some ty := by rw [build_leaves vs hne]; exact hi
  have := dispatch_rep hi' 0 (matchMut_rep h hi' (ctor_rep h hi' hr) hw)
  exact ⟨by omega, this.2⟩

/-- Three variants: `Result<u8, Result<u32, ()>>`. -/
theorem exTree : build [.u8, .u32, .unit] = .node (.leaf .u8) (.node (.leaf .u32) (.leaf .unit)) := by
  rw [build]
  simp
  constructor
  · rw [build]; simp
  · rw [build]; simp
    constructor <;> (rw [build]; simp)

example : let t := Tree.node (.leaf .u8) (.node (.leaf .u32) (.leaf .unit))
    (t.dispatch 0 (t.ctor 1 (fun i => 7 + i))).1 = 1 ∧ (t.dispatch 0 (t.ctor 1 (fun i => 7 + i))).2 3 = 10 := by
  decide +kernel

/-! ### C53 -/

/-- What a claim about niches says about the number of spare values of the scalars of a type. -/
def ClaimHolds : Sat → Nat → Prop
  | .b0, n => n = 0
  | .b1, n => n = 1
  | .saturator, _ => True

/-- `spare prim t` counts the values that are not valid among all the scalars of `t`, given the count for
primitives; this is what rustc can use to encode the `None` of `core::Option<T>`. Unions and
stabby's results have none (their storage is made of plain integers). -/
def spare (prim : Nat → Nat → Fv → Nat) : Ty → Nat
  | .prim s a fv _ _ => prim s a fv
  | .fieldPair a b => spare prim a + spare prim b
  | .struct t => spare prim t
  | .alignedStruct t _ => spare prim t
  | .union _ _ => 0
  | .array t n => n * spare prim t
  | .result _ _ => 0

/-- The primitives of a type whose claim is honest. -/
def HonestPrims (prim : Nat → Nat → Fv → Nat) : Ty → Prop
  | .prim s a fv one _ => ClaimHolds one (prim s a fv)
  | .fieldPair a b => HonestPrims prim a ∧ HonestPrims prim b
  | .struct t => HonestPrims prim t
  | .alignedStruct t _ => HonestPrims prim t
  | .union a b => HonestPrims prim a ∧ HonestPrims prim b
  | .array t _ => HonestPrims prim t
  | .result a b => HonestPrims prim a ∧ HonestPrims prim b

theorem claim_add {x y : Sat} {n m : Nat} (hx : ClaimHolds x n) (hy : ClaimHolds y m) : ClaimHolds (x.add y) (n + m) := by
  cases x <;> cases y <;> simp only [Sat.add, Sat.addB1, ClaimHolds] at * <;> omega

/-- A type that claims exactly one niche has exactly one, provided the primitives in it are honest.
What is missing from C53: `Ordering`, `OwnedFd`, `BorrowedFd`, `MaybeUninit<T>` and `UnsafeCell<T>` are
not honest, see `C53_ordering_refuted` and `C53_ordering_in_tuple_refuted`. -/
theorem C53_claims_partial (prim : Nat → Nat → Fv → Nat) (t : Ty) (h : HonestPrims prim t) :
    ClaimHolds t.lay.oneNiche (spare prim t) := by
  induction t with
  | prim s a fv one ind => exact h
  | fieldPair a b iha ihb =>
    have ha := iha h.1
    have hb := ihb h.2
    show ClaimHolds (Lay.fieldPair a.lay b.lay).oneNiche (spare prim a + spare prim b)
    unfold Lay.fieldPair
    dsimp only
    split
    · exact claim_add ha hb
    · trivial
  | struct t ih =>
    simp only [Ty.lay, Lay.struct, spare]
    split
    · exact ih h
    · trivial
  | alignedStruct t al ih =>
    simp only [Ty.lay, Lay.alignedStruct, spare]
    split
    · exact ih h
    · trivial
  | union a b => rfl
  | array t n ih =>
    simp only [Ty.lay, Lay.array, spare]
    split
    · rename_i h0; subst h0; simp [ClaimHolds]
    · split
      · rename_i h1; subst h1; rw [Nat.one_mul]; exact ih h
      · trivial
  | result a b => rfl

/-- `Ordering` claims no niche and has 253. -/
theorem C53_ordering_refuted : Ty.ordering.lay.oneNiche = .b0 ∧
    ((List.range 256).filter (fun n => decide (¬ (n = 0 ∨ n = 1 ∨ n = 255)))).length = 253 ∧
    ∀ n, n < 256 → (Ty.ordering.lay.fv.Forbids (fun _ => BitVec.ofNat 8 n) ↔ ¬ (n = 0 ∨ n = 1 ∨ n = 255)) := by
  refine ⟨rfl, by decide +kernel, ?_⟩
  have : ∀ n : Fin 256, ((2 : Byte) ≤ BitVec.ofNat 8 n.val ∧ BitVec.ofNat 8 n.val ≤ (254 : Byte)) ↔
      ¬ (n.val = 0 ∨ n.val = 1 ∨ n.val = 255) := by decide +kernel
  intro n hn
  exact this ⟨n, hn⟩

/-- A pair with padding between or after its fields never claims to have exactly one niche or none: what padding is used for is up to the compiler. -/
theorem C53_no_claim_with_padding (a b : Lay) (hpad : (Lay.tuple2 a b).size ≠ a.size + b.size) :
    (Lay.tuple2 a b).oneNiche = .saturator := by
  simp only [Lay.tuple2, Lay.struct] at hpad ⊢
  split
  · rename_i h
    rw [← h] at hpad
    simp only [Lay.fieldPair] at hpad ⊢
    rw [if_neg hpad]
  · rfl
example : (Lay.tuple2 Ty.nonZeroU8.lay Ty.u32.lay).size ≠ Ty.nonZeroU8.lay.size + Ty.u32.lay.size ∧ Ty.nonZeroU8.lay.oneNiche = .b1 := by decide +kernel

/-- A pair without padding claims exactly `k` niches, `k ≤ 1`, just when its fields claim exactly `i` and `j` with `i + j = k`. -/
theorem C53_pair_claims_iff (a b : Lay) (hpad : (Lay.tuple2 a b).size = a.size + b.size) (k : Nat) :
    (Lay.tuple2 a b).oneNiche ≠ .saturator ∧ ClaimHolds (Lay.tuple2 a b).oneNiche k ↔
      (a.oneNiche ≠ .saturator ∧ b.oneNiche ≠ .saturator) ∧ ∃ i j, ClaimHolds a.oneNiche i ∧ ClaimHolds b.oneNiche j ∧ i + j = k ∧ k ≤ 1 := by
  have hf : (Lay.fieldPair a b).size = a.size + b.size := by
    have h1 : a.size + b.size ≤ (Lay.fieldPair a b).size := by
      have := le_nextMul a.size b.align
      simp only [Lay.fieldPair, Lay.alignedAfter]
      omega
    have h2 : (Lay.fieldPair a b).size ≤ (Lay.tuple2 a b).size := by
      simp only [Lay.tuple2, Lay.struct]
      exact le_nextMul _ _
    omega
  have hn : (Lay.tuple2 a b).oneNiche = a.oneNiche.add b.oneNiche := by
    simp only [Lay.tuple2, Lay.struct] at hpad ⊢
    rw [if_pos (by omega)]
    simp only [Lay.fieldPair] at hf ⊢
    rw [if_pos (by omega)]
    rfl
  rw [hn]
  cases a.oneNiche <;> cases b.oneNiche <;> simp [Sat.add, Sat.addB1, ClaimHolds] <;> omega
example : (Lay.tuple2 Ty.nonZeroU8.lay Ty.u8.lay).size = Ty.nonZeroU8.lay.size + Ty.u8.lay.size ∧ (Lay.tuple2 Ty.nonZeroU8.lay Ty.u8.lay).oneNiche = .b1 := by decide +kernel

/-- Neither does a type padded to its own or to a larger alignment (`Struct`, `AlignedStruct`); without padding the claim is that of the fields. -/
theorem C53_no_claim_with_padding_aligned (t : Lay) (al : Nat) :
    (Lay.alignedStruct t al).oneNiche = (if (Lay.alignedStruct t al).size = t.size then t.oneNiche else .saturator) ∧
    (Lay.struct t).oneNiche = (if (Lay.struct t).size = t.size then t.oneNiche else .saturator) := by
  simp only [Lay.alignedStruct, Lay.struct, eq_comm, and_self]
example : (Lay.alignedStruct Ty.nonZeroU8.lay 4).oneNiche = .saturator ∧ (Lay.alignedStruct Ty.nonZeroU32.lay 4).oneNiche = .b1 := by decide +kernel

/-- The number of spare values of the primitives of the examples below, from their sets of valid values. -/
def exPrim (s _a : Nat) (fv : Fv) : Nat :=
  if s = 1 then match fv with
    | .none => 0
    | .range 2 254 0 => 253
    | .range 2 255 0 => 254
    | _ => 1
  else match fv with
    | .none => 0
    | _ => 1

/-- So `Tuple2<Ordering, NonZeroU8>` claims exactly one niche (and `core::option::Option` of it is
accepted as stable), but it has 254. -/
theorem C53_ordering_in_tuple_refuted : (Ty.tuple2 .ordering .nonZeroU8).lay.oneNiche = .b1 ∧
    spare exPrim (Ty.tuple2 .ordering .nonZeroU8) = 254 := by decide +kernel

/-- `Tuple2<NonZeroU8, u8>` honestly claims one; `Tuple2<NonZeroU8, NonZeroU8>` claims several. -/
example : HonestPrims exPrim (Ty.tuple2 .nonZeroU8 .u8) ∧ (Ty.tuple2 .nonZeroU8 .u8).lay.oneNiche = .b1 ∧
    (Ty.tuple2 .nonZeroU8 .nonZeroU8).lay.oneNiche = .saturator :=
  ⟨⟨rfl, rfl⟩, by decide +kernel, by decide +kernel⟩

end Verif.Props.Sum
