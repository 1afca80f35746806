import Verif.Layout.Padding

/-! Executable model of the determinants of stabby's sum types (`stabby-abi/src/enums/*.rs`) and of
`stabby_abi::Result` (`stabby-abi/src/result.rs`). -/
namespace Verif.Sum
open Verif.Layout

/-- The `IDeterminant` implementors (enums/mod.rs:27-214). -/
inductive Det where
  | bit
  | endd
  | valueIsErr (off : Nat) (val : Byte) (tail : Det)
  | bitIsErr (off : Nat) (mask : Byte)
  | not (d : Det)
  deriving DecidableEq, Repr

namespace Det
/-- `IStable` for determinants (enums/mod.rs:52-62, 95-105, 151-154, 189-199; `End` istable.rs:201-204).
`End` and `BitIsErr` are zero-sized `#[stabby]` structs. -/
def lay : Det → Lay
  | bit => ⟨1, 1, .none, [(0, 254)], .saturator, false⟩
  | endd => Lay.unit
  | valueIsErr _ _ tail => { tail.lay with indirections := false }
  | bitIsErr _ _ => Lay.unit
  | not d => d.lay

mutual
/-- `IDeterminant::ok(union)`: the effect on the union (enums/mod.rs:65-67, 77-79, 124-126, 162-169, 204-206). -/
def ok : Det → Mem → Mem
  | bit, m => m
  | endd, m => m
  | valueIsErr _ _ tail, m => ok tail m
  | bitIsErr o k, m =>
    let m := if k = 1 then m.set o 0 else m
    m.set o (m o &&& (255 ^^^ k))
  | not d, m => err d m
/-- `IDeterminant::err(union)`: the effect on the union (enums/mod.rs:68-70, 80-82, 127-131, 170-177, 207-209). -/
def err : Det → Mem → Mem
  | bit, m => m
  | endd, m => m
  | valueIsErr o v tail, m => err tail (m.set o v)
  | bitIsErr o k, m =>
    let m := if k = 1 then m.set o 0 else m
    m.set o (m o ||| k)
  | not d, m => ok d m
end

/-- The bytes of the determinant returned by `ok` (`isOk = true`) and `err` (`isOk = false`):
`BitDeterminant::Ok = 0`, `BitDeterminant::Err = 1` (enums/mod.rs:45-50, 65-70), the others are
zero-sized. -/
def self : Det → Bool → Option Byte
  | bit, isOk => some (if isOk then 0 else 1)
  | endd, _ => none
  | valueIsErr _ _ tail, isOk => self tail isOk
  | bitIsErr _ _, _ => none
  | not d, isOk => self d (!isOk)

/-- `is_det_ok(&self, union)` (enums/mod.rs:71-73, 83-85, 132-135, 178-181, 210-212), where both the
determinant and the union are at the start of the storage (result.rs:384-386). -/
def isOk : Det → Mem → Bool
  | bit, m => decide (m 0 &&& 1 = 0)
  | endd, _ => false
  | valueIsErr o v tail, m => decide (m o ≠ v) || isOk tail m
  | bitIsErr o k, m => decide (m o &&& k = 0)
  | not d, m => !(isOk d m)

/-- `IsNicheTrick` (enums/mod.rs:74, 86, 136, 182, 213). -/
def isNicheTrick : Det → Bool
  | bit => false
  | endd => false
  | valueIsErr _ _ _ => true
  | bitIsErr _ _ => true
  | not d => isNicheTrick d
end Det

/-- `IntoValueIsErr` (enums/mod.rs:139-150). -/
def intoValueIsErr : List (Nat × Byte) → Det
  | [] => .endd
  | (o, v) :: r => .valueIsErr o v (intoValueIsErr r)

/-- `IDeterminantProviderInner`: shift of the smaller variant, determinant, and the unused bits of the
niche exporter (enums/mod.rs:236-240).  Every exporter of the source is `()` or
`NicheExporter<End, _, Saturator>` (enums/err_size_0.rs:44, 57, 64; err_non_empty.rs:165, 197, 232), so its
forbidden values are always `End` and are not stored. -/
structure Inner where
  errShift : Nat
  det : Det
  exported : Mask
  deriving DecidableEq, Repr

/-- `DeterminantProviderWithUnit<Fv, Ub>` (enums/err_size_0.rs:30-66). -/
def withUnit (fv : List (Nat × Byte)) (ub : Mask) : Inner :=
  match fv, ub with
  | (o, v) :: tail, ub => ⟨0, intoValueIsErr ((o, v) :: tail), ub⟩
  | [], (o, v) :: rest => ⟨0, .bitIsErr o (Mask.lowBit v), Mask.extractBit ((o, v) :: rest)⟩
  | [], [] => ⟨0, .bit, []⟩

/-- `UnionSize<Ok, Err, OkShift, ErrShift>` (enums/mod.rs:247-250). -/
def unionSize (ok err : Lay) (okShift errShift : Nat) : Nat :=
  nextMul (max (ok.size + okShift) (err.size + errShift)) (max ok.align err.align)

/-- `UnionMemberUnusedBits<Ok, Err, OkShift>` (enums/mod.rs:257-265).  `AbsSub` is truncated
subtraction here because the union is at least as large as its padded member. -/
def unionMemberUnusedBits (ok err : Lay) (okShift : Nat) : Mask :=
  ((padMask okShift).bitOr (ok.ub.shift okShift)).bitOr
    ((padMask (unionSize ok err okShift 0 - (ok.size + okShift))).shift (ok.size + okShift))

/-- `UnusedBits<UnionSize, ErrUb, ErrSize, ErrOffset>` (enums/err_non_empty.rs:100). -/
def errUnusedBits (uSize : Nat) (errUb : Mask) (errSize errOffset : Nat) : Mask :=
  (padMask errOffset).bitOr
    ((errUb.shift errOffset).bitOr ((padMask (uSize - (errSize + errOffset))).shift (errSize + errOffset)))

/-- The `Layout<UnionSize, Budget, ...>` loop (enums/err_non_empty.rs:84-324); the first argument is the budget. -/
def search (uSize : Nat) (okFv : Fv) (okUb : Mask) (errFv : Fv) (errUb : Mask) (errSize errAlign : Nat) :
    (budget : Nat) → (errOffset : Nat) → Inner
  | 0, _ => withUnit [] []
  | budget + 1, errOffset =>
    let errUb' := errUnusedBits uSize errUb errSize errOffset
    let errFvInOkUb := ((errFv.shift errOffset).selectFrom okUb).resolve
    let okFvInErrUb := (okFv.selectFrom errUb').resolve
    let ubIntersect := okUb.bitAnd errUb'
    match errFvInOkUb, okFvInErrUb, ubIntersect with
    | (o, v) :: tail, _, _ => ⟨errOffset, .not (intoValueIsErr ((o, v) :: tail)), ubIntersect⟩
    | [], (o, v) :: tail, _ => ⟨errOffset, intoValueIsErr ((o, v) :: tail), ubIntersect⟩
    | [], [], (o, v) :: tail =>
      ⟨errOffset, .bitIsErr o (Mask.lowBit v), Mask.extractBit ((o, v) :: tail)⟩
    | [], [], [] =>
      if errSize + errAlign + errOffset ≤ uSize then
        search uSize okFv okUb errFv errUb errSize errAlign budget (errAlign + errOffset)
      else withUnit [] []

/-- `(Ok, Err, Err::Size): IDeterminantProviderInner` with `Ok::Size >= Err::Size`
(enums/err_size_0.rs:17-28, enums/err_non_empty.rs:51-82; budget 8 at line 52). -/
def inner (ok err : Lay) : Inner :=
  if err.size = 0 then withUnit ok.fv.selectOne ok.ub
  else search (unionSize ok err 0 0) ok.fv (unionMemberUnusedBits ok err 0) err.fv err.ub
    err.size err.align 8 0

/-- `IDeterminantProvider<Err>` (enums/mod.rs:218-227). -/
structure Prov where
  okShift : Nat
  errShift : Nat
  det : Det
  exported : Mask
  deriving DecidableEq, Repr

/-- `impl IDeterminantProvider<B> for A` (enums/mod.rs:283-311). -/
def provider (ok err : Lay) : Prov :=
  if ok.size ≥ err.size then
    let p := inner ok err
    ⟨0, p.errShift, p.det, p.exported⟩
  else
    let p := inner err ok
    ⟨p.errShift, 0, .not p.det, p.exported⟩

/-! ### `Result<Ok, Err>` -/

/-- `Align` of the result (result.rs:53). -/
def resAlign (ok err : Lay) : Nat := max ok.align err.align
/-- `DET_SIZE` (result.rs:201-203). -/
def detSize (ok err : Lay) : Nat := nextMul (provider ok err).det.lay.size (resAlign ok err)
/-- `OK_OFFSET` (result.rs:204-205). -/
def okOffset (ok err : Lay) : Nat := (provider ok err).okShift + detSize ok err
/-- `ERR_OFFSET` (result.rs:206-207). -/
def errOffset (ok err : Lay) : Nat := (provider ok err).errShift + detSize ok err

/-- `impl IStable for Result<Ok, Err>` (result.rs:45-81). -/
def resultLay (ok err : Lay) : Lay where
  size := detSize ok err + max ok.size err.size
  align := resAlign ok err
  fv := .none
  ub := (Lay.tuple2 (provider ok err).det.lay (asUint (resAlign ok err))).ub.bitOr
    ((provider ok err).exported.shift (detSize ok err))
  oneNiche := .b0
  indirections := ok.indirections || err.indirections

/-- `Storage<Size, Align>` has the size of `Align::Divide<Size>` copies of `Align::AsUint`
(result.rs:85-88; `Divide` rounds down, typenum2/unsigned.rs:361, 563, 571). -/
def storageBytes (ok err : Lay) : Nat :=
  (resultLay ok err).size / resAlign ok err * resAlign ok err

/-- Writing the determinant returned by `ok`/`err` through `det_ptr_mut` (result.rs:245, 258). -/
def writeSelf (d : Det) (isOk : Bool) (m : Mem) : Mem :=
  match d.self isOk with
  | some b => m.set 0 b
  | none => m

/-- `Result::Ok(value)` where `value`'s bytes are `src` (result.rs:240-250). -/
def mkOk (ok err : Lay) (src : Mem) : Mem :=
  let m : Mem := fun _ => 0
  let m := m.write (okOffset ok err) ok.size src
  writeSelf (provider ok err).det true ((provider ok err).det.ok m)

/-- `Result::Err(value)` where `value`'s bytes are `src` (result.rs:253-263). -/
def mkErr (ok err : Lay) (src : Mem) : Mem :=
  let m : Mem := fun _ => 0
  let m := m.write (errOffset ok err) err.size src
  writeSelf (provider ok err).det false ((provider ok err).det.err m)

/-- `is_ok` (result.rs:384-386). -/
def isOk (ok err : Lay) (m : Mem) : Bool := (provider ok err).det.isOk m

/-- What `ok_ptr`/`ok_ptr_mut` see (result.rs:208-217). -/
def okPtr (ok err : Lay) (m : Mem) : Mem := m.at (okOffset ok err)
/-- What `err_ptr`/`err_ptr_mut` see (result.rs:218-227). -/
def errPtr (ok err : Lay) (m : Mem) : Mem := m.at (errOffset ok err)

/-- Writing through `&mut *OkGuard` (result.rs:505-507) then dropping the guard (result.rs:514-518). -/
def okGuardWrite (ok err : Lay) (m : Mem) (src : Mem) : Mem :=
  let m := m.write (okOffset ok err) ok.size src
  if (provider ok err).det.isNicheTrick then (provider ok err).det.ok m else m
/-- Writing through `&mut *ErrGuard` (result.rs:548-550) then dropping the guard (result.rs:557-561). -/
def errGuardWrite (ok err : Lay) (m : Mem) (src : Mem) : Mem :=
  let m := m.write (errOffset ok err) err.size src
  if (provider ok err).det.isNicheTrick then (provider ok err).det.err m else m

end Verif.Sum
