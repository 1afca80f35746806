import Verif.Report.Model

/-! Properties C38, C39, C45. -/
namespace Verif.Props.Report
open Verif.Report

/-! ### C38 -/

/-- The fields of a report, as a list. -/
def Fields.list : Fields → List (Str × Report)
  | .none => []
  | .some n t next => (n, t) :: Fields.list next

mutual
/-- Both reports have the same number of fields, at every level. -/
def SameShape : Report → Report → Prop
  | .mk _ _ f _ _, .mk _ _ f' _ _ => SameShapes f f'
def SameShapes : Fields → Fields → Prop
  | .none, .none => True
  | .some _ t f, .some _ t' f' => SameShape t t' ∧ SameShapes f f'
  | _, _ => False
end

mutual
theorem compat_refl : ∀ r : Report, isCompatible r r = true
  | .mk n m f t v => by simp [isCompatible, zip_refl f]
theorem zip_refl : ∀ f : Fields, zipAll f f = true
  | .none => rfl
  | .some n t f => by simp [zipAll, compat_refl t, zip_refl f]
end

mutual
theorem compat_eq : ∀ a b : Report, SameShape a b → isCompatible a b = true → a = b
  | .mk n m f t v, .mk n' m' f' t' v', hs, h => by
    simp only [isCompatible, Bool.and_eq_true, beq_iff_eq] at h
    obtain ⟨⟨⟨⟨h1, h2⟩, h3⟩, h4⟩, h5⟩ := h
    rw [h1, h2, h3, h4, zip_eq f f' hs h5]
theorem zip_eq : ∀ a b : Fields, SameShapes a b → zipAll a b = true → a = b
  | .none, .none, _, _ => rfl
  | .some n t f, .some n' t' f', hs, h => by
    simp only [zipAll, Bool.and_eq_true, beq_iff_eq] at h
    obtain ⟨⟨h1, h2⟩, h3⟩ := h
    rw [h1, compat_eq t t' hs.1 h2, zip_eq f f' hs.2 h3]
  | .none, .some _ _ _, hs, _ => hs.elim
  | .some _ _ _, .none, hs, _ => hs.elim
end

/-- Identical reports are compatible, and compatible reports with as many fields at every level are identical.  What is
missing from C38: reports with different numbers of fields, see `C38_field_count_refuted`. -/
theorem C38_is_compatible_partial (a b : Report) :
    (a = b → isCompatible a b = true) ∧ (SameShape a b → isCompatible a b = true → a = b) :=
  ⟨fun h => h ▸ compat_refl a, compat_eq a b⟩

/-- What the code decides: the headers agree, and the fields agree as far as the shorter list goes. -/
theorem C38_exact (a b : Report) : isCompatible a b = true ↔
    (a.name = b.name ∧ a.module = b.module ∧ a.version = b.version ∧ a.tyty = b.tyty) ∧
    ∀ (i : Nat) (x y : Str × Report), (Fields.list a.fields)[i]? = some x → (Fields.list b.fields)[i]? = some y →
      x.1 = y.1 ∧ isCompatible x.2 y.2 = true := by
  have zip : ∀ f f' : Fields, zipAll f f' = true ↔ ∀ (i : Nat) (x y : Str × Report), (Fields.list f)[i]? = some x →
      (Fields.list f')[i]? = some y → x.1 = y.1 ∧ isCompatible x.2 y.2 = true := by
    intro f
    induction f using Fields.rec (motive_1 := fun _ => True) with
    | mk => trivial
    | none => intro f'; simp [zipAll, Fields.list]
    | some n t f _ ih =>
      intro f'
      cases f' with
      | none => simp [zipAll, Fields.list]
      | some n' t' f' =>
        simp only [zipAll, Bool.and_eq_true, beq_iff_eq, ih, Fields.list]
        constructor
        · rintro ⟨h1, h2⟩ i x y hx hy
          cases i with
          | zero => simp at hx hy; subst hx; subst hy; exact h1
          | succ i => exact h2 i x y (by simpa using hx) (by simpa using hy)
        · intro h
          exact ⟨h 0 (n, t) (n', t') rfl rfl, fun i x y hx hy => h (i + 1) x y (by simpa using hx) (by simpa using hy)⟩
  obtain ⟨n, m, f, t, v⟩ := a
  obtain ⟨n', m', f', t', v'⟩ := b
  simp only [isCompatible, Bool.and_eq_true, beq_iff_eq, zip, Report.name, Report.module, Report.version,
    Report.tyty, Report.fields]
  constructor
  · rintro ⟨⟨⟨⟨h1, h2⟩, h3⟩, h4⟩, h5⟩; exact ⟨⟨h1, h2, h3, h4⟩, h5⟩
  · rintro ⟨⟨h1, h2, h3, h4⟩, h5⟩; exact ⟨⟨⟨⟨h1, h2⟩, h3⟩, h4⟩, h5⟩

/-- The report of `u8`. -/
def u8Report : Report := reportOf (.prim [117, 56])

/-- A struct `S { x: u8 }` is compatible with a struct `S { x: u8, y: u8 }` of the same module, and with an empty `S`.
Hence compatibility is not transitive either: the empty `S` links `S { x: u8 }` and `S { z: u8 }`. -/
theorem C38_field_count_refuted : ∃ a b c d : Report,
    isCompatible a b = true ∧ (Fields.list a.fields).length = 1 ∧ (Fields.list b.fields).length = 2 ∧
    isCompatible a c = true ∧ isCompatible c d = true ∧ isCompatible a d = false :=
  let s (f : Fields) : Report := .mk [83] [109] f .struct 0
  ⟨s (.some [120] u8Report .none), s (.some [120] u8Report (.some [121] u8Report .none)), s .none,
    s (.some [122] u8Report .none), by decide⟩

/-- Two versions of the same struct are told apart; so are two kinds of field. -/
example : isCompatible (.mk [83] [109] .none .struct 0) (.mk [83] [109] .none .struct 1) = false ∧
    isCompatible (.mk [83] [109] (.some [120] u8Report .none) .struct 0)
      (.mk [83] [109] (.some [120] (reportOf (.prim [117, 57])) .none) .struct 0) = false := by decide
example : SameShape (.mk [83] [109] (.some [120] u8Report .none) .struct 0) (.mk [83] [109] (.some [121] u8Report .none) .struct 0) :=
  ⟨trivial, trivial⟩

/-! ### C39 -/

mutual
/-- Same lengths of all names, same numbers of fields, and enum representations that are not a single byte 0 or 1. -/
def SameLengths : Report → Report → Prop
  | .mk n m f t _, .mk n' m' f' t' _ => n.length = n'.length ∧ m.length = m'.length ∧
    (tytyBytes t).length = (tytyBytes t').length ∧ (∀ s, t = .enum s → s ≠ [0] ∧ s ≠ [1]) ∧
    (∀ s, t' = .enum s → s ≠ [0] ∧ s ≠ [1]) ∧ SameLengthsF f f'
def SameLengthsF : Fields → Fields → Prop
  | .none, .none => True
  | .some n t f, .some n' t' f' => n.length = n'.length ∧ SameLengths t t' ∧ SameLengthsF f f'
  | _, _ => False
end

mutual
/-- A report with all versions set to zero. -/
def unversioned : Report → Report
  | .mk n m f t _ => .mk n m (unversionedF f) t 0
def unversionedF : Fields → Fields
  | .none => .none
  | .some n t f => .some n (unversioned t) (unversionedF f)
end

theorem tyty_inj {t t' : TyTy} (h : tytyBytes t = tytyBytes t') (h1 : ∀ s, t = .enum s → s ≠ [0] ∧ s ≠ [1])
    (h2 : ∀ s, t' = .enum s → s ≠ [0] ∧ s ≠ [1]) : t = t' := by
  cases t <;> cases t' <;> simp_all [tytyBytes]

mutual
theorem stream_len : ∀ a b : Report, SameLengths a b → (stream a).length = (stream b).length
  | .mk n m f t v, .mk n' m' f' t' v', ⟨h1, h2, h3, _, _, h4⟩ => by
    simp only [stream, List.length_append, h1, h2, h3, stream_lenF f f' h4]
theorem stream_lenF : ∀ a b : Fields, SameLengthsF a b → (fieldStream a).length = (fieldStream b).length
  | .none, .none, _ => rfl
  | .some n t f, .some n' t' f', ⟨h1, h2, h3⟩ => by
    simp only [fieldStream, List.length_append, h1, stream_len t t' h2, stream_lenF f f' h3]
  | .none, .some _ _ _, hs => hs.elim
  | .some _ _ _, .none, hs => hs.elim
end

mutual
theorem stream_inj : ∀ a b : Report, SameLengths a b → stream a = stream b → unversioned a = unversioned b
  | .mk n m f t v, .mk n' m' f' t' v', ⟨h1, h2, h3, e1, e2, h4⟩, h => by
    simp only [stream] at h
    obtain ⟨h, hf⟩ := List.append_inj h (by simp only [List.length_append, h1, h2, h3])
    obtain ⟨h, ht⟩ := List.append_inj h (by simp only [List.length_append, h1, h2])
    obtain ⟨hm, hn⟩ := List.append_inj h h2
    simp only [unversioned, hn, hm, tyty_inj ht e1 e2, stream_injF f f' h4 hf]
theorem stream_injF : ∀ a b : Fields, SameLengthsF a b → fieldStream a = fieldStream b → unversionedF a = unversionedF b
  | .none, .none, _, _ => rfl
  | .some n t f, .some n' t' f', ⟨h1, h2, h3⟩, h => by
    simp only [fieldStream] at h
    obtain ⟨h, hf⟩ := List.append_inj h (by simp only [List.length_append, h1, stream_len t t' h2])
    obtain ⟨hn, ht⟩ := List.append_inj h h1
    simp only [unversionedF, hn, stream_inj t t' h2 ht, stream_injF f f' h3 hf]
  | .none, .some _ _ _, hs, _ => hs.elim
  | .some _ _ _, .none, hs, _ => hs.elim
end

/-- Reports whose names have the same lengths feed different bytes to the hash as soon as they differ by more than versions.
What is missing from C39: versions are not hashed, and strings are not delimited. -/
theorem C39_stream_partial (a b : Report) (h : SameLengths a b) (hne : unversioned a ≠ unversioned b) :
    stream a ≠ stream b := fun he => hne (stream_inj a b h he)

example : SameLengths (.mk [83] [109] (.some [120] u8Report .none) .struct 0) (.mk [83] [109] (.some [121] u8Report .none) .struct 0) := by
  simp [SameLengths, SameLengthsF, u8Report, reportOf, tytyBytes]

/-- The same type on two architectures has the same id only if the architectures are described by the same constant; and on one architecture two types have the same id
exactly if the hash of their streams is. -/
theorem C39_architecture (sha : List Nat → BitVec 64) (x y : BitVec 64) (a b : Report) :
    (genId sha x a = genId sha y a ↔ x = y) ∧ (genId sha x a = genId sha x b ↔ sha (stream a) = sha (stream b)) := by
  simp only [genId]
  constructor
  · constructor
    · intro h
      have := congrArg (sha (stream a) ^^^ ·) h
      simpa [← BitVec.xor_assoc] using this
    · rintro rfl; rfl
  · constructor
    · intro h
      have := congrArg (· ^^^ x) h
      simpa [BitVec.xor_assoc] using this
    · intro h; rw [h]

example : genId (fun _ => 5) 1 (.mk [83] [109] .none .struct 0) ≠ genId (fun _ => 5) 2 (.mk [83] [109] .none .struct 0) := by decide

/-- Two versions of a type have the same id, whatever the hash function. -/
theorem C39_version_refuted : ∃ a b : Report, a.version ≠ b.version ∧ isCompatible a b = false ∧
    ∀ sha arch, genId sha arch a = genId sha arch b :=
  ⟨.mk [83] [109] .none .struct 0, .mk [83] [109] .none .struct 1, by decide, by decide, fun _ _ => rfl⟩

/-- `a::b::cd` and `a::bc::d` have the same id, whatever the hash function. -/
theorem C39_delimiter_refuted : ∃ a b : Report, a.name ≠ b.name ∧ isCompatible a b = false ∧
    ∀ sha arch, genId sha arch a = genId sha arch b :=
  ⟨.mk [99, 100] [97, 58, 58, 98] .none .struct 0, .mk [100] [97, 58, 58, 98, 99] .none .struct 0,
    by decide, by decide, fun _ _ => rfl⟩

/-! ### C45 -/

mutual
theorem reportEq_iff : ∀ a b : Report, reportEq a b = true ↔ a = b
  | .mk n m f t v, .mk n' m' f' t' v' => by
    simp only [reportEq, Bool.and_eq_true, beq_iff_eq, fieldsEq_iff f f', Report.mk.injEq, and_assoc]
theorem fieldsEq_iff : ∀ a b : Fields, fieldsEq a b = true ↔ a = b
  | .none, .none => by simp [fieldsEq]
  | .some n t f, .some n' t' f' => by
    simp only [fieldsEq, Bool.and_eq_true, beq_iff_eq, reportEq_iff t t', fieldsEq_iff f f', Fields.some.injEq, and_assoc]
  | .none, .some _ _ _ => by simp [fieldsEq]
  | .some _ _ _, .none => by simp [fieldsEq]
end

mutual
/-- Types made of primitives, pointers, arrays, signatures, `Option` and user-defined items. -/
def Plain : Ty → Prop
  | .prim _ => True
  | .wrap _ t => Plain t
  | .sig l r => Plain l ∧ Plain r
  | .option t => Plain t
  | .item m _ _ _ fs => m ≠ implsModule ∧ m ≠ stabbyModule ∧ m ≠ optionModule ∧ PlainF fs
  | .resultOk _ _ | .resultErr _ _ | .resultInfallible _ | .maybeUninit _ | .manuallyDrop _ | .unsafeCell _ | .nonX _ _ => False
def PlainF : List (Str × Ty) → Prop
  | [] => True
  | (_, t) :: fs => Plain t ∧ PlainF fs
end

theorem fieldsOf_list (acc : Fields) (fs : List (Str × Ty)) :
    Fields.list (fieldsOf acc fs) = (fs.map (fun x => (x.1, reportOf x.2))).reverse ++ Fields.list acc := by
  induction fs generalizing acc with
  | nil => simp [fieldsOf]
  | cons x fs ih => obtain ⟨n, t⟩ := x; simp [fieldsOf, ih, Fields.list]

theorem fields_map {fs gs : List (Str × Ty)} (h : fieldsOf .none fs = fieldsOf .none gs) :
    fs.map (fun x => (x.1, reportOf x.2)) = gs.map (fun x => (x.1, reportOf x.2)) := by
  have := congrArg Fields.list h
  rw [fieldsOf_list, fieldsOf_list] at this
  simpa [Fields.list] using this

theorem modules_ne : implsModule ≠ stabbyModule ∧ implsModule ≠ optionModule ∧ stabbyModule ≠ optionModule := by decide

mutual
theorem reportOf_inj : ∀ a b : Ty, Plain a → Plain b → reportOf a = reportOf b → a = b
  | .prim n, b, _, hb, h => by
    cases b <;> simp_all [reportOf, Plain, modules_ne]
  | .wrap n t, b, ha, hb, h => by
    cases b <;> simp_all [reportOf, Plain, modules_ne]
    exact reportOf_inj t _ ha hb h.2
  | .sig l r, b, ha, hb, h => by
    cases b <;> simp_all [reportOf, Plain, modules_ne, modules_ne.1.symm]
    exact ⟨reportOf_inj l _ ha.1 hb.1 h.1, reportOf_inj r _ ha.2 hb.2 h.2⟩
  | .option t, b, ha, hb, h => by
    cases b <;> simp_all [reportOf, Plain, modules_ne, modules_ne.2.1.symm, modules_ne.2.2.symm]
    exact reportOf_inj t _ ha hb h
  | .item m n k v fs, b, ha, hb, h => by
    cases b with
    | item m' n' k' v' gs =>
      simp only [reportOf, Report.mk.injEq] at h
      obtain ⟨h1, h2, h3, h4, h5⟩ := h
      rw [h1, h2, h4, h5, fields_inj fs gs ha.2.2.2 hb.2.2.2 (fields_map h3)]
    | _ => simp_all [reportOf, Plain]
  | .resultOk _ _, _, ha, _, _ => ha.elim
  | .resultErr _ _, _, ha, _, _ => ha.elim
  | .resultInfallible _, _, ha, _, _ => ha.elim
  | .maybeUninit _, _, ha, _, _ => ha.elim
  | .manuallyDrop _, _, ha, _, _ => ha.elim
  | .unsafeCell _, _, ha, _, _ => ha.elim
  | .nonX _ _, _, ha, _, _ => ha.elim
theorem fields_inj : ∀ fs gs : List (Str × Ty), PlainF fs → PlainF gs →
    fs.map (fun x => (x.1, reportOf x.2)) = gs.map (fun x => (x.1, reportOf x.2)) → fs = gs
  | [], [], _, _, _ => rfl
  | [], _ :: _, _, _, h => by simp at h
  | _ :: _, [], _, _, h => by simp at h
  | (n, t) :: fs, (n', t') :: gs, ha, hb, h => by
    simp only [List.map_cons, List.cons.injEq, Prod.mk.injEq] at h
    rw [h.1.1, reportOf_inj t t' ha.1 hb.1 h.1.2, fields_inj fs gs ha.2 hb.2 h.2]
end

/-- A stable downcast to the right type always succeeds; among plain types it succeeds for the right type only.  What is
missing from C45: types that share their reports, see `C45_wrappers_refuted` and `C45_non_x_refuted`. -/
theorem C45_downcast_partial (sha : List Nat → BitVec 64) (arch : BitVec 64) (built asked : Ty) :
    (built = asked → stableDowncast sha arch built asked = true ∧ stableDowncastRef built asked = true) ∧
    (Plain built → Plain asked → (stableDowncast sha arch built asked = true ∨ stableDowncastRef built asked = true) →
      built = asked) := by
  constructor
  · intro h
    subst h
    have : reportEq (reportOf built) (reportOf built) = true := (reportEq_iff _ _).2 rfl
    simp [stableDowncast, stableDowncastRef, this]
  · intro ha hb h
    refine reportOf_inj built asked ha hb ((reportEq_iff _ _).1 ?_)
    rcases h with h | h
    · simp only [stableDowncast, Bool.and_eq_true] at h; exact h.2
    · exact h

/-- `&S` where `struct S { x: u8 }` lives in module `m`. -/
example : Plain (.wrap [38] (.item [109] [83] .struct 0 [([120], .prim [117, 56])])) := by
  simp [Plain, PlainF, implsModule, stabbyModule, optionModule]

/-- Whatever the hash: a `MaybeUninit<bool>` is downcast to `bool`, and a `ManuallyDrop<&A>` to a `ManuallyDrop<&B>`. -/
theorem C45_wrappers_refuted (sha : List Nat → BitVec 64) (arch : BitVec 64) :
    stableDowncast sha arch (.maybeUninit (.prim [98, 111, 111, 108])) (.prim [98, 111, 111, 108]) = true ∧
    ∀ a b : Ty, stableDowncast sha arch (.manuallyDrop (.wrap [38] a)) (.manuallyDrop (.wrap [38] b)) = true := by
  constructor
  · have : reportOf (.maybeUninit (.prim [98, 111, 111, 108])) = reportOf (.prim [98, 111, 111, 108]) := rfl
    rw [stableDowncast, this]; simp [(reportEq_iff _ _).2]
  · intro a b
    have : reportOf (.manuallyDrop (.wrap [38] a)) = reportOf (.manuallyDrop (.wrap [38] b)) := by
      simp [reportOf, Report.name]
    rw [stableDowncast, this]; simp [(reportEq_iff _ _).2]

/-- `NonXU8::<1>` is downcast to `NonXU8::<2>`, though the same image denotes different numbers (C35). -/
theorem C45_non_x_refuted (sha : List Nat → BitVec 64) (arch : BitVec 64) (name : Str) (f g : Int) :
    stableDowncast sha arch (.nonX name f) (.nonX name g) = true := by
  have : reportOf (.nonX name f) = reportOf (.nonX name g) := rfl
  rw [stableDowncast, this]; simp [(reportEq_iff _ _).2]

/-- The zero-sized side of a `core` result does not appear in its report. -/
theorem C45_core_result_refuted (sha : List Nat → BitVec 64) (arch : BitVec 64) (ok err err' : Ty) :
    stableDowncast sha arch (.resultOk ok err) (.resultOk ok err') = true := by
  have : reportOf (.resultOk ok err) = reportOf (.resultOk ok err') := by simp [reportOf]
  rw [stableDowncast, this]; simp [(reportEq_iff _ _).2]

end Verif.Props.Report
