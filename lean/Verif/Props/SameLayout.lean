import Verif.Report.Named
import Verif.Props.ReportText
import Verif.Props.Report
import Verif.Sum.Variants
/-! C105: types with the same report have the same layout. -/
set_option linter.unusedSimpArgs false
namespace Verif.Props.SameLayout
open Verif.Report hiding Ty
open Verif.Report.Named Verif.Layout Verif.Layout.Platform

/-! ### What the theorems are about -/

/-- The primitive types with a parameter. -/
def Generic (p : Prim) : Prop := p ∈ [Prim.constPtr, .mutPtr, .nonNull, .ref, .refMut, .atomicPtr, .fnPtr]

/-- Items are not defined in (or attributed to, with `module = ..`) the modules of the types of the library. -/
def Own (h : Head) : Prop := h.module ≠ implsModule ∧ h.module ≠ optionModule ∧ h.module ≠ stabbyResult

/-- Fields all have a type. -/
def NoBare : Members → Prop
  | .nil => True
  | .field _ _ rest => NoBare rest
  | .bare _ _ => False

mutual
/-- Types whose report determines their layout: structs without `repr(align)`, enums all of the same kind (`repr(C, tag)` if `k`, else `repr(tag)`),
and `ManuallyDrop`, `MaybeUninit`, `UnsafeCell` only of primitive types. -/
def Plain (k : Bool) : Ty → Prop
  | .prim p => ¬ Generic p
  | .pointer p x => Generic p ∧ Plain k x
  | .pin x => Plain k x
  | .array _ x => Plain k x
  | .cell _ x => ∃ p, x = .prim p ∧ ¬ Generic p
  | .option x => Plain k x
  | .result a b => Plain k a ∧ Plain k b
  | .struct h al fs => Own h ∧ al = none ∧ NoBare fs ∧ Plains k fs
  | .union h fs => Own h ∧ NoBare fs ∧ Plains k fs
  | .tagged h c _ vs => Own h ∧ c = k ∧ Plains k vs
  | .sum h vs => Own h ∧ Plains k vs
def Plains (k : Bool) : Members → Prop
  | .nil => True
  | .field _ x rest => Plain k x ∧ Plains k rest
  | .bare _ rest => Plains k rest
end

mutual
/-- Whether a primitive type that satisfies `f` is part of the type, or pointed to by it. -/
def Uses (f : Prim → Prop) : Ty → Prop
  | .prim p => f p
  | .pointer _ x => Uses f x
  | .pin x => Uses f x
  | .array _ x => Uses f x
  | .cell _ x => Uses f x
  | .option x => Uses f x
  | .result a b => Uses f a ∨ Uses f b
  | .struct _ _ fs => Usess f fs
  | .union _ fs => Usess f fs
  | .tagged _ _ _ vs => Usess f vs
  | .sum _ vs => Usess f vs
def Usess (f : Prim → Prop) : Members → Prop
  | .nil => False
  | .field _ x rest => Uses f x ∨ Usess f rest
  | .bare _ rest => Usess f rest
end

/-! ### Names -/

/-- The names of the primitive types, as they are in the source. -/
def written (a128 : Nat) : Prim → String
  | .unit => "()"
  | .phantomData => "core::marker::PhantomData"
  | .phantomPinned => "core::marker::PhantomPinned"
  | .cVoid => "core::ffi::c_void"
  | .bool => "bool"
  | .ordering => "core::cmp::Ordering"
  | .uint .w8 => "u8"
  | .uint .w16 => "u16"
  | .uint .w32 => "u32"
  | .uint .w64 => "u64"
  | .uint .w128 => if a128 = 8 then "u128(8)" else "u128(16)"
  | .nonZeroU .w8 => "core::num::NonZeroU8"
  | .nonZeroU .w16 => "core::num::NonZeroU16"
  | .nonZeroU .w32 => "core::num::NonZeroU32"
  | .nonZeroU .w64 => "core::num::NonZeroU64"
  | .nonZeroU .w128 => "core::num::NonZeroU128"
  | .int .w8 => "i8"
  | .int .w16 => "i16"
  | .int .w32 => "i32"
  | .int .w64 => "i64"
  | .int .w128 => "i128"
  | .nonZeroI .w8 => "core::num::NonZeroI8"
  | .nonZeroI .w16 => "core::num::NonZeroI16"
  | .nonZeroI .w32 => "core::num::NonZeroI32"
  | .nonZeroI .w64 => "core::num::NonZeroI64"
  | .nonZeroI .w128 => "core::num::NonZeroI128"
  | .usize => "usize"
  | .nonZeroUsize => "core::num::NonZeroUsize"
  | .isize => "isize"
  | .nonZeroIsize => "core::num::NonZeroIsize"
  | .f32 => "f32"
  | .f64 => "f64"
  | .atomicBool => "core::sync::atomic::AtomicBool"
  | .atomicI .w8 => "core::sync::atomic::AtomicI8"
  | .atomicI .w16 => "core::sync::atomic::AtomicI16"
  | .atomicI .w32 => "core::sync::atomic::AtomicI32"
  | .atomicI .w64 => "core::sync::atomic::AtomicI64"
  | .atomicI .w128 => "core::sync::atomic::AtomicI128"
  | .atomicU .w8 => "core::sync::atomic::AtomicU8"
  | .atomicU .w16 => "core::sync::atomic::AtomicU16"
  | .atomicU .w32 => "core::sync::atomic::AtomicU32"
  | .atomicU .w64 => "core::sync::atomic::AtomicU64"
  | .atomicU .w128 => "core::sync::atomic::AtomicU128"
  | .atomicIsize => "core::sync::atomic::AtomicIsize"
  | .atomicUsize => "core::sync::atomic::AtomicUsize"
  | .ownedFd => "std::os::fd::OwnedFd"
  | .borrowedFd => "std::os::fd::BorrowedFd"
  | .constPtr => "*const"
  | .mutPtr => "*mut"
  | .nonNull => "core::ptr::NonNull"
  | .ref => "&"
  | .refMut => "&mut"
  | .atomicPtr => "core::sync::atomic::AtomicPtr"
  | .fnPtr => "extern \"C\" fn"

def writtenTag : Attr.Tag → String
  | .u8 => "u8"
  | .u16 => "u16"
  | .u32 => "u32"
  | .u64 => "u64"
  | .usize => "usize"
  | .i8 => "i8"
  | .i16 => "i16"
  | .i32 => "i32"
  | .i64 => "i64"
  | .isize => "isize"

def bytes (s : String) : Str := s.toList.map Char.toNat

/-- C105: what the reports call the primitive types and the tags. -/
theorem C105_names (t : Target) (p : Prim) (g : Attr.Tag) : primName t p = bytes (written t.a128 p) ∧ tagName g = bytes (writtenTag g) := by
  constructor
  · cases p with
    | uint w =>
      cases w with
      | w128 => simp only [primName, written]; split <;> decide +kernel
      | _ => simp only [primName, written]; decide +kernel
    | nonZeroU w | int w | nonZeroI w | atomicI w | atomicU w => cases w <;> (simp only [primName, written]; decide +kernel)
    | _ => simp only [primName, written]; decide +kernel
  · cases g <;> decide +kernel

/-- C105: what they call the types around others. -/
theorem C105_literals :
    pinName = bytes "core::pin::Pin" ∧
    stabbyRepr = bytes "stabby" ∧
    stabbyResult = bytes "stabby_abi::result" := by decide +kernel

/-- C105: the name of an array says its length, in decimal. -/
theorem C105_array_name (n : Nat) : ∃ ds, ReportText.Decimal n ds ∧ arrayName n = bytes "[T;" ++ ds ++ bytes "]" :=
  ⟨_, ReportText.decimal_version n, rfl⟩
example : arrayName 12 = bytes "[T;12]" := by decide +kernel

/-- The fields of a report. -/
def shown : Fields → List (Str × Report)
  | .none => []
  | .some n r rest => (n, r) :: shown rest

/-- The members of an item with their reports, as they are written. -/
def members (t : Target) : Members → List (Str × Report)
  | .nil => []
  | .field n x rest => (n, report t x) :: members t rest
  | .bare n rest => (n, report t (.prim .unit)) :: members t rest

theorem shown_fields (t : Target) (ms : Members) : ∀ acc, shown (fields t acc ms) = (members t ms).reverse ++ shown acc := by
  induction ms using Members.rec (motive_1 := fun _ => True) with
  | nil => intro acc; simp [fields, members]
  | field n x rest _ ih => intro acc; rw [fields, ih]; simp [members, shown]
  | bare n rest ih => intro acc; rw [fields, ih]; simp [members, shown, report]
  | _ => trivial

/-- C105: what the reports of items say of them: where they are, their version, their kind, and their members, the last of which comes first. -/
theorem C105_items (t : Target) (h : Head) (al : Option Nat) (c : Bool) (g : Attr.Tag) (ms : Members) (x : Ty)
    (hx : x = .struct h al ms ∨ x = .union h ms ∨ x = .tagged h c g ms ∨ x = .sum h ms) :
    (report t x).name = h.name ∧ (report t x).module = h.module ∧ (report t x).version = h.version ∧
    shown (report t x).fields = (members t ms).reverse ∧
    (x = .struct h al ms → (report t x).tyty = .struct) ∧ (x = .union h ms → (report t x).tyty = .union) ∧
    (x = .tagged h c g ms → (report t x).tyty = .enum (bytes (writtenTag g))) ∧ (x = .sum h ms → (report t x).tyty = .enum (bytes "stabby")) := by
  have hl : shown (fields t .none ms) = (members t ms).reverse := by rw [shown_fields]; simp [shown]
  have hb : stabbyRepr = bytes "stabby" := C105_literals.2.1
  rcases hx with rfl | rfl | rfl | rfl <;>
    simp only [report, Report.name, Report.module, Report.version, Report.fields, Report.tyty, hl, reduceCtorEq, false_implies, true_implies,
      and_self, true_and, and_true, (C105_names t .unit g).2, hb]

/-- C105: the layouts of the reports are those of the other chapters: tags are the primitive types they name, and the layout of a
`#[repr(stabby)]` enum is that of the nested `Result`s of C22. -/
theorem C105_tag_is (t : Target) (g : Attr.Tag) : bytes (written t.a128 (tagPrim g)) = bytes (writtenTag g) := by
  cases g <;> rfl
theorem C105_sum_is (vs : List Verif.Sum.Ty) : sumLay (vs.map (·.lay)) = (Verif.Sum.build vs).ty.lay := by
  induction h : vs.length using Nat.strongRecOn generalizing vs with
  | ind n ih =>
    rw [sumLay, Verif.Sum.build]
    simp only [List.length_map]
    split
    · rw [← List.map_take, ← List.map_drop, ih _ (by rw [List.length_take]; omega) _ rfl, ih _ (by rw [List.length_drop]; omega) _ rfl]
      rfl
    · cases vs <;> rfl
/-- C105: what rustc lays out for sums is the storage of the declared size and alignment. -/
theorem C105_sum_storage (t : Target) (x : Ty) (hx : (∃ a b, x = .result a b) ∨ ∃ h vs, x = .sum h vs) :
    erase t x = .storage (declared t x).size (declared t x).align := by
  rcases hx with ⟨a, b, rfl⟩ | ⟨h, vs, rfl⟩ <;> simp only [erase, declared]
example : sumLay [Lay.unit, Lay.unit, Lay.unit] = (Verif.Sum.build [.unit, .unit, .unit]).ty.lay := C105_sum_is [.unit, .unit, .unit]

/-- C105: and what those of other types say. -/
theorem C105_others (t : Target) (p : Prim) (n : Nat) (c : Cell) (x y : Ty) :
    (report t (.prim p)).name = bytes (written t.a128 p) ∧ shown (report t (.prim p)).fields = [] ∧
    (report t (.pointer p x)).name = bytes (written t.a128 p) ∧ shown (report t (.pointer p x)).fields = [(bytes "inner", report t x)] ∧
    (report t (.pin x)).name = bytes "core::pin::Pin" ∧ shown (report t (.pin x)).fields = [(bytes "inner", report t x)] ∧
    (report t (.array n x)).name = arrayName n ∧ shown (report t (.array n x)).fields = [(bytes "inner", report t x)] ∧
    (report t (.cell c x)).name = (report t x).name ∧ shown (report t (.cell c x)).fields = [] ∧
    (report t (.option x)).name = bytes "Option" ∧ shown (report t (.option x)).fields = [(bytes "Some", report t x)] ∧
    (report t (.result x y)).name = bytes "Result" ∧ shown (report t (.result x y)).fields = [(bytes "Ok", report t x), (bytes "Err", report t y)] ∧
    (report t (.result x y)).version = 1 ∧
    (∀ z ∈ [Ty.prim p, .pointer p x, .pin x, .array n x, .cell c x], (report t z).module = bytes "stabby_abi::stable_impls" ∧ (report t z).tyty = .struct ∧
      (report t z).version = 0) ∧
    (report t (.option x)).module = bytes "core::option" ∧ (report t (.option x)).tyty = .enum (bytes "rust") ∧ (report t (.option x)).version = 0 ∧
    (report t (.result x y)).module = bytes "stabby_abi::result" ∧ (report t (.result x y)).tyty = .enum (bytes "stabby") := by
  have e := (C105_names t p .u8).1
  simp only [report, Report.name, Report.module, Report.version, Report.fields, Report.tyty, shown, e, List.mem_cons, List.not_mem_nil, or_false,
    forall_eq_or_imp, forall_eq, true_and, and_true]
  repeat' apply And.intro
  all_goals rfl

def all : List Prim :=
  [.unit, .phantomData, .phantomPinned, .cVoid, .bool, .ordering, .usize, .nonZeroUsize, .isize, .nonZeroIsize, .f32, .f64, .constPtr, .mutPtr,
   .nonNull, .ref, .refMut, .fnPtr, .atomicBool, .atomicIsize, .atomicUsize, .atomicPtr, .ownedFd, .borrowedFd]
  ++ [Width.w8, .w16, .w32, .w64, .w128].flatMap fun w => [.uint w, .nonZeroU w, .int w, .nonZeroI w, .atomicI w, .atomicU w]

theorem mem_all (p : Prim) : p ∈ all := by
  cases p with
  | uint w | nonZeroU w | int w | nonZeroI w | atomicI w | atomicU w => cases w <;> decide +kernel
  | _ => decide +kernel

def on (b : Bool) : Target := ⟨8, 2, 4, 8, if b then 8 else 16, 8, 4, 8⟩

theorem primName_on (t : Target) (p : Prim) : primName t p = primName (on (decide (t.a128 = 8))) p := by
  by_cases h : t.a128 = 8 <;> (cases p <;> first | rfl | (rename_i w; cases w <;> simp [primName, on, h]))

theorem primName_check : ∀ b ∈ [true, false], ∀ b' ∈ [true, false], ∀ p ∈ all, ∀ q ∈ all,
    primName (on b) p = primName (on b') q → p = q ∧ (q = .uint .w128 → b = b') := by decide +kernel

theorem primName_inj {t t' : Target} {p q : Prim} (h : primName t p = primName t' q) :
    p = q ∧ (q = .uint .w128 → (t.a128 = 8 ↔ t'.a128 = 8)) := by
  rw [primName_on t, primName_on t'] at h
  have hb : ∀ b : Bool, b ∈ [true, false] := by decide
  obtain ⟨h1, h2⟩ := primName_check _ (hb _) _ (hb _) p (mem_all p) q (mem_all q) h
  exact ⟨h1, fun hq => by simpa using h2 hq⟩

theorem primName_pin (t : Target) (p : Prim) : primName t p ≠ pinName := by
  rw [primName_on]
  have : ∀ b ∈ [true, false], ∀ p ∈ all, primName (on b) p ≠ pinName := by decide +kernel
  exact this (decide (t.a128 = 8)) (by cases decide (t.a128 = 8) <;> decide) p (mem_all p)

theorem primName_array (t : Target) (p : Prim) (n : Nat) : primName t p ≠ arrayName n := by
  rw [primName_on]
  have : ∀ b ∈ [true, false], ∀ p ∈ all, (primName (on b) p).head? ≠ some 91 := by decide +kernel
  intro h
  exact this (decide (t.a128 = 8)) (by cases decide (t.a128 = 8) <;> decide) p (mem_all p) (by rw [h]; rfl)

theorem pin_array (n : Nat) : pinName ≠ arrayName n := by
  intro h; have := congrArg List.head? h; revert this; simp [pinName, arrayName]

theorem arrayName_inj {n m : Nat} (h : arrayName n = arrayName m) : n = m := by
  unfold arrayName at h
  exact ReportText.versionText_inj (List.append_cancel_left (List.append_cancel_right h))

theorem tagName_inj {a b : Attr.Tag} (h : tagName a = tagName b) : a = b := by
  revert h; cases a <;> cases b <;> decide

theorem tagName_stabby (a : Attr.Tag) : tagName a ≠ stabbyRepr := by cases a <;> decide

/-! ### Members -/

def entries (t : Target) : Members → List (Str × Report)
  | .nil => []
  | .field n x rest => (n, report t x) :: entries t rest
  | .bare n rest => (n, report t (.prim .unit)) :: entries t rest

def listed : Fields → List (Str × Report)
  | .none => []
  | .some n r rest => (n, r) :: listed rest

theorem listed_fields (t : Target) : ∀ (m : Members) (acc : Fields), listed (fields t acc m) = (entries t m).reverse ++ listed acc
  | .nil, acc => by simp [fields, entries]
  | .field n x rest, acc => by rw [fields, listed_fields t rest]; simp [entries, listed]
  | .bare n rest, acc => by rw [fields, listed_fields t rest]; simp [entries, listed, report]

theorem entries_eq {t t' : Target} {m m' : Members} (h : fields t .none m = fields t' .none m') : entries t m = entries t' m' := by
  have := congrArg listed h
  rw [listed_fields, listed_fields] at this
  simpa [listed] using this

theorem leaves_payloads (t : Target) : ∀ m : Members, NoBare m → payloads t m = leaves t m
  | .nil, _ => rfl
  | .field n x rest, h => by rw [payloads, leaves, leaves_payloads t rest h]
  | .bare n rest, h => h.elim

/-- What nested unions look like. -/
def UnionLike (l : Lay) : Prop := 0 < l.align ∧ nextMul l.size l.align = l.size ∧ l.fv = .none ∧ l.ub = [] ∧ l.oneNiche = .b0

theorem union_unit {l : Lay} (h : UnionLike l) : Lay.union l Lay.unit = l := by
  obtain ⟨h1, h2, h3, h4, h5⟩ := h
  cases l
  simp only at h1 h2 h3 h4 h5
  simp [Lay.union, Lay.unit, *]
  exact ⟨by rw [Nat.max_eq_left (by omega)]; exact h2, by omega⟩

theorem unionLike_union {a : Lay} (b : Lay) (h : UnionLike a) : UnionLike (Lay.union a b) := by
  have : 0 < max a.align b.align := Nat.lt_of_lt_of_le h.1 (Nat.le_max_left _ _)
  exact ⟨this, nextMul_self (nextMul_mod this), rfl, rfl, rfl⟩

theorem nest_leaves (t : Target) : ∀ (m : Members) (acc : Lay), UnionLike acc → nestUnion acc (payloads t m) = nestUnion acc (leaves t m)
  | .nil, _, _ => rfl
  | .field n x rest, acc, h => by rw [payloads, leaves, nestUnion, nestUnion, nest_leaves t rest _ (unionLike_union _ h)]
  | .bare n rest, acc, h => by rw [payloads, leaves, nestUnion, union_unit h, nest_leaves t rest _ h]

theorem unionLike_unit : UnionLike Lay.unit := by refine ⟨?_, ?_, rfl, rfl, rfl⟩ <;> decide

theorem enum_leaves (t : Target) (tag : Lay) (m : Members) : enumOf tag (payloads t m) = enumOf tag (leaves t m) := by
  unfold enumOf; rw [nest_leaves t m _ unionLike_unit]

/-! ### From reports to layouts -/

/-- What is shown of two types with the same report. -/
def Same (t t' : Target) (a b : Ty) : Prop :=
  (∀ s, declared s a = declared s b ∧ erase s a = erase s b) ∧ (Uses (· = .uint .w128) b → (t.a128 = 8 ↔ t'.a128 = 8))

def Sames (t t' : Target) (m m' : Members) : Prop :=
  (∀ s, leaves s m = leaves s m' ∧ erases s m = erases s m') ∧ (Usess (· = .uint .w128) m' → (t.a128 = 8 ↔ t'.a128 = 8))

theorem unit_plain : ¬ Generic .unit := by unfold Generic; decide

/-- Reports without fields. -/
theorem same_prim {k : Bool} {t t' : Target} {p : Prim} {b : Ty} (hb : Plain k b) (h : report t (.prim p) = report t' b) :
    Same t t' (.prim p) b := by
  cases b with
  | prim q =>
    simp only [report, Report.mk.injEq, true_and, and_true] at h
    obtain ⟨rfl, h2⟩ := primName_inj h
    exact ⟨fun _ => ⟨rfl, rfl⟩, h2⟩
  | cell c x =>
    obtain ⟨q, rfl, -⟩ := hb
    simp only [report, Report.name, Report.mk.injEq, true_and, and_true] at h
    obtain ⟨rfl, h2⟩ := primName_inj h
    exact ⟨fun s => ⟨by simp only [declared], by simp only [erase]⟩, fun hu => h2 (by simpa only [Uses] using hu)⟩
  | pointer q x | pin x | array n x | option x | result x y => simp [report] at h
  | struct g al fs => simp [report] at h; exact absurd h.2.1.symm hb.1.1
  | union g fs => simp [report] at h
  | tagged g c tag fs => simp [report] at h
  | sum g fs => simp [report] at h

mutual
theorem same {k : Bool} {t t' : Target} : ∀ (a b : Ty), Plain k a → Plain k b → report t a = report t' b → Same t t' a b
  | .prim p, b, _, hb, h => same_prim hb h
  | .cell c x, b, ha, hb, h => by
    obtain ⟨p, rfl, -⟩ := ha
    obtain ⟨h1, h2⟩ := same_prim (p := p) hb (by simpa only [report, Report.name] using h)
    exact ⟨fun s => by simpa only [declared, erase] using h1 s, h2⟩
  | .pointer p x, b, ha, hb, h => by
    cases b with
    | pointer q y =>
      simp only [report, Report.mk.injEq, Fields.some.injEq, true_and, and_true] at h
      obtain ⟨rfl, -⟩ := primName_inj h.1
      have := same x y ha.2 hb.2 h.2
      exact ⟨fun s => by simp only [declared, erase, and_self], by simpa only [Uses] using this.2⟩
    | pin y => simp [report] at h; exact absurd h.1 (primName_pin _ _)
    | array n y => simp [report] at h; exact absurd h.1 (primName_array _ _ _)
    | prim q => simp [report] at h
    | cell c y => simp [report] at h
    | option y => simp [report] at h
    | result y z => simp [report] at h
    | struct g al fs => simp [report] at h; exact absurd h.2.1.symm hb.1.1
    | union g fs => simp [report] at h
    | tagged g c tag fs => simp [report] at h
    | sum g fs => simp [report] at h
  | .pin x, b, ha, hb, h => by
    cases b with
    | pin y =>
      simp only [report, Report.mk.injEq, Fields.some.injEq, true_and, and_true] at h
      have := same x y ha hb h
      exact ⟨fun s => by simpa only [declared, erase] using this.1 s, by simpa only [Uses] using this.2⟩
    | pointer q y => simp [report] at h; exact absurd h.1.symm (primName_pin _ _)
    | array n y => simp [report] at h; exact absurd h.1 (pin_array _)
    | prim q => simp [report] at h
    | cell c y => simp [report] at h
    | option y => simp [report] at h
    | result y z => simp [report] at h
    | struct g al fs => simp [report] at h; exact absurd h.2.1.symm hb.1.1
    | union g fs => simp [report] at h
    | tagged g c tag fs => simp [report] at h
    | sum g fs => simp [report] at h
  | .array n x, b, ha, hb, h => by
    cases b with
    | array m y =>
      simp only [report, Report.mk.injEq, Fields.some.injEq, true_and, and_true] at h
      obtain rfl := arrayName_inj h.1
      have := same x y ha hb h.2
      exact ⟨fun s => by simp only [declared, erase]; rw [(this.1 s).1, (this.1 s).2]; exact ⟨rfl, rfl⟩, by simpa only [Uses] using this.2⟩
    | pointer q y => simp [report] at h; exact absurd h.1.symm (primName_array _ _ _)
    | pin y => simp [report] at h; exact absurd h.1.symm (pin_array _)
    | prim q => simp [report] at h
    | cell c y => simp [report] at h
    | option y => simp [report] at h
    | result y z => simp [report] at h
    | struct g al fs => simp [report] at h; exact absurd h.2.1.symm hb.1.1
    | union g fs => simp [report] at h
    | tagged g c tag fs => simp [report] at h
    | sum g fs => simp [report] at h
  | .option x, b, ha, hb, h => by
    cases b with
    | option y =>
      simp only [report, Report.mk.injEq, Fields.some.injEq, true_and, and_true] at h
      have := same x y ha hb h
      exact ⟨fun s => by simp only [declared, erase]; rw [(this.1 s).1, (this.1 s).2]; exact ⟨rfl, rfl⟩, by simpa only [Uses] using this.2⟩
    | pointer q y => simp [report] at h
    | pin y => simp [report] at h
    | array n y => simp [report] at h
    | prim q => simp [report] at h
    | cell c y => simp [report] at h
    | result y z => simp [report] at h
    | struct g al fs => simp [report] at h
    | union g fs => simp [report] at h
    | tagged g c tag fs => simp [report] at h; exact absurd h.2.1.symm hb.1.2.1
    | sum g fs => simp [report] at h; exact absurd h.2.1.symm hb.1.2.1
  | .result x x', b, ha, hb, h => by
    cases b with
    | result y y' =>
      simp only [report, Report.mk.injEq, Fields.some.injEq, true_and, and_true] at h
      have h1 := same x y ha.1 hb.1 h.1
      have h2 := same x' y' ha.2 hb.2 h.2
      refine ⟨fun s => ?_, fun hu => ?_⟩
      · simp only [declared, erase]; rw [(h1.1 s).1, (h2.1 s).1]; exact ⟨rfl, rfl⟩
      · simp only [Uses] at hu
        rcases hu with hu | hu
        · exact h1.2 hu
        · exact h2.2 hu
    | pointer q y => simp [report] at h
    | pin y => simp [report] at h
    | array n y => simp [report] at h
    | prim q => simp [report] at h
    | cell c y => simp [report] at h
    | option y => simp [report] at h
    | struct g al fs => simp [report] at h
    | union g fs => simp [report] at h
    | tagged g c tag fs => simp [report] at h; exact absurd h.2.1.symm hb.1.2.2
    | sum g fs => simp [report] at h; exact absurd h.2.1.symm hb.1.2.2
  | .struct g al fs, b, ha, hb, h => by
    cases b with
    | struct g' al' fs' =>
      simp only [report, Report.mk.injEq, true_and] at h
      obtain ⟨-, rfl, hn, hp⟩ := ha
      obtain ⟨-, rfl, hn', hp'⟩ := hb
      have := sames fs fs' hp hp' (entries_eq h.2.2.1)
      refine ⟨fun s => ?_, by simpa only [Uses] using this.2⟩
      simp only [declared, erase]
      rw [leaves_payloads s fs hn, leaves_payloads s fs' hn', (this.1 s).1, (this.1 s).2]; exact ⟨rfl, rfl⟩
    | pointer q y => simp [report] at h; exact absurd h.2.1 ha.1.1
    | pin y => simp [report] at h; exact absurd h.2.1 ha.1.1
    | array n y => simp [report] at h; exact absurd h.2.1 ha.1.1
    | prim q => simp [report] at h; exact absurd h.2.1 ha.1.1
    | cell c y => simp [report] at h; exact absurd h.2.1 ha.1.1
    | option y => simp [report] at h
    | result y z => simp [report] at h
    | union g fs => simp [report] at h
    | tagged g c tag fs => simp [report] at h
    | sum g fs => simp [report] at h
  | .union g fs, b, ha, hb, h => by
    cases b with
    | union g' fs' =>
      simp only [report, Report.mk.injEq, true_and] at h
      have := sames fs fs' ha.2.2 hb.2.2 (entries_eq h.2.2.1)
      refine ⟨fun s => ?_, by simpa only [Uses] using this.2⟩
      simp only [declared, erase]
      rw [leaves_payloads s fs ha.2.1, leaves_payloads s fs' hb.2.1, (this.1 s).1, (this.1 s).2]; exact ⟨rfl, rfl⟩
    | pointer q y => simp [report] at h
    | pin y => simp [report] at h
    | array n y => simp [report] at h
    | prim q => simp [report] at h
    | cell c y => simp [report] at h
    | option y => simp [report] at h
    | result y z => simp [report] at h
    | struct g al fs => simp [report] at h
    | tagged g c tag fs => simp [report] at h
    | sum g fs => simp [report] at h
  | .tagged g c tag fs, b, ha, hb, h => by
    cases b with
    | tagged g' c' tag' fs' =>
      simp only [report, Report.mk.injEq, TyTy.enum.injEq] at h
      obtain ⟨-, rfl, hp⟩ := ha
      obtain ⟨-, rfl, hp'⟩ := hb
      obtain rfl := tagName_inj h.2.2.2.1
      have := sames fs fs' hp hp' (entries_eq h.2.2.1)
      refine ⟨fun s => ?_, by simpa only [Uses] using this.2⟩
      simp only [declared, erase]
      rw [enum_leaves, enum_leaves, (this.1 s).1, (this.1 s).2]; exact ⟨rfl, rfl⟩
    | sum g' fs' => simp [report] at h; exact absurd h.2.2.2.1 (tagName_stabby _)
    | pointer q y => simp [report] at h
    | pin y => simp [report] at h
    | array n y => simp [report] at h
    | prim q => simp [report] at h
    | cell c y => simp [report] at h
    | option y => simp [report] at h; exact absurd h.2.1 ha.1.2.1
    | result y z => simp [report] at h; exact absurd h.2.1 ha.1.2.2
    | struct g al fs => simp [report] at h
    | union g fs => simp [report] at h
  | .sum g fs, b, ha, hb, h => by
    cases b with
    | sum g' fs' =>
      simp only [report, Report.mk.injEq, true_and] at h
      have := sames fs fs' ha.2 hb.2 (entries_eq h.2.2.1)
      refine ⟨fun s => ?_, by simpa only [Uses] using this.2⟩
      simp only [declared, erase]
      rw [(this.1 s).1]; exact ⟨rfl, rfl⟩
    | tagged g' c tag fs' => simp [report] at h; exact absurd h.2.2.2.1.symm (tagName_stabby _)
    | pointer q y => simp [report] at h
    | pin y => simp [report] at h
    | array n y => simp [report] at h
    | prim q => simp [report] at h
    | cell c y => simp [report] at h
    | option y => simp [report] at h; exact absurd h.2.1 ha.1.2.1
    | result y z => simp [report] at h; exact absurd h.2.1 ha.1.2.2
    | struct g al fs => simp [report] at h
    | union g fs => simp [report] at h
theorem sames {k : Bool} {t t' : Target} : ∀ (m m' : Members), Plains k m → Plains k m' → entries t m = entries t' m' → Sames t t' m m'
  | .nil, .nil, _, _, _ => ⟨fun _ => ⟨rfl, rfl⟩, fun h => h.elim⟩
  | .nil, .field _ _ _, _, _, h => by simp [entries] at h
  | .nil, .bare _ _, _, _, h => by simp [entries] at h
  | .field _ _ _, .nil, _, _, h => by simp [entries] at h
  | .bare _ _, .nil, _, _, h => by simp [entries] at h
  | .field n x m, .field n' x' m', ha, hb, h => by
    simp only [entries, List.cons.injEq, Prod.mk.injEq] at h
    have h1 := same x x' ha.1 hb.1 h.1.2
    have h2 := sames m m' ha.2 hb.2 h.2
    refine ⟨fun s => ?_, fun hu => hu.elim h1.2 h2.2⟩
    simp only [leaves, erases]; rw [(h1.1 s).1, (h1.1 s).2, (h2.1 s).1, (h2.1 s).2]; exact ⟨rfl, rfl⟩
  | .field n x m, .bare n' m', ha, hb, h => by
    simp only [entries, List.cons.injEq, Prod.mk.injEq] at h
    have h1 := same x (.prim .unit) ha.1 unit_plain h.1.2
    have h2 := sames m m' ha.2 hb h.2
    refine ⟨fun s => ?_, h2.2⟩
    simp only [leaves, erases]; rw [(h1.1 s).1, (h1.1 s).2, (h2.1 s).1, (h2.1 s).2]; exact ⟨rfl, rfl⟩
  | .bare n m, .field n' x' m', ha, hb, h => by
    simp only [entries, List.cons.injEq, Prod.mk.injEq] at h
    have h1 := same_prim hb.1 h.1.2
    have h2 := sames m m' ha hb.2 h.2
    refine ⟨fun s => ?_, fun hu => hu.elim h1.2 h2.2⟩
    simp only [leaves, erases]; rw [← (h1.1 s).1, ← (h1.1 s).2, (h2.1 s).1, (h2.1 s).2]; exact ⟨rfl, rfl⟩
  | .bare n m, .bare n' m', ha, hb, h => by
    simp only [entries, List.cons.injEq, Prod.mk.injEq] at h
    have h2 := sames m m' ha hb h.2
    refine ⟨fun s => ?_, h2.2⟩
    simp only [leaves, erases]; rw [(h2.1 s).1, (h2.1 s).2]; exact ⟨rfl, rfl⟩
end

/-! ### The theorems -/

/-- Size, alignment, niches, and the places of the data are the same for two types with the same report, on one target. -/
def LaidOutAlike (t : Target) (a b : Ty) : Prop :=
  declared t a = declared t b ∧ CType.lay t (erase t a) = CType.lay t (erase t b) ∧ ∀ i, CType.data t (erase t a) i = CType.data t (erase t b) i

theorem same_of_report {k : Bool} {t : Target} {a b : Ty} (ha : Plain k a) (hb : Plain k b) (h : report t a = report t b) : LaidOutAlike t a b := by
  obtain ⟨h1, h2⟩ := (same a b ha hb h).1 t
  exact ⟨h1, by rw [h2], fun i => by rw [h2]⟩

/-- C105: types with the same report have the same layout.  Partial: not if a struct has `repr(align)`, if some enums are `repr(C, tag)` and others
`repr(tag)`, or if `ManuallyDrop`, `MaybeUninit`, `UnsafeCell` wrap types that are not primitive: see below. -/
theorem C105_layout_partial (k : Bool) (t : Target) (a b : Ty) (ha : Plain k a) (hb : Plain k b) (h : reportEq (report t a) (report t b) = true) :
    LaidOutAlike t a b :=
  same_of_report ha hb ((Props.Report.reportEq_iff _ _).1 h)

/-- "m" -/
def m : Str := [109]
/-- A struct `P` of `m`. -/
def head (n : Nat) : Head := ⟨m, [n], 0⟩
/-- A 64 bit target, where `u128` is aligned to `a` bytes. -/
def target (a : Nat) : Target := ⟨8, 2, 4, 8, a, 8, 4, 8⟩

/-- `struct P { x: u8, y: u32 }` -/
def small : Ty := .struct (head 80) none (.field [120] (.prim (.uint .w8)) (.field [121] (.prim (.uint .w32)) .nil))
/-- `#[repr(C, u8)] enum E { A, B(P), C([&P; 2]) }` -/
def big : Ty :=
  .tagged (head 69) true .u8 (.bare [65] (.field [66] small (.field [67] (.array 2 (.pointer .ref small)) .nil)))

theorem own_head (n : Nat) : Own (head n) := by refine ⟨?_, ?_, ?_⟩ <;> simp [head, m, implsModule, optionModule, stabbyResult]

example : Plain true big ∧ reportEq (report (target 16) big) (report (target 16) big) = true ∧ CType.lay (target 16) (erase (target 16) big) = (24, 8) ∧
    (declared (target 16) big).size = 24 := by
  refine ⟨?_, (Props.Report.reportEq_iff _ _).2 rfl, by decide +kernel, by decide +kernel⟩
  simp [big, small, Plain, Plains, NoBare, own_head, Generic]

/-- A variant without fields, and one that holds `()`. -/
example : Plain true (.tagged (head 69) true .u8 (.bare [65] .nil)) ∧ Plain true (.tagged (head 69) true .u8 (.field [65] (.prim .unit) .nil)) ∧
    reportEq (report (target 16) (.tagged (head 69) true .u8 (.bare [65] .nil)))
      (report (target 16) (.tagged (head 69) true .u8 (.field [65] (.prim .unit) .nil))) = true := by
  refine ⟨?_, ?_, (Props.Report.reportEq_iff _ _).2 rfl⟩ <;> simp [Plain, Plains, own_head, Generic]

/-! ### Two compilers -/

/-- Only the alignment of the integers of 128 bits differs, which is that of 64 bit integers, or their own size. -/
def Alike (t t' : Target) : Prop :=
  (t.a128 = 8 ∨ t.a128 = 16) ∧ (t'.a128 = 8 ∨ t'.a128 = 16) ∧ { t with a128 := t'.a128 } = t'

/-- The types of 128 bits. -/
def Wide (p : Prim) : Prop := p ∈ [Prim.uint .w128, .int .w128, .nonZeroU .w128, .nonZeroI .w128, .atomicI .w128, .atomicU .w128]

theorem decl_alike {t t' : Target} (h : Alike t t') {p : Prim} (hp : ¬ Wide p) : decl t p = decl t' p := by
  obtain ⟨-, -, h⟩ := h
  cases t; cases t'
  simp only [Target.mk.injEq] at h
  obtain ⟨rfl, rfl, rfl, rfl, -, rfl, rfl, rfl⟩ := h
  cases p with
  | uint w | nonZeroU w | int w | nonZeroI w | atomicI w | atomicU w => cases w <;> first | rfl | exact absurd (by simp [Wide]) hp
  | _ => rfl

theorem tag_narrow (tag : Attr.Tag) : ¬ Wide (tagPrim tag) := by unfold Wide; cases tag <;> decide

mutual
theorem declared_alike {k : Bool} {t t' : Target} (h : Alike t t') : ∀ a : Ty, Plain k a → ¬ Uses Wide a → declared t a = declared t' a
  | .prim p, _, hu => by simp only [declared]; exact decl_alike h hu
  | .pointer p x, hp, _ => by
    simp only [declared]; refine decl_alike h ?_
    have := hp.1
    unfold Generic at this; unfold Wide
    simp only [List.mem_cons, List.not_mem_nil, or_false] at this
    rcases this with rfl | rfl | rfl | rfl | rfl | rfl | rfl <;> decide
  | .pin x, hp, hu => by simp only [declared]; exact declared_alike h x hp hu
  | .array n x, hp, hu => by simp only [declared]; rw [declared_alike h x hp hu]
  | .cell c x, hp, hu => by
    obtain ⟨p, rfl, -⟩ := hp
    simp only [declared]; exact decl_alike h hu
  | .option x, hp, hu => by simp only [declared]; rw [declared_alike h x hp hu]
  | .result a b, hp, hu => by
    simp only [declared]; rw [declared_alike h a hp.1 (fun u => hu (Or.inl u)), declared_alike h b hp.2 (fun u => hu (Or.inr u))]
  | .struct g none fs, hp, hu => by simp only [declared]; rw [(payloads_alike h fs hp.2.2.2 hu).1]
  | .struct g (some n) fs, hp, hu => by simp only [declared]; rw [(payloads_alike h fs hp.2.2.2 hu).1]
  | .union g fs, hp, hu => by simp only [declared]; rw [(payloads_alike h fs hp.2.2 hu).1]
  | .tagged g c tag vs, hp, hu => by simp only [declared]; rw [(payloads_alike h vs hp.2.2 hu).1, decl_alike h (tag_narrow tag)]
  | .sum g vs, hp, hu => by simp only [declared]; rw [(payloads_alike h vs hp.2 hu).2]
theorem payloads_alike {k : Bool} {t t' : Target} (h : Alike t t') :
    ∀ m : Members, Plains k m → ¬ Usess Wide m → payloads t m = payloads t' m ∧ leaves t m = leaves t' m
  | .nil, _, _ => ⟨rfl, rfl⟩
  | .field n x m, hp, hu => by
    have h1 := declared_alike h x hp.1 (fun u => hu (Or.inl u))
    have h2 := payloads_alike h m hp.2 (fun u => hu (Or.inr u))
    simp only [payloads, leaves]; rw [h1, h2.1, h2.2]; exact ⟨rfl, rfl⟩
  | .bare n m, hp, hu => by
    have h2 := payloads_alike h m hp hu
    simp only [payloads, leaves]; rw [h2.1, h2.2]; exact ⟨rfl, rfl⟩
end

mutual
theorem uses_wide : ∀ a : Ty, Uses Wide a → Uses (· = .uint .w128) a ∨ Uses (fun p => Wide p ∧ p ≠ .uint .w128) a
  | .prim p, h => by
    by_cases hp : p = .uint .w128
    · exact Or.inl hp
    · exact Or.inr ⟨h, hp⟩
  | .pointer _ x, h | .pin x, h | .array _ x, h | .cell _ x, h | .option x, h => by simp only [Uses] at h ⊢; exact uses_wide x h
  | .result a b, h => by
    simp only [Uses] at h ⊢
    rcases h with h | h
    · rcases uses_wide a h with h | h <;> simp [h]
    · rcases uses_wide b h with h | h <;> simp [h]
  | .struct _ _ fs, h | .union _ fs, h | .tagged _ _ _ fs, h | .sum _ fs, h => by simp only [Uses] at h ⊢; exact usess_wide fs h
theorem usess_wide : ∀ a : Members, Usess Wide a → Usess (· = .uint .w128) a ∨ Usess (fun p => Wide p ∧ p ≠ .uint .w128) a
  | .nil, h => h.elim
  | .field n x m, h => by
    simp only [Usess] at h ⊢
    rcases h with h | h
    · rcases uses_wide x h with h | h <;> simp [h]
    · rcases usess_wide m h with h | h <;> simp [h]
  | .bare n m, h => by simp only [Usess] at h ⊢; exact usess_wide m h
end

/-- C105: the same between two libraries whose compilers do not agree on the alignment of `u128`.  Partial: as above, and for types without `i128`,
`NonZeroU128` and `NonZeroI128`, whose reports do not tell how they are aligned. -/
theorem C105_compilers_partial (k : Bool) (t t' : Target) (a b : Ty) (ht : Alike t t') (ha : Plain k a) (hb : Plain k b)
    (hu : ¬ Uses (fun p => Wide p ∧ p ≠ .uint .w128) b) (h : reportEq (report t a) (report t' b) = true) :
    declared t a = declared t' b := by
  obtain ⟨h1, h2⟩ := same a b ha hb ((Props.Report.reportEq_iff _ _).1 h)
  rw [(h1 t).1]
  by_cases hw : Uses Wide b
  · rcases uses_wide b hw with h3 | h3
    · have := h2 h3
      have e : t.a128 = t'.a128 := by
        rcases ht.1 with h4 | h4 <;> rcases ht.2.1 with h5 | h5 <;> simp_all
      have : t = t' := by rw [← ht.2.2, ← e]
      rw [this]
    · exact absurd h3 hu
  · exact declared_alike ht b hb hw

example : Alike (target 8) (target 16) ∧ Plain true big ∧ ¬ Uses (fun p => Wide p ∧ p ≠ .uint .w128) big ∧
    reportEq (report (target 8) big) (report (target 16) big) = true := by
  refine ⟨⟨Or.inl rfl, Or.inr rfl, rfl⟩, ?_, ?_, (Props.Report.reportEq_iff _ _).2 rfl⟩
  · simp [big, small, Plain, Plains, NoBare, own_head, Generic]
  · simp [big, small, Uses, Usess, Wide]

/-- C105: the report of `u128` does tell. -/
theorem C105_u128 (t t' : Target) (h : reportEq (report t (.prim (.uint .w128))) (report t' (.prim (.uint .w128))) = true) (ht : Alike t t') : t = t' := by
  have h1 := (Props.Report.reportEq_iff _ _).1 h
  simp only [report, Report.mk.injEq, true_and, and_true] at h1
  have := (primName_inj h1).2 rfl
  have e : t.a128 = t'.a128 := by
    rcases ht.1 with h4 | h4 <;> rcases ht.2.1 with h5 | h5 <;> simp_all
  rw [← ht.2.2, ← e]

example : reportEq (report (target 8) (.prim (.uint .w128))) (report (target 16) (.prim (.uint .w128))) = false := by decide +kernel

/-! ### Where reports are the same, but layouts are not -/

/-- C105 does not hold with two compilers: `i128` has one report. -/
theorem C105_compilers_refuted : ∃ (t t' : Target) (a : Ty), Alike t t' ∧ Plain true a ∧
    reportEq (report t a) (report t' a) = true ∧ isCompatible (report t a) (report t' a) = true ∧
    CType.lay t (erase t a) ≠ CType.lay t' (erase t' a) :=
  ⟨target 8, target 16, .struct (head 80) none (.field [120] (.prim (.uint .w64)) (.field [121] (.prim (.int .w128)) .nil)),
    ⟨Or.inl rfl, Or.inr rfl, rfl⟩, by simp [Plain, Plains, NoBare, own_head, Generic], by decide +kernel, by decide +kernel, by decide +kernel⟩

/-- C105 does not hold for structs with `repr(align)`: adding it changes the layout and not the report. -/
theorem C105_align_refuted (t : Target) : ∃ (h : Head) (fs : Members), Own h ∧ NoBare fs ∧ Plains true fs ∧
    reportEq (report t (.struct h none fs)) (report t (.struct h (some 16) fs)) = true ∧
    isCompatible (report t (.struct h none fs)) (report t (.struct h (some 16) fs)) = true ∧
    CType.lay t (erase t (.struct h none fs)) = (1, 1) ∧ CType.lay t (erase t (.struct h (some 16) fs)) = (16, 16) := by
  refine ⟨head 80, .field [120] (.prim (.uint .w8)) .nil, own_head _, trivial, ?_, (Props.Report.reportEq_iff _ _).2 rfl, ?_, ?_, ?_⟩
  · simp [Plains, Plain, Generic]
  · simp [report, fields, isCompatible, zipAll, primName]
  · simp [erase, erases, CType.lay, CType.lays, CType.structLay, CType.natAlign, CType.primSize, CType.primAlign, Target.alignU, Width.bytes]; decide
  · simp [erase, erases, CType.lay, CType.lays, CType.structLay, CType.natAlign, CType.primSize, CType.primAlign, Target.alignU, Width.bytes]; decide

/-- `enum E { A(u8), B(u16) }` -/
def choice (isC : Bool) : Ty := .tagged (head 69) isC .u8 (.field [65] (.prim (.uint .w8)) (.field [66] (.prim (.uint .w16)) .nil))

/-- C105 does not hold between `repr(u8)` and `repr(C, u8)`: both have the report, the size and the alignment of the other, but the byte of `A` is at
offset 1 in the former and at offset 2 in the latter. -/
theorem C105_repr_refuted : Plain true (choice true) ∧ Plain false (choice false) ∧
    (∀ t, reportEq (report t (choice true)) (report t (choice false)) = true ∧ declared t (choice true) = declared t (choice false)) ∧
    isCompatible (report (target 16) (choice true)) (report (target 16) (choice false)) = true ∧
    CType.lay (target 16) (erase (target 16) (choice true)) = CType.lay (target 16) (erase (target 16) (choice false)) ∧
    CType.data (target 16) (erase (target 16) (choice true)) 1 = false ∧ CType.data (target 16) (erase (target 16) (choice false)) 1 = true := by
  refine ⟨?_, ?_, fun t => ⟨(Props.Report.reportEq_iff _ _).2 rfl, rfl⟩, by decide +kernel, by decide +kernel, by decide +kernel, by decide +kernel⟩
  · simp [choice, Plain, Plains, own_head, Generic]
  · simp [choice, Plain, Plains, own_head, Generic]

/-- C105 does not hold with `ManuallyDrop`, `MaybeUninit` or `UnsafeCell` of two types with the same name. -/
theorem C105_cell_refuted (c c' : Cell) : ∃ a b : Ty, Plain true a ∧ Plain true b ∧
    (∀ t, reportEq (report t (.cell c a)) (report t (.cell c' b)) = true) ∧
    isCompatible (report (target 16) (.cell c a)) (report (target 16) (.cell c' b)) = true ∧
    CType.lay (target 16) (erase (target 16) (.cell c a)) ≠ CType.lay (target 16) (erase (target 16) (.cell c' b)) ∧
    reportEq (report (target 16) a) (report (target 16) b) = false := by
  refine ⟨small, .struct ⟨[110], [80], 0⟩ none (.field [120] (.prim (.uint .w64)) .nil), ?_, ?_, fun t => (Props.Report.reportEq_iff _ _).2 rfl, ?_, ?_, ?_⟩
  · simp [small, Plain, Plains, NoBare, own_head, Generic]
  · simp [Plain, Plains, NoBare, Generic, Own, implsModule, optionModule, stabbyResult]
  · cases c <;> cases c' <;> decide +kernel
  · cases c <;> cases c' <;> decide +kernel
  · decide +kernel

end Verif.Props.SameLayout
