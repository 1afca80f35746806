import Verif.Sum.Niche
import Verif.Props.Sum

/-!
# C53: niches, with the types of core that depend on them

`spare` is what the Rust compiler has to encode the `None` of an `Option<T>`: the values that the scalars of `T` cannot have.
`MaybeUninit<T>`, `UnsafeCell<T>` and unions hide those of their content, and an enum with a tag offers those of its tag.
-/
namespace Verif.Props.Niche
open Verif.Layout Verif.Sum Verif.Props.Sum

/-- The spare values of a type. -/
def spare : NTy → Nat
  | .leaf _ n => n
  | .fieldPair a b => spare a + spare b
  | .struct t => spare t
  | .alignedStruct t _ => spare t
  | .union _ _ => 0
  | .array t n => n * spare t
  | .result _ _ => 0
  | .transparent t => spare t
  | .maybeUninit _ => 0
  | .unsafeCell _ => 0
  | .enum w used _ => 256 ^ w - used
  | .coreOption t => spare t - 1
  | .coreResultOk t _ => spare t - 1
  | .coreResultErr _ t => spare t - 1

/-- The size and alignment rustc gives to an enum of a `T` and a variant of size 0 and alignment `ealign`: a spare value if there is
one, a tag in front of the `T` if not. -/
def rustLayout (size align spare ealign : Nat) : Nat × Nat :=
  let al := max align ealign
  if spare = 0 then (alignUp (align + size) al, al) else (alignUp size al, al)

/-- The claims of the leaves hold, every tag value of an enum is a variant, and nothing hides a niche that is claimed. -/
def Honest : NTy → Prop
  | .leaf l n => ClaimHolds l.oneNiche n
  | .fieldPair a b => Honest a ∧ Honest b
  | .struct t => Honest t
  | .alignedStruct t _ => Honest t
  | .union a b => Honest a ∧ Honest b
  | .array t _ => Honest t
  | .result a b => Honest a ∧ Honest b
  | .transparent t => Honest t
  | .maybeUninit t => Honest t ∧ t.lay.oneNiche ≠ .b1
  | .unsafeCell t => Honest t ∧ t.lay.oneNiche ≠ .b1
  | .enum w used p => Honest p ∧ 256 ^ w ≤ used
  | .coreOption t => Honest t
  | .coreResultOk t e => Honest t ∧ Honest e
  | .coreResultErr e t => Honest e ∧ Honest t

/-- Claims hold for all honest types.  What is missing: `C53_hidden_refuted`, `C53_enum_refuted`, `C53_leaves_refuted`. -/
theorem C53_universe_partial (t : NTy) (hs : t.Stable) (h : Honest t) : ClaimHolds t.lay.oneNiche (spare t) := by
  induction t with
  | leaf l n => exact h
  | fieldPair a b iha ihb =>
    have ha := iha hs.1 h.1
    have hb := ihb hs.2 h.2
    show ClaimHolds (Lay.fieldPair a.lay b.lay).oneNiche (spare a + spare b)
    unfold Lay.fieldPair
    dsimp only
    split
    · exact claim_add ha hb
    · trivial
  | struct t ih =>
    simp only [NTy.lay, Lay.struct, spare]
    split
    · exact ih hs h
    · trivial
  | alignedStruct t al ih =>
    simp only [NTy.lay, Lay.alignedStruct, spare]
    split
    · exact ih hs h
    · trivial
  | union a b => rfl
  | array t n ih =>
    simp only [NTy.lay, Lay.array, spare]
    split
    · rename_i h0; subst h0; simp [ClaimHolds]
    · split
      · rename_i h1; subst h1; rw [Nat.one_mul]; exact ih hs h
      · trivial
  | result a b => rfl
  | transparent t ih => exact ih hs h
  | maybeUninit t ih =>
    show ClaimHolds t.lay.oneNiche 0
    have := h.2
    generalize t.lay.oneNiche = x at this
    cases x
    · rfl
    · exact absurd rfl this
    · trivial
  | unsafeCell t ih =>
    show ClaimHolds t.lay.oneNiche 0
    have := h.2
    generalize t.lay.oneNiche = x at this
    cases x
    · rfl
    · exact absurd rfl this
    · trivial
  | enum w used p ih => show 256 ^ w - used = 0; have := h.2; omega
  | coreOption t ih =>
    have := ih hs.1 h
    rw [hs.2] at this
    show spare t - 1 = 0
    simp only [ClaimHolds] at this; omega
  | coreResultOk t e ih _ =>
    have := ih hs.1 h.1
    rw [hs.2.2.1] at this
    show spare t - 1 = 0
    simp only [ClaimHolds] at this; omega
  | coreResultErr e t _ ih =>
    have := ih hs.2.1 h.2
    rw [hs.2.2.1] at this
    show spare t - 1 = 0
    simp only [ClaimHolds] at this; omega

/-- `NonZeroU8`. -/
def nonZeroU8 : NTy := .leaf Ty.nonZeroU8.lay 1
/-- `u8`. -/
def u8 : NTy := .leaf Ty.u8.lay 0

/-- `Option<Tuple2<NonZeroU8, u8>>`, in a tuple with a full enum. -/
example : let t : NTy := .struct (.fieldPair (.coreOption (.struct (.fieldPair nonZeroU8 u8))) (.enum 1 256 u8))
    t.Stable ∧ Honest t ∧ t.lay.oneNiche = .b0 ∧ spare t = 0 :=
  ⟨⟨⟨⟨trivial, trivial⟩, by decide +kernel⟩, trivial⟩, ⟨⟨rfl, rfl⟩, rfl, by decide⟩, by decide +kernel, by decide +kernel⟩

theorem alignUp_of_mod_eq_zero {n a : Nat} (ha : 0 < a) (h : n % a = 0) : alignUp n a = n := by
  rw [← nextMul_eq ha, nextMul, if_pos h]

/-- The size and alignment of `core::option::Option<T>` are those the compiler gives it. -/
theorem C53_option_layout (t : NTy) (hs : (NTy.coreOption t).Stable) (h : Honest t) (ha : Pow2 t.lay.align)
    (hm : t.lay.size % t.lay.align = 0) :
    rustLayout t.lay.size t.lay.align (spare t) 1 = ((NTy.coreOption t).lay.size, (NTy.coreOption t).lay.align) := by
  have hc := C53_universe_partial t hs.1 h
  rw [hs.2] at hc
  have h1 : spare t = 1 := hc
  have hp := ha.pos
  have hmax : max t.lay.align 1 = t.lay.align := by omega
  simp only [rustLayout, h1, hmax, NTy.lay, Nat.one_ne_zero, if_false]
  rw [alignUp_of_mod_eq_zero ha.pos hm]

/-- The same for `core::result::Result<T, E>` with `E` of size 0, if the alignment of `E` is not larger. -/
theorem C53_result_layout_partial (t e : NTy) (hs : (NTy.coreResultOk t e).Stable) (h : Honest t) (ha : Pow2 t.lay.align)
    (hm : t.lay.size % t.lay.align = 0) (he : e.lay.align ≤ t.lay.align) :
    rustLayout t.lay.size t.lay.align (spare t) e.lay.align =
      ((NTy.coreResultOk t e).lay.size, (NTy.coreResultOk t e).lay.align) := by
  have hc := C53_universe_partial t hs.1 h
  rw [hs.2.2.1] at hc
  have h1 : spare t = 1 := hc
  have hmax : max t.lay.align e.lay.align = t.lay.align := by omega
  simp only [rustLayout, h1, hmax, NTy.lay, Nat.one_ne_zero, if_false]
  rw [alignUp_of_mod_eq_zero ha.pos hm]
example : (NTy.coreOption nonZeroU8).Stable ∧ (NTy.coreResultOk nonZeroU8 (.array u8 0)).Stable ∧ Honest nonZeroU8 ∧
    rustLayout nonZeroU8.lay.size nonZeroU8.lay.align (spare nonZeroU8) 1 = (1, 1) :=
  ⟨⟨trivial, by decide +kernel⟩, ⟨trivial, trivial, by decide +kernel, by decide +kernel⟩, rfl, by decide +kernel⟩

/-- `MaybeUninit<T>` and `UnsafeCell<T>` of any `T` with one niche claim one, and have none. -/
theorem C53_hidden_refuted (t : NTy) (h : t.lay.oneNiche = .b1) :
    ¬ ClaimHolds (NTy.unsafeCell t).lay.oneNiche (spare (.unsafeCell t)) ∧
    ¬ ClaimHolds (NTy.maybeUninit t).lay.oneNiche (spare (.maybeUninit t)) := by
  constructor
  · show ¬ ClaimHolds t.lay.oneNiche 0
    rw [h]; exact Nat.zero_ne_one
  · show ¬ ClaimHolds t.lay.oneNiche 0
    rw [h]; exact Nat.zero_ne_one

/-- So `Option<UnsafeCell<NonZeroU8>>` is stable with a claimed size of 1, and has size 2. -/
theorem C53_option_unsafe_cell_refuted : let t := NTy.unsafeCell nonZeroU8
    (NTy.coreOption t).Stable ∧ (NTy.coreOption t).lay.size = 1 ∧ rustLayout t.lay.size t.lay.align (spare t) 1 = (2, 1) :=
  ⟨⟨trivial, by decide +kernel⟩, by decide +kernel, by decide +kernel⟩

/-- An enum with a tag claims no niche, and has one for each value of the tag that is no variant. -/
theorem C53_enum_refuted (w used : Nat) (p : NTy) (h : used < 256 ^ w) :
    ¬ ClaimHolds (NTy.enum w used p).lay.oneNiche (spare (.enum w used p)) := by
  show ¬ 256 ^ w - used = 0
  omega

/-- So a structure of an `enum E { A, B }` of one byte and a `NonZeroU8` claims one niche and has 255: `None` can be either. -/
theorem C53_enum_in_tuple_refuted : let t := NTy.struct (.fieldPair (.enum 1 2 (.leaf Ty.unit.lay 0)) nonZeroU8)
    t.lay.oneNiche = .b1 ∧ spare t = 255 := by decide +kernel

/-- A file descriptor (`OwnedFd`, `BorrowedFd`, stable_impls/mod.rs:917-928) has the layout of an `i32`, but -1 is not valid; and a
`core::cmp::Ordering` (985-995) has 253 spare values. -/
theorem C53_leaves_refuted : ¬ Honest (.leaf Ty.u32.lay 1) ∧ ¬ Honest (.leaf Ty.ordering.lay 253) := by
  constructor
  · show ¬ (1 : Nat) = 0; omega
  · show ¬ (253 : Nat) = 0; omega

/-- The alignment of the empty side of a `core::result::Result` is forgotten: `Result<NonZeroU8, [u64; 0]>` is said to have size and
alignment 1. -/
theorem C53_result_layout_refuted : let t := NTy.coreResultOk nonZeroU8 (.array (.leaf Ty.u64.lay 0) 0)
    t.Stable ∧ (t.lay.size, t.lay.align) = (1, 1) ∧
    rustLayout nonZeroU8.lay.size nonZeroU8.lay.align (spare nonZeroU8) (NTy.array (.leaf Ty.u64.lay 0) 0).lay.align = (8, 8) :=
  ⟨⟨trivial, trivial, by decide +kernel, by decide +kernel⟩, by decide +kernel, by decide +kernel⟩

/-- A type of the sum model, as one of this model. -/
def ofTy (spareOf : Nat → Nat → Fv → Nat) : Ty → NTy
  | .prim s a fv one ind => .leaf (Lay.prim s a fv one ind) (spareOf s a fv)
  | .fieldPair a b => .fieldPair (ofTy spareOf a) (ofTy spareOf b)
  | .struct t => .struct (ofTy spareOf t)
  | .alignedStruct t al => .alignedStruct (ofTy spareOf t) al
  | .union a b => .union (ofTy spareOf a) (ofTy spareOf b)
  | .array t n => .array (ofTy spareOf t) n
  | .result a b => .result (ofTy spareOf a) (ofTy spareOf b)

/-- The two models of types agree about the layouts of the types they share, and those are all stable. -/
theorem C53_models_agree (f : Nat → Nat → Fv → Nat) (t : Ty) : (ofTy f t).lay = t.lay ∧ (ofTy f t).Stable := by
  induction t with
  | prim => exact ⟨rfl, trivial⟩
  | fieldPair a b iha ihb | union a b iha ihb | result a b iha ihb =>
    exact ⟨by simp only [ofTy, NTy.lay, Ty.lay, iha.1, ihb.1], iha.2, ihb.2⟩
  | struct t ih | alignedStruct t _ ih | array t _ ih => exact ⟨by simp only [ofTy, NTy.lay, Ty.lay, ih.1], ih.2⟩

/-- The types a type directly contains. -/
def parts : NTy → List NTy
  | .leaf _ _ => []
  | .fieldPair a b | .union a b | .result a b | .coreResultOk a b | .coreResultErr a b => [a, b]
  | .struct t | .alignedStruct t _ | .array t _ | .transparent t | .maybeUninit t | .unsafeCell t | .enum _ _ t | .coreOption t => [t]

/-- A type is stable only if the types it contains are, and it says to hold a pointer exactly if one of them does (the length of an
array being irrelevant). -/
theorem C53_parts (t : NTy) (hl : parts t ≠ []) : (t.Stable → ∀ p ∈ parts t, p.Stable) ∧
    (t.lay.indirections = true ↔ ∃ p ∈ parts t, p.lay.indirections = true) := by
  cases t with
  | leaf => exact absurd rfl hl
  | fieldPair a b | union a b | result a b =>
    exact ⟨fun h p hp => by simp only [parts, List.mem_cons, List.not_mem_nil, or_false] at hp; rcases hp with rfl | rfl <;> first | exact h.1 | exact h.2,
      by simp [parts, NTy.lay, Lay.fieldPair, Lay.union, resultLay]⟩
  | coreResultOk a b | coreResultErr a b =>
    exact ⟨fun h p hp => by simp only [parts, List.mem_cons, List.not_mem_nil, or_false] at hp; rcases hp with rfl | rfl <;> first | exact h.1 | exact h.2.1,
      by simp [parts, NTy.lay]⟩
  | coreOption t => exact ⟨fun h p hp => by simp only [parts, List.mem_cons, List.not_mem_nil, or_false] at hp; subst hp; exact h.1, by simp [parts, NTy.lay]⟩
  | enum w u t =>
    exact ⟨fun h p hp => by simp only [parts, List.mem_cons, List.not_mem_nil, or_false] at hp; subst hp; exact h,
      by simp [parts, NTy.lay, Lay.tuple2, Lay.struct, Lay.fieldPair, Lay.prim]⟩
  | struct t | alignedStruct t _ | array t _ | transparent t | maybeUninit t | unsafeCell t =>
    exact ⟨fun h p hp => by simp only [parts, List.mem_cons, List.not_mem_nil, or_false] at hp; subst hp; exact h,
      by simp [parts, NTy.lay, Lay.struct, Lay.alignedStruct, Lay.array]⟩
example : (NTy.coreResultOk (ofTy (fun _ _ _ => 1) .ref) (ofTy (fun _ _ _ => 0) .unit)).lay.indirections = true ∧
    (NTy.coreResultOk (ofTy (fun _ _ _ => 1) .ref) (ofTy (fun _ _ _ => 0) .unit)).Stable := by
  refine ⟨by decide +kernel, trivial, trivial, by decide +kernel, by decide +kernel⟩

end Verif.Props.Niche
