import Verif.Sum.Plain

/-! Property C56. -/
namespace Verif.Props.Plain
open Verif.Layout Verif.Sum Verif.Sum.PTy

/-- Some byte of a value of the type may be part of an address. -/
def HoldsPointer : PTy → Prop
  | leaf _ pointer => pointer = true
  | fieldPair a b => HoldsPointer a ∨ HoldsPointer b
  | struct t => HoldsPointer t
  | alignedStruct t _ => HoldsPointer t
  | union a b => HoldsPointer a ∨ HoldsPointer b
  | array t n => n ≠ 0 ∧ HoldsPointer t
  | result ok err => HoldsPointer ok ∨ HoldsPointer err
  | like t _ => HoldsPointer t
  | notPod t => HoldsPointer t

/-- Hand-written implementations declare the pointers they are, and `StableLike<T, As>` is only used with an `As` that holds
a pointer if `T` does. -/
def Declared : PTy → Prop
  | leaf l pointer => pointer = true → l.indirections = true
  | fieldPair a b => Declared a ∧ Declared b
  | struct t => Declared t
  | alignedStruct t _ => Declared t
  | union a b => Declared a ∧ Declared b
  | array t _ => Declared t
  | result ok err => Declared ok ∧ Declared err
  | like t as => Declared t ∧ Declared as ∧ (HoldsPointer t → HoldsPointer as)
  | notPod t => Declared t

/-- No `NotPod`, no empty array; and hand-written implementations only declare pointers if they are. -/
def Exact : PTy → Prop
  | leaf l pointer => l.indirections = true → pointer = true
  | fieldPair a b => Exact a ∧ Exact b
  | struct t => Exact t
  | alignedStruct t _ => Exact t
  | union a b => Exact a ∧ Exact b
  | array t n => n ≠ 0 ∧ Exact t
  | result ok err => Exact ok ∧ Exact err
  | like t as => Exact as ∧ (HoldsPointer as → HoldsPointer t)
  | notPod _ => False

theorem holds_declares {t : PTy} (h : Declared t) (hp : HoldsPointer t) : t.lay.indirections = true := by
  induction t with
  | leaf l p => exact h hp
  | struct t ih => exact ih h hp
  | alignedStruct t _ ih => exact ih h hp
  | notPod t ih => rfl
  | array t n ih => exact ih h hp.2
  | like t as iht ihas => exact ihas h.2.1 (h.2.2 hp)
  | fieldPair a b iha ihb | union a b iha ihb | result a b iha ihb =>
    simp only [lay, Lay.fieldPair, Lay.union, resultLay, Bool.or_eq_true]
    exact hp.imp (iha h.1) (ihb h.2)

theorem declares_holds {t : PTy} (h : Exact t) (hp : t.lay.indirections = true) : HoldsPointer t := by
  induction t with
  | leaf l p => exact h hp
  | struct t ih => exact ih h hp
  | alignedStruct t _ ih => exact ih h hp
  | notPod t ih => exact h.elim
  | array t n ih => exact ⟨h.1, ih h.2 hp⟩
  | like t as iht ihas => exact h.2 (ihas h.1 hp)
  | fieldPair a b iha ihb | union a b iha ihb | result a b iha ihb =>
    simp only [lay, Lay.fieldPair, Lay.union, resultLay, Bool.or_eq_true] at hp
    exact hp.imp (iha h.1) (ihb h.2)

/-- A type that stabby accepts as plain data holds no pointer, however deep.
What is missing from C56: types built with `StableLike<T, As>` where `T` holds a pointer and `As` does not, see `C56_vtdrop_refuted`. -/
theorem C56_plain_holds_no_pointer_partial (t : PTy) (h : Declared t) (hpod : t.pod = true) : ¬ HoldsPointer t := by
  intro hp
  simp [pod, holds_declares h hp] at hpod

/-- And a type without `NotPod` or empty arrays is rejected only if it holds a pointer. -/
theorem C56_pointer_free_is_plain (t : PTy) (h : Exact t) (hn : ¬ HoldsPointer t) : t.pod = true := by
  cases hp : t.lay.indirections
  · simp [pod, hp]
  · exact (hn (declares_holds h hp)).elim

/-- `NotPod<T>` is never plain data. -/
theorem C56_not_pod (t : PTy) : (notPod t).pod = false := rfl

/-- The indirections of a `#[stabby] struct`, union or enum are those of its fields. -/
theorem C56_macro_types (fs : List Lay) (tag : Lay) (htag : tag.indirections = false) :
    ((structOf fs).indirections = true ↔ ∃ f ∈ fs, f.indirections = true) ∧
    ((unionOf fs).indirections = true ↔ ∃ f ∈ fs, f.indirections = true) ∧
    ((enumOf tag fs).indirections = true ↔ ∃ f ∈ fs, f.indirections = true) := by
  have hs : ∀ (fs : List Lay) (a : Lay), (nestFields a fs).indirections = true ↔ a.indirections = true ∨ ∃ f ∈ fs, f.indirections = true := by
    intro fs
    induction fs with
    | nil => simp [nestFields]
    | cons g gs ih => intro a; simp [nestFields, ih, Lay.fieldPair, or_assoc]
  have hu : ∀ (fs : List Lay) (a : Lay), (nestUnion a fs).indirections = true ↔ a.indirections = true ∨ ∃ f ∈ fs, f.indirections = true := by
    intro fs
    induction fs with
    | nil => simp [nestUnion]
    | cons g gs ih => intro a; simp [nestUnion, ih, Lay.union, or_assoc]
  refine ⟨?_, ?_, ?_⟩
  · cases fs with
    | nil => simp [structOf, Lay.unit]
    | cons g gs => simp [structOf, Lay.struct, hs]
  · simp [unionOf, hu, Lay.unit]
  · simp [enumOf, Lay.tuple2, Lay.struct, Lay.fieldPair, hu, Lay.unit, htag]

/-- A tuple of a number and a pair of a number and a pointer is declared, and is not plain; without the pointer it is. -/
example : Declared (.struct (.fieldPair u32 (.struct (.fieldPair u32 pointer)))) ∧ (PTy.struct (.fieldPair u32 (.struct (.fieldPair u32 pointer)))).pod = false ∧
    Declared (.struct (.fieldPair u32 nonZeroUsize)) ∧ Exact (.struct (.fieldPair u32 nonZeroUsize)) ∧ (PTy.struct (.fieldPair u32 nonZeroUsize)).pod = true := by
  simp [Declared, Exact, u32, pointer, nonZeroUsize, pod, lay, Lay.struct, Lay.fieldPair]

/-- `VtDrop`, which is `Copy` and consists of a function pointer, is accepted as plain data: a program may receive one as bytes and call it. -/
theorem C56_vtdrop_refuted : vtDrop.pod = true ∧ HoldsPointer vtDrop := ⟨rfl, rfl⟩

end Verif.Props.Plain
