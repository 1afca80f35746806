import Verif.Threads.Variance
import Mathlib.Data.List.Forall2

/-!
# C60: shortening lifetimes of containers is sound

Where the compiler lets a value be used at another type by subtyping, what is read through the new type has the type that it was stored
with, and what is stored through the new type has the type that others will read.
-/
namespace Verif.Props.Variance
open Verif.Variance

theorem sub_refl (t : Ty) : Sub t t := by
  induction t with
  | leaf i => exact .leaf i
  | nonNull t ih => exact .nonNull ih
  | atomicPtr t => exact .atomicPtr t
  | ref l t ih => exact .ref (Nat.le_refl _) ih
  | refMut l t => exact .refMut (Nat.le_refl _)
  | phantom t ih => exact .phantom ih
  | manuallyDrop t ih => exact .manuallyDrop ih
  | unsafeCell t => exact .unsafeCell t
  | fn a b iha ihb => exact .fn iha ihb
  | proj t => exact .proj t
  | pair a b iha ihb => exact .pair iha ihb
  | struct n t ih => exact .struct ih

@[simp] theorem sub_nonNull {t u : Ty} : Sub (.nonNull t) (.nonNull u) ↔ Sub t u := ⟨fun h => by cases h; assumption, .nonNull⟩
@[simp] theorem sub_phantom {t u : Ty} : Sub (.phantom t) (.phantom u) ↔ Sub t u := ⟨fun h => by cases h; assumption, .phantom⟩
@[simp] theorem sub_manuallyDrop {t u : Ty} : Sub (.manuallyDrop t) (.manuallyDrop u) ↔ Sub t u := ⟨fun h => by cases h; assumption, .manuallyDrop⟩
@[simp] theorem sub_ref {l l' : Nat} {t u : Ty} : Sub (.ref l t) (.ref l' u) ↔ l' ≤ l ∧ Sub t u :=
  ⟨fun h => by cases h; exact ⟨by assumption, by assumption⟩, fun h => .ref h.1 h.2⟩
@[simp] theorem sub_refMut {l l' : Nat} {t u : Ty} : Sub (.refMut l t) (.refMut l' u) ↔ l' ≤ l ∧ t = u :=
  ⟨fun h => by cases h; exact ⟨by assumption, rfl⟩, fun h => h.2 ▸ .refMut h.1⟩
@[simp] theorem sub_proj {t u : Ty} : Sub (.proj t) (.proj u) ↔ t = u := ⟨fun h => by cases h; rfl, fun h => h ▸ .proj _⟩
@[simp] theorem sub_atomicPtr {t u : Ty} : Sub (.atomicPtr t) (.atomicPtr u) ↔ t = u := ⟨fun h => by cases h; rfl, fun h => h ▸ .atomicPtr _⟩
@[simp] theorem sub_unsafeCell {t u : Ty} : Sub (.unsafeCell t) (.unsafeCell u) ↔ t = u := ⟨fun h => by cases h; rfl, fun h => h ▸ .unsafeCell _⟩
@[simp] theorem sub_fn {a b c d : Ty} : Sub (.fn a b) (.fn c d) ↔ Sub c a ∧ Sub b d :=
  ⟨fun h => by cases h; exact ⟨by assumption, by assumption⟩, fun h => .fn h.1 h.2⟩
@[simp] theorem sub_pair {a b c d : Ty} : Sub (.pair a b) (.pair c d) ↔ Sub a c ∧ Sub b d :=
  ⟨fun h => by cases h; exact ⟨by assumption, by assumption⟩, fun h => .pair h.1 h.2⟩
@[simp] theorem sub_struct {n m : String} {t u : Ty} : Sub (.struct n t) (.struct m u) ↔ n = m ∧ Sub t u :=
  ⟨fun h => by cases h; exact ⟨rfl, by assumption⟩, fun h => h.1 ▸ .struct h.2⟩

/-- What is read through a value at a type that it was coerced to is what is read at its own type, coerced. -/
theorem C60_reads (c : Con) (l l' : Nat) (t a t' a' : Ty) (h : Sub (c.ty l t a) (c.ty l' t' a')) :
    List.Forall₂ Sub (c.reads t a) (c.reads t' a') := by
  cases c <;> simp [Con.ty, Con.reads, box, boxedSlice, vec, intoIter, drain, arc, arcSlice, atomicArc, slice, sliceMut, str, strMut, result,
    okGuard, errGuard, refAs, mutAs, dyn, dynRef, symbol, weak, weakSlice, string, arcStr, weakStr, boxedStr, doubleEndedDrain, single, singleOrVec, sliceGuardMut, iterMut, node, btreeSet, btreeMap,
    atomicBTreeSet, option, cow, cowStr, maybeResolved, stableLike, stableWaker, canariedImport, checkedImport, allocPtr, allocSlice, unit] at h ⊢ <;> simp_all [sub_refl]

/-- What is stored through a value at a type that it was coerced to may be read at its own type.  What is missing: `SliceMut`
(`C60_slice_mut_refuted`), and the allocator of `AtomicArc` (`C60_atomic_arc_refuted`). -/
theorem C60_writes_partial (c : Con) (l l' : Nat) (t a t' a' : Ty) (hc : c ≠ .sliceMut) (ha : c = .atomicArc → Sub a' a)
    (h : Sub (c.ty l t a) (c.ty l' t' a')) : List.Forall₂ Sub (c.writes t' a') (c.writes t a) := by
  cases c <;> simp [Con.ty, Con.writes, box, boxedSlice, vec, intoIter, drain, arc, arcSlice, atomicArc, slice, sliceMut, str, strMut, result,
    okGuard, errGuard, refAs, mutAs, dyn, dynRef, symbol, weak, weakSlice, string, arcStr, weakStr, boxedStr, doubleEndedDrain, single, singleOrVec, sliceGuardMut, iterMut, node, btreeSet, btreeMap,
    atomicBTreeSet, option, cow, cowStr, maybeResolved, stableLike, stableWaker, canariedImport, checkedImport, allocPtr, allocSlice, unit] at h hc ha ⊢ <;> simp_all [sub_refl]

/-- A borrow is never used for longer than it was made for. -/
theorem C60_borrows (c : Con) (l l' : Nat) (t a t' a' : Ty) (hc : c.borrows = true) (h : Sub (c.ty l t a) (c.ty l' t' a')) : l' ≤ l := by
  cases c <;> simp [Con.ty, Con.borrows, box, boxedSlice, vec, intoIter, drain, arc, arcSlice, atomicArc, slice, sliceMut, str, strMut, result,
    okGuard, errGuard, refAs, mutAs, dyn, dynRef, symbol, weak, weakSlice, string, arcStr, weakStr, boxedStr, doubleEndedDrain, single, singleOrVec, sliceGuardMut, iterMut, node, btreeSet, btreeMap,
    atomicBTreeSet, option, cow, cowStr, maybeResolved, stableLike, stableWaker, canariedImport, checkedImport, allocPtr, allocSlice, unit] at h hc <;> simp_all

/-- A container that only owns or shares is coerced whenever its parameters are, like in `std`. -/
theorem C60_covariant (c : Con) (l : Nat) (t a t' a' : Ty) (hc : c ∈ [Con.box, .boxedSlice, .vec, .intoIter, .arc, .arcSlice, .slice, .weak, .weakSlice, .string, .arcStr, .weakStr, .boxedStr, .btreeSet, .btreeMap])
    (h : Sub t t') (h' : Sub a a') : Sub (c.ty l t a) (c.ty l t' a') := by
  cases c <;> simp at hc <;> simp [Con.ty, box, boxedSlice, vec, intoIter, arc, arcSlice, slice, weak, weakSlice, string, arcStr, weakStr, boxedStr, btreeSet, btreeMap, node, allocPtr, allocSlice, unit, h, h', sub_refl]

/-- No type is coerced to another type. -/
theorem C60_same_type (c c' : Con) (l l' : Nat) (t a t' a' : Ty) (h : Sub (c.ty l t a) (c'.ty l' t' a')) : c = c' := by
  cases c <;> cases c' <;> first
    | rfl
    | (simp [Con.ty, box, boxedSlice, vec, intoIter, drain, arc, arcSlice, atomicArc, slice, sliceMut, str, strMut, result,
        okGuard, errGuard, refAs, mutAs, dyn, dynRef, symbol, weak, weakSlice, string, arcStr, weakStr, boxedStr, doubleEndedDrain, single, singleOrVec, sliceGuardMut, iterMut, node, btreeSet, btreeMap,
    atomicBTreeSet, option, cow, cowStr, maybeResolved, stableLike, stableWaker, canariedImport, checkedImport] at h; done)
    | (simp only [Con.ty, box, boxedSlice, vec, intoIter, drain, arc, arcSlice, atomicArc, slice, sliceMut, str, strMut, result,
        okGuard, errGuard, refAs, mutAs, dyn, dynRef, symbol, weak, weakSlice, string, arcStr, weakStr, boxedStr, doubleEndedDrain, single, singleOrVec, sliceGuardMut, iterMut, node, btreeSet, btreeMap,
    atomicBTreeSet, option, cow, cowStr, maybeResolved, stableLike, stableWaker, canariedImport, checkedImport] at h; cases h)

/-- How a parameter may change in a coercion: not at all, as subtypes do, or arbitrarily because the type does not depend on it. -/
inductive Dep where
  | inv | co | unused

def Dep.rel : Dep → Ty → Ty → Prop
  | .inv, t, u => t = u
  | .co, t, u => Sub t u
  | .unused, _, _ => True

/-- How stabby's types depend on their two parameters. -/
def deps : Con → Dep × Dep
  | .weak | .weakSlice | .btreeSet | .btreeMap | .stableLike => (.co, .co)
  | .string | .arcStr | .weakStr | .boxedStr | .stableWaker => (.unused, .co)
  | .doubleEndedDrain | .singleOrVec | .sliceGuardMut | .iterMut | .maybeResolved => (.inv, .inv)
  | .atomicBTreeSet | .option | .cow | .checkedImport => (.inv, .unused)
  | .cowStr => (.unused, .unused)
  | .canariedImport => (.co, .unused)
  | .ref => (.co, .unused)
  | .refMut => (.inv, .unused)
  | .box | .boxedSlice | .vec | .intoIter | .arc | .arcSlice => (.co, .co)
  | .drain => (.inv, .inv)
  | .atomicArc => (.inv, .co)
  | .slice | .sliceMut => (.co, .unused)
  | .str | .strMut => (.unused, .unused)
  | .result | .okGuard | .errGuard => (.inv, .inv)
  | .refAs => (.co, .co)
  | .mutAs => (.inv, .co)
  | .dyn | .dynRef | .symbol => (.co, .unused)

/-- The types whose lifetime cannot be shortened although they borrow: enums of borrows, and wakers. -/
def fixed : Con → Bool
  | .cow | .cowStr | .stableWaker => true
  | _ => false

set_option linter.unusedSimpArgs false in
/-- C60: exactly these coercions are there. -/
theorem C60_coerced_iff (c : Con) (l l' : Nat) (t a t' a' : Ty) : Sub (c.ty l t a) (c.ty l' t' a') ↔
    (c.borrows = true → l' ≤ l) ∧ (fixed c = true → l = l') ∧ (deps c).1.rel t t' ∧ (deps c).2.rel a a' := by
  have inj : ∀ n m (x y : Ty), (Ty.struct n x = Ty.struct m y) ↔ n = m ∧ x = y := by intros; simp
  cases c <;> simp [Con.ty, Con.borrows, fixed, deps, Dep.rel, box, boxedSlice, vec, intoIter, drain, arc, arcSlice, atomicArc, slice, sliceMut, str, strMut, result,
    okGuard, errGuard, refAs, mutAs, dyn, dynRef, symbol, weak, weakSlice, string, arcStr, weakStr, boxedStr, doubleEndedDrain, single, singleOrVec, sliceGuardMut, iterMut, node, btreeSet, btreeMap,
    atomicBTreeSet, option, cow, cowStr, maybeResolved, stableLike, stableWaker, canariedImport, checkedImport, allocPtr, allocSlice, unit, sub_refl] <;> first
    | tauto
    | omega
    | (rintro rfl; simp [sub_refl])
    | (intro h; constructor <;> rintro ⟨h₁, h₂⟩ <;> simp_all; omega)

/-- What is read and stored: of a result either side, of its guards the side that they guard; of `RefAs` and `MutAs` the target. -/
example (t a : Ty) : Con.result.reads t a = [t, a] ∧ Con.okGuard.reads t a = [t] ∧ Con.errGuard.reads t a = [a] ∧ Con.refAs.reads t a = [a] ∧ Con.mutAs.reads t a = [a] ∧
    Con.vec.reads t a = [t, a] ∧ Con.okGuard.writes t a = [t] ∧ Con.errGuard.writes t a = [a] ∧ Con.sliceMut.writes t a = [t] ∧ Con.atomicArc.writes t a = [t, a] ∧ Con.atomicArc.reads t a = [t, a] ∧
    Con.mutAs.writes t a = [t] ∧ Con.slice.writes t a = [] := by simp [Con.reads, Con.writes]

example (t a : Ty) : Con.iterMut.writes t a = [t] ∧ Con.sliceGuardMut.writes t a = [t] ∧ Con.atomicBTreeSet.writes t a = [t] ∧ Con.string.reads t a = [a] ∧ Con.btreeMap.reads t a = [t, a] ∧
    Con.stableWaker.reads t a = [a] ∧ Con.weak.reads t a = [t, a] ∧ Con.option.reads t a = [t] := by simp [Con.reads, Con.writes]

/-- A `Cow` that borrows for a long time is not one that borrows for a short time, while a plain reference is. -/
example : ¬ Sub (Con.cow.ty 2 unit unit) (Con.cow.ty 1 unit unit) ∧ ¬ Sub (Con.stableWaker.ty 2 unit unit) (Con.stableWaker.ty 1 unit unit) ∧ Sub (Con.ref.ty 2 unit unit) (Con.ref.ty 1 unit unit) := by
  simp [C60_coerced_iff, fixed, Con.borrows, deps, Dep.rel, sub_refl]

/-- A vector of references for a long time is one of references for a short time, not the other way round; a mutable reference to a
vector of such references is neither. -/
example : let long : Ty := .ref 2 unit
    let short : Ty := .ref 1 unit
    Sub (Con.vec.ty 0 long unit) (Con.vec.ty 0 short unit) ∧ ¬ Sub (Con.vec.ty 0 short unit) (Con.vec.ty 0 long unit) ∧
    ¬ Sub (Con.refMut.ty 1 (vec long unit) unit) (Con.refMut.ty 1 (vec short unit) unit) ∧
    Sub (Con.refMut.ty 2 long unit) (Con.refMut.ty 1 long unit) := by
  simp [Con.ty, vec, allocPtr, sub_refl]

/-- A `SliceMut` of references for a long time is coerced to one of references for a short time, through which a reference is stored
that is gone when the owner of the slice reads it. -/
theorem C60_slice_mut_refuted (l long short : Nat) (t : Ty) (h : short < long) :
    Sub (sliceMut l (.ref long t)) (sliceMut l (.ref short t)) ∧ Con.sliceMut.writes (.ref short t) unit = [.ref short t] ∧
    ¬ Sub (.ref short t) (.ref long t) := by
  simp [sliceMut, Con.writes, sub_refl]
  omega

/-- An `AtomicArc` whose allocators borrow for a long time is coerced, behind a reference, to one whose allocators borrow for a short time, in which an `Arc` is stored whose
allocator is gone when the others that see the `AtomicArc` drop what they load from it. -/
theorem C60_atomic_arc_refuted (l long short : Nat) (t arena : Ty) (h : short < long) :
    Sub (.ref l (atomicArc t (.ref long arena))) (.ref l (atomicArc t (.ref short arena))) ∧ (.ref short arena) ∈ Con.atomicArc.writes t (.ref short arena) ∧
    (.ref long arena) ∈ Con.atomicArc.reads t (.ref long arena) ∧ ¬ Sub (.ref short arena) (.ref long arena) := by
  simp [atomicArc, Con.writes, Con.reads, sub_refl]
  omega

end Verif.Props.Variance
