import Verif.Layout.Platform
import Verif.Props.Sum
import Verif.Sum.Plain

/-! Property C63. -/
namespace Verif.Props.Platform
open Verif.Layout Verif.Layout.Platform Verif.Props.Sum

/-- `size_of` (Rust reference, type layout; documentation of `core::num::NonZero`, `core::sync::atomic`, `core::ffi::c_void`). -/
def rustSize (t : Target) : Prim → Nat
  | .unit | .phantomData | .phantomPinned => 0
  | .cVoid | .bool | .ordering | .atomicBool => 1
  | .uint w | .nonZeroU w | .int w | .nonZeroI w | .atomicI w | .atomicU w => w.bytes
  | .usize | .nonZeroUsize | .isize | .nonZeroIsize => t.ptr
  | .constPtr | .mutPtr | .nonNull | .ref | .refMut | .fnPtr => t.ptr
  | .atomicIsize | .atomicUsize | .atomicPtr => t.ptr
  | .f32 | .ownedFd | .borrowedFd => 4
  | .f64 => 8

/-- `align_of`; atomics are aligned to their size. -/
def rustAlign (t : Target) : Prim → Nat
  | .unit | .phantomData | .phantomPinned | .cVoid | .bool | .ordering | .atomicBool => 1
  | .uint w | .nonZeroU w | .int w | .nonZeroI w => t.alignU w
  | .usize | .nonZeroUsize | .isize | .nonZeroIsize => t.aptr
  | .constPtr | .mutPtr | .nonNull | .ref | .refMut | .fnPtr => t.aptr
  | .atomicI w | .atomicU w => w.bytes
  | .atomicIsize | .atomicUsize | .atomicPtr => t.ptr
  | .f32 => t.af32
  | .f64 => t.af64
  | .ownedFd | .borrowedFd => t.a32

/-- The values of the integer with the type's bytes that are not values of the type. -/
def invalid : Prim → List Nat
  | .bool | .atomicBool => List.range' 2 254
  | .ordering => List.range' 2 253
  | .nonZeroU _ | .nonZeroI _ | .nonZeroUsize | .nonZeroIsize | .nonNull | .ref | .refMut | .fnPtr => [0]
  | .ownedFd | .borrowedFd => [2 ^ 32 - 1]
  | _ => []

/-- How many of them rustc may use to lay out `Option<T>`: `UnsafeCell` hides those of atomics. -/
def spareValues : Prim → Nat
  | .atomicBool => 0
  | p => (invalid p).length

/-- The integer held by the first `n` bytes (little endian). -/
def leVal (m : Mem) : Nat → Nat
  | 0 => 0
  | n + 1 => leVal m n + (m n).toNat * 256 ^ n

/-- `check!` (mod.rs:133-232, C106) accepts the size and alignment of the checked types: otherwise stabby does not compile for the target.
128-bit atomics do not exist. -/
def Compiles (t : Target) : Prop :=
  (t.ptr = 2 ∨ t.ptr = 4 ∨ t.ptr = 8) ∧ ∀ p ∈ checked, (decl t p).size = rustSize t p ∧ (decl t p).align = rustAlign t p

def Exists : Prim → Prop
  | .atomicI .w128 | .atomicU .w128 => False
  | _ => True

/-- **C63 (partial).**  On every target for which stabby compiles, the size and the alignment declared for a primitive type are those that
rustc gives it.  Missing: `c_void` (below), and floats on targets where they are not aligned like integers of the same size, which
nothing checks. -/
theorem C63_layout_partial (t : Target) (h : Compiles t) (p : Prim) (he : Exists p) (hv : p ≠ .cVoid) (h32 : p = .f32 → t.af32 = t.a32)
    (h64 : p = .f64 → t.af64 = t.a64) : (decl t p).size = rustSize t p ∧ (decl t p).align = rustAlign t p := by
  obtain ⟨hp, hc⟩ := h
  have c16 := hc (.uint .w16) (by decide)
  have c32 := hc (.uint .w32) (by decide)
  have c64 := hc (.uint .w64) (by decide)
  have c128 := hc (.uint .w128) (by decide)
  have cu := hc .usize (by decide)
  have cnz := hc .nonZeroUsize (by decide)
  have cau := hc .atomicUsize (by decide)
  have e16 : 2 = t.a16 := c16.2
  have e32 : 4 = t.a32 := c32.2
  have e64 : exprToType t.a64 = t.a64 := c64.2
  have e128 : exprToType t.a128 = t.a128 := c128.2
  have es : exprToType t.ptr = t.ptr := cu.1
  have ea : exprToType t.aptr = t.aptr := cu.2
  have eap : exprToType t.aptr = t.ptr := cau.2
  have all : ∀ w, (declU t w).size = w.bytes ∧ (declU t w).align = t.alignU w := by
    intro w
    cases w with
    | w8 => exact ⟨rfl, rfl⟩
    | w16 => exact ⟨rfl, e16⟩
    | w32 => exact ⟨rfl, e32⟩
    | w64 => exact ⟨rfl, e64⟩
    | w128 => exact ⟨rfl, e128⟩
  have alln : ∀ w, (declNz t w).size = w.bytes ∧ (declNz t w).align = t.alignU w := by
    intro w
    cases w with
    | w8 => exact ⟨rfl, rfl⟩
    | w16 => exact ⟨rfl, e16⟩
    | w32 => exact ⟨rfl, e32⟩
    | w64 => exact ⟨rfl, e64⟩
    | w128 => exact ⟨rfl, e128⟩
  cases p with
  | cVoid => exact absurd rfl hv
  | uint w => exact all w
  | nonZeroU w => exact alln w
  | int w => exact all w
  | nonZeroI w => exact alln w
  | atomicI w =>
    cases w with
    | w128 => exact absurd he (by simp [Exists])
    | _ => exact hc _ (by decide)
  | atomicU w =>
    cases w with
    | w128 => exact absurd he (by simp [Exists])
    | _ => exact hc _ (by decide)
  | f32 => exact ⟨rfl, e32.trans (h32 rfl).symm⟩
  | f64 => exact ⟨rfl, e64.trans (h64 rfl).symm⟩
  | unit | phantomData | phantomPinned | bool | ordering | atomicBool => exact ⟨rfl, rfl⟩
  | usize | isize | constPtr | mutPtr => exact cu
  | nonZeroUsize | nonZeroIsize | nonNull | ref | refMut | fnPtr => exact cnz
  | atomicIsize | atomicUsize | atomicPtr => exact ⟨es, eap⟩
  | ownedFd | borrowedFd => exact ⟨rfl, e32⟩

/-- The sizes and alignments of rustc that the code has to turn into types are turned into those numbers. -/
theorem C63_expr_to_type (n : Nat) (h : n = 1 ∨ n = 2 ∨ n = 4 ∨ n = 8 ∨ n = 16) : exprToType n = n := by
  rcases h with rfl | rfl | rfl | rfl | rfl <;> rfl
example : exprToType 2 = 2 := C63_expr_to_type 2 (by decide)

/-- x86-64, 32-bit x86 (whose `u64` is aligned to 4) and thumb-like 32-bit targets compile; AVR, with alignments of 1, does not. -/
def x64 : Target := ⟨8, 2, 4, 8, 16, 8, 4, 8⟩
def i686 : Target := ⟨4, 2, 4, 4, 16, 4, 4, 4⟩
def avr : Target := ⟨2, 1, 1, 1, 1, 1, 1, 1⟩
instance (t : Target) : Decidable (Compiles t) := inferInstanceAs (Decidable (_ ∧ _))
example : Compiles x64 ∧ Compiles i686 ∧ ¬ Compiles avr := by decide +kernel
example : (decl i686 (.uint .w64)).align = 4 ∧ (decl i686 (.atomicU .w64)).align = 8 ∧ (decl x64 (.int .w64)).align = 8 := by decide +kernel

/-- Refuted: `c_void` is declared to have no bytes; it has one. -/
theorem C63_c_void_refuted (t : Target) : (decl t .cVoid).size = 0 ∧ rustSize t .cVoid = 1 := ⟨rfl, rfl⟩

/-- Refuted: a target that aligns `f64` to 4 and `u64` to 8 is accepted, with a wrong alignment for `f64`. -/
theorem C63_f64_refuted : ∃ t, Compiles t ∧ (decl t .f64).align ≠ rustAlign t .f64 := ⟨⟨8, 2, 4, 8, 16, 8, 4, 4⟩, by decide +kernel⟩

theorem nzHoles_zero (m : Mem) (n : Nat) : ∀ i, (nzHoles i (n + 1)).Forbids m ↔ ∀ k, i ≤ k → k < i + n + 1 → m k = 0 := by
  induction n with
  | zero =>
    intro i
    simp only [nzHoles, Fv.Forbids]
    exact ⟨fun h k h1 h2 => by obtain rfl : k = i := by omega
                               exact h, fun h => h i (Nat.le_refl _) (by omega)⟩
  | succ n ih =>
    intro i
    show m i = 0 ∧ (nzHoles (i + 1) (n + 1)).Forbids m ↔ _
    rw [ih]
    constructor
    · rintro ⟨h1, h2⟩ k h3 h4
      by_cases hk : k = i
      · rw [hk]; exact h1
      · exact h2 k (by omega) (by omega)
    · intro h
      exact ⟨h i (Nat.le_refl _) (by omega), fun k h1 h2 => h k (by omega) (by omega)⟩

theorem leVal_zero (m : Mem) (n : Nat) : leVal m n = 0 ↔ ∀ k, k < n → m k = 0 := by
  induction n with
  | zero => simp [leVal]
  | succ n ih =>
    simp only [leVal, Nat.add_eq_zero_iff, ih]
    have hp : 0 < 256 ^ n := Nat.pow_pos (by omega)
    constructor
    · rintro ⟨h1, h2⟩ k hk
      by_cases hkn : k = n
      · subst hkn
        rcases Nat.mul_eq_zero.1 h2 with h | h
        · exact BitVec.eq_of_toNat_eq (by simpa using h)
        · omega
      · exact h1 k (by omega)
    · intro h
      exact ⟨fun k hk => h k (by omega), by rw [h n (by omega)]; simp⟩

/-- The forbidden values declared for a primitive type are exactly the bit patterns that are not values of it (file descriptors declare
none, although `-1` is not one). -/
theorem C63_forbidden (t : Target) (h : Compiles t) (p : Prim) (m : Mem) :
    ((decl t p).fv.Forbids m → leVal m (rustSize t p) ∈ invalid p) ∧
    (p ≠ .ownedFd → p ≠ .borrowedFd → leVal m (rustSize t p) ∈ invalid p → (decl t p).fv.Forbids m) := by
  have nz : ∀ n, (nzHoles 0 (n + 1)).Forbids m ↔ leVal m (n + 1) ∈ [0] := by
    intro n
    rw [nzHoles_zero, List.mem_singleton, leVal_zero]
    exact ⟨fun h k hk => h k (by omega) (by omega), fun h k _ hk => h k (by omega)⟩
  have b1 : leVal m 1 = (m 0).toNat := by simp [leVal]
  have rg : ∀ hi : Nat, hi < 256 → ((Fv.range 2 (BitVec.ofNat 8 hi) 0).Forbids m ↔ (m 0).toNat ∈ List.range' 2 (hi - 1)) := by
    intro hi h
    have h2 : (2 : Byte).toNat = 2 := rfl
    simp only [Fv.Forbids, BitVec.le_def, BitVec.toNat_ofNat, List.mem_range'_1, Nat.reducePow, h2, Nat.mod_eq_of_lt h]
    omega
  have nzu : (declNzUsize t).fv.Forbids m ↔ leVal m t.ptr ∈ [0] := by
    rcases h.1 with h | h | h
    · simp only [declNzUsize, h, sameAs, declNz, Lay.prim]; exact nz 1
    · simp only [declNzUsize, h, sameAs, declNz, Lay.prim]; exact nz 3
    · simp only [declNzUsize, h, sameAs, declNz, Lay.prim]; exact nz 7
  have both : ∀ {a b : Prop}, (a ↔ b) → (a → b) ∧ (p ≠ .ownedFd → p ≠ .borrowedFd → b → a) := fun h => ⟨h.1, fun _ _ => h.2⟩
  cases p with
  | bool =>
    apply both
    show (Fv.range 2 255 0).Forbids m ↔ leVal m 1 ∈ _
    rw [b1]; exact rg 255 (by omega)
  | atomicBool =>
    apply both
    show (Fv.range 2 255 0).Forbids m ↔ leVal m 1 ∈ _
    rw [b1]; exact rg 255 (by omega)
  | ordering =>
    apply both
    show (Fv.range 2 254 0).Forbids m ↔ leVal m 1 ∈ _
    rw [b1]; exact rg 254 (by omega)
  | nonZeroU w => cases w with | w8 => exact both (nz 0) | w16 => exact both (nz 1) | w32 => exact both (nz 3) | w64 => exact both (nz 7) | w128 => exact both (nz 15)
  | nonZeroI w => cases w with | w8 => exact both (nz 0) | w16 => exact both (nz 1) | w32 => exact both (nz 3) | w64 => exact both (nz 7) | w128 => exact both (nz 15)
  | nonZeroUsize => exact both nzu
  | nonZeroIsize => exact both nzu
  | nonNull => exact both nzu
  | ref => exact both nzu
  | refMut => exact both nzu
  | fnPtr => exact both nzu
  | ownedFd => exact ⟨fun h => by simp [decl, sameAs, declU, Lay.prim, Fv.Forbids] at h, fun h => absurd rfl h⟩
  | borrowedFd => exact ⟨fun h => by simp [decl, sameAs, declU, Lay.prim, Fv.Forbids] at h, fun _ h => absurd rfl h⟩
  | uint w => apply both; cases w <;> simp [decl, declU, Lay.prim, Fv.Forbids, invalid]
  | int w => apply both; cases w <;> simp [decl, declU, sameAs, Lay.prim, Fv.Forbids, invalid]
  | atomicI w => apply both; cases w <;> simp [decl, declAtomicI, declU, sameAs, Lay.prim, Fv.Forbids, invalid]
  | atomicU w => apply both; cases w <;> simp [decl, declAtomicI, declU, sameAs, Lay.prim, Fv.Forbids, invalid]
  | _ => apply both; simp [decl, declU, declUsize, sameAs, Lay.prim, Fv.Forbids, invalid]

example : (decl x64 .ref).fv.Forbids (fun _ => 0) ∧ ¬ (decl x64 .ref).fv.Forbids (fun i => if i = 7 then 1 else 0) := by
  refine ⟨(nzHoles_zero _ 7 0).2 fun _ _ _ => rfl, fun h => ?_⟩
  have := (nzHoles_zero _ 7 0).1 h 7 (by omega) (by omega)
  simp at this

/-- No bit of a primitive type is declared unused. -/
theorem C63_no_unused_bits (t : Target) (p : Prim) : (decl t p).ub = [] := by
  cases p with
  | uint w => cases w <;> rfl
  | nonZeroU w => cases w <;> rfl
  | int w => cases w <;> rfl
  | nonZeroI w => cases w <;> rfl
  | atomicI w => cases w <;> rfl
  | atomicU w => cases w <;> rfl
  | nonZeroUsize | nonZeroIsize | nonNull | ref | refMut | fnPtr =>
    simp only [decl, sameAs, declNzUsize, declNz, Lay.prim]; split <;> first | rfl | (split <;> rfl)
  | _ => rfl

/-- The claims about niches are true, except those of `Ordering` and of file descriptors. -/
theorem C63_niches_partial (t : Target) (p : Prim) (ho : p ≠ .ordering) (hf : p ≠ .ownedFd) (hb : p ≠ .borrowedFd) :
    ClaimHolds (decl t p).oneNiche (spareValues p) := by
  cases p with
  | ordering => exact absurd rfl ho
  | ownedFd => exact absurd rfl hf
  | borrowedFd => exact absurd rfl hb
  | uint w => cases w <;> rfl
  | nonZeroU w => cases w <;> rfl
  | int w => cases w <;> rfl
  | nonZeroI w => cases w <;> rfl
  | atomicI w => cases w <;> rfl
  | atomicU w => cases w <;> rfl
  | nonZeroUsize => simp only [decl, sameAs, declNzUsize, declNz, Lay.prim]; split <;> first | rfl | (split <;> rfl)
  | bool | atomicBool => trivial
  | _ => rfl

/-- Refuted: file descriptors claim to have no niche, but have one (`-1`): `Tuple2<OwnedFd, NonZeroU8>`-like pairs then claim exactly one
although they have two. -/
theorem C63_fd_refuted (t : Target) : (decl t .ownedFd).oneNiche = .b0 ∧ spareValues .ownedFd = 1 ∧
    ((decl t .ownedFd).oneNiche.add (decl t (.nonZeroU .w8)).oneNiche) = .b1 ∧
    spareValues .ownedFd + spareValues (.nonZeroU .w8) = 2 := by
  refine ⟨rfl, by decide, rfl, by decide⟩

/-- Types that hold a pointer say so, and among those only file descriptors hold none. -/
theorem C63_indirections (t : Target) (p : Prim) : (decl t p).indirections = true ↔
    p ∈ [Prim.constPtr, .mutPtr, .nonNull, .ref, .refMut, .fnPtr, .atomicPtr, .ownedFd, .borrowedFd] := by
  cases p with
  | uint w => cases w <;> simp [decl, declU, Lay.prim]
  | nonZeroU w => cases w <;> simp [decl, declNz, Lay.prim]
  | int w => simp [decl, sameAs]
  | nonZeroI w => simp [decl, sameAs]
  | atomicI w => cases w <;> simp [decl, declAtomicI, sameAs, Lay.prim]
  | atomicU w => cases w <;> simp [decl, sameAs]
  | nonZeroUsize =>
    simp only [decl, declNzUsize]
    split
    · simp [sameAs]
    · split <;> simp [sameAs]
  | _ => simp [decl, sameAs, declUsize, declBool, Lay.prim]

/-- The primitive types used by the other models are those declared on a 64-bit target. -/
theorem C63_universe : Sum.Ty.unit.lay = decl x64 .unit ∧ Sum.Ty.u8.lay = decl x64 (.uint .w8) ∧ Sum.Ty.u16.lay = decl x64 (.uint .w16) ∧
    Sum.Ty.u32.lay = decl x64 (.uint .w32) ∧ Sum.Ty.u64.lay = decl x64 (.uint .w64) ∧ Sum.Ty.usize.lay = decl x64 .usize ∧
    Sum.Ty.bool.lay = decl x64 .bool ∧ Sum.Ty.ordering.lay = decl x64 .ordering ∧ Sum.Ty.nonZeroU8.lay = decl x64 (.nonZeroU .w8) ∧
    Sum.Ty.nonZeroU16.lay = decl x64 (.nonZeroU .w16) ∧ Sum.Ty.nonZeroU32.lay = decl x64 (.nonZeroU .w32) ∧
    Sum.Ty.nonZeroU64.lay = decl x64 (.nonZeroU .w64) ∧ Sum.Ty.ref.lay = decl x64 .ref ∧ Sum.PTy.pointer = .leaf (decl x64 .ref) true ∧
    Sum.PTy.nonZeroUsize = .leaf (decl x64 .nonZeroUsize) false ∧ Sum.PTy.u32 = .leaf (decl x64 (.uint .w32)) false := by
  refine ⟨?_, ?_, ?_, ?_, ?_, ?_, ?_, ?_, ?_, ?_, ?_, ?_, ?_, rfl, rfl, rfl⟩ <;> decide +kernel

end Verif.Props.Platform
