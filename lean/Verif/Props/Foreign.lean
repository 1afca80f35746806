import Verif.Layout.Foreign
import Verif.Layout.Lemmas
import Mathlib.Tactic.IntervalCases
/-! C112: the layouts declared for the types of abi_stable.

The specification: the declared size and alignment are those of the `repr(C)` struct, forbidden values are values that never occur, unused
bits are in no field, and a claim about the number of niches is the number of niches that rustc sees. -/
set_option linter.unusedSimpArgs false
namespace Verif.Props.Foreign
open Verif.Layout Verif.Layout.Platform Verif.Layout.Foreign

/-- Targets of rustc: pointers are aligned to their size, `u32` too, `u64` at least to 4 bytes, and as pointers are where it has their size. -/
structure Usual (t : Target) : Prop where
  ptr : t.ptr = 4 ∨ t.ptr = 8
  aptr : t.aptr = t.ptr
  a32 : t.a32 = 4
  a64 : t.a64 = 4 ∨ t.a64 = 8
  word : t.ptr = 8 → t.a64 = 8

/-- Fields and where they are: each at the next offset that is aligned for it. -/
def place (t : Target) : Nat → List Fld → List (Nat × Fld)
  | _, [] => []
  | c, f :: fs => (alignUp c (f.align t), f) :: place t (alignUp c (f.align t) + f.size t) fs
def fieldsEnd (t : Target) : Nat → List Fld → Nat
  | c, [] => c
  | c, f :: fs => fieldsEnd t (alignUp c (f.align t) + f.size t) fs
def fieldsAlign (t : Target) : List Fld → Nat
  | [] => 1
  | f :: fs => max (f.align t) (fieldsAlign t fs)

/-- What the memory of a field holds. -/
def Fld.Holds (t : Target) (m : Mem) : Fld → Prop
  | .buf | .vt => ∃ i, i < t.ptr ∧ m i ≠ 0
  | .word | .u64 | .u32 => True
  | .val x | .cell x => ¬ x.fv.Forbids m

/-- The memory of a value: in each field, a value of it. -/
def Value (t : Target) (x : Foreign) (m : Mem) : Prop := ∀ o f, (o, f) ∈ place t 0 (fields x) → Fld.Holds t (m.at o) f

/-- The parameters of a type are types: aligned to something, with a size that is a multiple of it. -/
def Params (P : Lay → Prop) : Foreign → Prop
  | .tuple1 x | .rmutex x | .rrwLock x => P x
  | .tuple2 x y => P x ∧ P y
  | _ => True
def Sized (x : Lay) : Prop := 0 < x.align ∧ x.size % x.align = 0

/-- The number of niches that rustc sees, where the parameters have `n` of them; cells hide theirs. -/
def niches (n : Lay → Nat) : List Fld → Nat
  | [] => 0
  | .vt :: fs => 1 + niches n fs
  | .val x :: fs => n x + niches n fs
  | _ :: fs => niches n fs

/-- What a claim says. -/
def Claim : Sat → Nat → Prop
  | .b0, n => n = 0
  | .b1, n => n = 1
  | .saturator, _ => True

theorem alignUp_zero {a : Nat} : alignUp 0 a = 0 := by
  unfold alignUp
  rcases Nat.eq_zero_or_pos a with h | h
  · simp [h]
  · rw [Nat.div_eq_of_lt (by omega)]; simp
theorem alignUp_of_mod {n a : Nat} (ha : 0 < a) (h : n % a = 0) : alignUp n a = n := by
  rw [← nextMul_eq ha]; simp [nextMul, h]

/-- What the target's declarations come to. -/
theorem words_eq {t : Target} (ht : Usual t) : (Platform.decl t .nonNull).size = t.ptr ∧ (Platform.decl t .nonNull).align = t.ptr ∧
    (Platform.decl t .ref) = (Platform.decl t .nonNull) ∧ (Platform.decl t .nonNull).fv = nzHoles 0 t.ptr ∧ (Platform.decl t .nonNull).ub = [] ∧
    (Platform.decl t .constPtr).size = t.ptr ∧ (Platform.decl t .constPtr).align = t.ptr ∧ (Platform.decl t .constPtr).fv = .none ∧
    (Platform.decl t .constPtr).ub = [] ∧ (Platform.decl t .nonNull).oneNiche = .b1 ∧ (Platform.decl t .constPtr).oneNiche = .b0 := by
  have h := ht.aptr
  have hw := ht.word
  rcases ht.ptr with hp | hp <;>
    simp_all [Platform.decl, Platform.sameAs, declNzUsize, declNz, declUsize, Lay.prim, exprToType]

theorem uints_eq {t : Target} (ht : Usual t) : (Platform.decl t (.uint .w64)).size = 8 ∧ (Platform.decl t (.uint .w64)).align = t.a64 ∧
    (Platform.decl t (.uint .w32)).size = 4 ∧ (Platform.decl t (.uint .w32)).align = 4 ∧ (Platform.decl t (.uint .w64)).ub = [] ∧ (Platform.decl t (.uint .w32)).ub = [] ∧
    (Platform.decl t (.uint .w64)).fv = .none ∧ (Platform.decl t (.uint .w32)).fv = .none ∧ (Platform.decl t (.uint .w64)).oneNiche = .b0 ∧
    (Platform.decl t (.uint .w32)).oneNiche = .b0 := by
  rcases ht.a64 with h | h <;> simp [Platform.decl, declU, Lay.prim, exprToType, h]

/-- C112: sizes and alignments are those of the types, on all targets and for all parameters. -/
theorem C112_size (t : Target) (ht : Usual t) (x : Foreign) (hx : Params Sized x) :
    (declared t x).align = fieldsAlign t (fields x) ∧ (declared t x).size = alignUp (fieldsEnd t 0 (fields x)) (fieldsAlign t (fields x)) := by
  obtain ⟨hs, ha, hr, _, _, cs, ca, _⟩ := words_eq ht
  have hap := ht.aptr
  cases x
  case tuple1 x =>
    obtain ⟨h1, h2⟩ : Sized x := hx
    simp only [declared, like, fields, fieldsAlign, fieldsEnd, Fld.align, Fld.size, alignUp_zero, Nat.zero_add]
    have hm : max x.align 1 = x.align := by omega
    exact ⟨hm.symm, by rw [hm, alignUp_of_mod h1 h2]⟩
  case tuple2 x y =>
    obtain ⟨⟨h1, h2⟩, h3, h4⟩ : Sized x ∧ Sized y := hx
    have hm : max x.align (max y.align 1) = max x.align y.align := by omega
    simp only [declared, like, fields, fieldsAlign, fieldsEnd, Fld.align, Fld.size, alignUp_zero, Nat.zero_add, Lay.tuple2, Lay.struct, Lay.fieldPair,
      Lay.alignedAfter, hm, true_and]
    rw [nextMul_eq h3, nextMul_eq (by omega), Nat.add_comm]
  case rmutex x =>
    obtain ⟨h1, h2⟩ : Sized x := hx
    have hp : 0 < t.ptr := by have := ht.ptr; omega
    simp only [declared, like, sealMutex, fields, fieldsAlign, fieldsEnd, Fld.align, Fld.size, alignUp_zero, Nat.zero_add, Lay.tuple3, Lay.struct, Lay.fieldPair,
      Lay.alignedAfter, hr, hs, ha, cs, ca, CType.primSize, CType.primAlign, hap]
    have hm : max t.ptr (max x.align (max t.ptr 1)) = max (max t.ptr x.align) t.ptr := by omega
    rw [hm, nextMul_eq h1, nextMul_eq hp, nextMul_eq (by omega), Nat.add_comm x.size, Nat.add_comm t.ptr (alignUp (alignUp t.ptr x.align + x.size) t.ptr)]
    exact ⟨rfl, rfl⟩
  case rrwLock x =>
    obtain ⟨h1, h2⟩ : Sized x := hx
    have hp : 0 < t.ptr := by have := ht.ptr; omega
    simp only [declared, like, sealMutex, fields, fieldsAlign, fieldsEnd, Fld.align, Fld.size, alignUp_zero, Nat.zero_add, Lay.tuple3, Lay.struct, Lay.fieldPair,
      Lay.alignedAfter, hr, hs, ha, cs, ca, CType.primSize, CType.primAlign, hap]
    have hm : max t.ptr (max x.align (max t.ptr 1)) = max (max t.ptr x.align) t.ptr := by omega
    rw [hm, nextMul_eq h1, nextMul_eq hp, nextMul_eq (by omega), Nat.add_comm x.size, Nat.add_comm t.ptr (alignUp (alignUp t.ptr x.align + x.size) t.ptr)]
    exact ⟨rfl, rfl⟩
  all_goals
    clear hx
    have h32 := ht.a32
    obtain ⟨u1, u2, u3, u4, -⟩ := uints_eq ht
    rcases ht.ptr with hp | hp <;> rcases ht.a64 with h64 | h64 <;>
      simp [declared, words, like, fields, fieldsAlign, fieldsEnd, Fld.align, Fld.size, Lay.tuple2, Lay.struct, Lay.fieldPair, Lay.alignedAfter, hr, hs, ha, cs, ca,
        CType.primSize, CType.primAlign, hap, hp, h32, h64, alignUp, nextMul, Target.alignU, Width.bytes, u1, u2, u3, u4]

theorem null_forbidden {p : Nat} (hp : p = 4 ∨ p = 8) {m : Mem} (h : (nzHoles 0 p).Forbids m) : ∀ i, i < p → m i = 0 := by
  rcases hp with rfl | rfl <;> simp [nzHoles, Fv.Forbids] at h <;> intro i hi <;> interval_cases i <;> simp_all

/-- C112: no value of a type is one that is declared forbidden. -/
theorem C112_forbidden (t : Target) (ht : Usual t) (x : Foreign) (hx : Params Sized x) (m : Mem) (hm : Value t x m) : ¬ (declared t x).fv.Forbids m := by
  obtain ⟨hs, ha, hr, hf, _, cs, ca, cf, _⟩ := words_eq ht
  obtain ⟨u1, u2, u3, u4, _, _, u5, u6, _⟩ := uints_eq ht
  have hap := ht.aptr
  have hp : 0 < t.ptr := by have := ht.ptr; omega
  have a0 : ∀ m : Mem, m.at 0 = m := fun m => by funext i; simp [Mem.at]
  have nn : ∀ m : Mem, (∃ i, i < t.ptr ∧ m i ≠ 0) → ¬ (nzHoles 0 t.ptr).Forbids m := fun m ⟨i, hi, h0⟩ h => h0 (null_forbidden ht.ptr h i hi)
  have au : alignUp t.ptr t.ptr = t.ptr := alignUp_of_mod hp (Nat.mod_self _)
  have nm : nextMul t.ptr t.ptr = t.ptr := by rw [nextMul_eq hp, au]
  have au2 : ∀ k, alignUp (k * t.ptr) t.ptr = k * t.ptr := fun k => alignUp_of_mod hp (Nat.mul_mod_left _ _)
  have nm2 : nextMul (t.ptr * 2) t.ptr = t.ptr * 2 := by rw [nextMul_eq hp, Nat.mul_comm, au2]
  have e2 : t.ptr + t.ptr = t.ptr * 2 := by omega
  have au3 : alignUp (t.ptr * 2) t.ptr = t.ptr * 2 := by rw [Nat.mul_comm, au2]
  cases x <;> simp only [Value, place, fields, List.mem_cons, List.not_mem_nil, or_false, Prod.mk.injEq, alignUp_zero, Fld.align, Fld.size, CType.primAlign, CType.primSize,
    hap, Nat.zero_add, au, e2, au3] at hm
  case tuple1 x =>
    have := hm 0 _ ⟨rfl, rfl⟩
    rw [a0] at this
    exact this
  case tuple2 x y =>
    obtain ⟨_, h3, _⟩ : Sized x ∧ Sized y := hx
    have h1 := hm _ _ (.inl ⟨rfl, rfl⟩)
    have h2 := hm _ _ (.inr ⟨rfl, rfl⟩)
    rw [a0] at h1
    simp only [Fld.Holds] at h1 h2
    simp only [declared, like, Lay.tuple2, Lay.struct, Lay.fieldPair, Lay.alignedAfter, Fv.Forbids, Fv.forbids_shift, nextMul_eq h3]
    tauto
  case rmutex x =>
    obtain ⟨h1, -⟩ : Sized x := hx
    have h2 := hm _ _ (.inr (.inl ⟨rfl, rfl⟩))
    have h3 := nn _ (hm _ _ (.inr (.inr ⟨rfl, rfl⟩)))
    simp only [Fld.Holds] at h2
    simp only [declared, like, sealMutex, Lay.tuple3, Lay.struct, Lay.fieldPair, Lay.alignedAfter, Fv.Forbids, Fv.forbids_shift, nextMul_eq h1, nextMul_eq hp, hr, hf, cf, cs, ha]
    rw [Nat.add_comm x.size]
    tauto
  case rrwLock x =>
    obtain ⟨h1, -⟩ : Sized x := hx
    have h2 := hm _ _ (.inr (.inl ⟨rfl, rfl⟩))
    have h3 := nn _ (hm _ _ (.inr (.inr ⟨rfl, rfl⟩)))
    simp only [Fld.Holds] at h2
    simp only [declared, like, sealMutex, Lay.tuple3, Lay.struct, Lay.fieldPair, Lay.alignedAfter, Fv.Forbids, Fv.forbids_shift, nextMul_eq h1, nextMul_eq hp, hr, hf, cf, cs, ha]
    rw [Nat.add_comm x.size]
    tauto
  case rslice | rstr | rsliceMut => simp [declared, words, like, Fv.Forbids]
  case rduration => simp [declared, like, Lay.tuple2, Lay.struct, Lay.fieldPair, Lay.alignedAfter, Fv.Forbids, Fv.shift, u5, u6]
  case rref | rmut =>
    have := nn _ (hm 0 _ ⟨rfl, rfl⟩)
    rw [a0] at this
    simpa [declared, like, hf] using this
  case rarc | ronce =>
    have := nn _ (hm _ _ (.inr ⟨rfl, rfl⟩))
    simpa [declared, like, Lay.tuple2, Lay.struct, Lay.fieldPair, Lay.alignedAfter, Fv.Forbids, Fv.forbids_shift, cf, cs, hf, ha, nm] using this
  case rreceiver | rsender =>
    have h1 := nn _ (hm 0 _ (.inl ⟨rfl, rfl⟩))
    have h2 := nn _ (hm _ _ (.inr (.inr ⟨rfl, rfl⟩)))
    rw [a0] at h1
    simp only [declared, like, words, Lay.tuple2, Lay.struct, Lay.fieldPair, Lay.alignedAfter, Fv.Forbids, Fv.forbids_shift, if_true, hs, hf, ha, nm2]
    tauto
  all_goals
    have := nn _ (hm 0 _ (.inl ⟨rfl, rfl⟩))
    rw [a0] at this
    simpa [declared, like, words, hf] using this

/-- C112: what is declared unused is padding. -/
theorem C112_unused (t : Target) (ht : Usual t) (x : Foreign) (hx : Params (fun _ => False) x) (i b : Nat) (h : (declared t x).ub.Unused i b) :
    i < (declared t x).size ∧ ∀ o f, (o, f) ∈ place t 0 (fields x) → ¬ (o ≤ i ∧ i < o + f.size t) := by
  obtain ⟨hs, ha, hr, _, hu, cs, ca, _, cu, _⟩ := words_eq ht
  obtain ⟨u1, u2, u3, u4, u5, u6, _⟩ := uints_eq ht
  have h32 := ht.a32
  cases x <;> simp only [Params, and_self] at hx <;> rcases ht.ptr with hp | hp <;> rcases ht.a64 with h64 | h64 <;>
    simp [declared, like, words, Lay.tuple2, Lay.struct, Lay.fieldPair, Lay.alignedAfter, Mask.Unused, Mask.bitOr, Mask.shift, padMask, nextMul, hu, cu, hs, ha, cs, ca, hp, u1, u2, u3,
      u4, u5, u6, h64] at h ⊢
  all_goals
    simp [fields, place, Fld.size, Fld.align, CType.primSize, CType.primAlign, Target.alignU, h64, h32, alignUp, Width.bytes]
    have hi : i < 16 ∧ 12 ≤ i := by
      obtain ⟨v, h, -⟩ := h
      omega
    refine ⟨hi.1, ?_⟩
    rintro o f (⟨rfl, rfl⟩ | ⟨rfl, rfl⟩) <;> simp <;> omega

/-- The types of which one niche too many is there. -/
def TwoVtables : Foreign → Prop
  | .rhashMap | .rboxError | .sendRBoxError | .unsyncRBoxError => True
  | _ => False

theorem claim_add {x y : Sat} {n m : Nat} (hx : Claim x n) (hy : Claim y m) : Claim (x.add y) (n + m) := by
  cases x <;> cases y <;> simp only [Sat.add, Sat.addB1, Claim] at * <;> omega

/-- C112: a claim to have one niche or none is true, if those of the parameters are.  What is missing: see `C112_two_niches_refuted`. -/
theorem C112_niches_partial (t : Target) (ht : Usual t) (x : Foreign) (h2 : ¬ TwoVtables x) (n : Lay → Nat) (hn : Params (fun l => Claim l.oneNiche (n l)) x) :
    Claim (declared t x).oneNiche (niches n (fields x)) := by
  obtain ⟨hs, ha, hr, _, hu, cs, ca, _, cu, hb, cb⟩ := words_eq ht
  obtain ⟨_, _, _, _, _, _, _, _, u7, u8⟩ := uints_eq ht
  have sat : ∀ (c : Prop) [Decidable c] (s : Sat) k, Claim s k → Claim (if c then s else .saturator) k := by
    intro c _ s k h
    split
    · exact h
    · trivial
  cases x
  case tuple1 x => exact hn
  case tuple2 x y => exact sat _ _ _ (sat _ _ _ (claim_add hn.1 hn.2))
  case rduration =>
    refine sat _ _ _ (sat _ _ _ ?_)
    simp [Lay.alignedAfter, u7, u8, Sat.add, Claim, niches, fields]
  case rarc | ronce =>
    refine sat _ _ _ (sat _ _ _ ?_)
    simp [Lay.alignedAfter, hb, cb, Sat.add, Claim, niches, fields]
  case rreceiver | rsender =>
    refine sat _ _ _ (sat _ _ _ ?_)
    simp [Lay.alignedAfter, words, hb, Sat.add, Sat.addB1, Claim]
  case rmutex x | rrwLock x =>
    refine sat _ _ _ (sat _ _ _ ?_)
    simp only [Lay.alignedAfter, Lay.fieldPair, hr, hb, cb]
    split
    · rcases ho : x.oneNiche <;> simp [Sat.add, Sat.addB1, Claim, niches, fields]
    · trivial
  all_goals simp_all [TwoVtables, declared, like, words, niches, fields, Claim]

/-- C112: maps and errors of abi_stable are a box and a vtable.  They are said to have exactly one niche, but rustc sees two: which one is used for `None` is its choice. -/
theorem C112_two_niches_refuted (t : Target) (n : Lay → Nat) : ∀ x ∈ [Foreign.rhashMap, .rboxError, .sendRBoxError, .unsyncRBoxError],
    (declared t x).oneNiche = .b1 ∧ niches n (fields x) = 2 := by
  simp [declared, like, words, niches, fields]

/-- C112: the C types that are written down have the size and the alignment of the type. -/
theorem C112_ctype (t : Target) (ht : Usual t) (x : Foreign) (k : Nat) (h : ctypeWords x = some k) : (declared t x).size = k * t.ptr ∧ (declared t x).align = t.ptr := by
  obtain ⟨hs, ha, -⟩ := words_eq ht
  cases x <;> simp [ctypeWords] at h <;> subst h <;> simp [declared, words, hs, ha, Nat.mul_comm]

/-- C112: the feature `abi_stable` compiles with `experimental-ctypes` only: without it, implementations define a type that the trait does not have. -/
theorem C112_feature_refuted : (∀ x, definesCType true x = traitHasCType true) ∧ ∃ x, definesCType false x ≠ traitHasCType false :=
  ⟨fun x => by simp [definesCType, traitHasCType], .rvec, by decide⟩

/-- On 64-bit targets: a vector takes 32 bytes, a mutex of a byte 24, a duration 16 of which four are padding. -/
def x64 : Target := ⟨8, 2, 4, 8, 16, 8, 4, 8⟩
example : Usual x64 := ⟨by decide, rfl, rfl, by decide, fun _ => rfl⟩
example : (declared x64 .rvec).size = 32 ∧ (declared x64 (.rmutex (Lay.prim 1 1 .none .b0 false))).size = 24 ∧ (declared x64 .rduration).size = 16 ∧
    (declared x64 .rduration).ub = [(12, 255), (13, 255), (14, 255), (15, 255)] := by decide +kernel
/-- A box whose two words are not null is a value. -/
example : Value x64 .rbox (fun _ => 1) := by
  intro o f h
  simp [place, fields, alignUp, Fld.align, Fld.size, CType.primAlign, CType.primSize, x64] at h
  rcases h with ⟨rfl, rfl⟩ | ⟨rfl, rfl⟩ <;> exact ⟨0, by decide, by simp [Mem.at]⟩
example : (declared x64 .rbox).fv.Forbids (fun i => if i < 8 then 0 else 1) := by simp [declared, words, Platform.decl, Platform.sameAs, declNzUsize, declNz, x64, Lay.prim, nzHoles, Fv.Forbids]

end Verif.Props.Foreign
