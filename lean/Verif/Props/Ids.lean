import Verif.Report.Arch
import Verif.Layout.CType
import Verif.Props.Platform
/-! C104: identifiers of types tell architectures apart. -/
namespace Verif.Props.Ids
open Verif.Report Verif.Layout Verif.Layout.Platform Verif.Layout.CType
open Verif.Props.Platform (x64 i686)

/-- Sizes and alignments that fit a byte, as those of all targets do. -/
def Small (a : Arch) : Prop := a.target.ptr < 256 ∧ a.target.aptr < 256 ∧ a.target.a128 < 256

/-- What the documentation says identifiers depend on (report.rs:167-168). -/
def SameArch (a b : Arch) : Prop :=
  a.target.ptr = b.target.ptr ∧ a.target.aptr = b.target.aptr ∧ a.target.a128 = b.target.a128 ∧ a.bigEndian = b.bigEndian

theorem xor_eq_iff {n : Nat} (x y z w : BitVec n) : x ^^^ y = z ^^^ w ↔ x ^^^ z = y ^^^ w := by
  constructor
  · intro h
    have h1 : x = z ^^^ w ^^^ y := by rw [← h, BitVec.xor_assoc, BitVec.xor_self, BitVec.xor_zero]
    rw [h1, BitVec.xor_comm, ← BitVec.xor_assoc, ← BitVec.xor_assoc, BitVec.xor_self, BitVec.zero_xor, BitVec.xor_comm]
  · intro h
    have h1 : x = y ^^^ w ^^^ z := by rw [← h, BitVec.xor_assoc, BitVec.xor_self, BitVec.xor_zero]
    rw [h1, BitVec.xor_comm, ← BitVec.xor_assoc, ← BitVec.xor_assoc, BitVec.xor_self, BitVec.zero_xor, BitVec.xor_comm]

theorem leBytes_lt : ∀ l : List Nat, (∀ x ∈ l, x < 256) → leBytes l < 256 ^ l.length
  | [], _ => by simp [leBytes]
  | x :: l, h => by
    have h1 := leBytes_lt l (fun y hy => h y (by simp [hy]))
    have h2 := h x (by simp)
    simp only [leBytes, List.length_cons, Nat.pow_succ]
    omega

theorem leBytes_inj : ∀ l l' : List Nat, l.length = l'.length → (∀ x ∈ l, x < 256) → (∀ x ∈ l', x < 256) → leBytes l = leBytes l' → l = l'
  | [], [], _, _, _, _ => rfl
  | x :: l, y :: l', hl, h, h', he => by
    have h1 := h x (by simp)
    have h2 := h' y (by simp)
    simp only [leBytes] at he
    have hx : x = y := by omega
    have hr : leBytes l = leBytes l' := by omega
    rw [hx, leBytes_inj l l' (by simpa using hl) (fun z hz => h z (by simp [hz])) (fun z hz => h' z (by simp [hz])) hr]

theorem info_bytes (a : Arch) : ∀ x ∈ a.info, x < 256 := by
  intro x hx
  simp only [Arch.info, List.mem_cons, List.not_mem_nil, or_false] at hx
  omega

/-- The numbers made of `ARCH_INFO` are the same exactly if the architectures are. -/
theorem info_iff (a b : Arch) (ha : Small a) (hb : Small b) :
    BitVec.ofNat 64 (leBytes a.info) = BitVec.ofNat 64 (leBytes b.info) ↔ SameArch a b := by
  unfold Small at ha hb
  unfold SameArch
  have h1 := leBytes_lt a.info (info_bytes a)
  have h2 := leBytes_lt b.info (info_bytes b)
  simp only [show a.info.length = 8 from rfl, show b.info.length = 8 from rfl] at h1 h2
  rw [← BitVec.toNat_inj, BitVec.toNat_ofNat, BitVec.toNat_ofNat, Nat.mod_eq_of_lt (by omega), Nat.mod_eq_of_lt (by omega)]
  constructor
  · intro h
    have := leBytes_inj a.info b.info rfl (info_bytes a) (info_bytes b) h
    simp only [Arch.info, List.cons.injEq, Arch.probe] at this
    have he : a.bigEndian = b.bigEndian := by
      have := this.2.2.2.2.2.2.1
      revert this
      cases a.bigEndian <;> cases b.bigEndian <;> simp
    exact ⟨by omega, by omega, by omega, he⟩
  · rintro ⟨e1, e2, e3, e4⟩
    simp [Arch.info, Arch.probe, e1, e2, e3, e4]

/-- A type has the same identifier on two architectures exactly if pointers have the same size and alignment, `u128` has the same
alignment, and the order of bytes is the same: whatever the hash. -/
theorem C104_iff (sha : List Nat → BitVec 64) (a b : Arch) (ha : Small a) (hb : Small b) (r : Report) :
    idOn sha a r = idOn sha b r ↔ SameArch a b := by
  rw [← info_iff a b ha hb]
  unfold idOn genId
  rw [xor_eq_iff, BitVec.xor_self]
  constructor
  · intro h
    have := (xor_eq_iff (BitVec.ofNat 64 (leBytes a.info)) (BitVec.ofNat 64 (leBytes b.info)) 0#64 0#64).1 (by
      rw [← h, BitVec.xor_self])
    simpa using this
  · intro h; rw [h, BitVec.xor_self]

/-- Two reports have the same identifier, each on its architecture, exactly if their hashes differ by what the architectures differ by;
on one architecture this is when the hashes are the same. -/
theorem C104_reports (sha : List Nat → BitVec 64) (a b : Arch) (r r' : Report) :
    (idOn sha a r = idOn sha b r' ↔
      sha (stream r) ^^^ sha (stream r') = BitVec.ofNat 64 (leBytes a.info) ^^^ BitVec.ofNat 64 (leBytes b.info)) ∧
    (idOn sha a r = idOn sha a r' ↔ sha (stream r) = sha (stream r')) := by
  unfold idOn genId
  refine ⟨xor_eq_iff _ _ _ _, ?_⟩
  constructor
  · intro h
    have := congrArg (· ^^^ BitVec.ofNat 64 (leBytes a.info)) h
    simpa [BitVec.xor_assoc] using this
  · intro h; rw [h]

/-- Targets that align integers and floats to their size, up to 64 bits. -/
def Natural (t : Target) : Prop := t.a16 = 2 ∧ t.a32 = 4 ∧ t.a64 = 8 ∧ t.af32 = 4 ∧ t.af64 = 8

/-- If integers and floats are aligned to their size, types with the same identifier have the same layout on both architectures, and so
have all types they are made of. -/
theorem C104_layout_partial (sha : List Nat → BitVec 64) (a b : Arch) (ha : Small a) (hb : Small b) (na : Natural a.target)
    (nb : Natural b.target) (r : Report) (h : idOn sha a r = idOn sha b r) (t : CType.Ty) (p : Prim) :
    lay a.target t = lay b.target t ∧ decl a.target p = decl b.target p ∧ a.bigEndian = b.bigEndian := by
  obtain ⟨h1, h2, h3, h4⟩ := (C104_iff sha a b ha hb r).1 h
  have : a.target = b.target := by
    obtain ⟨⟨q1, q2, q3, q4, q5, q6, q7, q8⟩, qe⟩ := a
    obtain ⟨⟨w1, w2, w3, w4, w5, w6, w7, w8⟩, we⟩ := b
    simp only [Natural] at na nb h1 h2 h3
    simp only [Target.mk.injEq]
    omega
  rw [this]
  exact ⟨rfl, rfl, h4⟩

/-- 64-bit ARM, little and big endian, and x86-64 with the old alignment of `u128`: three different identifiers. -/
example (sha : List Nat → BitVec 64) (r : Report) : let old : Target := { x64 with a128 := 8 }
    Small ⟨x64, false⟩ ∧ Small ⟨x64, true⟩ ∧ Small ⟨old, false⟩ ∧ Natural x64 ∧ Natural old ∧
    idOn sha ⟨x64, false⟩ r ≠ idOn sha ⟨x64, true⟩ r ∧ idOn sha ⟨x64, false⟩ r ≠ idOn sha ⟨old, false⟩ r := by
  refine ⟨by simp [Small, x64], by simp [Small, x64], by simp [Small, x64], by simp [Natural, x64], by simp [Natural, x64], ?_, ?_⟩
  · rw [ne_eq, C104_iff _ _ _ (by simp [Small, x64]) (by simp [Small, x64])]; simp [SameArch]
  · rw [ne_eq, C104_iff _ _ _ (by simp [Small, x64]) (by simp [Small, x64])]; simp [SameArch, x64]

/-- `ARCH_INFO` on x86-64 and on 64-bit big-endian architectures. -/
example : (Arch.mk x64 false).info = [0, 8, 8, 8, 8, 16, 0, 0] ∧ (Arch.mk x64 true).info = [0, 8, 8, 8, 8, 16, 1, 0] := by decide

/-- `i686-pc-windows-msvc`, where `u64` and `f64` are aligned to 8; on Linux they are aligned to 4. -/
def i686Windows : Target := { i686 with a64 := 8, af64 := 8 }

/-- The alignment of 64-bit numbers isn't part of identifiers: each type has the same one on Linux and on Windows for `i686`, though a struct
of an `u8` and an `u64` has 12 bytes on the former and 16 on the latter. -/
theorem C104_alignment_refuted (sha : List Nat → BitVec 64) (r : Report) :
    idOn sha ⟨i686, false⟩ r = idOn sha ⟨i686Windows, false⟩ r ∧
    lay i686 (.struct [.prim (.uint .w8), .prim (.uint .w64)]) = (12, 4) ∧
    lay i686Windows (.struct [.prim (.uint .w8), .prim (.uint .w64)]) = (16, 8) :=
  ⟨rfl, by decide, by decide⟩

end Verif.Props.Ids
