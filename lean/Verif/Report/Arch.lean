import Verif.Report.Model
import Verif.Layout.Platform
/-! Model of the part of `ID` that depends on the architecture (stabby-abi/src/report.rs:153-173). -/
namespace Verif.Report
open Verif.Layout.Platform (Target)

/-- What a program is compiled for: the sizes and alignments of `Target`, and the order of the bytes of integers.  References have the
size and the alignment of `usize`. -/
structure Arch where
  target : Target
  bigEndian : Bool

/-- `transmute::<[u8; 2], u16>([0, 1])` (report.rs:160-161). -/
def Arch.probe (a : Arch) : Nat := if a.bigEndian then 0 * 256 + 1 else 0 + 1 * 256

/-- `ARCH_INFO` (report.rs:153-163); `as u8` keeps the low byte. -/
def Arch.info (a : Arch) : List Nat :=
  [0, a.target.ptr % 256, a.target.aptr % 256, a.target.ptr % 256, a.target.aptr % 256, a.target.a128 % 256, a.probe % 256, 0]

/-- `u64::from_le_bytes`, on which the order of the bytes of the architecture has no influence. -/
def leBytes : List Nat → Nat
  | [] => 0
  | b :: bs => b + 256 * leBytes bs

/-- `ID` (report.rs:169-173, lib.rs:64): `sha` gives the first 8 bytes of the hash as a number. -/
def idOn (sha : List Nat → BitVec 64) (a : Arch) (r : Report) : BitVec 64 := genId sha (BitVec.ofNat 64 (leBytes a.info)) r

end Verif.Report
