import Verif.Layout.Model

/-! The layouts declared for primitive types (stable_impls/mod.rs:40-52, 235-690, 830-930, 985-995), per target. -/
namespace Verif.Layout.Platform

/-- What differs between targets: the size of `usize` in bytes, and the alignments rustc gives to integers, pointers and floats. -/
structure Target where
  ptr : Nat
  a16 : Nat
  a32 : Nat
  a64 : Nat
  a128 : Nat
  aptr : Nat
  af32 : Nat
  af64 : Nat
deriving DecidableEq

inductive Width where
  | w8 | w16 | w32 | w64 | w128
deriving DecidableEq

def Width.bytes : Width → Nat
  | .w8 => 1
  | .w16 => 2
  | .w32 => 4
  | .w64 => 8
  | .w128 => 16

/-- The types with an implementation of `IStable` in stable_impls/mod.rs that are not generic in their layout. -/
inductive Prim where
  | unit | phantomData | phantomPinned | cVoid | bool | ordering
  | uint (w : Width) | nonZeroU (w : Width) | int (w : Width) | nonZeroI (w : Width)
  | usize | nonZeroUsize | isize | nonZeroIsize
  | f32 | f64
  | constPtr | mutPtr | nonNull | ref | refMut | fnPtr
  | atomicBool | atomicI (w : Width) | atomicU (w : Width) | atomicIsize | atomicUsize | atomicPtr
  | ownedFd | borrowedFd
deriving DecidableEq

/-- `align_of::<uN>()`. -/
def Target.alignU (t : Target) : Width → Nat
  | .w8 => 1
  | .w16 => t.a16
  | .w32 => t.a32
  | .w64 => t.a64
  | .w128 => t.a128

/-- `expr_to_type!` (mod.rs:40-52). -/
def exprToType (n : Nat) : Nat := if n = 8 then 8 else if n = 4 then 4 else if n = 2 then 2 else if n = 1 then 1 else 16

/-- `nz_holes!` of the bytes from `i` on (mod.rs:235-242). -/
def nzHoles (i : Nat) : Nat → Fv
  | 0 => .none
  | n + 1 => .byte i 0 (nzHoles (i + 1) n)

/-- `same_as!(t, name)` (mod.rs:19-29) with the two associated types that follow it. -/
def sameAs (t : Lay) (niche : Sat) (ind : Bool) : Lay := { t with oneNiche := niche, indirections := ind }

/-- `u8`, …, `u128` (mod.rs:299-417): some alignments are written down, others asked from rustc. -/
def declU (t : Target) : Width → Lay
  | .w8 => Lay.prim 1 1 .none .b0 false
  | .w16 => Lay.prim 2 2 .none .b0 false
  | .w32 => Lay.prim 4 4 .none .b0 false
  | .w64 => Lay.prim 8 (exprToType t.a64) .none .b0 false
  | .w128 => Lay.prim 16 (exprToType t.a128) .none .b0 false
/-- `NonZeroU8`, …, `NonZeroU128` (mod.rs:313-432). -/
def declNz (t : Target) : Width → Lay
  | .w8 => Lay.prim 1 1 (nzHoles 0 1) .b1 false
  | .w16 => Lay.prim 2 2 (nzHoles 0 2) .b1 false
  | .w32 => Lay.prim 4 4 (nzHoles 0 4) .b1 false
  | .w64 => Lay.prim 8 (exprToType t.a64) (nzHoles 0 8) .b1 false
  | .w128 => Lay.prim (exprToType 16) (exprToType t.a128) (nzHoles 0 16) .b1 false
/-- `usize` (mod.rs:435-445). -/
def declUsize (t : Target) : Lay := Lay.prim (exprToType t.ptr) (exprToType t.aptr) .none .b0 false
/-- `NonZeroUsize` (mod.rs:449-458), by `target_pointer_width`. -/
def declNzUsize (t : Target) : Lay :=
  if t.ptr = 8 then sameAs (declNz t .w64) .b1 false
  else if t.ptr = 4 then sameAs (declNz t .w32) .b1 false
  else sameAs (declNz t .w16) .b1 false
/-- `bool` (mod.rs:286-296). -/
def declBool : Lay := Lay.prim 1 1 (.range 2 255 0) .saturator false
/-- `AtomicI64` (mod.rs:606-616), whose alignment is asked from rustc (it is 8 on all targets); the other signed atomics (mod.rs:585-603). -/
def declAtomicI (t : Target) : Width → Lay
  | .w64 => Lay.prim 8 (exprToType 8) .none .b0 false
  | w => sameAs (sameAs (declU t w) .b0 false) .b0 false

def decl (t : Target) : Prim → Lay
  | .unit | .phantomData | .phantomPinned => Lay.prim 0 1 .none .b0 false -- mod.rs:244-277
  | .cVoid => sameAs (Lay.prim 0 1 .none .b0 false) .b0 false -- mod.rs:279-283
  | .bool => declBool
  | .ordering => Lay.prim 1 1 (.range 2 254 0) .b0 false -- mod.rs:985-995
  | .uint w => declU t w
  | .nonZeroU w => declNz t w
  | .int w => sameAs (declU t w) .b0 false -- mod.rs:462-519
  | .nonZeroI w => sameAs (declNz t w) .b1 false
  | .usize => declUsize t
  | .nonZeroUsize => declNzUsize t
  | .isize => sameAs (declUsize t) .b0 false -- mod.rs:521-525
  | .nonZeroIsize => sameAs (declNzUsize t) .b1 false
  | .f32 => sameAs (declU t .w32) .b0 false -- mod.rs:682-686
  | .f64 => sameAs (declU t .w64) .b0 false -- mod.rs:688-692
  | .constPtr | .mutPtr => sameAs (declUsize t) .b0 true -- mod.rs:554-564
  | .nonNull | .ref | .refMut | .fnPtr => sameAs (declNzUsize t) .b1 true -- mod.rs:566-570, 664-674, 846-905
  | .atomicPtr => sameAs (sameAs (declUsize t) .b0 true) .b0 true -- mod.rs:572-576
  | .atomicBool => sameAs declBool .saturator false -- mod.rs:578-582
  | .atomicI w => declAtomicI t w
  | .atomicU .w64 => sameAs (declAtomicI t .w64) .b0 false -- mod.rs:648-655
  | .atomicU w => sameAs (declU t w) .b0 false -- mod.rs:625-646
  | .atomicIsize => sameAs (sameAs (declUsize t) .b0 false) .b0 false -- mod.rs:618-622
  | .atomicUsize => sameAs (declUsize t) .b0 false -- mod.rs:658-662
  | .ownedFd | .borrowedFd => sameAs (sameAs (declU t .w32) .b0 false) .b0 true -- mod.rs:912-926; `c_int` is `i32` on unix

/-- The types `check!` is applied to (mod.rs:297-662). -/
def checked : List Prim :=
  [.bool, .uint .w8, .uint .w16, .uint .w32, .uint .w64, .uint .w128, .usize, .nonZeroUsize, .atomicBool, .atomicI .w8, .atomicI .w16,
   .atomicI .w32, .atomicI .w64, .atomicIsize, .atomicU .w8, .atomicU .w16, .atomicU .w32, .atomicU .w64, .atomicUsize]

end Verif.Layout.Platform
