import Verif.Dyn.Model
/-! Executable model of the equality of vtables (`stabby-abi/src/vtable/mod.rs`), of their registry, and of the downcasts that are based on it
(`stabby-abi/src/fatptr.rs`).

Memory is a function from addresses to words; functions have addresses (`code`), which the linker may make equal for different functions. -/
namespace Verif.Dyn.Equality
open Verif.Dyn

/-- `a == b` for two vtables of type `Vt` at the addresses `a` and `b`.  `VTable`: the derived comparison of `tail`, then `head` (vtable/mod.rs:260-270);
`VtSend`, `VtSync`: the derived comparison of the only field (392-395, 417-420); the vtable of a trait: its function pointers are compared
(traits.rs:702-706); `VtDrop`: `as_ref_unchecked` gives a reference to the field, which is compared as a pointer (vtable/mod.rs:364-371). -/
def vtEq (arity : Nat → Nat) (mem : Nat → Option Nat) : Vt → Nat → Nat → Bool
  | .drop, a, b => a == b
  | .send t, a, b => vtEq arity mem t a b
  | .sync t, a, b => vtEq arity mem t a b
  | .table h t, a, b =>
    vtEq arity mem t a b && (List.range (arity h)).all (fun i => mem (a + size arity t + i) == mem (b + size arity t + i))

/-- The words that hashing a vtable feeds to the hasher: `VtDrop` hashes the function pointer (vtable/mod.rs:359-363), the vtable of a trait its
function pointers (traits.rs:707-711), the others their fields in order. -/
def vtHash (arity : Nat → Nat) (mem : Nat → Option Nat) : Vt → Nat → List (Option Nat)
  | .drop, a => [mem a]
  | .send t, a => vtHash arity mem t a
  | .sync t, a => vtHash arity mem t a
  | .table h t, a => vtHash arity mem t a ++ (List.range (arity h)).map (fun i => mem (a + size arity t + i))

/-- The words of `Vt::VTABLE` for a type. -/
def words (arity : Nat → Nat) (code : Fn → Nat) (ty : Nat) (vt : Vt) : List Nat := (slots arity ty vt).map code

/-- A registry of vtables: contents and address (see `Verif.Swap.Registry`). -/
abbrev Reg := List (List Nat × Nat)

/-- `VTableRegistry::insert` (vtable/mod.rs:104-160, 165-204), without concurrent calls: the address of the vtable with the same contents, or of a new one,
for which the allocator chose the address `fresh`. -/
def intern (r : Reg) (ws : List Nat) (fresh : Nat) : Nat × Reg :=
  match r.lookup ws with
  | some a => (a, r)
  | none => (fresh, (ws, fresh) :: r)

/-- What is in memory, as far as the registry goes. -/
def memOf (r : Reg) (a : Nat) : Option Nat := (r.findSome? fun e => if e.2 ≤ a then e.1[a - e.2]? else none)

/-- A trait object, as far as downcasts go: the type and the vtable type it was made with, its current vtable type, and the address of its vtable. -/
structure TObj where
  ty : Nat
  made : Vt
  vty : Vt
  vtable : Nat
  deriving DecidableEq, Repr

/-- `Dyn::from`, `DynRef::from` (fatptr.rs:336-352, 361-371): `vtable: Vt::vtable()`. -/
def make (arity : Nat → Nat) (code : Fn → Nat) (r : Reg) (ty : Nat) (vt : Vt) (fresh : Nat) : TObj × Reg :=
  (⟨ty, vt, vt, (intern r (words arity code ty vt) fresh).1⟩, (intern r (words arity code ty vt) fresh).2)

/-- `into_super` (fatptr.rs:167-182): the fields are copied. -/
def toSuper (o : TObj) (vt : Vt) : TObj := { o with vty := vt }

/-- `downcast::<T>`, `downcast_ref::<T>`, `downcast_mut::<T>` (fatptr.rs:139-144, 287-292, 320-326): whether `self.vtable == Vt::vtable()`. -/
def downcast (arity : Nat → Nat) (code : Fn → Nat) (r : Reg) (o : TObj) (ty fresh : Nat) : Bool × Reg :=
  let (a, r) := intern r (words arity code ty o.vty) fresh
  (vtEq arity (memOf r) o.vty o.vtable a, r)

/-- The states of a program within one shared object: its registry and the trait objects that it holds, which may have been made elsewhere. -/
inductive Reach (arity : Nat → Nat) (code : Fn → Nat) : Reg → List TObj → Prop where
  | empty : Reach arity code [] []
  | make {r os} (ty vt fresh) : Reach arity code r os → (∀ e ∈ r, e.2 ≠ fresh) →
      Reach arity code (make arity code r ty vt fresh).2 ((make arity code r ty vt fresh).1 :: os)
  | toSuper {r os o vt} : Reach arity code r os → o ∈ os → Super o.vty vt → Reach arity code r (toSuper o vt :: os)
  | downcast {r os o} (ty fresh) : Reach arity code r os → o ∈ os → (∀ e ∈ r, e.2 ≠ fresh) →
      Reach arity code (downcast arity code r o ty fresh).2 os

end Verif.Dyn.Equality
