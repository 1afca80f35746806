/-! Model of the guards of temporary conversions (stabby-abi/src/as_mut.rs).

A value is its bits (`data`) and the resources (heap blocks) it owns; copying the bits of a value with `ptr::read` gives a second value
that owns the same resources.  The world says which resources are live and what is in them.  `Into` implementations and what is done
through the guards are arbitrary functions on values and worlds. -/
namespace Verif.Guard

/-- A value of a type with bits in `D`. -/
structure Val (D : Type) where
  data : D
  owns : List Nat

/-- The resources that have been allocated and not freed, and their contents. -/
structure World where
  live : List Nat
  mem : Nat → Nat

/-- `Into::into`: consumes the value; `none` is a panic. -/
abbrev Conv (D E : Type) := Val D → World → Option (Val E) × World

/-- What can be done with a `&mut E` (or with a `&E` if there is interior mutability). -/
abbrev Mutation (E : Type) := Val E → World → Val E × World

/-- Dropping a value frees what it owns; freeing what is not live is undefined behaviour (`none`). -/
def drop {D : Type} (v : Val D) (w : World) : Option World :=
  if v.owns.all (fun r => decide (r ∈ w.live)) ∧ v.owns.Nodup then
    some { w with live := w.live.filter (fun r => decide (r ∉ v.owns)) }
  else none

/-- Reading a value needs that what it owns is live. -/
def usable {D : Type} (v : Val D) (w : World) : Prop := ∀ r ∈ v.owns, r ∈ w.live

/-- `guard_ref_inner` (as_mut.rs:69-74): the conversion of a copy of the bits; the source stays where it is.  The guard has no `Drop`
and its target is a `ManuallyDrop`, so that its end does nothing. -/
def refAs {D E : Type} (into : Conv D E) (source : Val D) (w : World) : Val D × Option (Val E) × World :=
  let r := into source w
  (source, r.1, r.2)

/-- `guard_mut_inner` (as_mut.rs:105-110): likewise. -/
def mutAs {D E : Type} (into : Conv D E) (source : Val D) (w : World) : Val D × Option (Val E) × World :=
  let r := into source w
  (source, r.1, r.2)

/-- `<MutAs as Drop>::drop` (as_mut.rs:94-98): the conversion of the target is written over the source, which is not dropped.  If the
conversion panics nothing is written. -/
def mutDrop {D E : Type} (back : Conv E D) (source : Val D) (target : Val E) (w : World) : Val D × World :=
  let r := back target w
  match r.1 with
  | some v => (v, r.2)
  | none => (source, r.2)

/-- A use of `ref_as`: the guard is made, things are done through it, and it ends.  The result is the source and the world; on a panic
of the conversion the source is as it was. -/
def withRef {D E : Type} (into : Conv D E) (uses : List (Mutation E)) (source : Val D) (w : World) : Val D × World :=
  match refAs into source w with
  | (source, none, w) => (source, w)
  | (source, some target, w) => (source, (uses.foldl (fun s f => f s.1 s.2) (target, w)).2)

/-- How a mutable guard ends. -/
inductive End where
  | drop
  | forget

/-- A use of `mut_as`. -/
def withMut {D E : Type} (into : Conv D E) (back : Conv E D) (uses : List (Mutation E)) (e : End) (source : Val D) (w : World) :
    Val D × World :=
  match mutAs into source w with
  | (source, none, w) => (source, w)
  | (source, some target, w) =>
    let s := uses.foldl (fun s f => f s.1 s.2) (target, w)
    match e with
    | .drop => mutDrop back source s.1 s.2
    | .forget => (source, s.2)

end Verif.Guard
