/-! Lifetimes of trait objects (stabby-abi/src/fatptr.rs).

A lifetime is the time at which it ends.  A type is its declaration with the lifetimes it is given, to each of which a value of the type holds a borrow that it hands out;
the report and the id of a type tell its declaration only (C77).  The compiler accepts an operation if the lifetimes meet the bounds that are written in the code. -/
namespace Verif.Dyn.Lifetime

structure Ty where
  decl : Nat
  lts : List Nat
deriving DecidableEq

/-- `T: 'a`. -/
def Ty.outlives (t : Ty) (a : Nat) : Bool := t.lts.all fun l => a ≤ l

/-- `Dyn<'a, Box<()>, _>`, `Dyn<'a, Arc<()>, _>`, `Dyn<'a, &'b mut (), _>` (fatptr.rs:155-159), `DynRef<'a, _>` (99-103). -/
inductive Kind where
  | box | arc | mut (b : Nat) | ref
deriving DecidableEq

/-- A trait object: its type, and the type of the value that it was made of, which its own type does not tell. -/
structure Obj where
  kind : Kind
  lt : Nat
  content : Ty
deriving DecidableEq

/-- What a downcast gives: a reference for `b` to a value of the type that was asked for. -/
structure Ref where
  b : Nat
  asked : Ty
  content : Ty
deriving DecidableEq

/-- A borrow that the program copied out of a value: for how long its type says, and for how long it is. -/
structure Borrow where
  typed : Nat
  real : Nat
deriving DecidableEq

structure St where
  now : Nat
  objs : List Obj
  refs : List Ref
  borrows : List Borrow
deriving DecidableEq

def St.init : St := ⟨0, [], [], []⟩

inductive Op where
  /-- time passes -/
  | tick
  /-- `Dyn::from(Box::new(value))` and so on, `DynRef::from(&value)`, used for `a` -/
  | make (k : Kind) (t : Ty) (a : Nat)
  /-- by subtyping -/
  | shorten (i : Nat) (a : Nat)
  /-- `as_ref` and `as_mut` of the `i`th object, borrowed for `b` -/
  | asRef (i : Nat) (b : Nat)
  | asMut (i : Nat) (b : Nat)
  /-- `into_super` -/
  | intoSuper (i : Nat)
  | clone (i : Nat)
  /-- `stable_downcast`, `stable_downcast_ref` and `stable_downcast_mut` of the `i`th object, borrowed for `b` -/
  | downcast (i : Nat) (asked : Ty) (b : Nat)
  /-- copies the `j`th borrow out of the value behind the `i`th reference -/
  | copy (i j : Nat)
deriving DecidableEq

/-- The lifetime that the pointer itself has. -/
def Kind.own (a : Nat) : Kind → Nat
  | .mut b => b
  | _ => a

/-- What the program does next; `none`: the compiler rejects it.  Nothing is used after its lifetime, and lifetimes that are over are not borrowed for. -/
def step (s : St) : Op → Option St
  | .tick => some { s with now := s.now + 1 }
  -- `P: IntoDyn + 'a` (fatptr.rs:337-344): the pointer outlives `'a`, so its target does; `From<&'a T>` (362): `T: 'a`; the value exists, so its borrows are not over
  | .make k t a =>
    if s.now < a ∧ t.outlives a = true ∧ a ≤ k.own a then some { s with objs := ⟨k, a, t⟩ :: s.objs } else none
  | .shorten i a =>
    match s.objs[i]? with
    | some o => if s.now < o.lt ∧ a ≤ o.lt then some { s with objs := { o with lt := a } :: s.objs.eraseIdx i } else none
    | none => none
  -- `fn as_ref(&self) -> DynRef<'_, Vt>` (fatptr.rs:226-232): `&'b Dyn<'a, ..>` is a type only if `'a: 'b`
  | .asRef i b =>
    match s.objs[i]? with
    | some o => if s.now < b ∧ b ≤ o.lt ∧ o.kind ≠ .ref then some { s with objs := s.objs ++ [⟨.ref, b, o.content⟩] } else none
    | none => none
  -- `fn as_mut(&mut self) -> Dyn<&mut (), Vt>` (fatptr.rs:234-243); not for `Arc` (`IPtrMut`)
  | .asMut i b =>
    match s.objs[i]? with
    | some o =>
      if s.now < b ∧ b ≤ o.lt ∧ o.kind ≠ .arc ∧ o.kind ≠ .ref then some { s with objs := s.objs ++ [⟨.mut b, b, o.content⟩] } else none
    | none => none
  -- fatptr.rs:166-184: both have the same `'a` and `P`
  | .intoSuper i =>
    match s.objs[i]? with
    | some o => if s.now < o.lt then some { s with objs := o :: s.objs.eraseIdx i } else none
    | none => none
  -- fatptr.rs:201-209, and `DynRef: Copy` (98)
  | .clone i =>
    match s.objs[i]? with
    | some o => if s.now < o.lt ∧ (o.kind = .arc ∨ o.kind = .ref) then some { s with objs := s.objs ++ [o] } else none
    | none => none
  -- fatptr.rs:146-151, 294-299, 328-334: `T: IStable`, and `Vt: IConstConstructor<'a, T>`, which asks nothing of the lifetimes of `T` (traits.rs:720-731)
  | .downcast i asked b =>
    match s.objs[i]? with
    | some o =>
      if s.now < b ∧ b ≤ o.lt ∧ asked.outlives b = true then
        if asked.decl = o.content.decl ∧ asked.lts.length = o.content.lts.length then some { s with refs := ⟨b, asked, o.content⟩ :: s.refs }
        else some s
      else none
    | none => none
  | .copy i j =>
    match s.refs[i]? with
    | some r =>
      match r.asked.lts[j]?, r.content.lts[j]? with
      | some t, some c => if s.now < r.b then some { s with borrows := ⟨t, c⟩ :: s.borrows } else none
      | _, _ => none
    | none => none

def run (s : St) : List Op → Option St
  | [] => some s
  | op :: ops => (step s op).bind fun s => run s ops

end Verif.Dyn.Lifetime
