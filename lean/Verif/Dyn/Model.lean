/-! Executable model of trait objects: vtables (`stabby-abi/src/vtable/mod.rs`), fat pointers (`stabby-abi/src/fatptr.rs`) and the
method calls that `#[stabby] trait` generates (`stabby-macros/src/traits.rs`).

Traits and types are numbered.  Memory is a function from addresses to function pointers; an address is the index of a word, since
all the fields of vtables are pointers. -/
namespace Verif.Dyn

/-- The type of a vtable, as built by `vtable!`/`dynptr!` from a list of bounds (stabby-macros/src/lib.rs:111-125, 226-229):
`VtDrop` (vtable/mod.rs:346-353), `VtSend<T>` (392-395), `VtSync<T>` (417-420), `VTable<Head, Tail>` (vtable/mod.rs:261-270) where
the head is the vtable of the trait `head`. -/
inductive Vt where
  | drop
  | send (t : Vt)
  | sync (t : Vt)
  | table (head : Nat) (tail : Vt)
  deriving DecidableEq, Repr

/-- A function pointer: the drop glue of a type (vtable/mod.rs:372-374), or its implementation of a method of a trait. -/
inductive Fn where
  | drop (ty : Nat)
  | method (ty trait i : Nat)
  deriving DecidableEq, Repr

/-- `IConstConstructor::VTABLE` for the type `ty`: the words of the vtable (vtable/mod.rs:278-295, 375-390, 410-415, 425-430;
traits.rs:721-741).  `VTable` is `repr(C)` with the tail before the head, `VtSend` and `VtSync` have a single field; the vtable of the
trait `t` has `arity t` function pointers.  Methods are numbered in the order of the fields (`&self` methods first, traits.rs:589-594). -/
def slots (arity : Nat → Nat) (ty : Nat) : Vt → List Fn
  | .drop => [.drop ty]
  | .send t => slots arity ty t
  | .sync t => slots arity ty t
  | .table h t => slots arity ty t ++ (List.range (arity h)).map (Fn.method ty h)

/-- The size of a vtable in words. -/
def size (arity : Nat → Nat) : Vt → Nat
  | .drop => 1
  | .send t => size arity t
  | .sync t => size arity t
  | .table h t => size arity t + arity h

/-- The type-level path of `TransitiveDeref` (vtable/mod.rs:247-255): `H` or `T<N>`. -/
inductive Path where
  | here
  | tail (p : Path)
  deriving DecidableEq, Repr

/-- `TransitiveDeref<_, Path>::tderef`: the trait found at the path, and where its vtable is, relative to the whole
(vtable/mod.rs:302-311, 399-403, 431-435).  `none`: the implementation does not exist. -/
def tderef (arity : Nat → Nat) : Vt → Path → Option (Nat × Nat)
  | .drop, _ => none
  | .send t, p => tderef arity t p
  | .sync t, p => tderef arity t p
  | .table h t, .here => some (h, size arity t)
  | .table _ t, .tail p => tderef arity t p

/-- `HasDropVt::drop_vt` (vtable/mod.rs:314-333): where the drop glue is, relative to the whole. -/
def dropVt : Vt → Nat
  | .drop => 0
  | .send t => dropVt t
  | .sync t => dropVt t
  | .table _ t => dropVt t

/-- The pointer kinds of trait objects: `Dyn<Box<()>>`, `Dyn<Arc<()>>`, `Dyn<Weak<()>>`, `Dyn<&mut ()>` and `DynRef`. -/
inductive Kind where
  | box | arc | weak | mutRef | sharedRef
  deriving DecidableEq, Repr

/-- A trait object (`Dyn` fatptr.rs:153-160, `DynRef` 96-103): its static type (`kind`, `vty`), the address of the variable that holds it,
and its fields.  The field `ptr` comes first, so that the address of the variable is also the address of its `ptr` field. -/
structure Obj where
  kind : Kind
  vty : Vt
  loc : Nat
  ptr : Nat
  vtable : Nat
  deriving DecidableEq, Repr

/-- `IPtr::as_ref` (fatptr.rs:53-62, alloc/boxed.rs:226-230, alloc/sync.rs:727-731).  For references, `transmute(self)` turns the `&&T`
into a reference: the result is the address of the pointer.  `Weak` does not implement `IPtr`. -/
def iptrRef (o : Obj) : Option Nat :=
  match o.kind with
  | .box => some o.ptr
  | .arc => some o.ptr
  | .weak => none
  | .mutRef => some o.loc
  | .sharedRef => some o.loc

/-- `IPtrMut::as_mut` (fatptr.rs:63-67, alloc/boxed.rs:231-235). -/
def iptrMut (o : Obj) : Option Nat :=
  match o.kind with
  | .box => some o.ptr
  | .mutRef => some o.loc
  | _ => none

/-- `IPtrTryAsMut::try_as_mut`, when the pointer is unique (fatptr.rs:35-39, alloc/sync.rs:738-742). -/
def iptrTryMut (o : Obj) : Option Nat :=
  match o.kind with
  | .arc => some o.ptr
  | _ => iptrMut o

/-- The receiver that a generated `&self` method passes to the function of the vtable: `self.ptr()` for `DynRef` (traits.rs:801, fatptr.rs:107-109),
`self.ptr().as_ref()` for `Dyn` (traits.rs:834). -/
def receiver (o : Obj) : Option Nat :=
  match o.kind with
  | .sharedRef => some o.ptr
  | _ => iptrRef o

/-- The receiver of a generated `&mut self` method: `self.ptr_mut().as_mut()` (traits.rs:885); `DynRef` has none. -/
def receiverMut (o : Obj) : Option Nat := iptrMut o

/-- A call of method `i` of the trait found at a path: the function called and its receiver (traits.rs:801, 834, 885); `mutable` says
whether the method takes `&mut self`.  `none`: does not compile, or the vtable is not readable. -/
def call (arity : Nat → Nat) (mem : Nat → Option Fn) (o : Obj) (p : Path) (mutable : Bool) (i : Nat) : Option (Fn × Nat) :=
  match tderef arity o.vty p with
  | none => none
  | some (t, off) =>
    if i < arity t then
      match mem (o.vtable + off + i), if mutable then receiverMut o else receiver o with
      | some f, some r => some (f, r)
      | _, _ => none
    else none

/-- The drop glue that dropping the trait object uses (fatptr.rs:354-360). -/
def dropGlue (mem : Nat → Option Fn) (o : Obj) : Option Fn := mem (o.vtable + dropVt o.vty)

/-- The address that a successful `downcast`, `stable_downcast` (`DynRef`, fatptr.rs:139-151), `downcast_ref`, `stable_downcast_ref`
(`Dyn`, 287-299) returns: `self.ptr.as_ref()`. -/
def downcastRef (o : Obj) : Option Nat := iptrRef o

/-- The address that a successful `downcast_mut` or `stable_downcast_mut` returns (fatptr.rs:320-334). -/
def downcastMut (o : Obj) : Option Nat := iptrMut o

/-- The implementations of `IntoSuperTrait` (fatptr.rs:161-199). -/
inductive Super : Vt → Vt → Prop where
  | head (h t) : Super (.table h t) t
  | send (t) : Super (.send t) t
  | sync (t) : Super (.sync t) t
  | syncSend (t) : Super (.sync (.send t)) t
  | sendSync (t) : Super (.send (.sync t)) t
  | syncSend_sync (t) : Super (.sync (.send t)) (.sync t)
  | sendSync_send (t) : Super (.send (.sync t)) (.send t)
  | send_head (h t) : Super (.send (.table h t)) t
  | sync_head (h t) : Super (.sync (.table h t)) t
  | syncSend_head (h t) : Super (.sync (.send (.table h t))) t
  | sendSync_head (h t) : Super (.send (.sync (.table h t))) t
  | send_keep (h t) : Super (.send (.table h t)) (.send t)
  | sync_keep (h t) : Super (.sync (.table h t)) (.sync t)
  | syncSend_keep (h t) : Super (.sync (.send (.table h t))) (.sync (.send t))
  | sendSync_keep (h t) : Super (.send (.sync (.table h t))) (.send (.sync t))

/-- One conversion of a trait object into another.  `loc'` is where the result is put. -/
inductive Conv : Obj → Obj → Prop where
  /-- Moving the trait object. -/
  | move (o loc') : Conv o { o with loc := loc' }
  /-- `into_super` (fatptr.rs:166-184): the bytes of the trait object are reinterpreted. -/
  | super (o loc' v) : Super o.vty v → Conv o { o with loc := loc', vty := v }
  /-- `Dyn::as_ref` (fatptr.rs:226-232). -/
  | asRef (o loc' r) : o.kind ≠ .sharedRef → iptrRef o = some r → Conv o { o with kind := .sharedRef, loc := loc', ptr := r }
  /-- `Dyn::as_mut` (fatptr.rs:234-243). -/
  | asMut (o loc' r) : iptrMut o = some r → Conv o { o with kind := .mutRef, loc := loc', ptr := r }
  /-- `Dyn::try_as_mut` (fatptr.rs:245-254), when it succeeds. -/
  | tryAsMut (o loc' r) : iptrTryMut o = some r → Conv o { o with kind := .mutRef, loc := loc', ptr := r }
  /-- `Clone for Dyn` (fatptr.rs:201-209) and `Copy` of `DynRef`. -/
  | clone (o loc') : o.kind = .arc ∨ o.kind = .weak ∨ o.kind = .sharedRef → Conv o { o with loc := loc' }
  /-- `From<&Dyn<Arc>> for Dyn<Weak>` (alloc/sync.rs:805-815). -/
  | downgrade (o loc') : o.kind = .arc → Conv o { o with kind := .weak, loc := loc' }
  /-- `Dyn<Weak>::upgrade` (alloc/sync.rs:816-842), when it succeeds. -/
  | upgrade (o loc') : o.kind = .weak → Conv o { o with kind := .arc, loc := loc' }

/-- Any number of conversions. -/
inductive Convs : Obj → Obj → Prop where
  | refl (o) : Convs o o
  | step (a b c) : Convs a b → Conv b c → Convs a c

/-! ### `Send` and `Sync` -/

/-- What is known of a type: whether it is `Send` and whether it is `Sync`. -/
structure Auto where
  send : Bool
  sync : Bool
  deriving DecidableEq, Repr

/-- Whether `Vt: IConstConstructor<T>`, as far as the markers are concerned: `VtSend` requires `T: Send` (vtable/mod.rs:410),
`VtSync` requires `T: Sync` (vtable/mod.rs:425). -/
def constructs (t : Auto) : Vt → Bool
  | .drop => true
  | .send v => t.send && constructs t v
  | .sync v => t.sync && constructs t v
  | .table _ v => constructs t v

/-- `HasSyncVt` (vtable/mod.rs:341-344). -/
def hasSync : Vt → Bool
  | .drop => false
  | .sync _ => true
  | .send v => hasSync v
  | .table _ v => hasSync v

/-- `HasSendVt` (vtable/mod.rs:336-339). -/
def hasSend : Vt → Bool
  | .drop => false
  | .send _ => true
  | .sync v => hasSend v
  | .table _ v => hasSync v

/-- `Send for Dyn` and `Send for DynRef` (fatptr.rs:375, 380).  The pointers `Box<()>`, `Arc<()>`, `Weak<()>`, `&mut ()` are `Send`
because `()` and the allocator are (alloc/boxed.rs:28-33, alloc/sync.rs:36-39, 320-323). -/
def isSend (o : Obj) : Bool := hasSend o.vty

/-- `Sync for Dyn` and `Sync for DynRef` (fatptr.rs:377, 382). -/
def isSync (o : Obj) : Bool := hasSync o.vty

end Verif.Dyn
