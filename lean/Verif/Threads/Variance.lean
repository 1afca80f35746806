/-! Subtyping of stabby's types.  The compiler infers the variance of a struct's parameters from its fields, so that structs are subtypes
of each other exactly when their fields are; here a struct is its name and its fields.  Lifetimes are numbers: the greater outlives the
lesser.  Fields without parameters (lengths, vtables) are left out, higher-ranked types are not modelled. -/
namespace Verif.Variance

inductive Ty where
  /-- a type without lifetimes -/
  | leaf (i : Nat)
  /-- core's types -/
  | nonNull (t : Ty) | atomicPtr (t : Ty) | ref (l : Nat) (t : Ty) | refMut (l : Nat) (t : Ty) | phantom (t : Ty)
  | manuallyDrop (t : Ty) | unsafeCell (t : Ty)
  /-- a function pointer -/
  | fn (arg ret : Ty)
  /-- an associated type of the parameter -/
  | proj (t : Ty)
  | pair (a b : Ty)
  | struct (name : String) (fields : Ty)

/-- The compiler's subtyping: `sub a b` says that an `a` may be used as a `b` without a conversion. -/
inductive Sub : Ty → Ty → Prop where
  | leaf (i) : Sub (.leaf i) (.leaf i)
  | nonNull {t u} : Sub t u → Sub (.nonNull t) (.nonNull u)
  | atomicPtr (t) : Sub (.atomicPtr t) (.atomicPtr t)
  | ref {l l' t u} : l' ≤ l → Sub t u → Sub (.ref l t) (.ref l' u)
  | refMut {l l' t} : l' ≤ l → Sub (.refMut l t) (.refMut l' t)
  | phantom {t u} : Sub t u → Sub (.phantom t) (.phantom u)
  | manuallyDrop {t u} : Sub t u → Sub (.manuallyDrop t) (.manuallyDrop u)
  | unsafeCell (t) : Sub (.unsafeCell t) (.unsafeCell t)
  | fn {a b r r'} : Sub b a → Sub r r' → Sub (.fn a r) (.fn b r')
  | proj (t) : Sub (.proj t) (.proj t)
  | pair {a b c d} : Sub a c → Sub b d → Sub (.pair a b) (.pair c d)
  | struct {n t u} : Sub t u → Sub (.struct n t) (.struct n u)

/-- `()` -/
def unit : Ty := .leaf 0
/-- alloc/mod.rs:259-264 -/
def allocPtr (t a : Ty) : Ty := .struct "AllocPtr" (.pair (.nonNull t) (.phantom a))
/-- alloc/mod.rs:403-408 -/
def allocSlice (t a : Ty) : Ty := .struct "AllocSlice" (.pair (allocPtr t a) (.nonNull t))
/-- alloc/boxed.rs:26-28 -/
def box (t a : Ty) : Ty := .struct "Box" (allocPtr t a)
/-- alloc/boxed.rs:278-281 -/
def boxedSlice (t a : Ty) : Ty := .struct "BoxedSlice" (.pair (allocSlice t a) a)
/-- alloc/vec.rs:24-29, 45-47 -/
def vec (t a : Ty) : Ty := .struct "Vec" (.struct "VecInner" (.pair (allocPtr t a) (.pair (.nonNull t) (.pair (.nonNull t) a))))
/-- alloc/vec.rs:647-650 -/
def intoIter (t a : Ty) : Ty := .struct "IntoIter" (vec t a)
/-- alloc/vec.rs:676-682 -/
def drain (l : Nat) (t a : Ty) : Ty := .struct "Drain" (.refMut l (vec t a))
/-- alloc/sync.rs:33-35 -/
def arc (t a : Ty) : Ty := .struct "Arc" (allocPtr t a)
/-- alloc/sync.rs:402-404 -/
def arcSlice (t a : Ty) : Ty := .struct "ArcSlice" (allocSlice t a)
/-- alloc/sync.rs:832-835; `*const Alloc` is covariant like `NonNull`. -/
def atomicArc (t a : Ty) : Ty := .struct "AtomicArc" (.pair (.atomicPtr t) (.phantom (.nonNull a)))
/-- slice.rs:22-29 -/
def slice (l : Nat) (t : Ty) : Ty := .struct "Slice" (.pair (.nonNull t) (.phantom (.ref l unit)))
/-- slice.rs:117-124 -/
def sliceMut (l : Nat) (t : Ty) : Ty := .struct "SliceMut" (.pair (.nonNull t) (.phantom (.refMut l unit)))
/-- str.rs:24-26, 84-86 -/
def str (l : Nat) : Ty := .struct "Str" (slice l unit)
def strMut (l : Nat) : Ty := .struct "StrMut" (sliceMut l unit)
/-- result.rs:30-36: the parameters occur in associated types only -/
def result (a b : Ty) : Ty := .struct "Result" (.pair (.proj a) (.proj b))
/-- result.rs:483-489, 525-531 -/
def okGuard (l : Nat) (a b : Ty) : Ty := .struct "OkGuard" (.refMut l (result a b))
def errGuard (l : Nat) (a b : Ty) : Ty := .struct "ErrGuard" (.refMut l (result a b))
/-- as_mut.rs:53-56, 80-83 -/
def refAs (l : Nat) (t as : Ty) : Ty := .struct "RefAs" (.pair (.phantom (.ref l t)) (.manuallyDrop as))
def mutAs (l : Nat) (t as : Ty) : Ty := .struct "MutAs" (.pair (.refMut l t) (.manuallyDrop as))
/-- fatptr.rs:155-159; the vtable is `'static` -/
def dyn (l : Nat) (p : Ty) : Ty := .struct "Dyn" (.pair (.manuallyDrop p) (.phantom (.ref l p)))
/-- fatptr.rs:99-103 -/
def dynRef (l : Nat) (vt : Ty) : Ty := .struct "DynRef" (.pair (.ref l unit) (.ref l vt))
/-- stabby/src/libloading.rs:52-55 -/
def symbol (l : Nat) (t : Ty) : Ty := .struct "Symbol" (.pair t (.phantom (.ref l unit)))

/-- alloc/sync.rs:317-319, 645-647 -/
def weak (t a : Ty) : Ty := .struct "Weak" (allocPtr t a)
def weakSlice (t a : Ty) : Ty := .struct "WeakSlice" (allocSlice t a)
/-- alloc/string.rs:12-14, 148-150, 242-244, 276-278 -/
def string (a : Ty) : Ty := .struct "String" (vec unit a)
def arcStr (a : Ty) : Ty := .struct "ArcStr" (arcSlice unit a)
def weakStr (a : Ty) : Ty := .struct "WeakStr" (weakSlice unit a)
def boxedStr (a : Ty) : Ty := .struct "BoxedStr" (boxedSlice unit a)
/-- alloc/vec.rs:742-749 -/
def doubleEndedDrain (l : Nat) (t a : Ty) : Ty := .struct "DoubleEndedDrain" (.refMut l (vec t a))
/-- alloc/single_or_vec.rs:8-11, 20-27 -/
def single (t a : Ty) : Ty := .struct "Single" (.pair t a)
def singleOrVec (t a : Ty) : Ty := .struct "SingleOrVec" (result (single t a) (vec t a))
/-- alloc/single_or_vec.rs:275-284; core's `Result` is its two variants, `[T]` is its elements. -/
def sliceGuardMut (l : Nat) (t a : Ty) : Ty := .struct "SliceGuardMut" (.pair (okGuard l (single t a) (vec t a)) (.refMut l t))
/-- alloc/single_or_vec.rs:460-470 -/
def iterMut (l : Nat) (t a : Ty) : Ty := .struct "IterMut" (sliceGuardMut l t a)
/-- alloc/collections/arc_btree.rs:428-446, 507-515: the nodes hold values and nodes.  The variance of types that contain themselves is the least
that agrees with the other fields, so nodes in nodes are left out. -/
def node (t a : Ty) : Ty := .struct "ArcBTreeSetNodeInner" (.struct "ArcBTreeSetEntry" (.pair t (.phantom a)))
/-- alloc/collections/arc_btree.rs:156-166; `MaybeUninit` is covariant like `ManuallyDrop`. -/
def btreeSet (t a : Ty) : Ty := .struct "ArcBTreeSet" (.pair (.struct "ArcBTreeSetNode" (arc (node t a) a)) (.manuallyDrop a))
/-- alloc/collections/arc_btree.rs:79-82, 115-117, with some allocator -/
def btreeMap (k v : Ty) : Ty := .struct "ArcBTreeMap" (btreeSet (.struct "Entry" (.pair k v)) unit)
/-- alloc/collections/arc_btree.rs:9-11 -/
def atomicBTreeSet (t : Ty) : Ty := .struct "AtomicArcBTreeSet" (.atomicPtr (node t unit))
/-- option.rs:24-26 -/
def option (t : Ty) : Ty := .struct "Option" (result t unit)
/-- stabby/src/allocs/borrow.rs:26-32, 57-60: enums are made of `Result`, and `Owned` is an associated type. -/
def cow (l : Nat) (t : Ty) : Ty := .struct "Cow" (result (.ref l t) (.proj t))
def cowStr (l : Nat) : Ty := .struct "CowStr" (result (str l) (string unit))
/-- future.rs:324-335, an enum -/
def maybeResolved (t f : Ty) : Ty := .struct "MaybeResolved" (result t (result unit f))
/-- lib.rs:173-176 -/
def stableLike (t as : Ty) : Ty := .struct "StableLike" (.pair t (.phantom as))
/-- future.rs:80-84, 121-126; the waker of `&Waker` has no parameters. -/
def stableWaker (l : Nat) (a : Ty) : Ty := .struct "StableWaker" (.pair (stableLike (.ref l unit) (.ref l unit))
  (.pair (.fn (stableLike (.ref l unit) (.ref l unit)) (.struct "SharedStableWaker" (arc unit a))) (stableLike unit (.ref l unit))))
/-- checked_import.rs:21-25, 52-59 -/
def canariedImport (f : Ty) : Ty := .struct "CanariedImport" f
def checkedImport (f : Ty) : Ty := .struct "CheckedImport" (.pair (.unsafeCell (.manuallyDrop f)) (.fn unit f))

/-- The constructors: references and stabby's types. -/
inductive Con where
  | ref | refMut | box | boxedSlice | vec | intoIter | drain | arc | arcSlice | atomicArc | slice | sliceMut | str | strMut | result | okGuard
  | errGuard | refAs | mutAs | dyn | dynRef | symbol | weak | weakSlice | string | arcStr | weakStr | boxedStr | doubleEndedDrain | singleOrVec | sliceGuardMut
  | iterMut | btreeSet | btreeMap | atomicBTreeSet | option | cow | cowStr | maybeResolved | stableLike | stableWaker | canariedImport | checkedImport
deriving DecidableEq

/-- A constructor applied to a lifetime and two types; those it does not have are ignored. -/
def Con.ty (l : Nat) (t a : Ty) : Con → Ty
  | .ref => .ref l t
  | .refMut => .refMut l t
  | .box => Variance.box t a
  | .boxedSlice => Variance.boxedSlice t a
  | .vec => Variance.vec t a
  | .intoIter => Variance.intoIter t a
  | .drain => Variance.drain l t a
  | .arc => Variance.arc t a
  | .arcSlice => Variance.arcSlice t a
  | .atomicArc => Variance.atomicArc t a
  | .slice => Variance.slice l t
  | .sliceMut => Variance.sliceMut l t
  | .str => Variance.str l
  | .strMut => Variance.strMut l
  | .result => Variance.result t a
  | .okGuard => Variance.okGuard l t a
  | .errGuard => Variance.errGuard l t a
  | .refAs => Variance.refAs l t a
  | .mutAs => Variance.mutAs l t a
  | .dyn => Variance.dyn l t
  | .dynRef => Variance.dynRef l t
  | .symbol => Variance.symbol l t
  | .weak => Variance.weak t a
  | .weakSlice => Variance.weakSlice t a
  | .string => Variance.string a
  | .arcStr => Variance.arcStr a
  | .weakStr => Variance.weakStr a
  | .boxedStr => Variance.boxedStr a
  | .doubleEndedDrain => Variance.doubleEndedDrain l t a
  | .singleOrVec => Variance.singleOrVec t a
  | .sliceGuardMut => Variance.sliceGuardMut l t a
  | .iterMut => Variance.iterMut l t a
  | .btreeSet => Variance.btreeSet t a
  | .btreeMap => Variance.btreeMap t a
  | .atomicBTreeSet => Variance.atomicBTreeSet t
  | .option => Variance.option t
  | .cow => Variance.cow l t
  | .cowStr => Variance.cowStr l
  | .maybeResolved => Variance.maybeResolved t a
  | .stableLike => Variance.stableLike t a
  | .stableWaker => Variance.stableWaker l a
  | .canariedImport => Variance.canariedImport t
  | .checkedImport => Variance.checkedImport t

/-- The types of the values that are read through the API, which includes the allocators that free what is dropped. -/
def Con.reads (t a : Ty) : Con → List Ty
  | .str | .strMut | .cowStr => []
  | .weak | .weakSlice | .doubleEndedDrain | .singleOrVec | .btreeSet => [t, a]
  | .string | .arcStr | .weakStr | .boxedStr | .stableWaker => [a] -- a clone of the waker is freed by its allocator (future.rs:88-110)
  | .btreeMap | .maybeResolved => [t, a] -- arc_btree.rs:132, future.rs:337-371
  | .box | .boxedSlice | .vec | .intoIter | .drain | .arc | .arcSlice | .atomicArc => [t, a] -- alloc/mod.rs:396-398, sync.rs:392-393
  | .result => [t, a] -- result.rs:347
  | .errGuard | .refAs | .mutAs => [a] -- result.rs:533, as_mut.rs:57, 84
  | _ => [t]

/-- The types of the values that are stored through the API where somebody else reads them later: the lender of a mutable borrow, or
other holders of an atomic. -/
def Con.writes (t a : Ty) : Con → List Ty
  | .refMut => [t]
  | .sliceMut => [t] -- slice.rs:135
  | .atomicArc => [t, a] -- sync.rs:878, 909; with each value comes the allocator that will free it
  | .okGuard => [t] -- result.rs:500
  | .errGuard => [a] -- result.rs:543
  | .mutAs => [t] -- as_mut.rs:97
  | .sliceGuardMut | .iterMut => [t] -- single_or_vec.rs:300-311, 478-495
  | .atomicBTreeSet => [t] -- arc_btree.rs:34-55
  | _ => []

/-- Does the type borrow for its lifetime? -/
def Con.borrows : Con → Bool
  | .ref | .refMut | .drain | .slice | .sliceMut | .str | .strMut | .okGuard | .errGuard | .refAs | .mutAs | .dyn | .dynRef | .symbol
  | .doubleEndedDrain | .sliceGuardMut | .iterMut | .cow | .cowStr | .stableWaker => true
  | _ => false

end Verif.Variance
