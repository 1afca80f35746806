/-! Which of stabby's types are `Send` and `Sync`.  A type without an implementation of its own gets the traits that all of its fields have
(auto traits); `ty.send`, `ty.sync` are what the compiler computes.  Types of users are leaves with arbitrary traits. -/
namespace Verif.Threads

inductive Ty where
  /-- a type defined by a user -/
  | leaf (i : Nat)
  /-- `&T`, `&mut T`, a pair (a struct of two fields; `()` is a leaf) -/
  | ref (t : Ty) | refMut (t : Ty) | pair (a b : Ty)
  /-- alloc/boxed.rs:26, 278 -/
  | box (t a : Ty) | boxedSlice (t a : Ty)
  /-- alloc/vec.rs:45, 647, 676 and 742 -/
  | vec (t a : Ty) | intoIter (t a : Ty) | drain (t a : Ty)
  /-- alloc/sync.rs:33, 317, 402, 645, 832 -/
  | arc (t a : Ty) | weak (t a : Ty) | arcSlice (t a : Ty) | weakSlice (t a : Ty) | atomicArc (t a : Ty)
  /-- alloc/collections/arc_btree.rs:156, 9 -/
  | btreeSet (t a : Ty) | atomicBTreeSet (t : Ty)
  /-- slice.rs:22, 117 -/
  | slice (t : Ty) | sliceMut (t : Ty)
  /-- result.rs:30; `Option` (option.rs:23) and `repr(stabby)` enums (stabby-macros/src/enums.rs:542-545) are structs around it -/
  | result (ok err : Ty)
  /-- result.rs:483 and 525 -/
  | okGuard (ok err : Ty) | errGuard (ok err : Ty)
  /-- alloc/single_or_vec.rs:20 -/
  | singleOrVec (t a : Ty)
  /-- lib.rs:173 -/
  | stableLike (t as : Ty)
  /-- as_mut.rs:53, 80 -/
  | refAs (t as : Ty) | mutAs (t as : Ty)
  /-- checked_import.rs:47, 22 -/
  | checkedImport (f : Ty) | canariedImport (f : Ty)
  /-- stabby/src/libloading.rs:52 -/
  | symbol (t : Ty)
  /-- future.rs:121, and a core `Waker` made by cloning in `with_waker` (future.rs:80-109, 128-144): a handle of an `Arc` of a waker -/
  | stableWaker (a : Ty) | waker (a : Ty)

/-- The traits of the leaves: is it `Send`, is it `Sync`. -/
structure Env where
  send : Nat → Bool
  sync : Nat → Bool

mutual
/-- `T: Send`. -/
def Ty.send (e : Env) : Ty → Bool
  | .leaf i => e.send i
  | .ref t => t.sync e -- core
  | .refMut t => t.send e -- core
  | .pair a b => a.send e && b.send e
  | .box t a => t.send e && a.send e -- boxed.rs:30
  | .boxedSlice t a => t.send e && a.send e -- boxed.rs:34
  | .vec t a => t.send e && a.send e && (t.send e && a.send e) -- vec.rs:31-34, the second pair is `BoxedSlice: Send`
  | .intoIter t a => t.send e && a.send e && (t.send e && a.send e) -- field `vec: Vec<T, Alloc>`
  | .drain t a => t.send e && a.send e && (t.send e && a.send e) -- field `vec: &mut Vec<T, Alloc>`
  | .arc t a => t.send e && t.sync e && (a.send e && a.sync e) -- sync.rs:37
  | .weak t a => t.send e && t.sync e && (a.send e && a.sync e) -- sync.rs:321
  | .arcSlice t a => t.send e && t.sync e && (a.send e && a.sync e) -- sync.rs:406
  | .weakSlice t a => t.send e && t.sync e && (a.send e && a.sync e) -- sync.rs:410
  | .atomicArc t a => t.send e && t.sync e && (a.send e && a.sync e) -- sync.rs:837
  -- The fields are an `Option` of an `Arc` of nodes (entries of `T` and nodes again, assumed while checked) and a `MaybeUninit<Alloc>`
  -- (arc_btree.rs:163-165, 433-446, 513-514).
  | .btreeSet t a => (t.send e && t.sync e && (a.send e && a.sync e)) && a.send e
  | .atomicBTreeSet _ => true -- field `AtomicPtr<_>` (arc_btree.rs:10), which is `Send` for every pointee
  | .slice t => t.sync e -- slice.rs:31
  | .sliceMut t => t.send e -- slice.rs:126
  | .result _ _ => true -- field `storage`, an array of integers (result.rs:35, 90)
  | .okGuard _ _ => true -- field `inner: &mut Result` (result.rs:488)
  | .errGuard _ _ => true -- result.rs:530
  | .singleOrVec _ _ => true -- field `inner: Result` (single_or_vec.rs:26)
  | .stableLike t as => t.send e && as.send e -- fields `T`, `PhantomData<As>`
  | .refAs t as => t.sync e && as.send e -- fields `PhantomData<&T>`, `ManuallyDrop<As>`
  | .mutAs t as => t.send e && as.send e -- fields `&mut T`, `ManuallyDrop<As>`
  | .checkedImport _ => true -- checked_import.rs:61
  | .canariedImport _ => true -- checked_import.rs:27
  | .symbol t => t.send e
  | .stableWaker _ => true -- fields `&Waker` and function pointers
  | .waker _ => true -- core
/-- `T: Sync`. -/
def Ty.sync (e : Env) : Ty → Bool
  | .leaf i => e.sync i
  | .ref t => t.sync e -- core
  | .refMut t => t.sync e -- core
  | .pair a b => a.sync e && b.sync e
  | .box t _ => t.sync e -- boxed.rs:32
  | .boxedSlice t _ => t.sync e -- boxed.rs:36
  | .vec t a => t.sync e && a.sync e && t.sync e -- vec.rs:36-39
  | .intoIter t a => t.sync e && a.sync e && t.sync e
  | .drain t a => t.sync e && a.sync e && t.sync e
  | .arc t a => t.send e && t.sync e && (a.send e && a.sync e) -- sync.rs:39
  | .weak t a => t.send e && t.sync e && (a.send e && a.sync e) -- sync.rs:323
  | .arcSlice t a => t.send e && t.sync e && (a.send e && a.sync e) -- sync.rs:408
  | .weakSlice t a => t.send e && t.sync e && (a.send e && a.sync e) -- sync.rs:412
  | .atomicArc t a => t.send e && t.sync e && (a.send e && a.sync e) -- sync.rs:839
  | .btreeSet t a => (t.send e && t.sync e && (a.send e && a.sync e)) && a.sync e
  | .atomicBTreeSet _ => true
  | .slice t => t.sync e -- slice.rs:33
  | .sliceMut t => t.sync e -- slice.rs:128
  | .result _ _ => true
  | .okGuard _ _ => true
  | .errGuard _ _ => true
  | .singleOrVec _ _ => true
  | .stableLike t as => t.sync e && as.sync e
  | .refAs t as => t.sync e && as.sync e
  | .mutAs t as => t.sync e && as.sync e
  | .checkedImport _ => true -- checked_import.rs:63
  | .canariedImport _ => true -- checked_import.rs:29
  | .symbol t => t.sync e
  | .stableWaker _ => true
  | .waker _ => true
end

/-- How a thread may use something it was given: it owns it (or has exclusive access), or it shares it with other threads. -/
inductive Mode where
  | own | share
deriving DecidableEq

/-- What safe code reaches from a value that another thread gave it, in one call.  Owning something does not count as sharing it: no
other thread has access then. -/
inductive Step : Mode × Ty → Mode × Ty → Prop where
  | ref (m t) : Step (m, .ref t) (.share, t)
  | refMut (m t) : Step (m, .refMut t) (m, t)
  | pairL (m a b) : Step (m, .pair a b) (m, a)
  | pairR (m a b) : Step (m, .pair a b) (m, b)
  /-- `into_inner`, `Deref`, `DerefMut` (boxed.rs:168, 214-225) -/
  | box (m t a) : Step (m, .box t a) (m, t)
  /-- dropping the box frees with its allocator (boxed.rs:198-203) -/
  | boxAlloc (t a) : Step (.own, .box t a) (.own, a)
  /-- `clone` clones the allocator (boxed.rs:206-213) -/
  | boxClone (t a) : Step (.share, .box t a) (.share, a)
  /-- `Deref`, `DerefMut`, `into_iter` (boxed.rs:346-357, 481-500) -/
  | boxedSlice (m t a) : Step (m, .boxedSlice t a) (m, t)
  /-- boxed.rs:438-446 -/
  | boxedSliceAlloc (t a) : Step (.own, .boxedSlice t a) (.own, a)
  | vec (m t a) : Step (m, .vec t a) (m, t)
  /-- growth and `Clone` (vec.rs:454-462) use the allocator -/
  | vecAlloc (m t a) : Step (m, .vec t a) (m, a)
  /-- `next` (vec.rs:653) -/
  | intoIter (t a) : Step (.own, .intoIter t a) (.own, t)
  | intoIterAlloc (t a) : Step (.own, .intoIter t a) (.own, a)
  | drain (t a) : Step (.own, .drain t a) (.own, t)
  /-- `Deref`, with clones left to other threads (sync.rs:308) -/
  | arc (m t a) : Step (m, .arc t a) (.share, t)
  /-- the last handle: `into_inner`, `get_mut`, `drop` (sync.rs:194, 287) -/
  | arcOwn (t a) : Step (.own, .arc t a) (.own, t)
  | arcAlloc (t a) : Step (.own, .arc t a) (.own, a)
  /-- `Arc::allocator` (sync.rs:276) -/
  | arcAllocator (m t a) : Step (m, .arc t a) (.share, a)
  /-- `clone` (sync.rs:300) -/
  | arcClone (t a) : Step (.share, .arc t a) (.own, .arc t a)
  /-- `upgrade` (sync.rs:358), `clone` and the release of the block by the last handle (sync.rs:374-394) -/
  | weak (m t a) : Step (m, .weak t a) (.own, .arc t a)
  | weakAlloc (t a) : Step (.own, .weak t a) (.own, a)
  | arcSlice (m t a) : Step (m, .arcSlice t a) (.share, t)
  | arcSliceOwn (t a) : Step (.own, .arcSlice t a) (.own, t)
  | arcSliceAlloc (t a) : Step (.own, .arcSlice t a) (.own, a)
  | arcSliceClone (t a) : Step (.share, .arcSlice t a) (.own, .arcSlice t a)
  | weakSlice (m t a) : Step (m, .weakSlice t a) (.own, .arcSlice t a)
  /-- `load` (sync.rs:867) -/
  | atomicArc (m t a) : Step (m, .atomicArc t a) (.own, .arc t a)
  /-- `get`, `iter` through nodes shared with clones -/
  | btreeSet (m t a) : Step (m, .btreeSet t a) (.share, t)
  | btreeSetOwn (t a) : Step (.own, .btreeSet t a) (.own, t)
  | btreeSetAlloc (m t a) : Step (m, .btreeSet t a) (m, a)
  | btreeSetClone (t a) : Step (.share, .btreeSet t a) (.own, .btreeSet t a)
  /-- `edit`, `get` (arc_btree.rs:33-75) -/
  | atomicBTreeSet (m t) : Step (m, .atomicBTreeSet t) (.share, t)
  | atomicBTreeSetOwn (m t) : Step (m, .atomicBTreeSet t) (.own, t)
  /-- `as_slice` (slice.rs:50) -/
  | slice (m t) : Step (m, .slice t) (.share, t)
  /-- `Deref`, `DerefMut` (slice.rs:129-139) -/
  | sliceMut (m t) : Step (m, .sliceMut t) (m, t)
  /-- `match_owned`, `match_ref` (result.rs:347, 272) -/
  | resultOk (m a b) : Step (m, .result a b) (m, a)
  | resultErr (m a b) : Step (m, .result a b) (m, b)
  /-- `Deref`, `DerefMut` (result.rs:490-508, 533-551) -/
  | okGuard (m a b) : Step (m, .okGuard a b) (m, a)
  | errGuard (m a b) : Step (m, .errGuard a b) (m, b)
  /-- `as_slice`, `into_iter` (single_or_vec.rs:247, 435) -/
  | singleOrVec (m t a) : Step (m, .singleOrVec t a) (m, t)
  | singleOrVecAlloc (m t a) : Step (m, .singleOrVec t a) (m, a)
  | stableLike (m t as) : Step (m, .stableLike t as) (m, t)
  /-- `Deref` (as_mut.rs:57); any number of guards have the same bits (`guard_ref`, as_mut.rs:63-75) -/
  | refAs (m t as) : Step (m, .refAs t as) (.share, as)
  | mutAs (m t as) : Step (m, .mutAs t as) (m, as)
  /-- `drop` writes to the source (as_mut.rs:95-99) -/
  | mutAsOwn (t as) : Step (.own, .mutAs t as) (.own, t)
  /-- `Deref` (checked_import.rs:139-157, 40) -/
  | checkedImport (m f) : Step (m, .checkedImport f) (.share, f)
  | canariedImport (m f) : Step (m, .canariedImport f) (.share, f)
  | canariedImportOwn (f) : Step (.own, .canariedImport f) (.own, f)
  /-- `Deref` -/
  | symbol (m t) : Step (m, .symbol t) (m, t)
  /-- `with_waker(|w| w.clone())` (future.rs:128-144, 151-163) -/
  | stableWaker (m a) : Step (m, .stableWaker a) (.own, .waker a)
  /-- `clone` and `drop`: the last handle frees with the allocator in the block (future.rs:82-92) -/
  | wakerClone (m a) : Step (m, .waker a) (.own, .waker a)
  | waker (a) : Step (.own, .waker a) (.own, a)

/-- What safe code reaches in any number of calls. -/
inductive Reach : Mode × Ty → Mode × Ty → Prop where
  | refl (x) : Reach x x
  | step {x y z} : Step x y → Reach y z → Reach x z

end Verif.Threads
