# Formal model of stabby: design

## Shape of the development

`lean/Verif/<Area>/Model.lean` holds the executable model (every definition cites file and lines of /repo),
`lean/Verif/<Area>/Lemmas.lean` the helper lemmas, `lean/Verif/Props/<Area>.lean` the property theorems with their
own small specifications and a concrete non-trivial instance beside each. Theorems are named after the property
(`C09_...`). A theorem proving only part of a property ends in `_partial`; a theorem proving that the code violates
a property (or the excluded part of it) ends in `_refuted` and comes with a concrete witness.

## Trusted base

* Lean 4.33.0's kernel. No axioms of our own; each property theorem depends on at most `propext`,
  `Classical.choice`, `Quot.sound` (checked with Lean's axiom printer on every theorem named in MANIFEST.json).
* Faithfulness of the reading: the model is hand-written from the Rust text, the code was not run.
* rustc's trait resolution: the type-level programs are modelled as functions on inductive data
  (a type-level natural is a list of bits, `End`/`Array`/`Or` are lists/trees). Coherence and the fact that the
  trait solver reaches the same normal form are assumed.
* Concurrency: unless stated otherwise an execution is an interleaving of the individual atomic operations
  (sequential consistency). `Relaxed` orderings are modelled separately (C26, C40) by a happens-before relation
  derived from the orderings written in the source.
* 64-bit target (`usize` = 64 bits, pointers 8 bytes, 8-aligned) where a concrete width matters.

## Checks that the model is the code's

Beside the citations: `Verif/Props/RepoTests.lean` evaluates in the model the assertions of the repository's own tests (layouts and niches of
tests/layouts.rs, sizes and round trips of tests/enums.rs, the operators on type-level numbers of typenum2/unsigned.rs, the integers of num.rs, the
histories of the tests of arc_btree.rs, vec.rs and single_or_vec.rs).  The kernel computes them; all hold.

## Plan per property

| id | what is modelled | how it is proved |
|----|------------------|------------------|
| C01 | `UTerm`/`UInt`/`Saturator` as an inductive type, every operator as the recursion written in unsigned.rs | value function into Nat, induction on both operands |
| C02 | canonical-form predicate | induction |
| C03 | padding/array types as (size, align, mask) triples built by the same recursion | induction on the bits |
| C04 | FieldPair/Struct as functions on (size, align) | refinement to an independent fold over C layout |
| C05,C06 | universe of types with byte-image semantics | induction over the universe |
| C07 | Union | direct |
| C08 | enum layouts (tag+union) vs. compiler layout of repr(u8) and repr(C,u8) | direct + refutation witness for repr(u8) |
| C09-C13 | determinant search of enums/*.rs, Ok/Err/guards of result.rs over byte images | induction over the universe, mutual with C05/C06 |
| C14 | recursion/map/map_with_finalizer as functions on lists | induction on the number of variants |
| C15-C18 | Vec as (buffer with uninitialised cells, len, capacity) | refinement to List over op histories |
| C19,C21 | BoxedSlice / String over the Vec model | refinement |
| C20 | SingleOrVec over the Result model | refinement when no niche is used; refutation with niche |
| C22-C25 | Arc/Weak as a transition system with one transition per atomic op | inductive invariant over all interleavings; refutation traces |
| C26 | happens-before of the atomics | refutation witness; positive theorem for the parts that do synchronise |
| C27,C31,C32 | CAS loops | inductive invariants; refutation traces |
| C28-C30 | B-tree nodes as written (entries array, greater) | induction, refinement to sorted list |
| C29 | heap of reference-counted nodes with make_mut | frame lemma |
| C33-C35 | num.rs over BitVec/Int at arbitrary width | arithmetic |
| C36,C37 | time.rs over Nat/Int with the u32/i64 bounds explicit | arithmetic |
| C38,C39 | reports as rose trees | induction, refutation witnesses |
| C40 | state machine per thread | inductive invariant |
| C41 | refcounted waker heap | inductive invariant over histories |
| C42 | vtables as lists of function words, fat pointers with their location | a super-trait vtable is a prefix of the vtable; invariant over conversions |
| C43 | the `HasSendVt`/`HasSyncVt`/`IConstConstructor` implementations against the rules of `std` | induction over vtable types; four refutations |
| C44 | address received by methods and returned by downcasts | invariant over conversions; refutations for references |
| C45 | ids and reports of downcasts over the report model | induction over reports |
| C46 | blocks, bytes and headers; programs of AllocPtr operations | invariant over all programs and allocator answers; refutations for over-aligned elements and overflow |
| C47 | `Layout` functions with wrap-around | arithmetic against the least-multiple specification |
| C48 | `RustAlloc`, `LibcAlloc`, default `realloc` over arbitrary underlying allocators | invariant over all programs; refutations |
| C49 | token trees, parser state machine, resolution of types | simulation of the parser on expressions; converse by cases over pieces; induction over trees for values |
| C50 | strings, bit sets, symbol names | induction over strings and bits; refutations |
| C51 | resources owned by bits, arbitrary conversions | frame property of fair functions; refutations |
| C52 | ownership ledgers | direct / induction |
| C53 | number of spare values of the scalars of a type, with core's option and result | induction over the universe; refutations for leaves, wrappers and enums |
| C54 | `is_invalid` over byte images | induction over forbidden-value types; refutation for byte lists |
| C55 | ledger of values and the reference counts of the B-tree heap | invariant "counters are exact" over histories; ascending chains of nodes end at a variable |
| C56 | `ContainsIndirections` over a universe of types, with the real content of each leaf as a ghost | induction over types; refutation by `VtDrop` |
| C57 | `poll` of `MaybeResolved` over byte images, with the guards of `match_mut` | simulation of a three-state machine for types whose guards write nothing; general refutations for the others |
| C58 | symbols of exports, lookup, check of reports of function types | induction over argument lists: compatibility of signatures is compatibility type by type; refutations |
| C59 | the compiler's computation of `Send`/`Sync` over a universe of types; what the API reaches as a relation | preservation along one call, induction over calls; converse by induction over types; refutations |
| C60 | structs as fields, the compiler's subtyping | inversion of subtyping per constructor; exact table of variances; refutations for `SliceMut` and for allocators of `AtomicArc` |
| C61 | runs as logs plus a value or unwinding, over the memory model of C05 | simulation: related payloads give related logs and values |
| C62 | `Vec/Unwind.lean`: the operations of `Vec` with drop glue that may unwind or abort, ledger of elements and blocks | per-operation ledger lemmas, induction over the history |
| C63 | `Layout/Platform.lean`: the declared layout of each primitive type as a function of the target | case analysis from the compiled assertions; zero bytes against zero value |
| C64 | `Layout/Optimal.lean`: `has_optimal_layout` and the assertions on it | any placement of disjoint fields has at least the sum of their sizes; decreasing alignment needs no inner padding; height of the variant tree; size with `repr(u8)` in closed form, and no node next to a payload without niches is as small as it (`EnumOptimal.lean`) |
| C65 | `Macros/Traits.lean`: `SelfDependentTypes`, `unselfed`, `replace_self`, description of traits, fields of the vtable | mutual induction on types: instantiating `unselfed` gives `replace_self`; the collected types are those of the signatures, without duplicates |
| C66 | `Macros/Traits.lean`: `stability_cond`, `Ty::eq`, `elide_lifetime`, `StableIf` | `Ty::eq` of `unselfed t` and `t` is a syntactic predicate on `t`; the condition holds iff all types that satisfy it are stable |
| C67 | `Alloc/Box.lean`: blocks, boxes, trait objects, closures, unwinding | invariant: each handle has its own initialised block; counts of values and allocator handles are conserved, with values in transit |
| C68 | `Dyn/Equality.lean`: comparison and hash of vtables, registry, downcasts | induction on the type of the vtable: equality is equality of addresses; invariant of the registry: contents and addresses are in bijection |
| C69 | `Slice/Model.lean`: slices as address and length, memory of elements | elements of a range one by one; counterexamples for empty slices and public fields |
| C70 | `Serde/Model.lean`: serde's data model, formats as parameters, `Serialize` and `Deserialize` of all types | induction on the type: reading back succeeds exactly if the format lends what is read |
| C71 | `Vec/Zst.lean`: addresses of `start`, `end`, `capacity` for zero-sized elements | invariant `end = start + length`; refutations by computing `usize::MAX - start` |
| C72 | `Macros/Functions.lean`: what the macros expand functions to, the rules of Rust on it | characterise what is accepted; refutations by the characterisation |
| C73 | `Sync/Publish.lean`: one atomic with its modification order, views of threads (stale loads, release and acquire) | invariant: views are closed under pointers, messages are published with what they point to |
| C74 | `BTree/Unwind.lean`: one insertion with any number of calls succeeding before one fails | mutual inductions over trees and their entries: elements, shape, ledger of values, what is left of the calls |
| C75 | `Layout/Attr.lean`: the parser of `repr` attributes, what is emitted, what is computed, against rustc's rules | exact characterisation (iff) of the attributes under which all compiled layouts agree with the computed one; witnesses |
| C76 | `Layout/CType.lean`: `CType` of all kinds of types, `lay` and `data` (size, alignment, bytes in use) by the rules of C | structural induction over nested types; arrays of integers by induction on the digits of their length; witnesses |
| C77 | `Report/Generic.lean`: types with type, lifetime and const parameters and `Self`; their reports; what they are (`unfold`) | a parameter that shows can be read off the report (induction on where it shows); across programs: strong induction on the depth, substitution lemma, `Self` paths; witnesses |
| C78 | `Dyn/Owner.lean`: heap of values with counts, variables that are objects or plain pointers | invariants of steps: counts (by counting variables under append, set, modify), matching vtables, destructors; witnesses |
| C79 | `Future/Pinned.lean`: futures with places, owned by variables or by objects | invariant: events of a future are at its place, none if it is not boxed; induction on runs; witnesses |
| C80 | `Time/Convert.lean`: binary64 numbers, rounding to 53 bits; std's points in time | rounding moves by at most half of the last bit; case split on the exponent of the fraction; linear arithmetic; C36 and C37 |
| C81 | `Compare/Model.lean`: `==`, `partial_cmp`, `cmp` and calls to hashers for all kinds of containers, strings, entries, reports | one lemma per operation of core's slices; lexicographic order of lists; parsing the calls back for reports |
| C82 | `Sync/Force.lean`: interleavings of the atomic accesses of `ArcSlice` and `WeakSlice` with `force_upgrade` | invariant that ties both counters to handles and calls in flight; two traces for the refutations |
| C83 | `Macros/Written.lean`: syn's types, the conversion to `Ty`, the tokens written for `Ty` | a parser for Rust's grammar of types, round trip by mutual induction on types |
| C84 | `Import/Expand.lean`: arguments, expansion, resolution of names in modules | equivalences for the expansion by induction on the block; resolution by cases; refutations for all blocks that meet the condition |
| C85 | `Macros/DynPtr.lean`: tokens, syn's grammar of types as far as reached, both macros | what is printed is parsed back by induction on lists of bounds and paths; Rust's meaning of trait object types as a separate function |
| C86 | `Macros/Options.lean`: tokens, the loops of `Args::parse`, `u32::from_str`, attributes of functions | Rust's integer literals and printed lists of options as a separate grammar; the loop is a fold over printed options, by induction |
| C87 | `Macros/Bounds.lean`: bounds of associated types, emitted tokens of where clauses, generic parameters with bounds and defaults | Rust's grammar of where clauses as a separate reader; what is emitted is read back by induction; a lifetime followed by a type is never read |
| C88 | `Macros/Methods.lean`: qualifiers, receivers, lifetimes of methods and of function pointers | Rust's elision for methods and for function pointers as two functions; they agree wherever the second is defined; induction over the parameters for where it is |
| C89 | `Fmt/Model.lean`: the loops that write, over any writer; `Debug` of nodes over the heap of trees; `io::Write` over the model of vectors | writers as state with success; induction over the elements; a separate reader splits at colons; `Debug` against `visit` by induction on fuel |
| C90 | `Macros/Generics.lean`: tokens of the heads of the items and implementations that are generated | Rust's grammar of parameters, arguments and predicates as a reader on tokens, with its rules for order, defaults and arguments; reading what is printed gives it back |
| C91 | `Alloc/Handles.lean`: blocks, containers and allocators as tokens; 25 operations | Invariant: a block has one owner, or the counters of its prefix are the numbers of its handles; tokens are counted over all places |
| C92 | `Typenum/Failure.lean`: the numbers of `Typenum/Model.lean` with `Saturator` | Equality of all operations with those of the model without; induction over the other operand |
| C93 | `Layout/Includes.lean`: `Includes`, `IncludesComputer`, `Arrayify` on masks | Induction over the subset; a missing implementation is `none` |
| C94 | `Sum/Model.lean` (`search`, `withUnit`) | `Tells` says in terms of bits and bytes what a niche is; induction over the budget of the search shows that the first such place is taken |
| C95 | `Sum/Cell.lean`: types with cells, what a `&` allows to write, which bytes `is_ok` reads | the bytes read are forbidden values or unused bits of the payload, along the search for niches; induction over types shows that cells without niches are listed by no type around them |
| C96 | `Sum/Forget.lean`, `Vec/Forget.lean`: writes through guards without the `drop` that restores the tag; drains without theirs | each kind of niche is told apart by bytes that are unused in the payload, or by the payload not being forbidden (`result_tell`); the length is lowered before the drain is made |
| C97 | `Sum/Pass.lean`: the blanket implementations of `Iterator` and `IMap`, the conversions at both ends | a logical relation between the iterator over memory and one over values, kept by each boundary; a map holds the values of a function, each in a place of its own |
| C98 | `Sum/Cow.lean`: the two enums and the methods of `Cow` | C12 for the condition, C14 and C61 for the methods |
| C99 | `Vec/SovMut.lean`: writes and drops of the guard on the bytes of the container, replacing an element | the general criterion of C96 (`C96_ok_iff`) for the result that a `SingleOrVec` is; C10 for writes under the guard |
| C100 | `Build/Names.lean`: the texts written by the build script | reading a formatted numeral gives the number back; parsing of the type expressions; names of different forms or numbers differ |
| C101 | `Build/Cfg.lean`: predicates of `cfg`, the versions of the items, the errors of the compiler | what is compiled depends on twelve options, the channel and the version, which leaves finitely many cases for all sets of options |
| C102 | `Sync/Own.lean`: blocks with counters, handles counted by kind, values as tokens, unwinding user code | invariant of each address (counters against handles) and of the places of values, kept by every operation |
| C103 | `Report/Text.lean`: `Display` of reports as bytes, iterators over fields, message of `get_stabbied` | text followed by anything can be split in one way (mutual induction on reports and fields) |
| C104 | `Report/Arch.lean`: `ARCH_INFO` per target | bytes are determined by their number; exclusive or can be cancelled |
| C105 | `Report/Named.lean`: types with names, reports, declared layouts and what rustc lays out | names of primitives are all different; induction on pairs of types with one report; variants without fields are neutral in unions |
| C106 | `Layout/Check.lean`: `check!` as a function to the text it panics with | parts of the text are empty exactly if what they are about agrees; lengths of literals; digits by `omega` |
| C107 | `Macros/Dispatch.lean`: attributes on items as a function of the argument tokens, on top of `Macros/Options.lean` (C86) | case analysis; accepted lists for functions are the printed ones, by recursion |
| C108 | `Sum/Like.lean`: `CHECK`, the layouts of `StableLike` and `NoNiches`; types unknown to stabby are arbitrary predicates on bytes | soundness of the determinant (C09), with honesty in place of well-typedness |
| C109 | `Macros/Root.lean`: `tl_mod`, with `proc_macro_crate::crate_name` as it is in version 3; the specification is which crates cargo passes to rustc under which names | cases on the two lookups |
| C110 | `Build/Checks.lean`: the three macros in programs (any code, sequences, branches, loops) of several crates that are built differently; `try_make_in`, `try_new_in`, `make_in`, `new_in` | induction on programs: runs agree unless a check fails |
| C111 | `Dyn/Lifetime.lean`: lifetimes as times; the bounds written in fatptr.rs as conditions of each operation; types as declarations with lifetimes | invariants of histories; counterexample for every kind of object |
| C112 | `Layout/Foreign.lean`: the declarations over those of `Layout/Platform.lean`; the fields of abi_stable's structs as data | placing the fields as C does, per type and pointer width; counting the niches of the fields |
| C113 | `Dyn/Closure.lean`: generated functions as lists of parameters and of variables passed on; closures as state machines; headers of the implementations of `CompoundVt` as patterns | induction over arguments and calls; case analysis over pointers and families |
| C114 | `Sum/Document.lean`: the Python program of repr-stabby.md over lists of bytes | simulation: the search of the implementation against the loop of the document, byte by byte; induction over types for the order of masks |
| C115 | `Build/Version.lean`: the functions of release.py over numbers, with division of floats | induction over exponents; parity and remainder by 3 of the products; rounding is exact while the odd part has at most 53 bits |


## What is modelled, area by area

* **Typenum** (`Typenum/*`): typenum2/unsigned.rs, all operators. Not modelled: the `IBitBase`-indexed helper traits
  appear as plain functions on `Bool`.
* **Layout** (`Layout/*`): istable.rs (bit masks, forbidden values, field pairs, structs, aligned structs, unions,
  arrays) and padding/array typenum tables; the nesting done by stabby-macros for structs, unions and explicit-repr
  enums. Type-level lists are Lean lists; sizes are `Nat` (justified by C01/C02). `CType` and the
  parser of `repr` attributes have models of their own (C76, C75). Not modelled: generics.
* **Sum** (`Sum/*`): enums/{mod,err_size_0,err_non_size_0,...}.rs determinants, result.rs constructors, guards,
  storage; option.rs through `Result<T, ()>`; the tree of results built by stabby-macros for `repr(stabby)` enums.
  Memory is a function from offsets to bytes. Not modelled: rustc's validity of the private tag enum
  (`BitDeterminant`) when an outer sum stores its own bit in the same byte; drop glue of the payloads.
* **Num** (`Num/*`): num.rs, the bit-width-restricted `uN`/`iN` over an arbitrary base width, `NonMax*`, `NonX*`. Rust's
  `wrapping`/bit operations are `BitVec`'s. Of formatting, which integer is printed. The types have no `IStable` impl despite the documentation.
* **Time** (`Time/*`): stabby/src/time.rs, `Duration`, `SystemTime`/`Instant`/`AtomicDuration` encodings over `Nat`/`Int` with
  the widths explicit. Not modelled: reading the clocks.
* **Report** (`Report/*`): report.rs, reports of the impls of stable_impls/mod.rs and of macro-generated items (fields in
  reverse order, as the macro builds them), `stable_downcast*` of fatptr.rs. SHA-256 is an arbitrary function.
* **Vec** (`Vec/*`): alloc/vec.rs and the slices of alloc/boxed.rs. A vector is a block of possibly uninitialised cells, a length
  and a capacity; touching an uninitialised cell, or memory outside of the block, has no result (`none`). The allocator is an
  arbitrary function deciding which requests succeed. Ledgers record the elements dropped, blocks allocated and freed, and
  elements copied. Not modelled: zero-sized elements (for which `push` does not even compile, `FIRST_CAPACITY` divides by
  the size), panics inside user code, formatting, serde, `io::Write` (which is `try_copy_extend`).
* **SingleOrVec** (`Vec/Sov.lean`, `Sum/Quiet.lean`): alloc/single_or_vec.rs over the vector model, with the representation taken from the
  Sum model: the guard of `Result::match_mut` re-writes the determinant after `reserve`/`truncate` replaced the single value by a
  vector (`overwrite`), and `scribbles t` computes for which element types this changes bytes. `IterMut` as index arithmetic.
  Not modelled: serde, formatting.
* **Shared slices** (`Vec/Shared.lean`): `ArcSlice`/`WeakSlice` (alloc/sync.rs:402-724) over the vector model, in one thread: a variable is a
  vector, a boxed slice or a shared block with a number of strong and weak handles; the counters are 64-bit words. `asz` is the size of the
  allocator (conversion of a vector without capacity writes it). Interleavings of several threads are the subject of C22-C26.
  Histories shorter than 2^62 steps (counters do not reach `USIZE_TOP_BIT`).
* **Strings** (`Vec/Str.lean`): alloc/string.rs over shared slices of bytes. `core::str::from_utf8` is Lean's `ByteArray.validateUTF8`, related
  to the specification "encoding of a list of characters" by `fromUtf8_iff`. Edits through `as_str_mut` are arbitrary functions that keep length and
  UTF-8 (contract of `&mut str`). `Str`/`StrMut` (str.rs) and serde are not modelled.
* **Arc and Weak** (`Sync/Model.lean`): alloc/sync.rs:31-396 with one step per atomic access, any number of threads and handles, all
  interleavings; sequential consistency. Identical threads are counted, handles are anonymous, borrows keep one handle of the kind in place.
  Counters are 64-bit words. `Polite` is the schedule restriction under which the properties hold; the races outside of it are the `_refuted` theorems.
  `make_mut` is `get_mut` or a drop of the old handle; `ArcSlice`/`WeakSlice` have the same protocol (`force_upgrade` excepted).
* **Orderings** (`Sync/Order.lean`): clone, drop and `get_mut` with vector clocks for happens-before, parameterised by the ordering; the code's is
  relaxed.
* **Owned trait-object pointers** (`Sync/Dyn.lean`): `IPtrOwned` of Box, Arc, Weak and `&mut`, and `Dyn<Weak>::upgrade`, sequentially.
* **AtomicArc** (`Sync/Atomic.lean`): one cell, any number of allocations and threads, interleaved atomic accesses. `Arc` is reduced to its
  strong counter.
* **B-trees** (`BTree/*`): alloc/collections/arc_btree.rs, sets and maps (the latter compare by key). Explicit heap of reference-counted nodes
  with arrays of possibly uninitialised entries; `&mut` access takes a node's contents out. Any number of variables share nodes. Undefined
  behaviour has no result (`none`). Not modelled: comparison by a `PartialOrd` that disagrees with `Ord`, failing allocation, panics in `Clone`.
* **Atomic sets and the vtable registry** (`Swap/*`): the loops of `AtomicArcBTreeSet::edit`/`get` and of `VtVec::insert`/`VtBtree::insert` over an
  atomic pointer to reference-counted roots. Values are whole trees or vectors; addresses are chosen by an arbitrary allocator and may be reused; any number of
  threads; schedules are functions from step numbers to steps. `Swap/Spec.lean` states linearisability without reference to the proofs. Not modelled: memory orderings
  weaker than sequential consistency (`get` loads `Relaxed`), the inner nodes (see B-trees), allocation failure.
- **Import** (`checked_import.rs`): `CheckedImport::as_ref` and `drop`, `CanariedImport::deref`. Any number of threads, one step per access to shared memory; the checker is arbitrary (each call returns what the history says). The flag is sequentially consistent; whether a read of the symbol happens after its write is tracked from the orderings. Not modelled: that the checker compares the two reports (that is C39), panics of the checker, the spinning back-off.
- **Memory orderings of `Arc` and `Weak`** (`Sync/Order.lean`, and `Sync/Free.lean` with weak handles and freeing): vector clocks; every operation is one step, `upgrade` and `is_unique` included. `try_into_inner` is a successful `get_mut` followed by the drop of the weak handle.
- **Future** (`future.rs:50-174`): `StableWaker`, the waker `with_waker` exposes for it, `SharedStableWaker`, `StableWakerInner`; boundaries nest to any depth. Each operation is atomic (concurrent reference counting is C22-C26); the executor's wakers are assumed to be correct. Not modelled: the `stabby_unsafe_wakers` variant, polling itself.
- **Niches** (`Sum/Niche.lean`): `HasExactlyOneNiche` of all combinators, wrappers, explicit-repr enums, core `Option` and `Result`.  What rustc makes of spare
  values (`spare`, `rustLayout` in `Props/Niche.lean`) is its documented and observed behaviour, not a guarantee of the language.
- **Plain data** (`Sum/Plain.lean`): `ContainsIndirections` of all type combinators including `StableLike` and `NotPod`.  `Copy`, the other half of `IPod`, is not modelled.
- **Trait objects** (`Dyn/Model.lean`): vtable/mod.rs, fatptr.rs, the generated method calls of stabby-macros/src/traits.rs. Memory holds words (all vtable fields are pointers). Not modelled: generic traits, associated types, the type inference that picks the `TransitiveDeref` path (any path that exists is allowed), vtable equality.
- **Allocations** (`Alloc/Model.lean`; lemmas `Alloc/Arith.lean`, `Alloc/Heap.lean`; programs `Alloc/Ptr.lean`, `Alloc/Rust.lean`,
  `Alloc/Libc.lean`): `Layout` arithmetic with wrap-around; memory as a list of live blocks and a byte map whose cells are data or the k-th byte of a
  header; `AllocPtr::{init, alloc_array, realloc, free}`, `RustAlloc`, `LibcAlloc` (unix and windows) and the default `IAlloc::realloc`.  The underlying
  allocators are arbitrary: every answer their contract allows (null, or any aligned block away from the live ones, with any garbage) is
  quantified over.  Not modelled: the contents of the allocator slot of the prefix, `AllocSlice`, the `IStableAlloc` trait objects, 32-bit targets.
- **`tyeval!`** (`Macros/TyOps.lean`; expressions and values `Macros/TyOpsSpec.lean`; lemmas `Macros/TyOpsLemmas.lean`, `Macros/TyOpsLevel.lean`): the
  parser as a state machine over token trees (lookahead is a mode), the translation, and the compiler's resolution of the result through the model of
  type-level numbers.  `syn::parse2` (are these tokens a type?) is an arbitrary predicate; groups of all delimiters are alike, as in the code.
- **Canaries** (`Macros/Canary.lean`; lemmas `Macros/CanaryLemmas.lean`): parsing, iteration, symbol names, exports, imports and the loader's lookups over
  lists of characters.  `char::is_alphabetic` is arbitrary but for lower case letters and `_`.  Not modelled: that cargo gives a procedural macro's
  build script the target and profile of the *host* build, so that the recorded values need not be those of the library.
- **Guards** (`Guard/Model.lean`): values as bits and owned resources, a world of live resources and contents, conversions and mutations as arbitrary
  functions with panics; `ptr::read` copies bits and ownership.
- **`MaybeResolved`** (`Future/Resolved.lean`): the enum at the level of bytes over the model of sums; the guards of `match_mut` are dropped after the closure
  replaced the enum through its raw pointer; the drop of the replaced enum is the variant it is seen as at that time.  The inner future is an arbitrary function
  on bytes that keeps its type (its padding is arbitrary afterwards).  Not modelled: panics of the inner future, pinning.
- **Loading** (`Import/Load.lean`): the symbols of `#[stabby::export]`, the lookups and the check of `get_stabbied` and of imports over the model of reports.
  Symbol names are byte lists, functions are numbers, lifetimes of the library are not modelled.
- **Threads** (`Threads/Model.lean`): `Send` and `Sync` of stabby's types as the compiler computes them from fields and implementations; a relation that lists what
  each API hands out.  Trait objects are C43.  Recursive types (nodes of B-trees) are resolved by hand.
- **Variance** (`Threads/Variance.lean`): structs are names with fields, subtyping is fieldwise.  Higher-ranked types and vtable types are not modelled.
- **Combinators** (`Sum/Combi.lean`): methods of `Result` and `Option` over memory; user code is arbitrary functions to runs (log, value or unwinding). Destructors do
  not unwind.
- **Unwinding in vectors** (`Vec/Unwind.lean`): `push`, `extend`, `truncate`, `drain`, `into_iter`, `clone`, `drop` with destructors, clones and iterators that unwind; drop glue
  drops the remaining elements and aborts on a second unwinding; the field of `IntoIter` is dropped also when its destructor unwinds. Other operations are those of `Vec/Model.lean`.
- **Platform primitives** (`Layout/Platform.lean`): targets are described by the size of `usize` and the alignments of integers, pointers and floats; atomics are aligned to their size and
  128-bit atomics do not exist. The values that are not values of a primitive type are taken from the Rust reference.
- **Optimality check** (`Layout/Optimal.lean`): `has_optimal_layout` of structs and enums; rustc's layout is any placement of disjoint aligned fields, its `repr(u8)` and `repr(C)`
  enum sizes are those of the Rust reference.
- **Trait macro** (`Macros/Traits.lean`): the types of signatures, the types that depend on `Self`, the vtable of `#[stabby] trait` and its `IStable` condition. Tokens that the
  macro copies (constants, bindings, calling conventions, `for<..>`) are numbers.
- **Boxes with unwinding** (`Alloc/Box.lean`): values and allocator handles are tokens; user code may unwind, drop functions and closures behind `extern "C"` abort instead.
- **Vtable equality** (`Dyn/Equality.lean`): memory holds function addresses, which the linker may merge; one registry per shared object, without concurrency.
- **Slices** (`Slice/Model.lean`): memory holds elements that are not zero-sized; a reference needs an initialised element; provenance and aliasing are left out.
- **Serde** (`Serde/Model.lean`): a format gives back the tree of serde's data model that was serialised; how it hands over strings, whether it reads sequences as bytes, and which sizes it announces are parameters. serde's implementations for core's types are trusted.
- **Zero-sized elements** (`Vec/Zst.lean`): pointers are addresses; in the strict reading any distance or step other than zero is undefined behaviour, as there is no object. Constants are evaluated when the function that mentions them is compiled.
- **Functions** (`Macros/Functions.lean`): types are names with a predicate for stability; the rules of rustc are those for the order of qualifiers, for bounds the body needs, for captures of `async` blocks that are returned, and for coercion to function pointers. Bodies are only the list of parameters they use without moving them.
- **Publication** (`Sync/Publish.lean`): a view-based reading of the C11 memory model for one atomic location: loads may be stale up to coherence, release and acquire transfer views, read-modify-writes continue release sequences. Plain stores come last in modification order; `SeqCst` counts as acquire and release.
- **Unwinding in B-trees** (`BTree/Unwind.lean`): one owner's view of a tree; a node knows whether somebody else has a handle on it. Comparing, cloning and allocating may fail at any time; destructors and clones of allocators do not unwind.
- **Representation attributes** (`Layout/Attr.lean`): an attribute is a list of items; `syn::parse2` fails on leftover tokens (syn's contract). rustc: C layout with `align`/`packed`; transparent structs; without either, any placement of disjoint aligned fields (Rust reference, Type layout).
- **CType** (`Layout/CType.lean`): types are a tree; sizes and alignments are computed by the rules of C and the Rust reference (`repr(tag)` enums as unions of structs). Which bytes a value may occupy (`data`) is that of its fields and tag. Register classes are reduced to whether a type contains a float.
- **Generic types** (`Report/Generic.lean`): a declaration is its header and the list of its fields, in which parameters are de Bruijn indices; unions, enums and structs differ by their kind only. The layout part of the `where` clauses is left out. What a type *is* is its infinite unfolding, given to each depth.
- **Pointers inside of objects** (`Dyn/Owner.lean`): types are numbers, `0` is `()`; a value is its type, its strong count and the destructors run on it. Weak pointers, methods that exchange the values behind pointers, and `&mut` receivers are left out.
- **Pinning** (`Future/Pinned.lean`): a future is its type, the function from the number of earlier polls to the result, and an address; addresses are not reused. `Pin<P>` itself, wakers (C41, C42) and panics in `poll` are left out.
- **Floating-point numbers** (`Time/Convert.lean`): non-negative finite binary64 numbers are `m * 2^e`; multiplication, division and conversion from `u128` round once, to nearest, ties to even (IEEE 754); `floor` and `%` are exact. std's points in time are nanoseconds since the epoch.
- **Comparison of slices** (`Compare/Model.lean`): what core does to compare and hash `[T]` and `str`: `str` is hashed with a final 0xff, slices with their length in front.
- **Interleavings with force_upgrade** (`Sync/Force.lean`): sequentially consistent steps, one allocation, elements without destructors (`force_upgrade` requires `Copy`).
- **Rust's grammar of types** (`Props/Written.lean`, `reads`): the part of the grammar that covers the types the macro can write; expressions in lengths and constants are single tokens.
- **Rust's resolution of names of types** (`Import/Expand.lean`, `Env`): a name is looked up in its module, then in the prelude; modules don't see the names of modules around them. Paths are reduced to their first segments.
- **syn's grammar of types** (`Macros/DynPtr.lean`, `ty`): references bind tighter than `+`, types in parentheses stay in parentheses (syn 1.0); traits are single tokens, only the last segment of a pointer's path has arguments. **Rust's default lifetimes of trait objects** (`Props/DynPtr.lean`, `rust`).
- **`u32::from_str` and `LitInt::to_string`** (`Macros/Options.lean`, `parseU32`): digits after an optional sign, below 2^32; literals are read as they are written.
- **Rust's grammar of `where` clauses and of angle brackets** (`Props/Bounds.lean`, `clause`, `Declares`, `Uses`): types are single tokens.
- **Rust's rules for lifetimes that aren't written, for `for<..>` and for late-bound lifetimes** (`Props/Methods.lean`, `methodSig`, `pointerSig`, `Legal`, `Late`).
- **core's `Formatter`** (`Fmt/Model.lean`): `write_str` and `debug_set` are modelled by what they write; `{:#?}` is not.
- **Printing by `syn`** (`Macros/Generics.lean`): lifetimes first, no `where` clause with `Generics`, no colon without bounds. Bounds, defaults and types are opaque.
- **Allocators as tokens** (`Alloc/Handles.lean`): elements have a size and only their number is kept; counters don't wrap; one thread; user code does not unwind. Allocators return addresses that are free.
- **Constants that panic** (`Typenum/Failure.lean`): a constant whose evaluation panics is an error of the compiler only where it is used; `value` is `none` then.
- **Choice of implementations** (`Layout/Includes.lean`): an associated type that needs an implementation which does not exist is `none`.
- **Niches** (`Props/Found.lean`): a niche is what the `IStable` implementations declare; that they are sound is C05, C06 and C11.
- **Cells** (`Sum/Cell.lean`): `UnsafeCell` and atomics are places whose bytes may become those of any value of the type they hold, padding included; everything else stays while only shared references exist.
- **Forgotten guards** (`Sum/Forget.lean`, `Vec/Forget.lean`): the write of the payload, or the calls to `next`, without what `drop` does after.
- **Iterators and maps** (`Sum/Pass.lean`): iterators are arbitrary state machines with effects; maps are given by where values are and what is there, and std's insertion is any function that keeps the stated contract.
- **Cows** (`Sum/Cow.lean`): `ToOwned::to_owned` and `Borrow::borrow` of the user are arbitrary runs.
- **Mutable access to SingleOrVec** (`Vec/SovMut.lean`): a borrow is any sequence of writes of values to the element and of drops of the guard; sizes of element types are multiples of their alignments.
- **Generated text** (`Build/Names.lean`): formatting of integers is core's loop over digits; what is written around the numbers is represented by its structure (alias, tuple, conversion).
- **Conditional compilation** (`Build/Cfg.lean`): rustc's meaning of `cfg` (a name alone matches only an option without value), cargo's `CARGO_CFG_*` variables, and the errors for items defined twice or not at all are taken from their documentation.
- **Ownership by Arcs** (`Sync/Own.lean`): one thread, counters do not wrap, destructors do not use their own block; an `AllocPtr` that goes out of scope leaks what it points to.
- **Text of reports** (`Report/Text.lean`): the writer does not fail; control characters without a one-letter escape are not escaped.
- **Identifiers per architecture** (`Report/Arch.lean`): references have the size and alignment of `usize`; SHA-256 is any function.
- **Types with names and layouts** (`Report/Named.lean`): variants with several fields are variants with a struct; what rustc does with types is that of `Layout/CType.lean`; core's `Result` and `NonX*` are left out.
- **Compile-time check** (`Layout/Check.lean`): what rustc says is any four numbers; the evaluation of constants stops at an index out of bounds.
- **Attributes** (`Macros/Dispatch.lean`): which kind an item is, is given (syn decides it); what `macro_rules` and other attributes do to it before is not modelled.
- **Types unknown to stabby** (`Props/Like.lean`, `Foreign`): a size, an alignment, and any relation between values and the bytes within that size.
- **Names of crates** (`Macros/Root.lean`, `crateName`; `Props/Root.lean`, `Passed`): `proc_macro_crate` reads manifests as its version 3 does, and cargo passes the entries that are enabled, and dev entries to all but libraries.
- **Programs with checks** (`Build/Checks.lean`, `Prog`): code outside of the macros is any function of the state; panics may be caught; `unwrap_unchecked` of core is undefined behaviour on the other variant.
- **Lifetimes of objects** (`Dyn/Lifetime.lean`, `step`): rustc rejects uses after a lifetime and unmet bounds, and asks for nothing that is not written; each lifetime argument of a type is that of a borrow that values of the type hand out.
- **abi_stable** (`Layout/Foreign.lean`, `fields`): the crate is not part of the sources; its structs are those of version 0.11 (`repr(C)`; data pointers are raw and never null, references to vtables are `NonNull`).
- **Closures** (`Dyn/Closure.lean`): unwinding out of an `extern "C"` function aborts (Rust from 1.81 on); an implementation for `dyn Fn(I0) -> O` does not match `dyn for<'a> Fn(&'a T) -> O`.
- **Specification** (`Sum/Document.lean`): `can_contain` uses its argument (the document writes an undefined name), a forbidden value of several bytes fits if all of its bytes do, `rightmost_one` is the lowest bit that is set, and `Reading` says which of the two slips of the program are corrected.
- **Versions** (`Build/Version.lean`): versions are three numbers; pre-release parts, which the script drops, and the text of the changelog are left out. Python's `/` is rounding to 53 bits with ties to even, and `OverflowError` above.

## Violations found in the code (each has a `_refuted` theorem)

1. C12: the storage of `Result` is `floor(Size / Align)` units; when the larger size is not a multiple of the larger
   alignment it is too small. `Result<[u8; 5], u32>` has 4 bytes for a 5-byte payload (`C12_storage_refuted`).
   `C12_storage_iff` gives the exact condition.
2. C06: `MaybeUninit<T>` exports the niches of `T` (`C06_maybe_uninit_refuted`).
3. C53: `Ordering` claims no niche but has 253, so `Tuple2<Ordering, NonZeroU8>` claims exactly one (`C53_ordering_refuted`).
   So do file descriptors (`C53_leaves_refuted`) and enums with an explicit representation (`C53_enum_refuted`); `UnsafeCell<T>` and
   `MaybeUninit<T>` claim the niche that they hide (`C53_hidden_refuted`), so that `Option<UnsafeCell<NonZeroU8>>` is computed one byte too small
   (`C53_option_unsafe_cell_refuted`); the alignment of the empty side of a `core::result::Result` is ignored (`C53_result_layout_refuted`).
4. C08: `repr(u8)`-like enums with payloads of different alignments export bytes used by payloads (`C08_repr_u_refuted`).
5. C04: a `repr(align(n))` struct without fields is computed as `()` (`C04_repr_align_empty_refuted`); the compile-time
   assertion in the generated code rejects it.
6. C03: a typenum array of zero-sized elements has the wrong number of elements (`C03_array_zst_refuted`).
7. C54: `is_invalid` is always false for forbidden values that are lists of bytes (`C54_is_invalid_complete_refuted`).
8. C33: subtraction of `uN` leaves the unused high bits set, so equal numbers compare different (`C33_eq_refuted`).
9. C34: `iN::MAX` is wrong unless N is half the base width (`C34_max_refuted`), and `iN::MIN` differs from `new(-2^(N-1))`
   bit for bit and prints as a positive number (`C34_min_eq_refuted`); `&` with a base integer has the same effect (`C34_bitand_base_refuted`).
10. C36: a `Duration` with 10^9 nanoseconds or more (fields are public) compares by its fields, not by the time it denotes
   (`C36_unnormalised_refuted`).
11. C37: a negative offset of less than a second loses its sign (`C37_negative_zero_refuted`); 2^43 seconds and more do not
   fit (`C37_large_refuted`).
12. C38: `is_compatible` zips the fields, so reports with different numbers of fields are compatible (`C38_field_count_refuted`).
13. C39: versions are not hashed (`C39_version_refuted`) and strings are not delimited (`C39_delimiter_refuted`).
14. C45: distinct types share a report: `MaybeUninit<bool>` and `bool`, `ManuallyDrop<&A>` and `ManuallyDrop<&B>`
   (`C45_wrappers_refuted`), `NonXU8<1>` and `NonXU8<2>` (`C45_non_x_refuted`), `core` results differing in their zero-sized
   side (`C45_core_result_refuted`).
15. C15: `reserve` and `with_capacity` multiply sizes without overflow checks (`C15_capacity_overflow_refuted`), which the honest
   upper size hint of an iterator is enough to reach (`C15_extend_overflow_refuted`); `extend` trusts the upper size hint of a safe iterator
   (`C15_extend_hint_refuted`).
16. C17: `DoubleEndedDrain::next_back` yields elements outside of the range (`C17_next_back_refuted`), and `try_drain` refuses every valid
   range and accepts invalid ones (`C17_try_drain_refuted`).
17. C19: an empty `BoxedSlice` made from a vector without capacity reads a dangling prefix on `try_push`
   (`C19_empty_push_refuted`); one made from a vector with capacity is never freed (`C19_empty_leak_refuted`).
18. C20: `reserve`, `truncate` and `extend` on a `SingleOrVec` holding one value overwrite it by a vector inside `match_mut`, whose guard then
   marks the container as a single value again for element types such as `u8`, `u64`, `&T` (`C20_scribbled_refuted`, `C20_u64_refuted`); a refused
   reservation drops the value twice (`C20_refused_reserve_refuted`); `IterMut::nth` wraps and yields an element twice (`C20_iter_mut_nth_refuted`).
19. C52: an `ArcSlice` of a vector without capacity writes through a dangling pointer if the allocator is not zero-sized
   (`C52_empty_refuted`), and is never released once converted back (`C52_empty_leak_refuted`); `ArcSlice::from(Arc)` drops the `Arc` it takes over,
   so that the slice refers to a destroyed element (`C52_from_arc_refuted`).
20. C22, C23: two overlapping calls of `Weak::upgrade` corrupt the strong counter: an `Arc` to a destroyed value (`C22_upgrade_refuted`,
   `C23_some_refuted`), an uncounted `Arc` and a leak (`C22_leak_refuted`), a failure although an `Arc` exists (`C23_none_refuted`).
21. C24: `is_unique` loads the two counters separately; an upgrade followed by the drop of the `Weak` in between gives exclusive access next to another
   `Arc` (`C24_race_refuted`), and a use after free with `try_into_inner` (`C24_into_inner_refuted`).
22. C25: `IPtrOwned for Weak` decrements the strong counter instead of the weak one (`C25_weak_refuted`, `C25_dangling_refuted`); with it
   `Dyn<Weak>::upgrade` returns uncounted `Arc`s (`C25_upgrade_refuted`) or makes the counter wrap (`C25_upgrade_dead_refuted`).
23. C26: `Arc::drop` and `is_unique` are relaxed, so reads of other threads do not happen before the destruction (`C26_drop_refuted`) or before
   exclusive writes (`C26_get_mut_refuted`), and uses of the counters do not happen before the memory is freed (`C26_free_refuted`).
24. C27: `AtomicArc::store` leaks the old value (`C27_store_refuted`), a failing `compare_exchange` leaks the new one
   (`C27_failed_exchange_refuted`), and `load` increments the counter after loading the pointer (`C27_load_race_refuted`).
25. C30: `SPLIT_LIMIT = 1` passes `CHECK`, but the first `insert` panics after the allocator was read out of the set, which is then dropped twice
   (`C30_capacity_one_refuted`); `AtomicArcBTreeSet` never evaluates `CHECK`: with an even capacity the first split reads beyond the entries
   (`C30_even_capacity_refuted`).
26. C31: `AtomicArcBTreeSet::edit`/`get` take their handle after reading the pointer, when the tree may be released already
   (`C31_use_after_free_refuted`); `edit` keeps no handle on the tree it compares against, so that a reused address makes it overwrite other edits
   (`C31_lost_edit_refuted`) or take a new tree for the old one (`C31_skipped_edit_refuted`); a closure that changes its argument in place loses its edit when
   another thread was faster, even if no address is reused (`C31_in_place_edit_refuted`).
27. C32: with the default registry two registrations of one vtable may yield two addresses (`C32_btree_refuted`); the vector registry may access
   released memory (`C32_vec_refuted`).
28. `CheckedImport::as_ref` loads its flag with `Relaxed`: a second thread may see `VALIDATED` without seeing the symbol (`C40_relaxed_load_refuted`).
29. `CheckedImport::as_ref` stores `INVALIDATED` unconditionally: with a checker whose answer varies, a validated import becomes invalid and its symbol is leaked (`C40_stays_validated_refuted`).
30. `CanariedImport::deref` hands out the symbol to a second thread while the first is still inside the canary (`C40_canary_before_use_refuted`).
31. `StableWaker::with_waker` is offered for every allocator but its `clone` casts to `StableWaker` with the default allocator: the clone's block is freed with the wrong allocator (`C41_other_allocator_refuted`).
32. C56: `VtDrop` is `Copy` and declares its function pointer as `StableLike<_, NonZeroUsize>`, hence is plain data (`IPod`): code that only requires `T: IPod` may rebuild it from received bytes and call it (`C56_vtdrop_refuted`).
33. C43: `HasSendVt for VTable<Head, Tail>` requires `Tail: HasSyncVt`: `Box<dyn A + Sync + B>` is `Send` whatever it holds (`C43_box_send_refuted`); `Dyn<Arc>` needs only one of the two markers to be `Send` or `Sync` (`C43_arc_send_refuted`, `C43_arc_sync_refuted`); `DynRef` is `Send` if its referent is `Send`, `std` requires `Sync` (`C43_ref_send_refuted`).
34. C44: `IPtr`/`IPtrMut` of references transmute the address of the reference: methods called on a `Dyn<&mut ()>` receive the address of the trait object (`C44_mut_ref_refuted`, `C44_as_mut_refuted`); downcasts of a `DynRef` return the address of the `DynRef` (`C44_downcast_refuted`).
35. C46: `AllocPtr::alloc_array` requests the alignment of the prefix only: elements aligned to more than that may end past the block (`C46_overaligned_refuted`, exact condition in `C46_fits_iff`), and `realloc` gives the allocator the address of the prefix instead of the origin (`C46_overaligned_realloc_refuted`); the number of bytes wraps (`C46_overflow_refuted`).
36. C47: `Layout::concat` adds the sizes before aligning the second part (`C47_concat_refuted`).
37. C48: `RustAlloc` writes near null when out of memory (`C48_rust_out_of_memory_refuted`), returns a pointer to the end of the block for sizes that are not multiples of a large alignment (`C48_rust_small_refuted`), wraps (`C48_rust_overflow_refuted`) and does not check the size of a reallocation (`C48_rust_huge_realloc_refuted`); `LibcAlloc::realloc` and the default `realloc` copy the old size when shrinking (`C48_libc_shrink_refuted`, `C48_default_realloc_refuted`); on windows size and alignment are swapped (`C48_windows_refuted`).
38. C49: `tyeval!` accepts operands side by side and puts a group before the path it follows, so that `A (B) -` is `B - A` (`C49_juxtaposed_refuted`); it accepts a conditional without `:` (`C49_colon_refuted`) and closes brackets that are not closed (`C49_unclosed_refuted`); `-` is the distance (`C49_sub_refuted`).
39. C50: the canaries `opt_level` and `num_jobs` cannot be named because of their underscore (`C50_names_refuted`); `fix` maps different targets to one name (`C50_target_refuted`); a compiler whose commit is `unknown` makes the macros panic (`C50_commit_refuted`).
40. C51: `ref_as` leaves the source dangling if the conversion frees (`C51_ref_frees_refuted`), leaks if it allocates (`C51_ref_leaks_refuted`), changes the source if it writes (`C51_ref_changes_refuted`) and is unsound with interior mutability (`C51_interior_refuted`); a forgotten `mut_as` guard (`C51_forget_refuted`) and panicking conversions (`C51_panic_refuted`) leave it dangling.
41. C57: `MaybeResolved::poll` replaces the whole enum while the guards of `match_mut` are alive, and the guards then set the determinant of the *old*
   variant.  Where this writes to memory (spare-bit determinants), a resolved enum is `Resolved` again after its value was moved out: it is produced and dropped twice,
   e.g. for `T = (Box<_>, u8)` a null box (`C57_twice_refuted`, `C57_null_refuted`); a future that was ready is polled again on zeroed bytes (`C57_revived_refuted`).
   `ptr::replace` reads the enum before the guards repaired it, so that a future that wrote to its own padding can be dropped as a value (`C57_unguarded_refuted`).
42. C58: a function that takes a struct is handed out with a struct of the same name that has more fields (`C58_fields_refuted`, a consequence of 12), and any function
   is handed out as a `ManuallyDrop`, `UnsafeCell` or `MaybeUninit` of a function with other arguments (`C58_wrapper_refuted`, a consequence of 14).
43. C59: `Result` stores its payload as an array of integers and has no implementations of its own, so that it, `Option`, `repr(stabby)` enums, `SingleOrVec` and the guards
   are `Send` and `Sync` whatever they hold (`C59_result_refuted`); likewise `AtomicArcBTreeSet` (`C59_atomic_btree_refuted`) and imports (`C59_import_refuted`).
   `Box: Sync` does not ask for the allocator, which `clone` shares (`C59_box_allocator_refuted`); `RefAs: Send` does not ask for `As: Sync` although guards share (`C59_ref_as_refuted`).
   A core `Waker` cloned from a `StableWaker<Alloc>` may go to any thread and frees its block there with an `Alloc` that need not be `Send` (`C59_waker_refuted`).
44. C60: `SliceMut<'a, T>` is covariant in `T`: a shorter-lived reference can be stored in a slice of longer-lived ones (`C60_slice_mut_refuted`).
    `AtomicArc<T, Alloc>` is covariant in `Alloc` (its marker is a `*const Alloc`): an `Arc` whose allocator borrows for a shorter time can be stored in one that others see with
    a longer-lived allocator, which then frees through a dangling borrow (`C60_atomic_arc_refuted`).
45. **C62** (`alloc/vec.rs:247-255`, `661-668`, `539-546`, `723-739`, `454-463`): `truncate` sets the length after dropping the elements, so a destructor that unwinds leaves the
    dropped elements in the vector, which drops them again. `Drop for IntoIter` likewise: its vector is then dropped with its whole length, including elements the caller already has.
    A vector whose drop unwinds does not release its block; a drained range whose drop unwinds loses the elements behind it; a clone that unwinds loses the copies made.
46. **C63** (`stable_impls/mod.rs:279-283`, `682-692`, `912-926`): `c_void` is declared to be laid out like `()`, but has one byte. Floats are declared to be laid out like integers
    without an assertion. `OwnedFd` and `BorrowedFd` claim to have no niche (they have `-1`) and to contain an indirection; a pair of one with a `NonZeroU8` claims exactly one niche but has two.
47. **C64** (`structs.rs:115`, `enums.rs:546-579`): the check is not emitted for structs with generics, lifetimes included. An enum of `[u16; 3]`, `()`, `u16`, `u32`, `()` takes 12 bytes,
    8 with `repr(u8)`. `has_optimal_layout` of enums compares with `repr(u8)`, strictly, not with `repr(C)` as documented.
48. **C65** (`traits.rs:446`, `497`, `504-534`, `660-666`): traits with constant parameters (`vt_signature` leaves them out) or with `unsafe` methods (`extern "C" unsafe fn`) do not
    expand to valid code. A type that the user names `_stabby_unselfed_0` is captured by the vtable's parameter of that name, and the `transmute` hides the mismatch.
49. **C66** (`traits.rs:448-471`, `985`): `#[stabby(checked)]` does not check arrays and function pointers (`Ty::eq` says that they differ from themselves), nor types taken from `Self`, so that
    `dynptr!(Box<dyn T<A = std::string::String>>)` is `IStable`. A checked trait with a method that takes `x: &T` does not compile: `elide_lifetime` only replaces lifetimes that are written.
50. **C67** (`boxed.rs:247-256`): when the destructor of the value unwinds, `Drop for Box` leaks the block and the allocator handle (std's `Box` frees the block).
51. **C68** (`vtable/mod.rs:364-371`): `VtDrop::eq` compares the addresses of the fields instead of the function pointers, so that a copy of a vtable is not equal to the vtable. As a consequence `downcast`
    always returns `None` after `into_super` removed a trait with methods; the documentation of `DynRef::downcast` does not mention it.
52. **C69** (`slice.rs:72,78,132,137,193,199`): `from_raw_parts(self.start.as_ref(), self.len)` makes a reference to the first element also if the slice is empty. (`slice.rs:21-29, 115-123`): the fields `start` and `len`
    of `Slice` and `SliceMut` are public, so that safe code can make slices of memory it does not own.
53. **C70** (`str.rs:161-173`): the visitor of `Str` only implements `visit_borrowed_str`, and `String`, `BoxedStr` and `ArcStr` are deserialised through it, so that they cannot be read from strings with escapes or from readers.
    (`slice.rs:207-245`): `Slice<u8>` is serialised as a sequence but deserialised as bytes. (`vec.rs:870`): `Vec::deserialize` reserves whatever size the input announces.
54. **C71** (`vec.rs:181`): `FIRST_CAPACITY` divides by `size_of::<T>()`, so that `push`, `extend` and `collect` do not compile for zero-sized types. (`vec.rs:49-57,81`): the capacity of such a vector is computed as the distance to the address
    `usize::MAX`, which is negative as `isize`: undefined behaviour, and a panic of `with_capacity`, `clone`, `copy_extend` with debug assertions. (`vec.rs:427`): `pop` reads at `end`, which is not aligned.
55. **C72** (`functions.rs:149`): `#unsafety #constness` is the wrong order, so `const unsafe fn` does not compile; `#generics` leaves the `where` clause out. (`functions.rs:143`): `async {…}` without `move` borrows parameters, so async functions that use a `Copy` parameter do not compile;
    `Box` is whatever the caller has in scope. (`functions.rs:321`): the signature repeats the convention that was written and not the one that is used, so functions without one cannot be exported.
56. **C73** (`arc_btree.rs:71`): `get` loads the root with `Relaxed` and then reads the nodes: a data race with the thread that published them. (`checked_import.rs:112`): `as_ref` loads the state with `Relaxed` and then reads the function pointer. (`sync.rs:868-930`): `AtomicArc` is safe
    code that accepts `Relaxed`.
57. **C74** (`arc_btree.rs:699-738`): `split` cuts the node before it allocates the second half; if that fails, the pivot and everything right of it are dropped: the set silently loses elements. (`arc_btree.rs:489-505`): clones made before a clone unwinds leak. (`arc_btree.rs:389-401`): `insert` reads the
    allocator out of the set before allocating; if that fails it is dropped twice.
58. **C75** (`structs.rs:125-132`): parse errors of `#[repr(..)]` are swallowed by `.ok()`: `#[repr(packed)]`, `#[repr(C, align(16))]` and second attributes are accepted and ignored in the computed layout (the message that packed structs are not supported is never shown). `#[repr(align(n))]` alone keeps
    `#[repr(C)]` from being added, so that rustc may reorder fields: bytes in use are exported as niches. (`unions.rs:82-98`): `align` and `packed` on unions are ignored, and nothing checks sizes.
59. **C76** (`stable_impls/mod.rs:294-429`, `Align::AsUint`): the `CType` of an integer is the integer of its *alignment*, so `u64` becomes `u32` on i686 and `u128` becomes `u64` where it is aligned to 8. (`stabby-macros/src/lib.rs:411-419`): `#[repr(u8)] enum {A(u8), B(u32)}` gets the `CType` of a `repr(C, u8)`
    enum, where the byte of `A` is padding; sizes agree, so the assertion passes. (`lib.rs:304`): `NoNiches` has `CType = ()`. (`istable.rs:535-537`): a union of size 0 gets `()` whatever its alignment. (`mod.rs:682-692`): floats get integers.
60. **C77** (`stable_impls/mod.rs:256-266`): the report of `PhantomData<T>` does not mention `T`, so `Box<T, RustAlloc>` and `Box<T, LibcAlloc>` (`alloc/mod.rs:257-264`) have the same report and id and are downcast or imported as each other: memory is freed by the wrong allocator. (`fatptr.rs:146-151`): lifetimes are not in reports and `DynRef::stable_downcast` does not bound those of its target, so safe
    code turns a `&'a &'a T` into a `&'a &'static T`. (`lib.rs:426-463`): const arguments are not in reports. (`lib.rs:485-711`): `_Self` as an argument of a generic type is indistinguishable from the `_Self` of that type.
61. **C78** (`fatptr.rs:218-220`): `Dyn::ptr_mut` is safe and returns `&mut P`, where `P` is `Box<()>` or `Arc<()>`: `mem::swap(a.ptr_mut(), b.ptr_mut())` on objects of different types, or `*a.ptr_mut() = Box::new(())`, makes the methods and the destructor of one type run on values of another, in safe code. (`fatptr.rs:213-215`): `obj.ptr().clone()` is an `Arc<()>`; if it is the last one to go, the value's destructor never runs.
62. **C79** (`future.rs:178-200`): stabby's `Future::poll` takes `&mut self`, is safe, and is implemented for all futures by `Pin::new_unchecked(self)`: safe code polls a self-referential future, moves it, and polls it again. (`fatptr.rs:327-334`): `stable_downcast_mut` hands out `&mut T` to a future that the object already polled as pinned.
63. **C80** (`time.rs:40-46`): `from_secs_f64` cuts off instead of rounding, unlike `core`'s: `from_secs_f64(2.3)` is 2.299999999s and `from_secs_f64(d.as_secs_f64())` is not `d`; too large numbers and infinity silently become `u64::MAX` seconds. (`time.rs:204-213`): points before 1970 become 1970.
64. **C81** (`str.rs:23`): `Str` derives `Hash`, so it hashes like `[u8]` (length in front) and not like `str`, `String`, `ArcStr` and `BoxedStr` (0xff behind), although `String == Str` holds.
65. **C82** (`sync.rs:651-684`): `force_upgrade` concurrent with `upgrade`: the `store(0)` of a failing `upgrade` erases the strong unit of the slice just brought back, which is then freed while in use; and a `force_upgrade` that sees the mark of an `upgrade` in flight increments the weak counter once too often, so that the memory is never freed.
66. **C83** (`traits.rs:1235-1250, 1147-1151`): `<T as ::a::Trait>::X` in a signature loses its leading `::`; `<Self as Trait>::X`, `<T>::X` and `(T)` make the macro panic.
67. **C84** (`functions.rs:490-502`): the generated module has no `use super::*`, so that a signature with `Vec`, where stabby's `Vec` is imported, is checked and called with the standard one's type (or does not compile); foreign types of the block become unreachable; `#[cfg]` on imported functions is dropped without canaries; `fn f<'a>(..)` expands to `fn<'a>(..)`, which isn't a type.
68. **C85** (`lib.rs:174-212`): `dynptr!(&'a dyn A + B)` and `dynptr!(&'a (dyn A + B))` both panic, so references to objects with several bounds cannot be written (README.md:62-63, 67 says they can); `dynptr!(&dyn A)` is `DynRef<'static, ..>`; `dynptr!(Box<dyn A, Alloc>)` panics.
69. **C86** (`structs.rs:37-53`): `version = 1_000`, `version = 0x10` and `version = 1u32` make the macro panic (the literal is parsed as text, not by value); the comma between options is optional, so `module = "m" version = 2` takes the version as a part of the module.
70. **C87** (`traits.rs:555`): `type A: 'static;` in a `#[stabby]` trait emits `_stabby_unselfed_0: 'static` without a comma, so that the `where` clause of the constructor is a syntax error; `?Sized` becomes `Sized` (`traits.rs:363-370`); the `where` clause of a trait is ignored, default types and bounds of lifetimes are refused (`traits.rs:504-533`).
71. **C88** (`traits.rs:446, 497`): `#abi #unsafety fn` puts `unsafe` after `extern "C"`, so that no `#[stabby]` trait can have an `unsafe` method; `extern "C" fn get(&self, key: &K) -> &V` doesn't compile either, since function pointers don't have the rule that outputs borrow from `self`.
72. **C89** (`arc_btree.rs:225-237`): `Debug` of `ArcBTreeSet` shows the nodes: `{1, .., 7}` is shown as nested sets that depend on the order of insertion.
73. **C90** (`enums.rs:149, 303-309, 538-612`, `unions.rs:69-89`, `structs.rs:166`): `#[repr(u8)] enum E<T> where T: Trait` loses its `where` clause; `#[repr(u8)] enum E<T: Trait>`, `struct S<T>(T) where T: Trait;`, `struct S<const N: usize, T>`, `#[repr(stabby)] enum E<T = u8>` don't compile.
74. **C91** (`vec.rs:447-451`, `boxed.rs:310-325, 379-398`, `sync.rs:484-494, 522-536`, `single_or_vec.rs:218-222`): safe code can exchange the allocators of two vectors, which then free each other's blocks; boxing an empty vector with capacity leaks it; `try_push` on an empty box and sharing an empty vector access a prefix that does not exist; `ArcSlice::from(arc)` is dangling; a failed `SingleOrVec::try_reserve` destroys the element and the allocator, which are destroyed again on drop.
75. **C92** (`unsigned.rs:420-446`): `Saturator` ("a computation can never succeed") is zero for most operations: `Saturator + U5 = U5`, `U5 & Saturator = U0`, `U5 - Saturator = U5`, `Saturator == U0`.
76. **C93** (`istable.rs:491-524`): `Includes` does not find bits in bytes that are only partly unused, and does not compile for bytes that the set does not mention. Nothing in the crate uses it.
77. **C94** (`istable.rs:348`, `err_size_0.rs:17-28`, `err_non_empty.rs:52`): `Option<(u8, bool)>` takes three bytes while `Option<(bool, u8)>` takes two, as only the first field's forbidden values are considered; `Result`s with payloads longer than eight aligned steps miss niches; `Option<Option<bool>>` takes two bytes.
78. **C95** (`stable_impls/mod.rs:547-551, 578-582`): `UnsafeCell<T>` and `AtomicBool` export the niches of what they hold. `is_some` of an `Option<AtomicBool>` is a data race with stores through a reference from `as_ref`; storing through a lock in `Some(lock)` overwrites the tag if this is in padding of the locked value, as in `Option<RMutex<(u8, u16)>>`.
79. **C96** (`result.rs:495-562`): the tag is restored only when the guard is dropped, and `core::mem::forget` is safe: `Some((1u8, 3u16))` written through a guard that is then forgotten can be `None`.
80. **C98** (`allocs/borrow.rs:25-32`): `Cow<'_, [u8; 9]>` is stored in eight bytes, so that `Cow::Owned` writes past it (C12).
81. **C99** (`single_or_vec.rs:475-531`): the references that a mutable iterator returns outlive the guard in the iterator (`transmute` of lifetimes), so that `let r = v.into_iter().next().unwrap(); *r = x;` writes without a guard, and can turn one element into a vector with arbitrary pointers.
82. **C100** (`stabby-abi/build.rs:51,61`): the documentation of `U10pow3` says 3.
83. **C101** (`future.rs:50`, `vtable/mod.rs:208,218,234,244`, `build.rs:128-136`): the documented `--cfg stabby_unsafe_wakers="true"` and `--cfg stabby_vtables="vec"` do not build, `"no_alloc"` is ignored, and no configuration without an allocator builds on any compiler.
84. **C102** (`alloc/sync.rs:293-297`): when the destructor of the value unwinds, the last `Arc` leaks its block and its allocator.
85. **C103** (`report.rs:37-52`, `stabby-macros/src/lib.rs:429-445`): modules are arbitrary strings and are written without quotes, so incompatible reports can have the same text; fields are iterated from the last to the first.
86. **C104** (`report.rs:153-163`): the alignment of 64-bit numbers is not part of `ARCH_INFO`; types have the same `ID` on `i686-unknown-linux-gnu` and `i686-pc-windows-msvc` with different layouts.
87. **C105** (`structs.rs:124-190`, `enums.rs:58-75`, `stable_impls/mod.rs:511-551`): reports leave out `repr(align(n))`, the `C` of `repr(C, u8)`, the parameter of `MaybeUninit`, and the alignment of `i128`: the loader accepts types whose layouts differ.
88. **C106** (`stable_impls/mod.rs:150-233`): `check!` compares alignments as `u8`; its buffer of 1024 bytes is too short for three findings about a type with a long name.
89. **C107** (`functions.rs:85, 363`, `lib.rs:98-99`): `unsend`, `unsync` and lifetimes are ignored on functions that are not `async`; `#[stabby(..)] async {}` ignores its arguments; `export` advises to write `canaried` but only accepts `canaries`.
90. **C108** (`lib.rs:218`): `StableLike::new` is safe but only checks size and alignment: `Some(StableLike::<u8, bool>::new(2))` is `None`, and `Ok(StableLike::<(u8, u64), (bool, u64)>::new((2, address)))` is an `Err` with a reference to `address`.
91. **C109** (`stabby-macros/src/lib.rs:53`): `tl_mod` looks for stabby-abi in all tables of the manifest, also in those that do not count for the target: with `stabby` in `[dependencies]` and `stabby-abi` in `[dev-dependencies]`, the library's attributes expand to paths in `stabby_abi`, which is not passed.
92. **C110** (`lib.rs:445-475`): `assert_unchecked!(condition)` as documented matches no arm, a message or a comma must follow; `assert_eq_unchecked!` checks `==` but assumes `!=`, so that with a `PartialEq` where both hold it passes in debug builds and is undefined behaviour in release builds.
93. **C111** (`fatptr.rs:146-151`, `294-299`, `328-334`): the bound `Vt: IConstConstructor<'a, T>` asks nothing of the lifetimes of `T` (`traits.rs:720-731`), so that `Dyn::stable_downcast_ref` and `stable_downcast_mut`, like `DynRef::stable_downcast` (see C77), give a `Wrapper<&'a str>` as a `Wrapper<&'static str>` in safe code.
94. **C112** (`stable_impls/abi_stable.rs:77-89`, `114-140`): `RHashMap` and `RBoxError` are a box (a pointer and a vtable) and a vtable; they are declared to have exactly one niche, but rustc sees one in each vtable (`C112_two_niches_refuted`). The implementations for `RVec`, `RSlice`, `RSliceMut`, `RHashMap`, `RBox` and `RBoxError` define `CType` unconditionally, which the trait has with the feature `experimental-ctypes` only (`C112_feature_refuted`).
95. **C113** (`gen_closures.rs:33-136`): the vtables of `Fn` and `FnMut` do not hold those of their super-traits, so that a boxed `Fn` cannot be called as `FnMut` (the README says so); `CallOnceDynN` is implemented for boxes of the default allocator only, and only with the feature `alloc-rs`, which it does not use (`C113_missing_refuted`). `CompoundVt` is implemented for `dyn Fn(I0) -> O` with types `I0`, `O`, so that there is no stable object for `Fn(&u8) -> u8` (`C113_signatures_refuted`). A panic aborts the process instead of unwinding to the caller (`C113_unwinding_refuted`).
96. **C114** (`repr-stabby.md`): the document returns `ValueIsErr` for a forbidden value of `Err`, and does not shift it with `Err`; an implementation that followed it would take `Ok` for `Err` (`C114_polarity_refuted`, `C114_offsets_refuted`). `Option<(u8, bool)>` has 2 bytes in the document and 3 here, because only the first field's forbidden values are used (`C114_option_refuted`). `Result<[u8; 5], u32>` has 8 bytes in the document and 5 here (`C114_size_refuted`, see C12). Vtables hold the methods with `&mut self` after those with `&self`, whatever the order of their declarations (`C114_methods_refuted`). The document asks to report such cases. `README.md:55` says that the tag is 1 for `Ok`, where this document says `Err`; it is 1 for the smaller variant (`C114_tag_byte`, `C114_readme_refuted`).
97. **C115** (`release.py:8`): `x /= base` divides floats, so exponents of 3 beyond 34 are read wrongly (`C115_header_refuted`); versions that are not products are accepted (`C115_refuses_refuted`). README.md:161 says division of versions shows what changed, but a reset of a lower level hides it (`C115_hidden_refuted`); cargo can accept a release with an older API if API and ABI are released independently (`C115_caret_refuted`).
