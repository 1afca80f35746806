{"id": "C01", "title": "Type-level arithmetic computes the number it names", "statement": "For any two type-level naturals, the associated types Add, Mul, AbsSub, Min, Max, Mod (by a power of two), Divide (by a power of two), NextMultipleOf, Increment, saturating decrement, Truncate, BitAnd, BitOr and bit-length, and the comparison bits Equal/NotEqual/Greater/GreaterOrEq/Smaller/SmallerOrEq, denote exactly the number (or truth value) that the corresponding operation on natural numbers gives.", "quantifier": "all pairs of type-level naturals, of any bit length (canonical or with leading zero bits)", "why_tests_cant": "Each concrete type instantiation is a separate program; the tests instantiate a few dozen, the type family is infinite.", "anchors": ["stabby-abi/src/typenum2/unsigned.rs: IUnsigned, IUnsignedBase, IBit, IPowerOf2", "stabby-abi/build.rs: u()"]}
{"id": "C02", "title": "Equal sizes are the same type", "statement": "Type-level operations return the canonical spelling of their result (no leading zero bits) when given canonical operands, so two computations with the same numeric result produce the identical type and the trait bounds that require type equality are satisfiable.", "quantifier": "all pairs of canonical type-level naturals and every operator whose result is used as a size, offset or mask", "why_tests_cant": "Type equality has to hold for every pair of operands, not the sampled ones.", "anchors": ["stabby-abi/src/typenum2/unsigned.rs: _Simplified, AbsSub, BitAnd, Truncate, Modulate"]}
{"id": "C03", "title": "Padding and array types have the requested extent", "statement": "The padding type for N bytes is N bytes long with alignment 1 and all of its bits reported unused; the array type for N elements of T holds exactly N contiguous T's.", "quantifier": "every N and every element layout", "why_tests_cant": "One type per N; tests only instantiate a handful.", "anchors": ["stabby-abi/src/typenum2/unsigned.rs: _Padding, PaddingHelper, PaddingBitMask, Array, _AddToArray"]}
{"id": "C04", "title": "Struct layout equals the platform C layout", "statement": "For a struct with any list of fields, the size, the alignment and the offset of every field that stabby computes are those the C layout algorithm (repr(C)) gives, and no two fields overlap.", "quantifier": "all lists of fields, each of any size and any power-of-two alignment (size a multiple of alignment)", "why_tests_cant": "The space of structs is unbounded and the layout is computed by type-level recursion.", "anchors": ["stabby-abi/src/istable.rs: FieldPair, AlignedAfter, Struct, AlignedStruct"]}
{"id": "C05", "title": "Bits reported unused really are unused", "statement": "For every type and every byte image that encodes a value of it, arbitrarily changing the bits reported as unused leaves an image that encodes the same value; unused bits lie inside the type's size.", "quantifier": "all types built from primitives, references, structs, unions, tuples, options and results, all valid byte images, all masks of flipped bits", "why_tests_cant": "It is a statement about every value of every type in an inductively defined universe.", "anchors": ["stabby-abi/src/istable.rs: UnusedBits, IBitMask", "stabby-abi/src/stable_impls/mod.rs"]}
{"id": "C06", "title": "Values reported forbidden never occur", "statement": "For every type, no byte image that encodes one of its values is recognised as a forbidden value, whatever the content of its unused bits.", "quantifier": "all types of the universe, all valid images", "why_tests_cant": "A single valid image matching a forbidden pattern makes Some(x) read back as None; sampling cannot exclude it.", "anchors": ["stabby-abi/src/istable.rs: IForbiddenValues, is_invalid", "stabby-abi/src/stable_impls/mod.rs"]}
{"id": "C07", "title": "Unions have C layout and export no niche", "statement": "A union of any members has the size and alignment of the C union, every member is at offset 0, and no bit of it is ever used to store a discriminant.", "quantifier": "all lists of member layouts", "why_tests_cant": "Infinite family of types.", "anchors": ["stabby-abi/src/istable.rs: Union", "stabby-macros/src/unions.rs"]}
{"id": "C08", "title": "Niches of explicit-repr enums do not overlap payloads", "statement": "For an enum with an explicit integer representation, the bytes that stabby declares unused are never occupied by the payload of any variant in the compiler's layout.", "quantifier": "all variant lists with payloads of any layout, for repr(u*) and for repr(C,u*)", "why_tests_cant": "Depends on the combination of tag size and alignment of all variants.", "anchors": ["stabby-macros/src/enums.rs: stabby (layout = Tuple<repr, Union<..>>)", "stabby-abi/src/istable.rs: Union, FieldPair"]}
{"id": "C09", "title": "Result/Option construction round-trips", "statement": "For any Ok and Err types and any value v, Result::Ok(v) is observed as Ok and yields v back unchanged, and likewise for Err; Option::Some/None likewise.", "quantifier": "all pairs of types in the universe (including nested results), all values, all contents of unused bits", "why_tests_cant": "The determinant encoding is chosen by a type-level search over niches; each pair of types takes its own path.", "anchors": ["stabby-abi/src/result.rs: Result::Ok, Result::Err, is_ok, match_ref, match_owned", "stabby-abi/src/option.rs", "stabby-abi/src/enums/"]}
{"id": "C10", "title": "Mutating through a match guard keeps the variant", "statement": "After mutating the payload of a Result through match_mut (or ok_mut/err_mut) by writing any valid value of its type, the Result still has the same variant and holds exactly the written value.", "quantifier": "all pairs of types, all old and new values, both variants", "why_tests_cant": "Writing a payload may clobber the niche; correctness must hold for every new byte image.", "anchors": ["stabby-abi/src/result.rs: match_mut, OkGuard, ErrGuard"]}
{"id": "C11", "title": "Niches exported by a sum type are sound", "statement": "The bits a Result reports as unused can be changed without changing either the variant or the payload, and it never reports forbidden values that it can contain, so nesting Results/Options to any depth stays sound.", "quantifier": "all pairs of types and arbitrary nesting depth", "why_tests_cant": "Induction over nesting depth is required.", "anchors": ["stabby-abi/src/result.rs: IStable for Result", "stabby-abi/src/enums/err_non_empty.rs: NicheExporter", "stabby-abi/src/enums/err_size_0.rs"]}
{"id": "C12", "title": "A Result's storage is large enough for both payloads", "statement": "The storage reserved for Result<Ok,Err> spans at least the bytes that writing any Ok or Err payload at its offset touches, and payloads are written at properly aligned addresses.", "quantifier": "all pairs of layouts", "why_tests_cant": "An out-of-bounds write only shows for particular size/alignment combinations.", "anchors": ["stabby-abi/src/result.rs: Storage, Size, OK_OFFSET, ERR_OFFSET", "stabby-abi/src/typenum2/unsigned.rs: IPowerOf2::Divide"]}
{"id": "C13", "title": "Niche-optimised sums never cost more than a tagged union", "statement": "A Result is never larger than the tagged union of its payloads, and it is exactly as large as the larger payload (rounded to alignment) whenever a niche is used.", "quantifier": "all pairs of layouts", "why_tests_cant": "Infinite family of types.", "anchors": ["stabby-abi/src/result.rs: Size", "stabby-abi/src/enums/mod.rs: IDeterminantProvider", "repr-stabby.md"]}
{"id": "C14", "title": "Multi-variant stabby enums dispatch to the variant that built them", "statement": "For a #[repr(stabby)] enum with any number n>=2 of variants, constructing variant i with value v and matching (owned, by ref, by mut) calls exactly the closure of variant i with v.", "quantifier": "all n, all i<n, all payload types and values", "why_tests_cant": "The enum is encoded as a balanced tree of Results whose shape depends on n.", "anchors": ["stabby-macros/src/enums.rs: Variants::recursion, map, map_with_finalizer, repr_stabby"]}
{"id": "C15", "title": "Vec behaves as a sequence", "statement": "Any sequence of Vec operations (new, with_capacity, push/try_push, pop, remove, swap_remove, swap, truncate, reserve, extend-from-copy, clear via truncate, clone, slice access) gives the results and contents the same operations give on a mathematical sequence; a failed allocation leaves the sequence unchanged and hands the element back.", "quantifier": "all finite operation histories, all element values, every pattern of allocation failure", "why_tests_cant": "Histories and failure patterns are unbounded.", "anchors": ["stabby-abi/src/alloc/vec.rs: Vec"]}
{"id": "C16", "title": "Vec drops each element exactly once", "statement": "Over any history in which no destructor panics, each element pushed into a Vec is either moved out to the caller exactly once or dropped exactly once, never both and never neither; memory is freed exactly once.", "quantifier": "all histories including IntoIter and Drain left half-consumed", "why_tests_cant": "Unbounded histories.", "anchors": ["stabby-abi/src/alloc/vec.rs: Drop, truncate, IntoIter, Drain"]}
{"id": "C17", "title": "Drains yield the selected range and keep the rest", "statement": "Draining from..to yields exactly the elements of that range in order (from either end for the double-ended drain), and afterwards the vector holds the elements before from followed by those from to on, even if the drain is dropped early; try_drain returns None exactly for an invalid range.", "quantifier": "all vectors, all ranges, all mixtures of front/back consumption and early drop", "why_tests_cant": "Unbounded combinations of ranges and consumption patterns.", "anchors": ["stabby-abi/src/alloc/vec.rs: try_drain, drain, Drain, DoubleEndedDrain"]}
{"id": "C18", "title": "Capacity promises", "statement": "After a successful reserve(n) the next n pushes do not reallocate; growth is geometric so that n pushes copy O(n) elements in total; capacity is never less than length.", "quantifier": "all histories, all n", "why_tests_cant": "Amortised claims quantify over all n.", "anchors": ["stabby-abi/src/alloc/vec.rs: try_reserve, try_grow, FIRST_CAPACITY"]}
{"id": "C19", "title": "Boxed slices and vectors convert without loss", "statement": "Converting a Vec to a BoxedSlice and back preserves the elements, keeps later frees consistent with the allocation that was made, and try_push on a BoxedSlice appends or returns the value, touching only memory of the slice's allocation.", "quantifier": "all vectors (any length, any capacity, empty included), all histories of conversions and pushes", "why_tests_cant": "Edge cases arise only from particular histories (empty, zero capacity).", "anchors": ["stabby-abi/src/alloc/boxed.rs: BoxedSlice, From<Vec>, From<BoxedSlice> for Vec, try_push, Drop"]}
{"id": "C20", "title": "SingleOrVec behaves as a sequence", "statement": "SingleOrVec gives the same observable contents as a mathematical sequence under push, reserve, truncate, extend, iteration and indexing, whichever of its two representations it is in.", "quantifier": "all histories, all element types (whether or not the representation is niche-packed)", "why_tests_cant": "Correctness depends on the niche choice for the element type and on the history.", "anchors": ["stabby-abi/src/alloc/single_or_vec.rs"]}
{"id": "C21", "title": "String types always hold UTF-8", "statement": "Every String/BoxedStr/ArcStr obtainable by the safe API holds valid UTF-8, conversion from bytes succeeds exactly for valid UTF-8, and concatenation is the concatenation of the contents.", "quantifier": "all byte strings and all histories", "why_tests_cant": "Infinite input space.", "anchors": ["stabby-abi/src/alloc/string.rs"]}
{"id": "C22", "title": "Arc drops its value exactly once, when the last strong handle goes", "statement": "In every interleaving of clone, drop, downgrade, weak clone/drop and upgrade by any number of threads, the value is destroyed exactly once, only after every strong handle has been dropped, and the allocation is released exactly once, after every strong and weak handle has been dropped and the value destroyed.", "quantifier": "all numbers of threads and handles, all interleavings of the individual atomic steps", "why_tests_cant": "Schedules are unbounded and failures need specific interleavings.", "anchors": ["stabby-abi/src/alloc/sync.rs: Arc, Weak, Drop impls, upgrade"]}
{"id": "C23", "title": "upgrade succeeds exactly while the value is alive", "statement": "Weak::upgrade returns Some only if the value has not been destroyed at that point (and then keeps it alive), and returns None only if no strong handle existed at some point during the call.", "quantifier": "all interleavings, including several concurrent upgrades", "why_tests_cant": "Needs specific interleavings of three atomic operations.", "anchors": ["stabby-abi/src/alloc/sync.rs: Weak::upgrade, USIZE_TOP_BIT"]}
{"id": "C24", "title": "Exclusive access from an Arc is exclusive", "statement": "When get_mut/make_mut/try_into_inner grants exclusive access, no other strong handle to the value exists and none can appear while the access lasts.", "quantifier": "all interleavings of two separate counter loads with operations of other threads", "why_tests_cant": "Race window of two loads.", "anchors": ["stabby-abi/src/alloc/sync.rs: is_unique, get_mut, make_mut, try_into_inner"]}
{"id": "C25", "title": "Trait-object pointers release ownership the way the concrete pointer does", "statement": "Dropping a Dyn over Box/Arc/Weak/&mut has the effect on the pointee and its counters that dropping the concrete Box/Arc/Weak/&mut has; upgrading a Dyn<Weak> has the effect of Weak::upgrade.", "quantifier": "all reachable reference-count states", "why_tests_cant": "Miscounts only show after particular histories.", "anchors": ["stabby-abi/src/alloc/sync.rs: IPtrOwned for Weak, Dyn<Weak>::upgrade", "stabby-abi/src/alloc/boxed.rs: IPtrOwned for Box", "stabby-abi/src/fatptr.rs"]}
{"id": "C26", "title": "Destruction happens after every use (memory ordering)", "statement": "Every access to an Arc's value made through a handle happens-before the value's destruction by whichever thread drops the last handle.", "quantifier": "all executions permitted by the C11/Rust memory model for the orderings used", "why_tests_cant": "Weak-memory behaviours do not show up on the machines tests run on.", "anchors": ["stabby-abi/src/alloc/sync.rs: Drop for Arc (Relaxed fetch_sub)"]}
{"id": "C27", "title": "Atomic Arc cells do not lose or duplicate ownership", "statement": "Loading, storing and compare-exchanging an AtomicArc leaves every Arc owned by exactly as many owners as its strong count says: no leak, no use after free.", "quantifier": "all histories of the cell and all interleavings", "why_tests_cant": "Requires interleavings between pointer load and counter increment.", "anchors": ["stabby-abi/src/alloc/sync.rs: AtomicArc"]}
{"id": "C28", "title": "The persistent B-tree set/map is a set/map", "statement": "After any sequence of inserts into ArcBTreeSet/ArcBTreeMap, get(k) returns the element last inserted for k (or nothing), insert returns the previously stored element (map) or the rejected one (set), len is the number of distinct keys and iteration is in strictly increasing key order.", "quantifier": "all insertion sequences, all key orders, all odd node capacities >= 3", "why_tests_cant": "Splits and recursion depth depend on unbounded histories.", "anchors": ["stabby-abi/src/alloc/collections/arc_btree.rs: ArcBTreeSet, ArcBTreeMap, ArcBTreeSetNode"]}
{"id": "C29", "title": "Clones of a persistent B-tree are independent", "statement": "Inserting into one clone of an ArcBTreeSet/Map never changes what any other clone observes.", "quantifier": "all histories of clones and inserts over a shared node graph", "why_tests_cant": "Sharing patterns are unbounded; a missed copy only shows for particular sharing.", "anchors": ["stabby-abi/src/alloc/collections/arc_btree.rs: Arc::make_mut, insert_inner", "stabby-abi/src/alloc/sync.rs: make_mut"]}
{"id": "C30", "title": "B-tree operations stay in bounds and balanced", "statement": "No insertion ever writes beyond a node's capacity or reads an uninitialised entry; all leaves are at the same depth, so the depth is logarithmic in the number of elements.", "quantifier": "all insertion sequences and all node capacities accepted by the constructor", "why_tests_cant": "Unbounded histories; the failing capacities are not instantiated by the tests.", "anchors": ["stabby-abi/src/alloc/collections/arc_btree.rs: insert, push, split, CHECK"]}
{"id": "C31", "title": "Atomic B-tree edits are atomic", "statement": "Concurrent edit calls on an AtomicArcBTreeSet/Map behave as if executed one after the other: the final tree is the composition of all edits in some order consistent with real time, no edit is lost.", "quantifier": "all numbers of threads, all interleavings, all retries", "why_tests_cant": "Interleavings.", "anchors": ["stabby-abi/src/alloc/collections/arc_btree.rs: AtomicArcBTreeSet::edit"]}
{"id": "C32", "title": "Vtable registry interns", "statement": "Registering equal vtables from any threads at any times always yields the same address, and the vtable stored there is equal to the one registered.", "quantifier": "all interleavings of concurrent registrations, unbounded numbers of vtables", "why_tests_cant": "Interleavings.", "anchors": ["stabby-abi/src/vtable/mod.rs: VtVec::insert, VtBtree::insert, insert_typed"]}
{"id": "C33", "title": "Restricted-width unsigned integers are exact", "statement": "uN::new accepts exactly the values below 2^N; get returns the accepted value whatever the content of the unused high bits; addition is exact; comparison and equality agree with get.", "quantifier": "all supported widths, all values, all contents of unused bits", "why_tests_cant": "The wider types have 2^127 values.", "anchors": ["stabby-abi/src/num.rs: makeumask"]}
{"id": "C34", "title": "Restricted-width signed integers are exact", "statement": "iN::new accepts exactly the values from -2^(N-1) to 2^(N-1)-1, MIN and MAX are these bounds, and get returns the accepted value whatever the content of the unused high bits.", "quantifier": "all supported widths, all values, all contents of unused bits", "why_tests_cant": "The wider types have 2^127 values; the tests only check a vacuous implication.", "anchors": ["stabby-abi/src/num.rs: makeimask"]}
{"id": "C35", "title": "NonMax and NonX integers are exact", "statement": "NonMax::new / NonX::new succeed exactly when the value differs from the forbidden one, get returns the original value, and ordering, equality and hashing agree with the represented integer; the stored image is never all zeroes.", "quantifier": "all widths, all values, all forbidden values", "why_tests_cant": "Exhaustive testing is infeasible above 32 bits.", "anchors": ["stabby-abi/src/num.rs: nonmax, NonX"]}
{"id": "C36", "title": "Durations are exact", "statement": "Duration addition, conversions from/to milliseconds, microseconds, nanoseconds and comparison agree with arithmetic on the represented number of nanoseconds.", "quantifier": "all normalised durations (and overflow boundaries)", "why_tests_cant": "64-bit input space with carries.", "anchors": ["stabby/src/time.rs: Duration"]}
{"id": "C37", "title": "Atomic durations and instants store what was given", "statement": "AtomicDuration::load after store(d, sign) returns d truncated to microseconds with the same sign, and the stored encoding preserves order, for every representable duration.", "quantifier": "all durations, all signs, all representable encodings", "why_tests_cant": "64-bit input space.", "anchors": ["stabby/src/time.rs: AtomicDuration, AtomicInstant"]}
{"id": "C38", "title": "Report compatibility means same shape", "statement": "TypeReport::is_compatible holds exactly if both reports have the same name, module, version, kind and the same list of fields with compatible types.", "quantifier": "all pairs of reports of any depth and number of fields", "why_tests_cant": "Recursive data of unbounded size.", "anchors": ["stabby-abi/src/report.rs: TypeReport::is_compatible, Fields"]}
{"id": "C39", "title": "Type ids distinguish types", "statement": "Two types with different reports feed different byte streams to the id hash.", "quantifier": "all pairs of reports", "why_tests_cant": "Collisions are found only by reasoning about the encoding.", "anchors": ["stabby-abi/src/report.rs: hash_report, gen_id"]}
{"id": "C40", "title": "Checked imports validate before use and exactly once", "statement": "CheckedImport returns the imported symbol only after the check succeeded, the cell holding it is written at most once and never read before it is written, in every interleaving; once validated it stays validated; a failed check is reported to every caller.", "quantifier": "all numbers of threads and interleavings", "why_tests_cant": "Interleavings and memory ordering.", "anchors": ["stabby-abi/src/checked_import.rs: CheckedImport::as_ref, CanariedImport"]}
{"id": "C41", "title": "Wakers neither leak nor die early", "statement": "For any history of cloning, waking and dropping of wakers passed across the stable boundary, the underlying waker is woken exactly once per wake, stays alive until the last clone is dropped, and is released exactly once.", "quantifier": "all histories of clone/wake/wake_by_ref/drop over any number of clones", "why_tests_cant": "Unbounded histories.", "anchors": ["stabby-abi/src/future.rs: StableWaker, SharedStableWaker, StableWakerInner"]}
{"id": "C42", "title": "Upcasting preserves behaviour", "statement": "Casting a trait object to a super-trait object leaves each remaining method, the drop glue and the pointee unchanged.", "quantifier": "all vtable compositions (any number of traits with Send/Sync markers anywhere) and every chain of into_super casts", "why_tests_cant": "Infinite family of vtable types.", "anchors": ["stabby-abi/src/fatptr.rs: into_super, impl_super", "stabby-abi/src/vtable/mod.rs: VTable, VtSend, VtSync"]}
{"id": "C43", "title": "Send/Sync of trait objects is justified", "statement": "A trait object type is Send (Sync) only if every value that can be behind it may be sent (shared) in the way that pointer kind allows, following the std rules for &T, &mut T, Box<T>, Arc<T>.", "quantifier": "all vtable compositions and pointer kinds", "why_tests_cant": "It is a statement about what the type system admits, not about one program.", "anchors": ["stabby-abi/src/vtable/mod.rs: HasSendVt, HasSyncVt", "stabby-abi/src/fatptr.rs: Send/Sync for Dyn, DynRef"]}
{"id": "C44", "title": "Trait objects over references reach the pointee", "statement": "Accessing the value of a trait object (method call, downcast) refers to the object it was built from, for every pointer kind.", "quantifier": "all pointees, all pointer kinds", "why_tests_cant": "Depends on the address of the pointer variable itself; tests only exercise Box and Arc.", "anchors": ["stabby-abi/src/fatptr.rs: IPtr for &T, IPtr/IPtrMut for &mut T, stable_downcast"]}
{"id": "C45", "title": "Stable downcasts are type-safe", "statement": "stable_downcast to T returns a value only if the trait object was built from a T.", "quantifier": "all pairs of concrete types", "why_tests_cant": "Depends on equality of reports of arbitrary types.", "anchors": ["stabby-abi/src/fatptr.rs: stable_downcast*", "stabby-abi/src/report.rs", "stabby-abi/src/num.rs: NonX REPORT"]}
{"id": "C46", "title": "Allocation layouts are big enough and aligned", "statement": "For any element layout and count, the block requested from the allocator by alloc_array/realloc holds the bookkeeping prefix and all elements, the element pointer is aligned for the element type, and the block passed to free/realloc is one returned by the allocator.", "quantifier": "all element sizes, alignments, counts and allocator return addresses", "why_tests_cant": "Depends on the address the allocator returns.", "anchors": ["stabby-abi/src/alloc/mod.rs: Layout, AllocPtr, AllocPrefix"]}
{"id": "C47", "title": "Layout arithmetic matches C", "statement": "Layout::concat, realign, next_matching and array give the size/alignment of the C layout of the concatenation and never move an offset backwards.", "quantifier": "all layouts", "why_tests_cant": "64-bit input space.", "anchors": ["stabby-abi/src/alloc/mod.rs: Layout"]}
{"id": "C48", "title": "Bundled allocators honour the allocator contract", "statement": "RustAlloc and LibcAlloc return blocks aligned as requested whose requested bytes are within the underlying block, and realloc preserves the first min(old,new) bytes.", "quantifier": "all layouts, all sequences of alloc/realloc/free", "why_tests_cant": "Particular alignments/addresses only.", "anchors": ["stabby-abi/src/alloc/allocators/rust_alloc.rs", "stabby-abi/src/alloc/allocators/libc_alloc.rs"]}
{"id": "C49", "title": "tyeval! means what its operators say", "statement": "The type produced by tyeval! for an expression denotes the value of the expression with each operator at its usual meaning, with exactly the grouping given by parentheses; ambiguous expressions are rejected.", "quantifier": "all token sequences", "why_tests_cant": "Infinite language.", "anchors": ["stabby-macros/src/tyops.rs: TyExpr::from, tyeval"]}
{"id": "C50", "title": "Canary selections are faithful", "statement": "Parsing a canary specification gives exactly the union of the named canaries or an error, and iterating it yields each selected canary once; every canary the loader requires is one a paranoid export provides.", "quantifier": "all strings and all canary sets", "why_tests_cant": "Infinite input space.", "anchors": ["stabby-macros/src/functions.rs: CanarySpec", "stabby/src/libloading.rs: get_canaried"]}
{"id": "C51", "title": "Guards for temporary conversions write back", "statement": "ref_as/mut_as expose the converted value without dropping the original twice, and dropping the mutable guard stores back exactly the conversion of the final temporary.", "quantifier": "all conversions and all mutations", "why_tests_cant": "Ownership across arbitrary user conversions.", "anchors": ["stabby-abi/src/as_mut.rs: RefAs, MutAs"]}
{"id": "C52", "title": "Arc slices own their elements like Arc", "statement": "Converting Vec, Arc and ArcSlice into each other preserves elements and ownership: afterwards the number of owners equals the strong count, nothing is freed while owned.", "quantifier": "all vectors (any length/capacity) and all histories of conversions", "why_tests_cant": "Edge cases of empty and zero-capacity vectors.", "anchors": ["stabby-abi/src/alloc/sync.rs: ArcSlice, From<Arc> for ArcSlice, From<Vec> for ArcSlice, TryFrom<ArcSlice> for Vec"]}
{"id": "C53", "title": "Declared single-niche types have exactly one spare value", "statement": "A type that claims exactly one niche (so that core Option<T> is accepted as stable) has exactly one spare value across all of its scalar fields, so that the compiler has a single possible encoding for None.", "quantifier": "all types that carry the claim", "why_tests_cant": "Counts over all values of the fields of arbitrary types.", "anchors": ["stabby-abi/src/istable.rs: HasExactlyOneNiche", "stabby-abi/src/stable_impls/mod.rs: Option<T>"]}
{"id": "C54", "title": "Run-time validity check agrees with the forbidden values", "statement": "is_invalid on a buffer returns true only for (soundness), and for every (completeness), byte image that the type declares forbidden.", "quantifier": "all types, all buffers", "why_tests_cant": "All byte images of all types.", "anchors": ["stabby-abi/src/istable.rs: IStable::is_invalid, IForbiddenValues::is_invalid"]}
{"id": "C55", "title": "Persistent B-trees neither leak nor double-drop", "statement": "Over any history of inserts, clones and drops of ArcBTreeSet/Map, every value inserted or cloned is stored, handed back or dropped exactly once; every allocated node is reachable from a set that has not been dropped; once all sets are dropped no node is left.", "quantifier": "all histories, all sharing patterns, all odd node capacities >= 3", "why_tests_cant": "Double drops and leaks depend on the sharing pattern of unbounded histories and are not visible in return values.", "anchors": ["stabby-abi/src/alloc/collections/arc_btree.rs: split, insert, push, Drop for ArcBTreeSetNodeInner", "stabby-abi/src/alloc/sync.rs: Arc::make_mut, Drop"]}
{"id": "C56", "title": "Plain data holds no pointers", "statement": "A type that stabby accepts as plain data (IPod, so that its bytes may be received from anywhere and reinterpreted) contains no pointer, reference or function pointer at any depth; and a type without pointers that is not marked NotPod is accepted.", "quantifier": "all types built from primitives, structs, tuples, unions, arrays, results, StableLike and NotPod", "why_tests_cant": "Quantifies over all compositions of types; a test can only instantiate a few.", "anchors": ["stabby-abi/src/istable.rs: IPod, NotPod, ContainsIndirections", "stabby-abi/src/lib.rs: StableLike", "stabby-abi/src/vtable/mod.rs: VtDrop"]}
{"id": "C57", "title": "MaybeResolved yields its value once", "statement": "A MaybeResolved<T, F> made with a value answers Ready(value) to its first poll; one made with a future answers what the future answers until the future is ready, and drops the future then, exactly once. After a call that answered Ready, every poll answers Pending and dropping the enum drops nothing. No value is produced twice and nothing is read as a type it is not.", "quantifier": "all value types T and future types F of stabby's universe whose storage is not truncated, all behaviours of the inner future (any sequence of answers, arbitrary bytes in its padding), all numbers of polls", "why_tests_cant": "whether the guard of match_mut overwrites the new state depends on the layouts of T and F: it happens exactly when the determinant is a spare bit; a test with one pair of types says nothing about the others", "anchors": ["stabby-abi/src/future.rs:322-371", "stabby-abi/src/result.rs:314-345,509-562", "stabby-macros/src/enums.rs:518-525"]}
{"id": "C58", "title": "Functions are loaded only with the signature they were exported with", "statement": "get_stabbied::<fn type> and #[stabby::import] hand out a function exported with #[stabby::export] exactly when the requested signature is the exported one: same calling convention, same unsafety, as many arguments, and the same types in the same places. Otherwise loading fails and reports both signatures; the function is never handed out. A symbol that was not exported is reported as missing.", "quantifier": "all function signatures over all types, all symbol names, all libraries, all interleavings of threads that use an import", "why_tests_cant": "Quantifies over pairs of signatures of arbitrary types; a mismatch that is accepted is undefined behaviour at the call, not a test failure.", "anchors": ["stabby/src/libloading.rs: get_stabbied", "stabby-macros/src/functions.rs: export_with_report, import", "stabby-abi/src/stable_impls/mod.rs: fnstable, union", "stabby-abi/src/report.rs: TypeReport::is_compatible"]}
{"id": "C59", "title": "Send and Sync of containers are justified", "statement": "If safe code may give a stabby container (Box, Vec, Arc, slices, Result, Option, enums, SingleOrVec, B-trees, guards, imports) to another thread, or share a reference to it with other threads, then everything that the thread can get out of it through the API may be given or shared likewise: what it owns is Send, what it shares is Sync. And the traits are not withheld where this holds.", "quantifier": "all types built from these containers, all user types and allocators with arbitrary traits, all sequences of API calls", "why_tests_cant": "Quantifies over all types; a wrong trait implementation compiles silently and shows up as a data race only.", "anchors": ["stabby-abi/src/alloc/{boxed,vec,sync,single_or_vec}.rs: unsafe impl Send/Sync", "stabby-abi/src/result.rs: Result, OkGuard, ErrGuard", "stabby-abi/src/alloc/collections/arc_btree.rs: AtomicArcBTreeSet", "stabby-abi/src/slice.rs", "stabby-abi/src/as_mut.rs", "stabby-abi/src/checked_import.rs"]}
{"id": "C60", "title": "Shortening lifetimes of containers is sound", "statement": "Where the compiler lets a stabby container be used at a type with other lifetimes, everything read through it was stored at a type that may be read so, everything stored through it may be read by those who still see the original type, and no borrow is used for longer than it was made for. Owning and shared containers may be shortened like those of std.", "quantifier": "all containers, all element types with lifetimes, all lifetimes", "why_tests_cant": "Variance is inferred by the compiler for all instantiations; an unsound one compiles silently and shows up as a dangling reference.", "anchors": ["stabby-abi/src/slice.rs: Slice, SliceMut", "stabby-abi/src/str.rs", "stabby-abi/src/result.rs: OkGuard, ErrGuard", "stabby-abi/src/alloc/{boxed,vec,sync}.rs", "stabby-abi/src/as_mut.rs", "stabby-abi/src/fatptr.rs: Dyn, DynRef", "stabby/src/libloading.rs: Symbol"]}
{"id": "C61", "title": "Results and options behave like core's", "statement": "The methods and trait implementations of stabby's Result and Option (matching by value and by reference, conversions from and to core, ok, err, map, and_then, unwrap and relatives, clone, comparison, hashing, drop) have the effects of their counterparts in core: they call the same user code with the same payloads in the same order, return the same value or unwind alike, and every payload is moved out or dropped exactly once even if user code unwinds. Equal results hash alike.", "quantifier": "all payload types in the universe of C05 with untruncated storage, all values, all user closures and implementations, unwinding or not", "why_tests_cant": "Quantifies over all layouts, all closures, and over unwinding at every call of user code.", "anchors": ["stabby-abi/src/result.rs:101-470", "stabby-abi/src/option.rs"]}
{"id": "C62", "title": "Unwinding user code leaves vectors valid", "statement": "When a destructor of an element, Clone of an element, or an iterator given to extend unwinds out of an operation of Vec (push, extend, truncate, drain, into_iter, clone, drop), the vector remains valid, no element is ever dropped twice or dropped after it was handed out, and elements and blocks are lost only where that is documented: nothing at all if no operation unwinds.", "quantifier": "all histories of operations on a vector, all allocator answers, all choices of which destructors and clones unwind and after how many items an iterator unwinds, unwinding being caught between operations", "why_tests_cant": "Quantifies over all histories and over the points at which user code unwinds; the tests contain no unwinding destructor.", "anchors": ["stabby-abi/src/alloc/vec.rs:151-157", "stabby-abi/src/alloc/vec.rs:247-255", "stabby-abi/src/alloc/vec.rs:454-463", "stabby-abi/src/alloc/vec.rs:539-571", "stabby-abi/src/alloc/vec.rs:661-668", "stabby-abi/src/alloc/vec.rs:723-739"]}
{"id": "C63", "title": "The layout declared for primitive types is the platform's", "statement": "On every target for which stabby compiles, the size and alignment that IStable declares for each primitive type (integers, NonZero types, floats, pointers, references, function pointers, atomics, c_void, Ordering, file descriptors) are those rustc gives it; its forbidden values are bit patterns that are not values of the type, no bit is declared unused, the niche claim agrees with the number of invalid values, and exactly the types that hold pointers say that they contain indirections.", "quantifier": "all targets (pointer width, alignments of integers, pointers and floats), all primitive types, all bit patterns", "why_tests_cant": "The assertions compiled by check! cover the types it is applied to, on the one target being compiled for; they compare sizes and alignments, not bit patterns.", "anchors": ["stabby-abi/src/stable_impls/mod.rs:40-52", "stabby-abi/src/stable_impls/mod.rs:244-692", "stabby-abi/src/stable_impls/mod.rs:846-926", "stabby-abi/src/stable_impls/mod.rs:985-995"]}
{"id": "C64", "title": "The layout-optimality check means what it says", "statement": "A struct accepted by #[stabby] (without no_opt) cannot be made smaller by reordering its fields, and every struct can be made acceptable by reordering its fields, as the error message advises. has_optimal_layout of an enum says whether it is smaller than with #[repr(C)], and an enum laid out by stabby is never larger than the same enum with #[repr(u8)].", "quantifier": "all lists of fields and variants, all layouts rustc may choose", "why_tests_cant": "Quantifies over all orders of all lists of fields and over the layouts of the compiler; tests compile a few fixed types.", "anchors": ["stabby-macros/src/structs.rs:115", "stabby-macros/src/structs.rs:129", "stabby-macros/src/structs.rs:202-214", "stabby-macros/src/structs.rs:258-260", "stabby-macros/src/enums.rs:546-579"]}
{"id": "C65", "title": "Generated vtables hold the implementor's methods", "statement": "For every trait marked #[stabby], calling a method through a trait object calls the implementation of that method by the type the object was made from, and the function pointer that is stored in the vtable has, once the vtable's parameters are instantiated, exactly the type of the field it is stored in. Methods that take &self come first in the vtable, in the order in which they are written; shared trait objects have exactly these.", "quantifier": "all traits: any items in any order, any types built from paths, references, pointers, arrays, function pointers, generics and Self::..", "why_tests_cant": "Tests expand a handful of traits; the property is about every syntactic shape of signature, and a transmute between unequal function pointer types is accepted by the compiler.", "anchors": ["stabby-macros/src/traits.rs:49-137", "stabby-macros/src/traits.rs:246-406", "stabby-macros/src/traits.rs:421-498", "stabby-macros/src/traits.rs:504-532", "stabby-macros/src/traits.rs:660-747", "stabby-macros/src/traits.rs:779-891"]}
{"id": "C66", "title": "Checked traits exchange only stable types", "statement": "The vtable of a trait marked #[stabby(checked)] is ABI-stable exactly when all the types in the signatures of its methods are; checking does not refuse traits whose signatures are fine.", "quantifier": "all traits, all types in signatures, all predicates saying which types are stable", "why_tests_cant": "Tests only show that some checked traits compile; that unstable types are refused needs compile-fail tests for every shape of type.", "anchors": ["stabby-macros/src/traits.rs:448-471", "stabby-macros/src/traits.rs:599-606", "stabby-macros/src/traits.rs:939-1016", "stabby-macros/src/traits.rs:1103-1146", "stabby/TUTORIAL.md:330-332", "stabby-abi/src/lib.rs:346-357"]}
{"id": "C67", "title": "Boxes and boxed closures own their value and their memory", "statement": "Whatever sequence of new, make, into_inner, into_raw/from_raw, clone, replacement, conversion to a trait object, FnOnce call and drop a program performs, and whichever allocation fails or user constructor, clone, destructor or closure unwinds: every value is in one place only and destroyed at most once, no block is used after it was freed, calling a boxed FnOnce consumes the closure once and frees its block, and no block is leaked.", "quantifier": "all programs, all answers of the allocator, all choices of user code that unwinds", "why_tests_cant": "Tests box and unbox a few values; failing allocations, unwinding constructors and destructors, and their interleavings with raw pointers and trait objects are not exercised.", "anchors": ["stabby-abi/src/alloc/boxed.rs:77-268", "stabby-abi/src/alloc/mod.rs:227-264", "stabby-abi/src/fatptr.rs:354-360", "stabby-macros/src/gen_closures.rs:44-75"]}
{"id": "C68", "title": "Vtable equality and downcasts", "statement": "Two vtables of the same type are equal exactly if they hold the same functions, equality is an equivalence, and equal vtables have equal hashes. Within one shared object, downcast, downcast_ref and downcast_mut succeed for the type that the trait object was made from and only for it, also after traits were removed by into_super; for objects made in another shared object they return None.", "quantifier": "all vtable types, all memories, all histories of the vtable registry, all conversions", "why_tests_cant": "Tests downcast one object that was never converted; merged functions, copies of vtables and chains of into_super are not covered.", "anchors": ["stabby-abi/src/vtable/mod.rs:260-270", "stabby-abi/src/vtable/mod.rs:349-371", "stabby-macros/src/traits.rs:702-711", "stabby-abi/src/fatptr.rs:125-144", "stabby-abi/src/fatptr.rs:161-199", "stabby-abi/src/fatptr.rs:267-326"]}
{"id": "C69", "title": "Stable slices and strings are views", "statement": "Slice, SliceMut, Str and StrMut give back exactly the slice or string they were made from, compare and hash as it does, writing through them changes exactly the element written to, and safe code can neither lengthen them nor make them from nothing; all this also for empty slices.", "quantifier": "all memories, all slices, all elements that are not zero-sized", "why_tests_cant": "Dangling references to empty slices do not show up when the tests run; no test uses the public fields.", "anchors": ["stabby-abi/src/slice.rs:21-89", "stabby-abi/src/slice.rs:115-148", "stabby-abi/src/slice.rs:173-201", "stabby-abi/src/str.rs:17-90"]}
{"id": "C70", "title": "Serialisation round trips", "statement": "With the feature serde, every value of a type that is both Serialize and Deserialize can be deserialised from what it was serialised to, in every format, and comes back equal; whatever the input, deserialising makes only values of the type (never a forbidden number) and does not allocate more than the input warrants.", "quantifier": "all types built from the implementations, all values, all formats, all inputs", "why_tests_cant": "No test of the repository uses serde; round trips depend on the format and on the characters in the strings.", "anchors": ["stabby-abi/src/str.rs:134-174", "stabby-abi/src/slice.rs:204-246", "stabby-abi/src/num.rs:20-22", "stabby-abi/src/num.rs:101-103", "stabby-abi/src/option.rs:184-211", "stabby-abi/src/result.rs:564-592", "stabby-abi/src/alloc/vec.rs:838-878", "stabby-abi/src/alloc/string.rs:371-392", "stabby-abi/src/alloc/boxed.rs:503-541", "stabby-abi/src/alloc/sync.rs:937-975"]}
{"id": "C71", "title": "Vectors of zero-sized elements", "statement": "A Vec of a zero-sized type behaves as a sequence: elements can be pushed, extended, cloned, popped, removed and drained, and the length is what it is for a sequence, without allocation, panic or undefined behaviour, in every build and for every alignment.", "quantifier": "all histories, all alignments, all builds, all address widths", "why_tests_cant": "Nothing in the repository instantiates a vector with a zero-sized type; `push` of one does not even compile.", "anchors": ["stabby-abi/src/alloc/vec.rs:49-64", "stabby-abi/src/alloc/vec.rs:75-89", "stabby-abi/src/alloc/vec.rs:133-243", "stabby-abi/src/alloc/vec.rs:390-463"]}
{"id": "C72", "title": "Stable functions", "statement": "A function annotated with #[stabby] compiles exactly if its calling convention is stable (or not written, then it is C) and all types of its signature are, and is then the function that was written: same parameters, generics, bounds, safety, constness and result (a stable future, Send and Sync unless waived, if it is async). A function that compiles can be exported with #[stabby::export], and the type whose report callers are compared with is the type of the function.", "quantifier": "all signatures, all attributes, all assignments of stability to types", "why_tests_cant": "Tests compile a handful of signatures; const unsafe functions, where clauses, async functions with parameters and exports without a convention are in none of them.", "anchors": ["stabby-macros/src/functions.rs:79-154", "stabby-macros/src/functions.rs:307-346", "stabby-abi/src/stable_impls/mod.rs:849-910"]}
{"id": "C73", "title": "Published values are visible", "statement": "Whoever finds a value that another thread published through an AtomicArc, an AtomicArcBTreeSet (edit, get), the registry of vtables or a CheckedImport also sees its contents as they were written, and those of everything it points to.", "quantifier": "all programs of any number of threads, all interleavings, all stale reads the memory model allows, all orderings passed by callers", "why_tests_cant": "On x86 every load is an acquire load, so tests on it cannot fail; the failing executions need another processor or compiler.", "anchors": ["stabby-abi/src/alloc/sync.rs:859-930", "stabby-abi/src/alloc/collections/arc_btree.rs:33-74", "stabby-abi/src/vtable/mod.rs:101-156", "stabby-abi/src/checked_import.rs:109-142"]}
{"id": "C74", "title": "Panics and allocation failures during insertion into B-trees", "statement": "An insertion into an ArcBTreeSet that unwinds (because a comparison or a clone of an element panics, or because memory cannot be allocated) leaves the set with the elements it had, sorted and balanced; the value that was to be inserted is dropped; every element and every clone is dropped exactly once, none leaks, and the allocator is dropped once.", "quantifier": "all split limits 2q+1 with q>=1, all sets and sharing of their nodes with other sets, all values, both settings of REPLACE_ON_INSERT, and every point at which a user call or an allocation fails", "why_tests_cant": "The failing call can be any of the comparisons, clones and allocations of an insertion, in sets of any size and sharing; tests do not fail allocations at all.", "anchors": ["stabby-abi/src/alloc/collections/arc_btree.rs:239-248", "stabby-abi/src/alloc/collections/arc_btree.rs:381-405", "stabby-abi/src/alloc/collections/arc_btree.rs:486-526", "stabby-abi/src/alloc/collections/arc_btree.rs:549-738", "stabby-abi/src/alloc/sync.rs:239-251"]}
{"id": "C75", "title": "Representation attributes mean the same to stabby and to the compiler", "statement": "Whatever #[repr(..)] attributes are put on a struct, union or enum that #[stabby] accepts, the size, the alignment and the places of fields that stabby computes niches from are the ones the compiler uses; or else compiling fails.", "quantifier": "all combinations of repr attributes that rustc accepts, all lists of fields, all layouts that rustc may choose where it is free to", "why_tests_cant": "The layout of structs without repr(C) is chosen by the compiler and changes between versions; tests only cover the attributes somebody thought of, on one compiler.", "anchors": ["stabby-macros/src/structs.rs:58-87", "stabby-macros/src/structs.rs:125-192", "stabby-macros/src/structs.rs:234-263", "stabby-macros/src/unions.rs:56-101", "stabby-macros/src/enums.rs:23-105", "stabby-macros/src/enums.rs:150-172", "stabby-macros/src/enums.rs:233-273"]}
{"id": "C76", "title": "CType is a faithful stand-in", "statement": "With the feature experimental-ctypes, <T as IStable>::CType has the size and the alignment of T; every byte that can hold data of a T is part of a field of the CType rather than padding, so that passing a T by way of its CType loses nothing; and C code that declares the CType passes it in the same kind of registers.", "quantifier": "all targets, all types built from primitive types, structs, unions, tagged enums, arrays, Results and wrappers", "why_tests_cant": "The assertion in ID of structs and enums compares sizes and alignments only, of one type on one target, and is only evaluated if ID is used; no test enables the feature.", "anchors": ["stabby-abi/src/istable.rs:47-49", "stabby-abi/src/istable.rs:535-537", "stabby-abi/src/stable_impls/mod.rs:19-38", "stabby-abi/src/stable_impls/mod.rs:244-445", "stabby-abi/src/typenum2/unsigned.rs:417-418", "stabby-abi/src/typenum2/unsigned.rs:546-630", "stabby-macros/src/lib.rs:379-424", "stabby-macros/src/structs.rs:215-227", "stabby-macros/src/enums.rs:276-298", "stabby-abi/src/lib.rs:262-306", "stabby-abi/src/result.rs:30-36"]}
{"id": "C77", "title": "Same report, same type", "statement": "Two types, generic or recursive or both, from the same program or from two versions of a library, have equal reports only if they are the same type: the same declaration with the same arguments (types, lifetimes, constants), the fields of which have, at any depth, the same types.", "quantifier": "all pairs of closed types over all declarations with any number of type, lifetime and const parameters, with any use of Self", "why_tests_cant": "The tests compare reports of a handful of types without parameters. Whether reports of instances of generic types, in which Self is replaced by a placeholder, can coincide quantifies over all declarations.", "anchors": ["stabby-macros/src/lib.rs:426-463", "stabby-macros/src/lib.rs:485-711", "stabby-macros/src/structs.rs:138", "stabby-macros/src/structs.rs:156", "stabby-macros/src/enums.rs:189", "stabby-macros/src/unions.rs:73", "stabby-abi/src/istable.rs:594-596", "stabby-abi/src/stable_impls/mod.rs:256-266", "stabby-abi/src/fatptr.rs:146-151", "stabby-abi/src/fatptr.rs:362-372", "stabby-abi/src/alloc/mod.rs:257-264"]}
{"id": "C78", "title": "Trait objects keep pointer and vtable together", "statement": "Whatever safe code does with trait objects and with the pointers it gets from them by ptr and ptr_mut (copies, exchanges), every method called on an object runs the code of the type of the value behind it, and every value is destroyed exactly once, by the destructor of its type, when the last pointer to it goes.", "quantifier": "all sequences of operations on any number of objects and pointers (Box and Arc), of any types", "why_tests_cant": "The tests call methods on objects, and never look at the pointers inside. Which sequences of exchanges and copies keep pointer and vtable together quantifies over programs.", "anchors": ["stabby-abi/src/fatptr.rs:201-209", "stabby-abi/src/fatptr.rs:211-220", "stabby-abi/src/fatptr.rs:354-360", "stabby-abi/src/alloc/boxed.rs:226-256", "stabby-abi/src/alloc/sync.rs:285-307", "stabby-abi/src/alloc/sync.rs:727-757", "stabby-macros/src/traits.rs:834", "stabby-macros/src/traits.rs:885"]}
{"id": "C79", "title": "Futures stay where they were polled", "statement": "However a future is polled through stabby (by value with stabby's Future, through a reference or as a trait object), its n-th poll returns what its n-th poll returns without stabby; and whatever safe code does, a future that is not Unpin is not moved between its first poll and its end.", "quantifier": "all programs that make, move, box, poll, exchange and drop any number of futures of any types and behaviours", "why_tests_cant": "The tests poll boxed futures to completion. A future that is moved between polls works in most cases, and breaks silently if it refers to itself.", "anchors": ["stabby-abi/src/future.rs:176-201", "stabby-abi/src/future.rs:203-312", "stabby-abi/src/fatptr.rs:218-220", "stabby-abi/src/fatptr.rs:327-334", "stabby-abi/src/stable_impls/mod.rs:268-278"]}
{"id": "C80", "title": "Durations as floating-point numbers and points in time of std", "statement": "Duration::from_secs_f64 returns the duration nearest to its argument, or panics if there is none; as_secs_f64 returns the number of seconds up to rounding, and gives back the same duration; SystemTime and Instant convert to the same point in time of std and back, keep the order, and AtomicInstant returns the last point written to it, in microseconds.", "quantifier": "all binary64 numbers; all points in time std can represent; all sequences of operations on an AtomicInstant", "why_tests_cant": "2^64 floating-point numbers; wrong digits appear for particular numbers such as 2.3 only. Points before the epoch do not occur in tests.", "anchors": ["stabby/src/time.rs:35-46", "stabby/src/time.rs:56-58", "stabby/src/time.rs:174-218", "stabby/src/time.rs:247-285", "stabby/src/time.rs:288-328"]}
{"id": "C81", "title": "Equality, order and hashing of containers agree", "statement": "Containers and strings compare equal exactly if their contents do, place by place; their order is the lexicographic one, total, the same through partial_cmp and cmp, and consistent with equality; two values, of the same type or of different ones, that == says are equal feed the same to a hasher. The same holds for entries of maps and for reports.", "quantifier": "all types of elements with their own equality, order and hash; all contents; all pairs of types for which == compiles", "why_tests_cant": "Contracts between several trait implementations; a hash that differs only between types is not seen by comparing values of one type.", "anchors": ["stabby-abi/src/alloc/vec.rs:464-479", "stabby-abi/src/alloc/single_or_vec.rs:337-381", "stabby-abi/src/alloc/boxed.rs:358-378", "stabby-abi/src/alloc/sync.rs:564-584", "stabby-abi/src/alloc/string.rs:112-132", "stabby-abi/src/alloc/string.rs:218-238", "stabby-abi/src/alloc/string.rs:316-336", "stabby-abi/src/str.rs:23", "stabby-abi/src/slice.rs:81-113", "stabby-abi/src/alloc/collections/arc_btree.rs:84-109", "stabby-abi/src/report.rs:53-63"]}
{"id": "C82", "title": "Slices brought back by force_upgrade are counted like others", "statement": "WeakSlice::force_upgrade always returns an ArcSlice through which the elements can be read, even after all other strong handles are gone. However threads interleave it with clones, drops, downgrades, upgrade and other force_upgrades, the memory of the slice is released exactly once, after the last handle is gone and not before.", "quantifier": "all numbers of threads and handles, all interleavings of the atomic accesses of all operations on one slice", "why_tests_cant": "The errors need a particular interleaving of three threads.", "anchors": ["stabby-abi/src/alloc/sync.rs:651-684", "stabby-abi/src/alloc/sync.rs:585-597", "stabby-abi/src/alloc/sync.rs:712-724"]}
{"id": "C83", "title": "Types in the signatures of traits are understood as they are written", "statement": "Whatever type is written in the signature of a method of a #[stabby] trait, the type that the macro puts into the vtable reads, by Rust's grammar, as the same type; types that Rust takes for the same are either both accepted or both refused; two types have the same tokens, by which the macro finds types that depend on Self again, exactly if they are the same.", "quantifier": "all types: paths with generic arguments, qualified paths, references, pointers, arrays, function pointers, (), !, nested to any depth", "why_tests_cant": "Infinitely many types; a token that is lost changes the meaning only where two modules have the same name.", "anchors": ["stabby-macros/src/traits.rs:1035-1101", "stabby-macros/src/traits.rs:1147-1176", "stabby-macros/src/traits.rs:1221-1315", "stabby-macros/src/traits.rs:45-48"]}
{"id": "C84", "title": "Importing functions: names, symbols and types", "statement": "#[stabby::import] on a block of functions makes a callable item for each of them, with its name, visibility and signature, whose types are those that the signature names where it is written. It makes the linker look for exactly the symbols that #[stabby::export] defines for these functions (with the chosen canaries, if any), in the library that the arguments say. Blocks it can't import are refused by it, and foreign types of the block can be named like the functions.", "quantifier": "all argument lists, blocks, builds of the macros, and all meanings of the names in the modules", "why_tests_cant": "What a name stands for depends on what else is in scope; tests import one or two functions that are typed by absolute paths.", "anchors": ["stabby-macros/src/functions.rs:383-502"]}
{"id": "C85", "title": "dynptr! and vtable! name the trait object that is written", "statement": "dynptr!(T) is, for every way of writing a trait object type T that Rust accepts, stabby's stand-in for T: the same pointer, the same traits in the same order and the same lifetime. vtable!(A + B) names the same traits in the same order, and gives the vtable that dynptr! uses exactly for the same list of bounds.", "quantifier": "all paths of pointers, lists of traits, markers and lifetimes, references with and without lifetimes", "why_tests_cant": "Lists of bounds are unbounded, and a lifetime that is too long only shows in programs that are rejected.", "anchors": ["stabby-macros/src/lib.rs:106-236", "README.md:62-67"]}
{"id": "C86", "title": "Options of the attribute mean what they say", "statement": "For every list of the options no_opt, version and module on a type, the attribute accepts exactly lists whose versions are integers below 2^32 (and whose no_opt is on a struct): the layout is checked for optimality unless no_opt is there, the report has the value of the version, and the module that is given, else that of the type. The order of options that are given once doesn't matter. On functions, unsend, unsync and a lifetime may come in any order.", "quantifier": "all lists of options, integer literals, module expressions, with and without a comma at the end", "why_tests_cant": "Lists of options and literals are unbounded; a version that is misread only shows in reports of other builds.", "anchors": ["stabby-macros/src/structs.rs:21-56", "stabby-macros/src/enums.rs:105-138", "stabby-macros/src/unions.rs:21-54", "stabby-macros/src/functions.rs:26-79", "stabby-macros/src/lib.rs:302-348"]}
{"id": "C87", "title": "The bounds of a trait are those of its vtable and of its trait objects", "statement": "For every trait that #[stabby] accepts, the where clauses of the generated vtable, constructor and trait require of the associated types exactly the bounds that the trait requires, of the same types and in the same order, and the associated types of {Trait}Dyn have exactly the bounds of those of the trait; bounds on the trait's parameters, inline or in its where clause, are kept, and parameters may have whatever bounds and defaults Rust allows.", "quantifier": "all traits: any number of associated types, trait and lifetime bounds, higher-ranked or with ?, parameters with bounds and defaults", "why_tests_cant": "The lists of bounds and parameters are unbounded, and whether clauses are well-formed depends on what follows them.", "anchors": ["stabby-macros/src/traits.rs:332-392", "stabby-macros/src/traits.rs:504-559", "stabby-macros/src/traits.rs:615-649", "stabby-macros/src/traits.rs:720-768"]}
{"id": "C88", "title": "The fields of a vtable have the lifetimes, the convention and the safety of the trait's methods", "statement": "For every method of a #[stabby] trait that Rust allows in a trait object, with a stable calling convention: the field of the vtable, the pointer to the implementation and the method of {Trait}Dyn are legal, take and return references with the same lifetimes as the trait's method (those that aren't written included), have the same calling convention, and are unsafe exactly if the method is.", "quantifier": "all methods: any receiver, parameters and output with any lifetimes written or not, any lifetime parameters with any bounds, any convention", "why_tests_cant": "Signatures are unbounded, and the rules for lifetimes that aren't written depend on all the lifetimes of a signature.", "anchors": ["stabby-macros/src/traits.rs:176-193", "stabby-macros/src/traits.rs:246-331", "stabby-macros/src/traits.rs:421-447", "stabby-macros/src/traits.rs:472-498"]}
{"id": "C89", "title": "Formatting shows the contents", "statement": "Formatting a Vec, BoxedSlice or ArcSlice in hexadecimal writes the text of each element in order with a colon between any two, and nothing else, so that different sequences give different texts; if what is written to fails, a beginning of that text has been written and the error is returned. Debug of an ArcBTreeSet shows its elements, each once and in ascending order, and equal sets are shown equal. Writing bytes to a Vec<u8> through io::Write appends all of them and returns their number, or is an error and leaves the vector as it was.", "quantifier": "all sequences of all element types, all writers failing at any point, all trees after any history, all buffers and all answers of the allocator", "why_tests_cant": "Sequences, trees and points of failure are unbounded; that texts can be read back is about all pairs of sequences.", "anchors": ["stabby-abi/src/alloc/vec.rs:595-620", "stabby-abi/src/alloc/boxed.rs:452-477", "stabby-abi/src/alloc/sync.rs:603-628", "stabby-abi/src/alloc/collections/arc_btree.rs:203-238", "stabby-abi/src/alloc/vec.rs:795-807"]}
{"id": "C90", "title": "Parameters and where clauses of types are kept", "statement": "A struct, enum or union that Rust accepts is accepted with #[stabby] too, whatever its lifetimes, types, constants, bounds, defaults and where clause; the type then has exactly these, and IStable, the constructors and the matchers are implemented for all arguments that they allow.", "quantifier": "all types of all shapes, with any parameters in any order that Rust allows, any bounds, defaults and predicates, with or without a comma at the end", "why_tests_cant": "Lists of parameters and predicates are unbounded, and each combination is a program to be compiled.", "anchors": ["stabby-macros/src/utils.rs:18-70", "stabby-macros/src/structs.rs:119-173", "stabby-macros/src/structs.rs:229-262", "stabby-macros/src/enums.rs:299-309", "stabby-macros/src/enums.rs:433-469", "stabby-macros/src/enums.rs:538-612", "stabby-macros/src/unions.rs:69-89", "stabby-macros/src/lib.rs:353-377"]}
{"id": "C91", "title": "Containers drop their allocator once and free blocks with the one that allocated them", "statement": "Through any safe sequence of calls on Vec, BoxedSlice, SingleOrVec, Arc, Weak, ArcSlice and WeakSlice with stateful allocators, including conversions between them and failed allocations, every allocator is in exactly one place (with the program, in a container, in a block) or was destroyed exactly once; every block is freed by the allocator that allocated it, while that exists; and when all containers are dropped, no block is left.", "quantifier": "all sequences of operations, all capacities and numbers of elements, all answers of the allocators, allocators with or without a size", "why_tests_cant": "Histories are unbounded, and with the default allocator, which has no state, none of this can be observed.", "anchors": ["stabby-abi/src/alloc/vec.rs:75-118", "stabby-abi/src/alloc/vec.rs:213-284", "stabby-abi/src/alloc/vec.rs:447-463", "stabby-abi/src/alloc/boxed.rs:310-445", "stabby-abi/src/alloc/single_or_vec.rs:126-245", "stabby-abi/src/alloc/single_or_vec.rs:566-583", "stabby-abi/src/alloc/sync.rs:92-307", "stabby-abi/src/alloc/sync.rs:332-396", "stabby-abi/src/alloc/sync.rs:476-724", "stabby-abi/src/alloc/mod.rs:227-397"]}
{"id": "C92", "title": "A type-level computation that failed stays failed", "statement": "Saturator, the Exception-like value that indicates a computation can never succeed, is kept by arithmetic: when one operand of an operation on type-level numbers is Saturator, the result is no number (using its constants is an error of the compiler), and no comparison with it holds.", "quantifier": "all type-level numbers, all operations of IUnsigned, IUnsignedBase, NonZero and IPowerOf2", "why_tests_cant": "There are infinitely many type-level numbers; whether a program compiles cannot be tested from within.", "anchors": ["stabby-abi/src/istable.rs:437-439", "stabby-abi/src/typenum2/unsigned.rs:362-446", "stabby-abi/src/typenum2/unsigned.rs:449-458", "stabby-abi/src/typenum2/unsigned.rs:514-572"]}
{"id": "C93", "title": "Includes tells whether bits are included in a set", "statement": "For masks of bits, <Set as Includes<SubSet>>::Output is SubSet if every bit of SubSet is in Set, and End otherwise.", "quantifier": "all masks, of any number of bytes and offsets", "why_tests_cant": "Masks are types, of which there are infinitely many, and a missing implementation is an error of the compiler.", "anchors": ["stabby-abi/src/istable.rs:372-382", "stabby-abi/src/istable.rs:441-524"]}
{"id": "C94", "title": "A Result needs no room for its tag whenever its payloads can be told apart", "statement": "Result<Ok, Err> has the size of its larger payload exactly if the payloads can be placed so that something tells them apart: a forbidden value of one in bytes that the other does not use, or a bit that neither uses; otherwise it takes one more unit of alignment. The order of the variants and of the fields of a payload makes no difference.", "quantifier": "all pairs of layouts with sound niches, all placements of the smaller payload", "why_tests_cant": "There are infinitely many types, and a niche that is missed only shows as a larger size, which tests take as given.", "anchors": ["stabby-abi/src/enums/err_non_empty.rs:51-324", "stabby-abi/src/enums/err_size_0.rs:17-66", "stabby-abi/src/enums/mod.rs:283-311", "stabby-abi/src/istable.rs:273-371"]}
{"id": "C95", "title": "What changes behind shared references leaves sums alone", "statement": "Writing through a shared reference to the payload of a Result or Option, as atomics and UnsafeCell allow, changes neither the variant of this nor of any other sum in the value, nor anything outside of the cells; and is_ok reads none of the bytes that may be written this way, so that asking for the variant while another thread writes is no data race.", "quantifier": "all types built from primitives, structs, arrays and sums with any number of cells in any place; all values; all sequences of writes of any valid values with any padding", "why_tests_cant": "A data race shows on no single-threaded run and on few others, and whether padding is written along with a value is up to the compiler.", "anchors": ["stabby-abi/src/stable_impls/mod.rs:547-551, 572-660", "stabby-abi/src/result.rs:266-295, 384-386", "stabby-abi/src/option.rs:91-115", "stabby-abi/src/enums/mod.rs:65-212"]}
{"id": "C96", "title": "Forgetting guards and drains leaves valid values", "statement": "core::mem::forget is safe, so code may leak what it gets. If the guard that match_mut, ok_mut or err_mut hands out is forgotten after any writes through it, the Result (or Option) still has its variant and holds what was written last. If a Drain of a vector is forgotten after any number of elements were taken from it, the vector holds the elements before the range, and can be used as any other; no element is handed out, used or dropped twice.", "quantifier": "all pairs of types, all old and new values with any padding, both variants; all vectors, ranges, numbers of elements taken, and all uses of the vector before and after", "why_tests_cant": "The tag is overwritten only for types without forbidden values but with padding, and only if the compiler copies padding that is not zero.", "anchors": ["stabby-abi/src/result.rs:495-562", "stabby-abi/src/alloc/vec.rs:331-353, 710-739"]}
{"id": "C97", "title": "Iterators and maps behind trait objects answer as they do themselves", "statement": "An iterator that is passed as dyn Iterator, through any number of boundaries, yields the same items in the same order, ends when it ends, gives the same size hints, and is asked exactly as often as the caller asks; no item is dropped, copied or lost on the way. A map that is passed as dyn IMap answers every sequence of get, get_mut (with writes through the reference) and insert as the map itself would.", "quantifier": "all item and value types that can be stored (C12), all iterators including those that have effects or unwind, all sequences of requests, any number of nested trait objects; all maps that keep std's contract, wherever they put their values", "why_tests_cant": "What is handed over is an Option whose layout is computed from the item type, so each item type is another program; callers may ask in any order.", "anchors": ["stabby-abi/src/iter.rs:3-43", "stabby/src/map.rs:3-47", "stabby-abi/src/option.rs:36-58"]}
{"id": "C98", "title": "Cows give back what they were made of", "statement": "Cow::Borrowed and Cow::Owned have room for what they hold. into_owned clones a borrowed value once and gives an owned one as it is, without cloning or dropping it; to_owned gives an owned Cow of the same value; borrow gives the borrowed reference, or borrows the owned value. CowStr keeps its variant and its text, and is no larger than a String.", "quantifier": "all owned types, both variants, arbitrary clone and borrow implementations including those that have effects or unwind", "why_tests_cant": "Whether there is room depends on size and alignment of the owned type; without room the neighbouring memory is overwritten, which need not be noticed.", "anchors": ["stabby/src/allocs/borrow.rs:25-60", "stabby-abi/src/result.rs:45-88, 347-362"]}
{"id": "C99", "title": "Elements of a SingleOrVec can be replaced in place", "statement": "Writing to elements through as_slice_mut or through the references that a mutable iterator returns replaces just these elements and leaves the container valid, whether it holds its element itself or in a vector. The references of the iterator live as long as the borrow of the container, so this also holds for writes after the iterator was dropped or forgotten.", "quantifier": "all element types, all old and new values with any padding, all sequences of writes, and dropping the iterator before, between or after them, or never", "why_tests_cant": "It depends on where the layout of the element type leaves room for the tag, and on padding bytes, which the language does not determine.", "anchors": ["stabby-abi/src/alloc/single_or_vec.rs:253-313", "stabby-abi/src/alloc/single_or_vec.rs:435-540"]}
{"id": "C100", "title": "Generated numbers and tuples are what their names say", "statement": "Every type alias that the build script writes for a type-level number is a well-formed type for the number its name states in decimal, hexadecimal, binary or as a power, and no name is defined twice; its documentation states the number. Tuple{i} has i fields in order, converts to and from core's tuple without moving components, and the arities asked for are there.", "quantifier": "all bounds of the generating loops, all names, all values of the option stabby_max_tuple, all component values", "why_tests_cant": "Thousands of aliases are generated, of which a test can name only those it spells out; a wrong bit in one would change layouts silently.", "anchors": ["stabby-abi/build.rs:24-67", "stabby-abi/build.rs:69-116", "stabby-abi/src/typenum2/unsigned.rs:18", "stabby-abi/src/lib.rs:406"]}
{"id": "C101", "title": "Configuration options do what they say", "statement": "With every combination of features, options that the build script declares, target and compiler, each item of stabby-abi that has several versions (default allocator, wakers, vtable registry, vtable constructors) is compiled exactly once, in the version that was asked for, and what it uses exists.", "quantifier": "all sets of options given to the compiler, stable and nightly compilers of all versions", "why_tests_cant": "Each configuration is a separate build; the tests are built with the default one.", "anchors": ["stabby-abi/build.rs:117-139", "stabby-abi/src/future.rs:22-51", "stabby-abi/src/vtable/mod.rs:18-48", "stabby-abi/src/vtable/mod.rs:202-245", "stabby-abi/src/alloc/allocators/mod.rs:1-38"]}
{"id": "C102", "title": "Arcs own their value and their memory", "statement": "Whichever way Arcs are made (new, try_new_in, make, try_make_in), shared, downgraded, upgraded, turned into raw pointers and trait objects, mutated and taken apart, a value is in the hands of the program, in exactly one block, or was destroyed once; handles of a value find it initialised; the counters are the numbers of handles; the last owner destroys the value, and memory is freed when the last handle goes. This also holds when user code unwinds and when allocations fail; then values are given back or destroyed.", "quantifier": "all programs (sequences of operations) on any number of Arcs and values, all answers of the allocator, all points where constructors, clones and destructors unwind", "why_tests_cant": "The ways to make, share and convert handles combine without bound, and so do the places where user code may unwind.", "anchors": ["stabby-abi/src/alloc/sync.rs:43-191", "stabby-abi/src/alloc/sync.rs:194-313", "stabby-abi/src/alloc/sync.rs:334-396", "stabby-abi/src/alloc/sync.rs:727-769"]}
{"id": "C103", "title": "The text of a report tells it from all others", "statement": "Both iterators over the fields of a report give every field once, in the same order, and nothing after the last. Two reports are displayed with the same text only if they are the same report; so when get_stabbied refuses a symbol, its message shows two different texts, from which both reports can be told.", "quantifier": "all reports (any nesting, any number of fields), all types with their reports, all pairs of loader and library", "why_tests_cant": "Whether a format is unambiguous is a statement about all pairs of nested reports with all names.", "anchors": ["stabby-abi/src/report.rs:37-52", "stabby-abi/src/report.rs:110-133", "stabby/src/libloading.rs:74-100", "stabby-macros/src/lib.rs:424-462"]}
{"id": "C104", "title": "Identifiers of types tell architectures apart", "statement": "A type has the same ID on two architectures exactly if pointers have the same size and alignment, u128 has the same alignment and integers have the same order of bytes on both. So a type that has the same ID on both sides has the same layout there. On one architecture, IDs are the same exactly if the hashes are.", "quantifier": "all architectures (sizes and alignments below 256), all reports, all hash functions, all types", "why_tests_cant": "Tests run on one architecture at a time, and the claim is about pairs of them.", "anchors": ["stabby-abi/src/report.rs:153-173", "stabby-abi/src/lib.rs:51-76"]}
{"id": "C105", "title": "Types with the same report have the same layout", "statement": "If two types, such as a type in two versions of a library, have equal reports, they have the same size, alignment, forbidden values, unused bits and places of data. So a function that the loader hands out because the reports match reads its arguments as the caller wrote them. This is so too if the two sides were compiled by compilers that align u128 differently.", "quantifier": "all types made of primitive types, pointers, arrays, wrappers, structs, unions, tagged enums, repr(stabby) enums, Option and Result, nested to any depth; all targets", "why_tests_cant": "There are infinitely many pairs of types; tests compare a type with itself, in one version, compiled once.", "anchors": ["stabby-abi/src/report.rs:20-102", "stabby-abi/src/lib.rs:51-76", "stabby-abi/src/stable_impls/mod.rs:244-995", "stabby-macros/src/lib.rs:275-293", "stabby-macros/src/structs.rs:124-190", "stabby-macros/src/enums.rs:58-75"]}
{"id": "C106", "title": "Layouts that rustc disagrees with do not compile", "statement": "check! lets a type through exactly if the size, the alignment and the number of niches declared for it are what rustc says, whatever its name. If it does not, the message names the type, what stabby says and what Rust says, in decimal.", "quantifier": "all declared layouts, all answers of rustc, all names of types and architectures", "why_tests_cant": "The check is evaluated on the layouts of one target, where it passes; that it would fail for every wrong layout is not exercised at all.", "anchors": ["stabby-abi/src/stable_impls/mod.rs:137-233", "stabby-abi/src/stable_impls/mod.rs:55-136"]}
{"id": "C107", "title": "The arguments of attributes take effect or are refused", "statement": "#[stabby::stabby(..)] generates code for the kind of item it is on (a type, a function, a trait, an async block), and refuses all others; #[stabby::export(..)] is for functions. What is written in the parentheses is what the code generated depends on, and whatever is not understood stops the compilation with an advice that works.", "quantifier": "all lists of argument tokens, all kinds of items", "why_tests_cant": "Tests and examples use one or two arguments for each kind of item; that everything else is refused, and that nothing accepted is ignored, is about all lists of tokens.", "anchors": ["stabby-macros/src/lib.rs:71-104", "stabby-macros/src/lib.rs:463-466", "stabby-macros/src/functions.rs:135-153", "stabby-macros/src/functions.rs:350-379", "stabby-macros/src/traits.rs:1406-1422"]}
{"id": "C108", "title": "Types declared to be like others", "statement": "StableLike::<T, As>::new compiles if and only if T has the size and the alignment that As declares. Its values survive in stabby's Results and Options: Ok(x) is Ok and holds x, Err(e) is Err and holds e. NoNiches of the right size is right for every T. Safe code cannot make a sum that is read as another variant than the one it was made as, nor with another value.", "quantifier": "all types T with any set of valid bytes, all As, all values, all other variants", "why_tests_cant": "Whether a value survives depends on its bytes, on the niche that the pair of types selects and on the bits that the determinant uses; tests use a few pairs, and no T that stabby does not know.", "anchors": ["stabby-abi/src/lib.rs:164-226", "stabby-abi/src/lib.rs:262-305"]}
{"id": "C109", "title": "Generated code names the crate it needs", "statement": "In a package that depends on stabby or stabby-abi, under whatever name, or that is one of them, the code that the macros generate refers to stabby-abi: directly, or as the module abi of stabby. Without any of them the macros refuse to expand. stabby-abi goes before stabby.", "quantifier": "all manifests (names, renamed entries, dev and optional entries in any order), all kinds of targets", "why_tests_cant": "All packages of the repository have the same few manifests; whether the path resolves depends on the manifest of each user and on the kind of target that is compiled.", "anchors": ["stabby-macros/src/lib.rs:52-70", "stabby/src/lib.rs:31"]}
{"id": "C110", "title": "Checks that builds may leave out", "statement": "A program in which no unreachable_unchecked!, assert_unchecked! or assert_eq_unchecked! fails does the same whether or not its crates are built with checks; one in which a check fails panics there in builds with checks and is undefined behaviour without. Checks are there in debug builds and with stabby_check_unreachable=\"true\". unwrap_unchecked gives the value that there is; Box and Arc never get to the places that they declare unreachable. The macros may be called as documented.", "quantifier": "all programs with loops over any state, all operands with side effects, all ways to build each crate, all answers of allocators", "why_tests_cant": "Tests run in one build, and a failed check of a release build shows up, if at all, as an optimisation somewhere else.", "anchors": ["stabby-abi/src/lib.rs:413-479", "stabby-abi/src/result.rs: unwrap_unchecked, unwrap_err_unchecked", "stabby-abi/src/option.rs: unwrap_unchecked", "stabby-abi/src/alloc/boxed.rs: try_new_in, make_in, new_in", "stabby-abi/src/alloc/sync.rs: try_new_in, make_in, new_in"]}
{"id": "C111", "title": "Trait objects do not outlive what they hold", "statement": "A trait object may be made of a value with borrows for as long as all of its borrows last, and no longer; so may what as_ref, as_mut, clone, into_super and subtyping make of it. While an object may be used, all borrows within its value last. Downcasts give the value at a type of the same declaration, and safe programs that downcast never have a borrow that is over.", "quantifier": "all programs of makes, borrows, casts and downcasts, all types with any number of lifetimes, all times", "why_tests_cant": "Bounds of lifetimes are erased before tests run; a missing bound compiles silently, and tests that must not compile are not part of the repository.", "anchors": ["stabby-abi/src/fatptr.rs:97-372", "stabby-macros/src/traits.rs:720-731"]}
{"id": "C112", "title": "Types of abi_stable are declared as they are laid out", "statement": "For each supported type of the crate abi_stable, the declared size and alignment are those of the type, no value of it is declared forbidden, the bits declared unused are padding, a claim to have exactly one niche or none is true, and the C type given for it has its size and alignment. The feature that adds these types compiles on its own.", "quantifier": "all 21 types, all parameters held in place, all 32- and 64-bit targets, all values", "why_tests_cant": "The checks in the source compare size and alignment of one instance on the target that is compiled for; they see neither niches, nor forbidden values, nor other instances.", "anchors": ["stabby-abi/src/stable_impls/abi_stable.rs", "stabby-abi/src/stable_impls/mod.rs:19-38"]}
{"id": "C113", "title": "Closures behind trait objects behave as closures", "statement": "Calling a closure through a stable trait object gives the closure the same arguments in the same order, has the same effects on what it captured and returns the same results as calling it directly, for any sequence of calls. What Rust allows to be called through &dyn, &mut dyn, Box<dyn> and Arc<dyn> of Fn, FnMut and FnOnce can be called, for all signatures of up to nine arguments.", "quantifier": "all closures with any captured state, all sequences of calls with any number of arguments, panics, all pointers, families of traits and signatures", "why_tests_cant": "The repository does not test closures at all; a test would call a few closures with a few arguments, and signatures that do not compile are not tested.", "anchors": ["stabby-macros/src/gen_closures.rs:16-139", "stabby-macros/src/traits.rs:175-193", "stabby-macros/src/traits.rs:560-583", "README.md:73"]}
{"id": "C114", "title": "Types are laid out as the specification of repr(stabby) says", "statement": "For any two types, Result<Ok, Err> has the variants at the offsets, the determinant, the unused bits and the size that the program in repr-stabby.md computes from the sizes, alignments, forbidden values and unused bits of the two types; Option<T> is Result<T, ()>; enums are the balanced trees of Results that it describes; structs and unions have the niches it describes; vtables hold the methods of traits in the order of their declarations.", "quantifier": "all pairs of types built from primitives, structs, unions, arrays and results; all lists of variants; all traits", "why_tests_cant": "The document is not executed by anything; tests compare the sizes of a few types with literals written by hand, and another implementation of the specification does not exist.", "anchors": ["repr-stabby.md:1-120", "stabby-abi/src/enums/mod.rs:218-311", "stabby-abi/src/enums/err_non_empty.rs:51-324", "stabby-abi/src/enums/err_size_0.rs:17-66", "stabby-abi/src/result.rs:45-81", "stabby-macros/src/enums.rs:382-395", "stabby-macros/src/traits.rs:584-598"]}
{"id": "C115", "title": "Version numbers say which API and ABI a release has", "statement": "A version made as 2^api * 3^abi at each level is that of one API and one ABI only; the release script recovers both for the changelog; a release that takes back neither has a greater version, and dividing the versions tells which of both changed at the first level where one did; among such releases, what cargo accepts for a requirement has the same major versions of API and ABI and is behind in neither.", "quantifier": "all versions of API and ABI; all lists of releases", "why_tests_cant": "The script has no tests, and is run by hand for one version at a time; the rules for upgrades are about all later releases.", "anchors": ["README.md:156-165", "release.py:5-14", "release.py:35", "CHANGELOG.md:1-92"]}
