{
 "claims": [
  {
   "property": "C01",
   "status": "proved",
   "theorems": [
    "Verif.Props.Typenum.C01_u128",
    "Verif.Props.Typenum.C01_add",
    "Verif.Props.Typenum.C01_mul",
    "Verif.Props.Typenum.C01_increment",
    "Verif.Props.Typenum.C01_satDecrement",
    "Verif.Props.Typenum.C01_absSub",
    "Verif.Props.Typenum.C01_min",
    "Verif.Props.Typenum.C01_max",
    "Verif.Props.Typenum.C01_bitAnd",
    "Verif.Props.Typenum.C01_bitOr",
    "Verif.Props.Typenum.C01_truncate",
    "Verif.Props.Typenum.C01_bitLength",
    "Verif.Props.Typenum.C01_compare",
    "Verif.Props.Typenum.C01_pow2",
    "Verif.Props.Typenum.C01_mod",
    "Verif.Props.Typenum.C01_divide",
    "Verif.Props.Typenum.C01_nextMultipleOf",
    "Verif.Props.Typenum.C01_lowestBit",
    "Verif.Props.Typenum.C01_names",
    "Verif.Props.Typenum.C01_alignment_max",
    "Verif.Props.Typenum.C01_constants"
   ],
   "note": "Every operation of the type-level naturals computes the corresponding operation on natural numbers."
  },
  {
   "property": "C02",
   "status": "proved",
   "theorems": [
    "Verif.Props.Typenum.C02_ops_canonical",
    "Verif.Props.Typenum.C02_unique"
   ],
   "note": "Results of operations are canonical and canonical numbers with equal value are the same type."
  },
  {
   "property": "C03",
   "status": "partial",
   "theorems": [
    "Verif.Props.Layout.C03_padding",
    "Verif.Props.Layout.C03_padding_mask",
    "Verif.Props.Layout.C03_array_partial",
    "Verif.Props.Layout.C03_array_zst_refuted",
    "Verif.Props.Layout.C03_one_more_byte",
    "Verif.Props.Layout.C03_size_fn",
    "Verif.Props.Layout.C03_padding_byte",
    "Verif.Props.Layout.C03_array_zst"
   ],
   "note": "Padding types are proved. Array types hold n elements back to back for elements of non-zero size; for zero-sized elements the code is wrong (refuted)."
  },
  {
   "property": "C04",
   "status": "partial",
   "theorems": [
    "Verif.Props.Layout.C04_size_align",
    "Verif.Props.Layout.C04_unused_bits",
    "Verif.Props.Layout.C04_forbidden_values",
    "Verif.Props.Layout.C04_fields_disjoint",
    "Verif.Props.Layout.C04_repr_align",
    "Verif.Props.Layout.C04_repr_align_empty_refuted"
   ],
   "note": "Size, alignment, offsets, unused bits and forbidden values of any list of fields are the ones of the C layout; repr(align(n)) on a struct with fields too, if it is laid out as C (see C75: rustc is free not to). A repr(align(n)) struct without fields is computed as () (refuted)."
  },
  {
   "property": "C05",
   "status": "proved",
   "theorems": [
    "Verif.Props.Sum.C05_unused_bits",
    "Verif.Props.Sum.C05_unused_in_range",
    "Verif.Props.Sum.C05_every_value_has_an_image"
   ],
   "note": "By induction on all types built from primitives, structs, aligned structs, unions, arrays and stabby results (with the storage condition of C12 inside results)."
  },
  {
   "property": "C06",
   "status": "partial",
   "theorems": [
    "Verif.Props.Sum.C06_forbidden_values",
    "Verif.Props.Sum.C06_maybe_uninit_refuted"
   ],
   "note": "Proved for the same universe of types as C05. MaybeUninit<T> exports the forbidden values of T, which is refuted."
  },
  {
   "property": "C07",
   "status": "proved",
   "theorems": [
    "Verif.Props.Layout.C07_union"
   ],
   "note": "Size, alignment, and absence of exported niches of unions of any two members."
  },
  {
   "property": "C08",
   "status": "partial",
   "theorems": [
    "Verif.Props.Layout.C08_repr_c_partial",
    "Verif.Props.Layout.C08_repr_u_iff",
    "Verif.Props.Layout.C08_repr_u_refuted"
   ],
   "note": "Proved for repr(C, ..) enums; for repr(u8)-like enums an exact condition is proved and the general claim is refuted."
  },
  {
   "property": "C09",
   "status": "partial",
   "theorems": [
    "Verif.Props.Sum.C09_ok_round_trip_partial",
    "Verif.Props.Sum.C09_err_round_trip_partial",
    "Verif.Props.Sum.C09_option",
    "Verif.Props.Sum.C09_moved"
   ],
   "note": "Proved for every pair of types of the universe whose storage is not truncated (C12), and for every Option<T>. Truncated storage is refuted in C12."
  },
  {
   "property": "C10",
   "status": "partial",
   "theorems": [
    "Verif.Props.Sum.C10_ok_guard_partial",
    "Verif.Props.Sum.C10_err_guard_partial"
   ],
   "note": "Proved under the storage condition of C12."
  },
  {
   "property": "C11",
   "status": "partial",
   "theorems": [
    "Verif.Props.Sum.C11_exported_niches_partial"
   ],
   "note": "Proved under the storage condition of C12, for any nesting."
  },
  {
   "property": "C12",
   "status": "partial",
   "theorems": [
    "Verif.Props.Sum.C12_storage_iff",
    "Verif.Props.Sum.C12_storage_partial",
    "Verif.Props.Sum.C12_storage_refuted"
   ],
   "note": "Exact condition proved (C12_storage_iff); the general claim is refuted by Result<[u8; 5], u32>."
  },
  {
   "property": "C13",
   "status": "proved",
   "theorems": [
    "Verif.Props.Sum.C13_size",
    "Verif.Props.Sum.C13_nested_options"
   ],
   "note": "For every pair of layouts satisfying the layout invariant."
  },
  {
   "property": "C14",
   "status": "partial",
   "theorems": [
    "Verif.Props.Sum.C14_dispatch_partial",
    "Verif.Props.Sum.C14_match_mut_partial"
   ],
   "note": "For any number of variants, under the storage condition of C12 at every node of the tree."
  },
  {
   "property": "C15",
   "status": "partial",
   "theorems": [
    "Verif.Props.Vec.C15_history_partial",
    "Verif.Props.Vec.C15_refusal",
    "Verif.Props.Vec.C15_clone",
    "Verif.Props.Vec.C15_capacity_overflow_refuted",
    "Verif.Props.Vec.C15_extend_overflow_refuted",
    "Verif.Props.Vec.C15_extend_hint_refuted",
    "Verif.Props.Vec.C15_ub"
   ],
   "note": "Every operation history over non-zero-sized elements with requests below 2^63 bytes and honest size hints, under every pattern of allocation failure. Requests that overflow and lying upper size hints are refuted. Zero-sized elements are C71, panicking destructors C62."
  },
  {
   "property": "C16",
   "status": "proved",
   "theorems": [
    "Verif.Props.Vec.C16_ledger"
   ],
   "note": "Multiset ledger over every history, drains and iterators included; allocations equal frees after the drop. Scope as in C15_history_partial: non-zero-sized elements, requests below 2^63 bytes, honest size hints, no panicking destructor (as in the statement)."
  },
  {
   "property": "C17",
   "status": "partial",
   "theorems": [
    "Verif.Props.Vec.C17_drain",
    "Verif.Props.Vec.C17_double_ended_front_partial",
    "Verif.Props.Vec.C17_next_back_refuted",
    "Verif.Props.Vec.C17_try_drain_refuted",
    "Verif.Props.Vec.C17_try_drain_exact",
    "Verif.Props.Vec.C17_double_ended_exact",
    "Verif.Props.Vec.C17_next_back_any_refuted",
    "Verif.Props.Vec.C17_drain_len"
   ],
   "note": "Drain proved for every range and any number of yielded elements; the double-ended drain when consumed from the front. next_back and the try_drain check are refuted."
  },
  {
   "property": "C18",
   "status": "proved",
   "theorems": [
    "Verif.Props.Vec.C18_reserve",
    "Verif.Props.Vec.C18_capacity",
    "Verif.Props.Vec.C18_amortised",
    "Verif.Props.Vec.C18_counts",
    "Verif.Props.Vec.C18_first"
   ],
   "note": "Reserve, capacity bound, and at most 4n element copies for n pushes, in every environment of C15."
  },
  {
   "property": "C19",
   "status": "partial",
   "theorems": [
    "Verif.Props.Boxed.C19_history_partial",
    "Verif.Props.Boxed.C19_empty_push_refuted",
    "Verif.Props.Boxed.C19_empty_leak_refuted"
   ],
   "note": "Every history of conversions, pushes and drops in which slices are made of non-empty vectors. Empty slices read a dangling prefix or leak (refuted)."
  },
  {
   "property": "C20",
   "status": "partial",
   "theorems": [
    "Verif.Props.Sov.C20_scribbled_refuted",
    "Verif.Props.Sov.C20_u64_refuted",
    "Verif.Props.Sov.C20_quiet",
    "Verif.Props.Sov.C20_history_partial",
    "Verif.Props.Sov.C20_push_partial",
    "Verif.Props.Sov.C20_refused_reserve_refuted",
    "Verif.Props.Sov.C20_into_vec",
    "Verif.Props.Sov.C20_iter_mut_partial",
    "Verif.Props.Sov.C20_iter_mut_nth_refuted",
    "Verif.Props.Sov.C20_iter_mut_len_partial",
    "Verif.Props.SovMut.C20_capacity",
    "Verif.Props.SovMut.C20_reserve_partial",
    "Verif.Props.SovMut.C20_constructors",
    "Verif.Props.SovMut.C20_clone",
    "Verif.Props.SovMut.C20_of_vec",
    "Verif.Props.Sov.C20_refused_drop",
    "Verif.Props.Sov.C20_truncate_iff"
   ],
   "note": "Every history for the element types on which the guard leaves the container alone (decided by the modelled determinant search) in which no reservation is refused in the single state; pushes and reads for every element type and allocator. The other element types (u8, u64, references, ...), refused reservations and a wrapping nth are refuted."
  },
  {
   "property": "C21",
   "status": "partial",
   "theorems": [
    "Verif.Props.Str.C21_history_partial",
    "Verif.Props.Str.C21_try_from"
   ],
   "note": "Every history of operations on text and bytes; conversions of empty strings to slices are excluded as in C19 and C52, edits through &mut str are assumed to obey the contract of core."
  },
  {
   "property": "C22",
   "status": "partial",
   "theorems": [
    "Verif.Props.Arc.C22_interleavings_partial",
    "Verif.Props.Arc.C22_solo_partial",
    "Verif.Props.Arc.C22_upgrade_refuted",
    "Verif.Props.Arc.C22_leak_refuted",
    "Verif.Props.Arc.C22_may",
    "Verif.Props.Arc.C22_possible"
   ],
   "note": "All interleavings of any number of threads and handles in which overlapping upgrades do not meet the drop of the last strong handle (Polite, or the simpler SoloRun). The other schedules are refuted."
  },
  {
   "property": "C23",
   "status": "partial",
   "theorems": [
    "Verif.Props.Arc.C23_upgrade_partial",
    "Verif.Props.Arc.C23_some_refuted",
    "Verif.Props.Arc.C23_none_refuted"
   ],
   "note": "Same schedules as C22. Overlapping upgrades are refuted in both directions."
  },
  {
   "property": "C24",
   "status": "partial",
   "theorems": [
    "Verif.Props.Arc.C24_exclusive_partial",
    "Verif.Props.Arc.C24_race_refuted",
    "Verif.Props.Arc.C24_into_inner_refuted"
   ],
   "note": "All interleavings in which no upgrade starts between the two loads of the uniqueness check. The race is refuted."
  },
  {
   "property": "C25",
   "status": "partial",
   "theorems": [
    "Verif.Props.DynDrop.C25_arc",
    "Verif.Props.DynDrop.C25_box",
    "Verif.Props.DynDrop.C25_box_once",
    "Verif.Props.DynDrop.C25_mut",
    "Verif.Props.DynDrop.C25_weak_refuted",
    "Verif.Props.DynDrop.C25_dangling_refuted",
    "Verif.Props.DynDrop.C25_upgrade_refuted",
    "Verif.Props.DynDrop.C25_upgrade_dead_refuted"
   ],
   "note": "Box, Arc and &mut in every state. Weak is refuted in every state."
  },
  {
   "property": "C26",
   "status": "partial",
   "theorems": [
    "Verif.Props.Order.C26_drop_refuted",
    "Verif.Props.Order.C26_get_mut_refuted",
    "Verif.Props.Order.C26_history_partial",
    "Verif.Props.Order.C26_acquire_release",
    "Verif.Props.Free.C26_weak_orders",
    "Verif.Props.Free.C26_weak_partial",
    "Verif.Props.Free.C26_free_refuted",
    "Verif.Props.Free.C26_weak_counter_refuted"
   ],
   "note": "All histories, with and without weak handles, in which the program orders the earlier drops itself. The others are refuted, for destruction, for exclusive writes and for freeing the memory; which orderings are needed is proved exactly (C26_weak_orders)."
  },
  {
   "property": "C27",
   "status": "partial",
   "theorems": [
    "Verif.Props.Atomic.C27_history_partial",
    "Verif.Props.Atomic.C27_store_refuted",
    "Verif.Props.Atomic.C27_failed_exchange_refuted",
    "Verif.Props.Atomic.C27_load_race_refuted"
   ],
   "note": "All interleavings without store into an occupied cell, without a failing compare_exchange of a value and without replacement during a load. Each of the three is refuted."
  },
  {
   "property": "C28",
   "status": "proved",
   "theorems": [
    "Verif.Props.BTree.C28_history",
    "Verif.Props.BTree.C28_listing_unique",
    "Verif.Props.BTreeMap.C28_map"
   ],
   "note": "Every history of operations on any number of sets or maps gets the answers of mathematical sets or maps."
  },
  {
   "property": "C29",
   "status": "proved",
   "theorems": [
    "Verif.Props.BTree.C29_clones_independent"
   ],
   "note": "What a variable answers is unchanged by operations on others, whatever nodes are shared."
  },
  {
   "property": "C30",
   "status": "partial",
   "theorems": [
    "Verif.Props.BTree.C30_balanced_partial",
    "Verif.Props.BTree.C30_capacity_one_refuted",
    "Verif.Props.BTree.C30_even_capacity_refuted",
    "Verif.Props.BTree.C30_even_capacities_refuted"
   ],
   "note": "In bounds and balanced for odd capacities from 3 on; capacity 1 (accepted) panics and leaves an invalid set; AtomicArcBTreeSet accepts even capacities, which read out of bounds."
  },
  {
   "property": "C31",
   "status": "partial",
   "theorems": [
    "Verif.Props.AtomicSet.C31_linearizable_partial",
    "Verif.Props.AtomicSet.C31_keeping_handle_partial",
    "Verif.Props.AtomicSet.C31_no_edit_lost_partial",
    "Verif.Props.AtomicSet.C31_memory_partial",
    "Verif.Props.AtomicSet.C31_use_after_free_refuted",
    "Verif.Props.AtomicSet.C31_lost_edit_refuted",
    "Verif.Props.AtomicSet.C31_skipped_edit_refuted",
    "Verif.Props.AtomicSet.C31_in_place_edit_refuted"
   ],
   "note": "Linearisability, no lost edit and exact reference counts are proved for any number of threads and any schedule in which nobody runs between reading the pointer and taking a handle through it, no root is allocated at an address a call in progress remembers, and no closure changes in place the tree it was given. The code ensures none of these: use after free, lost edits by address reuse and by in-place changes are exhibited. Sequentially consistent memory; `get` is an edit that changes nothing."
  },
  {
   "property": "C32",
   "status": "partial",
   "theorems": [
    "Verif.Props.Registry.C32_interned_partial",
    "Verif.Props.Registry.C32_btree_refuted",
    "Verif.Props.Registry.C32_vec_refuted"
   ],
   "note": "Under the schedule assumptions of C31 (for VtVec only the one about reading and copying) equal vtables get one address forever, for any number of threads, vtables and retries, including the partial search of VtVec. The default registry (VtBtree) loses registrations by address reuse, and both may access released memory."
  },
  {
   "property": "C33",
   "status": "partial",
   "theorems": [
    "Verif.Props.Num.C33_new",
    "Verif.Props.Num.C33_get",
    "Verif.Props.Num.C33_bounds",
    "Verif.Props.Num.C33_add",
    "Verif.Props.Num.C33_sub",
    "Verif.Props.Num.C33_bit_ops",
    "Verif.Props.Num.C33_eq_ord_partial",
    "Verif.Props.Num.C33_eq_refuted",
    "Verif.Props.Num.C33_wrap_refuted"
   ],
   "note": "Values, bounds, addition, subtraction and bit operations are proved for every width; equality, order and the printed number are proved for numbers with clean high bits and refuted after a subtraction."
  },
  {
   "property": "C34",
   "status": "partial",
   "theorems": [
    "Verif.Props.Num.C34_get",
    "Verif.Props.Num.C34_min",
    "Verif.Props.Num.C34_max_iff",
    "Verif.Props.Num.C34_max_refuted",
    "Verif.Props.Num.C34_new_partial",
    "Verif.Props.Num.C34_half_width",
    "Verif.Props.Num.C34_eq_ord_partial",
    "Verif.Props.Num.C34_min_eq_refuted",
    "Verif.Props.Num.C34_bit_ops",
    "Verif.Props.Num.C34_bitand_base_refuted",
    "Verif.Props.Num.C34_min_eq_all_refuted"
   ],
   "note": "get, MIN, new and bit operations are proved for every width; equality, order and the printed number for everything built from new and operators between values of the type. MAX is characterised exactly and refuted for widths other than half the base; MIN and `&` with a base integer leave bits that equality, order and formatting see."
  },
  {
   "property": "C35",
   "status": "proved",
   "theorems": [
    "Verif.Props.Num.C35_non_max",
    "Verif.Props.Num.C35_non_max_ops",
    "Verif.Props.Num.C35_non_x",
    "Verif.Props.Num.C35_non_x_ops"
   ],
   "note": "NonMax and NonX: constructors, getters and arithmetic for every value and forbidden value."
  },
  {
   "property": "C36",
   "status": "proved",
   "theorems": [
    "Verif.Props.Time.C36_add",
    "Verif.Props.Time.C36_from",
    "Verif.Props.Time.C36_to",
    "Verif.Props.Time.C36_cmp",
    "Verif.Props.Time.C36_core",
    "Verif.Props.Time.C36_unnormalised_refuted"
   ],
   "note": "For all normalised durations; the behaviour on durations with out-of-range nanoseconds is refuted separately."
  },
  {
   "property": "C37",
   "status": "partial",
   "theorems": [
    "Verif.Props.Time.C37_round_trip_positive",
    "Verif.Props.Time.C37_round_trip_negative_partial",
    "Verif.Props.Time.C37_order",
    "Verif.Props.Time.C37_history",
    "Verif.Props.Time.C37_negative_zero_refuted",
    "Verif.Props.Time.C37_large_refuted",
    "Verif.Props.Time.C37_swap_returns_previous",
    "Verif.Props.Time.C37_round_trip_iff"
   ],
   "note": "Round trip proved for non-negative times below 2^43 s and negative ones of a second or more; the rest is refuted."
  },
  {
   "property": "C38",
   "status": "partial",
   "theorems": [
    "Verif.Props.Report.C38_is_compatible_partial",
    "Verif.Props.Report.C38_exact",
    "Verif.Props.Report.C38_field_count_refuted"
   ],
   "note": "Exact characterisation and agreement with identity for reports with the same number of fields; refuted for different numbers of fields."
  },
  {
   "property": "C39",
   "status": "partial",
   "theorems": [
    "Verif.Props.Report.C39_stream_partial",
    "Verif.Props.Report.C39_version_refuted",
    "Verif.Props.Report.C39_delimiter_refuted",
    "Verif.Props.Report.C39_architecture"
   ],
   "note": "The hashed stream separates reports with equal name lengths up to versions; refuted for versions and for shifted boundaries. Collision resistance of SHA-256 is not expressible."
  },
  {
   "property": "C40",
   "status": "partial",
   "theorems": [
    "Verif.Props.Import.C40_checked_once",
    "Verif.Props.Import.C40_stays_validated",
    "Verif.Props.Import.C40_same_answer",
    "Verif.Props.Import.C40_dropped_once",
    "Verif.Props.Import.C40_acquire_no_race_partial",
    "Verif.Props.Import.C40_relaxed_load_refuted",
    "Verif.Props.Import.C40_stays_validated_refuted",
    "Verif.Props.Import.C40_canary_partial",
    "Verif.Props.Import.C40_canary_before_use_refuted"
   ],
   "note": "Proved for every number of threads, interleaving and (for C40_checked_once) every checker. Missing because false: the Relaxed load of the flag races with the write of the symbol, a checker whose answer varies can turn a validated import into an invalid one, and a canaried import hands out the symbol while the canary is still running in another thread."
  },
  {
   "property": "C41",
   "status": "partial",
   "theorems": [
    "Verif.Props.Waker.C41_wakers_partial",
    "Verif.Props.Waker.C41_no_leak_partial",
    "Verif.Props.Waker.C41_released_partial",
    "Verif.Props.Waker.C41_other_allocator_refuted"
   ],
   "note": "Proved for all histories over any number of wakers, clones and nested boundaries when every StableWaker uses the default allocator. Missing because false: with another allocator, with_waker's clone treats the block as one of the default allocator."
  },
  {
   "property": "C42",
   "status": "proved",
   "theorems": [
    "Verif.Props.Dyn.C42_methods",
    "Verif.Props.Dyn.C42_reachable",
    "Verif.Props.Dyn.C42_super_traits",
    "Verif.Props.Dyn.C42_pointee"
   ],
   "note": "All IntoSuperTrait implementations, any chain of conversions, any traits and numbers of methods."
  },
  {
   "property": "C43",
   "status": "partial",
   "theorems": [
    "Verif.Props.Dyn.C43_sync_partial",
    "Verif.Props.Dyn.C43_send_partial",
    "Verif.Props.Dyn.C43_box_send_refuted",
    "Verif.Props.Dyn.C43_arc_send_refuted",
    "Verif.Props.Dyn.C43_arc_sync_refuted",
    "Verif.Props.Dyn.C43_ref_send_refuted",
    "Verif.Props.Dyn.C43_accepts",
    "Verif.Props.Dyn.C43_sync_iff",
    "Verif.Props.Dyn.C43_send_iff"
   ],
   "note": "Exact characterisation of the lists of bounds for which Send/Sync are granted. The property holds when Send/Sync come last in the list of bounds and Arc, Weak and references require both markers; refuted otherwise."
  },
  {
   "property": "C44",
   "status": "partial",
   "theorems": [
    "Verif.Props.Dyn.C44_receiver_partial",
    "Verif.Props.Dyn.C44_receiver_exists",
    "Verif.Props.Dyn.C44_mut_ref_refuted",
    "Verif.Props.Dyn.C44_as_mut_refuted",
    "Verif.Props.Dyn.C44_downcast_refuted"
   ],
   "note": "Holds for Box, Arc, Weak and method calls on DynRef; refuted for Dyn<&mut ()> and for downcasts of DynRef."
  },
  {
   "property": "C45",
   "status": "partial",
   "theorems": [
    "Verif.Props.Report.C45_downcast_partial",
    "Verif.Props.Report.C45_wrappers_refuted",
    "Verif.Props.Report.C45_non_x_refuted",
    "Verif.Props.Report.C45_core_result_refuted",
    "Verif.Props.Generic.C77_lifetime_refuted",
    "Verif.Props.Generic.C77_phantom_refuted"
   ],
   "note": "A stable downcast succeeds exactly for the same type on the fragment without the wrappers whose report is that of another type; those are refuted."
  },
  {
   "property": "C46",
   "status": "partial",
   "theorems": [
    "Verif.Props.AllocPtr.C46_safe_partial",
    "Verif.Props.AllocPtr.C46_realloc_partial",
    "Verif.Props.AllocPtr.C46_fits_iff",
    "Verif.Props.AllocPtr.C46_overaligned_refuted",
    "Verif.Props.AllocPtr.C46_overaligned_realloc_refuted",
    "Verif.Props.AllocPtr.C46_overflow_refuted"
   ],
   "note": "Proved for all programs over AllocPtr and all allocators that keep the IAlloc contract, for element types not more aligned than the prefix and byte counts that fit a usize. Refuted outside of that: over-aligned elements end past their block and are reallocated at the wrong address; oversized requests wrap."
  },
  {
   "property": "C47",
   "status": "partial",
   "theorems": [
    "Verif.Props.AllocLayout.C47_realign",
    "Verif.Props.AllocLayout.C47_array",
    "Verif.Props.AllocLayout.C47_concat_partial",
    "Verif.Props.AllocLayout.C47_concat_refuted",
    "Verif.Props.AllocLayout.C47_overflow_refuted",
    "Verif.Props.AllocLayout.C47_next_matching",
    "Verif.Props.AllocLayout.C47_skip_to",
    "Verif.Props.AllocLayout.C47_concat_iff"
   ],
   "note": "Proved for all layouts whose sizes do not overflow; concat for second parts whose size is a multiple of their alignment (all Rust types and arrays). Both exceptions are refuted."
  },
  {
   "property": "C48",
   "status": "partial",
   "theorems": [
    "Verif.Props.Allocators.C48_rust_partial",
    "Verif.Props.Allocators.C48_rust_realloc_partial",
    "Verif.Props.Allocators.C48_rust_room_iff",
    "Verif.Props.Allocators.C48_rust_small_refuted",
    "Verif.Props.Allocators.C48_rust_out_of_memory_refuted",
    "Verif.Props.Allocators.C48_rust_zero_refuted",
    "Verif.Props.Allocators.C48_rust_overflow_refuted",
    "Verif.Props.Allocators.C48_rust_huge_realloc_refuted",
    "Verif.Props.Allocators.C48_libc_partial",
    "Verif.Props.Allocators.C48_libc_realloc_partial",
    "Verif.Props.Allocators.C48_libc_small_alignments",
    "Verif.Props.Allocators.C48_libc_shrink_refuted",
    "Verif.Props.Allocators.C48_windows_refuted",
    "Verif.Props.Allocators.C48_default_realloc_partial",
    "Verif.Props.Allocators.C48_default_realloc_refuted"
   ],
   "note": "Proved for all programs and all underlying allocators within the stated requests. Refuted: RustAlloc on out-of-memory, zero size, overflow, sizes that are not multiples of a large alignment, reallocation beyond isize::MAX; LibcAlloc on shrinking over-aligned blocks and on windows; the default IAlloc::realloc on shrinking."
  },
  {
   "property": "C49",
   "status": "partial",
   "theorems": [
    "Verif.Props.TyOps.C49_parse",
    "Verif.Props.TyOps.C49_accepted_partial",
    "Verif.Props.TyOps.C49_ambiguous",
    "Verif.Props.TyOps.C49_nested",
    "Verif.Props.TyOps.C49_literal",
    "Verif.Props.TyOps.C49_value",
    "Verif.Props.TyOps.C49_usual_partial",
    "Verif.Props.TyOps.C49_sub_refuted",
    "Verif.Props.TyOps.C49_juxtaposed_refuted",
    "Verif.Props.TyOps.C49_colon_refuted",
    "Verif.Props.TyOps.C49_unclosed_refuted",
    "Verif.Props.TyOps.C49_kept"
   ],
   "note": "Every expression is accepted with exactly its grouping and denotes its value; sequences without adjacent operands that are not expressions are rejected, except a postfix `!`. Refuted: `-` is the distance, adjacent operands are accepted (and reordered), a missing `:` and an unclosed `<` are accepted."
  },
  {
   "property": "C50",
   "status": "partial",
   "theorems": [
    "Verif.Props.Canary.C50_parse_partial",
    "Verif.Props.Canary.C50_names_refuted",
    "Verif.Props.Canary.C50_range",
    "Verif.Props.Canary.C50_iterate",
    "Verif.Props.Canary.C50_iterate_refuted",
    "Verif.Props.Canary.C50_distinct",
    "Verif.Props.Canary.C50_same_build",
    "Verif.Props.Canary.C50_detects_partial",
    "Verif.Props.Canary.C50_target",
    "Verif.Props.Canary.C50_target_refuted",
    "Verif.Props.Canary.C50_commit_refuted",
    "Verif.Props.Canary.C50_identifiers"
   ],
   "note": "Exact characterisation of the accepted specifications and of iteration; loaders find all canaries exactly if the builds agree. Refuted: `opt_level` and `num_jobs` cannot be named, `fix` confuses targets, compilers with an unknown commit make the macros panic."
  },
  {
   "property": "C51",
   "status": "partial",
   "theorems": [
    "Verif.Props.Guard.C51_mut_partial",
    "Verif.Props.Guard.C51_ref_partial",
    "Verif.Props.Guard.C51_ref_iff",
    "Verif.Props.Guard.C51_ref_frees_refuted",
    "Verif.Props.Guard.C51_ref_leaks_refuted",
    "Verif.Props.Guard.C51_ref_changes_refuted",
    "Verif.Props.Guard.C51_forget_refuted",
    "Verif.Props.Guard.C51_interior_refuted",
    "Verif.Props.Guard.C51_panic_refuted",
    "Verif.Props.Guard.C51_mut_drop_partial"
   ],
   "note": "Proved for arbitrary conversions and mutations of safe code that do not panic, for mutable guards that are dropped, and for immutable guards exactly when the conversion keeps the resources. Refuted: conversions that free or allocate under ref_as, interior mutability, forgotten guards, panicking conversions."
  },
  {
   "property": "C52",
   "status": "partial",
   "theorems": [
    "Verif.Props.Shared.C52_history_partial",
    "Verif.Props.Shared.C52_empty_refuted",
    "Verif.Props.Shared.C52_empty_leak_refuted",
    "Verif.Props.Shared.C52_from_arc_refuted",
    "Verif.Props.Shared.C52_counters"
   ],
   "note": "Every single-threaded history in which shared slices are made of non-empty vectors; interleavings are C22-C24. Empty vectors and From<Arc> are refuted."
  },
  {
   "property": "C53",
   "status": "partial",
   "theorems": [
    "Verif.Props.Sum.C53_claims_partial",
    "Verif.Props.Sum.C53_ordering_refuted",
    "Verif.Props.Sum.C53_ordering_in_tuple_refuted",
    "Verif.Props.Sum.C53_no_claim_with_padding",
    "Verif.Props.Niche.C53_universe_partial",
    "Verif.Props.Niche.C53_option_layout",
    "Verif.Props.Niche.C53_result_layout_partial",
    "Verif.Props.Niche.C53_hidden_refuted",
    "Verif.Props.Niche.C53_option_unsafe_cell_refuted",
    "Verif.Props.Niche.C53_enum_refuted",
    "Verif.Props.Niche.C53_enum_in_tuple_refuted",
    "Verif.Props.Niche.C53_leaves_refuted",
    "Verif.Props.Niche.C53_result_layout_refuted",
    "Verif.Props.Sum.C53_no_claim_with_padding_aligned",
    "Verif.Props.Niche.C53_models_agree",
    "Verif.Props.Niche.C53_parts",
    "Verif.Props.Sum.C53_pair_claims_iff"
   ],
   "note": "Proved for all types whose leaves have honest claims, whose enums use all tag values, and in which nothing hides a claimed niche; then core Option and Result have the layout claimed. Refuted for Ordering, file descriptors, every MaybeUninit or UnsafeCell of a type with one niche, every repr(uN) enum with unused tags, and core results whose empty side is more aligned."
  },
  {
   "property": "C54",
   "status": "partial",
   "theorems": [
    "Verif.Props.Layout.C54_is_invalid_sound_partial",
    "Verif.Props.Layout.C54_is_invalid_complete_refuted",
    "Verif.Props.Layout.C54_is_invalid_iff",
    "Verif.Props.Layout.C54_ranges"
   ],
   "note": "Exactly characterised: is_invalid sees the forbidden ranges. Sound for every type, exact for types whose forbidden values are ranges, refuted for byte lists."
  },
  {
   "property": "C55",
   "status": "proved",
   "theorems": [
    "Verif.Props.BTree.C55_ledger",
    "Verif.Props.BTree.C55_no_leak",
    "Verif.Props.BTree.C55_all_dropped"
   ],
   "note": "Values are conserved, every node is reachable from a live set, and nothing is left once all sets are dropped."
  },
  {
   "property": "C56",
   "status": "partial",
   "theorems": [
    "Verif.Props.Plain.C56_plain_holds_no_pointer_partial",
    "Verif.Props.Plain.C56_pointer_free_is_plain",
    "Verif.Props.Plain.C56_not_pod",
    "Verif.Props.Plain.C56_macro_types",
    "Verif.Props.Plain.C56_vtdrop_refuted"
   ],
   "note": "Holds for all types whose StableLike<T, As> wrappers name an As that holds a pointer if T does; VtDrop does not (its function pointer is declared to be like NonZeroUsize) and is accepted as plain data."
  },
  {
   "property": "C57",
   "status": "partial",
   "theorems": [
    "Verif.Props.Resolved.C57_poll_partial",
    "Verif.Props.Resolved.C57_history_partial",
    "Verif.Props.Resolved.C57_drop",
    "Verif.Props.Resolved.C57_once",
    "Verif.Props.Resolved.C57_twice_refuted",
    "Verif.Props.Resolved.C57_null_refuted",
    "Verif.Props.Resolved.C57_revived_refuted",
    "Verif.Props.Resolved.C57_unguarded_refuted"
   ],
   "note": "Proved for the types that are Calm (neither guard writes, and the determinant of Resolved is outside of the bytes of the other variants); for all other types the three refutations show that it fails: the value is produced twice, a finished future is polled again, or the future is dropped as a value."
  },
  {
   "property": "C58",
   "status": "partial",
   "theorems": [
    "Verif.Props.Load.C58_found",
    "Verif.Props.Load.C58_exact",
    "Verif.Props.Load.C58_absent",
    "Verif.Props.Load.C58_same_signature_partial",
    "Verif.Props.Load.C58_import",
    "Verif.Props.Load.C58_fields_refuted",
    "Verif.Props.Load.C58_wrapper_refuted"
   ],
   "note": "Exact characterisation of when a function is handed out. Equality of signatures holds for types with as many fields at every level; refuted for structs with different numbers of fields and for wrappers of function types, because is_compatible zips fields and wrappers hide them."
  },
  {
   "property": "C59",
   "status": "partial",
   "theorems": [
    "Verif.Props.Threads.C59_justified_partial",
    "Verif.Props.Threads.C59_complete_partial",
    "Verif.Props.Threads.C59_result_refuted",
    "Verif.Props.Threads.C59_atomic_btree_refuted",
    "Verif.Props.Threads.C59_import_refuted",
    "Verif.Props.Threads.C59_box_allocator_refuted",
    "Verif.Props.Threads.C59_ref_as_refuted",
    "Verif.Props.Threads.C59_waker_refuted"
   ],
   "note": "Holds for all types built of references, Box (with a Sync allocator), BoxedSlice, Vec and its iterators, Arc, Weak, ArcSlice, WeakSlice, AtomicArc, ArcBTreeSet, Slice, SliceMut, StableLike, MutAs, Symbol. Refuted for Result, Option, enums, SingleOrVec and guards (always Send and Sync), AtomicArcBTreeSet, imports, RefAs, and boxes with allocators that are not Sync. Not withheld: proved for those whose API offers what the trait promises."
  },
  {
   "property": "C60",
   "status": "partial",
   "theorems": [
    "Verif.Props.Variance.C60_reads",
    "Verif.Props.Variance.C60_writes_partial",
    "Verif.Props.Variance.C60_borrows",
    "Verif.Props.Variance.C60_covariant",
    "Verif.Props.Variance.C60_same_type",
    "Verif.Props.Variance.C60_slice_mut_refuted",
    "Verif.Props.Variance.C60_coerced_iff",
    "Verif.Props.Variance.C60_atomic_arc_refuted"
   ],
   "note": "Which coercions there are is exact. Sound for all modelled types but SliceMut, which is covariant in its element type, and AtomicArc, which is covariant in its allocator (both refuted)."
  },
  {
   "property": "C61",
   "status": "partial",
   "theorems": [
    "Verif.Props.Combi.C61_match_owned",
    "Verif.Props.Combi.C61_match_owned_ctx",
    "Verif.Props.Combi.C61_match_ref",
    "Verif.Props.Combi.C61_match_ref_ctx",
    "Verif.Props.Combi.C61_drop",
    "Verif.Props.Combi.C61_of_core_partial",
    "Verif.Props.Combi.C61_to_core",
    "Verif.Props.Combi.C61_round_trip_partial",
    "Verif.Props.Combi.C61_ok_err",
    "Verif.Props.Combi.C61_map_partial",
    "Verif.Props.Combi.C61_and_then_partial",
    "Verif.Props.Combi.C61_unwrap_or_else",
    "Verif.Props.Combi.C61_unwrap",
    "Verif.Props.Combi.C61_clone_partial",
    "Verif.Props.Combi.C61_eq",
    "Verif.Props.Combi.C61_hash",
    "Verif.Props.Combi.C61_hash_eq",
    "Verif.Props.Combi.C61_option_of_core_partial",
    "Verif.Props.Combi.C61_option_match",
    "Verif.Props.Combi.C61_option_to_core",
    "Verif.Props.Combi.C61_option_is_some",
    "Verif.Props.Combi.C61_option_unwrap",
    "Verif.Props.Combi.C61_option_clone_partial"
   ],
   "note": "Methods that build a result are proved for types whose storage is a whole number of alignment units; the others are subject of C12. Mutable access is C10."
  },
  {
   "property": "C62",
   "status": "partial",
   "theorems": [
    "Verif.Props.Unwind.C62_history_partial",
    "Verif.Props.Unwind.C62_good_destructors",
    "Verif.Props.Unwind.C62_truncate_refuted",
    "Verif.Props.Unwind.C62_truncate_twice_refuted",
    "Verif.Props.Unwind.C62_into_iter_refuted",
    "Verif.Props.Unwind.C62_drop_block_refuted",
    "Verif.Props.Unwind.C62_drain_tail_refuted",
    "Verif.Props.Unwind.C62_clone_copies_refuted"
   ],
   "note": "Proved for histories in which truncate and into_iter meet no unwinding destructor; with one, both drop elements twice. Drain, clone and drop lose elements or the block when user code unwinds. Zero-sized elements are not modelled; a destructor that unwinds does so each time."
  },
  {
   "property": "C63",
   "status": "partial",
   "theorems": [
    "Verif.Props.Platform.C63_layout_partial",
    "Verif.Props.Platform.C63_c_void_refuted",
    "Verif.Props.Platform.C63_f64_refuted",
    "Verif.Props.Platform.C63_forbidden",
    "Verif.Props.Platform.C63_no_unused_bits",
    "Verif.Props.Platform.C63_niches_partial",
    "Verif.Props.Platform.C63_fd_refuted",
    "Verif.Props.Platform.C63_indirections",
    "Verif.Props.Platform.C63_universe",
    "Verif.Props.Platform.C63_expr_to_type"
   ],
   "note": "c_void is declared with size 0 but has size 1; nothing checks that floats are aligned like integers; Ordering and file descriptors claim no niche though they have some, and file descriptors claim to hold a pointer."
  },
  {
   "property": "C64",
   "status": "partial",
   "theorems": [
    "Verif.Props.Optimal.C64_sorted_accepted",
    "Verif.Props.Optimal.C64_some_order_accepted",
    "Verif.Props.Optimal.C64_accepted_minimal_partial",
    "Verif.Props.Optimal.C64_accepted_iff",
    "Verif.Props.Optimal.C64_generic_refuted",
    "Verif.Props.Optimal.C64_enum_two",
    "Verif.Props.Optimal.C64_enum_bound",
    "Verif.Props.Optimal.C64_enum_larger_refuted",
    "Verif.Props.Optimal.C64_enum_doc_refuted",
    "Verif.Props.Optimal.C64_checked_iff",
    "Verif.Props.EnumOptimal.C64_enum_repr_u8",
    "Verif.Props.EnumOptimal.C64_enum_iff",
    "Verif.Props.EnumOptimal.C64_enum_full",
    "Verif.Props.EnumOptimal.C64_tutorial",
    "Verif.Props.EnumOptimal.C64_units",
    "Verif.Props.EnumOptimal.C64_units_refused"
   ],
   "note": "Structs: exact for structs without generics when rustc orders fields by alignment; generic structs are not checked. Enums of two variants are never larger than with repr(u8) and accepted exactly without a tag; enums of any number of variants are accepted exactly if they are as large as their largest variant, so never if a largest variant has no niche; larger enums can be larger (refuted), with a proved bound; the documented comparison with repr(C) is refuted."
  },
  {
   "property": "C65",
   "status": "partial",
   "theorems": [
    "Verif.Props.Traits.C65_parameters",
    "Verif.Props.Traits.C65_signature",
    "Verif.Props.Traits.C65_hygiene_refuted",
    "Verif.Props.Traits.C65_order",
    "Verif.Props.Traits.C65_calls",
    "Verif.Props.Traits.C65_receivers",
    "Verif.Props.Traits.C65_reorder",
    "Verif.Props.Traits.C65_generics_partial",
    "Verif.Props.Traits.C65_const_refuted",
    "Verif.Props.Traits.C65_fn_ptr_partial",
    "Verif.Props.Traits.C65_unsafe_refuted",
    "Verif.Props.Traits.C65_fn_ptr_exact",
    "Verif.Props.Traits.C65_vt_generics"
   ],
   "note": "Exact for all signatures in which the user does not write `_stabby_unselfed_n`. Traits with constant parameters or unsafe methods are never accepted (refuted parts). Bounds of associated types, lifetimes of receivers and calling conventions are in C87 and C88."
  },
  {
   "property": "C66",
   "status": "partial",
   "theorems": [
    "Verif.Props.Traits.C66_requires",
    "Verif.Props.Traits.C66_checked_partial",
    "Verif.Props.Traits.C66_accepts",
    "Verif.Props.Traits.C66_array_refuted",
    "Verif.Props.Traits.C66_fn_ptr_refuted",
    "Verif.Props.Traits.C66_assoc_refuted",
    "Verif.Props.Traits.C66_unchecked",
    "Verif.Props.Traits.C66_wellformed_partial",
    "Verif.Props.Traits.C66_elided_refuted",
    "Verif.Props.Traits.C66_closure_refuted",
    "Verif.Props.Traits.C66_elide",
    "Verif.Props.Traits.C66_eq",
    "Verif.Props.Traits.C66_closure_methods"
   ],
   "note": "Proved for types without Self, arrays and function pointers (outside generic arguments); arrays, function pointers and associated types are never checked, and references with elided lifetimes make checked traits fail to compile (refuted parts)."
  },
  {
   "property": "C67",
   "status": "partial",
   "theorems": [
    "Verif.Props.Box.C67_no_ub",
    "Verif.Props.Box.C67_values",
    "Verif.Props.Box.C67_allocators",
    "Verif.Props.Box.C67_handles",
    "Verif.Props.Box.C67_into_inner",
    "Verif.Props.Box.C67_drop",
    "Verif.Props.Box.C67_dyn_drop",
    "Verif.Props.Box.C67_call_once",
    "Verif.Props.Box.C67_alloc_fails",
    "Verif.Props.Box.C67_no_leak_partial",
    "Verif.Props.Box.C67_drop_leak_refuted",
    "Verif.Props.Box.C67_make_leak"
   ],
   "note": "Everything but leaks is proved. A destructor that unwinds in `Drop for Box` leaks the block (refuted part); a constructor that unwinds leaks too, as documented. Destructors of allocator handles do not unwind in the model; `from_raw` is only called on what `into_raw` returned, as its safety section demands."
  },
  {
   "property": "C68",
   "status": "partial",
   "theorems": [
    "Verif.Props.VtEq.C68_identity",
    "Verif.Props.VtEq.C68_equivalence",
    "Verif.Props.VtEq.C68_copy_refuted",
    "Verif.Props.VtEq.C68_downcast",
    "Verif.Props.VtEq.C68_sound",
    "Verif.Props.VtEq.C68_complete_partial",
    "Verif.Props.VtEq.C68_super_refuted",
    "Verif.Props.VtEq.C68_super",
    "Verif.Props.VtEq.C68_ffi",
    "Verif.Props.VtEq.C68_hash"
   ],
   "note": "Equality is identity of the vtable's address: copies differ from their original (refuted part), and no object can be downcast after a trait with methods was removed (refuted part). Soundness is up to merged destructors, as documented. The registry is modelled without concurrent insertions (see C32); where vtables are promoted constants (Rust before 1.78, nightly) only C68_identity, C68_equivalence and C68_copy_refuted apply."
  },
  {
   "property": "C69",
   "status": "partial",
   "theorems": [
    "Verif.Props.Slice.C69_round_trip",
    "Verif.Props.Slice.C69_deref_partial",
    "Verif.Props.Slice.C69_eq_partial",
    "Verif.Props.Slice.C69_cmp",
    "Verif.Props.Slice.C69_write_partial",
    "Verif.Props.Slice.C69_empty_refuted",
    "Verif.Props.Slice.C69_forge_refuted"
   ],
   "note": "Dereferencing, comparing and writing are proved for slices that are not empty; for empty ones they make a reference to an element that is not there (refuted part). The public fields let safe code forge slices (refuted part). Elements are not zero-sized; provenance of references is not modelled."
  },
  {
   "property": "C70",
   "status": "partial",
   "theorems": [
    "Verif.Props.Serde.C70_round_trip_partial",
    "Verif.Props.Serde.C70_round_trip",
    "Verif.Props.Serde.C70_valid",
    "Verif.Props.Serde.C70_injective",
    "Verif.Props.Serde.C70_owned_refuted",
    "Verif.Props.Serde.C70_bytes_refuted",
    "Verif.Props.Serde.C70_hint_refuted",
    "Verif.Props.Serde.C70_reserved"
   ],
   "note": "Values are read back exactly if the format lends every text and every slice of bytes in them; owned strings cannot be read from formats that do not, Slice<u8> from formats that tell sequences from bytes, and vectors reserve what the input announces (refuted parts). The formats and serde's own implementations are modelled by serde's data model."
  },
  {
   "property": "C71",
   "status": "partial",
   "theorems": [
    "Verif.Props.Zst.C71_release_partial",
    "Verif.Props.Zst.C71_empty",
    "Verif.Props.Zst.C71_push_refuted",
    "Verif.Props.Zst.C71_debug_refuted",
    "Verif.Props.Zst.C71_ub_refuted",
    "Verif.Props.Zst.C71_align_refuted",
    "Verif.Props.Zst.C71_first_capacity",
    "Verif.Props.Zst.C71_reserve",
    "Verif.Props.Zst.C71_full_refuted"
   ],
   "note": "push and extend do not compile; whatever asks for the capacity is undefined behaviour, and panics with debug assertions; pop reads unaligned pointers (refuted parts). Proved: empty vectors; and, where pointers are addresses, optimised builds with alignment 1 filled by copy_extend."
  },
  {
   "property": "C72",
   "status": "partial",
   "theorems": [
    "Verif.Props.Functions.C72_convention",
    "Verif.Props.Functions.C72_same",
    "Verif.Props.Functions.C72_sound",
    "Verif.Props.Functions.C72_complete_partial",
    "Verif.Props.Functions.C72_const_unsafe_refuted",
    "Verif.Props.Functions.C72_where_refuted",
    "Verif.Props.Functions.C72_async_refuted",
    "Verif.Props.Functions.C72_export_partial",
    "Verif.Props.Functions.C72_export",
    "Verif.Props.Functions.C72_export_refuted",
    "Verif.Props.Functions.C72_quals"
   ],
   "note": "Proved: what compiles is stable and is what was written, and what is exported is what is reported. Refuted: const unsafe functions, functions that need their where clause, async functions that use a parameter without moving it, and exports of functions without a convention or with one other than C and C-unwind do not compile."
  },
  {
   "property": "C73",
   "status": "partial",
   "theorems": [
    "Verif.Props.Publish.C73_orders",
    "Verif.Props.Publish.C73_edit",
    "Verif.Props.Publish.C73_registry",
    "Verif.Props.Publish.C73_get_refuted",
    "Verif.Props.Publish.C73_get_partial",
    "Verif.Props.Publish.C73_import_refuted",
    "Verif.Props.Publish.C73_import_partial",
    "Verif.Props.Publish.C73_import_acquire",
    "Verif.Props.Publish.C73_may",
    "Verif.Props.Publish.C73_coherence",
    "Verif.Props.Publish.C73_import_stages",
    "Verif.Props.Publish.C73_import_live",
    "Verif.Props.Publish.C73_code"
   ],
   "note": "Proved: edit and the registry are sound; AtomicArc is exactly if callers pass acquire for loads and failures and release for exchanges and stores (any ordering is accepted by the safe API). Refuted: AtomicArcBTreeSet::get and CheckedImport::as_ref use relaxed loads; they are sound in programs that synchronise by other means."
  },
  {
   "property": "C74",
   "status": "partial",
   "theorems": [
    "Verif.Props.BTreeUnwind.C74_done",
    "Verif.Props.BTreeUnwind.C74_unwound_partial",
    "Verif.Props.BTreeUnwind.C74_valid_partial",
    "Verif.Props.BTreeUnwind.C74_ledger",
    "Verif.Props.BTreeUnwind.C74_allocator",
    "Verif.Props.BTreeUnwind.C74_lost_refuted",
    "Verif.Props.BTreeUnwind.C74_leak_refuted",
    "Verif.Props.BTreeUnwind.C74_allocator_refuted"
   ],
   "note": "Proved: insertions that return do what they should; panicking comparisons and clones leave the elements as they were; however an insertion ends, the set is sorted and balanced (except for the first one failing to allocate) and every value is accounted for exactly once. Refuted: a failed allocation during a split drops half of a node; clones made before a panicking clone leak; a failed allocation of the first node drops the allocator twice."
  },
  {
   "property": "C75",
   "status": "partial",
   "theorems": [
    "Verif.Props.ReprAttr.C75_struct_iff",
    "Verif.Props.ReprAttr.C75_check",
    "Verif.Props.ReprAttr.C75_rust_repr_refuted",
    "Verif.Props.ReprAttr.C75_packed_refuted",
    "Verif.Props.ReprAttr.C75_align_refuted",
    "Verif.Props.ReprAttr.C75_union_iff",
    "Verif.Props.ReprAttr.C75_union_refuted",
    "Verif.Props.ReprAttr.C75_enum",
    "Verif.Props.ReprAttr.C75_enum_stabby",
    "Verif.Props.ReprAttr.C75_accepted_iff"
   ],
   "note": "Exactly which attributes are understood is proved, for structs and unions; enums are right. With the C representation the check in ID detects all mistakes, but nothing evaluates it. Refuted: repr(align(n)) alone leaves the Rust representation, which the check does not detect; repr(packed) and repr(C, align(n)) are accepted and computed as if absent; unions ignore both and check nothing."
  },
  {
   "property": "C76",
   "status": "partial",
   "theorems": [
    "Verif.Props.CType.C76_layout",
    "Verif.Props.CType.C76_data_partial",
    "Verif.Props.CType.C76_prim_iff",
    "Verif.Props.CType.C76_no_float",
    "Verif.Props.CType.C76_tagged_refuted",
    "Verif.Props.CType.C76_i686_refuted",
    "Verif.Props.CType.C76_u128_refuted",
    "Verif.Props.CType.C76_empty_union_refuted",
    "Verif.Props.CType.C76_no_niches_refuted",
    "Verif.Props.CType.C76_float_refuted",
    "Verif.Props.CType.C76_chunk",
    "Verif.Props.CType.C76_data_bytes"
   ],
   "note": "Size and alignment agree for all types on targets that align integers to their size, and for primitive types exactly on those. Bytes are kept, except in repr(tag) enums whose payloads start at different places (refuted). Refuted also: 64-bit types on i686, u128 aligned to 8, unions of size 0, NoNiches; floats become integers, which C ABIs pass in other registers."
  },
  {
   "property": "C77",
   "status": "partial",
   "theorems": [
    "Verif.Props.Generic.C77_unique_partial",
    "Verif.Props.Generic.C77_shape_partial",
    "Verif.Props.Generic.C77_phantom_refuted",
    "Verif.Props.Generic.C77_lifetime_refuted",
    "Verif.Props.Generic.C77_const_refuted",
    "Verif.Props.Generic.C77_self_refuted",
    "Verif.Props.Generic.C77_version",
    "Verif.Props.Generic.C77_names",
    "Verif.Props.Generic.C77_nested_lifetime_refuted",
    "Verif.Props.Generic.C77_argument_lifetime_refuted",
    "Verif.Props.Generic.C77_nested_phantom_refuted"
   ],
   "note": "Within a program, types without lifetime and const arguments are identified by their reports if every type parameter is used in a field other than a PhantomData. Across programs, if Self occurs behind pointers only and apart from lifetimes, constants and PhantomData, types with equal reports agree to any depth. Refuted: what is in a PhantomData (hence the allocator of Box and Arc), lifetimes (DynRef::stable_downcast extends them in safe code), constants, and Self as an argument of a generic type."
  },
  {
   "property": "C78",
   "status": "partial",
   "theorems": [
    "Verif.Props.DynOwner.C78_memory",
    "Verif.Props.DynOwner.C78_calls_partial",
    "Verif.Props.DynOwner.C78_destroyed_partial",
    "Verif.Props.DynOwner.C78_swap_refuted",
    "Verif.Props.DynOwner.C78_unit_refuted",
    "Verif.Props.DynOwner.C78_copy_refuted"
   ],
   "note": "For all programs memory is released exactly once, with the last pointer, and some destructor runs once (C78_memory). Methods run on values of their own type if pointers are exchanged only between objects of the same type, and values are destroyed by their own destructors if moreover the pointers inside of objects are not copied. Refuted otherwise: Dyn::ptr_mut is safe and hands out &mut P."
  },
  {
   "property": "C79",
   "status": "partial",
   "theorems": [
    "Verif.Props.Pinned.C79_results",
    "Verif.Props.Pinned.C79_pinned_partial",
    "Verif.Props.Pinned.C79_poll_refuted",
    "Verif.Props.Pinned.C79_downcast_refuted",
    "Verif.Props.Pinned.C79_places",
    "Verif.Props.Pinned.C79_polled"
   ],
   "note": "Results of polls are right for all programs. Objects that own their future keep the contract of Pin (C79_pinned_partial). Refuted: Future::poll takes &mut self and is safe, also on futures that are not Unpin, by value and through &mut objects; stable_downcast_mut gives out &mut to a pinned future."
  },
  {
   "property": "C80",
   "status": "partial",
   "theorems": [
    "Verif.Props.TimeConv.C80_from_f64_partial",
    "Verif.Props.TimeConv.C80_panics",
    "Verif.Props.TimeConv.C80_as_f64",
    "Verif.Props.TimeConv.C80_nearest_refuted",
    "Verif.Props.TimeConv.C80_large_refuted",
    "Verif.Props.TimeConv.C80_std_partial",
    "Verif.Props.TimeConv.C80_stabby",
    "Verif.Props.TimeConv.C80_stabby_back",
    "Verif.Props.TimeConv.C80_order",
    "Verif.Props.TimeConv.C80_add",
    "Verif.Props.TimeConv.C80_atomic",
    "Verif.Props.TimeConv.C80_before_refuted",
    "Verif.Props.TimeConv.C80_round",
    "Verif.Props.TimeConv.C80_saturates"
   ],
   "note": "from_secs_f64 gives a normalised duration less than a nanosecond below and at most 2^-24 ns above its argument, for arguments below 2^64; as_secs_f64 has a relative error of at most 2^-50. Points in time from the epoch on, order, addition and AtomicInstant are right. Refuted: 2.3 becomes 2.299999999s (truncation), so as_secs_f64 does not round-trip; numbers too large and infinity saturate instead of panicking; points before the epoch become the epoch. The representation of std's times is that of Unix."
  },
  {
   "property": "C81",
   "status": "partial",
   "theorems": [
    "Verif.Props.Compare.C81_eq",
    "Verif.Props.Compare.C81_text_eq",
    "Verif.Props.Compare.C81_eq_symm",
    "Verif.Props.Compare.C81_comparable",
    "Verif.Props.Compare.C81_text_comparable",
    "Verif.Props.Compare.C81_order",
    "Verif.Props.Compare.C81_text_order",
    "Verif.Props.Compare.C81_partial_total",
    "Verif.Props.Compare.C81_text_partial_total",
    "Verif.Props.Compare.C81_total",
    "Verif.Props.Compare.C81_text_total",
    "Verif.Props.Compare.C81_eq_order",
    "Verif.Props.Compare.C81_text_eq_order",
    "Verif.Props.Compare.C81_hash",
    "Verif.Props.Compare.C81_hash_slice",
    "Verif.Props.Compare.C81_text_hash_partial",
    "Verif.Props.Compare.C81_text_hash",
    "Verif.Props.Compare.C81_str_refuted",
    "Verif.Props.Compare.C81_entry",
    "Verif.Props.Compare.C81_report",
    "Verif.Props.Compare.C81_bytes",
    "Verif.Props.Compare.C81_str_hash"
   ],
   "note": "Equality and order are right for all types; hashes agree for all pairs but one. Refuted: String == Str, but Str derives Hash through Slice<u8> and never hashes like String, ArcStr, BoxedStr or str. Reports hash alike exactly if they are equal."
  },
  {
   "property": "C82",
   "status": "partial",
   "theorems": [
    "Verif.Props.Force.C82_interleavings_partial",
    "Verif.Props.Force.C82_counts_partial",
    "Verif.Props.Force.C82_force_partial",
    "Verif.Props.Force.C82_use_after_free_refuted",
    "Verif.Props.Force.C82_leak_refuted",
    "Verif.Props.Force.C82_may",
    "Verif.Props.Force.C82_possible"
   ],
   "note": "Holds for all interleavings in which neither upgrade nor force_upgrade starts while an upgrade is in flight, with less than 2^62 handles. Refuted otherwise: the store(0) of a failing upgrade erases the unit of a force_upgrade (use of released memory); a force_upgrade that reads the mark of an upgrade alone adds a surplus unit to the weak counter (leak)."
  },
  {
   "property": "C83",
   "status": "partial",
   "theorems": [
    "Verif.Props.Written.C83_read_partial",
    "Verif.Props.Written.C83_tokens",
    "Verif.Props.Written.C83_accepts",
    "Verif.Props.Written.C83_rooted_refuted",
    "Verif.Props.Written.C83_refused_refuted"
   ],
   "note": "Reading back what was written gives the same type for all types that are accepted, but for one form; which types are accepted is characterised. Refuted: <T as ::a::Trait>::X loses the leading ::, so that it may name another trait; <Self as Trait>::X, <T>::X and (T), which mean the same as accepted types, make the macro panic."
  },
  {
   "property": "C84",
   "status": "partial",
   "theorems": [
    "Verif.Props.Expand.C84_args",
    "Verif.Props.Expand.C84_checked",
    "Verif.Props.Expand.C84_canaried",
    "Verif.Props.Expand.C84_symbols",
    "Verif.Props.Expand.C84_same_build",
    "Verif.Props.Expand.C84_names_partial",
    "Verif.Props.Expand.C84_foreign",
    "Verif.Props.Expand.C84_names_refuted",
    "Verif.Props.Expand.C84_types_refuted",
    "Verif.Props.Expand.C84_generic_refuted",
    "Verif.Props.Expand.C84_link_refuted",
    "Verif.Props.Expand.C84_attrs_refuted"
   ],
   "note": "The expansion is characterised for all blocks, with and without canaries, and so are the symbols asked for, which a library of the same build has. Refuted: types declared or imported in the module of the block aren't in scope in the generated module (names then stand for what the prelude calls so, e.g. std's Vec and Option); foreign types aren't re-exported; lifetime parameters and missing library names give code that Rust refuses; attributes of functions are dropped without canaries."
  },
  {
   "property": "C85",
   "status": "partial",
   "theorems": [
    "Verif.Props.DynPtr.C85_ptr",
    "Verif.Props.DynPtr.C85_ref_partial",
    "Verif.Props.DynPtr.C85_vtable",
    "Verif.Props.DynPtr.C85_same",
    "Verif.Props.DynPtr.C85_several_refuted",
    "Verif.Props.DynPtr.C85_elided_refuted",
    "Verif.Props.DynPtr.C85_arguments_refuted",
    "Verif.Props.DynPtr.C85_bare"
   ],
   "note": "Proved for all pointers with a path, for references with a written lifetime to one trait, and for vtable!. Refuted: references to objects of several bounds can't be written at all, with or without parentheses, though the README says so; the elided lifetime of a reference becomes 'static; pointers with an allocator or with ::< are refused."
  },
  {
   "property": "C86",
   "status": "partial",
   "theorems": [
    "Verif.Props.Options.C86_version",
    "Verif.Props.Options.C86_accepts",
    "Verif.Props.Options.C86_options",
    "Verif.Props.Options.C86_order",
    "Verif.Props.Options.C86_module",
    "Verif.Props.Options.C86_functions",
    "Verif.Props.Options.C86_integers_refuted",
    "Verif.Props.Options.C86_glued_refuted"
   ],
   "note": "Proved for all lists of options: what is accepted, and what becomes of them. Refuted: integers with underscores, a base or a suffix make the macro panic, though Rust reads them as integers; modules that are given twice are glued together, and an option after a module without a comma becomes a part of the module."
  },
  {
   "property": "C87",
   "status": "partial",
   "theorems": [
    "Verif.Props.Bounds.C87_where_partial",
    "Verif.Props.Bounds.C87_constructor_partial",
    "Verif.Props.Bounds.C87_dyn_types",
    "Verif.Props.Bounds.C87_params",
    "Verif.Props.Bounds.C87_inline",
    "Verif.Props.Bounds.C87_lifetime_refuted",
    "Verif.Props.Bounds.C87_maybe_refuted",
    "Verif.Props.Bounds.C87_super_refuted",
    "Verif.Props.Bounds.C87_params_refuted",
    "Verif.Props.Bounds.C87_where_refuted",
    "Verif.Props.Bounds.C87_once",
    "Verif.Props.Bounds.C87_unselfed"
   ],
   "note": "Proved: without lifetime bounds, the clauses are read back as exactly the bounds of the trait; the associated types of {Trait}Dyn have all bounds; which parameters are accepted. Refuted: a lifetime bound on an associated type lacks its comma, so that no such trait is accepted; ?Sized is taken for Sized; bounds that name Self::X of a supertrait make the macro panic; default types, bounds on lifetimes and constants are refused; the where clause of a trait is dropped."
  },
  {
   "property": "C88",
   "status": "partial",
   "theorems": [
    "Verif.Props.Methods.C88_accepts",
    "Verif.Props.Methods.C88_dyn",
    "Verif.Props.Methods.C88_again",
    "Verif.Props.Methods.C88_sig",
    "Verif.Props.Methods.C88_elision",
    "Verif.Props.Methods.C88_compiles",
    "Verif.Props.Methods.C88_field_partial",
    "Verif.Props.Methods.C88_unsafe_refuted",
    "Verif.Props.Methods.C88_elided_refuted",
    "Verif.Props.Methods.C88_bounds_refuted"
   ],
   "note": "Proved: which methods the macro takes; those of {Trait}Dyn are the trait's; for which methods the fields compile, exactly; those that do have the method's lifetimes, convention and safety. Refuted: no unsafe method compiles (the macro writes extern \"C\" unsafe fn); methods whose output borrows from &self without a name, with another lifetime in the parameters, don't compile; lifetimes with bounds don't. Types are modelled by the lifetimes that occur in them."
  },
  {
   "property": "C89",
   "status": "partial",
   "theorems": [
    "Verif.Props.Fmt.C89_hex",
    "Verif.Props.Fmt.C89_hex_prefix",
    "Verif.Props.Fmt.C89_hex_injective",
    "Verif.Props.Fmt.C89_bytes",
    "Verif.Props.Fmt.C89_debug",
    "Verif.Props.Fmt.C89_debug_set",
    "Verif.Props.Fmt.C89_write",
    "Verif.Props.Fmt.C89_nested_refuted",
    "Verif.Props.Fmt.C89_shape_refuted"
   ],
   "note": "Proved: the text of sequences, its beginning if the writer fails, reading back for elements whose text has no colon and isn't empty (bytes in particular); Debug of trees has the elements in the order of for_each (ascending by C28); io::Write. Refuted: sequences of sequences can't be read back; equal sets are shown with the nodes of their trees, which differ with the order of insertion."
  },
  {
   "property": "C90",
   "status": "partial",
   "theorems": [
    "Verif.Props.Generics.C90_report",
    "Verif.Props.Generics.C90_struct",
    "Verif.Props.Generics.C90_tuple",
    "Verif.Props.Generics.C90_plain",
    "Verif.Props.Generics.C90_stabby",
    "Verif.Props.Generics.C90_kept",
    "Verif.Props.Generics.C90_kept_plain_partial",
    "Verif.Props.Generics.C90_where_refuted",
    "Verif.Props.Generics.C90_refused_refuted",
    "Verif.Props.Generics.C90_tree",
    "Verif.Props.Generics.C90_form"
   ],
   "note": "Proved: exactly which types are accepted, for each shape, and that those accepted keep their parameters and, but for enums with a repr and unions, their where clause. Refuted: the where clause of enums with a repr and of unions is dropped; constants before types, where clauses of tuple structs, bounds, defaults and constants of enums with a repr and of unions, defaults of other enums and where clauses of these without a comma at the end are refused."
  },
  {
   "property": "C91",
   "status": "partial",
   "theorems": [
    "Verif.Props.Handles.C91_history_partial",
    "Verif.Props.Handles.C91_end_partial",
    "Verif.Props.Handles.C91_exchange_refuted",
    "Verif.Props.Handles.C91_box_leak_refuted",
    "Verif.Props.Handles.C91_box_push_refuted",
    "Verif.Props.Handles.C91_share_refuted",
    "Verif.Props.Handles.C91_unshare_leak_refuted",
    "Verif.Props.Handles.C91_from_arc_refuted",
    "Verif.Props.Handles.C91_reserve_refuted",
    "Verif.Props.Handles.C91_elements",
    "Verif.Props.Handles.C91_make_mut"
   ],
   "note": "Proved for all sequences of 25 operations except the following, for each of which it is refuted: exchanging allocators with allocator_mut; boxing a vector with capacity but no elements (leak); try_push on a boxed slice without memory; sharing a vector without memory when allocators have a size; making a vector of such a slice otherwise (leak); ArcSlice from Arc, which frees what it returns; failing to reserve for a SingleOrVec with one element (allocator destroyed twice)."
  },
  {
   "property": "C92",
   "status": "partial",
   "theorems": [
    "Verif.Props.Failure.C92_numbers",
    "Verif.Props.Failure.C92_left_partial",
    "Verif.Props.Failure.C92_right_partial",
    "Verif.Props.Failure.C92_left_refuted",
    "Verif.Props.Failure.C92_right_refuted",
    "Verif.Props.Failure.C92_nonzero"
   ],
   "note": "Proved: as the first operand Saturator is kept by all operations except +, -, Max, % and comparisons; as the second only by + and |, and by Min, Max and - for some numbers. Refuted, for every number: it counts as zero in all others (U5 & Saturator, U5 * Saturator and U5 truncated to Saturator bits are U0; U5 - Saturator is U5; Saturator + U5 is U5; Saturator == U0), and simplifying UInt<Saturator, B0> gives U0."
  },
  {
   "property": "C93",
   "status": "partial",
   "theorems": [
    "Verif.Props.Includes.C93_output",
    "Verif.Props.Includes.C93_empty",
    "Verif.Props.Includes.C93_none",
    "Verif.Props.Includes.C93_sound_partial",
    "Verif.Props.Includes.C93_refuted"
   ],
   "note": "The output is characterised for all masks; SubSet as output is always right. Refuted: bits of a byte that is not unused as a whole are not found, and a byte that Set does not mention leaves no implementation instead of End."
  },
  {
   "property": "C94",
   "status": "partial",
   "theorems": [
    "Verif.Props.Found.C94_found_partial",
    "Verif.Props.Found.C94_option_partial",
    "Verif.Props.Found.C94_symmetric",
    "Verif.Props.Found.C94_budget_refuted",
    "Verif.Props.Found.C94_option_refuted",
    "Verif.Props.Found.C94_nested_refuted"
   ],
   "note": "Proved: the search succeeds exactly if one of the first eight aligned places of the smaller payload tells the payloads apart; the order of the variants does not matter. Refuted: a ninth place is not tried; Option only looks at the forbidden values of the first field (Option<(u8, bool)> takes three bytes, Option<(bool, u8)> two); results declare no forbidden values, so Option<Option<bool>> takes two bytes."
  },
  {
   "property": "C95",
   "status": "partial",
   "theorems": [
    "Verif.Props.Cell.C95_reads",
    "Verif.Props.Cell.C95_no_race_partial",
    "Verif.Props.Cell.C95_keeps_partial",
    "Verif.Props.Cell.C95_run_partial",
    "Verif.Props.Cell.C95_option_iff",
    "Verif.Props.Cell.C95_race_refuted",
    "Verif.Props.Cell.C95_variant_refuted",
    "Verif.Props.Cell.C95_rmutex_refuted"
   ],
   "note": "What is kept is proved for types of which the cells hold no type with unused bits (all atomics, cells of integers and booleans); the absence of races if they have no forbidden values either (all atomics but AtomicBool). For Option of a cell the absence of races is equivalent to the tag taking room of its own. Refuted otherwise, because UnsafeCell and AtomicBool export the niches of what they hold: is_some of Option<AtomicBool> races with stores to it, and storing a pair (u8, u16) to a lock in Some(lock) can turn it into None."
  },
  {
   "property": "C96",
   "status": "partial",
   "theorems": [
    "Verif.Props.Forget.C96_ok_partial",
    "Verif.Props.Forget.C96_err_partial",
    "Verif.Props.Forget.C96_option_iff",
    "Verif.Props.Forget.C96_option_refuted",
    "Verif.Props.Forget.C96_drain",
    "Verif.Props.ForgetIff.C96_ok_iff",
    "Verif.Props.ForgetIff.C96_err_iff"
   ],
   "note": "Proved for drains. For guards of any result that can be stored (C12) it is proved exactly when they can be forgotten: if is_ok reads no byte of the payload, or answers as it does because the payload is none of its forbidden values (for Option<T>: if forbidden values of T are found or T has no unused bits). Refuted otherwise: a forgotten guard can leave None where Some((1, 3)) was written; the documentation of the guards says that this may be undefined behaviour, but no unsafe code is needed."
  },
  {
   "property": "C97",
   "status": "proved",
   "theorems": [
    "Verif.Props.Pass.C97_iterator",
    "Verif.Props.Pass.C97_map"
   ],
   "note": "For all types that can be stored (the others are subject of C12). That the vtable's functions are the trait's is C65; std's maps are assumed to keep their contract, which is stated. stabby/src/map.rs is not declared as a module of the crate (stabby/src/lib.rs), so it is proved of the file as it stands."
  },
  {
   "property": "C98",
   "status": "partial",
   "theorems": [
    "Verif.Props.Cow.C98_into_owned_partial",
    "Verif.Props.Cow.C98_to_owned_partial",
    "Verif.Props.Cow.C98_borrow_partial",
    "Verif.Props.Cow.C98_storage_iff",
    "Verif.Props.Cow.C98_storage_refuted",
    "Verif.Props.Cow.C98_str",
    "Verif.Props.Cow.C98_str_round_trip"
   ],
   "note": "Proved for all owned types for which there is room; it is proved for which there is (of alignment up to 8: at most 8 bytes, or a multiple of 8). Refuted for the others: Cow<[u8; 9]> has eight bytes and Cow::Owned writes nine (C12). CowStr is right."
  },
  {
   "property": "C99",
   "status": "partial",
   "theorems": [
    "Verif.Props.SovMut.C99_single_iff",
    "Verif.Props.SovMut.C99_guard_partial",
    "Verif.Props.SovMut.C99_late_refuted",
    "Verif.Props.SovMut.C99_vec_borrow",
    "Verif.Props.SovMut.C99_set"
   ],
   "note": "Proved for as_slice_mut with the guard dropped after the last write, for vectors, and for element types in whose bytes is_ok does not look for the tag; it is proved that exactly these can be written after the iterator is gone. Refuted for the others: in safe code, a late write to the element of a SingleOrVec<(u8, (u64, u64, u64))> can turn it into a vector whose pointers are the three numbers."
  },
  {
   "property": "C100",
   "status": "partial",
   "theorems": [
    "Verif.Props.Names.C100_names",
    "Verif.Props.Names.C100_u128",
    "Verif.Props.Names.C100_all",
    "Verif.Props.Names.C100_distinct",
    "Verif.Props.Names.C100_doc_partial",
    "Verif.Props.Names.C100_doc_refuted",
    "Verif.Props.Names.C100_tuples",
    "Verif.Props.Names.C100_arity"
   ],
   "note": "Proved for names, types, tuples and arities, for all bounds. Only the documentation fails: that of the powers is the exponent instead of the number."
  },
  {
   "property": "C101",
   "status": "partial",
   "theorems": [
    "Verif.Props.Cfg.C101_builds_iff",
    "Verif.Props.Cfg.C101_default_partial",
    "Verif.Props.Cfg.C101_unsafe_wakers_refuted",
    "Verif.Props.Cfg.C101_vec_refuted",
    "Verif.Props.Cfg.C101_no_alloc_refuted",
    "Verif.Props.Cfg.C101_disabled_refuted",
    "Verif.Props.Cfg.C101_wasm_refuted"
   ],
   "note": "C101_builds_iff says exactly which declared configurations build. Refuted: stabby_unsafe_wakers=\"true\" and stabby_vtables=\"vec\" compile two versions, because not(name) holds for options that have a value; \"no_alloc\" changes nothing; without an allocator nothing builds; feature libc alone selects an absent allocator on wasm32; nightlies before 1.78 have two IConstConstructor."
  },
  {
   "property": "C102",
   "status": "partial",
   "theorems": [
    "Verif.Props.Own.C102_no_ub",
    "Verif.Props.Own.C102_once",
    "Verif.Props.Own.C102_alive",
    "Verif.Props.Own.C102_counts",
    "Verif.Props.Own.C102_no_leak_partial",
    "Verif.Props.Own.C102_drop",
    "Verif.Props.Own.C102_upgrade",
    "Verif.Props.Own.C102_given_back",
    "Verif.Props.Own.C102_into_inner",
    "Verif.Props.Own.C102_make_mut",
    "Verif.Props.Own.C102_raw",
    "Verif.Props.Own.C102_failed_constructor",
    "Verif.Props.Own.C102_unwind_refuted",
    "Verif.Props.Own.C102_can",
    "Verif.Props.Own.C102_deref"
   ],
   "note": "Proved for all programs of one thread, with unwinding. Refuted: memory is not freed when the destructor of the value unwinds (std's Arc frees it), nor when a constructor does, which is documented. Dyn<Weak> is in C25, threads in C22 to C24 and C26, which allocator frees in C91."
  },
  {
   "property": "C103",
   "status": "partial",
   "theorems": [
    "Verif.Props.ReportText.C103_fields",
    "Verif.Props.ReportText.C103_text_partial",
    "Verif.Props.ReportText.C103_types",
    "Verif.Props.ReportText.C103_message_partial",
    "Verif.Props.ReportText.C103_text_refuted",
    "Verif.Props.ReportText.C103_order",
    "Verif.Props.ReportText.C103_order_refuted",
    "Verif.Props.ReportText.C103_size",
    "Verif.Props.ReportText.C103_escape",
    "Verif.Props.ReportText.C103_format",
    "Verif.Props.ReportText.C103_mismatch",
    "Verif.Props.ReportText.C103_fieldsOf",
    "Verif.Props.ReportText.C103_modules"
   ],
   "note": "Proved for reports whose names and modules have no blanks (those of all types named by identifiers and paths, C103_types). Refuted for modules given as arbitrary strings by #[stabby(module = ..)]: incompatible reports can have the same text. Fields come from the last to the first, and texts can be exponentially long."
  },
  {
   "property": "C104",
   "status": "partial",
   "theorems": [
    "Verif.Props.Ids.C104_iff",
    "Verif.Props.Ids.C104_reports",
    "Verif.Props.Ids.C104_layout_partial",
    "Verif.Props.Ids.C104_alignment_refuted"
   ],
   "note": "Equal layouts are proved where integers and floats of up to 64 bits are aligned to their size. Refuted elsewhere: the alignment of u64 is not part of the ID, so that all types have the same IDs on i686 Linux and Windows, whose layouts differ."
  },
  {
   "property": "C105",
   "status": "partial",
   "theorems": [
    "Verif.Props.SameLayout.C105_layout_partial",
    "Verif.Props.SameLayout.C105_compilers_partial",
    "Verif.Props.SameLayout.C105_u128",
    "Verif.Props.SameLayout.C105_compilers_refuted",
    "Verif.Props.SameLayout.C105_align_refuted",
    "Verif.Props.SameLayout.C105_repr_refuted",
    "Verif.Props.SameLayout.C105_cell_refuted",
    "Verif.Props.SameLayout.C105_names",
    "Verif.Props.SameLayout.C105_literals",
    "Verif.Props.SameLayout.C105_array_name",
    "Verif.Props.SameLayout.C105_items",
    "Verif.Props.SameLayout.C105_others",
    "Verif.Props.SameLayout.C105_tag_is",
    "Verif.Props.SameLayout.C105_sum_is",
    "Verif.Props.SameLayout.C105_sum_storage"
   ],
   "note": "Proved for structs without repr(align), enums that are all repr(C, tag) or all repr(tag), and ManuallyDrop, MaybeUninit, UnsafeCell of primitive types; between compilers, for types without i128 and 128 bit NonZero. Refuted for each of these: adding repr(align(16)) to a struct keeps its report; repr(u8) and repr(C, u8) enums share report, size and alignment but not the places of payloads; MaybeUninit of two types of the same name share a report; the report of i128 does not tell its alignment as that of u128 does."
  },
  {
   "property": "C106",
   "status": "partial",
   "theorems": [
    "Verif.Props.Check.C106_check_partial",
    "Verif.Props.Check.C106_sound",
    "Verif.Props.Check.C106_align_refuted",
    "Verif.Props.Check.C106_platform",
    "Verif.Props.Check.C106_fits_partial",
    "Verif.Props.Check.C106_fits_refuted",
    "Verif.Props.Check.C106_digits_partial",
    "Verif.Props.Check.C106_align_digits_partial",
    "Verif.Props.Check.C106_size_text",
    "Verif.Props.Check.C106_align_text",
    "Verif.Props.Check.C106_text_refuted",
    "Verif.Props.Check.C106_literals",
    "Verif.Props.Check.C106_niche_text",
    "Verif.Props.Check.C106_outcome"
   ],
   "note": "Proved for alignments below 256, which are compared as u8: 256 and 512 are taken for the same (refuted). Texts are as said for names of up to 39 bytes, sizes below a million and alignments below 100; beyond, the buffer is too short (for the name of abi_stable's receivers) or digits are missing or wrong (refuted). The program does not compile in these cases either."
  },
  {
   "property": "C107",
   "status": "partial",
   "theorems": [
    "Verif.Props.Dispatch.C107_item",
    "Verif.Props.Dispatch.C107_types",
    "Verif.Props.Dispatch.C107_trait",
    "Verif.Props.Dispatch.C107_future",
    "Verif.Props.Dispatch.C107_functions",
    "Verif.Props.Dispatch.C107_export",
    "Verif.Props.Dispatch.C107_function_refuted",
    "Verif.Props.Dispatch.C107_block_refuted",
    "Verif.Props.Dispatch.C107_message_refuted"
   ],
   "note": "Proved: what is accepted on each kind of item, exactly, and what becomes of it. Refuted: functions that are not async accept unsend, unsync and lifetimes to no effect, async blocks accept anything, and the advice given by export names an argument that it refuses (canaried)."
  },
  {
   "property": "C108",
   "status": "partial",
   "theorems": [
    "Verif.Props.Like.C108_check",
    "Verif.Props.Like.C108_honest_partial",
    "Verif.Props.Like.C108_itself",
    "Verif.Props.Like.C108_no_niches",
    "Verif.Props.Like.C108_no_niches_ty",
    "Verif.Props.Like.C108_honest_iff",
    "Verif.Props.Like.C108_functions",
    "Verif.Props.Like.C108_taken_iff",
    "Verif.Props.Like.C108_needed",
    "Verif.Props.Like.C108_none_refuted",
    "Verif.Props.Like.C108_confusion_refuted",
    "Verif.Props.Like.C108_unused_refuted",
    "Verif.Props.Like.C108_errors"
   ],
   "note": "Proved: what compiles; honest links keep all values, for arbitrary sets of valid bytes; NoNiches is always honest; exactly which values are taken for None. Missing: truncated storage (C12). Refuted: new is safe and checks only size and alignment, so that safe code has Some(2) be None, makes references to any address, and has Some change the byte it is given."
  },
  {
   "property": "C109",
   "status": "partial",
   "theorems": [
    "Verif.Props.Root.C109_works_partial",
    "Verif.Props.Root.C109_refuses",
    "Verif.Props.Root.C109_chosen",
    "Verif.Props.Root.C109_entry_refuted",
    "Verif.Props.Root.C109_examples_refuted"
   ],
   "note": "Proved: the path is right whenever all entries for the two crates are passed by cargo; when the macros refuse; which entry is chosen. Refuted: an entry for stabby-abi that is not passed (in the other table, or optional) hides stabby, so that generated code names a crate that there is not; examples and documentation tests of stabby-abi itself use crate, which is another crate."
  },
  {
   "property": "C110",
   "status": "partial",
   "theorems": [
    "Verif.Props.Checks.C110_same_partial",
    "Verif.Props.Checks.C110_reveals_partial",
    "Verif.Props.Checks.C110_checked_iff",
    "Verif.Props.Checks.C110_eq_refuted",
    "Verif.Props.Checks.C110_unwrap",
    "Verif.Props.Checks.C110_new",
    "Verif.Props.Checks.C110_make",
    "Verif.Props.Checks.C110_accepts_iff",
    "Verif.Props.Checks.C110_message_refuted",
    "Verif.Props.Checks.C110_ub_partial",
    "Verif.Props.Checks.C110_stops",
    "Verif.Props.Checks.C110_assert_operand",
    "Verif.Props.Checks.C110_assert_eq_operands"
   ],
   "note": "Proved for all programs, with loops and caught panics, that compare with a lawful !=. Refuted: assert_eq_unchecked! checks == in one build and != in the other; assert_unchecked!(condition) without a message or a comma does not compile."
  },
  {
   "property": "C111",
   "status": "partial",
   "theorems": [
    "Verif.Props.Lifetime.C111_outlives",
    "Verif.Props.Lifetime.C111_made",
    "Verif.Props.Lifetime.C111_downcast_iff",
    "Verif.Props.Lifetime.C111_borrows_partial",
    "Verif.Props.Lifetime.C111_downcast_refuted"
   ],
   "note": "Objects never outlive what they hold, in all programs. Borrows are sound for downcasts that do not ask for longer lifetimes. Refuted: reports do not tell lifetimes and no bound of stable_downcast* does, for Dyn as for DynRef, so that safe code has borrows that are over."
  },
  {
   "property": "C112",
   "status": "partial",
   "theorems": [
    "Verif.Props.Foreign.C112_size",
    "Verif.Props.Foreign.C112_forbidden",
    "Verif.Props.Foreign.C112_unused",
    "Verif.Props.Foreign.C112_niches_partial",
    "Verif.Props.Foreign.C112_two_niches_refuted",
    "Verif.Props.Foreign.C112_ctype",
    "Verif.Props.Foreign.C112_feature_refuted"
   ],
   "note": "Sizes, alignments, forbidden values, padding and C types are right for all types. Claims about niches are right except for maps and errors, which claim one niche but have two (refuted). The feature abi_stable does not compile without experimental-ctypes (refuted)."
  },
  {
   "property": "C113",
   "status": "partial",
   "theorems": [
    "Verif.Props.Closure.C113_arguments",
    "Verif.Props.Closure.C113_methods",
    "Verif.Props.Closure.C113_calls",
    "Verif.Props.Closure.C113_call_once",
    "Verif.Props.Closure.C113_same_partial",
    "Verif.Props.Closure.C113_unwinding_refuted",
    "Verif.Props.Closure.C113_callable_iff",
    "Verif.Props.Closure.C113_own_method_partial",
    "Verif.Props.Closure.C113_missing_refuted",
    "Verif.Props.Closure.C113_signatures",
    "Verif.Props.Closure.C113_signatures_refuted",
    "Verif.Props.Closure.C113_exported"
   ],
   "note": "Arguments, effects and results are right for all closures and sequences of calls, up to the first panic, which aborts the process (refuted: it cannot be caught). Exactly which methods can be called and which signatures have vtables is proved. Refuted: objects of Fn cannot be called as FnMut or FnOnce, a boxed FnOnce in another allocator or without alloc-rs cannot be called at all; closures that take references of any lifetime (Fn(&u8)) have no vtable. Ownership of boxed closures is C67."
  },
  {
   "property": "C114",
   "status": "partial",
   "theorems": [
    "Verif.Props.Document.C114_result_partial",
    "Verif.Props.Document.C114_empty_partial",
    "Verif.Props.Document.C114_option_refuted",
    "Verif.Props.Document.C114_size",
    "Verif.Props.Document.C114_size_refuted",
    "Verif.Props.Document.C114_option_option",
    "Verif.Props.Document.C114_polarity",
    "Verif.Props.Document.C114_polarity_refuted",
    "Verif.Props.Document.C114_offsets_refuted",
    "Verif.Props.Document.C114_tree",
    "Verif.Props.Document.C114_primitives",
    "Verif.Props.Document.C114_struct_values",
    "Verif.Props.Document.C114_struct_unbits",
    "Verif.Props.Document.C114_union",
    "Verif.Props.Document.C114_methods",
    "Verif.Props.Document.C114_methods_iff",
    "Verif.Props.Document.C114_methods_refuted",
    "Verif.Props.Document.C114_tagged",
    "Verif.Props.Document.C114_empty_iff",
    "Verif.Props.Document.C114_named_partial",
    "Verif.Props.Document.C114_offsets",
    "Verif.Props.Document.C114_tag_byte",
    "Verif.Props.Document.C114_readme_refuted"
   ],
   "note": "Offsets, determinant and unused bits agree with the document's program for all pairs of non-empty types, if it is read as it is meant: forbidden values of Err are shifted with Err, and the two determinants by forbidden value are exchanged (read literally, Ok and Err are the wrong way around exactly for those). For empty variants they agree exactly if the first field has the first forbidden values, or there are none. Sizes agree exactly if the larger size is a multiple of the larger alignment. Enums, with and without an explicit tag, structs and unions agree. Vtables agree exactly if no method with &mut self is declared before one with &self. Missing: results that are smaller than their alignment requires (C12)."
  },
  {
   "property": "C115",
   "status": "partial",
   "theorems": [
    "Verif.Props.Version.C115_unique",
    "Verif.Props.Version.C115_header_partial",
    "Verif.Props.Version.C115_header_refuted",
    "Verif.Props.Version.C115_refuses_refuted",
    "Verif.Props.Version.C115_monotone",
    "Verif.Props.Version.C115_division_partial",
    "Verif.Props.Version.C115_hidden_refuted",
    "Verif.Props.Version.C115_caret",
    "Verif.Props.Version.C115_caret_refuted",
    "Verif.Props.Version.C115_overflow_refuted"
   ],
   "note": "The script recovers API and ABI for ABI levels up to 33 and numbers below 2^1024: it divides floats, so 3^35 is read as abi 1. It accepts versions that are not products, such as 10.1.1 and 36.0.1. Dividing tells what changed at the first level where something did; at later levels a reset can hide a change (6.1.2 to 12.1.3). The statement about cargo is for releases of which one takes back nothing of the other; by numbers alone 36.3.1 (API 2.0.0) satisfies a requirement of 36.2.1 (API 2.1.0)."
  }
 ]
}