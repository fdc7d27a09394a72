{
 "claims": [
  {
   "property": "C01",
   "status": "proved",
   "theorems": [
    "C01_vec_is_list",
    "C01_no_spurious_panic"
   ],
   "note": "Hypotheses: non-zero element size, destructors do not panic, sizes within the byte limit (Legal)."
  },
  {
   "property": "C02",
   "status": "proved",
   "theorems": [
    "C02_vec_memory_safe"
   ],
   "note": "Hypotheses: non-zero element size, destructors do not panic, sizes within the byte limit (Legal)."
  },
  {
   "property": "C03",
   "status": "proved",
   "theorems": [
    "C03_owned_once",
    "C03_no_duplicate"
   ],
   "note": "Hypotheses: non-zero element size, destructors do not panic, sizes within the byte limit (Legal)."
  },
  {
   "property": "C04",
   "status": "proved",
   "theorems": [
    "C04_no_leak"
   ],
   "note": "Hypotheses: non-zero element size, destructors do not panic, sizes within the byte limit (Legal)."
  },
  {
   "property": "C05",
   "status": "proved",
   "theorems": [
    "C05_with_capacity",
    "C05_reserve_exact",
    "C05_reserve",
    "C05_shrink_to",
    "C05_shrink_to_fit"
   ],
   "note": "Hypothesis: non-zero element size."
  },
  {
   "property": "C06",
   "status": "partial",
   "theorems": [
    "C06_push_amortised_refuted",
    "C06_one_request_per_push",
    "C06_push_amortised_partial"
   ],
   "note": "False: every push beyond the capacity asks the allocator for exactly one more element. Holds after a sufficient reserve."
  },
  {
   "property": "C07",
   "status": "proved",
   "theorems": [
    "C07_try_reserve_exact",
    "C07_try_reserve",
    "C07_try_with_capacity",
    "C07_reserve_exact",
    "C07_reserve",
    "C07_with_capacity",
    "C07_push"
   ],
   "note": "Hypothesis: non-zero element size."
  },
  {
   "property": "C08",
   "status": "partial",
   "theorems": [
    "C08_refuted_panics",
    "C08_refuted_bad_request",
    "C08_refuted_corruption",
    "C08_overflow_partial"
   ],
   "note": "False: the byte count is an unchecked product. Holds for a vector without a buffer."
  },
  {
   "property": "C09",
   "status": "partial",
   "theorems": [
    "C09_retain_refuted",
    "C09_retain_loses_second",
    "C09_retain_partial"
   ],
   "note": "False: the second element is lost when the first is kept. Holds when the first element is rejected or there is at most one."
  },
  {
   "property": "C10",
   "status": "partial",
   "theorems": [
    "C10_dedup_refuted",
    "C10_dedup_by_loses_second",
    "C10_dedup_by_key_loses_second",
    "C10_dedup_partial"
   ],
   "note": "False: the second element is always lost. Holds for at most one element."
  },
  {
   "property": "C100",
   "status": "partial",
   "theorems": [
    "C100_reserve_refuted",
    "C100_push_refuted",
    "C100_partial"
   ],
   "note": "False when the capacity is below the minimal heap capacity: reserve asks for that much even if fewer are needed. Holds otherwise."
  },
  {
   "property": "C101",
   "status": "partial",
   "theorems": [
    "C101_refuted",
    "C101_one_request_per_push",
    "C101_partial"
   ],
   "note": "False: on the heap every push beyond the capacity makes a request of its own. At most one request per push holds."
  },
  {
   "property": "C102",
   "status": "proved",
   "theorems": [
    "C102_eq",
    "C102_cmp",
    "C102_hash",
    "C102_hash_feeds",
    "C102_hash_as_vec"
   ],
   "note": "Hypothesis: non-zero element size."
  },
  {
   "property": "C103",
   "status": "partial",
   "theorems": [
    "C103_refuted",
    "C103_retain_loses_second",
    "C103_partial"
   ],
   "note": "False as C09: an accepted first element makes the second one disappear. Hypothesis: non-zero element size."
  },
  {
   "property": "C104",
   "status": "partial",
   "theorems": [
    "C104_refuted",
    "C104_dedup_by_loses_second",
    "C104_dedup_by_key_loses_second",
    "C104_partial"
   ],
   "note": "False as C10: the second element is never compared and disappears. Hypothesis: non-zero element size."
  },
  {
   "property": "C105",
   "status": "partial",
   "theorems": [
    "C105_refuted",
    "C105_bad_range_refuted",
    "C105_partial"
   ],
   "note": "False as C12: every non-empty range panics and cuts the vector back. Hypothesis: non-zero element size."
  },
  {
   "property": "C106",
   "status": "partial",
   "theorems": [
    "C106_empty_refuted",
    "C106_into_boxed_slice_partial",
    "C106_from_boxed_slice"
   ],
   "note": "False for empty vectors (zero-size realloc). Holds for the others. Hypothesis: non-zero element size."
  },
  {
   "property": "C107",
   "status": "partial",
   "theorems": [
    "C107_refuted",
    "C107_refuted_sync",
    "C107_partial",
    "C107_load_partial",
    "C107_new_partial"
   ],
   "note": "False after make_mut was refused memory while a Weak exists (see C58), and for types with a writable &T (C107_refuted_sync), which an Envelope takes to other threads. Holds for all other runs. Memory model: release-acquire with release sequences; stores to one counter are ordered as the steps are, SeqCst counts as Acquire, no load buffering. Histories of at most isize::MAX steps."
  },
  {
   "property": "C108",
   "status": "partial",
   "theorems": [
    "C108_refuted",
    "C108_safe_partial",
    "C108_load_partial",
    "C108_read_partial",
    "C108_once_partial",
    "C108_not_early_partial",
    "C108_free_once_partial",
    "C108_released_partial",
    "C108_exclusive_partial",
    "C108_covers"
   ],
   "note": "False and true as C107. C108_covers: the runs include all sequentially consistent ones. Histories of at most isize::MAX steps."
  },
  {
   "property": "C109",
   "status": "partial",
   "theorems": [
    "C109_box",
    "C109_rc",
    "C109_arc_partial",
    "C109_arc_refuted",
    "C109_urc_partial",
    "C109_urc_refuted"
   ],
   "note": "Holds for Box (with C80) and for Rc after all histories. False for Arc after make_mut was refused memory and for Urc after make_mut with a clone (the value is gone); holds in all other runs of Arc and all permitted histories of Urc."
  },
  {
   "property": "C11",
   "status": "partial",
   "theorems": [
    "C11_split_off_refuted",
    "C11_split_off_moves_nothing",
    "C11_split_off_partial"
   ],
   "note": "False: the vector keeps everything and an empty one is returned. Holds when splitting at or beyond the end."
  },
  {
   "property": "C110",
   "status": "proved",
   "theorems": [
    "C110_rc",
    "C110_arc",
    "C110_arc_made",
    "C110_urc",
    "C110_urc_made",
    "C110_urc_stays"
   ],
   "note": "All histories and runs, also after refused memory and for handles whose fence was given back: Urc handles keep the address of the value, whose memory is never given back in a run without undefined behaviour."
  },
  {
   "property": "C111",
   "status": "partial",
   "theorems": [
    "C111_refuted",
    "C111_weak_debug_partial"
   ],
   "note": "False: dropping the last Rc does not clear the strong count, so a Weak shows the dropped value. While an Rc exists, and for Weak::new, it holds after permitted histories."
  },
  {
   "property": "C112",
   "status": "partial",
   "theorems": [
    "C112_refuted"
   ],
   "note": "False for every box of a type of non-zero size: into_inner lets the destructor run on the released block (C27)."
  },
  {
   "property": "C113",
   "status": "proved",
   "theorems": [
    "C113_boxed_calls"
   ],
   "note": "Hypothesis: non-zero element size."
  },
  {
   "property": "C114",
   "status": "proved",
   "theorems": [
    "C114_write",
    "C114_rejected"
   ],
   "note": ""
  },
  {
   "property": "C115",
   "status": "partial",
   "theorems": [
    "C115_debug_refuted",
    "C115_display_partial"
   ],
   "note": "False for Debug: it writes the bare text. Display is right."
  },
  {
   "property": "C116",
   "status": "partial",
   "theorems": [
    "C116_refuted",
    "C116_bytes_partial",
    "C116_vec_partial"
   ],
   "note": "False for an empty box that has no memory of its own, as C25. Holds for all texts that are not empty. The crate has no safe way to make a Box<str>."
  },
  {
   "property": "C117",
   "status": "proved",
   "theorems": [
    "C117_spare_len",
    "C117_fill",
    "C117_beyond",
    "C117_small"
   ],
   "note": "Hypotheses: non-zero element size. Aliasing rules for references are not modelled."
  },
  {
   "property": "C118",
   "status": "partial",
   "theorems": [
    "C118_refuted_sync",
    "C118_refuted_unwrap",
    "C118_partial",
    "C118_ordered_partial"
   ],
   "note": "False for T that can be written through &T (an Envelope is Send whatever T is), and after try_unwrap on a handle with a clone. Holds for all other runs of fewer than usize::MAX steps without the faults of C71 and C72. Memory model as C107."
  },
  {
   "property": "C119",
   "status": "partial",
   "theorems": [
    "C119_refuted",
    "C119_refuted_double_drop",
    "C119_small_refuted",
    "C119_small_refuted_double_drop",
    "C119_dedup_by",
    "C119_small_dedup_by",
    "C119_partial",
    "C119_small_partial",
    "C119_key_partial",
    "C119_small_key_partial"
   ],
   "note": "False: the reference to the kept element is to the place where it was found, not to where it was moved; a test that swaps makes an element be dropped that stays. C119_dedup_by says what happens for every test. Holds for tests that leave the kept element alone or merge all into the first, and for dedup_by_key, the second element (C10) aside. Hypothesis: non-zero element size."
  },
  {
   "property": "C12",
   "status": "partial",
   "theorems": [
    "C12_drain_refuted",
    "C12_drain_bad_range_refuted",
    "C12_drain_empty_refuted",
    "C12_drain_exposes_uninit",
    "C12_drain_never_yields",
    "C12_drain_partial"
   ],
   "note": "False: any non-empty range, of any kind, panics and loses the tail. Holds for the empty range at the end."
  },
  {
   "property": "C120",
   "status": "partial",
   "theorems": [
    "C120_clear_refuted",
    "C120_refuted",
    "C120_history_partial",
    "C120_no_double_drop_partial",
    "C120_next_call_partial",
    "C120_leaks_partial"
   ],
   "note": "False for clear of a vector that has spilled. Holds over every program of the other calls of C28, and for clear of inline vectors. Elements of non-zero size. Iterators are not among these calls."
  },
  {
   "property": "C121",
   "status": "proved",
   "theorems": [
    "C121_retain",
    "C121_dedup_by",
    "C121_dedup",
    "C121_dedup_by_key",
    "C121_retain_exact"
   ],
   "note": "Elements not yet looked at are lost, besides the one of C09 and C10. Tests that change the elements: C119. Hypothesis: non-zero element size."
  },
  {
   "property": "C122",
   "status": "partial",
   "theorems": [
    "C122_refuted_read",
    "C122_refuted_drop",
    "C122_refuted_assign",
    "C122_refuted_zero",
    "C122_partial"
   ],
   "note": "False: the array is not initialised, so that safe code reads or drops uninitialised memory, and an array of no bytes makes a request for zero bytes. Holds for programs that initialise elements before they are read, assigned to or dropped."
  },
  {
   "property": "C123",
   "status": "partial",
   "theorems": [
    "C123_refuted_panics",
    "C123_refuted_wraps",
    "C123_refuted_bad_request",
    "C123_refuted_zero",
    "C123_partial"
   ],
   "note": "False: the byte count is an unchecked product, CapacityOverflow is never returned, and zero is passed on to the allocator. Holds for sizes above zero that fit."
  },
  {
   "property": "C124",
   "status": "partial",
   "theorems": [
    "C124_safe_partial",
    "C124_owned_once_partial",
    "C124_objects_partial",
    "C124_memory_partial",
    "C124_no_leak_partial",
    "C124_refuted"
   ],
   "note": "False for all programs the compiler accepts (C124_refuted: next_back on an exhausted iterator yields an element twice). Holds for programs that do not call next_back on an exhausted iterator, clear when a destructor panics, or into_boxed_slice on an empty vector. Drain and split_off are not calls of these programs. Hypothesis: non-zero element size."
  },
  {
   "property": "C125",
   "status": "partial",
   "theorems": [
    "C125_refuted",
    "C125_refuted_env",
    "C125_local_partial",
    "C125_outlive_partial"
   ],
   "note": "False: current(&()) gives a reference for ever, and Env has no lifetime. Holds for programs that catch no panics and use references where they got them or inside, and for programs whose scopes all defer to ones that outlive them."
  },
  {
   "property": "C126",
   "status": "partial",
   "theorems": [
    "C126_refuted",
    "C125_local_partial",
    "C125_outlive_partial"
   ],
   "note": "False: values keep a static reference to their allocator, and spawn returns any type. Holds as C125. The allocator is taken to be part of the scope."
  },
  {
   "property": "C127",
   "status": "partial",
   "theorems": [
    "C127_safe_partial",
    "C127_owned_once_partial",
    "C127_objects_partial",
    "C127_memory_partial",
    "C127_no_leak_partial",
    "C127_refuted",
    "C127_refuted_lost"
   ],
   "note": "False for all programs the compiler accepts (C127_refuted: next_back on an exhausted iterator yields an element twice; C127_refuted_lost: an array that stays inline is lost). Holds for programs that respect the conditions of C28, C120 and C124 and make no boxed slices of empty small vectors. Drain is not a call of these programs. Hypothesis: non-zero element size."
  },
  {
   "property": "C128",
   "status": "partial",
   "theorems": [
    "C128_rc_refuted",
    "C128_urc_refuted",
    "C128_arc_refuted",
    "C128_rc_debug_partial",
    "C128_urc_debug_partial",
    "C128_arc_partial"
   ],
   "note": "False in release builds for Rc and Urc, whose counts wrap around, and for Arc, which raises the count before it panics, so that a program that catches the panics gets it to wrap around. Holds in debug builds for Rc and Urc, and for Arc while no panic is caught."
  },
  {
   "property": "C129",
   "status": "proved",
   "theorems": [
    "C129_vec",
    "C129_vec_bad",
    "C129_small",
    "C129_small_bad",
    "C129_box",
    "C129_box_bad",
    "C129_iter",
    "C129_iter_bad",
    "C129_permutes"
   ],
   "note": "Values that client code holds while a destructor panics are forgotten in the model. Hypothesis: non-zero element size."
  },
  {
   "property": "C13",
   "status": "partial",
   "theorems": [
    "C13_from_slice_refuted",
    "C13_from_slice_partial"
   ],
   "note": "False: panics for any non-empty slice. Holds for the empty slice."
  },
  {
   "property": "C130",
   "status": "partial",
   "theorems": [
    "C130_arc_refuted",
    "C130_rc_refuted",
    "C130_urc_refuted",
    "C130_partial"
   ],
   "note": "False: Envelop is implemented for Arc<T> and Urc<T> without bounds on T, so that safe code can share a Cell or an Rc between threads. Holds if envelopes carry only handles of values that are Send and Sync. The model has numbers, cells, Rc, Arc and Urc, no Weak handles and no &mut access."
  },
  {
   "property": "C131",
   "status": "partial",
   "theorems": [
    "C131_arc_refuted",
    "C131_urc_refuted",
    "C131_partial"
   ],
   "note": "False: memory goes back to the allocator it came from on whichever thread drops the last Arc, or the last Urc of a fence; the fence of an enveloped Urc is always allocated by the sender and freed by the receiver. Holds if threads send each other plain values only."
  },
  {
   "property": "C132",
   "status": "partial",
   "theorems": [
    "C132_safe",
    "C132_there",
    "C132_destructor",
    "C132_once",
    "C132_held",
    "C132_exact_partial",
    "C132_acyclic",
    "C132_memory_partial",
    "C132_ends",
    "C132_gone_partial",
    "C132_refuted_refused",
    "C132_refuted_panic"
   ],
   "note": "False if memory is refused (the value, with the handles in it, is forgotten) and if a destructor panics (the memory stays). Values are exactly those that can be reached, counting lost handles; memory is released in runs without refusals and panics, for values that never had a Weak (C63). Histories of at most isize::MAX steps, sequentially consistent, no make_mut and get_mut; panics are not caught inside destructors."
  },
  {
   "property": "C133",
   "status": "partial",
   "theorems": [
    "C133_there_partial",
    "C133_last_partial",
    "C133_value_partial",
    "C133_serial_partial",
    "C133_race_refuted"
   ],
   "note": "False: an Arc<Urc<T>> can be put into an envelope, so two threads can clone one Urc at once, a clone is not counted, and the fence is released while there is a handle. Holds if calls are single steps, for all programs; for the fence itself if calls do not overlap. No Weak handles, no panics in destructors."
  },
  {
   "property": "C134",
   "status": "partial",
   "theorems": [
    "C134_inline_partial",
    "C134_defined_partial",
    "C134_heap_refuted",
    "C134_capacity_refuted",
    "C134_spill_refuted"
   ],
   "note": "Refuted on the heap: the capacity is usize::MAX, so push, insert, extend and reserve panic when they add to it, and dropping frees a dangling pointer. Holds inline for inline sizes of at least 4 and calls that stay inline, other than those refuted for every element type (C32, C34, C35)."
  },
  {
   "property": "C135",
   "status": "partial",
   "theorems": [
    "C135_box_partial",
    "C135_rc_partial",
    "C135_rc_refuted",
    "C135_arc_refuted",
    "C135_urc_partial",
    "C135_urc_refuted",
    "C135_urc_memory_refuted",
    "C135_envelop_refuted",
    "C135_envelop_count_refuted"
   ],
   "note": "Holds for Box. Refuted for the others: Rc, Arc and Urc wrap the value in MaybeDropped before they ask, so its destructor does not run; Urc::try_new leaks the master if the fence is refused; sending a Urc leaves the count of fences one too high, so get_mut and try_unwrap never succeed again, until the count wraps around, when get_mut gives access to a value that another thread has."
  },
  {
   "property": "C136",
   "status": "partial",
   "theorems": [
    "C136_allocator_partial",
    "C136_unique_partial",
    "C136_marker_partial",
    "C136_asked_partial",
    "C136_selector_partial",
    "C136_safe_partial",
    "C136_array_refuted",
    "C136_fence_refuted",
    "C136_other_refuted",
    "C136_sites_refuted"
   ],
   "note": "Allocators and markers: proved for all programs. Selectors: refuted for arrays ([T] instead of T), for the fence of a Urc, for a selector of another type, and wherever type_name of a type has two addresses; proved for Box::new and Box::new_with without casts when type names are unique."
  },
  {
   "property": "C137",
   "status": "proved",
   "theorems": [
    "C137_owner",
    "C137_inner_safe",
    "C137_outer_safe",
    "C137_once",
    "C137_elements",
    "C137_end"
   ],
   "note": "inner vectors are elements of outer ones; both levels run the model of vec.rs; calls of outer vectors that clone elements (clone, extend_from_slice, resize, resize_with) are excluded, destructors do not panic"
  },
  {
   "property": "C138",
   "status": "partial",
   "theorems": [
    "C138_calls_partial",
    "C138_lengths_partial",
    "C138_exact_partial",
    "C138_drop_partial",
    "C138_into_iter_partial",
    "C138_retain_partial",
    "C138_dedup_key_partial",
    "C138_string_partial",
    "C138_stack_partial",
    "C138_push_refuted",
    "C138_append_refuted",
    "C138_insert_refuted",
    "C138_remove_refuted",
    "C138_swap_remove_refuted",
    "C138_split_off_refuted",
    "C138_from_array_refuted",
    "C138_spare_refuted",
    "C138_into_iter_drop_refuted",
    "C138_dedup_by_refuted",
    "C138_stack_refuted",
    "C138_move_refuted"
   ],
   "note": "refuted: push always writes through a pointer made for the elements already there; insert, remove, swap_remove, append, split_off, spare_capacity, From<[T; N]>, dropping an unfinished IntoIter, retain/dedup that move an element, String::insert/remove, SmallVec moving to the heap likewise; the remaining calls are proved to keep to the rules in any order. Stacked Borrows without protectors"
  },
  {
   "property": "C139",
   "status": "partial",
   "theorems": [
    "C139_rc_arc_partial",
    "C139_refs_partial",
    "C139_counts_partial",
    "C139_urc_refs_partial",
    "C139_get_mut_partial",
    "C139_urc_partial",
    "C139_urc_get_mut_refuted",
    "C139_urc_make_mut_refuted",
    "C139_urc_drop_refuted",
    "C139_urc_weak_refuted"
   ],
   "note": "Rc and Arc: any sequence of calls keeps to the rules (make_mut of the only handle while there are Weaks is left out: the counters go wrong there, C128). Urc: refuted, the reference in the field data is invalidated by get_mut, by make_mut and by dropping the last handle of any fence, and make_mut invalidates the Weaks; the other calls are proved to keep to the rules in any order. Stacked Borrows without protectors; calls do not overlap in time"
  },
  {
   "property": "C14",
   "status": "proved",
   "theorems": [
    "C14_into_iter_forward"
   ],
   "note": "Hypothesis: non-zero element size."
  },
  {
   "property": "C140",
   "status": "partial",
   "theorems": [
    "C140_calls_partial",
    "C140_lengths_partial",
    "C140_drop_partial",
    "C140_into_iter_partial",
    "C140_new_partial",
    "C140_string_partial",
    "C140_stack_partial",
    "C140_stack_lengths_partial",
    "C140_dedup_by_partial",
    "C140_dedup_by_refuted",
    "C140_stack_remove_refuted"
   ],
   "note": "refuted: dedup_by breaks the rules if and only if its closure writes the element kept last after it was written or after it was moved; remove of a full StackVec reads past its end. Every other call is proved to keep to the rules, in any order, with the references still held. Tree Borrows without protectors"
  },
  {
   "property": "C141",
   "status": "partial",
   "theorems": [
    "C141_rc_arc_partial",
    "C141_get_mut_partial",
    "C141_urc_partial",
    "C141_urc_refs_partial",
    "C141_urc_get_mut_refuted",
    "C141_urc_make_mut_refuted",
    "C139_refs_partial",
    "C139_counts_partial"
   ],
   "note": "Full statement for Rc and Arc. For Urc refuted: after a write through the &mut of get_mut or make_mut, the stored reference `data` is dead and the next deref breaks the rules. Programs with Urcs that do not write are proved to keep to the rules, including those C139 shows Stacked Borrows to forbid. Tree Borrows without protectors. Freeing of blocks is left out."
  },
  {
   "property": "C142",
   "status": "partial",
   "theorems": [
    "C142_box",
    "C142_rc",
    "C142_arc_partial",
    "C142_arc_refuted",
    "C142_arc_pointer",
    "C142_urc_partial",
    "C142_urc_refuted",
    "C142_urc_pointer",
    "C142_vec",
    "C142_small",
    "C142_text"
   ],
   "note": "Holds for Box, for Rc after all histories, for Vec and SmallVec; {:p} holds in all runs. {:?} and {} are false for Arc after make_mut was refused memory and for Urc after make_mut moved a shared value away (C58, C67); they hold in all other runs of Arc and all permitted histories of Urc. Element types of non-zero size."
  },
  {
   "property": "C143",
   "status": "proved",
   "theorems": [
    "C143_rc_owner",
    "C143_rc_history",
    "C143_rc_use",
    "C143_rc_safe",
    "C143_rc_weak_count",
    "C143_rc_strong_count",
    "C143_rc_end",
    "C143_urc_owner",
    "C143_urc_history",
    "C143_urc_use",
    "C143_urc_safe",
    "C143_urc_strong_count",
    "C143_urc_weak_count",
    "C143_urc_end"
   ],
   "note": "For calls of vectors that clone no elements; destructors of elements run after the call of the vector, in the order of its log."
  },
  {
   "property": "C144",
   "status": "proved",
   "theorems": [
    "C144_rc_owner",
    "C144_rc_history",
    "C144_rc_safe",
    "C144_rc_calls",
    "C144_rc_clone",
    "C144_rc_weak_count",
    "C144_rc_strong_count",
    "C144_rc_end",
    "C144_urc_owner",
    "C144_urc_history",
    "C144_urc_safe",
    "C144_urc_calls",
    "C144_urc_strong_count",
    "C144_urc_end",
    "C144_vec_owner",
    "C144_vec_history",
    "C144_vec_safe",
    "C144_vec_calls",
    "C144_vec_clone",
    "C144_vec_end"
   ],
   "note": "Clones, then destructors, of elements run after the call of the vector, which is told their results. C144_vec_clone assumes that clones of elements of inner vectors equal them; C144_vec_calls does not."
  },
  {
   "property": "C145",
   "status": "partial",
   "theorems": [
    "C145_rc_once",
    "C145_rc_owner_partial",
    "C145_rc_history",
    "C145_rc_safe",
    "C145_rc_use",
    "C145_rc_weak_count_partial",
    "C145_rc_strong_count_partial",
    "C145_rc_end_partial",
    "C145_urc_once",
    "C145_urc_owner_partial",
    "C145_urc_history",
    "C145_urc_safe",
    "C145_urc_use",
    "C145_urc_counts_partial",
    "C145_urc_end_partial",
    "C145_vec_once",
    "C145_vec_owner_partial",
    "C145_vec_history",
    "C145_vec_safe",
    "C145_vec_use",
    "C145_vec_end_partial",
    "C145_rc_owner_refuted"
   ],
   "note": "False with `retain` and `dedup`, which lose an element (C09, C10): C145_rc_owner_refuted is a program after which a handle exists that nobody owns. Proved with them: no handle has two owners, every call is safe and every destructor finds its handle alive; without them, everything."
  },
  {
   "property": "C146",
   "status": "partial",
   "theorems": [
    "C146_once_partial",
    "C146_owned_partial",
    "C146_safe_partial",
    "C146_drop_partial",
    "C146_levels_partial",
    "C146_freed_partial",
    "C146_refuted"
   ],
   "note": "Proved for every depth by induction: containers of one level are things (as in C143-C145) for the next. False with retain and dedup above level 0, which lose an element (C146_refuted: a vector in a vector leaks); C146_owned_partial and C146_freed_partial exclude them, the other theorems do not. Destructors that panic and clones of containers are excluded; each level has a memory of its own."
  },
  {
   "property": "C147",
   "status": "partial",
   "theorems": [
    "C147_values_partial",
    "C147_calls_partial",
    "C147_steps_partial",
    "C147_alone_partial",
    "C147_left_partial",
    "C147_end_partial",
    "C147_refuted"
   ],
   "note": "Refinement of a specification of trees that share nothing: what a program did and saw is accepted by it. False after make_mut was refused memory for a node it had moved out: the handle no longer counts, and a clone that is dropped takes the node with it (C147_refuted: undefined behaviour of a read). The positive theorems exclude this step and histories longer than isize::MAX. Sequentially consistent memory; reads along a path are one step."
  },
  {
   "property": "C148",
   "status": "partial",
   "theorems": [
    "C148_once",
    "C148_owner_partial",
    "C148_history",
    "C148_safe",
    "C148_steps",
    "C148_exclusive",
    "C148_count_partial",
    "C148_end_partial",
    "C148_refuted"
   ],
   "note": "False with retain and dedup, which lose a handle (C148_refuted: the value is never dropped although nobody has a handle); the positive theorems exclude these calls, and, as C58 to C66, make_mut being refused memory after it has moved a value out. Borrowing calls are one step; each drop of an element has a thread of its own, which allows more interleavings than there are."
  },
  {
   "property": "C149",
   "status": "proved",
   "theorems": [
    "C149_owner",
    "C149_history",
    "C149_alive",
    "C149_safe",
    "C149_calls",
    "C149_clone",
    "C149_count",
    "C149_end"
   ],
   "note": "Elements are not zero-sized (handles never are) and their drops do not panic. Borrowing calls are one step; each drop or clone of an element has a thread of its own; the clones of one call of a vector follow each other directly."
  },
  {
   "property": "C15",
   "status": "partial",
   "theorems": [
    "C15_double_ended_refuted",
    "C15_yields_twice",
    "C15_double_ended_partial"
   ],
   "note": "False: next_back after the last element was yielded from the front yields it again. Holds for all other interleavings."
  },
  {
   "property": "C150",
   "status": "partial",
   "theorems": [
    "C150_model_partial",
    "C150_memory_partial",
    "C150_safe_partial",
    "C150_allocator_partial",
    "C150_stays",
    "C150_end_partial",
    "C150_refuted_into_inner",
    "C150_refuted_new",
    "C150_refuted_zst",
    "C150_kept_once_partial",
    "C150_kept_owner_partial",
    "C150_kept_history",
    "C150_kept_safe_partial",
    "C150_kept_end_partial",
    "C150_kept_refuted"
   ],
   "note": "False for types with a destructor (C150_refuted_new), for zero-sized types (C150_refuted_zst), for into_inner in every state (C150_refuted_into_inner), and for retain and dedup on containers of boxes, which lose a box (C150_kept_refuted). Proved for all other types and calls."
  },
  {
   "property": "C151",
   "status": "partial",
   "theorems": [
    "C151_box",
    "C151_box_drop",
    "C151_box_drop_panics",
    "C151_box_needs_check",
    "C151_rc_partial",
    "C151_rc_values",
    "C151_rc_refuted",
    "C151_rc_refuted_get_mut",
    "C151_arc",
    "C151_urc_refuted"
   ],
   "note": "Proved for Box, and for Arc where C58 holds. False for Rc whenever the value has another handle: self is dropped as well, so that one handle is no longer counted (C151_rc_refuted) and get_mut gives access to a shared value (C151_rc_refuted_get_mut); C151_rc_partial is for the only handle and for other types. False for Urc: Fence<dyn Any> and Fence<T> differ in size, so that the fence is given back with the wrong layout (C151_urc_refuted). The crate has no unsizing conversion, so dyn Any handles are taken as given."
  },
  {
   "property": "C152",
   "status": "proved",
   "theorems": [
    "C152_stacked",
    "C152_tree",
    "C152_refs",
    "C152_write"
   ],
   "note": "Pointers of Box on the two machines of C138 and C140, without protectors. No function of Box has a reference into the block as an argument while it uses the block by another pointer, so protectors are not expected to change anything, but this is by reading the code and not proved. C152_stacked and C152_tree: no program breaks the rules. C152_refs: what the calls do to the references of the program, so that these are really used. C152_write: after any program the box gives a &mut T that can be written through. into_inner is taken up to the point where the memory is given back; what follows is refuted in C27."
  },
  {
   "property": "C153",
   "status": "partial",
   "theorems": [
    "C153_stacked_refuted",
    "C153_tree_refuted",
    "C153_stacked_partial",
    "C153_tree_partial",
    "C153_held_stacked",
    "C153_held_tree",
    "C153_protected_refuted",
    "C153_protected_partial"
   ],
   "note": "The code violates the property. Every call of current or spawn makes a new &mut Env from the function in ENV, and Env::spawn writes through the one it was called with after its function has returned. C153_stacked_refuted and C153_tree_refuted: whatever the program did before, a spawn whose function allocates or spawns, and returns, breaks the rules. The partial theorems say exactly which programs keep to them: by Stacked Borrows those where nothing within a spawn uses the environment and returns, by Tree Borrows also those where scope_init allocates; a spawn that unwinds restores nothing, so on these machines it breaks nothing. C153_held_stacked and C153_held_tree: for how long a &Env can be read through. Only the block of Env is modelled, not the blocks of the scopes, and for all these theorems without protectors. Protectors forbid more: C153_protected_refuted and C153_protected_partial are for Stacked Borrows with the &mut self of Env::spawn protected, where code that uses the environment and unwinds breaks the rules too. Tree Borrows with protectors is not modelled, so C153_tree_partial is exact without them only; C153_tree_refuted does not depend on this. Also, the function in ENV is taken to make its results from one pointer."
  },
  {
   "property": "C16",
   "status": "partial",
   "theorems": [
    "C16_size_hint_refuted",
    "C16_as_slice_partial"
   ],
   "note": "False for size_hint/len after next. as_slice is always right."
  },
  {
   "property": "C17",
   "status": "partial",
   "theorems": [
    "C17_leak_refuted",
    "C17_leak_partial"
   ],
   "note": "False: leak drops all elements and releases the buffer. Holds without a buffer."
  },
  {
   "property": "C18",
   "status": "partial",
   "theorems": [
    "C18_zst_drop_refuted",
    "C18_zst_history_partial",
    "C18_zst_calls_defined_partial"
   ],
   "note": "False: dropping the vector frees a dangling pointer. All other calls are as specified over every history."
  },
  {
   "property": "C19",
   "status": "partial",
   "theorems": [
    "C19_marker_lost_refuted",
    "C19_marker_ignored_refuted",
    "C19_marker_kept_partial"
   ],
   "note": "False when created without capacity: the marker is lost. Holds when created with capacity."
  },
  {
   "property": "C20",
   "status": "partial",
   "theorems": [
    "C20_scope_refuted",
    "C20_scope_partial",
    "C20_own_scope_partial"
   ],
   "note": "False: the first buffer comes from the scope of the first growth. Holds once there is a buffer, or if the scope never changes."
  },
  {
   "property": "C21",
   "status": "partial",
   "theorems": [
    "C21_clear_refuted",
    "C21_truncate_partial",
    "C21_drop_partial",
    "C21_history_partial",
    "C21_no_double_drop_partial",
    "C21_next_call_partial",
    "C21_leaks_partial"
   ],
   "note": "False for clear. Holds over every program of the other calls of C01 (truncate, resize, index assignment, drop, ...) whatever destructors panic: contents, single ownership, no undefined behaviour, only vectors whose drop panicked leak. Elements of non-zero size. Iterators are not among these calls."
  },
  {
   "property": "C22",
   "status": "partial",
   "theorems": [
    "C22_shrink_empty_refuted",
    "C22_shrink_empty_partial"
   ],
   "note": "False: asks the allocator for zero bytes. Holds when there is no buffer."
  },
  {
   "property": "C23",
   "status": "proved",
   "theorems": [
    "C23_eq",
    "C23_eq_content",
    "C23_cmp",
    "C23_lex_unique",
    "C23_cmp_same",
    "C23_hash",
    "C23_hash_feeds"
   ],
   "note": "Hypothesis: non-zero element size."
  },
  {
   "property": "C24",
   "status": "proved",
   "theorems": [
    "C24_extend_from_slice",
    "C24_clone",
    "C24_resize",
    "C24_resize_with",
    "C24_retain"
   ],
   "note": "Hypotheses: non-zero element size; destructors do not panic (resize, resize_with, retain). Elements may be leaked by retain (C09)."
  },
  {
   "property": "C25",
   "status": "partial",
   "theorems": [
    "C25_into_boxed_slice",
    "C25_from_boxed_slice",
    "C25_boxed_slice_drop",
    "C25_empty_refuted"
   ],
   "note": "Holds for non-empty vectors; false for empty ones, whose box frees a dangling pointer."
  },
  {
   "property": "C26",
   "status": "partial",
   "theorems": [
    "C26_refuted",
    "C26_refuted_zst",
    "C26_partial",
    "C26_new_partial",
    "C26_refuted_new"
   ],
   "note": "False for types with a destructor (drops uninitialised memory) and for zero-sized types. Holds for the other types."
  },
  {
   "property": "C27",
   "status": "partial",
   "theorems": [
    "C27_refuted",
    "C27_refuted_new"
   ],
   "note": "False for every box: into_inner is followed by the destructor of the box, which accesses the freed block. Nothing of the property holds."
  },
  {
   "property": "C28",
   "status": "partial",
   "theorems": [
    "C28_refuted",
    "C28_small_is_list_partial"
   ],
   "note": "False: split_off at the end panics. Every history of permitted calls is as specified; the permitted calls leave out those of C33-C35, C37, C38 and C79. Non-zero element size; destructors do not panic."
  },
  {
   "property": "C29",
   "status": "partial",
   "theorems": [
    "C29_refuted",
    "C29_storage_invisible_partial"
   ],
   "note": "False: truncate drops the elements of heap vectors only. Holds for all programs of permitted calls while memory is not refused."
  },
  {
   "property": "C30",
   "status": "partial",
   "theorems": [
    "C30_refuted",
    "C30_memory_safe_partial",
    "C30_owned_once_partial",
    "C30_no_leak_partial"
   ],
   "note": "False: remove on a full inline vector reads past the array. Holds for every history of permitted calls."
  },
  {
   "property": "C31",
   "status": "partial",
   "theorems": [
    "C31_refuted",
    "C31_stays_inline_partial"
   ],
   "note": "False for inline sizes below the minimal heap capacity minus one. Holds for all other inline sizes, any number of pushes."
  },
  {
   "property": "C32",
   "status": "partial",
   "theorems": [
    "C32_refuted",
    "C32_truncate_partial"
   ],
   "note": "False inline: nothing is dropped. Holds on the heap."
  },
  {
   "property": "C33",
   "status": "partial",
   "theorems": [
    "C33_refuted",
    "C33_remove_partial"
   ],
   "note": "False for full inline vectors: reads past the array. Holds in all other cases."
  },
  {
   "property": "C34",
   "status": "partial",
   "theorems": [
    "C34_release_refuted",
    "C34_end_refuted",
    "C34_insert_partial"
   ],
   "note": "False in release builds for inline vectors with room (undefined behaviour), and at the end by the letter of get_unchecked_mut. Holds otherwise."
  },
  {
   "property": "C35",
   "status": "partial",
   "theorems": [
    "C35_resize_with_refuted",
    "C35_resize_with_debug_refuted",
    "C35_resize_refuted",
    "C35_shrink_refuted",
    "C35_resize_with_partial",
    "C35_resize_partial"
   ],
   "note": "False: inline vectors cannot grow past the inline size by resize_with, by resize only if the reservation happens to spill; shrinking inline leaks. Holds otherwise."
  },
  {
   "property": "C36",
   "status": "partial",
   "theorems": [
    "C36_refuted",
    "C36_too_long_partial"
   ],
   "note": "False for every heap vector that fits inline: released twice. Holds when it does not fit."
  },
  {
   "property": "C37",
   "status": "partial",
   "theorems": [
    "C37_refuted",
    "C37_from_array_partial"
   ],
   "note": "False if the array fits inline: the vector is empty. Holds for longer arrays."
  },
  {
   "property": "C38",
   "status": "partial",
   "theorems": [
    "C38_refuted",
    "C38_split_off_partial"
   ],
   "note": "False at the end: panics. Holds for every other split point."
  },
  {
   "property": "C39",
   "status": "proved",
   "theorems": [
    "C39_spill",
    "C39_move_to_heap",
    "C39_with_capacity",
    "C39_into_vec",
    "C39_from_vec"
   ],
   "note": "C39_spill is for programs of permitted calls (destructors do not panic); C39_move_to_heap for moving with any contents. Hypothesis: non-zero element size."
  },
  {
   "property": "C40",
   "status": "proved",
   "theorems": [
    "C40_always_utf8",
    "C40_memory_safe"
   ],
   "note": "All histories of permitted calls: sizes within the limits of Layout. Calls that pass uninitialised bytes by value (C82) count as permitted only where this is tolerated (`strict = false`)."
  },
  {
   "property": "C41",
   "status": "proved",
   "theorems": [
    "C41_string_is_text",
    "C41_determined",
    "C41_no_leak"
   ],
   "note": "All histories of permitted calls: sizes within the limits of Layout. Calls that pass uninitialised bytes by value (C82) count as permitted only where this is tolerated (`strict = false`)."
  },
  {
   "property": "C42",
   "status": "proved",
   "theorems": [
    "C42_rejected",
    "C42_insertStr_accepted",
    "C42_insert_accepted",
    "C42_remove_accepted",
    "C42_remove_end",
    "C42_truncate_accepted"
   ],
   "note": "For split_off only that other offsets are rejected; what it does at boundaries is C48. Calls that pass uninitialised bytes by value (C82) count as permitted only where this is tolerated (`strict = false`)."
  },
  {
   "property": "C43",
   "status": "proved",
   "theorems": [
    "C43_retain",
    "C43_retain_filter"
   ],
   "note": ""
  },
  {
   "property": "C44",
   "status": "proved",
   "theorems": [
    "C44_from_utf8"
   ],
   "note": ""
  },
  {
   "property": "C45",
   "status": "proved",
   "theorems": [
    "C45_paired",
    "C45_from_utf16",
    "C45_roundtrip"
   ],
   "note": "Lengths within the limits of Layout. Calls that pass uninitialised bytes by value (C82) count as permitted only where this is tolerated (`strict = false`)."
  },
  {
   "property": "C46",
   "status": "proved",
   "theorems": [
    "C46_cmp",
    "C46_eq",
    "C46_hash",
    "C23_lex_unique"
   ],
   "note": ""
  },
  {
   "property": "C47",
   "status": "partial",
   "theorems": [
    "C47_from_str_refuted",
    "C47_from_str_partial"
   ],
   "note": "False for every non-empty text: panics. Holds for the empty one."
  },
  {
   "property": "C48",
   "status": "partial",
   "theorems": [
    "C48_split_off_refuted",
    "C48_split_off_partial"
   ],
   "note": "False at every boundary before the end: nothing is split off. Holds at the end."
  },
  {
   "property": "C49",
   "status": "partial",
   "theorems": [
    "C49_safe_refuted",
    "C49_without_bytes_partial"
   ],
   "note": "False: as_mut_vec is safe. Holds without it."
  },
  {
   "property": "C50",
   "status": "proved",
   "theorems": [
    "C50_extend_chars",
    "C50_extend_strs",
    "C50_extend_strings",
    "C50_collect",
    "C50_collect_strings",
    "C50_from_boxed"
   ],
   "note": "Sizes and size hints within the limits of Layout; boxed strings non-empty (empty boxes: C25). Calls that pass uninitialised bytes by value (C82) count as permitted only where this is tolerated (`strict = false`)."
  },
  {
   "property": "C51",
   "status": "partial",
   "theorems": [
    "C51_refuted",
    "C51_read_partial",
    "C51_history_partial",
    "C51_memory_safe"
   ],
   "note": "False: after try_unwrap with a Weak alive, upgrade gives a handle of the moved-out value. Holds for programs that do not call try_unwrap, nor make_mut on the only Rc, while a Weak exists; no program touches released memory."
  },
  {
   "property": "C52",
   "status": "partial",
   "theorems": [
    "C52_refuted_release",
    "C52_refuted_refused",
    "C52_exclusive_partial"
   ],
   "note": "False after make_mut on the only Rc with a Weak alive (release build, or memory refused). Holds for all other programs."
  },
  {
   "property": "C53",
   "status": "partial",
   "theorems": [
    "C53_refuted",
    "C53_never_early_partial"
   ],
   "note": "False: values are never dropped and memory is never released."
  },
  {
   "property": "C54",
   "status": "partial",
   "theorems": [
    "C54_refuted",
    "C54_refuted_always",
    "C54_upgrade_partial"
   ],
   "note": "False: upgrade succeeds without any Rc handle. It does succeed while there is one."
  },
  {
   "property": "C55",
   "status": "partial",
   "theorems": [
    "C55_refuted",
    "C55_strong_partial",
    "C55_weak_exact"
   ],
   "note": "weak_count is exact in all histories. strong_count is one too many once the value was without Rc handle."
  },
  {
   "property": "C56",
   "status": "partial",
   "theorems": [
    "C56_refuted",
    "C56_try_unwrap_partial"
   ],
   "note": "False with Weak handles, and for values that were without Rc handle."
  },
  {
   "property": "C57",
   "status": "partial",
   "theorems": [
    "C57_refuted_debug",
    "C57_refuted_release",
    "C57_make_mut_partial",
    "C57_panic_partial"
   ],
   "note": "False for the only Rc with a Weak alive. Holds otherwise."
  },
  {
   "property": "C58",
   "status": "partial",
   "theorems": [
    "C58_refuted",
    "C58_read_partial",
    "C58_handle_partial",
    "C58_safe_partial",
    "C58_calm_partial"
   ],
   "note": "False after make_mut was refused memory while a Weak exists: it leaves a handle that is not counted. Holds for all other runs, and at all other objects. Histories of at most isize::MAX steps, sequentially consistent."
  },
  {
   "property": "C59",
   "status": "partial",
   "theorems": [
    "C59_refuted",
    "C59_partial",
    "C59_calm_partial"
   ],
   "note": "False and true as C58. Histories of at most isize::MAX steps, sequentially consistent."
  },
  {
   "property": "C60",
   "status": "proved",
   "theorems": [
    "C60_not_early",
    "C60_once",
    "C60_released"
   ],
   "note": "All runs. Histories of at most isize::MAX steps, sequentially consistent."
  },
  {
   "property": "C61",
   "status": "proved",
   "theorems": [
    "C61_exclusive",
    "C61_undisturbed",
    "C61_get_mut"
   ],
   "note": "All runs; also for the reference from make_mut. Histories of at most isize::MAX steps, sequentially consistent."
  },
  {
   "property": "C62",
   "status": "partial",
   "theorems": [
    "C62_refuted",
    "C62_one_winner_partial",
    "C62_failed_partial",
    "C62_value_partial",
    "C62_returns_partial"
   ],
   "note": "False and true as C58. Histories of at most isize::MAX steps, sequentially consistent."
  },
  {
   "property": "C63",
   "status": "partial",
   "theorems": [
    "C63_refuted",
    "C63_never_released",
    "C63_partial"
   ],
   "note": "False for every value that ever had a Weak: never released. Holds for the others. Histories of at most isize::MAX steps, sequentially consistent."
  },
  {
   "property": "C64",
   "status": "partial",
   "theorems": [
    "C64_refuted",
    "C64_partial",
    "C64_locked_partial"
   ],
   "note": "False: a downgrade that another one has overtaken is stuck forever. Holds if nobody interferes after it has loaded the count. Histories of at most isize::MAX steps, sequentially consistent."
  },
  {
   "property": "C65",
   "status": "partial",
   "theorems": [
    "C65_refuted",
    "C65_partial",
    "C65_begins",
    "C65_others_keep",
    "C59_partial"
   ],
   "note": "False and true as C58. Histories of at most isize::MAX steps, sequentially consistent."
  },
  {
   "property": "C66",
   "status": "partial",
   "theorems": [
    "C66_refuted",
    "C66_partial"
   ],
   "note": "False and true as C58. Histories of at most isize::MAX steps, sequentially consistent."
  },
  {
   "property": "C67",
   "status": "partial",
   "theorems": [
    "C67_refuted_release",
    "C67_refuted_debug",
    "C67_read_partial",
    "C67_safe_partial",
    "C67_frame_partial",
    "C67_value_partial",
    "C67_threads_partial",
    "C67_threads_kept_partial",
    "C67_threads_clone_partial",
    "C67_kept_partial"
   ],
   "note": "False: make_mut on a handle with a clone moves the value away from the clone. Holds for permitted programs. Permitted programs: all but the calls of try_unwrap, make_mut and into_inner refuted under C71, C72 and C84. At most usize::MAX calls, each of them atomic. Also (_threads_) where atomic steps of threads interleave and loads read what release-acquire memory allows."
  },
  {
   "property": "C68",
   "status": "partial",
   "theorems": [
    "C68_refuted",
    "C68_exclusive_partial",
    "C68_refused_partial",
    "C68_threads_partial"
   ],
   "note": "False after a failed try_unwrap on a handle with a clone. Holds for permitted programs. Permitted programs: all but the calls of try_unwrap, make_mut and into_inner refuted under C71, C72 and C84. At most usize::MAX calls, each of them atomic. Also (_threads_) where atomic steps of threads interleave and loads read what release-acquire memory allows."
  },
  {
   "property": "C69",
   "status": "partial",
   "theorems": [
    "C69_refuted",
    "C69_sole_partial",
    "C69_sent_partial"
   ],
   "note": "False once get_mut was tried while another thread had a handle. Holds, with its converse, for permitted programs that send nothing, and for those that send but make no Weak and do not try get_mut in vain. Permitted programs: all but the calls of try_unwrap, make_mut and into_inner refuted under C71, C72 and C84. At most usize::MAX calls, each of them atomic."
  },
  {
   "property": "C70",
   "status": "partial",
   "theorems": [
    "C70_refuted",
    "C70_refuted_drop",
    "C70_refuted_release",
    "C70_kept_partial",
    "C70_fence_partial"
   ],
   "note": "False for all programs: no value is ever dropped and no master released. Fences are released with their only handle, and not while there is one. Permitted programs: all but the calls of try_unwrap, make_mut and into_inner refuted under C71, C72 and C84. At most usize::MAX calls, each of them atomic."
  },
  {
   "property": "C71",
   "status": "partial",
   "theorems": [
    "C71_refuted_sole",
    "C71_refuted_counts",
    "C71_refuted_weak",
    "C71_partial",
    "C71_threads_partial",
    "C71_threads_moved_partial"
   ],
   "note": "False: for the only handle a released fence is used; with a clone a count changes; a Weak in another thread prevents it. Holds for permitted calls except that the value may be refused to the only Urc. Permitted programs: all but the calls of try_unwrap, make_mut and into_inner refuted under C71, C72 and C84. At most usize::MAX calls, each of them atomic. Also (_threads_) where atomic steps of threads interleave and loads read what release-acquire memory allows."
  },
  {
   "property": "C72",
   "status": "partial",
   "theorems": [
    "C72_refuted_debug",
    "C72_refuted_release",
    "C72_partial",
    "C67_frame_partial",
    "C72_threads_partial",
    "C72_threads_others_partial"
   ],
   "note": "False for the only handle (panics in debug builds) and with a clone. Holds for permitted calls. Permitted programs: all but the calls of try_unwrap, make_mut and into_inner refuted under C71, C72 and C84. At most usize::MAX calls, each of them atomic. Also (_threads_) where atomic steps of threads interleave and loads read what release-acquire memory allows."
  },
  {
   "property": "C73",
   "status": "proved",
   "theorems": [
    "C73_strong",
    "C73_weak",
    "C73_threads_partial"
   ],
   "note": "Also for permitted calls of make_mut, try_unwrap, try_into_fence. Permitted programs: all but the calls of try_unwrap, make_mut and into_inner refuted under C71, C72 and C84. At most usize::MAX calls, each of them atomic. Also (_threads_) where atomic steps of threads interleave and loads read what release-acquire memory allows."
  },
  {
   "property": "C74",
   "status": "proved",
   "theorems": [
    "C74_restored",
    "C74_lexical"
   ],
   "note": "C74_restored: any body, any scope_init. C74_lexical: whole programs that catch no panics."
  },
  {
   "property": "C75",
   "status": "partial",
   "theorems": [
    "C75_refuted",
    "C75_refuted_small",
    "C75_head_partial"
   ],
   "note": "False always: the bytes of the new scope are taken for a reference to it. Scopes below 16 bytes make spawn panic."
  },
  {
   "property": "C76",
   "status": "partial",
   "theorems": [
    "C76_refuted",
    "C76_refuted_gone",
    "C76_small_partial",
    "C76_gone_partial",
    "C74_restored"
   ],
   "note": "False: only returning restores the scope. Holds if the panic comes from scope_init or from spawn, and again after any surrounding spawn returned."
  },
  {
   "property": "C77",
   "status": "proved",
   "theorems": [
    "C77_marker",
    "C77_selector"
   ],
   "note": "Values are equal iff they feed the hasher the same words."
  },
  {
   "property": "C78",
   "status": "partial",
   "theorems": [
    "C78_refuted_copies",
    "C78_refuted_names",
    "C78_partial"
   ],
   "note": "False: the compiler may store a name twice, or give two types one name. Holds otherwise."
  },
  {
   "property": "C79",
   "status": "partial",
   "theorems": [
    "C79_swap_remove_last_refuted",
    "C79_swap_remove_partial"
   ],
   "note": "False: copy_nonoverlapping of the last element onto itself. Holds for every other position."
  },
  {
   "property": "C80",
   "status": "proved",
   "theorems": [
    "C80_box_compares_values"
   ],
   "note": "Hypothesis: non-zero element size."
  },
  {
   "property": "C81",
   "status": "partial",
   "theorems": [
    "C81_refuted",
    "C81_move_to_heap_partial",
    "C81_debug_partial"
   ],
   "note": "False in release builds: the sum wraps around and the new buffer is too small. Holds if the sum fits, and in debug builds."
  },
  {
   "property": "C82",
   "status": "partial",
   "theorems": [
    "C82_uninit_refuted",
    "C82_push_ascii_partial"
   ],
   "note": "False except for pushing ASCII characters."
  },
  {
   "property": "C83",
   "status": "proved",
   "theorems": [
    "C83_index"
   ],
   "note": ""
  },
  {
   "property": "C84",
   "status": "partial",
   "theorems": [
    "C84_refuted",
    "C84_counts_partial"
   ],
   "note": "False always: into_inner releases the fence twice. Until then the fence keeps the value. Permitted programs: all but the calls of try_unwrap, make_mut and into_inner refuted under C71, C72 and C84. At most usize::MAX calls, each of them atomic."
  },
  {
   "property": "C85",
   "status": "proved",
   "theorems": [
    "C85_into_fence",
    "C85_threads_partial"
   ],
   "note": "Permitted programs: all but the calls of try_unwrap, make_mut and into_inner refuted under C71, C72 and C84. At most usize::MAX calls, each of them atomic. Also (_threads_) where atomic steps of threads interleave and loads read what release-acquire memory allows."
  },
  {
   "property": "C86",
   "status": "partial",
   "theorems": [
    "C86_refuted",
    "C86_release_partial",
    "C67_frame_partial"
   ],
   "note": "False: the number of fences stays. The fence is released and other handles keep their values. Permitted programs: all but the calls of try_unwrap, make_mut and into_inner refuted under C71, C72 and C84. At most usize::MAX calls, each of them atomic."
  },
  {
   "property": "C87",
   "status": "partial",
   "theorems": [
    "C87_refuted",
    "C87_same_fence_partial",
    "C87_unsent_partial",
    "C87_sent_partial",
    "C87_threads_partial"
   ],
   "note": "False: a fence counts for ever if its Weak was dropped last. If true, all handles are in the same thread; true if nothing was sent. Permitted programs: all but the calls of try_unwrap, make_mut and into_inner refuted under C71, C72 and C84. At most usize::MAX calls, each of them atomic. Also (_threads_) where atomic steps of threads interleave and loads read what release-acquire memory allows."
  },
  {
   "property": "C88",
   "status": "proved",
   "theorems": [
    "C88_given"
   ],
   "note": ""
  },
  {
   "property": "C89",
   "status": "proved",
   "theorems": [
    "C89_no_env",
    "C89_programs"
   ],
   "note": ""
  },
  {
   "property": "C90",
   "status": "partial",
   "theorems": [
    "C90_refuted",
    "C76_refuted_gone",
    "C90_partial"
   ],
   "note": "False for scopes of at least 16 bytes that do not begin with a reference to a scope. Holds for smaller ones, and for those that begin with a reference to a scope that outlives the program."
  },
  {
   "property": "C91",
   "status": "partial",
   "theorems": [
    "C91_partial",
    "C91_refuted"
   ],
   "note": "False after make_mut was refused memory (the count is one too low). Holds in all interleavings for all other objects."
  },
  {
   "property": "C92",
   "status": "partial",
   "theorems": [
    "C92_partial",
    "C92_refuted"
   ],
   "note": "False once a Weak was made: Weak has no Drop, so the weak count never goes down. Holds in all interleavings for values that never had a Weak."
  },
  {
   "property": "C93",
   "status": "partial",
   "theorems": [
    "C93_partial",
    "C93_refuted"
   ],
   "note": "False after make_mut was refused memory. Holds in all interleavings for all other objects."
  },
  {
   "property": "C94",
   "status": "proved",
   "theorems": [
    "C94_write",
    "C94_return",
    "C94_only"
   ],
   "note": "Every write, every release of the reference, and every other step, in all runs."
  },
  {
   "property": "C95",
   "status": "partial",
   "theorems": [
    "C95_partial",
    "C95_refuted"
   ],
   "note": "False once a Weak was dropped. weak_count is never too low, and 0 if there never was a Weak."
  },
  {
   "property": "C96",
   "status": "partial",
   "theorems": [
    "C96_partial",
    "C96_others",
    "C96_bound",
    "C96_refuted"
   ],
   "note": "False for downgrade, which spins for ever once another thread has changed the weak count (C64). All other calls end after at most ten steps of their own."
  },
  {
   "property": "C97",
   "status": "partial",
   "theorems": [
    "C97_partial",
    "C97_refuted"
   ],
   "note": "False once a Weak was made, also if it is gone. Holds in all interleavings for values that never had a Weak."
  },
  {
   "property": "C98",
   "status": "partial",
   "theorems": [
    "C98_partial",
    "C98_refuted",
    "C98_threads_partial",
    "C98_threads_calls_partial"
   ],
   "note": "False for make_mut in debug builds. Holds for all permitted calls after all permitted histories. Also (_threads_) where atomic steps of threads interleave and loads read what release-acquire memory allows."
  },
  {
   "property": "C99",
   "status": "proved",
   "theorems": [
    "C99_with_capacity",
    "C99_try_with_capacity",
    "C99_try_reserve_exact",
    "C99_reserve_exact",
    "C99_try_reserve",
    "C99_reserve",
    "C99_move_to_heap",
    "C99_on_heap",
    "C99_shrink_to",
    "C99_shrink_to_fit"
   ],
   "note": "For requests that stay within isize::MAX bytes; C81 covers the others. Hypothesis: non-zero element size."
  }
 ]
}
