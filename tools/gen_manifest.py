"""Writes MANIFEST.json. Each entry: property, status, theorems, note."""
import json, os
C = []
def c(pid, status, thms, note=""):
    C.append({"property": pid, "status": status, "theorems": thms.split(), "note": note})

HYP = "Hypotheses: non-zero element size, destructors do not panic, sizes within the byte limit (Legal)."
c("C01", "proved", "C01_vec_is_list C01_no_spurious_panic", HYP)
c("C02", "proved", "C02_vec_memory_safe", HYP)
c("C03", "proved", "C03_owned_once C03_no_duplicate", HYP)
c("C04", "proved", "C04_no_leak", HYP)
SZ = "Hypothesis: non-zero element size."
c("C05", "proved", "C05_with_capacity C05_reserve_exact C05_reserve C05_shrink_to C05_shrink_to_fit", SZ)
c("C06", "partial", "C06_push_amortised_refuted C06_one_request_per_push C06_push_amortised_partial",
  "False: every push beyond the capacity asks the allocator for exactly one more element. Holds after a sufficient reserve.")
c("C07", "proved", "C07_try_reserve_exact C07_try_reserve C07_try_with_capacity C07_reserve_exact C07_reserve C07_with_capacity C07_push", SZ)
c("C08", "partial", "C08_refuted_panics C08_refuted_bad_request C08_refuted_corruption C08_overflow_partial",
  "False: the byte count is an unchecked product. Holds for a vector without a buffer.")
c("C09", "partial", "C09_retain_refuted C09_retain_loses_second C09_retain_partial",
  "False: the second element is lost when the first is kept. Holds when the first element is rejected or there is at most one.")
c("C10", "partial", "C10_dedup_refuted C10_dedup_by_loses_second C10_dedup_by_key_loses_second C10_dedup_partial",
  "False: the second element is always lost. Holds for at most one element.")
c("C11", "partial", "C11_split_off_refuted C11_split_off_moves_nothing C11_split_off_partial",
  "False: the vector keeps everything and an empty one is returned. Holds when splitting at or beyond the end.")
c("C12", "partial", "C12_drain_refuted C12_drain_bad_range_refuted C12_drain_empty_refuted C12_drain_exposes_uninit C12_drain_never_yields C12_drain_partial",
  "False: any non-empty range, of any kind, panics and loses the tail. Holds for the empty range at the end.")
c("C13", "partial", "C13_from_slice_refuted C13_from_slice_partial",
  "False: panics for any non-empty slice. Holds for the empty slice.")
c("C14", "proved", "C14_into_iter_forward", SZ)
c("C15", "partial", "C15_double_ended_refuted C15_yields_twice C15_double_ended_partial",
  "False: next_back after the last element was yielded from the front yields it again. Holds for all other interleavings.")
c("C16", "partial", "C16_size_hint_refuted C16_as_slice_partial",
  "False for size_hint/len after next. as_slice is always right.")
c("C17", "partial", "C17_leak_refuted C17_leak_partial",
  "False: leak drops all elements and releases the buffer. Holds without a buffer.")
c("C18", "partial", "C18_zst_drop_refuted C18_zst_history_partial C18_zst_calls_defined_partial",
  "False: dropping the vector frees a dangling pointer. All other calls are as specified over every history.")
c("C19", "partial", "C19_marker_lost_refuted C19_marker_ignored_refuted C19_marker_kept_partial",
  "False when created without capacity: the marker is lost. Holds when created with capacity.")
c("C20", "partial", "C20_scope_refuted C20_scope_partial C20_own_scope_partial",
  "False: the first buffer comes from the scope of the first growth. Holds once there is a buffer, or if the scope never changes.")
c("C21", "partial", "C21_clear_refuted C21_truncate_partial C21_drop_partial C21_history_partial C21_no_double_drop_partial C21_next_call_partial C21_leaks_partial",
  "False for clear. Holds over every program of the other calls of C01 (truncate, resize, index assignment, drop, ...) whatever destructors panic: contents, single ownership, no undefined behaviour, only vectors whose drop panicked leak. Elements of non-zero size. Iterators are not among these calls.")
c("C22", "partial", "C22_shrink_empty_refuted C22_shrink_empty_partial",
  "False: asks the allocator for zero bytes. Holds when there is no buffer.")

c("C23", "proved", "C23_eq C23_eq_content C23_cmp C23_lex_unique C23_cmp_same C23_hash C23_hash_feeds", SZ)
c("C24", "proved", "C24_extend_from_slice C24_clone C24_resize C24_resize_with C24_retain",
  "Hypotheses: non-zero element size; destructors do not panic (resize, resize_with, retain). Elements may be leaked by retain (C09).")
c("C25", "partial", "C25_into_boxed_slice C25_from_boxed_slice C25_boxed_slice_drop C25_empty_refuted",
  "Holds for non-empty vectors; false for empty ones, whose box frees a dangling pointer.")
c("C26", "partial", "C26_refuted C26_refuted_zst C26_partial C26_new_partial C26_refuted_new",
  "False for types with a destructor (drops uninitialised memory) and for zero-sized types. Holds for the other types.")
c("C27", "partial", "C27_refuted C27_refuted_new",
  "False for every box: into_inner is followed by the destructor of the box, which accesses the freed block. Nothing of the property holds.")
c("C80", "proved", "C80_box_compares_values", SZ)
c("C79", "partial", "C79_swap_remove_last_refuted C79_swap_remove_partial",
  "False: copy_nonoverlapping of the last element onto itself. Holds for every other position.")

c("C28", "partial", "C28_refuted C28_small_is_list_partial",
  "False: split_off at the end panics. Every history of permitted calls is as specified; the permitted calls leave out those of C33-C35, C37, C38 and C79. Non-zero element size; destructors do not panic.")
c("C29", "partial", "C29_refuted C29_storage_invisible_partial",
  "False: truncate drops the elements of heap vectors only. Holds for all programs of permitted calls while memory is not refused.")
c("C30", "partial", "C30_refuted C30_memory_safe_partial C30_owned_once_partial C30_no_leak_partial",
  "False: remove on a full inline vector reads past the array. Holds for every history of permitted calls.")
c("C31", "partial", "C31_refuted C31_stays_inline_partial",
  "False for inline sizes below the minimal heap capacity minus one. Holds for all other inline sizes, any number of pushes.")
c("C32", "partial", "C32_refuted C32_truncate_partial", "False inline: nothing is dropped. Holds on the heap.")
c("C33", "partial", "C33_refuted C33_remove_partial",
  "False for full inline vectors: reads past the array. Holds in all other cases.")
c("C34", "partial", "C34_release_refuted C34_end_refuted C34_insert_partial",
  "False in release builds for inline vectors with room (undefined behaviour), and at the end by the letter of get_unchecked_mut. Holds otherwise.")
c("C35", "partial", "C35_resize_with_refuted C35_resize_with_debug_refuted C35_resize_refuted C35_shrink_refuted C35_resize_with_partial C35_resize_partial",
  "False: inline vectors cannot grow past the inline size by resize_with, by resize only if the reservation happens to spill; shrinking inline leaks. Holds otherwise.")
c("C36", "partial", "C36_refuted C36_too_long_partial",
  "False for every heap vector that fits inline: released twice. Holds when it does not fit.")
c("C37", "partial", "C37_refuted C37_from_array_partial",
  "False if the array fits inline: the vector is empty. Holds for longer arrays.")
c("C38", "partial", "C38_refuted C38_split_off_partial", "False at the end: panics. Holds for every other split point.")
c("C39", "proved", "C39_spill C39_move_to_heap C39_with_capacity C39_into_vec C39_from_vec",
  "C39_spill is for programs of permitted calls (destructors do not panic); C39_move_to_heap for moving with any contents. " + SZ)
c("C81", "partial", "C81_refuted C81_move_to_heap_partial C81_debug_partial",
  "False in release builds: the sum wraps around and the new buffer is too small. Holds if the sum fits, and in debug builds.")

UN = "Calls that pass uninitialised bytes by value (C82) count as permitted only where this is tolerated (`strict = false`)."
c("C40", "proved", "C40_always_utf8 C40_memory_safe",
  "All histories of permitted calls: sizes within the limits of Layout. " + UN)
c("C41", "proved", "C41_string_is_text C41_determined C41_no_leak",
  "All histories of permitted calls: sizes within the limits of Layout. " + UN)
c("C42", "proved", "C42_rejected C42_insertStr_accepted C42_insert_accepted C42_remove_accepted C42_remove_end C42_truncate_accepted",
  "For split_off only that other offsets are rejected; what it does at boundaries is C48. " + UN)
c("C43", "proved", "C43_retain C43_retain_filter", "")
c("C44", "proved", "C44_from_utf8", "")
c("C45", "proved", "C45_paired C45_from_utf16 C45_roundtrip", "Lengths within the limits of Layout. " + UN)
c("C46", "proved", "C46_cmp C46_eq C46_hash C23_lex_unique", "")
c("C47", "partial", "C47_from_str_refuted C47_from_str_partial", "False for every non-empty text: panics. Holds for the empty one.")
c("C48", "partial", "C48_split_off_refuted C48_split_off_partial", "False at every boundary before the end: nothing is split off. Holds at the end.")
c("C49", "partial", "C49_safe_refuted C49_without_bytes_partial", "False: as_mut_vec is safe. Holds without it.")
c("C50", "proved", "C50_extend_chars C50_extend_strs C50_extend_strings C50_collect C50_collect_strings C50_from_boxed",
  "Sizes and size hints within the limits of Layout; boxed strings non-empty (empty boxes: C25). " + UN)
c("C82", "partial", "C82_uninit_refuted C82_push_ascii_partial", "False except for pushing ASCII characters.")
c("C83", "proved", "C83_index", "")

c("C51", "partial", "C51_refuted C51_read_partial C51_history_partial C51_memory_safe",
  "False: after try_unwrap with a Weak alive, upgrade gives a handle of the moved-out value. Holds for programs that do not call try_unwrap, nor make_mut on the only Rc, while a Weak exists; no program touches released memory.")
c("C52", "partial", "C52_refuted_release C52_refuted_refused C52_exclusive_partial",
  "False after make_mut on the only Rc with a Weak alive (release build, or memory refused). Holds for all other programs.")
c("C53", "partial", "C53_refuted C53_never_early_partial", "False: values are never dropped and memory is never released.")
c("C54", "partial", "C54_refuted C54_refuted_always C54_upgrade_partial", "False: upgrade succeeds without any Rc handle. It does succeed while there is one.")
c("C55", "partial", "C55_refuted C55_strong_partial C55_weak_exact",
  "weak_count is exact in all histories. strong_count is one too many once the value was without Rc handle.")
c("C56", "partial", "C56_refuted C56_try_unwrap_partial", "False with Weak handles, and for values that were without Rc handle.")
c("C57", "partial", "C57_refuted_debug C57_refuted_release C57_make_mut_partial C57_panic_partial", "False for the only Rc with a Weak alive. Holds otherwise.")

AN = " Histories of at most isize::MAX steps, sequentially consistent."
c("C58", "partial", "C58_refuted C58_read_partial C58_handle_partial C58_safe_partial C58_calm_partial",
  "False after make_mut was refused memory while a Weak exists: it leaves a handle that is not counted. Holds for all other runs, and at all other objects." + AN)
c("C59", "partial", "C59_refuted C59_partial C59_calm_partial", "False and true as C58." + AN)
c("C60", "proved", "C60_not_early C60_once C60_released", "All runs." + AN)
c("C61", "proved", "C61_exclusive C61_undisturbed C61_get_mut", "All runs; also for the reference from make_mut." + AN)
c("C62", "partial", "C62_refuted C62_one_winner_partial C62_failed_partial C62_value_partial C62_returns_partial", "False and true as C58." + AN)
c("C63", "partial", "C63_refuted C63_never_released C63_partial",
  "False for every value that ever had a Weak: never released. Holds for the others." + AN)
c("C64", "partial", "C64_refuted C64_partial C64_locked_partial",
  "False: a downgrade that another one has overtaken is stuck forever. Holds if nobody interferes after it has loaded the count." + AN)
c("C65", "partial", "C65_refuted C65_partial C65_begins C65_others_keep C59_partial", "False and true as C58." + AN)
c("C66", "partial", "C66_refuted C66_partial", "False and true as C58." + AN)

UR = " Permitted programs: all but the calls of try_unwrap, make_mut and into_inner refuted under C71, C72 and C84. At most usize::MAX calls, each of them atomic."
UT = " Also (_threads_) where atomic steps of threads interleave and loads read what release-acquire memory allows."
c("C67", "partial", "C67_refuted_release C67_refuted_debug C67_read_partial C67_safe_partial C67_frame_partial C67_value_partial C67_threads_partial C67_threads_kept_partial C67_threads_clone_partial C67_kept_partial",
  "False: make_mut on a handle with a clone moves the value away from the clone. Holds for permitted programs." + UR + UT)
c("C68", "partial", "C68_refuted C68_exclusive_partial C68_refused_partial C68_threads_partial",
  "False after a failed try_unwrap on a handle with a clone. Holds for permitted programs." + UR + UT)
c("C69", "partial", "C69_refuted C69_sole_partial C69_sent_partial", "False once get_mut was tried while another thread had a handle. Holds, with its converse, for permitted programs that send nothing, and for those that send but make no Weak and do not try get_mut in vain." + UR)
c("C70", "partial", "C70_refuted C70_refuted_drop C70_refuted_release C70_kept_partial C70_fence_partial",
  "False for all programs: no value is ever dropped and no master released. Fences are released with their only handle, and not while there is one." + UR)
c("C71", "partial", "C71_refuted_sole C71_refuted_counts C71_refuted_weak C71_partial C71_threads_partial C71_threads_moved_partial",
  "False: for the only handle a released fence is used; with a clone a count changes; a Weak in another thread prevents it. Holds for permitted calls except that the value may be refused to the only Urc." + UR + UT)
c("C72", "partial", "C72_refuted_debug C72_refuted_release C72_partial C67_frame_partial C72_threads_partial C72_threads_others_partial",
  "False for the only handle (panics in debug builds) and with a clone. Holds for permitted calls." + UR + UT)
c("C73", "proved", "C73_strong C73_weak C73_threads_partial", "Also for permitted calls of make_mut, try_unwrap, try_into_fence." + UR + UT)
c("C84", "partial", "C84_refuted C84_counts_partial", "False always: into_inner releases the fence twice. Until then the fence keeps the value." + UR)
c("C85", "proved", "C85_into_fence C85_threads_partial", UR.strip() + UT)
c("C86", "partial", "C86_refuted C86_release_partial C67_frame_partial", "False: the number of fences stays. The fence is released and other handles keep their values." + UR)
c("C87", "partial", "C87_refuted C87_same_fence_partial C87_unsent_partial C87_sent_partial C87_threads_partial",
  "False: a fence counts for ever if its Weak was dropped last. If true, all handles are in the same thread; true if nothing was sent." + UR + UT)

c("C74", "proved", "C74_restored C74_lexical", "C74_restored: any body, any scope_init. C74_lexical: whole programs that catch no panics.")
c("C75", "partial", "C75_refuted C75_refuted_small C75_head_partial",
  "False always: the bytes of the new scope are taken for a reference to it. Scopes below 16 bytes make spawn panic.")
c("C76", "partial", "C76_refuted C76_refuted_gone C76_small_partial C76_gone_partial C74_restored",
  "False: only returning restores the scope. Holds if the panic comes from scope_init or from spawn, and again after any surrounding spawn returned.")
c("C77", "proved", "C77_marker C77_selector", "Values are equal iff they feed the hasher the same words.")
c("C78", "partial", "C78_refuted_copies C78_refuted_names C78_partial", "False: the compiler may store a name twice, or give two types one name. Holds otherwise.")
c("C88", "proved", "C88_given", "")
c("C89", "proved", "C89_no_env C89_programs", "")
c("C90", "partial", "C90_refuted C76_refuted_gone C90_partial", "False for scopes of at least 16 bytes that do not begin with a reference to a scope. Holds for smaller ones, and for those that begin with a reference to a scope that outlives the program.")
c("C91", "partial", "C91_partial C91_refuted", "False after make_mut was refused memory (the count is one too low). Holds in all interleavings for all other objects.")
c("C92", "partial", "C92_partial C92_refuted", "False once a Weak was made: Weak has no Drop, so the weak count never goes down. Holds in all interleavings for values that never had a Weak.")
c("C93", "partial", "C93_partial C93_refuted", "False after make_mut was refused memory. Holds in all interleavings for all other objects.")
c("C94", "proved", "C94_write C94_return C94_only", "Every write, every release of the reference, and every other step, in all runs.")
c("C95", "partial", "C95_partial C95_refuted", "False once a Weak was dropped. weak_count is never too low, and 0 if there never was a Weak.")
c("C96", "partial", "C96_partial C96_others C96_bound C96_refuted", "False for downgrade, which spins for ever once another thread has changed the weak count (C64). All other calls end after at most ten steps of their own.")
c("C97", "partial", "C97_partial C97_refuted", "False once a Weak was made, also if it is gone. Holds in all interleavings for values that never had a Weak.")
c("C98", "partial", "C98_partial C98_refuted C98_threads_partial C98_threads_calls_partial", "False for make_mut in debug builds. Holds for all permitted calls after all permitted histories." + UT)
c("C99", "proved", "C99_with_capacity C99_try_with_capacity C99_try_reserve_exact C99_reserve_exact C99_try_reserve C99_reserve C99_move_to_heap C99_on_heap C99_shrink_to C99_shrink_to_fit",
  "For requests that stay within isize::MAX bytes; C81 covers the others. " + SZ)
c("C100", "partial", "C100_reserve_refuted C100_push_refuted C100_partial", "False when the capacity is below the minimal heap capacity: reserve asks for that much even if fewer are needed. Holds otherwise.")
c("C101", "partial", "C101_refuted C101_one_request_per_push C101_partial", "False: on the heap every push beyond the capacity makes a request of its own. At most one request per push holds.")
c("C102", "proved", "C102_eq C102_cmp C102_hash C102_hash_feeds C102_hash_as_vec", SZ)
c("C103", "partial", "C103_refuted C103_retain_loses_second C103_partial", "False as C09: an accepted first element makes the second one disappear. " + SZ)
c("C104", "partial", "C104_refuted C104_dedup_by_loses_second C104_dedup_by_key_loses_second C104_partial", "False as C10: the second element is never compared and disappears. " + SZ)
c("C105", "partial", "C105_refuted C105_bad_range_refuted C105_partial", "False as C12: every non-empty range panics and cuts the vector back. " + SZ)
c("C106", "partial", "C106_empty_refuted C106_into_boxed_slice_partial C106_from_boxed_slice", "False for empty vectors (zero-size realloc). Holds for the others. " + SZ)
c("C107", "partial", "C107_refuted C107_refuted_sync C107_partial C107_load_partial C107_new_partial",
  "False after make_mut was refused memory while a Weak exists (see C58), and for types with a writable &T (C107_refuted_sync), which an Envelope takes to other threads. Holds for all other runs. Memory model: release-acquire with release sequences; stores to one counter are ordered as the steps are, SeqCst counts as Acquire, no load buffering. Histories of at most isize::MAX steps.")
c("C108", "partial", "C108_refuted C108_safe_partial C108_load_partial C108_read_partial C108_once_partial C108_not_early_partial C108_free_once_partial C108_released_partial C108_exclusive_partial C108_covers",
  "False and true as C107. C108_covers: the runs include all sequentially consistent ones. Histories of at most isize::MAX steps.")

c("C109", "partial", "C109_box C109_rc C109_arc_partial C109_arc_refuted C109_urc_partial C109_urc_refuted",
  "Holds for Box (with C80) and for Rc after all histories. False for Arc after make_mut was refused memory and for Urc after make_mut with a clone (the value is gone); holds in all other runs of Arc and all permitted histories of Urc.")
c("C110", "proved", "C110_rc C110_arc C110_arc_made C110_urc C110_urc_made C110_urc_stays",
  "All histories and runs, also after refused memory and for handles whose fence was given back: Urc handles keep the address of the value, whose memory is never given back in a run without undefined behaviour.")
c("C111", "partial", "C111_refuted C111_weak_debug_partial", "False: dropping the last Rc does not clear the strong count, so a Weak shows the dropped value. While an Rc exists, and for Weak::new, it holds after permitted histories.")
c("C112", "partial", "C112_refuted", "False for every box of a type of non-zero size: into_inner lets the destructor run on the released block (C27).")

c("C113", "proved", "C113_boxed_calls", SZ)
c("C114", "proved", "C114_write C114_rejected", "")
c("C115", "partial", "C115_debug_refuted C115_display_partial", "False for Debug: it writes the bare text. Display is right.")
c("C116", "partial", "C116_refuted C116_bytes_partial C116_vec_partial", "False for an empty box that has no memory of its own, as C25. Holds for all texts that are not empty. The crate has no safe way to make a Box<str>.")

c("C117", "proved", "C117_spare_len C117_fill C117_beyond C117_small",
  "Hypotheses: non-zero element size. Aliasing rules for references are not modelled.")
c("C118", "partial", "C118_refuted_sync C118_refuted_unwrap C118_partial C118_ordered_partial",
  "False for T that can be written through &T (an Envelope is Send whatever T is), and after try_unwrap on a handle with a clone. Holds for all other runs of fewer than usize::MAX steps without the faults of C71 and C72. Memory model as C107.")
c("C119", "partial", "C119_refuted C119_refuted_double_drop C119_small_refuted C119_small_refuted_double_drop C119_dedup_by C119_small_dedup_by C119_partial C119_small_partial C119_key_partial C119_small_key_partial",
  "False: the reference to the kept element is to the place where it was found, not to where it was moved; a test that swaps makes an element be dropped that stays. C119_dedup_by says what happens for every test. Holds for tests that leave the kept element alone or merge all into the first, and for dedup_by_key, the second element (C10) aside. " + SZ)
c("C120", "partial", "C120_clear_refuted C120_refuted C120_history_partial C120_no_double_drop_partial C120_next_call_partial C120_leaks_partial",
  "False for clear of a vector that has spilled. Holds over every program of the other calls of C28, and for clear of inline vectors. Elements of non-zero size. Iterators are not among these calls.")
c("C121", "proved", "C121_retain C121_dedup_by C121_dedup C121_dedup_by_key C121_retain_exact",
  "Elements not yet looked at are lost, besides the one of C09 and C10. Tests that change the elements: C119. " + SZ)
c("C122", "partial", "C122_refuted_read C122_refuted_drop C122_refuted_assign C122_refuted_zero C122_partial",
  "False: the array is not initialised, so that safe code reads or drops uninitialised memory, and an array of no bytes makes a request for zero bytes. Holds for programs that initialise elements before they are read, assigned to or dropped.")
c("C123", "partial", "C123_refuted_panics C123_refuted_wraps C123_refuted_bad_request C123_refuted_zero C123_partial",
  "False: the byte count is an unchecked product, CapacityOverflow is never returned, and zero is passed on to the allocator. Holds for sizes above zero that fit.")
c("C124", "partial", "C124_safe_partial C124_owned_once_partial C124_objects_partial C124_memory_partial C124_no_leak_partial C124_refuted",
  "False for all programs the compiler accepts (C124_refuted: next_back on an exhausted iterator yields an element twice). Holds for programs that do not call next_back on an exhausted iterator, clear when a destructor panics, or into_boxed_slice on an empty vector. Drain and split_off are not calls of these programs. " + SZ)
c("C125", "partial", "C125_refuted C125_refuted_env C125_local_partial C125_outlive_partial",
  "False: current(&()) gives a reference for ever, and Env has no lifetime. Holds for programs that catch no panics and use references where they got them or inside, and for programs whose scopes all defer to ones that outlive them.")
c("C126", "partial", "C126_refuted C125_local_partial C125_outlive_partial",
  "False: values keep a static reference to their allocator, and spawn returns any type. Holds as C125. The allocator is taken to be part of the scope.")
c("C127", "partial", "C127_safe_partial C127_owned_once_partial C127_objects_partial C127_memory_partial C127_no_leak_partial C127_refuted C127_refuted_lost",
  "False for all programs the compiler accepts (C127_refuted: next_back on an exhausted iterator yields an element twice; C127_refuted_lost: an array that stays inline is lost). Holds for programs that respect the conditions of C28, C120 and C124 and make no boxed slices of empty small vectors. Drain is not a call of these programs. " + SZ)
c("C128", "partial", "C128_rc_refuted C128_urc_refuted C128_arc_refuted C128_rc_debug_partial C128_urc_debug_partial C128_arc_partial",
  "False in release builds for Rc and Urc, whose counts wrap around, and for Arc, which raises the count before it panics, so that a program that catches the panics gets it to wrap around. Holds in debug builds for Rc and Urc, and for Arc while no panic is caught.")
c("C129", "proved", "C129_vec C129_vec_bad C129_small C129_small_bad C129_box C129_box_bad C129_iter C129_iter_bad C129_permutes",
  "Values that client code holds while a destructor panics are forgotten in the model. " + SZ)
c("C130", "partial", "C130_arc_refuted C130_rc_refuted C130_urc_refuted C130_partial",
  "False: Envelop is implemented for Arc<T> and Urc<T> without bounds on T, so that safe code can share a Cell or an Rc between threads. Holds if envelopes carry only handles of values that are Send and Sync. The model has numbers, cells, Rc, Arc and Urc, no Weak handles and no &mut access.")
c("C131", "partial", "C131_arc_refuted C131_urc_refuted C131_partial",
  "False: memory goes back to the allocator it came from on whichever thread drops the last Arc, or the last Urc of a fence; the fence of an enveloped Urc is always allocated by the sender and freed by the receiver. Holds if threads send each other plain values only.")
c("C132", "partial", "C132_safe C132_there C132_destructor C132_once C132_held C132_exact_partial C132_acyclic C132_memory_partial C132_ends C132_gone_partial C132_refuted_refused C132_refuted_panic",
  "False if memory is refused (the value, with the handles in it, is forgotten) and if a destructor panics (the memory stays). Values are exactly those that can be reached, counting lost handles; memory is released in runs without refusals and panics, for values that never had a Weak (C63). Histories of at most isize::MAX steps, sequentially consistent, no make_mut and get_mut; panics are not caught inside destructors.")
c("C133", "partial", "C133_there_partial C133_last_partial C133_value_partial C133_serial_partial C133_race_refuted",
  "False: an Arc<Urc<T>> can be put into an envelope, so two threads can clone one Urc at once, a clone is not counted, and the fence is released while there is a handle. Holds if calls are single steps, for all programs; for the fence itself if calls do not overlap. No Weak handles, no panics in destructors.")
c("C134", "partial", "C134_inline_partial C134_defined_partial C134_heap_refuted C134_capacity_refuted C134_spill_refuted",
  "Refuted on the heap: the capacity is usize::MAX, so push, insert, extend and reserve panic when they add to it, and dropping frees a dangling pointer. Holds inline for inline sizes of at least 4 and calls that stay inline, other than those refuted for every element type (C32, C34, C35).")
c("C135", "partial", "C135_box_partial C135_rc_partial C135_rc_refuted C135_arc_refuted C135_urc_partial C135_urc_refuted C135_urc_memory_refuted C135_envelop_refuted C135_envelop_count_refuted",
  "Holds for Box. Refuted for the others: Rc, Arc and Urc wrap the value in MaybeDropped before they ask, so its destructor does not run; Urc::try_new leaks the master if the fence is refused; sending a Urc leaves the count of fences one too high, so get_mut and try_unwrap never succeed again, until the count wraps around, when get_mut gives access to a value that another thread has.")
c("C136", "partial", "C136_allocator_partial C136_unique_partial C136_marker_partial C136_asked_partial C136_selector_partial C136_safe_partial C136_array_refuted C136_fence_refuted C136_other_refuted C136_sites_refuted",
  "Allocators and markers: proved for all programs. Selectors: refuted for arrays ([T] instead of T), for the fence of a Urc, for a selector of another type, and wherever type_name of a type has two addresses; proved for Box::new and Box::new_with without casts when type names are unique.")
c("C137", "proved", "C137_owner C137_inner_safe C137_outer_safe C137_once C137_elements C137_end",
  "inner vectors are elements of outer ones; both levels run the model of vec.rs; calls of outer vectors that clone elements (clone, extend_from_slice, resize, resize_with) are excluded, destructors do not panic")
c("C138", "partial", "C138_calls_partial C138_lengths_partial C138_exact_partial C138_drop_partial C138_into_iter_partial C138_retain_partial C138_dedup_key_partial C138_string_partial C138_stack_partial C138_push_refuted C138_append_refuted C138_insert_refuted C138_remove_refuted C138_swap_remove_refuted C138_split_off_refuted C138_from_array_refuted C138_spare_refuted C138_into_iter_drop_refuted C138_dedup_by_refuted C138_stack_refuted C138_move_refuted",
  "refuted: push always writes through a pointer made for the elements already there; insert, remove, swap_remove, append, split_off, spare_capacity, From<[T; N]>, dropping an unfinished IntoIter, retain/dedup that move an element, String::insert/remove, SmallVec moving to the heap likewise; the remaining calls are proved to keep to the rules in any order. Stacked Borrows without protectors")
c("C139", "partial", "C139_rc_arc_partial C139_refs_partial C139_counts_partial C139_urc_refs_partial C139_get_mut_partial C139_urc_partial C139_urc_get_mut_refuted C139_urc_make_mut_refuted C139_urc_drop_refuted C139_urc_weak_refuted",
  "Rc and Arc: any sequence of calls keeps to the rules (make_mut of the only handle while there are Weaks is left out: the counters go wrong there, C128). Urc: refuted, the reference in the field data is invalidated by get_mut, by make_mut and by dropping the last handle of any fence, and make_mut invalidates the Weaks; the other calls are proved to keep to the rules in any order. Stacked Borrows without protectors; calls do not overlap in time")
c("C140", "partial", "C140_calls_partial C140_lengths_partial C140_drop_partial C140_into_iter_partial C140_new_partial C140_string_partial C140_stack_partial C140_stack_lengths_partial C140_dedup_by_partial C140_dedup_by_refuted C140_stack_remove_refuted",
  "refuted: dedup_by breaks the rules if and only if its closure writes the element kept last after it was written or after it was moved; remove of a full StackVec reads past its end. Every other call is proved to keep to the rules, in any order, with the references still held. Tree Borrows without protectors")
c("C141", "partial", "C141_rc_arc_partial C141_get_mut_partial C141_urc_partial C141_urc_refs_partial C141_urc_get_mut_refuted C141_urc_make_mut_refuted C139_refs_partial C139_counts_partial",
  "Full statement for Rc and Arc. For Urc refuted: after a write through the &mut of get_mut or make_mut, the stored reference `data` is dead and the next deref breaks the rules. Programs with Urcs that do not write are proved to keep to the rules, including those C139 shows Stacked Borrows to forbid. Tree Borrows without protectors. Freeing of blocks is left out.")
c("C142", "partial", "C142_box C142_rc C142_arc_partial C142_arc_refuted C142_arc_pointer C142_urc_partial C142_urc_refuted C142_urc_pointer C142_vec C142_small C142_text",
  "Holds for Box, for Rc after all histories, for Vec and SmallVec; {:p} holds in all runs. {:?} and {} are false for Arc after make_mut was refused memory and for Urc after make_mut moved a shared value away (C58, C67); they hold in all other runs of Arc and all permitted histories of Urc. Element types of non-zero size.")
c("C143", "proved", "C143_rc_owner C143_rc_history C143_rc_use C143_rc_safe C143_rc_weak_count C143_rc_strong_count C143_rc_end C143_urc_owner C143_urc_history C143_urc_use C143_urc_safe C143_urc_strong_count C143_urc_weak_count C143_urc_end",
  "For calls of vectors that clone no elements; destructors of elements run after the call of the vector, in the order of its log.")
c("C144", "proved", "C144_rc_owner C144_rc_history C144_rc_safe C144_rc_calls C144_rc_clone C144_rc_weak_count C144_rc_strong_count C144_rc_end C144_urc_owner C144_urc_history C144_urc_safe C144_urc_calls C144_urc_strong_count C144_urc_end C144_vec_owner C144_vec_history C144_vec_safe C144_vec_calls C144_vec_clone C144_vec_end",
  "Clones, then destructors, of elements run after the call of the vector, which is told their results. C144_vec_clone assumes that clones of elements of inner vectors equal them; C144_vec_calls does not.")
c("C145", "partial", "C145_rc_once C145_rc_owner_partial C145_rc_history C145_rc_safe C145_rc_use C145_rc_weak_count_partial C145_rc_strong_count_partial C145_rc_end_partial C145_urc_once C145_urc_owner_partial C145_urc_history C145_urc_safe C145_urc_use C145_urc_counts_partial C145_urc_end_partial C145_vec_once C145_vec_owner_partial C145_vec_history C145_vec_safe C145_vec_use C145_vec_end_partial C145_rc_owner_refuted", "False with `retain` and `dedup`, which lose an element (C09, C10): C145_rc_owner_refuted is a program after which a handle exists that nobody owns. Proved with them: no handle has two owners, every call is safe and every destructor finds its handle alive; without them, everything.")
c("C146","partial","C146_once_partial C146_owned_partial C146_safe_partial C146_drop_partial C146_levels_partial C146_freed_partial C146_refuted","Proved for every depth by induction: containers of one level are things (as in C143-C145) for the next. False with retain and dedup above level 0, which lose an element (C146_refuted: a vector in a vector leaks); C146_owned_partial and C146_freed_partial exclude them, the other theorems do not. Destructors that panic and clones of containers are excluded; each level has a memory of its own.")
c("C147","partial","C147_values_partial C147_calls_partial C147_steps_partial C147_alone_partial C147_left_partial C147_end_partial C147_refuted","Refinement of a specification of trees that share nothing: what a program did and saw is accepted by it. False after make_mut was refused memory for a node it had moved out: the handle no longer counts, and a clone that is dropped takes the node with it (C147_refuted: undefined behaviour of a read). The positive theorems exclude this step and histories longer than isize::MAX. Sequentially consistent memory; reads along a path are one step.")
c("C148","partial","C148_once C148_owner_partial C148_history C148_safe C148_steps C148_exclusive C148_count_partial C148_end_partial C148_refuted","False with retain and dedup, which lose a handle (C148_refuted: the value is never dropped although nobody has a handle); the positive theorems exclude these calls, and, as C58 to C66, make_mut being refused memory after it has moved a value out. Borrowing calls are one step; each drop of an element has a thread of its own, which allows more interleavings than there are.")
c("C149","proved","C149_owner C149_history C149_alive C149_safe C149_calls C149_clone C149_count C149_end","Elements are not zero-sized (handles never are) and their drops do not panic. Borrowing calls are one step; each drop or clone of an element has a thread of its own; the clones of one call of a vector follow each other directly.")
c("C150","partial","C150_model_partial C150_memory_partial C150_safe_partial C150_allocator_partial C150_stays C150_end_partial C150_refuted_into_inner C150_refuted_new C150_refuted_zst C150_kept_once_partial C150_kept_owner_partial C150_kept_history C150_kept_safe_partial C150_kept_end_partial C150_kept_refuted","False for types with a destructor (C150_refuted_new), for zero-sized types (C150_refuted_zst), for into_inner in every state (C150_refuted_into_inner), and for retain and dedup on containers of boxes, which lose a box (C150_kept_refuted). Proved for all other types and calls.")
c("C151","partial","C151_box C151_box_drop C151_box_drop_panics C151_box_needs_check C151_rc_partial C151_rc_values C151_rc_refuted C151_rc_refuted_get_mut C151_arc C151_urc_refuted","Proved for Box, and for Arc where C58 holds. False for Rc whenever the value has another handle: self is dropped as well, so that one handle is no longer counted (C151_rc_refuted) and get_mut gives access to a shared value (C151_rc_refuted_get_mut); C151_rc_partial is for the only handle and for other types. False for Urc: Fence<dyn Any> and Fence<T> differ in size, so that the fence is given back with the wrong layout (C151_urc_refuted). The crate has no unsizing conversion, so dyn Any handles are taken as given.")
c("C152","proved","C152_stacked C152_tree C152_refs C152_write","Pointers of Box on the two machines of C138 and C140, without protectors. No function of Box has a reference into the block as an argument while it uses the block by another pointer, so protectors are not expected to change anything, but this is by reading the code and not proved. C152_stacked and C152_tree: no program breaks the rules. C152_refs: what the calls do to the references of the program, so that these are really used. C152_write: after any program the box gives a &mut T that can be written through. into_inner is taken up to the point where the memory is given back; what follows is refuted in C27.")
c("C153","partial","C153_stacked_refuted C153_tree_refuted C153_stacked_partial C153_tree_partial C153_held_stacked C153_held_tree C153_protected_refuted C153_protected_partial","The code violates the property. Every call of current or spawn makes a new &mut Env from the function in ENV, and Env::spawn writes through the one it was called with after its function has returned. C153_stacked_refuted and C153_tree_refuted: whatever the program did before, a spawn whose function allocates or spawns, and returns, breaks the rules. The partial theorems say exactly which programs keep to them: by Stacked Borrows those where nothing within a spawn uses the environment and returns, by Tree Borrows also those where scope_init allocates; a spawn that unwinds restores nothing, so on these machines it breaks nothing. C153_held_stacked and C153_held_tree: for how long a &Env can be read through. Only the block of Env is modelled, not the blocks of the scopes, and for all these theorems without protectors. Protectors forbid more: C153_protected_refuted and C153_protected_partial are for Stacked Borrows with the &mut self of Env::spawn protected, where code that uses the environment and unwinds breaks the rules too. Tree Borrows with protectors is not modelled, so C153_tree_partial is exact without them only; C153_tree_refuted does not depend on this. Also, the function in ENV is taken to make its results from one pointer.")

with open(os.path.join(os.path.dirname(__file__), "..", "MANIFEST.json"), "w") as f:
    C.sort(key=lambda e: e["property"])
    json.dump({"claims": C}, f, indent=1, ensure_ascii=False); f.write("\n")
print(len(C))
