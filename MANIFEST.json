{
 "claims": [
  {
   "property": "C01",
   "status": "proved",
   "theorems": [
    "Nature.Bitmap.C01_batch_set",
    "Nature.Bitmap.C01_batch_clear",
    "Nature.Bitmap.C01_single",
    "Nature.Bitmap.C01_empty",
    "Nature.Bitmap.C01_grow_set",
    "Nature.Bitmap.C01_grow_set_empty_aborts"
   ],
   "note": "byte-level model of utils/bitmap.h; out-of-buffer access is an explicit none outcome; growing an empty (0 byte) bitmap aborts, recorded"
  },
  {
   "property": "C02",
   "status": "partial",
   "theorems": [
    "Nature.SizeClass.C02_fits",
    "Nature.SizeClass.C02_minimal_partial",
    "Nature.SizeClass.C02_minimal_counterexample",
    "Nature.SizeClass.C02_choose",
    "Nature.SizeClass.C02_zero_aborts"
   ],
   "note": "fit proved for every size; minimality proved for every size except 2, where the code's fast path picks the 16-byte class (counterexample theorem)"
  },
  {
   "property": "C03",
   "status": "proved",
   "theorems": [
    "Nature.PageAlloc.C03_chunk_summary",
    "Nature.PageAlloc.C03_unique"
   ],
   "note": "for all 2^512 bitmaps"
  },
  {
   "property": "C04",
   "status": "proved",
   "theorems": [
    "Nature.PageAlloc.C04_merge",
    "Nature.PageAlloc.C04_tree"
   ],
   "note": "one merge step, and exactness of all five levels in every reachable heap (OS grants the first hint)"
  },
  {
   "property": "C05",
   "status": "proved",
   "theorems": [
    "Nature.PageAlloc.C05_first_fit"
   ],
   "note": "first-fit soundness and completeness"
  },
  {
   "property": "C06",
   "status": "partial",
   "theorems": [
    "Nature.PageAlloc.C06_disjoint",
    "Nature.PageAlloc.C06_span_of",
    "Nature.PageAlloc.C06_free_ok",
    "Nature.PageAlloc.C06_alloc_sound",
    "Nature.PageAlloc.C06_reuse_partial",
    "Nature.PageAlloc.C06_alloc_ok_partial",
    "Nature.PageAlloc.C06_growth_counterexample",
    "Nature.PageAlloc.C06_hint_fallback_counterexample"
   ],
   "note": "safety for all histories; completeness/progress only below 16 GiB: beyond it, and when the OS refuses the first hint, the code aborts (counterexample theorems)"
  },
  {
   "property": "C14",
   "status": "partial",
   "theorems": [
    "Nature.Vec.C14_history_partial",
    "Nature.Vec.C14_push",
    "Nature.Vec.C14_get",
    "Nature.Vec.C14_set",
    "Nature.Vec.C14_append",
    "Nature.Vec.C14_append_self",
    "Nature.Vec.C14_concat",
    "Nature.Vec.C14_copy",
    "Nature.Vec.C14_new_large_element_counterexample"
   ],
   "note": "refinement to lists for every program; missing: filling constructor for elements above 8 bytes, where the code compares past an 8-byte local (counterexample theorem), and appends reaching 2^31-1 elements"
  },
  {
   "property": "C15",
   "status": "proved",
   "theorems": [
    "Nature.Vec.C15_slice",
    "Nature.Vec.C15_slice_write",
    "Nature.Vec.C15_write_frame",
    "Nature.Vec.C15_slice_push",
    "Nature.Vec.C15_push_isolated",
    "Nature.Vec.C15_append_isolated"
   ],
   "note": "bounds and contents, exact effect of writes, isolation of pushes and appends in every reachable state"
  },
  {
   "property": "C16",
   "status": "partial",
   "theorems": [
    "Nature.Map.C16_history_partial",
    "Nature.Map.C16_int_keys_partial",
    "Nature.Map.C16_string_keys_partial"
   ],
   "note": "every history, every hash function: answers equal the finite map's up to an abort; missing: absence of aborts (C17 is false) and maps of 2^31 keys"
  },
  {
   "property": "C17",
   "status": "partial",
   "theorems": [
    "Nature.Map.C17_no_abort_partial",
    "Nature.Map.C17_tombstones_counterexample"
   ],
   "note": "no abort while deletions stay below 4 or a third of the live keys; counterexample: tombstone saturation aborts"
  },
  {
   "property": "C18",
   "status": "partial",
   "theorems": [
    "Nature.Map.C18_direct_keys_partial",
    "Nature.Map.C18_strings_partial",
    "Nature.Map.C18_nul_string_counterexample",
    "Nature.Map.C18_struct_key_counterexample"
   ],
   "note": "injective for direct keys up to 8 bytes and NUL-free strings; false for strings with NUL and for structs/arrays (counterexamples)"
  },
  {
   "property": "C19",
   "status": "partial",
   "theorems": [
    "Nature.Map.C19_history_partial",
    "Nature.Map.C19_delete_removes_partial",
    "Nature.Map.C19_delete_counterexample",
    "Nature.Map.C19_delete_absent_counterexample"
   ],
   "note": "every deletion-free history refines the finite set; with deletions the property is false (counterexamples)"
  },
  {
   "property": "C40",
   "status": "proved",
   "theorems": [
    "Nature.Map.C40_iterate"
   ],
   "note": "for every history (below 2^31 live keys, the cursor assertion of the code)"
  },
  {
   "property": "C20",
   "status": "proved",
   "theorems": [
    "Nature.Str.C20_operators",
    "Nature.Str.C20_total_order",
    "Nature.Str.C20_concat"
   ],
   "note": "all byte strings, NUL included"
  },
  {
   "property": "C41",
   "status": "partial",
   "theorems": [
    "Nature.Str.C41_to_vec",
    "Nature.Str.C41_from_vec_partial",
    "Nature.Str.C41_nul_counterexample",
    "Nature.Str.C41_unterminated_counterexample"
   ],
   "note": "exact for NUL-free vectors after any history; false for vectors containing NUL bytes (counterexamples)"
  },
  {
   "property": "C28",
   "status": "partial",
   "theorems": [
    "Nature.Strings.C28_find_after_partial",
    "Nature.Strings.C28_find_partial",
    "Nature.Strings.C28_rfind",
    "Nature.Strings.C28_affixes",
    "Nature.Strings.C28_empty_counterexample",
    "Nature.Strings.C28_nul_counterexample",
    "Nature.Strings.C28_start_counterexample"
   ],
   "note": "rfind, starts_with, ends_with exact for all bytes; find family exact for one-byte patterns and NUL-free strings, false for the empty pattern and with NUL bytes (counterexamples)"
  },
  {
   "property": "C29",
   "status": "partial",
   "theorems": [
    "Nature.Strings.C29_join",
    "Nature.Strings.C29_bytes",
    "Nature.Strings.C29_split_join_partial",
    "Nature.Strings.C29_round_trip_partial",
    "Nature.Strings.C29_trailing_counterexample"
   ],
   "note": "round trip exact unless the string ends with the separator (counterexample); NUL-free or one-byte separator"
  },
  {
   "property": "C30",
   "status": "partial",
   "theorems": [
    "Nature.Strings.C30_reverse",
    "Nature.Strings.C30_reverse_twice",
    "Nature.Strings.C30_trim",
    "Nature.Strings.C30_rtrim",
    "Nature.Strings.C30_replace_partial",
    "Nature.Strings.C30_case"
   ],
   "note": "only replace is partial: NUL-free strings or one-byte pattern"
  },
  {
   "property": "C31",
   "status": "partial",
   "theorems": [
    "Nature.Strings.C31_never_misreads",
    "Nature.Strings.C31_rejects",
    "Nature.Strings.C31_reads_partial",
    "Nature.Strings.C31_limit_counterexample"
   ],
   "note": "never misreads and rejects malformed input, for all strings; numbers above 2147483649 are rejected although int is 64-bit (counterexample)"
  },
  {
   "property": "C23",
   "status": "partial",
   "theorems": [
    "Nature.Chan.C23_lock_unlock",
    "Nature.Chan.C23_park_partial",
    "Nature.Chan.C23_double_unlock_counterexample"
   ],
   "note": "locking and unlocking are exact for all case lists and random numbers (heap sort proved); parking is exact when equal channels are adjacent in the case list, and unlocks twice otherwise (counterexample)"
  },
  {
   "property": "C21",
   "status": "partial",
   "theorems": [
    "Nature.Chan.C21_fifo_partial",
    "Nature.Chan.C21_exactly_once_partial",
    "Nature.Chan.C21_no_lost_wakeup_partial",
    "Nature.Chan.C21_resumed_partial"
   ],
   "note": "every history of any number of coroutines, channels and capacities: no abort, FIFO, exactly once, capacity, order of calls, no lost wake-up; missing: histories with a blocking select whose repeated channels are not adjacent (C23) or with a select receive that ignores its value (C43), where the code is wrong"
  },
  {
   "property": "C22",
   "status": "partial",
   "theorems": [
    "Nature.Chan.C22_close_wakes_partial",
    "Nature.Chan.C22_stays_closed_partial",
    "Nature.Chan.C22_after_close_partial"
   ],
   "note": "in every state reached by such a history (same exclusions as C21)"
  },
  {
   "property": "C42",
   "status": "partial",
   "theorems": [
    "Nature.Chan.C42_never_successful_counterexample"
   ],
   "note": "the property is false: the flag is false after every history"
  },
  {
   "property": "C43",
   "status": "partial",
   "theorems": [
    "Nature.Chan.C43_unbound_receive_counterexample"
   ],
   "note": "the property is false: abort"
  },
  {
   "property": "C44",
   "status": "partial",
   "theorems": [
    "Nature.Chan.C44_select_partial",
    "Nature.Chan.C44_resumed_partial"
   ],
   "note": "same exclusions as C21"
  },
  {
   "property": "C24",
   "status": "partial",
   "theorems": [
    "Nature.Mutex.C24_mutual_exclusion_partial",
    "Nature.Mutex.C24_single_holder_partial",
    "Nature.Mutex.C24_assertions_partial",
    "Nature.Mutex.C24_try_lock_partial",
    "Nature.Mutex.C24_unlock_assertion_counterexample"
   ],
   "note": "mutual exclusion and all assertions but one for any number of coroutines and every interleaving; the assertion on line 270 can fail (counterexample)"
  },
  {
   "property": "C45",
   "status": "proved",
   "theorems": [
    "Nature.Mutex.C45_no_lost_wakeup"
   ],
   "note": ""
  },
  {
   "property": "C26",
   "status": "proved",
   "theorems": [
    "Nature.Sort.C26_sort",
    "Nature.Sort.C26_sort_any_comparison"
   ],
   "note": ""
  },
  {
   "property": "C27",
   "status": "proved",
   "theorems": [
    "Nature.Sort.C27_search",
    "Nature.Sort.C27_search_in_bounds"
   ],
   "note": ""
  },
  {
   "property": "C32",
   "status": "proved",
   "theorems": [
    "Nature.Url.C32_round_trip",
    "Nature.Url.C32_alphabet"
   ],
   "note": ""
  },
  {
   "property": "C46",
   "status": "proved",
   "theorems": [
    "Nature.Url.C46_parse",
    "Nature.Url.C46_parse_accepts"
   ],
   "note": ""
  },
  {
   "property": "C47",
   "status": "partial",
   "theorems": [
    "Nature.Url.C47_query_partial",
    "Nature.Url.C47_equals_counterexample"
   ],
   "note": "round trip for encoded pairs; raw values containing '=' are lost (counterexample)"
  },
  {
   "property": "C48",
   "status": "partial",
   "theorems": [
    "Nature.Url.C48_host_port_partial",
    "Nature.Url.C48_ipv6_counterexample"
   ],
   "note": "split at the last colon; wrong for bracketed IPv6 hosts without a port (counterexample)"
  },
  {
   "property": "C33",
   "status": "proved",
   "theorems": [
    "Nature.IntCodec.C33_unsigned",
    "Nature.IntCodec.C33_signed",
    "Nature.IntCodec.C33_float",
    "Nature.IntCodec.C33_helpers",
    "Nature.IntCodec.C33_add"
   ],
   "note": ""
  },
  {
   "property": "C39",
   "status": "proved",
   "theorems": [
    "Nature.Uleb.C39_set",
    "Nature.Uleb.C39_sub",
    "Nature.Uleb.C39_accepts",
    "Nature.Uleb.C39_pair",
    "Nature.Uleb.C39_pair_accepts",
    "Nature.Uleb.C39_set_then_sub"
   ],
   "note": ""
  },
  {
   "property": "C34",
   "status": "partial",
   "theorems": [
    "Nature.IoBuf.C34_queue_partial",
    "Nature.IoBuf.C34_huge_counterexample"
   ],
   "note": "every program of buffer calls and vectors; less than 2^31-1 bytes written in total (the runtime passes the new capacity as a C int)"
  },
  {
   "property": "C35",
   "status": "partial",
   "theorems": [
    "Nature.Path.C35_base",
    "Nature.Path.C35_dir",
    "Nature.Path.C35_join2",
    "Nature.Path.C35_join",
    "Nature.Path.C35_recombine_partial",
    "Nature.Path.C35_trailing_counterexample",
    "Nature.Path.C35_one_separator_partial",
    "Nature.Path.C35_double_separator_counterexample"
   ],
   "note": "base, dir and join are characterised exactly for every string; the recombination law holds for every path without a trailing slash and fails with one; the one-separator law holds except when the first path ends in // or the second starts with .// (both refuted by examples)."
  },
  {
   "property": "C36",
   "status": "partial",
   "theorems": [
    "Nature.ParMove.C36_moves_partial",
    "Nature.ParMove.C36_ops_partial",
    "Nature.ParMove.C36_block_partial",
    "Nature.ParMove.C36_two_operand_counterexample",
    "Nature.ParMove.C36_two_register_load_counterexample",
    "Nature.ParMove.C36_float_slot_counterexample"
   ],
   "note": "Proved for every group of moves from registers, slots, constants and one-register loads with distinct destinations, and for other instructions that each read at most one other destination; refuted for two-operand instructions reading two destinations, for loads through two registers in nested cycles, and for cycles through a float stack slot (scratch register not reserved)."
  },
  {
   "property": "C37",
   "status": "partial",
   "theorems": [
    "Nature.Resolve.C37_deliver_partial",
    "Nature.Resolve.C37_insert_order",
    "Nature.Resolve.C37_slot_swap_counterexample"
   ],
   "note": "Proved for every mapping with distinct targets, no slot-to-slot move, no slot both read and written, fewer than 256 targets per source register; refuted when a register and a slot are exchanged."
  },
  {
   "property": "C38",
   "status": "partial",
   "theorems": [
    "Nature.Ranges.C38_covered",
    "Nature.Ranges.C38_history_partial",
    "Nature.Ranges.C38_never_lost",
    "Nature.Ranges.C38_gap_counterexample",
    "Nature.Ranges.C38_split",
    "Nature.Ranges.C38_next_use",
    "Nature.Ranges.C38_expired",
    "Nature.Ranges.C38_is_intersect",
    "Nature.Ranges.C38_next_intersect",
    "Nature.Ranges.C38_free_below"
   ],
   "note": "Lookup, splitting, use positions, expiry and next intersection proved for every separated range list; recording proved exact for every backwards history (the only kind the allocator produces); refuted for a range recorded beyond the end of the first one, where the gap is reported live too."
  },
  {
   "property": "C09",
   "status": "proved",
   "theorems": [
    "Nature.ArenaBits.C09_distinct_words",
    "Nature.ArenaBits.C09_in_range",
    "Nature.ArenaBits.C09_batch",
    "Nature.ArenaBits.C09_object",
    "Nature.ArenaBits.C09_array",
    "Nature.ArenaBits.C09_scan_partial"
   ],
   "note": "Every word and every aligned range, across any number of arenas; objects and run-time arrays. (How the mark phase reads the bits back is C12.)"
  },
  {
   "property": "C07",
   "status": "partial",
   "theorems": [
    "Nature.FixAlloc.C07_partial",
    "Nature.FixAlloc.C07_reuse_partial",
    "Nature.FixAlloc.C07_zeroed",
    "Nature.FixAlloc.C07_contents_partial",
    "Nature.FixAlloc.C07_destroy_partial",
    "Nature.FixAlloc.C07_counterexample",
    "Nature.FixAlloc.C07_pages_counterexample"
   ],
   "note": "Proved for every history of allocations, frees and client writes for block sizes up to 8192; false for every size from 8193 to the accepted 16384."
  },
  {
   "property": "C10",
   "status": "proved",
   "theorems": [
    "Nature.Span.C10",
    "Nature.Span.C10_count",
    "Nature.Span.C10_size_classes"
   ],
   "note": "Every history of allocations, client stores, marks (of any slot) and sweeps of a span; all size classes."
  },
  {
   "property": "C11",
   "status": "partial",
   "theorems": [
    "Nature.Span.C11_sweep",
    "Nature.Span.C11_bytes_partial",
    "Nature.Span.C11_large_counterexample",
    "Nature.Span.C11_large_wrap_counterexample",
    "Nature.Span.C11_stale_mark_counterexample"
   ],
   "note": "Live slots, live count, reclaimed bytes of the sweep and fate of the span proved for every pair of bitmaps; the global byte counter is exact over histories of small objects with valid marks and wrong for large objects."
  },
  {
   "property": "C12",
   "status": "partial",
   "theorems": [
    "Nature.Mark.C12_exact_partial",
    "Nature.Mark.C12_progress_partial",
    "Nature.Mark.C12_terminates_partial",
    "Nature.Mark.C12_tail_counterexample",
    "Nature.ArenaBits.C12_crossing_counterexample"
   ],
   "note": "For every finite well-formed heap, root set and service order: no run is infinite, no assertion fails, and at the end marked = reachable. Missing: objects crossing an arena boundary and addresses in the unused tail of a span, for which the claim is false (counterexamples)."
  },
  {
   "property": "C08",
   "status": "proved",
   "theorems": [
    "Nature.GcBits.C08_disjoint",
    "Nature.GcBits.C08_live_disjoint",
    "Nature.GcBits.C08_room",
    "Nature.GcBits.C08_zeroed",
    "Nature.GcBits.C08_no_abort"
   ],
   "note": "Every interleaving of any number of threads, one shared-memory access per step, with epoch changes while no thread is inside (the world is stopped) and writes of the owners."
  },
  {
   "property": "C13",
   "status": "partial",
   "theorems": [
    "Nature.ConcGc.C13_partial",
    "Nature.ConcGc.C13_load_delete_counterexample",
    "Nature.ConcGc.C13_channel_counterexample",
    "Nature.ConcGc.C13_direct_send_counterexample"
   ],
   "note": "The property is false (three runs from a start state). Proved for every run without the excluded events: overwriting a pointer to a white object, channel sends by a coroutine whose stack is not yet scanned (into a buffer or to a scanned coroutine), racing stores to one slot."
  },
  {
   "property": "C25",
   "status": "partial",
   "theorems": [
    "Nature.Queue.C25_queue",
    "Nature.Queue.C25_run",
    "Nature.Queue.C25_progress",
    "Nature.Queue.C25_fifo",
    "Nature.Queue.C25_walk",
    "Nature.Linkco.C25_wait_wf",
    "Nature.Linkco.C25_acquire",
    "Nature.Linkco.C25_release",
    "Nature.Linkco.C25_list_push",
    "Nature.Linkco.C25_list_pushHead",
    "Nature.Linkco.C25_list_pop",
    "Nature.Linkco.C25_list_pop_empty",
    "Nature.Linkco.C25_wait_push",
    "Nature.Linkco.C25_wait_pop",
    "Nature.Linkco.C25_wait_pop_empty",
    "Nature.Linkco.C25_wait_remove",
    "Nature.Linkco.C25_wait_remove_gone",
    "Nature.Linkco.C25_list_remove_partial",
    "Nature.Linkco.C25_list_remove_counterexample"
   ],
   "note": "rt_linked.h completely, for every history and every interleaving of atomic operations; waiter lists, channel wait queues and the linkco caches for every reachable state. Missing: linkco_list_remove, which nothing calls, aborts on any list of two or more entries (counterexample)."
  },
  {
   "property": "C49",
   "status": "partial",
   "theorems": [
    "Nature.BufIo.C49_bytes_partial",
    "Nature.BufIo.C49_read",
    "Nature.BufIo.C49_until",
    "Nature.BufIo.C49_exact",
    "Nature.BufIo.C49_slice_counterexample",
    "Nature.BufIo.C49_empty_counterexample"
   ],
   "note": "No byte lost, repeated or invented over every sequence of calls on every underlying reader that stores no more than asked; false: the slice read_until returns changes under later calls, and reading into an empty slice marks the input as ended."
  },
  {
   "property": "C50",
   "status": "partial",
   "theorems": [
    "Nature.BufIo.C50_lines_partial",
    "Nature.BufIo.C50_lines_spec",
    "Nature.BufIo.C50_long_counterexample",
    "Nature.BufIo.C50_error_counterexample"
   ],
   "note": "Every text, chunking and way of ending, for lines no longer than the buffer; longer lines are cut (for every buffer size), and any error of the underlying reader is reported as the end."
  },
  {
   "property": "C51",
   "status": "partial",
   "theorems": [
    "Nature.BufIo.C51_bytes_partial",
    "Nature.BufIo.C51_flush",
    "Nature.BufIo.C51_no_panic",
    "Nature.BufIo.C51_ends",
    "Nature.BufIo.C51_zero_counterexample"
   ],
   "note": "Every sequence of calls on every underlying writer, with short writes and failures; termination only if the underlying writer makes progress (otherwise flush never returns: counterexample)."
  },
  {
   "property": "C52",
   "status": "partial",
   "theorems": [
    "Nature.Fmt.C52_itos_partial",
    "Nature.Fmt.C52_unsigned",
    "Nature.Fmt.C52_injective",
    "Nature.Fmt.C52_min_counterexample",
    "Nature.Fmt.C52_min64_counterexample",
    "Nature.Fmt.C52_zero_counterexample"
   ],
   "note": "All integers of up to 64 bits but the smallest signed value; the code prints that one, and zero padded with blanks, wrongly."
  },
  {
   "property": "C53",
   "status": "partial",
   "theorems": [
    "Nature.Fmt.C53_sprintf_partial",
    "Nature.Fmt.C53_literal",
    "Nature.Fmt.C53_end_counterexample",
    "Nature.Fmt.C53_width_counterexample"
   ],
   "note": "Formats made of whole directives; the text of floats is a parameter. Formats that end inside a directive read out of range, widths wrap at 256."
  },
  {
   "property": "C54",
   "status": "partial",
   "theorems": [
    "Nature.Fmt.C54_sscanf_partial",
    "Nature.Fmt.C54_roundtrip_partial",
    "Nature.Fmt.C54_count",
    "Nature.Fmt.C54_overflow_counterexample",
    "Nature.Fmt.C54_word_counterexample"
   ],
   "note": "Layouts of %d, %x and %s without widths; floats are a parameter."
  },
  {
   "property": "C55",
   "status": "proved",
   "theorems": [
    "Nature.Json.C55_parse",
    "Nature.Json.C55_unique",
    "Nature.Json.C55_throws"
   ],
   "note": "Exact characterisation of what json.parse accepts and returns, for all byte strings."
  },
  {
   "property": "C56",
   "status": "proved",
   "theorems": [
    "Nature.Json.C56_roundtrip",
    "Nature.Json.C56_reparse",
    "Nature.Json.C56_string",
    "Nature.Json.C56_utf8"
   ],
   "note": "For dynamic values. Typed values are C58."
  },
  {
   "property": "C57",
   "status": "proved",
   "theorems": [
    "Nature.Json.C57_chunks",
    "Nature.Json.C57_complete",
    "Nature.Json.C57_value",
    "Nature.Json.C57_throws",
    "Nature.Json.C57_sound",
    "Nature.Json.C57_open_end"
   ],
   "note": "C57_open_end: a number at the very end of the input is never reported complete, as there is no call to end the input."
  },
  {
   "property": "C58",
   "status": "partial",
   "theorems": [
    "Nature.Json.C58_roundtrip_partial",
    "Nature.Json.C58_full_counterexample",
    "Nature.Json.C58_large_counterexample",
    "Nature.Json.C58_nested_counterexample",
    "Nature.Json.C58_grow_counterexample",
    "Nature.Json.C58_map_counterexample",
    "Nature.Json.C58_null_counterexample",
    "Nature.Json.C58_last_counterexample"
   ],
   "note": "Round trip proved for all values of all types without containers inside containers, integers up to 2^53, given that f64 is exact up to 2^53 (instance shown). The full claim is refuted: nested containers, large integers and nullable elements go wrong. Floats, any and enums are not modelled."
  },
  {
   "property": "C59",
   "status": "partial",
   "theorems": [
    "Nature.TypeLayout.C59_describes_partial",
    "Nature.TypeLayout.C59_heap_partial",
    "Nature.TypeLayout.C59_noscan_partial",
    "Nature.TypeLayout.C59_global_partial",
    "Nature.TypeLayout.C59_any_counterexample",
    "Nature.TypeLayout.C59_large_counterexample",
    "Nature.TypeLayout.C59_counterexample"
   ],
   "note": "Every type except any on its own and structs of 64 KiB or more on their own, where the code is wrong. fn and chan are plain pointers; the heap cells of channels and closures are not described."
  },
  {
   "property": "C60",
   "status": "proved",
   "theorems": [
    "Nature.TypeLayout.C60_layout",
    "Nature.TypeLayout.C60_fields",
    "Nature.TypeLayout.C60_headers"
   ],
   "note": "Every list of fields. Sizes are natural numbers: no 64-bit overflow."
  },
  {
   "property": "C61",
   "status": "proved",
   "theorems": [
    "Nature.Ssa.C61_dominators",
    "Nature.Ssa.C61_terminates",
    "Nature.Ssa.C61_immediate"
   ],
   "note": "Every graph in which all blocks are reachable and nothing leads back to the entry; up to 65535 blocks (the size of the counter array)."
  },
  {
   "property": "C62",
   "status": "partial",
   "theorems": [
    "Nature.Ssa.C62_exact",
    "Nature.Ssa.C62_terminates_partial",
    "Nature.Ssa.C62_endless",
    "Nature.Ssa.C62_endless_counterexample"
   ],
   "note": "Exact whenever the analysis ends; it ends if fewer than 256 variables are shared between blocks, and never ends if 256 variables are live at the beginning of a block."
  },
  {
   "property": "C63",
   "status": "partial",
   "theorems": [
    "Nature.Ssa.C63_same_partial",
    "Nature.Ssa.C63_counterexample"
   ],
   "note": "Simulation for every meaning of the operations, if every variable written in two blocks has a phi function somewhere; false otherwise (wrong name after an early return)."
  },
  {
   "property": "C64",
   "status": "partial",
   "theorems": [
    "Nature.Ssa.C64_once_partial",
    "Nature.Ssa.C64_succeeds_partial",
    "Nature.Ssa.C64_repeat_counterexample",
    "Nature.Ssa.C64_abort_counterexample"
   ],
   "note": "Up to 128 (once) or 127 (succeeds) definitions per variable; false beyond."
  },
  {
   "property": "C65",
   "status": "proved",
   "theorems": [
    "Nature.Cfg.C65_same",
    "Nature.Cfg.C65_succeeds"
   ],
   "note": "Every code with distinct labels. The states may contain the whole history, so traces agree as well."
  },
  {
   "property": "C66",
   "status": "partial",
   "theorems": [
    "Nature.Cfg.C66_consistent",
    "Nature.Cfg.C66_critical_partial",
    "Nature.Cfg.C66_critical_counterexample"
   ],
   "note": "All but the last clause holds for every code; which critical edges remain is characterised exactly, and one does remain for a match case with two conditions."
  },
  {
   "property": "C67",
   "status": "partial",
   "theorems": [
    "Nature.Cfg.C67_return",
    "Nature.Cfg.C67_match_partial",
    "Nature.Cfg.C67_return_after_counterexample",
    "Nature.Cfg.C67_nested_counterexample"
   ],
   "note": "Exact for returns. For match results only: what is reported is missing. The other direction is false."
  },
  {
   "property": "C68",
   "status": "partial",
   "theorems": [
    "Nature.Scan.C68_word_partial",
    "Nature.Scan.C68_keywords",
    "Nature.Scan.C68_counterexample"
   ],
   "note": "Exact table for all words: right for all but eleven names, which are read as keywords."
  },
  {
   "property": "C69",
   "status": "partial",
   "theorems": [
    "Nature.Scan.C69_string",
    "Nature.Scan.C69_all",
    "Nature.Scan.C69_break",
    "Nature.Scan.C69_counterexample"
   ],
   "note": "All literals and all byte texts; a literal that is not closed at the end of the text is not reported, but reads after the text."
  },
  {
   "property": "C70",
   "status": "partial",
   "theorems": [
    "Nature.Scan.C70_tokens_partial",
    "Nature.Scan.C70_ends_partial",
    "Nature.Scan.C70_open_comment",
    "Nature.Scan.C69_counterexample"
   ],
   "note": "All sources without the eleven words of C68; termination on every text; no read after the text if it ends with a line break and has no raw string (false otherwise). Line and column numbers are not modelled."
  },
  {
   "property": "C71",
   "status": "partial",
   "theorems": [
    "Nature.Parse.C71_reads_partial",
    "Nature.Parse.C71_unique",
    "Nature.Parse.C71_two_operators",
    "Nature.Parse.C71_counterexample"
   ],
   "note": "All literals, names, operators, conditionals, casts to basic types, selections, indices, slices, calls, parentheses and tuples. Closures, struct/vector/map values, is, catch, match, macros, new, go and type arguments are not modelled. `a < b >> 1` aborts the compiler."
  },
  {
   "property": "C72",
   "status": "partial",
   "theorems": [
    "Nature.Parse.C72_ends_partial",
    "Nature.Parse.C72_counterexample"
   ],
   "note": "For all token sequences in which no `!` or `~` follows an expression and no `<` looks like type arguments; false otherwise. Unmodelled kinds of expressions count as an outcome of their own."
  },
  {
   "property": "C73",
   "status": "partial",
   "theorems": [
    "Nature.Literal.C73_value",
    "Nature.Literal.C73_source",
    "Nature.Literal.C73_reported_partial",
    "Nature.Literal.C73_large_counterexample",
    "Nature.Literal.C73_zero_counterexample"
   ],
   "note": "Every literal without leading zeros that is in range, for every integer type; out of range is reported for all types below 64 bits and never for int and uint. Leading zeros: checked as decimal, compiled as octal. Float literals are not modelled."
  },
  {
   "property": "C74",
   "status": "partial",
   "theorems": [
    "Nature.Literal.C74_value",
    "Nature.Literal.C74_run_partial",
    "Nature.Literal.C74_survives",
    "Nature.Literal.C74_strings_partial",
    "Nature.Literal.C74_trap_counterexample",
    "Nature.Literal.C74_value_counterexample",
    "Nature.Literal.C74_strings_counterexample"
   ],
   "note": "Every expression of ints, bools and strings: exact value if all parts fit into 64 bits, same execution for all values of the variables if the compiler survives. Float arithmetic is a parameter. Overflow, unsigned operands, leading zeros and zero characters go wrong."
  },
  {
   "property": "C75",
   "status": "partial",
   "theorems": [
    "Nature.Amd64.C75_encodes_partial",
    "Nature.Amd64.C75_bytes",
    "Nature.Amd64.C75_lea_drops_displacement_counterexample",
    "Nature.Amd64.C75_r12_base_counterexample",
    "Nature.Amd64.C75_add_memory_byte_counterexample",
    "Nature.Amd64.C75_shift_count_counterexample",
    "Nature.Amd64.C75_xmm8_clears_xmm0_counterexample",
    "Nature.Amd64.C75_xor_memory_counterexample",
    "Nature.Amd64.C75_high_byte_counterexample"
   ],
   "note": "Every request except the seven kinds that are encoded wrongly; each exclusion has a counterexample. VEX encoding is not modelled: no registered row uses it."
  },
  {
   "property": "C76",
   "status": "partial",
   "theorems": [
    "Nature.Branch.C76_branches_partial",
    "Nature.Branch.C76_references_partial",
    "Nature.Branch.C76_self_jump_counterexample",
    "Nature.Branch.C76_call_after_reference_counterexample"
   ],
   "note": "Every module text made of labels, branches, references and other instructions. A branch to its own address and a branch to a symbol referenced earlier while its label is not yet known are excluded; both have a counterexample. The linker's part is taken as symbol plus addend minus place."
  },
  {
   "property": "C77",
   "status": "partial",
   "theorems": [
    "Nature.Linear.C77_compiled_control_flow_partial",
    "Nature.Linear.C77_compiler_diverges_counterexample",
    "Nature.Linear.C77_return_variable_counterexample",
    "Nature.Linear.C77_operand_order_counterexample",
    "Nature.Linear.C77_if_nan_counterexample",
    "Nature.Linear.C77_error_pending_in_defer_counterexample",
    "Nature.Linear.C77_match_in_defer_counterexample",
    "Nature.Linear.C77_catch_default_counterexample"
   ],
   "note": "Every function of the modelled language that meets goodB; each condition of goodB excludes programs shown to go wrong. Assumes the compiler accepts the function. Aggregates, closures, select, for-in and memory operators are not modelled."
  },
  {
   "property": "C78",
   "status": "partial",
   "theorems": [
    "Nature.Linear.C78_defer_runs_once_partial",
    "Nature.Linear.C78_failing_defer_skips_others_counterexample"
   ],
   "note": "As C77, for a deferred call that cannot fail; a fatal run time check outside a try ends the process without running deferred blocks."
  },
  {
   "property": "C79",
   "status": "partial",
   "theorems": [
    "Nature.Abi.C79_sysv_partial",
    "Nature.Abi.C79_windows_partial",
    "Nature.Abi.C79_arm64_partial",
    "Nature.Abi.C79_arm64_floats_counterexample",
    "Nature.Abi.C79_arm64_struct_counterexample",
    "Nature.Abi.C79_arm64_abort_counterexample",
    "Nature.Abi.C79_riscv64_partial",
    "Nature.Abi.C79_riscv64_bounds_counterexample",
    "Nature.Abi.C79_riscv64_empty_counterexample"
   ],
   "note": "Both amd64 conventions, every signature. arm64: every signature but those in which a floating point number or a struct of other than 9 to 16 bytes goes to the stack (each refuted), or with an empty struct. riscv64: every signature without empty structs, structs of 65536 bytes or more, and some structs of up to 16 bytes with arrays in them (refuted); of structs the bytes in fields, not the padding."
  },
  {
   "property": "C80",
   "status": "partial",
   "theorems": [
    "Nature.Abi.C80_sysv_partial",
    "Nature.Abi.C80_windows_partial",
    "Nature.Abi.C80_arm64_partial",
    "Nature.Abi.C80_arm64_array_counterexample",
    "Nature.Abi.C80_riscv64_partial",
    "Nature.Abi.C80_riscv64_mixed_counterexample",
    "Nature.Abi.C80_riscv64_array_counterexample",
    "Nature.Abi.C80_riscv64_size_counterexample"
   ],
   "note": "Both amd64 conventions, every result type. arm64: every result type but an array of up to 16 bytes (refuted). riscv64: every result but arrays of up to 16 bytes, objects of 256 bytes or more and structs of a float and then an integer (each refuted), and some small structs with arrays in them."
  },
  {
   "property": "C81",
   "status": "partial",
   "theorems": [
    "Nature.Abi.C81_classes_partial",
    "Nature.Abi.C81_windows_params_partial",
    "Nature.Abi.C81_windows_args_partial",
    "Nature.Abi.C81_windows_result_partial",
    "Nature.Abi.C81_array_counterexample",
    "Nature.Abi.C81_result_counterexample",
    "Nature.Abi.C81_result2_counterexample"
   ],
   "note": "Classes for all types without arrays inside; places of all parameters, arguments and results for the Microsoft convention (no array parameters); false for arrays in structs, and false for the registers of results of mixed classes."
  },
  {
   "property": "C82",
   "status": "partial",
   "theorems": [
    "Nature.Consts.C82_constants_partial",
    "Nature.Consts.C82_globals",
    "Nature.Consts.C82_arm64_immediate",
    "Nature.Consts.C82_arm64_immediate_all",
    "Nature.Consts.C82_string_counterexample",
    "Nature.Consts.C82_string_end_counterexample",
    "Nature.Consts.C82_zero_counterexample",
    "Nature.Consts.C82_zero_width_counterexample"
   ],
   "note": "Every module whose strings have no zero byte and in which no 64 bit number has the bits of a 32 bit number of the module; false otherwise. The ELF data section; register allocation of the loaded numbers is not modelled."
  },
  {
   "property": "C83",
   "status": "proved",
   "theorems": [
    "Nature.Table.C83_table"
   ],
   "note": "Every sequence of operations and every hash function. Sizes are unbounded numbers (the code has int)."
  },
  {
   "property": "C84",
   "status": "partial",
   "theorems": [
    "Nature.Sched.C84_permutation",
    "Nature.Sched.C84_partial",
    "Nature.Sched.C84_global_counterexample",
    "Nature.Sched.C84_byte_rem_counterexample",
    "Nature.Sched.C84_register_counterexample"
   ],
   "note": "Proved for every block: scheduling ends, gives a permutation, and fixed instructions stay in place with nothing moved across them. The same final state for every meaning of instructions, for blocks whose segments meet three stated conditions; on amd64 global variables and remainders of bytes do not, and there it is refuted. Missing: the moment of a trap among other effects."
  },
  {
   "property": "C85",
   "status": "partial",
   "theorems": [
    "Nature.Arith.C85_amd64_partial",
    "Nature.Arith.C85_arm64_partial",
    "Nature.Arith.C85_riscv64_partial",
    "Nature.Arith.C85_amd64_quotient_counterexample",
    "Nature.Arith.C85_amd64_trap_counterexample",
    "Nature.Arith.C85_arm64_compare_counterexample",
    "Nature.Arith.C85_arm64_extend_counterexample",
    "Nature.Arith.C85_arm64_literal_counterexample",
    "Nature.Arith.C85_arm64_least_counterexample",
    "Nature.Arith.C85_riscv64_compare_counterexample",
    "Nature.Arith.C85_riscv64_bound_counterexample",
    "Nature.Arith.C85_riscv64_literal_counterexample"
   ],
   "note": "All expressions of any depth; the excluded expressions are those the counterexamples show to be wrong (signed division of negative numbers on amd64; operands whose upper bits are not an extension, and some literals, on arm64 and riscv64) and bool as 8-bit integers on amd64. Floats, memory operands and register allocation are not part of this model."
  },
  {
   "property": "C86",
   "status": "partial",
   "theorems": [
    "Nature.Riscv.C86_encodes_partial",
    "Nature.Riscv.C86_reading_unique",
    "Nature.Riscv.C86_refuses_partial",
    "Nature.Riscv.C86_store_word_counterexample",
    "Nature.Riscv.C86_add_zero_counterexample",
    "Nature.Riscv.C86_load_sp_counterexample",
    "Nature.Riscv.C86_call_counterexample",
    "Nature.Riscv.C86_reserved_counterexample"
   ],
   "note": "Every request with existing registers and fitting numbers, except the kinds listed in Supported, each of which is encoded wrongly (counterexamples). Choosing an instruction by name and operands (riscv64_match_opcode) and the linker's la/lui/addi forms are not modelled."
  },
  {
   "property": "C87",
   "status": "partial",
   "theorems": [
    "Nature.Alloc.C87_homes_partial",
    "Nature.Alloc.C87_registers_partial",
    "Nature.Alloc.C87_slots_partial",
    "Nature.Alloc.C87_operands_partial",
    "Nature.Alloc.C87_reads_partial",
    "Nature.Alloc.C87_moves_partial",
    "Nature.Alloc.C87_no_stray_moves_partial",
    "Nature.Alloc.C87_loop_counterexample"
   ],
   "note": "Proved for every function in which no split is moved out of a loop (no loops, or the innermost loop has a call) and every variable without a preset register. False in loops without calls: two live variables can share a register (C87_loop_counterexample). Missing: variables with a preset register, operands that define a variable again, the construction of live ranges (C38, C62) and the moves on block edges (C36, C37)."
  },
  {
   "property": "C88",
   "status": "partial",
   "theorems": [
    "Nature.Alloc.C88_straight_line_partial",
    "Nature.Alloc.C88_late_split_counterexample"
   ],
   "note": "Simulation for every straight-line stretch, built on C87, for results in which no move needs what the operation before it overwrites (Calm). False without it: a save can follow the call that destroys its source (C88_late_split_counterexample). Missing: jumps (C37), splits moved out of loops, preset registers, constants that are computed again."
  },
  {
   "property": "C89",
   "status": "partial",
   "theorems": [
    "Nature.Arm64.C89_encodes_partial",
    "Nature.Arm64.C89_words_differ_partial",
    "Nature.Arm64.C89_refuses_partial",
    "Nature.Arm64.C89_mov_immediate_counterexample",
    "Nature.Arm64.C89_compare_stack_pointer_counterexample",
    "Nature.Arm64.C89_mvn_counterexample",
    "Nature.Arm64.C89_load_signed_half_counterexample",
    "Nature.Arm64.C89_load_byte_counterexample",
    "Nature.Arm64.C89_load_signed_byte_counterexample",
    "Nature.Arm64.C89_unaligned_offset_counterexample",
    "Nature.Arm64.C89_store_symbol_counterexample",
    "Nature.Arm64.C89_pair32_counterexample",
    "Nature.Arm64.C89_float_pair32_counterexample",
    "Nature.Arm64.C89_float_index_counterexample",
    "Nature.Arm64.C89_accepts_nonsense_counterexample"
   ],
   "note": "Every legal instruction with any registers and numbers, except the kinds listed in Supported, which are encoded wrongly (counterexamples) or refused (large positive load and store offsets). Faults and the linker's filling in of symbol addresses are not modelled."
  },
  {
   "property": "C90",
   "status": "partial",
   "theorems": [
    "Nature.Types.C90_accepts_partial",
    "Nature.Types.C90_same_partial",
    "Nature.Types.C90_sound_partial",
    "Nature.Types.C90_interface_counterexample",
    "Nature.Types.C90_second_union_counterexample",
    "Nature.Types.C90_recursive_counterexample",
    "Nature.Types.C90_vector_counterexample",
    "Nature.Types.C90_function_counterexample",
    "Nature.Types.C90_null_counterexample",
    "Nature.Types.C90_alternative_counterexample",
    "Nature.Types.C90_nullable_interface_counterexample"
   ],
   "note": "Everything that may be put somewhere is accepted, except values that have the nullable interface type already. What is accepted may be put there if only the outermost part of the expected type is a union, ptr, interface or wild card; the counterexamples show that the code does not do better. Literals whose type is taken from the target, and the check of method signatures against an interface, are not modelled."
  },
  {
   "property": "C91",
   "status": "partial",
   "theorems": [
    "Nature.Types.C91_hash_partial",
    "Nature.Types.C91_union_partial",
    "Nature.Types.C91_union_sound_partial",
    "Nature.Types.C91_room_partial",
    "Nature.Types.C91_any_partial",
    "Nature.Types.C91_union_any_partial",
    "Nature.Types.C91_interface_partial",
    "Nature.Types.C91_tag_partial",
    "Nature.Types.C91_clash_counterexample",
    "Nature.Types.C91_tag_counterexample",
    "Nature.Types.C91_errable_counterexample",
    "Nature.Types.C91_rest_counterexample",
    "Nature.Types.C91_order_counterexample",
    "Nature.Types.C91_empty_counterexample",
    "Nature.Types.C91_fx_counterexample"
   ],
   "note": "For programs no two types of which clash in the 32-bit hash, without functions that can fail or are variadic: recognition is exact and the value comes back for types without unions inside; with unions inside, what is recognised is right. The counterexamples show that each restriction is needed. The payload of tagged unions, interface methods, and the emission of the calls by the compiler are not modelled."
  },
  {
   "property": "C92",
   "status": "partial",
   "theorems": [
    "Nature.Arena.C92_sound_partial",
    "Nature.Arena.C92_given_back_partial",
    "Nature.Arena.C92_succeeds_partial",
    "Nature.Arena.C92_overflow_counterexample"
   ],
   "note": "For allocations of less than 2^62 bytes; larger ones overflow, as the counterexample shows. The copy of the value in arena_t.new is not modelled."
  },
  {
   "property": "C93",
   "status": "proved",
   "theorems": [
    "Nature.Merge.C93_covered",
    "Nature.Merge.C93_unchanged",
    "Nature.Merge.C93_reference",
    "Nature.Merge.C93_only",
    "Nature.Merge.C93_accepted"
   ],
   "note": "Failures for lack of memory are left out. A relocation selects the byte value + addend of the section, as the code does; a pc-relative relocation against a section symbol whose addend includes the distance to the end of the instruction (which assemblers avoid for mergeable sections) would select another byte."
  },
  {
   "property": "C94",
   "status": "proved",
   "theorems": [
    "Nature.Relax.C94_code",
    "Nature.Relax.C94_order",
    "Nature.Relax.C94_aligned",
    "Nature.Relax.C94_nothing_else",
    "Nature.Relax.C94_range",
    "Nature.Relax.C94_accepted"
   ],
   "note": "Failures for lack of memory are left out. That the linker's relocation code uses the map for every offset is not modelled."
  },
  {
   "property": "C95",
   "status": "partial",
   "theorems": [
    "Nature.Reloc.Rv.C95_applied_partial",
    "Nature.Reloc.Rv.C95_high_counterexample",
    "Nature.Reloc.Rv.C95_accepted",
    "Nature.Reloc.Rv.C95_pcrel_pair_partial",
    "Nature.Reloc.Rv.C95_absolute_pair_partial",
    "Nature.Reloc.Rv.C95_align",
    "Nature.Reloc.Rv.C95_unknown"
   ],
   "note": "False for high parts and calls at distances from 2^31 - 2048 to 2^31 - 1, where the code accepts and writes a wrong value. ULEB128 relocations are C-level subject of another property and not part of this one."
  },
  {
   "property": "C96",
   "status": "partial",
   "theorems": [
    "Nature.Reloc.Arm.C96_applied_partial",
    "Nature.Reloc.Arm.C96_accepted_partial",
    "Nature.Reloc.Arm.C96_unknown",
    "Nature.Reloc.Arm.C96_page_pair",
    "Nature.Reloc.Arm.C96_got_pair",
    "Nature.Reloc.Arm.C96_move_quad",
    "Nature.Reloc.Arm.C96_thread_pair_partial",
    "Nature.Reloc.Arm.C96_negative_counterexample",
    "Nature.Reloc.Arm.C96_high_counterexample",
    "Nature.Reloc.Arm.C96_descriptor_counterexample",
    "Nature.Reloc.Arm.C96_absolute_counterexample"
   ],
   "note": "False for negative thread offsets in ADD_TPREL_HI12 and TLS descriptor calls (accepted, wrong value) and for some values the ABI allows (refused)."
  },
  {
   "property": "C97",
   "status": "partial",
   "theorems": [
    "Nature.Reloc.X86.C97_applied",
    "Nature.Reloc.X86.C97_accepted_partial",
    "Nature.Reloc.X86.C97_unknown",
    "Nature.Reloc.X86.C97_call_reaches",
    "Nature.Reloc.X86.C97_small_counterexample"
   ],
   "note": "What is applied is right; acceptance is proved except for small data the code refuses although it fits and for 64-bit differences that wrap."
  },
  {
   "property": "C98",
   "status": "partial",
   "theorems": [
    "Nature.Reloc.X86.C98_general_dynamic",
    "Nature.Reloc.X86.C98_local_dynamic",
    "Nature.Reloc.X86.C98_local_dynamic_offset",
    "Nature.Reloc.X86.C98_descriptor",
    "Nature.Reloc.X86.C98_initial_exec",
    "Nature.Reloc.X86.C98_got_partial",
    "Nature.Reloc.X86.C98_planned",
    "Nature.Reloc.X86.C98_pair",
    "Nature.Reloc.X86.C98_pairing",
    "Nature.Reloc.X86.C98_addend_counterexample"
   ],
   "note": "False for GOTPCRELX with an addend other than -4, which the code does not check. Whether a symbol may be relaxed at all and mapping of offsets are not modelled."
  },
  {
   "property": "C99",
   "status": "proved",
   "theorems": [
    "Nature.Reloc.Thunk.C99_reaches",
    "Nature.Reloc.Thunk.C99_converges",
    "Nature.Reloc.Thunk.C99_layout",
    "Nature.Reloc.Thunk.C99_rest",
    "Nature.Reloc.Thunk.C99_needed"
   ],
   "note": "About successful links: that a link succeeds whenever possible is not claimed. Symbol values and the layout of the other sections are arbitrary functions of the layout of the code."
  },
  {
   "property": "C100",
   "status": "partial",
   "theorems": [
    "Nature.Peephole.C100_arm_pass",
    "Nature.Peephole.C100_arm_block_partial",
    "Nature.Peephole.C100_amd_block",
    "Nature.Peephole.C100_arm_counterexample",
    "Nature.Peephole.C100_float_counterexample"
   ],
   "note": "Full for amd64 blocks and for one arm64 pass on integers. All arm64 passes together only without multiplications by the constant two, where the code is wrong; floating point multiplication is excluded on arm64 (contraction)."
  },
  {
   "property": "C101",
   "status": "proved",
   "theorems": [
    "Nature.Sha.C101_digest",
    "Nature.Sha.C101_one_shot",
    "Nature.Sha.C101_pieces",
    "Nature.Sha.C101_spec_unique"
   ],
   "note": "All pieces and lengths. The length field is taken modulo 2^64 bits, beyond which the standard defines no digest."
  },
  {
   "property": "C102",
   "status": "partial",
   "theorems": [
    "Nature.Global.C102_value_partial",
    "Nature.Global.C102_frame",
    "Nature.Global.C102_reported",
    "Nature.Global.C102_nested_counterexample",
    "Nature.Global.C102_any_counterexample",
    "Nature.Global.C102_cast_counterexample"
   ],
   "note": "Proved for types without nullable parts (the variable itself may be nullable) and casts of numbers below 2^63; false otherwise (counterexamples). Enumerations, fn, chan, ref and reflection hashes are not modelled."
  },
  {
   "property": "C103",
   "status": "proved",
   "theorems": [
    "Nature.Inflate.C103_exact",
    "Nature.Inflate.C103_safe",
    "Nature.Inflate.C103_unique"
   ],
   "note": "Allocation is assumed to succeed; the reading of the section header (ld_elf_input.c) is not modelled."
  },
  {
   "property": "C104",
   "status": "partial",
   "theorems": [
    "Nature.Capture.C104_reads_partial",
    "Nature.Capture.C104_captures_partial",
    "Nature.Capture.C104_heap_partial",
    "Nature.Capture.C104_accepts_partial",
    "Nature.Capture.C104_int8_counterexample",
    "Nature.Capture.C104_wrap_counterexample",
    "Nature.Capture.C104_lambda_counterexample",
    "Nature.Capture.C104_lambda_refused_counterexample",
    "Nature.Capture.C104_const_counterexample",
    "Nature.Capture.C104_const_twice_counterexample",
    "Nature.Capture.C104_params_counterexample",
    "Nature.Capture.C104_depth_counterexample"
   ],
   "note": "Proved for programs without the name lambda and without constants declared in functions, with function literals that capture at most 128 variables and blocks nested less than 255 deep; outside of these the property fails. Global names, imports and type names are not modelled."
  },
  {
   "property": "C105",
   "status": "proved",
   "theorems": [
    "Nature.Blowfish.C105_encrypt",
    "Nature.Blowfish.C105_decrypt",
    "Nature.Blowfish.C105_inverse",
    "Nature.Blowfish.C105_schedule",
    "Nature.Blowfish.C105_salted",
    "Nature.Blowfish.C105_expand"
   ],
   "note": "The tables of initial values are parameters of the model; that they are the digits of pi is not part of the theorems. Blocks and destinations have eight bytes."
  },
  {
   "property": "C106",
   "status": "partial",
   "theorems": [
    "Nature.Bcrypt.C106_hash",
    "Nature.Bcrypt.C106_refused",
    "Nature.Bcrypt.C106_verify",
    "Nature.Bcrypt.C106_roundtrip",
    "Nature.Bcrypt.C106_other_partial",
    "Nature.Bcrypt.C106_long_counterexample",
    "Nature.Bcrypt.C106_zero_counterexample",
    "Nature.Bcrypt.C106_salt_counterexample"
   ],
   "note": "That other passwords fail is proved up to equality of the 23-byte digests; it fails for continuations of 72-byte passwords. Salts of the same second are equal. The tables of initial values and the random numbers are parameters."
  },
  {
   "property": "C107",
   "status": "partial",
   "theorems": [
    "Nature.Archive.C107_gnu_partial",
    "Nature.Archive.C107_bsd_partial",
    "Nature.Archive.C107_thin",
    "Nature.Archive.C107_path",
    "Nature.Archive.C107_inside",
    "Nature.Archive.C107_hash_counterexample",
    "Nature.Archive.C107_symdef_counterexample",
    "Nature.Archive.C107_index_counterexample"
   ],
   "note": "False for members named #1 or with short names that begin with __.SYMDEF, and for the index of BSD archives. Opening the files of thin archives and parsing the objects are not modelled here."
  },
  {
   "property": "C108",
   "status": "partial",
   "theorems": [
    "Nature.Link.C108_objects_partial",
    "Nature.Link.C108_definition_partial",
    "Nature.Link.C108_refused",
    "Nature.Link.C108_accepted",
    "Nature.Link.C108_common_counterexample",
    "Nature.Link.C108_needless_counterexample"
   ],
   "note": "False where a weak definition meets a common symbol, and for library members with a common symbol that is already there. Discarded sections and the symbols the linker itself provides are not modelled."
  },
  {
   "property": "C109",
   "status": "proved",
   "theorems": [
    "Nature.Symtab.C109_build",
    "Nature.Symtab.C109_accepted"
   ],
   "note": "Allocation is assumed to succeed."
  },
  {
   "property": "C110",
   "status": "proved",
   "theorems": [
    "Nature.EhHdr.C110_header",
    "Nature.EhHdr.C110_accepted"
   ],
   "note": "qsort is assumed to sort (shown satisfiable by sorts_mergeSort), allocation to succeed."
  },
  {
   "property": "C111",
   "status": "partial",
   "theorems": [
    "Nature.Layout.C111_sections_partial",
    "Nature.Layout.C111_relro_partial",
    "Nature.Layout.C111_ordered_partial",
    "Nature.Layout.C111_jit_counterexample",
    "Nature.Layout.C111_exec_counterexample",
    "Nature.Layout.C111_page_counterexample",
    "Nature.Layout.C111_zero_counterexample",
    "Nature.Layout.C111_align_counterexample"
   ],
   "note": "Proved when alignments divide the image address, no read-only section is zeroed and no contents come after zeroed memory (C111_ordered_partial: which the order of the linker ensures without writable and executable sections); the counterexamples show each restriction is needed. Permissions to execute and the page on which the read-only region begins are wrong in the code (counterexamples). RISC-V relaxation during layout is not modelled."
  },
  {
   "property": "C112",
   "status": "partial",
   "theorems": [
    "Nature.GnuProp.C112_merged_partial",
    "Nature.GnuProp.C112_used_counterexample"
   ],
   "note": "Proved for features, needs, stack size and copy protection; what a program uses is wrong in the code (counterexample). The decoding of note bytes is not modelled."
  },
  {
   "property": "C113",
   "status": "proved",
   "theorems": [
    "Nature.Cie.C113_first"
   ],
   "note": "Equality of the specification is equality of the records of the input."
  },
  {
   "property": "C114",
   "status": "proved",
   "theorems": [
    "Nature.Dynamic.C114_tags",
    "Nature.Dynamic.C114_relocations"
   ],
   "note": "qsort is assumed to sort; the constant tables of a program without symbols are not modelled."
  },
  {
   "property": "C115",
   "status": "proved",
   "theorems": [
    "Nature.Ifunc.C115_stub",
    "Nature.Ifunc.C115_accepted"
   ],
   "note": "The writing of the relocation of the slot is not modelled here (see C114)."
  }
 ]
}