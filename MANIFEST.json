{
 "claims": [
  {
   "property": "C01",
   "status": "proved",
   "theorems": [
    "Verif.Array.array_refines_list",
    "Verif.Array.array_ub_only_out_of_range",
    "Verif.Array.array_sort_contents"
   ],
   "note": "Every history refines the list model; undefined behaviour only for out-of-range calls. qsort is trusted to permute."
  },
  {
   "property": "C02",
   "status": "proved",
   "theorems": [
    "Verif.Array.array_add_atomic",
    "Verif.Array.array_block_matches_capacity",
    "Verif.Array.array_add_succeeds"
   ],
   "note": "For every allocator behaviour."
  },
  {
   "property": "C03",
   "status": "proved",
   "theorems": [
    "Verif.Array.array_foreach_walks"
   ],
   "note": "For every body that does not modify the array, with break."
  },
  {
   "property": "C04",
   "status": "proved",
   "theorems": [
    "Verif.Queue.queue_refines_deque",
    "Verif.Queue.queue_expand_preserves",
    "Verif.Queue.queue_clear_resets"
   ],
   "note": "Every history refines a double-ended list."
  },
  {
   "property": "C05",
   "status": "proved",
   "theorems": [
    "Verif.Queue.queue_foreach_walks"
   ],
   "note": "For every body, with break."
  },
  {
   "property": "C06",
   "status": "partial",
   "theorems": [
    "Verif.Queue.queue_oom_sticky_violated",
    "Verif.Queue.queue_add_fails_only_when_full_partial",
    "Verif.Queue.queue_add_first_fails_only_when_full_partial"
   ],
   "note": "As stated the property is false of the code: the oom flag is sticky (witness theorem). Proved: an add fails only when the ring is full and the allocator fails, and then changes nothing."
  },
  {
   "property": "C07",
   "status": "proved",
   "theorems": [
    "Verif.Heap.heap_refines_priority_queue"
   ],
   "note": "For every history with a working allocator."
  },
  {
   "property": "C08",
   "status": "proved",
   "theorems": [
    "Verif.Heap.heap_drain_sorts"
   ],
   "note": "Heap sort by draining."
  },
  {
   "property": "C09",
   "status": "partial",
   "theorems": [
    "Verif.Heap.heap_failed_add_violated",
    "Verif.Heap.heap_failed_add_pops_garbage_violated",
    "Verif.Heap.heap_failed_add_partial"
   ],
   "note": "False of the code: a failed add leaves size incremented (witnesses). Proved: with room available adds do not fail and after a failed add the stored elements are unchanged."
  },
  {
   "property": "C10",
   "status": "proved",
   "theorems": [
    "Verif.Heap.heap_no_ub",
    "Verif.Heap.heap_refines_priority_queue",
    "Verif.Heap.heap_growth_overflow_defect"
   ],
   "note": "Up to 2^57 elements; beyond that the growth computation overflows (heap_growth_overflow_defect)."
  },
  {
   "property": "C11",
   "status": "proved",
   "theorems": [
    "Verif.Map.map_refines_finite_map"
   ],
   "note": "For every instantiation, hash function, load factor and allocator behaviour, initial capacity up to 2^31."
  },
  {
   "property": "C12",
   "status": "proved",
   "theorems": [
    "Verif.Map.map_size_counts_keys"
   ],
   "note": ""
  },
  {
   "property": "C13",
   "status": "proved",
   "theorems": [
    "Verif.Map.map_calls_terminate",
    "Verif.Map.map_refines_finite_map"
   ],
   "note": "The loops of the model have cap+1 steps of fuel and never run out."
  },
  {
   "property": "C14",
   "status": "proved",
   "theorems": [
    "Verif.Map.map_foreach_visits_each_once"
   ],
   "note": ""
  },
  {
   "property": "C15",
   "status": "proved",
   "theorems": [
    "Verif.Map.map_put_atomic",
    "Verif.Map.map_refines_finite_map"
   ],
   "note": ""
  },
  {
   "property": "C16",
   "status": "partial",
   "theorems": [
    "Verif.Map.map_init_violated",
    "Verif.Map.map_init_partial"
   ],
   "note": "False of the code for capacities above 2^31 (map_init_violated: init succeeds with an empty table and the first get reads out of bounds). Proved for all capacities up to 2^31."
  },
  {
   "property": "C17",
   "status": "proved",
   "theorems": [
    "Verif.Map.map_string_hash_and_eq",
    "Verif.Map.map_string_kind_faithful",
    "Verif.Map.map_string_keys_by_content",
    "Verif.Map.murmur_reference"
   ],
   "note": "Assumes stored key strings are not modified while in the map. murmur_reference: the hash is MurmurHash64A with seed 0."
  },
  {
   "property": "C18",
   "status": "proved",
   "theorems": [
    "Verif.LList.list_refines_sequences",
    "Verif.LList.list_add_moves",
    "Verif.LList.list_add_next_to_itself"
   ],
   "note": "Refinement of the pointer code to a family of sequences, from any initial memory, for every history whose calls respect the API (stated as preconditions in Spec.Step)."
  },
  {
   "property": "C19",
   "status": "proved",
   "theorems": [
    "Verif.LList.list_foreach_safe",
    "Verif.LList.list_foreach_safe_r",
    "Verif.LList.list_foreach_safe_actions"
   ],
   "note": "Both safe loops, every deletion pattern; also bodies that break or move the current element to other lists."
  },
  {
   "property": "C20",
   "status": "proved",
   "theorems": [
    "Verif.LList.list_frame"
   ],
   "note": "Every operation on every reachable memory."
  },
  {
   "property": "C21",
   "status": "proved",
   "theorems": [
    "Verif.LList.list_clear_detaches"
   ],
   "note": "Every reachable memory."
  },
  {
   "property": "C22",
   "status": "proved",
   "theorems": [
    "Verif.Timer.timer_refines_spec",
    "Verif.Timer.timer_fires_once_not_early",
    "Verif.Timer.timer_deadline_wraps_defect"
   ],
   "note": "Every client program, callback and allocator behaviour; deadlines must fit below 2^64-1 (the _defect theorem shows what happens otherwise)."
  },
  {
   "property": "C23",
   "status": "proved",
   "theorems": [
    "Verif.Timer.timer_fires_once_not_early",
    "Verif.Timer.timer_refines_spec"
   ],
   "note": "Every history, with callbacks that add, cancel and clear."
  },
  {
   "property": "C24",
   "status": "proved",
   "theorems": [
    "Verif.Timer.timer_fires_when_swept",
    "Verif.Timer.timer_due_fires_in_a_revolution",
    "Verif.Timer.timer_full_revolution",
    "Verif.Timer.timer_due_not_fired_defect"
   ],
   "note": "A timer with timeout T fires once more than T/16 slots are swept; timer_due_not_fired_defect records that a due timer may miss the first call after its deadline."
  },
  {
   "property": "C25",
   "status": "proved",
   "theorems": [
    "Verif.Timer.timer_ids_unique",
    "Verif.Timer.timer_cancel_defined",
    "Verif.Timer.timer_refines_spec",
    "Verif.Timer.timer_deadline_invalid_defect",
    "Verif.Timer.timer_stale_id_defect"
   ],
   "note": "Ids of pending timers are distinct in every history. Ids are reused after the timer has gone (timer_stale_id_defect)."
  },
  {
   "property": "C26",
   "status": "proved",
   "theorems": [
    "Verif.Timer.timer_hint_bounded"
   ],
   "note": "Every reachable state and time."
  },
  {
   "property": "C27",
   "status": "partial",
   "theorems": [
    "Verif.Str.str_append_partial",
    "Verif.Str.str_append_null",
    "Verif.Str.str_append_violated",
    "Verif.Str.str_append_fmt_partial",
    "Verif.Str.str_append_fmt_violated"
   ],
   "note": "sc_str_append proved for strings up to SC_STR_MAX, and its violation for a longer one; sc_str_append_fmt proved for strings without NUL bytes, and its violation for a string with one."
  },
  {
   "property": "C28",
   "status": "proved",
   "theorems": [
    "Verif.Str.str_create",
    "Verif.Str.str_create_len",
    "Verif.Str.str_create_fmt",
    "Verif.Str.str_len",
    "Verif.Str.str_dup",
    "Verif.Str.str_set",
    "Verif.Str.str_set_fmt",
    "Verif.Str.str_cmp"
   ],
   "note": "All contents and allocator behaviours. vsnprintf is modelled by the text it would produce."
  },
  {
   "property": "C29",
   "status": "partial",
   "theorems": [
    "Verif.Str.str_trim_partial",
    "Verif.Str.trimmed_unique",
    "Verif.Str.str_trim_violated"
   ],
   "note": "Proved for strings without NUL bytes; violation proved for a string that ends in one."
  },
  {
   "property": "C30",
   "status": "proved",
   "theorems": [
    "Verif.Str.str_substring"
   ],
   "note": "All strings, ranges and allocator behaviours."
  },
  {
   "property": "C31",
   "status": "proved",
   "theorems": [
    "Verif.Str.str_replace",
    "Verif.Str.subst_unique"
   ],
   "note": "All strings and non-empty patterns; the part after a NUL byte is kept as it is."
  },
  {
   "property": "C32",
   "status": "partial",
   "theorems": [
    "Verif.Str.str_replace_returns_partial",
    "Verif.Str.str_replace_violated"
   ],
   "note": "Returns unless pattern and replacement are both empty; for these non-termination is proved."
  },
  {
   "property": "C33",
   "status": "proved",
   "theorems": [
    "Verif.Str.str_tokens",
    "Verif.Str.pieces_no_delim",
    "Verif.Str.pieces_joined"
   ],
   "note": "All strings, delimiter sets and numbers of calls."
  },
  {
   "property": "C34",
   "status": "proved",
   "theorems": [
    "Verif.Buf.buf_int_round_trip",
    "Verif.Buf.le_getElem?",
    "Verif.Buf.buf_set_peek",
    "Verif.Buf.buf_message_round_trip"
   ],
   "note": "All widths and values; bool and double are covered as values of buf_message_round_trip (a double is its 64 bits)."
  },
  {
   "property": "C35",
   "status": "proved",
   "theorems": [
    "Verif.Buf.buf_message_round_trip",
    "Verif.Buf.buf_message_read"
   ],
   "note": "Every list of typed values, every allocator behaviour; objects are below 2^62 bytes."
  },
  {
   "property": "C36",
   "status": "partial",
   "theorems": [
    "Verif.Buf.buf_in_range_partial",
    "Verif.Buf.buf_put_text_violated",
    "Verif.Buf.buf_shrink_ref_violated"
   ],
   "note": "Proved for all calls except sc_buf_put_text that fails on a buffer that was read from, and sc_buf_shrink on foreign memory; for these the violation is proved."
  },
  {
   "property": "C37",
   "status": "partial",
   "theorems": [
    "Verif.Buf.buf_get_int_hostile",
    "Verif.Buf.buf_get_data_hostile",
    "Verif.Buf.buf_get_blob_hostile",
    "Verif.Buf.buf_get_str_hostile_partial",
    "Verif.Buf.buf_get_str_violated",
    "Verif.Buf.buf_get_str_unterminated_violated",
    "Verif.Buf.buf_get_blob_violated"
   ],
   "note": "sc_buf_get_str is proved for encoded lengths below 2^62 (and NULL); for lengths near 2^64 and for missing terminators the violation is proved."
  },
  {
   "property": "C38",
   "status": "partial",
   "theorems": [
    "Verif.Buf.buf_err_sticky_partial",
    "Verif.Buf.buf_err_get",
    "Verif.Buf.buf_clear_valid",
    "Verif.Buf.buf_put_fmt_err_violated",
    "Verif.Buf.buf_put_code",
    "Verif.Buf.buf_put_raw_code",
    "Verif.Buf.buf_get_code",
    "Verif.Buf.buf_get_data_code"
   ],
   "note": "put_fmt and put_text write to an invalid buffer (proved violation); everything else is proved."
  },
  {
   "property": "C39",
   "status": "partial",
   "theorems": [
    "Verif.Buf.buf_limit_partial",
    "Verif.Buf.buf_shrink_limit_violated",
    "Verif.Buf.buf_shrink_ref_violated"
   ],
   "note": "Proved for every call but sc_buf_shrink, for which the violation is proved."
  },
  {
   "property": "C40",
   "status": "partial",
   "theorems": [
    "Verif.Buf.buf_compact_keeps",
    "Verif.Buf.buf_shrink_keeps",
    "Verif.Buf.buf_reserve_partial",
    "Verif.Buf.buf_reserve_violated"
   ],
   "note": "sc_buf_reserve proved for lengths below 2^62; near 2^64 the violation is proved."
  },
  {
   "property": "C41",
   "status": "partial",
   "theorems": [
    "Verif.Buf.buf_move_partial",
    "Verif.Buf.buf_move_violated"
   ],
   "note": "Proved for a valid destination; for an invalid one the violation is proved."
  },
  {
   "property": "C42",
   "status": "proved",
   "theorems": [
    "Verif.Buf.buf_len_exact"
   ],
   "note": "Every value."
  },
  {
   "property": "C43",
   "status": "partial",
   "theorems": [
    "Verif.Buf.buf_put_fmt_partial",
    "Verif.Buf.buf_put_text_appends",
    "Verif.Buf.buf_put_fmt_violated",
    "Verif.Buf.buf_put_text_long_violated"
   ],
   "note": "put_fmt proved except in the two cases where it fails to reserve the terminator's byte (proved violation); put_text proved for all texts shorter than INT_MAX; one of INT_MAX characters is undefined behaviour."
  },
  {
   "property": "C44",
   "status": "proved",
   "theorems": [
    "Verif.Crc.crc_correct",
    "Verif.Crc.crc_unique"
   ],
   "note": "All three builds, every length, alignment and starting value, against the polynomial definition of CRC-32C. The CRC instruction is modelled bit by bit."
  },
  {
   "property": "C45",
   "status": "proved",
   "theorems": [
    "Verif.Crc.crc_incremental",
    "Verif.Crc.crc_empty"
   ],
   "note": "Every split, also across builds."
  },
  {
   "property": "C46",
   "status": "proved",
   "theorems": [
    "Verif.Crc.crc_burst"
   ],
   "note": "Every burst of up to 32 bits in every message."
  },
  {
   "property": "C47",
   "status": "proved",
   "theorems": [
    "Verif.Sc.is_pow2_iff",
    "Verif.Sc.to_pow2_least",
    "Verif.Sc.to_pow2_none"
   ],
   "note": "All 2^64 arguments; above 2^63, where no power fits, the result is 0."
  },
  {
   "property": "C48",
   "status": "partial",
   "theorems": [
    "Verif.Sc.size_to_bytes_ok",
    "Verif.Sc.size_to_bytes_overflow",
    "Verif.Sc.size_to_bytes_rejects_partial",
    "Verif.Sc.size_to_bytes_negative_defect",
    "Verif.Sc.size_to_bytes_violated",
    "Verif.Sc.size_to_bytes_long_defect",
    "Verif.Sc.size_to_bytes_doc_defect",
    "Verif.Sc.size_to_bytes_char_defect",
    "Verif.Sc.size_to_bytes_char_violated"
   ],
   "note": "Holds for every string shorter than 2 GiB of bytes below 128 or 255, except that a negative number times its unit below INT64_MIN is a signed overflow (\"-9e\"). A number followed by a byte from 128 to 254 is undefined behaviour: tolower is given a negative char (char is taken to be signed). A suffix of exactly 2^32 characters is accepted. The header's own example \"1 KB\" is rejected."
  },
  {
   "property": "C49",
   "status": "partial",
   "theorems": [
    "Verif.Sc.bytes_to_size_partial",
    "Verif.Sc.bytes_to_size_violated",
    "Verif.Sc.count_exact",
    "Verif.Flt.size_double"
   ],
   "note": "Right unit and 1.00 <= value < 1024.00 for all 2^64 values; the printed value is within half of the last digit plus less than 1/1024 of the unit. Half of the last digit alone is false: 1138687 prints \"1.08 MB\"."
  },
  {
   "property": "C50",
   "status": "partial",
   "theorems": [
    "Verif.Sc.rand_stream_partial",
    "Verif.Sc.rand_read_split",
    "Verif.Sc.rand_table_perm",
    "Verif.Sc.rand_bytes_of_seed",
    "Verif.Sc.rand_rc4_violated"
   ],
   "note": "One stream per seed whatever the read sizes; the table is always a rearrangement of the seed. It is not RC4 with that key and the table is no permutation of the byte values: only bytes of the seed are produced, and a zero seed yields zeros only."
  },
  {
   "property": "C51",
   "status": "partial",
   "theorems": [
    "Verif.Signal.snprintf_partial",
    "Verif.Signal.snprintf_unsupported",
    "Verif.Signal.format_cases",
    "Verif.Signal.log_text",
    "Verif.Signal.snprintf_zero_violated",
    "Verif.Signal.snprintf_unterminated_defect",
    "Verif.Signal.log_unsupported_defect",
    "Verif.Signal.snprintf_zero_partial"
   ],
   "note": "For every format, argument list and size from 1 to 2^31. With size 0 a terminator is written past the buffer. A format with an unsupported conversion leaves the text unterminated, and sc_signal_log then writes memory after the buffer."
  },
  {
   "property": "C52",
   "status": "partial",
   "theorems": [
    "Verif.Signal.snprintf_partial",
    "Verif.Signal.numeral_exact",
    "Verif.Signal.conv_exists",
    "Verif.Signal.snprintf_min_violated"
   ],
   "note": "All values of all types but the least long and long long, whose negation overflows (undefined behaviour)."
  },
  {
   "property": "C53",
   "status": "partial",
   "theorems": [
    "Verif.Signal.shutdown_first",
    "Verif.Signal.shutdown_forced_partial",
    "Verif.Signal.shutdown_bound",
    "Verif.Signal.handler_work",
    "Verif.Signal.handler_progress",
    "Verif.Signal.shutdown_message",
    "Verif.Signal.shutdown_race_violated",
    "Verif.Signal.Win.shutdown_first",
    "Verif.Signal.Win.shutdown_forced_partial",
    "Verif.Signal.Win.other_exits",
    "Verif.Signal.Win.shutdown_message",
    "Verif.Signal.Win.handler_work",
    "Verif.Signal.Win.handler_progress",
    "Verif.Signal.Win.names_ok",
    "Verif.Signal.Win.shutdown_race_violated"
   ],
   "note": "A second signal that arrives after the flag is set ends the process with status 1. If the other shutdown signal arrives between the test and the setting of the flag, both handlers return and two commands are sent; that is the worst case. On Windows each event is handled in a thread of its own, and any number of events that arrive before the flag is set are all taken for the first; events other than Ctrl-C and Ctrl-Break end the process with status 1."
  },
  {
   "property": "C54",
   "status": "partial",
   "theorems": [
    "Verif.Ini.ini_document_partial",
    "Verif.Ini.ini_document_file_partial",
    "Verif.Ini.ini_section_violated",
    "Verif.Ini.ini_key_violated"
   ],
   "note": "For every document of blank lines, comments, headers, items and continued values whose section names and keys have at most 255 bytes and lines at most 1023 (1021 in a file). Longer names are cut, which nothing documents; the witnesses show it."
  },
  {
   "property": "C55",
   "status": "proved",
   "theorems": [
    "Verif.Ini.ini_string",
    "Verif.Ini.ini_file",
    "Verif.Ini.ends_zero",
    "Verif.Ini.ini_null",
    "Verif.Ini.ini_no_file",
    "Verif.Ini.lines_exist",
    "Verif.Ini.chunks_exist",
    "Verif.Ini.ini_callback_result_defect"
   ],
   "note": "For every string and file and every callback; absence of undefined behaviour included, up to 2147483647 lines. The header documents the callback result as the return value; the code returns the line number."
  },
  {
   "property": "C56",
   "status": "partial",
   "theorems": [
    "Verif.Ini.ini_file_string_partial",
    "Verif.Ini.ini_file_string_violated",
    "Verif.Ini.ini_truncate_defect",
    "Verif.Ini.ini_key_violated",
    "Verif.Ini.trim_space_pointer_defect",
    "Verif.Ini.trim_space_pointer"
   ],
   "note": "Equal when every line has at most 1021 bytes. A line of 1022 bytes fits the documented buffer but is split when read from a file, which shifts line numbers."
  },
  {
   "property": "C57",
   "status": "proved",
   "theorems": [
    "Verif.Uri.uri_recompose",
    "Verif.Uri.uri_null"
   ],
   "note": "For every string shorter than 2147483640 bytes, any outcome of the allocation; absence of undefined behaviour included. On a 64-bit ABI a size_t given for an int precision is taken modulo 2^32."
  },
  {
   "property": "C58",
   "status": "partial",
   "theorems": [
    "Verif.Uri.uri_parse_compose_partial",
    "Verif.Uri.uri_path_at_violated",
    "Verif.Uri.uri_path_colon_violated",
    "Verif.Uri.uri_query_colon_violated",
    "Verif.Uri.uri_fragment_question_violated",
    "Verif.Uri.uri_port_defect",
    "Verif.Uri.uri_port_sign_defect",
    "Verif.Uri.uri_inverts_iff"
   ],
   "note": "Exactly when no @, : or ? occurs in a later component while userinfo, port or query is missing (uri_inverts_iff); otherwise false, as the four witnesses show."
  },
  {
   "property": "C59",
   "status": "partial",
   "theorems": [
    "Verif.Uri.uri_str_partial",
    "Verif.Uri.uri_str_violated",
    "Verif.Uri.uri_str_iff"
   ],
   "note": "str is always a subsequence of the input, and equal to it when no colon follows the authority and no ? follows a #; false otherwise."
  },
  {
   "property": "C60",
   "status": "partial",
   "theorems": [
    "Verif.Opt.option_at_partial",
    "Verif.Opt.option_space_violated",
    "Verif.Opt.option_letter_defect"
   ],
   "note": "Proved for every table with non-zero letters and every argument except \"-x text\" with a space inside one argument, which is taken for -x with the value \" text\". An option with the letter 0 makes the argument \"-\" read out of bounds."
  },
  {
   "property": "C61",
   "status": "proved",
   "theorems": [
    "Verif.Log.log_delivers",
    "Verif.Log.log_fails",
    "Verif.Log.written_level",
    "Verif.Log.dropped_level",
    "Verif.Log.no_interleaving",
    "Verif.Log.callback_once",
    "Verif.Log.defaults_kept"
   ],
   "note": "A line in full to each enabled sink when the library calls succeed; a part of one line at most, and a result other than 0, when they fail. The level is the one in force at some moment of the call. C11 atomics variant; text of the message as vfprintf renders it is given."
  },
  {
   "property": "C62",
   "status": "partial",
   "theorems": [
    "Verif.Log.rotation_partial",
    "Verif.Log.rotation_rename_violated",
    "Verif.Log.rotation_same_name_violated"
   ],
   "note": "For any interleaving of threads, when library calls succeed and the two names differ. rename failing is ignored: the call returns 0 and the whole file is lost. With equal names every rotation loses the file."
  },
  {
   "property": "C63",
   "status": "partial",
   "theorems": [
    "Verif.Log.file_size_partial",
    "Verif.Log.header_length",
    "Verif.Log.file_size_violated"
   ],
   "note": "Messages in the file have at most SC_LOG_FILE_SIZE bytes together, but headers are not counted: with empty messages the file grows without bound."
  },
  {
   "property": "C64",
   "status": "partial",
   "theorems": [
    "Verif.Log.set_level_partial",
    "Verif.Log.level_unique",
    "Verif.Log.set_level_violated"
   ],
   "note": "All strings of ASCII bytes. A byte above 127 is passed to tolower as a negative char, which is undefined."
  },
  {
   "property": "C65",
   "status": "proved",
   "theorems": [
    "Verif.Cond.linearizable",
    "Verif.Cond.no_duplicates",
    "Verif.Cond.no_lost_signal",
    "Verif.Cond.settles",
    "Verif.Cond.exclusive",
    "Verif.Cond.Win.linearizable",
    "Verif.Cond.Win.no_duplicates",
    "Verif.Cond.Win.no_lost_signal",
    "Verif.Cond.Win.settles",
    "Verif.Cond.Win.exclusive"
   ],
   "note": "The history of calls and returns is one of an atomic one-value box, for any interleaving with spurious wakeups; executions without new calls or spurious wakeups come to rest, and then no value is left while a thread waits. For POSIX threads and for Windows, whose critical sections may be entered again by their owner."
  },
  {
   "property": "C66",
   "status": "partial",
   "theorems": [
    "Verif.Thread.join_history_partial",
    "Verif.Thread.no_ub_partial",
    "Verif.Thread.join_again",
    "Verif.Thread.win_join",
    "Verif.Thread.join_after_failed_start_violated",
    "Verif.Thread.failed_join_leaks_violated",
    "Verif.Thread.start_result_defect",
    "Verif.Thread.win_join_unstarted_defect",
    "Verif.Thread.win_result"
   ],
   "note": "When a failed pthread_create leaves the number alone. POSIX leaves it unspecified, and the object keeps what was stored: the next join is undefined. A failed join forgets the thread. Errors are returned as positive numbers, not -1."
  },
  {
   "property": "C67",
   "status": "partial",
   "theorems": [
    "Verif.Time.sleep_enough_partial",
    "Verif.Time.sleep_returns",
    "Verif.Time.sleep_enough_violated",
    "Verif.Time.sleep_win_partial",
    "Verif.Time.sleep_win_violated",
    "Verif.Time.sleep_result"
   ],
   "note": "All but the 999 largest arguments, for which the conversion to a signed type makes the sleep shorter than a second. On Windows the argument is cut to 32 bits."
  },
  {
   "property": "C68",
   "status": "proved",
   "theorems": [
    "Verif.Mmap.resources",
    "Verif.Mmap.no_ub",
    "Verif.Mmap.term_again",
    "Verif.Mmap.init_spec",
    "Verif.Mmap.win_resources",
    "Verif.Mmap.term_clears"
   ],
   "note": "For every history of one object with every outcome of system calls. A mapping the system refuses to remove stays. POSIX and Windows."
  },
  {
   "property": "C69",
   "status": "partial",
   "theorems": [
    "Verif.Mmap.msync_covers_partial",
    "Verif.Mmap.msync_covers_iff",
    "Verif.Mmap.msync_covers_violated",
    "Verif.Mmap.mlock_covers",
    "Verif.Mmap.range_result",
    "Verif.Mmap.Crash.win_covers"
   ],
   "note": "Ranges that start at a page; exactly which others is msync_covers_iff. For the rest the last page is not written back: the start is rounded down and the length is not extended. On Windows the range is passed on as it is."
  },
  {
   "property": "C70",
   "status": "proved",
   "theorems": [
    "Verif.Sock.Io.send_spec",
    "Verif.Sock.Io.send_waits",
    "Verif.Sock.Io.recv_spec",
    "Verif.Sock.Io.recv_waits",
    "Verif.Sock.Io.zero_spec",
    "Verif.Sock.Io.streams",
    "Verif.Sock.WinTransfer.send_spec",
    "Verif.Sock.WinTransfer.recv_spec",
    "Verif.Sock.WinTransfer.zero_spec",
    "Verif.Sock.WinTransfer.streams"
   ],
   "note": "Flags of 0, stream sockets, POSIX and Windows. streams says what callers counted over any history. On Windows errno is not the error of a failed call, see C148."
  },
  {
   "property": "C71",
   "status": "partial",
   "theorems": [
    "Verif.Sock.Io.timeo_partial",
    "Verif.Sock.Io.timeo_spec",
    "Verif.Sock.Io.timeo_violated",
    "Verif.Sock.Io.timeo_failed",
    "Verif.Sock.WinTransfer.timeo_violated",
    "Verif.Sock.WinTransfer.timeo_partial",
    "Verif.Sock.Io.timeo_negative"
   ],
   "note": "Whole seconds on POSIX. For all others the rest of the milliseconds is taken for microseconds, so the timeout is shorter than asked for. On Windows the seconds are taken for milliseconds: timeouts of less than a second are none at all, the others a thousand times too short; only 0 is right."
  },
  {
   "property": "C72",
   "status": "partial",
   "theorems": [
    "Verif.Poll.Epoll.interest",
    "Verif.Poll.Epoll.failed_nothing",
    "Verif.Poll.Epoll.no_ub",
    "Verif.Poll.Epoll.edge_violated",
    "Verif.Poll.Spec.after_rw",
    "Verif.Poll.Kqueue.interest_partial",
    "Verif.Poll.Kqueue.failed_partial",
    "Verif.Poll.Kqueue.atomic_violated",
    "Verif.Poll.Kqueue.stuck_violated",
    "Verif.Poll.Kqueue.keep_violated",
    "Verif.Poll.Win.interest_partial"
   ],
   "note": "Linux: all of it, except that edge triggering added by itself, or left by itself, is forgotten. macOS and FreeBSD: systems where a call fails at its first change and the flag of a filter can be changed; otherwise a failed call leaves changes behind. Windows: see C74."
  },
  {
   "property": "C73",
   "status": "proved",
   "theorems": [
    "Verif.Poll.Table.capacity_sum",
    "Verif.Poll.Table.in_bounds",
    "Verif.Poll.Table.injective",
    "Verif.Poll.Table.surjective",
    "Verif.Poll.Win.expand_ok",
    "Verif.Poll.Win.freeSlot_ok",
    "Verif.Poll.Win.setCell_ok"
   ],
   "note": "Every capacity sc_sock_poll_expand can make, 16 to 524288."
  },
  {
   "property": "C74",
   "status": "partial",
   "theorems": [
    "Verif.Poll.Win.interest_partial",
    "Verif.Poll.Win.deferred_eq_partial",
    "Verif.Poll.Win.no_ub_partial",
    "Verif.Poll.Win.example_history",
    "Verif.Poll.Win.del_violated",
    "Verif.Poll.Win.add_del_violated",
    "Verif.Poll.Win.add_edge_violated",
    "Verif.Poll.Win.order_violated",
    "Verif.Poll.Win.edge_violated",
    "Verif.Poll.Win.granted_violated",
    "Verif.Poll.Win.memory_violated",
    "Verif.Poll.Win.ops_in_bounds"
   ],
   "note": "Any number of threads and objects, any schedule. Left out, and shown to fail: requests while a thread polls that leave an unregistered object unregistered (undefined), a failure of WSAPoll while requests are pending (they change places), memory that runs out, and re-arming by deregistering and registering SC_SOCK_EDGE."
  },
  {
   "property": "C75",
   "status": "proved",
   "theorems": [
    "Verif.Sock.resources",
    "Verif.Sock.no_leak",
    "Verif.Sock.no_ub",
    "Verif.Sock.listen_spec",
    "Verif.Sock.connect_inet",
    "Verif.Sock.connect_unix",
    "Verif.Sock.accept_spec",
    "Verif.Sock.WinOpen.listen_ok",
    "Verif.Sock.WinOpen.connect_ok",
    "Verif.Sock.WinOpen.accept_ok",
    "Verif.Sock.WinOpen.term_ok",
    "Verif.Sock.WinOpen.Unix.listen_unix"
   ],
   "note": "For every history of any number of objects and every outcome of every system call; close is taken to free the descriptor whatever it returns. On POSIX; for each call on Windows."
  },
  {
   "property": "C76",
   "status": "partial",
   "theorems": [
    "Verif.Perf.totals_partial",
    "Verif.Perf.times_partial",
    "Verif.Perf.closed_after_end",
    "Verif.Perf.scale_violated",
    "Verif.Perf.restart_violated",
    "Verif.Perf.set_aborts",
    "Verif.Flt.value_double",
    "Verif.Flt.value_exact"
   ],
   "note": "Times and shares when no start comes while measuring is under way; numbers of events too if they are counted all the time. A second start forgets the time since the first, and counts are multiplied with the share of the time instead of divided by it. What is computed with double differs from this by less than one part in 2^50 (value_double), and not at all for events counted all the time up to 2^53 (value_exact)."
  },
  {
   "property": "C77",
   "status": "proved",
   "theorems": [
    "Verif.Crc.crc_odd"
   ],
   "note": "Every message length."
  },
  {
   "property": "C78",
   "status": "proved",
   "theorems": [
    "Verif.Crc.crc_three_bits"
   ],
   "note": "Messages below 2^28 bytes; uses that x has order 2^31-1 modulo the generator, which is computed in the kernel."
  },
  {
   "property": "C79",
   "status": "proved",
   "theorems": [
    "Verif.Signal.errno_unchanged"
   ],
   "note": "Any nesting of the two handlers, arbitrary results of calls."
  },
  {
   "property": "C80",
   "status": "proved",
   "theorems": [
    "Verif.Signal.init_ok",
    "Verif.Signal.fatal_ends"
   ],
   "note": "POSIX handlers, built without SC_SIGNAL_TEST. The process ends by a signal when it is raised with the default disposition; backtrace output is not modelled."
  },
  {
   "property": "C81",
   "status": "proved",
   "theorems": [
    "Verif.Log.atomic",
    "Verif.Log.exclusive",
    "Verif.Log.program_order",
    "Verif.Log.no_interleaving",
    "Verif.Log.callback_once"
   ],
   "note": "Mutex with the usual meaning; a callback that logs is outside the model (it would deadlock on the non-recursive mutex)."
  },
  {
   "property": "C82",
   "status": "proved",
   "theorems": [
    "Verif.Log.thread_name",
    "Verif.Log.name0_ok",
    "Verif.Log.done_name"
   ],
   "note": "Each thread has its own buffer of 32 bytes."
  },
  {
   "property": "C83",
   "status": "partial",
   "theorems": [
    "Verif.Log.set_file_partial",
    "Verif.Log.set_file_ok",
    "Verif.Log.set_file_off",
    "Verif.Log.no_leak",
    "Verif.Log.set_file_errno_violated"
   ],
   "note": "Everything but errno: if a name is too long nothing sets errno, and it can be 0 although -1 is returned."
  },
  {
   "property": "C84",
   "status": "proved",
   "theorems": [
    "Verif.Log.no_ub",
    "Verif.Log.no_deadlock",
    "Verif.Log.step_fine"
   ],
   "note": "For strings as arguments; sc_log_set_level with bytes above 127 is in C64."
  },
  {
   "property": "C85",
   "status": "partial",
   "theorems": [
    "Verif.Cond.init_spec",
    "Verif.Cond.term_partial",
    "Verif.Cond.term_sign_violated",
    "Verif.Cond.Win.init_term_spec"
   ],
   "note": "All but the sign: sc_cond_term returns the positive error number with POSIX threads. On Windows nothing can fail."
  },
  {
   "property": "C86",
   "status": "partial",
   "theorems": [
    "Verif.Cond.released_partial",
    "Verif.Cond.no_lost_signal",
    "Verif.Cond.settles",
    "Verif.Cond.signal_overwritten_violated"
   ],
   "note": "False: a second signal before the first is taken overwrites it, and one of two waiting threads stays. What holds is that some waiter is released whenever a value is there."
  },
  {
   "property": "C87",
   "status": "proved",
   "theorems": [
    "Verif.Mutex.exclusion",
    "Verif.Mutex.progress",
    "Verif.Mutex.init_spec",
    "Verif.Mutex.self_deadlock",
    "Verif.Mutex.Win.exclusion",
    "Verif.Mutex.Win.progress",
    "Verif.Mutex.Win.init_term"
   ],
   "note": "pthread mutexes of type normal and the critical sections of Windows are trusted."
  },
  {
   "property": "C88",
   "status": "partial",
   "theorems": [
    "Verif.Time.ns_exact",
    "Verif.Time.ms_exact",
    "Verif.Time.mono_ms_elapsed",
    "Verif.Time.ns_wrap_violated",
    "Verif.Time.mono_win_partial",
    "Verif.Time.mono_win_violated"
   ],
   "note": "While the result fits in 64 bits (ns) or 63 bits (ms). On Windows sc_time_mono_ns overflows a signed product after 923 seconds at 10 MHz."
  },
  {
   "property": "C89",
   "status": "partial",
   "theorems": [
    "Verif.Thread.err_text_partial",
    "Verif.Thread.err_text_violated",
    "Verif.Thread.win_err_violated",
    "Verif.Thread.win_err_partial"
   ],
   "note": "Texts of fewer than 127 bytes after a failed call. The buffer is never initialised: before the first error, and after longer texts, there may be no terminator; on Windows from 63 bytes on."
  },
  {
   "property": "C90",
   "status": "partial",
   "theorems": [
    "Verif.Mmap.init_covers_partial",
    "Verif.Mmap.apple_offset_violated",
    "Verif.Mmap.Win.init_spec"
   ],
   "note": "Proved, on Windows as well, but for Apple, where the file is extended to the length without the offset."
  },
  {
   "property": "C91",
   "status": "partial",
   "theorems": [
    "Verif.Mmap.init_spec",
    "Verif.Mmap.apple_file",
    "Verif.Mmap.apple_keeps_partial",
    "Verif.Mmap.apple_keeps_violated",
    "Verif.Mmap.Win.init_spec",
    "Verif.Mmap.Win.failed_grows"
   ],
   "note": "Proved but for Apple (fields data of Failed and Created), where the last byte of a map that ends in the last block of the file is overwritten with zero; apple_file says exactly when. On Windows the data stay, but a creation that fails at the last step leaves the file extended."
  },
  {
   "property": "C92",
   "status": "proved",
   "theorems": [
    "Verif.Mmap.err_string",
    "Verif.Mmap.init_spec",
    "Verif.Mmap.range_result",
    "Verif.Mmap.term_ok",
    "Verif.Mmap.Crash.win_text",
    "Verif.Mmap.Win.init_spec"
   ],
   "note": "Fields text and cause of Failed: the text is that of the call that failed, not that of the close that follows. POSIX and Windows. On Windows sc_mmap_err is not defined (it is inside the part for POSIX); the text itself is proved there, for creation and for calls on ranges."
  },
  {
   "property": "C93",
   "status": "proved",
   "theorems": [
    "Verif.Sock.connect_inet"
   ],
   "note": "tried is a prefix of the preferred order, each address once; on failure all of it, unless the last call was one that sets up a socket. POSIX."
  },
  {
   "property": "C94",
   "status": "proved",
   "theorems": [
    "Verif.Sock.failed_text",
    "Verif.Sock.finishConnect_ok",
    "Verif.Sock.term_ok",
    "Verif.Sock.accept_spec",
    "Verif.Sock.listen_spec",
    "Verif.Sock.connect_inet",
    "Verif.Sock.connect_unix",
    "Verif.Sock.WinOpen.listen_ok",
    "Verif.Sock.WinOpen.connect_ok",
    "Verif.Sock.WinOpen.accept_ok",
    "Verif.Sock.WinOpen.term_ok",
    "Verif.Sock.WinOpen.Unix.listen_unix"
   ],
   "note": "Field text of Failed, which the specifications of the calls conclude. On POSIX; on Windows for errors that have a text, except sc_sock_finish_connect."
  },
  {
   "property": "C95",
   "status": "partial",
   "theorems": [
    "Verif.Sock.mode_partial",
    "Verif.Sock.accept_mode",
    "Verif.Sock.mode_violated",
    "Verif.Sock.setBlocking_ok",
    "Verif.Sock.WinOpen.listen_ok",
    "Verif.Sock.WinOpen.connect_ok",
    "Verif.Sock.WinOpen.accept_ok",
    "Verif.Sock.WinOpen.Unix.listen_mode_violated"
   ],
   "note": "Internet sockets and accepted ones. A unix socket listens and connects in blocking mode whatever was asked."
  },
  {
   "property": "C96",
   "status": "partial",
   "theorems": [
    "Verif.Sock.path_partial",
    "Verif.Sock.path_violated",
    "Verif.Sock.WinOpen.Unix.listen_unix",
    "Verif.Sock.WinOpen.Unix.listen_unix_again",
    "Verif.Sock.WinOpen.Unix.listen_path_violated"
   ],
   "note": "Paths of less than 108 bytes. Listening at a longer one succeeds at its first 107 bytes, and removes the file of the full name."
  },
  {
   "property": "C97",
   "status": "partial",
   "theorems": [
    "Verif.Sock.Io.pipeInit_ok",
    "Verif.Sock.Io.pipeTerm_ok",
    "Verif.Sock.Io.pipe_no_leak",
    "Verif.Sock.Io.pipeWrite_ok",
    "Verif.Sock.Io.pipeRead_ok",
    "Verif.Sock.Io.pipe_fifo_partial",
    "Verif.Sock.Io.pipe_count_violated",
    "Verif.Sock.WinPipe.init_ok_partial",
    "Verif.Sock.WinPipe.leak_violated",
    "Verif.Sock.WinPipe.leak_two_violated",
    "Verif.Sock.WinPipe.leak_bound",
    "Verif.Sock.WinIo.write_ok",
    "Verif.Sock.WinIo.read_ok",
    "Verif.Sock.WinIo.pipe_fifo",
    "Verif.Sock.WinPipe.term_result",
    "Verif.Sock.Io.pipeErr_ok",
    "Verif.Sock.WinPipe.init_result"
   ],
   "note": "Calls with less than 2 GiB; the count of longer ones does not fit the result, where the system moves as much in one call. On Windows the queue is proved for all lengths; there a pipe that cannot be made leaves up to two sockets open."
  },
  {
   "property": "C98",
   "status": "partial",
   "theorems": [
    "Verif.Sock.Io.notify_spec",
    "Verif.Sock.Io.notify_partial",
    "Verif.Sock.Io.notify_violated",
    "Verif.Sock.Io.notify_unset"
   ],
   "note": "Names of at most 107 bytes; messages for longer ones go to a cut name. The descriptor is closed in every case."
  },
  {
   "property": "C99",
   "status": "partial",
   "theorems": [
    "Verif.Sock.Name.name_partial",
    "Verif.Sock.Name.inet_uncut",
    "Verif.Sock.Name.text_inj",
    "Verif.Sock.Name.print_partial",
    "Verif.Sock.Name.unnamed_violated",
    "Verif.Sock.Name.empty_violated"
   ],
   "note": "Sockets that have a name and buffers of at least one byte. For the other end of an accepted unix socket uninitialised memory is printed, and a buffer of 0 bytes is written to."
  },
  {
   "property": "C100",
   "status": "partial",
   "theorems": [
    "Verif.Poll.Epoll.data_given",
    "Verif.Poll.Epoll.data_partial",
    "Verif.Poll.Epoll.data_violated",
    "Verif.Poll.Kqueue.data_partial",
    "Verif.Poll.Kqueue.data_violated",
    "Verif.Poll.Win.interest_partial"
   ],
   "note": "Callers that give an object the same data in all calls. Data given with events that are waited for already is not kept."
  },
  {
   "property": "C101",
   "status": "partial",
   "theorems": [
    "Verif.Poll.Epoll.event_spec",
    "Verif.Poll.Epoll.told",
    "Verif.Poll.Epoll.wait_spec",
    "Verif.Poll.Epoll.wait_forever",
    "Verif.Poll.Epoll.wait_term",
    "Verif.Poll.Epoll.time_partial",
    "Verif.Poll.Epoll.time_violated",
    "Verif.Poll.Epoll.pollInit_ok",
    "Verif.Poll.Epoll.pollTerm_ok",
    "Verif.Poll.Epoll.no_leak",
    "Verif.Poll.Kqueue.event_spec",
    "Verif.Poll.Kqueue.told_partial",
    "Verif.Poll.Kqueue.timespec_spec",
    "Verif.Poll.Kqueue.wait_spec",
    "Verif.Poll.Kqueue.wait_term",
    "Verif.Poll.Win.wait_partial",
    "Verif.Poll.Win.waitTime_partial",
    "Verif.Poll.Win.waitTime_violated",
    "Verif.Poll.Win.beginWait_spec",
    "Verif.Poll.Win.failWait_spec",
    "Verif.Poll.Win.failWait_closed"
   ],
   "note": "The bound on time holds for waits that are not interrupted; each interruption starts the timeout again. On Windows waits without a limit end after 16 ms. Releasing memory on Windows is C110."
  },
  {
   "property": "C102",
   "status": "partial",
   "theorems": [
    "Verif.Poll.Win.wakeup_partial",
    "Verif.Poll.Win.drain_ready_partial",
    "Verif.Poll.Win.no_ub_partial",
    "Verif.Poll.Win.example_history",
    "Verif.Poll.Win.submit_quiet",
    "Verif.Poll.Win.lost_wakeup_violated"
   ],
   "note": "Until the byte is written; that the system then ends the wait is an assumption about WSAPoll. If the byte cannot be written the request is reported as failed although it stays pending, and later requests do not wake the poller either."
  },
  {
   "property": "C103",
   "status": "partial",
   "theorems": [
    "Verif.Poll.Win.wait_partial",
    "Verif.Poll.Win.told_registered",
    "Verif.Poll.Win.interest_partial",
    "Verif.Poll.Win.example_history",
    "Verif.Poll.Win.stale_violated"
   ],
   "note": "Left out, and shown to fail: an event that is found is told although the object was deregistered for it, but not for others, during the wait. Memory does not run out."
  },
  {
   "property": "C104",
   "status": "partial",
   "theorems": [
    "Verif.Poll.Win.edge_once_partial",
    "Verif.Poll.Win.told_kept",
    "Verif.Poll.Win.rearmed_partial",
    "Verif.Poll.Win.edge_once_violated"
   ],
   "note": "Errors and hang-ups are told as long as they last, which is what the header of the library shows for other systems, too. Requests as in C74."
  },
  {
   "property": "C105",
   "status": "partial",
   "theorems": [
    "Verif.Memory.array_memory",
    "Verif.Memory.queue_memory",
    "Verif.Memory.heap_memory_partial",
    "Verif.Memory.timer_memory",
    "Verif.Memory.map_memory",
    "Verif.Memory.buf_memory",
    "Verif.Memory.str_memory",
    "Verif.Memory.uri_memory",
    "Verif.Memory.history_ok",
    "Verif.Memory.World.Tidy.no_leak",
    "Verif.Memory.mixed_memory_partial",
    "Verif.Memory.buf_move_memory",
    "Verif.Memory.heap_memory_violated"
   ],
   "note": "The functions are modelled on a memory of blocks with addresses; an access through a pointer that was given back is undefined. Addresses are not used twice. Programs may mix all kinds of containers in one memory, and move data between buffers (in programs with buffers only). Heaps with a failed sc_heap_add violate the property (defect C09). Missing: the calls of buffers that C36 excludes; code that neither allocates nor frees reads and writes the block of the object only, as in the models without memory."
  },
  {
   "property": "C106",
   "status": "partial",
   "theorems": [
    "Verif.Memory.Str.str_set_from_anywhere",
    "Verif.Memory.Str.str_append_from_elsewhere_partial",
    "Verif.Memory.Str.str_append_self_violated",
    "Verif.Memory.str_memory"
   ],
   "note": "sc_str_append with a pointer into the string it extends reads memory after realloc freed it (string/sc_str.c:219-231), for every string and every offset; proved for all other pointers. sc_str_set for all pointers; sc_str_set_fmt as a call in str_memory, whose text may depend on the string."
  },
  {
   "property": "C107",
   "status": "partial",
   "theorems": [
    "Verif.Mutex.Win.portable_partial",
    "Verif.Mutex.Win.portable_both_partial",
    "Verif.Mutex.Win.portable_violated",
    "Verif.Mutex.self_deadlock"
   ],
   "note": "A thread that locks a mutex it has goes on on Windows and waits for ever elsewhere; proved, in both directions, for programs in which nobody does that."
  },
  {
   "property": "C108",
   "status": "partial",
   "theorems": [
    "Verif.Poll.Reuse.Linux.reuse_partial",
    "Verif.Poll.Reuse.Linux.reopened_violated",
    "Verif.Poll.Reuse.Linux.renewed_violated",
    "Verif.Poll.Reuse.Bsd.reuse_partial",
    "Verif.Poll.Reuse.Bsd.reopened_violated",
    "Verif.Poll.Reuse.Bsd.renewed_violated",
    "Verif.Poll.Win.reuse_partial",
    "Verif.Poll.Win.reopened_violated",
    "Verif.Poll.Win.gone_violated",
    "Verif.Poll.Win.accepted_ready"
   ],
   "note": "An object that is closed, or whose poller is destroyed, while it is registered keeps saying that it is registered; it is never waited for again unless it is initialised. Proved for histories in which such objects are initialised again (Linux, macOS, FreeBSD) or deregistered first (Windows)."
  },
  {
   "property": "C109",
   "status": "partial",
   "theorems": [
    "Verif.Poll.Win.reuse_partial",
    "Verif.Poll.Win.no_ub_partial",
    "Verif.Poll.Win.sock_ready",
    "Verif.Poll.Win.pipe_violated",
    "Verif.Poll.Win.accept_violated",
    "Verif.Poll.Win.pipe_steals_violated",
    "Verif.Poll.Win.accepted_ready"
   ],
   "note": "On Windows pipes, and accepted sockets that were not initialised, do not say that they have no request pending. Proved for sockets that were initialised; on other systems objects have no such member, see C72."
  },
  {
   "property": "C110",
   "status": "partial",
   "theorems": [
    "Verif.Poll.Epoll.pollInit_ok",
    "Verif.Poll.Epoll.pollTerm_ok",
    "Verif.Poll.Epoll.no_leak",
    "Verif.Poll.Win.Life.no_leak_partial",
    "Verif.Poll.Win.Life.no_ub_partial",
    "Verif.Poll.Win.Life.destroy_violated",
    "Verif.Poll.Win.Life.leak_violated",
    "Verif.Poll.Win.Life.term_ok",
    "Verif.Poll.Win.Life.init_ok",
    "Verif.Poll.Win.Life.grow_ok",
    "Verif.Poll.Win.Life.growOps_ok"
   ],
   "note": "Proved for Linux and the BSDs. On Windows proved unless memory runs out while the poller grows, after which destroying it releases a block that it does not hold, and unless the pipe for waking cannot be made, which leaves sockets open (C97)."
  },
  {
   "property": "C111",
   "status": "partial",
   "theorems": [
    "Verif.Sock.failed_text",
    "Verif.Sock.finishConnect_ok",
    "Verif.Sock.term_ok",
    "Verif.Sock.setBlocking_text_violated",
    "Verif.Sock.Io.timeo_failed",
    "Verif.Sock.Io.send_spec",
    "Verif.Sock.Io.recv_spec",
    "Verif.Sock.Win.failed_text_partial",
    "Verif.Sock.Win.errstr_ok",
    "Verif.Sock.Win.pollErrFromCode_ok",
    "Verif.Sock.Win.finish_text_violated",
    "Verif.Sock.Win.unix_text_violated",
    "Verif.Sock.Win.setBlocking_text_violated",
    "Verif.Sock.Win.finish_result",
    "Verif.Sock.init_spec",
    "Verif.Sock.Win.unix_result",
    "Verif.Sock.WinOpen.listen_ok",
    "Verif.Sock.WinOpen.connect_ok",
    "Verif.Sock.WinOpen.accept_ok",
    "Verif.Sock.WinOpen.Unix.listen_unix",
    "Verif.Poll.WinText.add_tells",
    "Verif.Poll.WinText.del_tells",
    "Verif.Poll.WinText.finish_tells",
    "Verif.Poll.WinText.begin_tells",
    "Verif.Poll.WinText.fail_tells_partial",
    "Verif.Poll.WinText.failed_wait_violated",
    "Verif.Poll.WinText.init_tells",
    "Verif.Poll.WinText.init_agrees",
    "Verif.Poll.WinText.term_tells"
   ],
   "note": "Setting the mode of a socket stores no text. On Windows errors that the library announces through errno get the text of another error, and a wait that fails with an error that the system has no text for leaves the text of an earlier failure. Proved for all other calls on POSIX, for failed calls of the system on Windows, and for all calls for pollers on Windows (sc_sock_poll_term for a poller that nobody uses)."
  },
  {
   "property": "C112",
   "status": "partial",
   "theorems": [
    "Verif.Sock.WinIo.balanced_partial",
    "Verif.Sock.WinIo.startup_violated",
    "Verif.Sock.WinIo.posix_ok"
   ],
   "note": "If the system grants a version other than 2.2, starting is reported to have failed and the library stays held. Elsewhere both calls do nothing."
  },
  {
   "property": "C113",
   "status": "partial",
   "theorems": [
    "Verif.Log.Life.no_leak",
    "Verif.Log.Life.init_partial",
    "Verif.Log.Life.init_result_violated",
    "Verif.Log.Life.term_errno_violated",
    "Verif.Log.Life.win_mutex"
   ],
   "note": "Proved but for the results: creating returns a positive number if it fails, and destroying a logger that is not in use does not set errno."
  },
  {
   "property": "C114",
   "status": "partial",
   "theorems": [
    "Verif.Mmap.Crash.survives_partial",
    "Verif.Mmap.Crash.synced_survives_partial",
    "Verif.Mmap.Crash.lost_violated",
    "Verif.Mmap.Crash.win_lost_violated",
    "Verif.Mmap.Crash.win_mem"
   ],
   "note": "Proved on POSIX for ranges that begin at a page or end such that the rounding down of the start does not matter; others lose their last bytes (C69). On Windows syncing only starts to write."
  },
  {
   "property": "C115",
   "status": "partial",
   "theorems": [
    "Verif.Signal.Win.init_ok",
    "Verif.Signal.Win.init_violated",
    "Verif.Signal.Win.exception_reported_partial",
    "Verif.Signal.Win.exception_code_violated",
    "Verif.Signal.Win.abort_reported",
    "Verif.Signal.Win.names_ok",
    "Verif.Signal.Win.std_reported"
   ],
   "note": "Proved for exceptions with a code below 2^31 and for aborts; real exceptions have larger codes, which are printed as negative numbers. Initialisation succeeds although the handler for abort could not be set."
  },
  {
   "property": "C116",
   "status": "proved",
   "theorems": [
    "Verif.Buf.buf_accessors",
    "Verif.Buf.bringIn_ok",
    "Verif.Buf.takeOut_ok",
    "Verif.Buf.link_step",
    "Verif.Buf.link_stream",
    "Verif.Buf.link_message"
   ],
   "note": "Any history of a link between two buffers; compacting, reserving and shrinking at any time."
  },
  {
   "property": "C117",
   "status": "partial",
   "theorems": [
    "Verif.Memory.array_term",
    "Verif.Memory.heap_term",
    "Verif.Memory.timer_term",
    "Verif.Memory.buf_term",
    "Verif.Memory.str_term",
    "Verif.Memory.queue_term_partial",
    "Verif.Memory.queue_reuse_violated",
    "Verif.Memory.map_term_partial",
    "Verif.Map.reuse_violated",
    "Verif.Map.reuse_partial"
   ],
   "note": "Holds for arrays, heaps, timers, buffers and strings. A destroyed queue must not be used: sc_queue_add_last stores through NULL. A destroyed map that had memory has the load factor 0: every put doubles its memory, so of 30 puts at least one fails; a map that was made without memory and never had any keeps its load factor. The library does not promise that queues and maps can be used again."
  },
  {
   "property": "C118",
   "status": "partial",
   "theorems": [
    "Verif.Time.wall_violated",
    "Verif.Time.elapsed_partial",
    "Verif.Time.ns_wrap_win_violated"
   ],
   "note": "On Windows the numbers count from 1601, so they are 369 years ahead of those of other systems, and sc_time_ns wraps in the year 2185. Proved: the differences of two timestamps agree up to the resolution of 100 ns."
  },
  {
   "property": "C119",
   "status": "proved",
   "theorems": [
    "Verif.Heap.addC_plain",
    "Verif.Heap.popC_plain",
    "Verif.Heap.add_compares",
    "Verif.Heap.pop_compares"
   ],
   "note": "addC and popC are sc_heap_add and sc_heap_pop with a counter of comparisons; the first two theorems say that they do the same."
  },
  {
   "property": "C120",
   "status": "partial",
   "theorems": [
    "Verif.Array.array_copies_partial",
    "Verif.Queue.queue_copies_partial",
    "Verif.Heap.heap_copies_partial",
    "Verif.Map.map_copies_partial",
    "Verif.Timer.timer_copies_partial",
    "Verif.Timer.runG_forget",
    "Verif.Buf.buf_copies_violated"
   ],
   "note": "Proved for arrays, queues, heaps, maps and timers (with calls inside callbacks). Violated by buffers, which grow by 4096 bytes at a time. Strings are reallocated by every change."
  },
  {
   "property": "C121",
   "status": "partial",
   "theorems": [
    "Verif.Log.Callback.quiet_partial",
    "Verif.Log.Callback.descending_returns_partial",
    "Verif.Log.Callback.returns_fair",
    "Verif.Log.Callback.deadlock_violated",
    "Verif.Log.Callback.endless_violated",
    "Verif.Log.Callback.settings_partial"
   ],
   "note": "Violated: on POSIX systems a callback that makes any call that takes the mutex blocks its thread forever; on Windows a callback that logs what it is given recurses without end. Proved: callbacks that only make calls without the mutex are fine, and on Windows those that log only lower levels."
  },
  {
   "property": "C122",
   "status": "partial",
   "theorems": [
    "Verif.Mmap.Lock.locked_partial",
    "Verif.Mmap.Lock.locked_cause",
    "Verif.Mmap.Lock.unlocked",
    "Verif.Mmap.Lock.shared_page_violated"
   ],
   "note": "Violated: unlocking a range also unlocks the rest of its first and last page, even where another call locked it and it was not unlocked. Proved when the unlocked ranges are whole pages, and in all cases that nothing is locked without cause and that unlocked bytes are unlocked."
  },
  {
   "property": "C123",
   "status": "proved",
   "theorems": [
    "Verif.Log.callback_obeyed",
    "Verif.Log.streams_obeyed"
   ],
   "note": "For all interleavings of the threads, in the order in which the calls had the lock. The streams part assumes that writing to them succeeds."
  },
  {
   "property": "C124",
   "status": "partial",
   "theorems": [
    "Verif.Map.map_load",
    "Verif.Map.map_reserved_partial",
    "Verif.Map.map_reserved_violated",
    "Verif.Heap.heap_reserved_partial",
    "Verif.Heap.heap_reserved_violated",
    "Verif.Buf.buf_reserved"
   ],
   "note": "Violated by the map, which counts capacity before the load factor is applied, and by the heap, of whose entries the first is not used. Proved for buffers, for maps up to the load factor of the rounded capacity, and for heaps up to one less than the capacity."
  },
  {
   "property": "C125",
   "status": "partial",
   "theorems": [
    "Verif.Timer.timer_late_partial",
    "Verif.Timer.timer_late_bound_partial",
    "Verif.Timer.timer_late_violated"
   ],
   "note": "Violated: calls that do not move the wheel far enough lose time, and with a call every 31 ms a timer of 240 ms fires 256 ms late. Proved: a timer is late by less than a tick and the time lost in calls, which is bounded if the calls come often."
  },
  {
   "property": "C126",
   "status": "partial",
   "theorems": [
    "Verif.Timer.timer_base_partial",
    "Verif.Timer.timer_base_violated"
   ],
   "note": "Violated: calls that do not move the wheel do not store the time, so the base is up to 15 ms too early. Proved: it is at most the resolution less one earlier."
  },
  {
   "property": "C127",
   "status": "partial",
   "theorems": [
    "Verif.Array.array_add_arg_partial",
    "Verif.Array.array_del_arg_partial",
    "Verif.Array.array_add_arg_violated",
    "Verif.Array.array_del_arg_violated",
    "Verif.Queue.queue_add_last_arg_partial",
    "Verif.Queue.queue_add_first_arg",
    "Verif.Queue.queue_add_first_arg_partial",
    "Verif.Queue.queue_add_first_arg_violated",
    "Verif.Queue.queue_peek_first_arg_violated",
    "Verif.Queue.queue_add_last_arg_violated"
   ],
   "note": "Violated: adding an array's last element or size to it is undefined, so is deleting with a variable named idx; adding an element of a queue at its front adds the one before it. Proved for all other expressions of the language."
  },
  {
   "property": "C128",
   "status": "partial",
   "theorems": [
    "Verif.Array.array_loop_partial",
    "Verif.Array.array_loop_violated",
    "Verif.Queue.queue_loop_partial",
    "Verif.Queue.queue_loop_violated",
    "Verif.Queue.queue_loop_last_violated",
    "Verif.Map.map_loop_partial",
    "Verif.Map.map_loop_del_violated",
    "Verif.Map.map_loop_put_violated",
    "Verif.LList.list_loop_partial",
    "Verif.LList.list_loop_violated",
    "Verif.LList.list_loop_ends"
   ],
   "note": "Violated: deleting from an array, adding to a queue or deleting its last element, and deleting from a map or replacing a value in a full map make the loop skip or repeat elements. Proved: bodies that add to an array, take from the front of a queue, replace values of a map that is not full. Linked lists: proved for bodies that add elements anywhere; sc_list_foreach_safe never ends when the body deletes the element after the one it is at."
  },
  {
   "property": "C129",
   "status": "partial",
   "theorems": [
    "Verif.Timer.timer_order_partial",
    "Verif.Timer.timer_order_violated"
   ],
   "note": "Violated: when a call comes 256 ms after the one before, a timer of 256 ms fires before one of 16 ms. Proved for all histories in which the calls are a whole number of ticks apart, 15 at most."
  },
  {
   "property": "C130",
   "status": "partial",
   "theorems": [
    "Verif.Str.str_null_partial",
    "Verif.Str.str_null_violated",
    "Verif.Str.str_null_only"
   ],
   "note": "Violated: sc_str_set, sc_str_append and sc_str_append_fmt of a NULL '*str' create the string and return true, although the header says false. Proved for all other functions."
  },
  {
   "property": "C131",
   "status": "proved",
   "theorems": [
    "Verif.Str.str_history",
    "Verif.Str.Spec.Run.det"
   ],
   "note": "The specification is a transition relation on texts; with memory it is deterministic (Spec.Run.det)."
  },
  {
   "property": "C132",
   "status": "partial",
   "theorems": [
    "Verif.Log.crash_partial",
    "Verif.Log.crash_violated",
    "Verif.Log.crash_restart",
    "Verif.Log.crash_possible"
   ],
   "note": "Violated: the logger never flushes, so the last bytes of lines for which 0 was returned may be lost with stdio's buffer. Proved: at most one buffer of bytes is missing at the end of the current file, all else is as after the calls that returned, also inside of a rotation; and a restarted process appends. Assumed as for C62: completed calls of the library succeed and the two names differ; a crash of the system is not modelled."
  },
  {
   "property": "C133",
   "status": "proved",
   "theorems": [
    "Verif.Crc.crc_word_five",
    "Verif.Crc.crc_word_odd",
    "Verif.Crc.crc_word_three",
    "Verif.Crc.crc_word_burst",
    "Verif.Crc.crc_five_bits",
    "Verif.Crc.crc_word_limit"
   ],
   "note": "The polynomial of four flipped bits is shown not to be a multiple of the generator with a table of logarithms in the field with 2^31 elements (Crc/Logs.lean), each entry of which the kernel checks; crc_word_limit gives four unnoticed bits for every longer message."
  },
  {
   "property": "C134",
   "status": "proved",
   "theorems": [
    "Verif.Map.looked_le",
    "Verif.Map.looked_same"
   ],
   "note": "The cells looked at are counted by probeC, which is the probe loop of the model with a counter (probeC_probe)."
  },
  {
   "property": "C135",
   "status": "partial",
   "theorems": [
    "Verif.Map.lookup_cost_partial",
    "Verif.Map.string_flood_violated",
    "Verif.Map.u64_flood_violated",
    "Verif.Map.u32_flood_violated",
    "Verif.Map.row_miss_violated",
    "Verif.Map.murmur_reference",
    "Verif.Map.looked_le"
   ],
   "note": "Violated: for every n there are 2^n strings with one hash, made of two blocks of eight bytes that work for every seed; numbers whose halves are equal, or that are multiples of the capacity, collide too; and in a map of consecutive numbers a number that is not there costs a look at all of them. What holds is the bound of looked_le, the number of keys."
  },
  {
   "property": "C136",
   "status": "proved",
   "theorems": [
    "Verif.Map.looked_one",
    "Verif.Map.u32_row",
    "Verif.Map.u64_row",
    "Verif.Map.int_row"
   ],
   "note": "For numbers below 2^32; the hash of larger ones mixes in their upper half."
  },
  {
   "property": "C137",
   "status": "proved",
   "theorems": [
    "Verif.Timer.timer_memory"
   ],
   "note": "For every client and history; the bound is reached (example)."
  },
  {
   "property": "C138",
   "status": "partial",
   "theorems": [
    "Verif.Timer.add_cost_partial",
    "Verif.Timer.poll_cost_partial",
    "Verif.Timer.same_timeout_violated",
    "Verif.Timer.poll_idle_violated"
   ],
   "note": "One add looks at no more cells than there are pending timers, and one. But n timers with the same timeout cost n(n-1)/2 looks, and a poll costs what the largest number of timers ever pending at once demands: the wheel never shrinks."
  },
  {
   "property": "C139",
   "status": "partial",
   "theorems": [
    "Verif.Timer.nested_partial",
    "Verif.Timer.nested_revolution_partial",
    "Verif.Timer.lift_timeout",
    "Verif.Timer.callback_term_violated"
   ],
   "note": "All but destroying, to any depth. Destroying the timer in its callback is undefined behaviour: the sweep goes on."
  },
  {
   "property": "C140",
   "status": "partial",
   "theorems": [
    "Verif.Heap.max_heap_partial",
    "Verif.Heap.max_heap_violated"
   ],
   "note": "For all keys but INT64_MIN, whose negation is undefined."
  },
  {
   "property": "C141",
   "status": "partial",
   "theorems": [
    "Verif.Cond.cond_race_free",
    "Verif.Cond.cond_handover",
    "Verif.Cond.Win.cond_race_free",
    "Verif.Cond.Win.cond_handover",
    "Verif.Log.log_race_free",
    "Verif.Log.log_callback_sees",
    "Verif.Thread.Race.thread_race_free_partial",
    "Verif.Thread.Race.thread_handover",
    "Verif.Thread.Race.thread_race_violated",
    "Verif.Poll.Race.poll_races_partial",
    "Verif.Poll.Race.poll_init_race_violated",
    "Verif.Poll.Race.poll_mask_race_violated",
    "Verif.Race.Guarded.not_racy",
    "Verif.Race.Passed.not_racy"
   ],
   "note": "In full for conditions and the logger (its level is an atomic). Threads: the POSIX object is used by the caller alone; on Windows, when waiting for the thread does not fail, and a race when it does. Pollers on Windows: all races involve one of two reads without the lock, and each of them does race. Happens-before is defined in Verif/Race/Spec.lean; the text of the last error of a poller is not modelled."
  },
  {
   "property": "C142",
   "status": "proved",
   "theorems": [
    "Verif.Uri.uri_reparse",
    "Verif.Uri.uri_accepts"
   ],
   "note": "The rules of the cut are the predicate Verif.Uri.Exact, stated on strings without the parser."
  },
  {
   "property": "C143",
   "status": "proved",
   "theorems": [
    "Verif.Sc.rand_period",
    "Verif.Sc.rand_apart",
    "Verif.Sc.rand_period_zero"
   ],
   "note": "The period is at least 256, which the seed of 256 zeros attains; no better lower bound for other seeds is shown."
  },
  {
   "property": "C144",
   "status": "partial",
   "theorems": [
    "Verif.Timer.timer_loop_partial",
    "Verif.Timer.timer_loop_bound_partial",
    "Verif.Timer.timer_loop_violated"
   ],
   "note": "Proved with a tick and delta for each whole tick of the timeout (so exactly, if delta is 0) for timers added outside callbacks, and with 16 * (17 + delta) ms for all; violated as stated, because every late wakeup delays the wheel for good."
  },
  {
   "property": "C145",
   "status": "proved",
   "theorems": [
    "Verif.Timer.timer_loop_quiet"
   ],
   "note": ""
  },
  {
   "property": "C146",
   "status": "proved",
   "theorems": [
    "Verif.Buf.buf_message_cut",
    "Verif.Buf.buf_message_complete"
   ],
   "note": ""
  },
  {
   "property": "C147",
   "status": "partial",
   "theorems": [
    "Verif.Buf.buf_drain_partial",
    "Verif.Buf.buf_drain_str_violated",
    "Verif.Buf.buf_drain_blob_violated"
   ],
   "note": "Proved if no length that is read is 2^62 or more (but the one of a NULL string). Violated by the eight bytes of 2^64 - 9 as a string and 2^64 - 8 as a blob: rpos + len wraps around, and the loop reads the same bytes for ever."
  },
  {
   "property": "C148",
   "status": "partial",
   "theorems": [
    "Verif.Sock.Io.again_ok",
    "Verif.Sock.accept_again",
    "Verif.Sock.connect_again_partial",
    "Verif.Sock.connect_again_violated",
    "Verif.Sock.WinTransfer.again_partial",
    "Verif.Sock.WinTransfer.refuse_ok",
    "Verif.Sock.WinTransfer.again_violated",
    "Verif.Sock.WinOpen.connect_again_partial",
    "Verif.Sock.WinOpen.connect_again_violated"
   ],
   "note": "POSIX: proved for sending, receiving and taking a connection. Violated for connecting to a name that cannot be resolved (errno keeps an old EAGAIN), and on Windows by all of them, where the failed calls do not set errno: after one transfer that would block, a reset connection also looks like that. Proved there if errno was something else before."
  },
  {
   "property": "C149",
   "status": "partial",
   "theorems": [
    "Verif.Queue.queue_index_partial",
    "Verif.Queue.queue_last_index_violated"
   ],
   "note": "sc_queue_last is the index after the last element, in every queue, and the one before it is what the header describes. All else is proved."
  },
  {
   "property": "C150",
   "status": "partial",
   "theorems": [
    "Verif.Poll.WinGrow.requests_partial",
    "Verif.Poll.WinGrow.requests_violated"
   ],
   "note": "Proved for up to 885410839 pending requests. The next one overflows an int, cap * 3, before the check against SC_SIZE_MAX can refuse it."
  },
  {
   "property": "C151",
   "status": "partial",
   "theorems": [
    "Verif.Narrow.array_sizes",
    "Verif.Narrow.queue_sizes",
    "Verif.Narrow.str_sizes",
    "Verif.Narrow.append_sizes",
    "Verif.Narrow.map_sizes",
    "Verif.Narrow.heapInit_sizes",
    "Verif.Narrow.heap_sizes_iff",
    "Verif.Narrow.heap_sizes_partial",
    "Verif.Narrow.heap_sizes_violated",
    "Verif.Narrow.heapAdd_64",
    "Verif.Narrow.heap_add_violated",
    "Verif.Narrow.timer_sizes_partial",
    "Verif.Narrow.timer_sizes_violated",
    "Verif.Narrow.bufInit_sizes_iff",
    "Verif.Narrow.bufReserve_sizes_iff",
    "Verif.Narrow.buf_sizes_partial",
    "Verif.Narrow.buf_sizes_violated",
    "Verif.Narrow.array_refused_iff",
    "Verif.Narrow.queue_refused_iff",
    "Verif.Narrow.str_refused_iff",
    "Verif.Narrow.append_refused_iff",
    "Verif.Narrow.heapInit_refused_iff",
    "Verif.Narrow.bufInit_refused_iff"
   ],
   "note": "Arrays, queues, strings and maps for every capacity; heaps, timers and buffers up to the exact bounds stated, with witnesses beyond them."
  },
  {
   "property": "C152",
   "status": "partial",
   "theorems": [
    "Verif.Narrow.time_ms_narrow_partial",
    "Verif.Narrow.time_ms_narrow_violated",
    "Verif.Narrow.sleep_narrow_partial",
    "Verif.Narrow.sleep_narrow_violated"
   ],
   "note": "sc_time_ms overflows a signed long at every time after January 1970; sleeping is right below 2^31 ms. The other clocks convert before they multiply and are covered by C88."
  },
  {
   "property": "C153",
   "status": "partial",
   "theorems": [
    "Verif.Memory.Buf.put_raw_own_partial",
    "Verif.Memory.Buf.put_raw_own_violated",
    "Verif.Memory.Buf.put_str_own_partial",
    "Verif.Memory.Buf.put_str_own_violated",
    "Verif.Memory.Buf.put_blob_own_partial",
    "Verif.Memory.Buf.put_blob_own_violated",
    "Verif.Memory.Buf.move_self"
   ],
   "note": "Proved when there is room; whenever the buffer has to grow, and can, the bytes are read after realloc gave their memory back, which is undefined. Moving a buffer to itself is proved for all valid buffers."
  },
  {
   "property": "C154",
   "status": "proved",
   "theorems": [
    "Verif.Map.Keys.str_map_keys"
   ],
   "note": "The memory may be a different one at every call; only the texts of the held keys are required to stay. Note that the pointer replaced by a put of an equal text is not returned to the caller."
  },
  {
   "property": "C155",
   "status": "proved",
   "theorems": [
    "Verif.Flt.load_factor",
    "Verif.Flt.remap_double"
   ],
   "note": "double is modelled by the set of its finite numbers; results of operations are any number of the set that is nearest to the exact result. load_factor is about the model with the exact limit, remap_double says that the rounded computation gives it."
  },
  {
   "property": "C156",
   "status": "partial",
   "theorems": [
    "Verif.Ini.Layout.crlf",
    "Verif.Ini.Layout.crlf_file_partial",
    "Verif.Ini.Layout.crlf_file_violated",
    "Verif.Ini.Layout.mark",
    "Verif.Ini.Layout.padded",
    "Verif.Ini.Layout.parts"
   ],
   "note": "Strings: all of it, a byte order mark before a first line of at most 1020 bytes (longer ones are cut). Files: line ends for lines of at most 1020 bytes, the witness shows that a line of 1021 bytes is read as two with Windows line ends; the rest follows for files with lines of at most 1021 bytes from ini_file_string_partial of C56."
  },
  {
   "property": "C157",
   "status": "proved",
   "theorems": [
    "Verif.Cond.Handover.in_order",
    "Verif.Cond.Handover.handed_over",
    "Verif.Cond.Handover.rests",
    "Verif.Cond.Handover.in_order_win",
    "Verif.Cond.Handover.handed_over_win",
    "Verif.Cond.Handover.rests_win"
   ],
   "note": "The models of the condition (C65), of Windows' condition and of the queue (C04) put together; an operation on the queue under the mutex is one step, which C87 justifies."
  },
  {
   "property": "C158",
   "status": "partial",
   "theorems": [
    "Verif.Config.array_max_same",
    "Verif.Config.queue_max_same",
    "Verif.Config.heap_max_same",
    "Verif.Config.map_max_same",
    "Verif.Config.heap_init_same",
    "Verif.Config.map_init_same",
    "Verif.Config.array_refused_iff",
    "Verif.Config.queue_refused_iff",
    "Verif.Config.heap_refused_iff",
    "Verif.Config.map_refused_iff",
    "Verif.Config.array_max_partial",
    "Verif.Config.array_max_violated",
    "Verif.Config.queue_max_partial",
    "Verif.Config.queue_max_violated",
    "Verif.Config.heap_max_partial",
    "Verif.Config.heap_max_violated",
    "Verif.Config.heap_memory_violated",
    "Verif.Config.map_max_partial",
    "Verif.Config.map_max_violated"
   ],
   "note": "That refusing changes nothing else, and when it happens: all of it (a heap refuses already if growing would reach the maximum). That the maximum is not exceeded: for all maxima but small ones (below 8 elements for arrays and queues, 2 and 3 for heaps, below 8 for maps), for the capacity of heaps (the memory may be twice that), and for maps with maxima that are powers of two or that were created without a capacity; the witnesses show the rest."
  },
  {
   "property": "C159",
   "status": "proved",
   "theorems": [
    "Verif.Frame.in_order",
    "Verif.Frame.complete",
    "Verif.Frame.at_end",
    "Verif.Frame.read_back",
    "Verif.Frame.defined",
    "Verif.Frame.next_any",
    "Verif.Frame.putFrame_ok",
    "Verif.Frame.room"
   ],
   "note": "POSIX sockets with flags 0. A message that could not be written completely (the buffer is invalid) is not sent; the receiver asks sc_buf_valid before it takes anything out. For Windows see C165."
  },
  {
   "property": "C160",
   "status": "partial",
   "theorems": [
    "Verif.Sock.Io.eof_ok",
    "Verif.Sock.WinTransfer.eof_iff",
    "Verif.Sock.WinTransfer.eof_partial",
    "Verif.Sock.WinTransfer.eof_violated"
   ],
   "note": "POSIX: proved. Windows: if errno was not EOF before; nothing sets errno after other failures, so the end of one stream makes later failures of others look like their end."
  },
  {
   "property": "C161",
   "status": "proved",
   "theorems": [
    "Verif.Cache.refines",
    "Verif.Cache.defined"
   ],
   "note": "A client of the two models. Keys of string maps keep their content while they are in the map."
  },
  {
   "property": "C162",
   "status": "proved",
   "theorems": [
    "Verif.Shutdown.told",
    "Verif.Shutdown.never_blocks",
    "Verif.Shutdown.not_interrupted",
    "Verif.Shutdown.only_then",
    "Verif.Shutdown.Kqueue.told",
    "Verif.Shutdown.Kqueue.never_blocks",
    "Verif.Shutdown.Kqueue.not_interrupted",
    "Verif.Shutdown.Kqueue.only_then"
   ],
   "note": "Linux poller, one thread, the pipe is waited for without SC_SOCK_EDGE and used for nothing else. The theorems in Verif.Shutdown.Kqueue say the same of macOS and FreeBSD, for any behaviour of kevent for the other descriptors. For Windows see C164."
  },
  {
   "property": "C163",
   "status": "partial",
   "theorems": [
    "Verif.Sock.PipeText.windows_text",
    "Verif.Sock.PipeText.windows_init",
    "Verif.Sock.PipeText.windows_term",
    "Verif.Sock.PipeText.asked",
    "Verif.Sock.PipeText.posix_text_partial",
    "Verif.Sock.PipeText.posix_text_violated"
   ],
   "note": "Windows: proved. On other systems sc_sock_pipe_write and sc_sock_pipe_read store no text when they fail; proved for the failures of the other calls."
  },
  {
   "property": "C164",
   "status": "proved",
   "theorems": [
    "Verif.Shutdown.Win.handled",
    "Verif.Shutdown.Win.never_blocks",
    "Verif.Shutdown.Win.told",
    "Verif.Shutdown.Win.only_then"
   ],
   "note": "One pipe, waited for without SC_SOCK_EDGE and used for nothing else, with data that is given for nothing else; memory for entries of the poller is available, a write to the wakeup pipe succeeds, and WSAPoll fails while requests are pending only because of a socket that was closed."
  },
  {
   "property": "C165",
   "status": "partial",
   "theorems": [
    "Verif.Frame.Win.in_order",
    "Verif.Frame.Win.complete",
    "Verif.Frame.Win.at_end_partial",
    "Verif.Frame.Win.defined",
    "Verif.Frame.Win.at_end_violated"
   ],
   "note": "All but the end of the stream, which is told by errno: proved for receivers that set errno to 0 before each call, and for threads in which nothing else leaves that number there. Otherwise, after the end of another connection of the same thread, a connection that is reset looks as if it had ended, and messages that were sent are missed. Reading values back, taking messages out and the room in the buffer do not depend on the system, see C159."
  },
  {
   "property": "C166",
   "status": "partial",
   "theorems": [
    "Verif.Thread.Portable.portable_partial",
    "Verif.Thread.Portable.join_twice_violated",
    "Verif.Thread.Portable.restart_violated",
    "Verif.Thread.Portable.join_unstarted_violated"
   ],
   "note": "Proved, in both directions, for programs that start no thread through an object before they have joined the one before and ask for the values only of what they have started (terminating an object, or joining without asking for the value, is free); starts may fail, joins do not. Violated otherwise: on Windows a second join gives the value again (elsewhere a null pointer), a join before any start gives what was in memory, and a thread started before the one before has begun makes both call the second function. A failed pthread_create that stores something is in C66."
  },
  {
   "property": "C167",
   "status": "proved",
   "theorems": [
    "Verif.Cond.Win.portable",
    "Verif.Cond.Win.portable_rest"
   ],
   "note": "For sc_cond_signal and sc_cond_wait. A POSIX signal may wake several threads and threads may wake for no reason on both systems. What sc_cond_init and sc_cond_term return is in C85."
  }
 ]
}
