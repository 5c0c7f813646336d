{"id": "C01", "title": "Array behaves as a list under every history", "statement": "After any sequence of init/add/del/del_unordered/del_last/clear on an sc_array, size() and at(i) report exactly the elements of the list obtained by the same sequence of list operations (append, remove index i, move last into i, drop last, empty), and no operation used within its documented index range touches memory outside the allocation.", "quantifier": "every history of operations, every element type size, every pattern of allocation failures", "why_tests_cant": "the state space is every reachable (capacity, size, contents) and every position at which realloc may fail", "anchors": ["array/sc_array.h: sc_array_add, sc_array_del, sc_array_del_unordered, sc_array_del_last, sc_array_clear, sc_array_at, sc_array_size"]}
{"id": "C02", "title": "Array add either appends or changes nothing", "statement": "sc_array_add on out-of-memory or on reaching the size limit leaves size and contents as they were and makes sc_array_oom() true; otherwise it appends exactly the new element and sc_array_oom() is false. The byte size handed to realloc never wraps.", "quantifier": "every array state, every element size, success or failure of the allocator", "why_tests_cant": "needs failing allocators at every state and arrays near 2^64 bytes", "anchors": ["array/sc_array.h: sc_array_add, sc_array_oom, SC_ARRAY_MAX"]}
{"id": "C03", "title": "Array foreach visits every element once in order", "statement": "sc_array_foreach runs its body once per element, in index order, with the element's value; a break ends the walk and runs no further body.", "quantifier": "every array and every body that may or may not break at each element", "why_tests_cant": "every size and every break position", "anchors": ["array/sc_array.h: sc_array_foreach"]}
{"id": "C04", "title": "Queue behaves as a double-ended queue under every history", "statement": "After any sequence of add_first/add_last/del_first/del_last/clear on an sc_queue, size(), at(i), peek_first(), peek_last(), empty() and the deleted values are those of the abstract double-ended queue, whatever the wrap-around position of the ring and whenever it grows.", "quantifier": "every history, every ring rotation, every growth point, every pattern of allocation failures", "why_tests_cant": "order is preserved across every combination of rotation and growth, not only those a test reaches", "anchors": ["queue/sc_queue.h: sc_queue_add_first, sc_queue_add_last, sc_queue_del_first, sc_queue_del_last, sc_queue_at, sc_queue_size, sc_queue_expand, sc_queue_foreach"]}
{"id": "C05", "title": "Queue foreach visits every element once in order", "statement": "sc_queue_foreach visits the elements first to last exactly once each, for every rotation of the ring.", "quantifier": "every queue state reachable by the API", "why_tests_cant": "every rotation and size", "anchors": ["queue/sc_queue.h: sc_queue_foreach"]}
{"id": "C06", "title": "Queue out-of-memory reports only the last add", "statement": "sc_queue_oom() tells whether the last add failed for lack of memory; an add for which there is already room in the ring succeeds.", "quantifier": "every history with allocation failures", "why_tests_cant": "needs failure of the allocator followed by deletes and adds", "anchors": ["queue/sc_queue.h: sc_queue_oom, sc_queue_expand, sc_queue_add_first, sc_queue_add_last"]}
{"id": "C07", "title": "Heap is a priority queue under every history", "statement": "After any sequence of sc_heap_add/pop/peek/clear with a working allocator, the heap holds exactly the added and not yet popped elements, peek and pop return one with the smallest key, and pop/peek return false exactly when it is empty.", "quantifier": "every history and every key sequence, including equal and negative keys", "why_tests_cant": "ordering must hold for every key sequence and tree shape", "anchors": ["heap/sc_heap.c: sc_heap_add, sc_heap_pop, sc_heap_peek, sc_heap_clear, sc_heap_size"]}
{"id": "C08", "title": "Draining a heap sorts", "statement": "Popping a heap until it is empty returns all its elements in non-decreasing key order.", "quantifier": "every reachable heap", "why_tests_cant": "every input sequence", "anchors": ["heap/sc_heap.c: sc_heap_pop"]}
{"id": "C09", "title": "A failed heap add changes nothing", "statement": "When sc_heap_add returns false for lack of memory the heap holds the same elements as before and later operations are unaffected.", "quantifier": "every heap state at which the allocator may fail", "why_tests_cant": "needs allocator failure at every size", "anchors": ["heap/sc_heap.c: sc_heap_add"]}
{"id": "C10", "title": "Heap never accesses memory outside its array", "statement": "With a working allocator no sc_heap operation reads or writes outside the allocated block, for any init capacity including 0.", "quantifier": "every history and every init capacity", "why_tests_cant": "covers every index computed by sift-up and sift-down", "anchors": ["heap/sc_heap.c: sc_heap_init, sc_heap_add, sc_heap_pop"]}
{"id": "C11", "title": "Map behaves as a finite map under every history", "statement": "After any sequence of put/get/del/clear on an sc_map, get returns the last value put for the key and not deleted since, found() tells whether the key was present, put returns the previous value, del returns and removes the value, and other keys are not affected, whatever collisions occur and whenever the table grows.", "quantifier": "every history, every key set (including the zero/NULL key), every hash function, every load factor the API allows", "why_tests_cant": "collision chains, wrap-around of probing and backward-shift deletion have unboundedly many shapes", "anchors": ["map/sc_map.c: sc_map_put_##name, sc_map_get_##name, sc_map_del_##name, sc_map_remap_##name, sc_map_clear_##name"]}
{"id": "C12", "title": "Map size is the number of keys", "statement": "sc_map_size() equals the number of distinct keys present after every operation.", "quantifier": "every history", "why_tests_cant": "every interleaving of overwrites, deletes, growth", "anchors": ["map/sc_map.h: sc_map_size; map/sc_map.c"]}
{"id": "C13", "title": "Map operations terminate", "statement": "Every probe loop of get, put, del and growth ends, because the table always keeps an empty slot.", "quantifier": "every reachable table and every key", "why_tests_cant": "non-termination cannot be observed by a finite test", "anchors": ["map/sc_map.c: sc_map_put_##name, sc_map_get_##name, sc_map_del_##name, sc_map_remap_##name"]}
{"id": "C14", "title": "Map foreach visits every entry once", "statement": "sc_map_foreach, sc_map_foreach_key and sc_map_foreach_value visit every key/value pair present exactly once and nothing else.", "quantifier": "every reachable map", "why_tests_cant": "every layout of the table, with and without the zero key", "anchors": ["map/sc_map.h: sc_map_foreach, sc_map_foreach_key, sc_map_foreach_value"]}
{"id": "C15", "title": "A failed map put changes nothing", "statement": "When sc_map_put cannot allocate, sc_map_oom() is true and the contents of the map are the same as before; otherwise oom() is false.", "quantifier": "every map state at which growth is needed", "why_tests_cant": "needs allocator failure at every growth point", "anchors": ["map/sc_map.c: sc_map_put_##name, sc_map_remap_##name; map/sc_map.h: sc_map_oom"]}
{"id": "C16", "title": "Map can be used with every initial capacity that init accepts", "statement": "If sc_map_init returns true, get, put and del are safe and correct, for every cap argument.", "quantifier": "all 2^32 cap values", "why_tests_cant": "capacities above 2^31 need gigabytes to try", "anchors": ["map/sc_map.c: sc_map_init_##name"]}
{"id": "C17", "title": "String-keyed maps compare contents", "statement": "For string-keyed maps two keys are the same exactly when their bytes are equal, wherever they are stored, and the hash depends only on the bytes of the string.", "quantifier": "every pair of NUL-terminated strings", "why_tests_cant": "needs all pairs of strings, including ones whose hashes collide", "anchors": ["map/sc_map.c: sc_map_def_strkey, murmurhash, sc_map_streq"]}
{"id": "C18", "title": "Linked list behaves as a sequence under every history", "statement": "After any sequence of add_head/add_tail/add_after/add_before/pop_head/pop_tail/del/clear over several sc_lists, the forward walk of each list gives exactly the elements of the abstract sequence, the backward walk gives its reverse, head()/tail()/count()/is_empty() agree, and adding an element that is already in a list moves it instead of duplicating it.", "quantifier": "every history over any number of lists and elements", "why_tests_cant": "pointer structures of every size and aliasing pattern", "anchors": ["linked-list/sc_list.c: sc_list_add_head, sc_list_add_tail, sc_list_add_after, sc_list_add_before, sc_list_pop_head, sc_list_pop_tail, sc_list_del, sc_list_clear, sc_list_count, sc_list_head, sc_list_tail"]}
{"id": "C19", "title": "List iteration tolerates deletion of the current element", "statement": "sc_list_foreach_safe and sc_list_foreach_safe_r visit every element exactly once in order even if the body deletes any subset of the elements as it visits them, and what remains is the list without the deleted elements.", "quantifier": "every list and every choice of deletions", "why_tests_cant": "2^n deletion patterns for every n", "anchors": ["linked-list/sc_list.h: sc_list_foreach_safe, sc_list_foreach_safe_r"]}
{"id": "C20", "title": "List operations leave other lists alone", "statement": "An operation on one list and one element changes no other list, except the list the element was removed from.", "quantifier": "every heap of lists", "why_tests_cant": "every aliasing pattern", "anchors": ["linked-list/sc_list.c"]}
{"id": "C21", "title": "Clearing a list detaches every element", "statement": "After sc_list_clear the list is empty and each former element is detached, so that a later sc_list_del on it does nothing and adding it to another list works.", "quantifier": "every list", "why_tests_cant": "every length", "anchors": ["linked-list/sc_list.c: sc_list_clear, sc_list_del"]}
{"id": "C22", "title": "Timer never fires early", "statement": "A timer's callback runs in sc_timer_timeout only when the time given to it has reached the timer's deadline (timestamp at add plus timeout, which must be representable below 2^64-1).", "quantifier": "every history of add/cancel/timeout calls with non-decreasing times", "why_tests_cant": "every interleaving of slots, expansions and times", "anchors": ["timer/sc_timer.c: sc_timer_add, sc_timer_timeout"]}
{"id": "C23", "title": "Each timer fires at most once with its own data", "statement": "Every callback invocation belongs to a timer that was added, was not cancelled or cleared, and did not fire before, and it is given the timeout, type and data it was added with.", "quantifier": "every history, including callbacks that add and cancel timers", "why_tests_cant": "every history and every re-entrant callback behaviour", "anchors": ["timer/sc_timer.c: sc_timer_timeout, sc_timer_add, sc_timer_cancel"]}
{"id": "C24", "title": "Due timers do fire", "statement": "A timer that is not cancelled fires once sc_timer_timeout has been called with times that take the wheel past its slot; a call that advances the wheel by a full revolution fires every timer that is due.", "quantifier": "every reachable timer state", "why_tests_cant": "liveness over all histories", "anchors": ["timer/sc_timer.c: sc_timer_timeout"]}
{"id": "C25", "title": "Timer ids identify live timers uniquely", "statement": "The ids of the timers alive at any time are distinct and stay valid across internal growth, and sc_timer_cancel removes exactly the timer whose id it is given and sets the id to SC_TIMER_INVALID.", "quantifier": "every history", "why_tests_cant": "requires all positions, sequence numbers and growth points", "anchors": ["timer/sc_timer.c: sc_timer_add, sc_timer_cancel, expand"]}
{"id": "C26", "title": "Timer wait hint is bounded", "statement": "sc_timer_timeout returns a value no larger than the wheel tick, and never one after which the caller would skip past a tick.", "quantifier": "every reachable state and time", "why_tests_cant": "all states and times", "anchors": ["timer/sc_timer.c: sc_timer_timeout"]}
{"id": "C27", "title": "String append is concatenation or no change", "statement": "sc_str_append and sc_str_append_fmt either make the string the concatenation of old and new content, or on lack of memory or over-long result return false and leave it unchanged.", "quantifier": "every pair of strings and allocation outcome", "why_tests_cant": "every length and the 32-bit length limit", "anchors": ["string/sc_str.c: sc_str_append, sc_str_append_fmt"]}
{"id": "C28", "title": "String create, dup, set and len round-trip", "statement": "The content of a created, duplicated or set string is the given bytes, sc_str_len is their number and sc_str_cmp is true exactly for equal length and bytes; a failed set leaves the old string.", "quantifier": "every byte string and allocation outcome", "why_tests_cant": "all strings", "anchors": ["string/sc_str.c: sc_str_create, sc_str_create_len, sc_str_dup, sc_str_set, sc_str_len, sc_str_cmp"]}
{"id": "C29", "title": "Trim removes exactly the outer listed characters", "statement": "sc_str_trim leaves the longest substring whose first and last characters are not in the given list, and returns false leaving the string unchanged only on lack of memory.", "quantifier": "every string and character list", "why_tests_cant": "all strings and lists", "anchors": ["string/sc_str.c: sc_str_trim"]}
{"id": "C30", "title": "Substring selects the range", "statement": "sc_str_substring(start,end) makes the string its characters start..end-1 when start <= end <= len and otherwise returns false and leaves it unchanged.", "quantifier": "every string and pair of indexes", "why_tests_cant": "all strings and ranges", "anchors": ["string/sc_str.c: sc_str_substring"]}
{"id": "C31", "title": "Replace substitutes every leftmost non-overlapping occurrence", "statement": "sc_str_replace makes the string the result of replacing each leftmost non-overlapping occurrence of a non-empty pattern, or returns false and leaves it unchanged.", "quantifier": "every string, pattern, replacement and allocation outcome", "why_tests_cant": "all strings, overlapping occurrences, size limits", "anchors": ["string/sc_str.c: sc_str_replace"]}
{"id": "C32", "title": "Replace terminates for every pattern", "statement": "sc_str_replace returns for every string, pattern and replacement.", "quantifier": "every argument", "why_tests_cant": "non-termination cannot be shown by a finite test", "anchors": ["string/sc_str.c: sc_str_replace"]}
{"id": "C33", "title": "Tokenizing splits at delimiters and restores the string", "statement": "sc_str_token_begin called repeatedly returns the pieces of the string between delimiter characters, in order; after sc_str_token_end the string has its original content, whether or not the walk was completed.", "quantifier": "every string, delimiter set and number of steps taken", "why_tests_cant": "all strings and stop points", "anchors": ["string/sc_str.c: sc_str_token_begin, sc_str_token_end"]}
{"id": "C34", "title": "Integers round-trip through the buffer in little-endian order", "statement": "The put_8/16/32/64/bool/double functions write the value's little-endian bytes and the matching get returns the same value, for every value.", "quantifier": "all 2^8..2^64 values and every buffer with room", "why_tests_cant": "2^64 values", "anchors": ["buffer/sc_buf.c: sc_buf_put_64, sc_buf_get_64, sc_buf_put_32, sc_buf_get_32, sc_buf_put_16, sc_buf_get_16, sc_buf_put_8, sc_buf_get_8"]}
{"id": "C35", "title": "Any typed message round-trips", "statement": "Reading back with the same types any sequence of ints, bools, doubles, strings (also NULL) and blobs written to a buffer returns the same values in order, without error, and leaves nothing unread.", "quantifier": "every sequence of typed values that fits", "why_tests_cant": "every mixture of types and lengths", "anchors": ["buffer/sc_buf.c: sc_buf_put_*, sc_buf_get_*"]}
{"id": "C36", "title": "Buffer positions stay in range", "statement": "After any sequence of operations read position <= write position <= capacity and no operation accesses memory outside the buffer's memory.", "quantifier": "every history with in-range set_rpos/set_wpos/mark arguments and every byte content", "why_tests_cant": "includes hostile encoded lengths", "anchors": ["buffer/sc_buf.c, buffer/sc_buf.h"]}
{"id": "C37", "title": "Decoding hostile bytes never reads outside the data", "statement": "Whatever bytes a buffer holds, the get functions only return data inside the written region, and on truncated data return 0/NULL and make the buffer invalid.", "quantifier": "every byte content, in particular every encoded 32/64-bit length", "why_tests_cant": "2^64 length fields", "anchors": ["buffer/sc_buf.c: sc_buf_get_str, sc_buf_get_blob, sc_buf_get_data, sc_buf_get_64"]}
{"id": "C38", "title": "Buffer errors are sticky until clear", "statement": "After an operation made the buffer invalid, put functions write nothing, fixed-size get functions return 0 and sc_buf_valid stays false until sc_buf_clear.", "quantifier": "every history after an error", "why_tests_cant": "every continuation", "anchors": ["buffer/sc_buf.c, sc_buf_valid, sc_buf_clear"]}
{"id": "C39", "title": "Buffer growth respects the limit", "statement": "Growing a buffer never makes its capacity exceed the limit, and never reallocates memory the buffer only refers to.", "quantifier": "every history", "why_tests_cant": "every size and limit", "anchors": ["buffer/sc_buf.c: sc_buf_reserve, sc_buf_limit, sc_buf_wrap, sc_buf_shrink"]}
{"id": "C40", "title": "Compact, shrink and reserve keep the unread bytes", "statement": "sc_buf_compact, sc_buf_shrink and sc_buf_reserve do not change the unread content; reserve leaves room for the requested bytes when it succeeds.", "quantifier": "every buffer state and requested length", "why_tests_cant": "all 64-bit lengths", "anchors": ["buffer/sc_buf.c: sc_buf_compact, sc_buf_shrink, sc_buf_reserve"]}
{"id": "C41", "title": "Moving bytes between buffers loses none", "statement": "sc_buf_move appends to the destination exactly the bytes it removes from the source.", "quantifier": "every pair of buffers", "why_tests_cant": "all fill levels, limits and allocation outcomes", "anchors": ["buffer/sc_buf.c: sc_buf_move"]}
{"id": "C42", "title": "Encoded-length functions are exact", "statement": "sc_buf_8_len .. sc_buf_blob_len return the number of bytes the corresponding put adds.", "quantifier": "every value", "why_tests_cant": "all lengths", "anchors": ["buffer/sc_buf.h: sc_buf_str_len, sc_buf_blob_len, sc_buf_64_len"]}
{"id": "C43", "title": "Formatted put stores the formatted string", "statement": "sc_buf_put_fmt on a valid buffer that can grow stores the formatted text so that get_str returns it; put_text appends text and keeps exactly one terminator.", "quantifier": "every text and buffer state", "why_tests_cant": "all fill levels around the capacity boundary", "anchors": ["buffer/sc_buf.c: sc_buf_put_fmt, sc_buf_put_text"]}
{"id": "C44", "title": "CRC is CRC-32C on every path", "statement": "sc_crc32 returns the CRC-32C (Castagnoli, reflected) of the data, for every length, alignment, starting value, and for the hardware, little-endian table and big-endian table implementations alike.", "quantifier": "every byte string, start value, alignment and code path", "why_tests_cant": "lengths and alignments exercise blocked loops with unboundedly many combinations", "anchors": ["crc32/sc_crc32.c: crc32_sw_le, crc32_sw_be, crc32_hw, crc32_zeros, gf2_matrix_times, sc_crc32"]}
{"id": "C45", "title": "CRC is incremental", "statement": "sc_crc32(sc_crc32(c, a), b) equals sc_crc32(c, a ++ b).", "quantifier": "every split of every byte string", "why_tests_cant": "all strings and splits", "anchors": ["crc32/sc_crc32.c: sc_crc32"]}
{"id": "C46", "title": "CRC detects every short burst", "statement": "Two equal-length messages that differ only within a window of 32 bits have different CRCs.", "quantifier": "every message, position and burst", "why_tests_cant": "infinitely many messages", "anchors": ["crc32/sc_crc32.c: sc_crc32"]}
{"id": "C47", "title": "Power-of-two helpers are exact", "statement": "sc_is_pow2(n) is true exactly when n is a power of two, and sc_to_pow2(n) is the least power of two >= n whenever one fits in 64 bits.", "quantifier": "all 2^64 arguments", "why_tests_cant": "2^64 values", "anchors": ["sc/sc.c: sc_is_pow2, sc_to_pow2"]}
{"id": "C48", "title": "Size strings parse to exact byte counts", "statement": "sc_size_to_bytes accepts exactly a decimal int64 followed by an optional unit b/k/m/g/t/p/e (any case, optionally followed by b) and returns number times unit, and -1 on anything else or on overflow.", "quantifier": "every C string", "why_tests_cant": "all strings", "anchors": ["sc/sc.c: sc_size_to_bytes"]}
{"id": "C49", "title": "Byte counts render in the right unit", "statement": "sc_bytes_to_size picks the unit such that 1 <= value < 1024 (for values up to the petabyte range) and prints the value within half of the last digit.", "quantifier": "all 2^64 values", "why_tests_cant": "2^64 values", "anchors": ["sc/sc.c: sc_bytes_to_size"]}
{"id": "C50", "title": "Random stream is independent of read sizes", "statement": "Reading n then m bytes from sc_rand gives the same bytes as reading n+m, the stream depends only on the seed and equals RC4 with that key, and the internal table stays a permutation.", "quantifier": "every seed and read pattern", "why_tests_cant": "all read patterns", "anchors": ["sc/sc.c: sc_rand_init, sc_rand_read"]}
{"id": "C51", "title": "Signal-safe formatting never overruns and is a prefix", "statement": "sc_signal_snprintf writes at most size bytes and nothing beyond them, NUL-terminates, and the text is the longest prefix that fits of the exact rendering of the format; it returns the number of characters written, and -1 for a conversion it does not support.", "quantifier": "every format string, argument list and size", "why_tests_cant": "all sizes and formats", "anchors": ["signal/sc_signal.c: sc_signal_vsnprintf, sc_signal_snprintf"]}
{"id": "C52", "title": "Signal-safe numbers are exact", "statement": "%d, %u and their l/ll variants render exactly the decimal value, %p the hexadecimal one, %s the string or (null).", "quantifier": "all 64-bit values", "why_tests_cant": "2^64 values", "anchors": ["signal/sc_signal.c: sc_signal_vsnprintf, get_int, get_uint"]}
{"id": "C53", "title": "Second shutdown signal forces exit", "statement": "The first shutdown signal writes one byte to the shutdown descriptor and returns, or ends the process if there is no descriptor or writing fails; a further one that arrives before the process has ended ends it at once.", "quantifier": "every sequence of signals", "why_tests_cant": "all signal histories", "anchors": ["signal/sc_signal.c: sc_signal_on_shutdown"]}
{"id": "C54", "title": "Ini parsing recovers what was written", "statement": "For every document of sections, keys, values and comments written in the documented syntax, the parser reports exactly its items, in order, with section names, keys and values as written and correct line numbers.", "quantifier": "every well-formed document", "why_tests_cant": "infinite set of documents", "anchors": ["ini/sc_ini.c: sc_ini_parse_string, sc_ini_parse, trim_*"]}
{"id": "C55", "title": "Ini parsing stops where the callback or an error says", "statement": "Parsing reports items up to the first malformed line or the first callback refusal, and returns that line's number; 0 exactly when everything was accepted.", "quantifier": "every input and every callback", "why_tests_cant": "all inputs and callbacks", "anchors": ["ini/sc_ini.c: sc_ini_parse"]}
{"id": "C56", "title": "Ini string and file parsing agree", "statement": "Parsing a document from a file gives the same result as parsing it from a string when no line exceeds the line buffer, and names never exceed the documented maximum.", "quantifier": "every document", "why_tests_cant": "all line lengths", "anchors": ["ini/sc_ini.c: sc_ini_parse_file, sc_ini_parse_string, string_line"]}
{"id": "C57", "title": "Uri components recompose to the string", "statement": "A parsed sc_uri's str field is scheme ':' ['//'] [userinfo '@'] host [':' port] path ['?' query] ['#' fragment] built from its own component fields.", "quantifier": "every accepted string", "why_tests_cant": "all strings", "anchors": ["uri/sc_uri.c: sc_uri_create"]}
{"id": "C58", "title": "Uri parsing inverts composition", "statement": "Parsing the composition of well-formed components returns exactly these components.", "quantifier": "every tuple of well-formed components", "why_tests_cant": "all tuples", "anchors": ["uri/sc_uri.c: sc_uri_create"]}
{"id": "C59", "title": "Uri parsing keeps the input", "statement": "The str field of a parsed uri equals the input string.", "quantifier": "every accepted string", "why_tests_cant": "all strings", "anchors": ["uri/sc_uri.c: sc_uri_create"]}
{"id": "C60", "title": "Command line options are matched exactly", "statement": "sc_option_at returns the letter of the first option whose short or long form the argument is, with the value after '=' (empty if none), '?' if there is none.", "quantifier": "every option table and argument list", "why_tests_cant": "all strings", "anchors": ["option/sc_option.c: sc_option_at"]}
{"id": "C61", "title": "Log messages reach exactly the enabled sinks", "statement": "A message at or above the level is delivered once to each enabled sink (stdout, or stderr for errors; current file; callback) and a message below the level to none.", "quantifier": "every configuration and message", "why_tests_cant": "all configurations", "anchors": ["logger/sc_log.c: sc_log_log, sc_log_stdout, sc_log_file, sc_log_set_level, sc_log_set_stdout, sc_log_set_callback, sc_log_set_file"]}
{"id": "C62", "title": "Log rotation keeps the newest lines in order", "statement": "After any sequence of file log calls, previous file followed by current file is a suffix of all the lines written, in order, with no line split or duplicated.", "quantifier": "every sequence of messages and every rotation point", "why_tests_cant": "rotation happens after megabytes", "anchors": ["logger/sc_log.c: sc_log_file"]}
{"id": "C63", "title": "Log file size is bounded", "statement": "The current log file does not grow beyond the rotation size by more than the last line.", "quantifier": "every sequence of messages", "why_tests_cant": "needs megabytes of logs of every line length", "anchors": ["logger/sc_log.c: sc_log_file, SC_LOG_FILE_SIZE"]}
{"id": "C64", "title": "Log level names are parsed without case", "statement": "sc_log_set_level accepts exactly the level names, ignoring case, and otherwise returns -1 and keeps the level.", "quantifier": "every string", "why_tests_cant": "all strings", "anchors": ["logger/sc_log.c: sc_log_set_level"]}
{"id": "C65", "title": "Condition signals are not lost and not duplicated", "statement": "Each sc_cond_wait returns the data of a signal that has not been consumed by another wait since, and when a signal was set while threads wait, some waiter gets to return.", "quantifier": "every interleaving of any number of signallers and waiters, with spurious wakeups", "why_tests_cant": "all schedules", "anchors": ["condition/sc_cond.c: sc_cond_signal, sc_cond_wait"]}
{"id": "C66", "title": "Thread join is idempotent", "statement": "sc_thread_join waits for the thread and returns its value once; a second join returns success at once without touching the thread.", "quantifier": "every history of start/join/term", "why_tests_cant": "all schedules", "anchors": ["thread/sc_thread.c"]}
{"id": "C67", "title": "Sleeping lasts at least the requested time", "statement": "sc_time_sleep returns 0 only after the full requested time has elapsed, however often it is interrupted.", "quantifier": "every pattern of interruptions", "why_tests_cant": "all interruption patterns", "anchors": ["time/sc_time.c: sc_time_sleep"]}
{"id": "C68", "title": "Memory map never leaks or double-closes a file", "statement": "On every failure path sc_mmap_init closes what it opened and leaves the object such that sc_mmap_term is a no-op; on success exactly one term releases both.", "quantifier": "every outcome of every system call", "why_tests_cant": "all failure combinations", "anchors": ["memory-map/sc_mmap.c: sc_mmap_init, sc_mmap_term"]}
{"id": "C69", "title": "Memory map sync covers the requested range", "statement": "sc_mmap_msync(offset,len) asks the OS to write back every byte of the range.", "quantifier": "every offset and length", "why_tests_cant": "all ranges", "anchors": ["memory-map/sc_mmap.c: sc_mmap_msync"]}
{"id": "C70", "title": "Socket send and receive hide interruptions", "statement": "sc_sock_send/recv return a byte count or -1 with an error other than EINTR; end of stream is reported as -1 with EOF; would-block only as EAGAIN.", "quantifier": "every sequence of system call outcomes", "why_tests_cant": "all interruption patterns", "anchors": ["socket/sc_sock.c: sc_sock_send, sc_sock_recv"]}
{"id": "C71", "title": "Socket timeouts have millisecond meaning", "statement": "sc_sock_set_rcvtimeo/sndtimeo(ms) set the kernel timeout to ms milliseconds.", "quantifier": "every ms", "why_tests_cant": "all values", "anchors": ["socket/sc_sock.c: sc_sock_set_rcvtimeo, sc_sock_set_sndtimeo"]}
{"id": "C72", "title": "Poll interest matches the API history", "statement": "After any sequence of sc_sock_poll_add/del, the kernel's registration of the descriptor is exactly the union of the added and not deleted events, no call uses a wrong kernel operation, and a failed call changes nothing.", "quantifier": "every history and failure pattern", "why_tests_cant": "all histories", "anchors": ["socket/sc_sock.c: sc_sock_poll_add, sc_sock_poll_del (epoll, kqueue)"]}
{"id": "C73", "title": "Windows poll table addresses are unique and in bounds", "statement": "The table of poll entries maps each index below capacity to its own cell inside an allocated chunk.", "quantifier": "every capacity and index", "why_tests_cant": "all indexes", "anchors": ["socket/sc_sock.c: sc_sock_poll_data_inner, sc_sock_poll_expand"]}
{"id": "C74", "title": "Deferred poll changes equal immediate ones", "statement": "On Windows, add/del requests submitted while another thread polls have, once applied, the same effect as if applied at once.", "quantifier": "every sequence of requests", "why_tests_cant": "all histories", "anchors": ["socket/sc_sock.c: sc_sock_poll_submit, sc_sock_poll_add, sc_sock_poll_del, sc_sock_poll_event_inner"]}
{"id": "C75", "title": "Failed connects and binds leak no descriptor", "statement": "sc_sock_connect, sc_sock_listen and sc_sock_accept close every descriptor they opened when they fail and leave exactly one open on success.", "quantifier": "every outcome of every system call and every address list", "why_tests_cant": "all failure combinations", "anchors": ["socket/sc_sock.c: sc_sock_connect, sc_sock_bind, sc_sock_listen, sc_sock_accept"]}
{"id": "C76", "title": "Performance totals accumulate over pauses", "statement": "The totals reported by sc_perf_end are the sums over all start/pause intervals.", "quantifier": "every sequence of start/pause/end", "why_tests_cant": "all sequences", "anchors": ["perf/sc_perf.c: sc_perf_start, sc_perf_pause, sc_perf_end"]}
{"id": "C77", "title": "CRC detects every odd number of bit errors", "statement": "Two messages of equal length that differ in an odd number of bits have different CRCs.", "quantifier": "every pair of messages", "why_tests_cant": "infinitely many messages and error patterns", "anchors": ["crc32/sc_crc32.c: sc_crc32"]}
{"id": "C78", "title": "CRC detects up to three bit errors", "statement": "Two messages of equal length below 256 MiB that differ in one, two or three bits have different CRCs.", "quantifier": "every pair of messages below 2^28 bytes", "why_tests_cant": "the number of messages and error positions is astronomical; depends on the order of x modulo the generator", "anchors": ["crc32/sc_crc32.c: sc_crc32"]}
{"id": "C79", "title": "Shutdown signals leave errno alone", "statement": "Code interrupted by a shutdown signal finds errno unchanged when the handler returns, also when handlers interrupt each other.", "quantifier": "every interleaving of signals, handler steps and results of system calls", "why_tests_cant": "a signal can arrive between any two instructions", "anchors": ["signal/sc_signal.c: sc_signal_on_shutdown"]}
{"id": "C80", "title": "Fatal signals are reported and still fatal", "statement": "After a successful sc_signal_init, SIGSEGV, SIGABRT, SIGBUS, SIGFPE and SIGILL are reported with number and name on the log descriptor or stderr and then end the process with that same signal; SIGHUP and SIGPIPE are ignored; init fails iff one of the registrations fails.", "quantifier": "every fatal signal, log descriptor, instruction pointer and pattern of failing registrations", "why_tests_cant": "cannot be survived by a test; many failure patterns", "anchors": ["signal/sc_signal.c: sc_signal_init, sc_signal_on_fatal, sc_signal_log"]}
{"id": "C81", "title": "Logging threads do not interleave", "statement": "When several threads log, the effects are those of the calls run one after the other: lines appear whole on the streams, in the files and in the callback, each call takes effect exactly once and the calls of one thread in program order.", "quantifier": "every interleaving of any number of threads, every outcome of library calls", "why_tests_cant": "schedules cannot be enumerated by running", "anchors": ["logger/sc_log.c: sc_log_log, sc_log_set_file, sc_log_set_stdout, sc_log_set_callback, sc_log_mutex_lock"]}
{"id": "C82", "title": "Thread names are cut, never overflow", "statement": "sc_log_set_thread_name stores the name of the calling thread cut to 31 bytes, always NUL-terminated, within its buffer.", "quantifier": "every name and every sequence of names", "why_tests_cant": "all lengths and all previous contents", "anchors": ["logger/sc_log.c: sc_log_set_thread_name"]}
{"id": "C83", "title": "Setting the log files succeeds fully or turns file logging off", "statement": "sc_log_set_file returns 0 with the file open, ended by a newline and its size counted, or -1 with errno set and file logging off; names of 255 bytes or more are rejected, no other file is touched and no stream is left open.", "quantifier": "every pair of names, every outcome of fopen, fprintf and ftell, every prior state", "why_tests_cant": "failures of the library at each step", "anchors": ["logger/sc_log.c: sc_log_set_file, sc_log_term"]}
{"id": "C84", "title": "The logger neither deadlocks nor has undefined behaviour", "statement": "Whatever the calls of the library return, every critical section of the logger ends within a bounded number of steps, releases the mutex, accesses memory only inside its buffers, and all calls of all threads can return.", "quantifier": "every interleaving, every outcome of library calls", "why_tests_cant": "absence of a schedule cannot be observed", "anchors": ["logger/sc_log.c"]}
{"id": "C85", "title": "Condition objects are created and destroyed without leaks", "statement": "sc_cond_init returns 0 with one mutex and one condition variable held, or -1 with errno set and nothing held; sc_cond_term gives them back once, does nothing after a failed init or a previous term, and returns 0 or a negative value.", "quantifier": "every outcome of every library call", "why_tests_cant": "failures of the library at each step", "anchors": ["condition/sc_cond.c: sc_cond_init, sc_cond_term"]}
{"id": "C86", "title": "Every signal releases a waiter", "statement": "Each sc_cond_signal that finds a waiting thread leads to one return of sc_cond_wait, so as many waits return as signals were sent to waiting threads.", "quantifier": "every interleaving of signallers and waiters", "why_tests_cant": "all schedules", "anchors": ["condition/sc_cond.c: sc_cond_signal, sc_cond_wait"]}
{"id": "C87", "title": "The mutex excludes", "statement": "Between the return of sc_mutex_lock in one thread and its sc_mutex_unlock no other sc_mutex_lock returns; creating and destroying leak nothing and report failures as -1.", "quantifier": "every interleaving, every outcome of library calls", "why_tests_cant": "all schedules", "anchors": ["mutex/sc_mutex.c"]}
{"id": "C88", "title": "Clocks are converted exactly", "statement": "sc_time_ms, sc_time_ns, sc_time_mono_ms and sc_time_mono_ns return the reading of the clock in whole units, and the monotonic ones never go back.", "quantifier": "every reading of the clock", "why_tests_cant": "all times, in particular distant ones", "anchors": ["time/sc_time.c: sc_time_ms, sc_time_ns, sc_time_mono_ms, sc_time_mono_ns"]}
{"id": "C89", "title": "The error text of a thread object is a string", "statement": "sc_thread_err returns a terminated string at any time, and after a failed call the text of the error cut to the buffer.", "quantifier": "every history of calls and every error text", "why_tests_cant": "all prior contents of memory", "anchors": ["thread/sc_thread.c: sc_thread_err, sc_thread_start, sc_thread_join"]}
{"id": "C90", "title": "A memory map covers the range asked for", "statement": "After sc_mmap_init succeeds, the map has the length asked for, or for length 0 reaches from the offset to the end of the file; with PROT_WRITE the file is at least offset + length bytes long.", "quantifier": "every offset, length, file size and outcome of system calls", "why_tests_cant": "all combinations, including those that wrap", "anchors": ["memory-map/sc_mmap.c: sc_mmap_init"]}
{"id": "C91", "title": "Mapping a file keeps its contents", "statement": "sc_mmap_init changes no byte that the file had, whether it succeeds or fails; it only appends zeros.", "quantifier": "every file, offset, length and outcome of system calls", "why_tests_cant": "all sizes of files and blocks", "anchors": ["memory-map/sc_mmap.c: sc_mmap_init"]}
{"id": "C92", "title": "The error text of a memory map is a string", "statement": "sc_mmap_err returns a terminated string at any time after sc_mmap_init, and after a failed call the text of the error of the call that failed, cut to 127 bytes.", "quantifier": "every history of calls, every error text and outcome", "why_tests_cant": "all error texts and failing calls", "anchors": ["memory-map/sc_mmap.c: sc_mmap_err, sc_mmap_init, sc_mmap_term, sc_mmap_msync, sc_mmap_mlock"]}
{"id": "C93", "title": "Connecting tries every address, those of the preferred family first", "statement": "sc_sock_connect tries the addresses the name resolves to in the order of the resolver, first those of the family given to sc_sock_init, then the others, each once, until one accepts; it fails only when all have been tried or a socket cannot be set up.", "quantifier": "every list of addresses and outcome of system calls", "why_tests_cant": "all lists and failure combinations", "anchors": ["socket/sc_sock.c: sc_sock_connect, sc_sock_bind_src"]}
{"id": "C94", "title": "The error text of a socket is that of the failed call", "statement": "After a failed sc_sock_listen, sc_sock_connect, sc_sock_accept, sc_sock_finish_connect or sc_sock_term, sc_sock_error returns a terminated string, the text of an error that occurred in that call, cut to 127 bytes.", "quantifier": "every error text and every outcome of every system call", "why_tests_cant": "all error texts and failing calls", "anchors": ["socket/sc_sock.c: sc_sock_errstr, sc_sock_error, sc_sock_finish_connect, sc_sock_term"]}
{"id": "C95", "title": "Sockets have the blocking mode asked for", "statement": "A socket that listens, connects or was accepted is non-blocking exactly if the object was initialised to be.", "quantifier": "every family and outcome of system calls", "why_tests_cant": "all combinations", "anchors": ["socket/sc_sock.c: sc_sock_listen, sc_sock_connect, sc_sock_accept"]}
{"id": "C96", "title": "Unix paths name the same place for both sides", "statement": "sc_sock_listen at a unix path and sc_sock_connect to the same path name the same file, which is the path given, or fail.", "quantifier": "every path", "why_tests_cant": "paths of all lengths", "anchors": ["socket/sc_sock.c: sc_sock_bind_unix, sc_sock_connect_unix"]}
{"id": "C97", "title": "Pipes are queues that hide interruptions", "statement": "sc_sock_pipe_init opens two descriptors or none and sc_sock_pipe_term closes both; the bytes counted by the results of sc_sock_pipe_read are those counted by the results of sc_sock_pipe_write, in order, whatever is interrupted.", "quantifier": "every history of writes and reads and every outcome of system calls", "why_tests_cant": "all interleavings of interruptions, failures and partial transfers", "anchors": ["socket/sc_sock.c: sc_sock_pipe_init, sc_sock_pipe_term, sc_sock_pipe_write, sc_sock_pipe_read"]}
{"id": "C98", "title": "Notifications reach the named socket", "statement": "sc_sock_notify_systemd returns 0 only if the whole message was sent to the socket NOTIFY_SOCKET names, by path or abstract name, and leaves no descriptor open.", "quantifier": "every message and name and every outcome of system calls", "why_tests_cant": "names of all lengths", "anchors": ["socket/sc_sock.c: sc_sock_notify_systemd"]}
{"id": "C99", "title": "Address texts fit their buffer and name the address", "statement": "sc_sock_local_str, sc_sock_remote_str and sc_sock_print write no more than len bytes and leave a terminated string, the address and port or path of the socket cut to the size of the buffer; different addresses have different texts.", "quantifier": "every address, buffer size and outcome of system calls", "why_tests_cant": "all addresses and sizes", "anchors": ["socket/sc_sock.c: sc_sock_local_str, sc_sock_remote_str, sc_sock_print, sc_sock_print_storage"]}
{"id": "C100", "title": "Events come with the data last given", "statement": "The data returned by sc_sock_poll_data for an event of an object is what was given in the last successful sc_sock_poll_add or sc_sock_poll_del call for it.", "quantifier": "every history of calls, for any number of objects", "why_tests_cant": "all histories", "anchors": ["socket/sc_sock.c: sc_sock_poll_add, sc_sock_poll_del, sc_sock_poll_data"]}
{"id": "C101", "title": "Waiting tells what is waited for, in time", "statement": "sc_sock_poll_wait hides interruptions, returns at most as many events as there is room for, waits no longer than its timeout and fails with a text that names the cause; sc_sock_poll_event tells of input and output that is waited for and there, or of errors; a poller that was destroyed or not created holds no memory or descriptor.", "quantifier": "every history of calls, every outcome of system calls and every pattern of interruptions", "why_tests_cant": "all histories and interruptions", "anchors": ["socket/sc_sock.c: sc_sock_poll_init, sc_sock_poll_term, sc_sock_poll_wait, sc_sock_poll_event"]}
{"id": "C102", "title": "Requests wake a waiting poller", "statement": "On Windows, when sc_sock_poll_add or sc_sock_poll_del returns while another thread waits in sc_sock_poll_wait, the wait ends without anything else happening and the request takes effect; the waiting thread never blocks on its wakeup pipe.", "quantifier": "every schedule of any number of requesting threads and a waiting thread, every outcome of the system's poll call", "why_tests_cant": "a request may come at any point of a wait", "anchors": ["socket/sc_sock.c: sc_sock_poll_submit, sc_sock_poll_add, sc_sock_poll_del, sc_sock_poll_wait (Windows)"]}
{"id": "C103", "title": "A wait tells what was found, of objects that are registered", "statement": "On Windows, every event sc_sock_poll_wait tells is of an object that is registered when it returns, with its data, and was found by the system for its descriptor; no more events are told at a time than there is room for, and nothing that was found for a registered object is lost.", "quantifier": "every history of requests from any number of threads, every outcome of the system's poll call", "why_tests_cant": "objects may be registered and deregistered at any point of a wait, thousands of them", "anchors": ["socket/sc_sock.c: sc_sock_poll_submit, sc_sock_poll_add, sc_sock_poll_del, sc_sock_poll_wait (Windows)", "socket/sc_sock.c: sc_sock_poll_fill_results, sc_sock_poll_event_inner"]}
{"id": "C104", "title": "Edge triggering tells of input and output once", "statement": "On Windows, an object registered with SC_SOCK_EDGE is told of input, or of room for output, at most once until a transfer on it would block or a request is made for it, and is told again after that.", "quantifier": "every history of requests, waits and transfers", "why_tests_cant": "all histories", "anchors": ["socket/sc_sock.c: sc_sock_poll_event_inner, sc_sock_send, sc_sock_recv"]}
{"id": "C105", "title": "Containers own their memory: no leak, no use after free, no double free", "statement": "A program that makes, uses and destroys any number of arrays, queues, heaps, timers, maps, buffers, strings and URIs in any order, keeping the documented rules of each API, never touches memory that has been given back or belongs to another object and gives nothing back twice, even when allocations fail. At every moment each block on the heap belongs to exactly one existing object, so that after all objects are destroyed none is left, and calls return what they would if every object had its memory to itself.", "quantifier": "all programs (sequences of create, call, destroy over any number of objects), all argument values, all allocation outcomes", "why_tests_cant": "a leak or a dangling pointer appears only for particular combinations of growth, failed allocations and destruction; sanitizers see only the runs they watch", "anchors": ["array/sc_array.h: sc_array_init, sc_array_term, sc_array_add", "queue/sc_queue.h: sc_queue_init, sc_queue_term, sc_queue_expand", "heap/sc_heap.c: sc_heap_init, sc_heap_term, sc_heap_add", "timer/sc_timer.c: sc_timer_init, sc_timer_term, expand", "map/sc_map.c: sc_map_init, sc_map_term, sc_map_put, sc_map_remap", "buffer/sc_buf.c: sc_buf_init, sc_buf_wrap, sc_buf_term, sc_buf_reserve, sc_buf_shrink", "string/sc_str.c: sc_str_create, sc_str_destroy, sc_str_set, sc_str_append, sc_str_replace", "uri/sc_uri.c: sc_uri_create, sc_uri_destroy"]}
{"id": "C106", "title": "String functions accept pointers into strings", "statement": "sc_str_set, sc_str_set_fmt and sc_str_append may be given a pointer to a C string anywhere, also into the string they change: the result is made from the text the pointer pointed to when the function was called, and a failure changes nothing.", "quantifier": "all strings, all offsets of the pointer, all allocation outcomes", "why_tests_cant": "reading a block after realloc moved it often still finds the old bytes, so that tests pass by luck", "anchors": ["string/sc_str.c: sc_str_set, sc_str_set_fmt, sc_str_append"]}
{"id": "C107", "title": "The mutex behaves the same on every system", "statement": "A program that creates a mutex and locks and unlocks it from any number of threads can observe the same on Windows as elsewhere: whatever order of returning calls is possible on Windows is possible with POSIX threads.", "quantifier": "all programs, all interleavings", "why_tests_cant": "a test suite runs on one system at a time and samples schedules", "anchors": ["mutex/sc_mutex.c: sc_mutex_init, sc_mutex_lock, sc_mutex_unlock, sc_mutex_term"]}
{"id": "C108", "title": "Socket objects and pollers can be used again", "statement": "Objects may be closed and opened again, and a poller destroyed and made again, any number of times. At every moment the system waits for exactly what was asked for of an object since it was last opened and since the poller was made, no less and no more, and no call of the system is wrong.", "quantifier": "all histories of opening, accepting, closing, registering and deregistering any number of objects and of renewing the poller; all failures of the system", "why_tests_cant": "a stale registration shows only in particular orders of closing, reopening and registering, and only as an event that never comes", "anchors": ["socket/sc_sock.c: sc_sock_init, sc_sock_close, sc_sock_term, sc_sock_accept, sc_sock_poll_add, sc_sock_poll_del, sc_sock_poll_init, sc_sock_poll_term"]}
{"id": "C109", "title": "Objects of every kind can be registered at any time", "statement": "Sockets that were connected, that listen or that were accepted, and pipes, can be registered with and deregistered from a poller at any time, whether another thread waits or not, with the same effect.", "quantifier": "all kinds of objects, all states of the poller, all requests", "why_tests_cant": "the difference shows only if the request is made while another thread is inside the wait, which a test cannot arrange reliably", "anchors": ["socket/sc_sock.c: sc_sock_init, sc_sock_accept, sc_sock_pipe_init, sc_sock_poll_add, sc_sock_poll_submit"]}
{"id": "C110", "title": "Pollers give back what they took", "statement": "A poller that was made and destroyed, or that could not be made, leaves no memory, descriptor or lock behind, whatever was registered in between and whatever fails; nothing is released twice. After a failed call the poller can still be destroyed.", "quantifier": "all histories of creating, growing and destroying pollers and all failures of memory allocation and of the system, on every supported system", "why_tests_cant": "allocation failures at each single point cannot be provoked by tests, and leaks do not change results", "anchors": ["socket/sc_sock.c: sc_sock_poll_init, sc_sock_poll_term, sc_sock_poll_add, sc_sock_poll_submit"]}
{"id": "C111", "title": "A failed call leaves the text of its error, on every system", "statement": "After a call on a socket or poller that fails and whose documentation refers to the error text, the text is that of the error that made it fail, as a string of at most 127 bytes.", "quantifier": "all socket and poller calls that refer to the error text, all errors, all earlier texts, on every supported system", "why_tests_cant": "tests rarely make each call fail, and a stale text looks plausible", "anchors": ["socket/sc_sock.c: sc_sock_errstr, sc_sock_set_blocking, sc_sock_finish_connect, sc_sock_connect_unix, sc_sock_poll_set_err_from_code, sc_sock_poll_err", "socket/sc_sock.h: sc_sock_set_blocking"]}
{"id": "C112", "title": "Starting and stopping the socket library is balanced", "statement": "The socket library of the system is held by the process exactly as often as starting it was reported to succeed and stopping it was not; a program that has stopped as often as it has started holds nothing.", "quantifier": "all sequences of calls of startup and cleanup and all answers of the system", "why_tests_cant": "tests run where version 2.2 is granted", "anchors": ["socket/sc_sock.c: sc_sock_startup, sc_sock_cleanup"]}
{"id": "C113", "title": "Creating and destroying the logger is balanced and reported", "statement": "However often the logger is created, used by any number of threads and destroyed, whatever fails, nothing stays in use once it is destroyed and destroying it is always defined. Creating returns 0 or, with errno set, a negative number; destroying returns 0, or a negative number with errno set if it was not created or its file could not be closed.", "quantifier": "all histories of creating, using and destroying the logger, all failures of the calls of the system", "why_tests_cant": "the failure of a mutex cannot be provoked by a test", "anchors": ["logger/sc_log.c: sc_log_init, sc_log_term, sc_log_mutex_init, sc_log_mutex_term", "logger/sc_log.h: sc_log_init, sc_log_term"]}
{"id": "C114", "title": "What was synced of a memory map survives a crash", "statement": "If the machine crashes at any moment, each byte of the mapped file is the value it had when a range with it was last reported to be synced, or one stored later; what was synced and not stored to afterwards is on the disk.", "quantifier": "all sequences of stores and syncs, all moments of a crash, all choices of the system when to write pages back", "why_tests_cant": "it is about every crash point, and tests do not crash the machine", "anchors": ["memory-map/sc_mmap.c: sc_mmap_msync"]}
{"id": "C115", "title": "Fatal errors on Windows are reported and still fatal", "statement": "On Windows, once sc_signal_init has succeeded, a fatal exception or an abort of the process is reported to the log descriptor with its name and number, and the process still ends as it would have without the handler.", "quantifier": "all exceptions, codes and texts, all sizes written", "why_tests_cant": "tests cannot go through all exceptions, and a test that crashes ends", "anchors": ["signal/sc_signal.c: sc_signal_init, sc_signal_on_fatal, sc_signal_std_on_fatal"]}
{"id": "C116", "title": "Data passed through a buffer's memory is a stream", "statement": "If data is received into the free part of a buffer (sc_buf_wbuf, sc_buf_mark_write) and sent or read from its used part (sc_buf_rbuf, sc_buf_mark_read), whatever pieces the system takes or delivers and whatever compacting, reserving and shrinking happens between, nothing is lost, doubled or reordered, and a message sent and received in pieces is read back as it was written.", "quantifier": "all sequences of calls, all sizes of the pieces moved", "why_tests_cant": "the sizes of the pieces are chosen by the system", "anchors": ["buffer/sc_buf.c: sc_buf_rbuf, sc_buf_wbuf, sc_buf_mark_read, sc_buf_mark_write, sc_buf_quota, sc_buf_size, sc_buf_compact"]}
{"id": "C117", "title": "A destroyed object owns nothing and is empty", "statement": "Destroying an object gives back its memory; destroying it again does nothing; and after that the object is empty and may be used again like a new one.", "quantifier": "all objects, all histories before and all calls after they are destroyed", "why_tests_cant": "tests end when the object is destroyed and cannot see memory that is not given back", "anchors": ["array/sc_array.h: sc_array_term", "heap/sc_heap.c: sc_heap_term", "timer/sc_timer.c: sc_timer_term", "buffer/sc_buf.c: sc_buf_term", "string/sc_str.c: sc_str_destroy", "queue/sc_queue.h: sc_queue_term", "map/sc_map.c: sc_map_term"]}
{"id": "C118", "title": "Timestamps mean the same on every system", "statement": "At the same moment sc_time_ms and sc_time_ns return the same number on Windows as on other systems: the time since the start of 1970; and the difference of two timestamps is the time between them.", "quantifier": "all moments the clock of the system can show", "why_tests_cant": "a test runs on one system at one moment and compares the clock with itself", "anchors": ["time/sc_time.c: sc_time_ms", "time/sc_time.c: sc_time_ns"]}
{"id": "C119", "title": "A heap compares few keys", "statement": "Adding an element to a heap of n elements compares at most log2(n+1) pairs of keys, and removing the smallest compares at most 2*log2(n) pairs.", "quantifier": "all heaps reached by the API, all keys", "why_tests_cant": "a test counts on a few heaps; the bound is on every heap of every size", "anchors": ["heap/sc_heap.c: sc_heap_add", "heap/sc_heap.c: sc_heap_pop"]}
{"id": "C120", "title": "Growing costs a constant per addition", "statement": "While elements are added to a container, the elements it copies because it grows are at most a constant times the elements added.", "quantifier": "all histories of calls, all sizes, whichever allocations fail", "why_tests_cant": "the total cost is a property of whole histories without a bound on their length", "anchors": ["array/sc_array.h: sc_array_add", "queue/sc_queue.h: sc_queue_expand", "heap/sc_heap.c: sc_heap_add", "map/sc_map.c: sc_map_remap", "buffer/sc_buf.c: sc_buf_reserve"]}
{"id": "C121", "title": "A callback may use the logger", "statement": "A callback given to sc_log_set_callback may itself call the functions of the logger: the call of the logger that led to it returns, and each message is delivered once.", "quantifier": "all callbacks, whatever they call and however they are nested, all levels, both kinds of mutex", "why_tests_cant": "callbacks are arbitrary programs; a test tries a few, and cannot tell a wait without end from a long one", "anchors": ["logger/sc_log.c: sc_log_log", "logger/sc_log.c: sc_log_mutex_init", "logger/sc_log.h: sc_log_set_callback"]}
{"id": "C122", "title": "Locked ranges stay locked until they are unlocked", "statement": "After calls of sc_mmap_mlock and sc_mmap_munlock that succeeded, every byte whose last covering call was a lock is in locked memory, and no page is locked that no lock call covered.", "quantifier": "all histories of successful lock and unlock calls on a map, all offsets and lengths, all page sizes, POSIX and Windows", "why_tests_cant": "whether a page is resident cannot be seen by a program; histories of overlapping ranges are unbounded", "anchors": ["memory-map/sc_mmap.c: sc_mmap_mlock", "memory-map/sc_mmap.c: sc_mmap_munlock"]}
{"id": "C123", "title": "Messages go where the program chose last", "statement": "A message that is logged while standard output is enabled is written to the standard streams, and only then; the callback that was set last, and no other, gets every message with the argument given when it was set, and no callback gets any after it was set to none.", "quantifier": "all histories of sc_log calls, whatever the levels, messages and results of writing, by any number of threads in any interleaving", "why_tests_cant": "histories of switching outputs and logging from many threads are unbounded", "anchors": ["logger/sc_log.c: sc_log_set_stdout", "logger/sc_log.c: sc_log_set_callback", "logger/sc_log.c: sc_log_log"]}
{"id": "C124", "title": "The initial capacity suffices", "statement": "A map, heap or buffer created with initial capacity n takes n elements (bytes) without needing more memory, and a map never has more elements than its load factor allows.", "quantifier": "all capacities, load factors, and histories of operations after creation, whatever the allocator does then", "why_tests_cant": "all capacities and all histories of insertions and deletions, under any allocator", "anchors": ["map/sc_map.h: sc_map_init", "heap/sc_heap.h: sc_heap_init", "buffer/sc_buf.h: sc_buf_init"]}
{"id": "C125", "title": "Due timers fire on time", "statement": "When sc_timer_timeout is called at a time t, every timer whose timeout has passed at t fires, or fires less than the resolution of the timer later, however rarely or often the function is called.", "quantifier": "all histories of adding and cancelling timers and of calls of sc_timer_timeout at any increasing times", "why_tests_cant": "the error depends on the spacing of unboundedly many calls; tests call it at convenient intervals", "anchors": ["timer/sc_timer.c: sc_timer_timeout", "timer/sc_timer.c: sc_timer_add", "timer/sc_timer.h: sc_timer_timeout"]}
{"id": "C126", "title": "A timeout counts from the latest time given", "statement": "The timeout given to sc_timer_add is relative to the latest timestamp that was given to the timer, as the header says.", "quantifier": "all histories of calls at any increasing times", "why_tests_cant": "the base depends on the whole history of timestamps", "anchors": ["timer/sc_timer.c: sc_timer_timeout", "timer/sc_timer.c: sc_timer_add", "timer/sc_timer.h: sc_timer_add"]}
{"id": "C127", "title": "The macros act on the values of their arguments", "statement": "A call of an array or queue macro has the effect it would have as a function: it acts on the value its argument had before the call, whatever expression the argument is, such as an element or the size of the same container or a variable of any name.", "quantifier": "all arrays and queues, all argument expressions made of values, variables and the accessors of the container", "why_tests_cant": "argument expressions and container states are unbounded; undefined evaluation orders may pass a test by luck", "anchors": ["array/sc_array.h: sc_array_add", "array/sc_array.h: sc_array_del", "array/sc_array.h: sc_array_del_unordered", "queue/sc_queue.h: sc_queue_add_last", "queue/sc_queue.h: sc_queue_add_first"]}
{"id": "C128", "title": "The body of a loop may change the container", "statement": "A foreach loop whose body adds to, deletes from or changes the container it goes through is defined and visits every element that is in the container throughout exactly once.", "quantifier": "all containers, all bodies with any state, any calls in them, any results of allocation", "why_tests_cant": "bodies, container layouts and growth are unbounded", "anchors": ["array/sc_array.h: sc_array_foreach", "queue/sc_queue.h: sc_queue_foreach", "map/sc_map.h: sc_map_foreach", "linked-list/sc_list.h: sc_list_foreach", "linked-list/sc_list.h: sc_list_foreach_safe"]}
{"id": "C129", "title": "Timers fire in order, up to the resolution", "statement": "Of two pending timers whose deadlines are a tick (16 ms) or more apart, the one that is due first fires first; only timers within the same tick may fire out of order, as the README says.", "quantifier": "all histories of adding, cancelling and clearing timers, also in callbacks, and of calls of sc_timer_timeout at any times", "why_tests_cant": "the order depends on the spacing of unboundedly many calls and on what callbacks do; tests call the function at convenient times", "anchors": ["timer/sc_timer.c: sc_timer_timeout", "timer/sc_timer.c: sc_timer_add", "timer/README.md"]}
{"id": "C130", "title": "NULL strings are handled as documented", "statement": "Where the comments of sc_str.h speak of NULL, the functions do what they say: creating from or copying NULL gives NULL, the length of NULL is -1, destroying it does nothing, trimming and replacing in it succeed, taking a part of it fails, and setting, appending to and formatting onto a NULL '*str' returns false.", "quantifier": "all functions that accept NULL, all other arguments, every outcome of allocation", "why_tests_cant": "the tests call each function with NULL once, with one value of the other arguments, and do not compare the result with the comment", "anchors": ["string/sc_str.h: sc_str_set", "string/sc_str.h: sc_str_append", "string/sc_str.h: sc_str_append_fmt", "string/sc_str.c: sc_str_trim", "string/sc_str.c: sc_str_substring", "string/sc_str.c: sc_str_replace"]}
{"id": "C131", "title": "A program of string calls computes with texts", "statement": "A program that keeps any number of length prefixed strings and calls sc_str_set, append, set_fmt, append_fmt, trim, substring, replace, dup, destroy, len and cmp on them, with C strings or with other strings of the program as arguments, observes exactly what the same operations on texts give: each call that returns true has given its string the new text and left all others alone, each call that returns false has changed nothing and had a reason (no memory, a range outside of the text, a text too long), and every call returns. The program passes no NULL text, no string as an argument of a call that changes it in place, and no empty pattern.", "quantifier": "all finite programs, all texts without NUL bytes, every outcome of every allocation", "why_tests_cant": "the state of the strings depends on the whole history of calls and on which allocations failed; tests run a few fixed sequences with memory", "anchors": ["string/sc_str.c: sc_str_set", "string/sc_str.c: sc_str_append", "string/sc_str.c: sc_str_trim", "string/sc_str.c: sc_str_substring", "string/sc_str.c: sc_str_replace", "string/sc_str.c: sc_str_dup", "string/sc_str.h: sc_str_append_fmt"]}
{"id": "C132", "title": "The log survives a crash of the process", "statement": "If the process dies at any moment, also while files are being rotated, the log files hold the line of every message for which logging has returned 0 and that rotation has not dropped, in order; at most a part of a line in progress follows. A process that is started again appends to them.", "quantifier": "every interleaving of any number of logging threads, every crash point between and inside of calls of the C library, every size of stdio's buffer", "why_tests_cant": "a crash cannot be placed at every point by a test, and what stdio still holds then depends on the length of all lines before", "anchors": ["logger/sc_log.c: sc_log_file", "logger/sc_log.c: sc_log_log", "logger/sc_log.c: sc_log_set_file"]}
{"id": "C133", "title": "A message with its CRC: up to five flipped bits, wherever they are", "statement": "If a message of at most 655 bytes is sent together with its CRC and one to five bits of message and CRC are flipped, recomputing the CRC shows it. For any length this holds for an odd number of bits and for bits within 32 consecutive ones, also across the border of message and CRC; up to 2^28 - 5 bytes for up to three bits. 655 is the best bound.", "quantifier": "every message, starting value, build and alignment, every choice of flipped bits", "why_tests_cant": "there are about 10^16 ways to flip five of 5272 bits, and every message must be covered", "anchors": ["crc32/sc_crc32.c: sc_crc32"]}
{"id": "C134", "title": "What a lookup in a map costs depends on what is in it, not on its past", "statement": "Looking for a key in a map looks at no more cells than the map has keys, and one more if the key is not there. In two maps with the same capacity and the same keys, a key that is not there costs the same, and so do all keys that are there together, whatever was put and deleted before and in whatever order.", "quantifier": "every two histories of put, get, del and clear, every hash function and every collision", "why_tests_cant": "leftovers of deleted entries only show as time, and only for certain orders of calls and collisions", "anchors": ["map/sc_map.c: sc_map_get", "map/sc_map.c: sc_map_put", "map/sc_map.c: sc_map_del"]}
{"id": "C135", "title": "Looking up stays cheap whoever chooses the keys", "statement": "Someone who chooses the keys that a program puts into a map cannot make looking for one key look at all of them: no family of different keys, of any size, costs a number of looks per lookup that grows with the number of keys.", "quantifier": "every choice of keys, every number of them, every type of key", "why_tests_cant": "tests use few and harmless keys; keys that collide must be constructed, and their cost only shows as time", "anchors": ["map/sc_map.c: murmurhash", "map/sc_map.c: sc_map_hash_32", "map/sc_map.c: sc_map_hash_64", "map/sc_map.c: sc_map_get"]}
{"id": "C136", "title": "Numbers in a row are found at once", "statement": "A map whose keys are numbers that lie within as many numbers in a row as the map has cells, such as consecutive identifiers, finds each of them at the first look, whatever was put and deleted before and in whatever order.", "quantifier": "every history of put, get, del and clear; every range; the maps with keys of 32 and 64 bits, int and long long", "why_tests_cant": "an entry away from its place is still found; the cost only shows as time, and only after certain orders of puts and deletes", "anchors": ["map/sc_map.c: sc_map_hash_32", "map/sc_map.c: sc_map_hash_64", "map/sc_map.c: sc_map_get", "map/sc_map.c: sc_map_del"]}
{"id": "C137", "title": "A timer's memory follows the timers that are pending at once", "statement": "However many timers are added over the life of a timer object, its memory is in proportion to the largest number of timers that were pending at the same moment: at most 64 cells for each, or 128 in all. Timers that fired or were cancelled give their cells back to later ones.", "quantifier": "every history of add, cancel, clear, poll and term, with calls inside callbacks; every behaviour of the allocator; every timeout", "why_tests_cant": "a leak of cells shows only as memory that grows over long histories of a certain shape", "anchors": ["timer/sc_timer.c: sc_timer_add", "timer/sc_timer.c: expand", "timer/sc_timer.c: sc_timer_timeout", "timer/sc_timer.c: sc_timer_cancel"]}
{"id": "C138", "title": "Adding and polling cost what the pending timers are worth", "statement": "The number of cells that adding a timer or polling looks at follows the number of timers that are pending at that time, and adding many timers takes time in proportion to their number.", "quantifier": "every history, every timeout, every number of timers", "why_tests_cant": "the cost only shows as time, for many timers with the same timeout or after many timers are gone", "anchors": ["timer/sc_timer.c: sc_timer_add", "timer/sc_timer.c: sc_timer_timeout", "timer/README.md"]}
{"id": "C139", "title": "A callback of a timer may use the timer", "statement": "The callback of a timer may call every function of the same timer: add, cancel, clear, poll again, to any depth, and destroy it. Every timer still fires at most once, not before its time, with its own data, and a poll that comes a revolution after the last deals with all that is due.", "quantifier": "every callback, every history, every depth of polls inside polls, every behaviour of the allocator", "why_tests_cant": "which cell the sweep is at when the callback changes the timer depends on the whole history", "anchors": ["timer/sc_timer.c: sc_timer_timeout", "timer/sc_timer.h: sc_timer_timeout", "timer/sc_timer.c: sc_timer_term"]}
{"id": "C140", "title": "A heap with negated keys gives the largest first", "statement": "If keys are negated when they are added and again when they are taken out, as the documentation says, peek and pop give an element with the largest key of those that are in the heap, for every key that a heap can hold.", "quantifier": "every history of add, pop, peek and clear, every key", "why_tests_cant": "the order must hold for every multiset of keys; the boundary key is one of 2^64", "anchors": ["heap/README.md", "heap/sc_heap.c: sc_heap_add", "heap/sc_heap.c: sc_heap_pop"]}
{"id": "C141", "title": "Threads that share an object do not race, and see what was handed over", "statement": "Two threads never access the same memory of a condition, of the logger, of a thread object or of a poller at the same time with one of them writing, when they use only calls that may be made from several threads: any two such accesses are ordered by the unlocking and locking of a mutex, or by starting and joining a thread. So what a thread wrote before a signal is seen by the one whose wait gets its data, what was set up before a thread is started is seen by it, what it did is seen after the join, and what was prepared before a callback was set is seen by the callback.", "quantifier": "every number of threads, every schedule, every history of calls, spurious wakeups", "why_tests_cant": "a data race shows only under some schedules, compilers and processors; absence must hold for every schedule", "anchors": ["condition/sc_cond.c: sc_cond_signal", "condition/sc_cond.c: sc_cond_wait", "logger/sc_log.c: sc_log_log", "logger/sc_log.c: sc_log_set_callback", "thread/sc_thread.c: sc_thread_start", "thread/sc_thread.c: sc_thread_join", "socket/sc_sock.c: sc_sock_poll_wait", "socket/sc_sock.c: sc_sock_poll_add", "socket/sc_sock.c: sc_sock_recv"]}
{"id": "C142", "title": "Parsing the text of a parsed uri again gives the same uri", "statement": "When sc_uri_create accepts a string, the text it stores in the uri is itself accepted, and gives a uri with the same text and the same components, so that a uri may be stored as text and read back. The accepted strings are exactly those that can be cut into a scheme, an optional authority with user information, host and port, a path, a query and a fragment under stated rules, and the components are those of the cut.", "quantifier": "every string shorter than 2147483640 bytes, every memory contents after it, memory available", "why_tests_cant": "the grammar accepts unboundedly many strings; every accepted one must survive the round trip", "anchors": ["uri/sc_uri.c: sc_uri_create", "uri/sc_uri.h: struct sc_uri"]}
{"id": "C143", "title": "The random generator goes round in a circle and never merges", "statement": "From any seed, sc_rand comes back to where sc_rand_init left it after some number of bytes, a multiple of 256, and its bytes start again from the first; it is there again after every multiple of that number and at no other time, whichever sizes are read. It never falls into a shorter loop that leaves the start behind, and two generators that differ never become the same by reading equally many bytes.", "quantifier": "every seed, every sequence of read sizes, every number of bytes", "why_tests_cant": "the period is far longer than any test can read, and the claim is about all states", "anchors": ["sc/sc.c: sc_rand_init", "sc/sc.c: sc_rand_read"]}
{"id": "C144", "title": "An event loop that waits as long as the timer says fires timers in time", "statement": "A program calls sc_timer_timeout, waits for as many milliseconds as it returned (or less, if something else happens; or up to delta more, because it was busy or the system was slow) and calls it again. Then every timer it adds has fired, or was cancelled or cleared, once the time given to sc_timer_timeout is a tick (16 ms) and delta after its deadline.", "quantifier": "every history of calls, early wakeups and late wakeups up to delta, every delta, every timeout, whatever callbacks do", "why_tests_cant": "lateness accumulates over schedules of wakeups that tests do not choose", "anchors": ["timer/sc_timer.c: sc_timer_timeout", "timer/sc_timer.c: sc_timer_add", "timer/sc_timer.h: sc_timer_timeout"]}
{"id": "C145", "title": "An event loop that waits as long as the timer says does not spin", "statement": "A program that always waits at least as many milliseconds as sc_timer_timeout returned before it calls it again, makes at most one call per 8 ms on average, from the first call on, although the returned value may be 0.", "quantifier": "every history, every waiting time not less than what was returned, whatever callbacks do", "why_tests_cant": "it is about all sequences of waiting times, including those that end exactly on a tick", "anchors": ["timer/sc_timer.c: sc_timer_timeout"]}
{"id": "C146", "title": "A message of which the end is missing is noticed", "statement": "If only the first bytes of a message of ints, bools, doubles, strings (also NULL) and blobs are in a buffer, reading it with its types is defined, returns the values that are complete as they were written and 0, false, NULL or zero bytes for every other one, and leaves the buffer invalid: a reader that asks sc_buf_valid once, after reading everything, accepts the message exactly if all of it is there.", "quantifier": "every message, every place where it may be cut, every buffer that holds the part", "why_tests_cant": "it is about every cut of every message", "anchors": ["buffer/sc_buf.c: sc_buf_get_64", "buffer/sc_buf.c: sc_buf_get_str", "buffer/sc_buf.c: sc_buf_get_data", "buffer/sc_buf.c: sc_buf_valid"]}
{"id": "C147", "title": "Reading until nothing is left comes to an end", "statement": "A program that asks a buffer for numbers, strings or blobs (a length and then sc_buf_get_blob), one after the other, as long as the buffer is valid and sc_buf_size is not 0, comes to an end, whatever bytes it was given: every value consumes at least one byte or makes the buffer invalid.", "quantifier": "all bytes of any length, every order in which values are asked for", "why_tests_cant": "only certain huge lengths in the bytes show it, and the failure is a loop that never ends", "anchors": ["buffer/sc_buf.c: sc_buf_get_str", "buffer/sc_buf.c: sc_buf_get_blob", "buffer/sc_buf.c: sc_buf_get_64"]}
{"id": "C148", "title": "errno tells callers which failures mean to try again later", "statement": "After sc_sock_send, sc_sock_recv, sc_sock_accept or sc_sock_connect has returned a negative number, errno is EAGAIN exactly if the call could not go on at once: nothing to read, no room, nobody to accept, or a connection that is under way; whatever earlier calls have left in errno.", "quantifier": "all sockets, all failures of system calls, all earlier contents of errno, POSIX and Windows", "why_tests_cant": "it depends on what another call left in errno and on failures of the system that tests do not provoke in that order", "anchors": ["socket/sc_sock.c: sc_sock_send", "socket/sc_sock.c: sc_sock_recv", "socket/sc_sock.c: sc_sock_accept", "socket/sc_sock.c: sc_sock_connect", "socket/sc_sock.h: sc_sock_recv"]}
{"id": "C149", "title": "Indices into a queue name the elements the header says", "statement": "sc_queue_first(q) is the index of the first element of a queue and sc_queue_last(q) that of the last one, and sc_queue_next(q, i) is the index of the element after the one at i: going from the first index to the last visits every element once, in order.", "quantifier": "all queues that any sequence of calls can produce, every rotation of the ring", "why_tests_cant": "the memory behind the last element may happen to hold the value expected, and the ring can be rotated in any way", "anchors": ["queue/sc_queue.h: sc_queue_first", "queue/sc_queue.h: sc_queue_last", "queue/sc_queue.h: sc_queue_next"]}
{"id": "C150", "title": "Any number of requests can wait for a thread that polls on Windows", "statement": "While a thread is in sc_sock_poll_wait on Windows, sc_sock_poll_add and sc_sock_poll_del for other descriptors are queued, however many there are; they are refused only if there is no memory, and those that are queued stay so.", "quantifier": "all numbers and orders of requests, every failure of an allocation, any number of waits in between", "why_tests_cant": "the sizes at which the arithmetic goes wrong need hundreds of millions of descriptors", "anchors": ["socket/sc_sock.c: sc_sock_poll_submit"]}
{"id": "C151", "title": "With 32-bit sizes, containers get the memory they assume", "statement": "On a system whose size_t has 32 bits, whenever a container grows or is created and the allocation succeeds, the block it asked for has room for the capacity it then assumes: arrays, queues, strings, maps, heaps, timers and buffers. Arrays, queues and strings refuse only blocks whose size cannot be written with the bits that count it.", "quantifier": "all capacities, all element sizes, every width of size_t", "why_tests_cant": "tests run with 64-bit sizes, and the failing sizes are just below 4 GB", "anchors": ["array/sc_array.h: sc_array_add", "queue/sc_queue.h", "heap/sc_heap.c: sc_heap_init, sc_heap_add", "timer/sc_timer.c: sc_timer_init", "buffer/sc_buf.c: sc_buf_init, sc_buf_reserve", "string/sc_str.c", "map/sc_map.c: sc_map_alloc"]}
{"id": "C152", "title": "Clocks and sleeping where time_t has 32 bits", "statement": "On a system whose time_t and long have 32 bits, sc_time_ms returns the milliseconds of the wall clock, and sc_time_sleep returns 0 only after the requested time, for every time such a system can represent.", "quantifier": "all readings of the clock, all arguments", "why_tests_cant": "tests run with 64-bit time, at one time of day", "anchors": ["time/sc_time.c: sc_time_ms, sc_time_sleep"]}
{"id": "C153", "title": "Bytes of a buffer can be written to the same buffer", "statement": "sc_buf_put_raw, sc_buf_put_str and sc_buf_put_blob may be given a pointer into the buffer they write to, such as sc_buf_get_str and sc_buf_get_blob return: they append the bytes it points to. sc_buf_move of a buffer to itself moves its first bytes behind its last, as many as there is room for.", "quantifier": "all buffers, positions, lengths and outcomes of allocations", "why_tests_cant": "memory that was moved by realloc often still has its old bytes, and tests rarely fill a buffer to the byte", "anchors": ["buffer/sc_buf.c: sc_buf_put_raw, sc_buf_put_str, sc_buf_put_blob, sc_buf_move, sc_buf_reserve"]}
{"id": "C154", "title": "A string map holds the key of the last put, and reads no other key again", "statement": "A map with string keys keeps, for every text, the pointer given to the last sc_map_put of that text that succeeded, until the text is deleted or the map cleared; sc_map_foreach gives these pointers. Keys used only for sc_map_get and sc_map_del, keys that a later put of an equal text replaced, and keys that were deleted may be freed or overwritten: no later call depends on them.", "quantifier": "all histories of put, get, del and clear, all outcomes of allocations, and all changes of memory between the calls that leave the texts of the held keys", "why_tests_cant": "tests use string constants, or keys that live as long as the map", "anchors": ["map/sc_map.c: sc_map_put, sc_map_del, sc_map_assign, sc_map_remap", "map/sc_map.h: sc_map_foreach"]}
{"id": "C155", "title": "A map is never fuller than its load factor, and grows only when it would be", "statement": "After every history at most the given percentage of the cells of a map (75 for 0) is taken, and sc_map_put enlarges the table only if one entry more would exceed it. That the limit is computed in floating point makes no difference, for any capacity and any load factor that sc_map_init accepts.", "quantifier": "all histories, all initial capacities up to 2^31, all load factors, and all ways to round to nearest", "why_tests_cant": "a limit that is off by one shows only for some capacities and load factors, and then as a slower or larger map", "anchors": ["map/sc_map.c: sc_map_init, sc_map_remap, sc_map_put"]}
{"id": "C156", "title": "How an ini document is laid out does not matter", "statement": "An ini document says the same with Windows or Unix line ends, with or without a byte order mark, and with empty lines and comments added anywhere (but for line numbers). A part that begins with a section header, appended to a document, adds exactly the items it has on its own, with line numbers counted on; if the document alone is stopped at a line, so is the whole.", "quantifier": "all documents, all callbacks (for added lines: all that do not look at line numbers)", "why_tests_cant": "a parser that carries state over from the lines before, or treats one kind of line end differently, fails only for particular neighbours of a line", "anchors": ["ini/sc_ini.c: sc_ini_parse, sc_ini_parse_string, sc_ini_parse_file, trim_space, trim_comment, trim_bom"]}
{"id": "C157", "title": "Work handed over through a queue, a mutex and a condition is done", "statement": "Threads that have work add it to a queue with the mutex locked and then signal the condition; threads that want work wait on the condition and, each time the wait returns, take from the queue until it is empty. Then work is taken in the order it was added and no piece twice; the program comes to rest after boundedly many steps of its own; and if a thread waits when it rests, everything that was ever added has been taken.", "quantifier": "every number of threads, every interleaving of their steps, spurious wake-ups, adds that fail for want of memory, POSIX and Windows", "why_tests_cant": "whether work is left behind while somebody sleeps depends on the interleaving of several signals and waits; signals overwrite each other, so that it works at all is not obvious", "anchors": ["condition/sc_cond.c: sc_cond_signal, sc_cond_wait", "queue/sc_queue.h: sc_queue_add_last, sc_queue_del_first, sc_queue_empty", "mutex/sc_mutex.c: sc_mutex_lock, sc_mutex_unlock"]}
{"id": "C158", "title": "A configured maximum is respected and changes nothing else", "statement": "With SC_ARRAY_MAX, SC_QUEUE_MAX, SC_HEAP_MAX or SC_MAP_MAX set by the user, a container never takes more than that; an addition is refused for that reason only if growing would exceed it; and a refused addition looks like one without memory, so that every history of calls is one of a container without the limit for which some allocations fail.", "quantifier": "all maxima that the types allow, all histories of calls, all outcomes of allocations", "why_tests_cant": "the limits are compile-time settings which tests use with one or two values; boundaries of doubling and rounding to powers of two depend on the value", "anchors": ["array/sc_array.h: SC_ARRAY_MAX, sc_array_add", "queue/sc_queue.h: SC_QUEUE_MAX, sc_queue_expand", "heap/sc_heap.c: SC_HEAP_MAX, sc_heap_init, sc_heap_add", "map/sc_map.c: SC_MAP_MAX, sc_map_alloc"]}
{"id": "C159", "title": "Messages with a length in front survive any cutting of the stream", "statement": "If one program writes messages into a buffer, each behind its length in 32 bits which is filled in afterwards with sc_buf_set_32_at, and sends the buffer with sc_sock_send, and another receives into a buffer with sc_sock_recv and takes a message out with sc_buf_peek_32, sc_buf_get_32 and sc_buf_get_data only when sc_buf_size says that all of it is there, then the messages taken out are at every time the first of those written, byte by byte and in order; after the end of the stream, or once everything has been received, they are all of them; the values in them are read back; nothing is undefined, whatever lengths come in; and a buffer that is large enough for a message never has no room for the rest of it after compacting.", "quantifier": "all sequences of messages of values of any type, all interleavings of the two programs and the network, all amounts moved by each call, all interruptions and failures of calls, all compacting, reserving and shrinking, all outcomes of allocations, all contents of the receiver's buffer", "why_tests_cant": "where the stream is cut, and when buffers grow or are compacted between the two halves of a length or a message, is up to the system; tests see few of these ways", "anchors": ["buffer/sc_buf.c: sc_buf_put_32, sc_buf_set_32_at, sc_buf_peek_32, sc_buf_get_32, sc_buf_get_data, sc_buf_size, sc_buf_quota, sc_buf_rbuf, sc_buf_wbuf, sc_buf_mark_read, sc_buf_mark_write, sc_buf_compact", "socket/sc_sock.c: sc_sock_send, sc_sock_recv"]}
{"id": "C160", "title": "The end of a stream is told apart from failures", "statement": "sc_sock_recv returns a negative value with errno = EOF exactly if the other side has closed the connection and everything it sent was received; no failure, such as a connection that was reset or a timeout, is reported that way.", "quantifier": "all contents of the stream, all interruptions and failures, every value errno had before", "why_tests_cant": "it takes a failure in the middle of a stream, after another stream has ended in the same thread, on each system", "anchors": ["socket/sc_sock.c: sc_sock_recv, sc_sock_errstr"]}
{"id": "C161", "title": "A cache made of a map and a list drops what was not used for longest", "statement": "A program that keeps its entries in a map by key and in a linked list by last use, moves an entry to the front with sc_list_add_head whenever it is used, and when there are more than a given number takes the last with sc_list_pop_tail, removes its key with sc_map_del and releases it, behaves in every history as a list of entries ordered by last use of which the end is cut off: lookups give the value stored last or nothing, storing fails only without memory and changes nothing then, the map, the list and the allocated entries always agree, no entry is used after it was released, and none leaks.", "quantifier": "all histories of lookups, stores and removals, all keys and hash functions, all limits including 0, all outcomes of allocations, all addresses of entries", "why_tests_cant": "the map moves entries when it grows or deletes, and memory of entries is used again: whether the two stay in step depends on the whole history and on collisions", "anchors": ["linked-list/sc_list.c: sc_list_add_head, sc_list_pop_tail, sc_list_del, sc_list_init", "map/sc_map.c: sc_map_get, sc_map_put, sc_map_del, sc_map_size, sc_map_found, sc_map_oom"]}
{"id": "C162", "title": "A shutdown signal reaches a loop that waits for events", "statement": "In a program that waits with sc_sock_poll_wait for input of a sc_sock_pipe whose writing end is in sc_signal_shutdown_fd, every return of sc_sock_poll_wait with events that comes after SIGINT or SIGTERM arrived includes input of the pipe, unless 1024 other events leave no room for it; this includes signals that arrive before the wait, while it lasts, or between its retries. As long as the process lives after the signal was handled, waiting does not block, and it never fails because of the signal. The pipe is never reported if no such signal has arrived.", "quantifier": "all interleavings of signals, nested handlers and steps of the loop, all requests for other objects, all results of write and of epoll_wait or kevent that the system may give, all readiness of other descriptors", "why_tests_cant": "a signal may arrive at any instruction, also while another handler runs or between two calls of epoll_wait; tests send it at one or two moments", "anchors": ["signal/sc_signal.c: sc_signal_on_shutdown", "signal/sc_signal.h: sc_signal_shutdown_fd", "socket/sc_sock.c: sc_sock_pipe_init, sc_sock_poll_add, sc_sock_poll_wait, sc_sock_poll_event, sc_sock_poll_data"]}
{"id": "C163", "title": "The error text of a pipe tells of its last failure", "statement": "After any history of calls on a sc_sock_pipe, sc_sock_pipe_err returns a string of at most 127 bytes that names the last call of the system for this pipe that failed since sc_sock_pipe_init, with its error, and the empty string if none has failed.", "quantifier": "all histories of making, writing, reading and destroying, all outcomes of all calls of the system, on every supported system", "why_tests_cant": "tests rarely make a pipe fail, and cannot make each of the nine calls that make one on Windows fail", "anchors": ["socket/sc_sock.c: sc_sock_pipe_init, sc_sock_pipe_term, sc_sock_pipe_write, sc_sock_pipe_read, sc_sock_pipe_err, sc_sock_pipe_set_err"]}
{"id": "C164", "title": "On Windows a console event reaches a loop that waits, whatever other threads ask of the poller", "statement": "In a program on Windows that waits with sc_sock_poll_wait for input of a sc_sock_pipe whose writing end is in sc_signal_shutdown_fd: as soon as the console handler has returned for a Ctrl-C or Ctrl-Break event, a wait no longer blocks, and it returns with input of the pipe unless 1024 other events leave no room for it; this holds whatever requests other threads make for other objects while the loop waits. No call reports input of the pipe if no event has arrived, also not a call that tells what an earlier wait left over.", "quantifier": "all interleavings of any number of handler threads, the loop, and requests of other threads; all results of send and WSAPoll that the system may give; all readiness of other descriptors; any number of entries", "why_tests_cant": "the handler runs in its own thread at any moment, requests of other threads move entries of the array between the call of WSAPoll and the telling of its results; tests see a few schedules", "anchors": ["signal/sc_signal.c: sc_console_handler", "socket/sc_sock.c: sc_sock_poll_wait, sc_sock_poll_fill_results, sc_sock_poll_add, sc_sock_poll_del"]}
{"id": "C165", "title": "Messages with a length in front survive any cutting of the stream on Windows, too", "statement": "On Windows, if one program sends messages as in C159 and another receives them and takes a failure of sc_sock_recv with errno EOF for the end of the stream, then the messages taken out are at every time the first of those written, byte by byte and in order; once everything has been received, or after the end of the stream if the sender had sent everything, they are all of them; and nothing is undefined.", "quantifier": "all sequences of messages of values of all kinds, all ways in which send and recv cut the stream, all interruptions and failures of calls, all interleavings of the two programs and the network, every value that other calls of the thread leave in errno", "why_tests_cant": "tests do not choose where the system cuts the stream or when calls fail, and start with a clean errno", "anchors": ["socket/sc_sock.c: sc_sock_send, sc_sock_recv", "buffer/sc_buf.c: sc_buf_put_32, sc_buf_set_32_at, sc_buf_peek_32, sc_buf_get_data, sc_buf_mark_read, sc_buf_mark_write"]}
{"id": "C166", "title": "A thread object behaves the same on every system", "statement": "A program that starts and joins threads through an object sees the same on Windows as on POSIX systems: each sc_thread_start that returns 0 leads to one call of the given function with the given argument, and a sc_thread_join that returns 0 gives what the function of the thread that was started last returned, or a null pointer if there is nothing to join.", "quantifier": "all sequences of starts, failed starts, joins and terminations through an object, all functions, arguments and results, all times at which the threads begin and end, all contents of the object before sc_thread_init", "why_tests_cant": "a test runs on one system, and whether a thread has begun when the next call is made depends on the scheduler", "anchors": ["thread/sc_thread.c: sc_thread_init, sc_thread_start, sc_thread_join, sc_thread_term, sc_thread_fn", "thread/sc_thread.h: struct sc_thread"]}
{"id": "C167", "title": "A condition behaves the same on every system", "statement": "The sequences of calls and returns of sc_cond_signal and sc_cond_wait, with their data, that any number of threads can see are the same on Windows as on POSIX systems; and so are the sequences after which nothing more happens without a new call, and the sets of threads that are left waiting then.", "quantifier": "all numbers of threads, all sequences of calls with all data, all interleavings of the steps of the threads, all choices of which threads a signal wakes, all spurious wakeups", "why_tests_cant": "a test runs on one system and sees a few schedules; sameness is about all schedules of both", "anchors": ["condition/sc_cond.c: sc_cond_signal, sc_cond_wait"]}
