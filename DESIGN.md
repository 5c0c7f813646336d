# A Lean model of tezc/sc

The C sources in /repo are modelled function by function in Lean 4
(`lean/Verif/<Component>/Model.lean` and further files beside it), the expected behaviour is
stated in terms of ordinary lists, finite maps, polynomials, automata (`Spec.lean`), and the
properties of `properties.jsonl` are theorems relating the two (`Props.lean`; helper lemmas are
in the other files). `MANIFEST.json` lists which theorem settles which property,
`seeded/LOG.jsonl` what happened to the theorems when the model was made wrong on purpose.

## Trusted base

* The Lean 4.33.0 kernel.
* The axioms `propext`, `Classical.choice`, `Quot.sound` (Lean's standard ones). No axiom is
  added; there is no `sorry`, `native_decide`, `bv_decide`, `implemented_by` or `unsafe`.
  `decide +kernel` is used only for statements about fixed finite tables, for all values of a
  small finite type and for concrete counterexamples; the kernel evaluates those. Which theorem
  rests on which axioms is listed at the end.
* The correspondence between the C text and the model. It is by reading: every model definition
  cites the file and lines it renders and names each simplification.
* The meaning of C and of the library and system calls; see "Assumptions about the system".

## Conventions of the model

* C integers are `Nat`/`Int` values with the wrap-around written out (`% 2^32`, `% 2^64`) or
  `BitVec`; nothing is silently unbounded. `size_t`, `unsigned long` and pointers have 64 bits (`Verif/Narrow` models sizes and times with 32),
  `int` has 32, `char` is signed, the machine is little-endian unless a definition says
  otherwise (crc32 is modelled for both).
* Undefined behaviour (access out of bounds, failed assert, signed overflow, NULL dereference,
  use of freed or uninitialised memory where it matters) is a distinct outcome `Res.ub`, never a
  default value. "No undefined behaviour" is therefore a visible part of each theorem:
  `f s = .ok ...`.
* Memory that the code owns is a `List` of cells of exactly the allocated length. Fresh cells
  that the code has not written are arbitrary: their content is an argument of the model.
  `Verif/Memory` models the containers once more on a memory of blocks with addresses, where
  `free` removes the block, and proves that they do what the models without addresses do.
* The outcome of each allocation is an argument of the model (`none` = failure), likewise the
  outcome of each system call ("oracles"). A theorem that quantifies over them holds for every
  behaviour they may have.
* Loops are structural recursion, or recursion on fuel which the proof shows to be sufficient;
  where the C loop may not terminate, non-termination is a statement about all fuels.
* Concurrency is interleaving of the steps of the threads; a step is one access to shared
  memory, one operation on a mutex or condition variable, or one system call.
* Where the code violates the documented property, the negation is proved with a witness
  (`..._violated`, `..._defect`) and the part that does hold is proved, with the suffix `_partial` if
  it is a restriction of the property.

## Assumptions about the system

Each of these is written down in the model as a parameter with laws or as a definition; none is an
axiom.

| Part | Assumed |
|------|---------|
| allocator | `malloc/calloc/realloc` fail or give a block of the requested size that overlaps no other; `realloc` keeps the common prefix and frees the old block. Objects are smaller than 2^62 bytes (`OBJ_MAX`). In `Verif/Memory` addresses are not used a second time, so a dangling pointer never becomes valid by accident |
| `memcpy`, `memmove`, `strlen`, `strcspn`, `strtoul`, ... | C11 text, in `CMem.lean`, `CLib.lean`, `CChr.lean`, `CNum.lean` |
| `printf` family | what `vsnprintf` writes is an argument or is computed for the fixed formats in use (`%.*s`, `%d`, `%s`, `%.2f`); at most size-1 bytes and a NUL are written, the length is returned. A `size_t` passed for an `int` precision is seen modulo 2^32 |
| `qsort` | gives a sorted permutation |
| `strftime`, `localtime`, `strerror`, `gai_strerror` | texts are arguments; `strerror` texts have no `%` |
| files | `fopen("a+")`, `fprintf`, `fflush`, `fclose`, `rename` as POSIX describes them, each may fail at any time; a failed write may have written a part |
| CRC instructions | `_mm_crc32_u8/u64` do what the Intel manual says (bit by bit in `Crc/Hw.lean`) |
| signals | handlers may interrupt at any step and nest; `raise` of a signal with default disposition ends the process |
| pthread | mutexes exclude, condition variables may wake up spuriously, `pthread_join` waits for and forgets the thread; a failed `pthread_create` leaves the number unspecified |
| atomics | the C11 variant of the logger's level is a sequentially consistent cell |
| `nanosleep`, clocks | POSIX: an interrupted sleep tells the rest; the clock tells seconds and nanoseconds below 10^9 |
| `mmap`, `fallocate`, `ftruncate`, `msync` | POSIX, with page size a parameter; user addresses below 2^63 |
| perf events | counters count while enabled and scheduled; numbers are rationals; how far rounding of `double` takes the results away from them is proved in Verif/Flt |
| sockets | any call may fail with any `errno` except as POSIX excludes; `close` frees the descriptor even if it reports an error; `inet_ntop` texts fit their buffers; flags of 0 for `send`/`recv` |
| epoll, kqueue, WSAPoll | interest tables as the manual pages describe them; `WSAPoll` fills `revents` of all entries and returns the number of entries with events |
| Windows poller | a byte in the wakeup pipe makes `WSAPoll` return; re-arming an edge without the lock is one atomic step |

## What is modelled and what is not

| Component | Modelled | Not modelled |
|-----------|----------|--------------|
| array, queue | all macros, as functions of any element type | |
| heap | all | |
| linked-list | all functions and iteration macros on a memory of `next`/`prev` pointers | |
| map | the macro body for any key, value, hash; `sc_map_hash_*`, murmurhash | keys that are changed while in a string map |
| timer | all, with callbacks that call the timer again | |
| string | all | locale-dependent formats |
| buffer | all, incl. move and text functions | NaN payload changes of `double` in registers |
| crc32 | table, slicing-by-8 (both byte orders), hardware with three lanes, the choice between them | the preprocessor, which makes the choice when the library is built (all three are proved equal) |
| sc | all | `%.2f` of values the code cannot pass; locales other than "C" |
| signal | formatting, handlers for shutdown and fatal signals, `sc_signal_init` | `backtrace`, register dump, Windows exception texts |
| ini, uri, option | all | |
| logger | all, with any number of threads; C11 atomics; callbacks that call the logger | what callbacks do besides |
| condition, mutex, thread, time | all, Windows too | scheduling fairness other than what theorems state |
| memory-map | POSIX, Apple's `fallocate` substitute, Windows init and term | Windows `FormatMessage` |
| perf | bookkeeping, scaling, groups of counters | the counters themselves |
| socket | addresses, listen/accept/connect/bind, send/recv, options, pipes, notify, names; epoll and kqueue pollers; the Windows poller with all threads | name resolution; out-of-band data |

Test and example programs are not modelled.

## Defects recorded

The witnesses are theorems (second column); all were found by proofs that would not close.

| Property | Theorem | What happens |
|----------|---------|--------------|
| C06 | `Verif.Queue.queue_oom_sticky_violated` | There is a history in which an `add_last` with a working allocator and with room in the ring (six of the seven usable cells in use) is refused, and out of memory is reported, because an earlier, unrelated `add` failed. |
| C09 | `Verif.Heap.heap_failed_add_violated` | After a failed `add` to a fresh heap, `peek` dereferences NULL. |
| C09 | `Verif.Heap.heap_failed_add_pops_garbage_violated` | After a failed `add` the heap returns an element that was never added (the indeterminate content of a cell, here key -7), before the real ones. |
| C10 | `Verif.Heap.heap_growth_overflow_defect` | At a capacity of 2^58 elements the byte count of the next growth is 2^64 and wraps to 0, so `realloc` is asked for 0 bytes and the following write is out of bounds. |
| C16 | `Verif.Map.map_init_violated` | C16 does not hold: for every capacity above 2^31 that fits `uint32_t`, `init` succeeds with a table of no cells, and the first lookup or deletion of a key reads outside of it. |
| C22 | `Verif.Timer.timer_deadline_wraps_defect` | Outside the rules: if the deadline does not fit in 64 bits it wraps around. A timer with the largest timeout, added at time 1000, gets deadline 999. |
| C24 | `Verif.Timer.timer_due_not_fired_defect` | A timer that is due need not fire in the first call after its deadline: with timeout 16, called at time 31, the sweep covers one slot and the timer is in the next one. |
| C25 | `Verif.Timer.timer_deadline_invalid_defect` | Outside the rules: a deadline equal to `SC_TIMER_INVALID` makes the cell look free, and the next timer gets the same id. |
| C25 | `Verif.Timer.timer_stale_id_defect` | Ids are reused: after a timer has fired, cancelling by its id hits the timer that got the same id. |
| C27 | `Verif.Str.str_append_violated` | The property is false for strings longer than `SC_STR_MAX`: the check wraps around and so does the new length. To a string of 2^32 - 2 bytes 3 bytes are appended, successfully; the string then has the length 1. |
| C27 | `Verif.Str.str_append_fmt_violated` | The property is false for `sc_str_append_fmt` on strings with a NUL: what follows it is lost. |
| C29 | `Verif.Str.str_trim_violated` | The property is false for strings that end in NUL bytes: these are removed although they are not listed. |
| C32 | `Verif.Str.str_replace_violated` | The property is false: replacing the empty string by the empty string does not return. |
| C36 | `Verif.Buf.buf_put_text_violated` | The property is false for `sc_buf_put_text`: when it cannot grow a buffer that was read from, it sets the write position to 0, below the read position; the size is then about 2^64. |
| C36 | `Verif.Buf.buf_shrink_ref_violated` | The property is false for `sc_buf_shrink` on memory the buffer only refers to: that memory is given to `realloc`. |
| C37 | `Verif.Buf.buf_get_str_violated` | The property is false for `sc_buf_get_str`: with the encoded length 2^64 - 1 the check `rpos + len + 1 > wpos` wraps around, the call succeeds, and the pointer it returns is behind the data — here behind the end of the memory. |
| C37 | `Verif.Buf.buf_get_str_unterminated_violated` | A string received from outside need not be terminated: reading it as a C string runs off the memory. |
| C37 | `Verif.Buf.buf_get_blob_violated` | Violated by blobs and data whose length comes from outside, too: for the length 2^64 - 8 `sc_buf_get_blob` returns a pointer although nothing is left, and `sc_buf_get_data` copies from outside the memory. |
| C38 | `Verif.Buf.buf_put_fmt_err_violated` | The property is false for `sc_buf_put_fmt` and `sc_buf_put_text`: on an invalid buffer both move the write position; `sc_buf_put_text` even writes the text. |
| C39 | `Verif.Buf.buf_shrink_limit_violated` | The property is false for `sc_buf_shrink`: it rounds up to a multiple of 4096, so it can make a buffer larger, and larger than its limit. Here capacity and limit are 8 and the buffer is "shrunk" to 4: it ends up with 4096. |
| C40 | `Verif.Buf.buf_reserve_violated` | The property is false for `sc_buf_reserve` with lengths near 2^64: the check wraps around, and it reports success although there is no room. |
| C41 | `Verif.Buf.buf_move_violated` | The property is false if the destination is invalid: nothing is appended, but the source is consumed. |
| C43 | `Verif.Buf.buf_put_fmt_violated` | The property is false for `sc_buf_put_fmt` at the capacity boundary: it reserves room for the length and the text but not for the terminator. A buffer with 10 free bytes, which could grow, cannot take a text of 2 characters. |
| C43 | `Verif.Buf.buf_put_text_long_violated` | For one length: a text of `INT_MAX` characters, put into an empty buffer that has room for it, makes `sc_buf_put_text` add 1 to `INT_MAX`, which is undefined. |
| C48 | `Verif.Sc.size_to_bytes_negative_defect` | A negative number times its unit that is less than the least `int64_t` is a signed overflow, not −1: C48 fails there. |
| C48 | `Verif.Sc.size_to_bytes_violated` | C48 is violated by "-9e": undefined behaviour. |
| C48 | `Verif.Sc.size_to_bytes_long_defect` | The length of the suffix is cut to 32 bits: a string with 2^32 characters after its number is accepted as if there were none. |
| C48 | `Verif.Sc.size_to_bytes_doc_defect` | The example of sc/sc.h, "1 KB", is not accepted: no space may precede the unit. |
| C48 | `Verif.Sc.size_to_bytes_char_defect` | `tolower` is given a negative number: a number with one byte from 128 to 254 behind it, or with two of which the second is such a byte, is undefined behaviour, not −1. |
| C48 | `Verif.Sc.size_to_bytes_char_violated` | Violated by "1" and the byte 233 ("é" in Latin-1): undefined behaviour. |
| C49 | `Verif.Sc.bytes_to_size_violated` | For 1138687 bytes, which are 1.0859… MB, the text is "1.08 MB": not within half of the last digit. |
| C50 | `Verif.Sc.rand_rc4_violated` | C50 is violated: the stream is not RC4 with the seed as the key, and the table is not a permutation of the byte values. With 256 zeros as the seed every byte ever read is zero. |
| C51 | `Verif.Signal.snprintf_zero_violated` | With size 0 a terminator is written all the same, here after the end of an empty buffer. |
| C51 | `Verif.Signal.snprintf_unterminated_defect` | With an unsupported conversion the text is left without a terminator. |
| C51 | `Verif.Signal.log_unsupported_defect` | Logging with a format that is not supported writes what comes after the buffer. |
| C52 | `Verif.Signal.snprintf_min_violated` | The least `long long` cannot be formatted: it is negated in its own type. |
| C53 | `Verif.Signal.shutdown_race_violated` | SIGTERM arrives when the handler of SIGINT has looked at the flag but has not set it yet: two shutdown signals, and the process goes on, with two commands instead of an exit. |
| C53 | `Verif.Signal.Win.shutdown_race_violated` | On Windows: events that arrive before a handler has set the flag are all taken for the first. However many they are, none ends the process, and each sends a command. |
| C54 | `Verif.Ini.ini_section_violated` | The name of a section is cut to 255 bytes: all sections whose names share these are reported as one. |
| C54 | `Verif.Ini.ini_key_violated` | A key of more than 255 bytes is reported in full with its first value and cut with the following ones. |
| C55 | `Verif.Ini.ini_callback_result_defect` | The result is the line number when the callback refuses an item, not the callback's result as the header says. |
| C56 | `Verif.Ini.ini_file_string_violated` | Files and strings differ: a line of 1022 bytes, within the limit of 1024, is read from a file as two lines, and all following line numbers are wrong. |
| C56 | `Verif.Ini.ini_truncate_defect` | The end of a long line is not "truncated silently" when it comes from a file, as SC_INI_MAX_LINE_LEN promises: here a part of a comment is reported as an item. |
| C56 | `Verif.Ini.trim_space_pointer_defect` | For an empty line `trim_space` computes a pointer before the line buffer, which C does not allow. For a line of blanks it is the last of them. |
| C58 | `Verif.Uri.uri_path_at_violated` | `http://h/u@x` has the path `/u@x` and no userinfo, but is parsed as the host `x` with the userinfo `h/u`. |
| C58 | `Verif.Uri.uri_path_colon_violated` | `http://a/b:80/c` has the path `/b:80/c` and no port, but is parsed as the port 80 and the path `/c`; `/b` is lost. |
| C58 | `Verif.Uri.uri_query_colon_violated` | `http://h/?q=a:b` has the query `q=a:b`, but is parsed as the empty port and the path `b`; the rest is lost. |
| C58 | `Verif.Uri.uri_fragment_question_violated` | `http://h/p#f?x` has the fragment `f?x`, but is parsed as the query `x` without a fragment. |
| C58 | `Verif.Uri.uri_port_defect` | Port 65536 is accepted. |
| C58 | `Verif.Uri.uri_port_sign_defect` | A port need not be a number: blanks and a sign are taken for part of it. |
| C59 | `Verif.Uri.uri_str_violated` | The `str` field of `http://a/b:80/c` is `http://a:80/c`. |
| C60 | `Verif.Opt.option_space_violated` | C60 is violated by `-x text`: this is neither `-x` nor `-x=value`, and is taken for `-x` with the value " text", which does not follow a `=`. |
| C60 | `Verif.Opt.option_letter_defect` | An option without a letter (0) makes the argument `-` read past its end. |
| C62 | `Verif.Log.rotation_rename_violated` | If renaming fails the call still returns 0, and all that the file held is lost. |
| C62 | `Verif.Log.rotation_same_name_violated` | If the two names are the same, all that the file held is lost although no call fails. |
| C63 | `Verif.Log.file_size_violated` | Headers are not counted: the file grows beyond any bound and is never rotated when messages are empty, with all calls successful. |
| C64 | `Verif.Log.set_level_violated` | A byte above 127 is a negative `char`, for which `tolower` is undefined. |
| C66 | `Verif.Thread.join_after_failed_start_violated` | If `pthread_create` fails, the number is unspecified, and the object keeps it: a join, or `sc_thread_term`, then joins something that is not a thread. |
| C66 | `Verif.Thread.failed_join_leaks_violated` | A failed join forgets the thread: it can never be joined again. |
| C66 | `Verif.Thread.start_result_defect` | Errors of `pthread_create` are returned as they are, not as -1 as the header says. |
| C66 | `Verif.Thread.win_join_unstarted_defect` | On Windows a join before anything was started yields what was in memory. |
| C67 | `Verif.Time.sleep_enough_violated` | The number is converted to a signed type before it is divided: asked for 2^64-1 milliseconds, it returns 0 after 615. |
| C67 | `Verif.Time.sleep_win_violated` | On Windows 2^32 milliseconds are no time at all, and 2^32-1 are forever. |
| C69 | `Verif.Mmap.msync_covers_violated` | Two bytes, the last of a page and the first of the next: success is reported and the second is not written back. |
| C71 | `Verif.Sock.Io.timeo_violated` | For times that are not whole seconds the timeout set is shorter than asked for. |
| C71 | `Verif.Sock.WinTransfer.timeo_violated` | On Windows for every timeout but 0: those of less than a second are taken for no timeout at all, so that a call that should have returned never does; the others are a thousand times too short. |
| C72 | `Verif.Poll.Epoll.edge_violated` | "Exactly the union of what was added" **is violated** for edge triggering: what is added by itself is forgotten. |
| C72 | `Verif.Poll.Kqueue.atomic_violated` | When a call fails at its second change: adding input and output fails, but output is waited for from then on, and deleting it succeeds and does nothing. |
| C72 | `Verif.Poll.Kqueue.stuck_violated` | ... deleting both fails after the first, and from then on deleting both fails for ever, as the first is no longer there. |
| C72 | `Verif.Poll.Kqueue.keep_violated` | ... and where the flag cannot be changed, edge triggering is not had by adding it later. |
| C74 | `Verif.Poll.Win.del_violated` | Deregistering an object that is not registered does nothing, unless another thread polls: then the poller follows a null pointer when it returns. |
| C74 | `Verif.Poll.Win.add_del_violated` | The same happens if an object is registered and deregistered before the poller returns... |
| C74 | `Verif.Poll.Win.add_edge_violated` | ... and if it is registered for changes of nothing. |
| C74 | `Verif.Poll.Win.order_violated` | Requests change places if `WSAPoll` fails while one is pending: the object stays registered although the last request deregisters it. |
| C74 | `Verif.Poll.Win.edge_violated` | Deregistering `EDGE` and registering it again lets events be told again, but not if another thread polls: the two requests become one that does nothing. |
| C74 | `Verif.Poll.Win.granted_violated` | If memory runs out while the poller does pending requests, a request that was granted is lost: the wait says -1, the object has no events, and nothing is pending. |
| C74 | `Verif.Poll.Win.memory_violated` | If memory for entries runs out, registering an object fails, and the next wait uses memory that was released. |
| C76 | `Verif.Perf.scale_violated` | An event counted 50 times in half of the time is reported as 25 and not as 100: the count is multiplied with the share instead of being divided by it. |
| C76 | `Verif.Perf.restart_violated` | A start while measuring is under way forgets the time since the last start, though the counters go on: 30 and 12 nanoseconds are reported as 12. |
| C83 | `Verif.Log.set_file_errno_violated` | The documentation says that `errno` is set on error, but nothing sets it when a name is too long. |
| C85 | `Verif.Cond.term_sign_violated` | `sc_cond_term` returns the positive error number when destroying fails, where the header promises a negative value. |
| C86 | `Verif.Cond.signal_overwritten_violated` | A signal can be overwritten before anybody takes it: two threads wait, two signals return, and only one thread is ever released. |
| C88 | `Verif.Time.ns_wrap_violated` | Beyond 64 bits of nanoseconds, from the year 2554 on, the clock starts again. |
| C88 | `Verif.Time.mono_win_violated` | On Windows the product of `sc_time_mono_ns` overflows a signed type after 923 seconds with the usual frequency of 10 MHz: undefined behaviour. |
| C89 | `Verif.Thread.err_text_violated` | Nothing initialises the text: before the first error, and after an error with a text of 127 bytes or more, `sc_thread_err` may not yield a string. |
| C89 | `Verif.Thread.win_err_violated` | On Windows a text of 63 bytes or more leaves the buffer without a terminator if there was none. |
| C90 | `Verif.Mmap.apple_offset_violated` | On Apple, the offset is not counted: one block at offset one block of an empty file, and the file ends where the map begins. |
| C91 | `Verif.Mmap.apple_keeps_violated` | On Apple, mapping a whole existing file for writing overwrites its last byte with zero (unless the size is a multiple of the size of a block): ten bytes 7, mapped in full. |
| C95 | `Verif.Sock.mode_violated` | A unix socket that was initialised to be non-blocking listens and connects in blocking mode. |
| C95 | `Verif.Sock.WinOpen.Unix.listen_mode_violated` | For unix sockets on Windows too: a socket that listens at a path blocks, whatever was asked for. |
| C96 | `Verif.Sock.path_violated` | Listening at a path of more than 107 bytes succeeds at another path, which lacks the last bytes, and connecting is refused. |
| C96 | `Verif.Sock.WinOpen.Unix.listen_path_violated` | On Windows too: listening again at a path of more than 107 bytes fails, because not the file is removed that is in the way, but one of the full name. |
| C97 | `Verif.Sock.Io.pipe_count_violated` | 2 GiB are written by one call of the system, and the result is negative, as if the call had failed. |
| C97 | `Verif.Sock.WinPipe.leak_violated` | A pipe that could not be made leaves its listening socket open... |
| C97 | `Verif.Sock.WinPipe.leak_two_violated` | ... or two sockets, which destroying it does not close. |
| C98 | `Verif.Sock.Io.notify_violated` | A message for a socket with a name of more than 107 bytes goes elsewhere. |
| C99 | `Verif.Sock.Name.unnamed_violated` | The property fails for a socket without a name, such as the other end of an accepted unix socket: the system fills in the family only, and bytes that have no value are printed. |
| C99 | `Verif.Sock.Name.empty_violated` | The property fails for a buffer of 0 bytes, which `snprintf` would allow: one byte is written. |
| C100 | `Verif.Poll.Epoll.data_violated` | Data given with events that are waited for already is not kept: the old data is told. |
| C100 | `Verif.Poll.Kqueue.data_violated` | As on Linux: data given with events that are waited for already is not kept. |
| C101 | `Verif.Poll.Epoll.time_violated` | A signal starts the timeout again: a wait of 10 ms takes 30 ms. |
| C101 | `Verif.Poll.Win.waitTime_violated` | To wait without limit, the header says, is to give -1; the wait ends after 16 ms. |
| C102 | `Verif.Poll.Win.lost_wakeup_violated` | If the byte that wakes the poller cannot be written: the request is reported to have failed, but it is pending and will be granted; and none of the requests that follow while it is pending tries to wake the poller again. |
| C103 | `Verif.Poll.Win.stale_violated` | An event is told of which the object was deregistered before the wait returned. |
| C104 | `Verif.Poll.Win.edge_once_violated` | Violated by errors and hang-ups: they are told as input and as room for output each time the object is looked at, whatever was told before, and with `SC_SOCK_EDGE` too. |
| C105 | `Verif.Memory.heap_memory_violated` | Violated by heaps when `sc_heap_add` fails: the program that makes an empty heap, adds a pair, for which there is no memory, and then takes the smallest pair, reads memory that is not there. |
| C106 | `Verif.Memory.Str.str_append_self_violated` | Appending a string, or a part of it, to itself reads memory that `realloc` has given back. |
| C107 | `Verif.Mutex.Win.portable_violated` | Violated by a thread that locks the mutex twice: on Windows it goes on, on other systems, by `self_deadlock`, it waits for ever. |
| C108 | `Verif.Poll.Reuse.Linux.reopened_violated` | Violated on Linux by every object that is closed while it is registered and opened again: whatever is asked for from then on, nothing is waited for, and to ask again for what was registered before succeeds. |
| C108 | `Verif.Poll.Reuse.Linux.renewed_violated` | Violated on Linux by every object that is registered when its poller is destroyed: a new poller never waits for it, though asking for the same again succeeds. |
| C108 | `Verif.Poll.Reuse.Bsd.reopened_violated` | Violated on macOS and FreeBSD by every object that is closed while it is registered and opened again: asking for what it was registered for succeeds and nothing is waited for; deregistering it fails, for ever. |
| C108 | `Verif.Poll.Reuse.Bsd.renewed_violated` | Violated on macOS and FreeBSD by every object that is registered when its poller is destroyed. |
| C108 | `Verif.Poll.Win.reopened_violated` | Violated on Windows by every object that is closed while it is registered and opened again: whatever is asked for then, the system is asked to wait for the descriptor that was closed. |
| C108 | `Verif.Poll.Win.gone_violated` | Violated on Windows by every object that is registered when its poller is destroyed: it refers to memory that was released. To send or receive what would block, to deregister it or to register it for more is undefined. |
| C109 | `Verif.Poll.Win.pipe_violated` | Violated by pipes: to register or deregister one while a thread polls, and no request is pending, is to write to an operation that is not there. If the array was never allocated, a null pointer is followed; otherwise the request is written where nobody looks for it. |
| C109 | `Verif.Poll.Win.accept_violated` | Violated by sockets from `sc_sock_accept` for which `sc_sock_init` was not called: their memory may have any number `k` in the place of `op_index`. |
| C109 | `Verif.Poll.Win.pipe_steals_violated` | The request for a pipe takes the place of the first request that another object made while the poller waits, so that the other is not waited for though its request was granted. |
| C110 | `Verif.Poll.Win.Life.destroy_violated` | Violated on Windows by every poller that cannot register one more object because there is no memory for the next chunk, or because 16 chunks are in use, while its array could be enlarged: to destroy it releases memory twice. |
| C110 | `Verif.Poll.Win.Life.leak_violated` | Violated on Windows by a poller whose wakeup pipe cannot be connected: it is not made, and two sockets stay open. |
| C111 | `Verif.Sock.setBlocking_text_violated` | Violated by setting the mode of a socket: whatever goes wrong, the text stays what it was, although the header refers to it. |
| C111 | `Verif.Sock.Win.finish_text_violated` | On Windows: for connections that were under way the text does not depend on the reason why the connection failed, whatever it is. |
| C111 | `Verif.Sock.Win.unix_text_violated` | On Windows: for names of unix sockets that are too long the text is that of whatever error was the last one before. |
| C111 | `Verif.Sock.Win.setBlocking_text_violated` | On Windows, too, by setting the mode of a socket. |
| C111 | `Verif.Poll.WinText.failed_wait_violated` | Violated by a wait that fails on Windows with an error that the system has no text for: the text stays that of an earlier failure, whatever it was. |
| C112 | `Verif.Sock.WinIo.startup_violated` | Where an older version is granted: the program is told that starting has failed, and the library stays held, once more for each try. |
| C113 | `Verif.Log.Life.init_result_violated` | Violated by every failure of creating the logger: the header promises a negative number, the result is a positive one. |
| C113 | `Verif.Log.Life.term_errno_violated` | Violated by destroying a logger that is not in use: the result is negative, but `errno` is not set. |
| C114 | `Verif.Mmap.Crash.lost_violated` | Of two bytes that are stored to and synced, the last of a page and the first of the next, the second is lost. |
| C114 | `Verif.Mmap.Crash.win_lost_violated` | On Windows: whatever byte is stored to and synced, a crash may leave what was there before. |
| C115 | `Verif.Signal.Win.init_violated` | On Windows: initialization succeeds although the handler for `abort` could not be registered. |
| C115 | `Verif.Signal.Win.exception_code_violated` | On Windows: the code of an access violation, C0000005, is not the number that is reported. |
| C117 | `Verif.Memory.queue_reuse_violated` | Violated by queues: adding to a destroyed queue stores through NULL, although there is memory. |
| C117 | `Verif.Map.reuse_violated` | Violated by maps: a destroyed map that had memory has no load factor, so that every put into it doubles the memory, even if the key is always the same: the `n`th has taken 2^(n+2) cells, and of 30 puts one fails whatever memory there is. |
| C118 | `Verif.Time.wall_violated` | At no moment do `sc_time_ms` and `sc_time_ns` return the same on Windows as elsewhere: they are 369 years ahead, and `sc_time_ns` counts in steps of 100 ns (as long as the results fit). |
| C118 | `Verif.Time.ns_wrap_win_violated` | Violated by `sc_time_ns` on Windows from the year 2185 on: it starts again at 0, 369 years before it does elsewhere. |
| C120 | `Verif.Buf.buf_copies_violated` | Violated by buffers: they grow by what is missing only, so that putting `n` times 4096 bytes into an empty buffer copies `n * (n - 1) / 2` times 4096 bytes; the number of bytes copied for each byte that is put is not bounded. |
| C121 | `Verif.Log.Callback.deadlock_violated` | On POSIX systems: if the callback makes a call that needs the mutex, such as logging a message that is not below the level, or `sc_log_set_stdout`, the thread waits for itself, and `sc_log_log` never returns. |
| C121 | `Verif.Log.Callback.endless_violated` | On Windows too: a callback that logs what it is given calls itself without end. |
| C122 | `Verif.Mmap.Lock.shared_page_violated` | Of two records in the same page that are both locked, the first may be paged out once the second is unlocked. |
| C124 | `Verif.Map.map_reserved_violated` | Violated by maps: one with the initial capacity 8 takes six elements; the seventh needs memory, and is not stored if there is none. |
| C124 | `Verif.Heap.heap_reserved_violated` | Violated by heaps of every initial capacity `n + 1`: `n` elements can be added without memory, and the next one is not stored if there is none. |
| C125 | `Verif.Timer.timer_late_violated` | If the program calls every 31 ms, a timer of 240 ms that is due in the eighth call fires in the sixteenth, 256 ms late. |
| C126 | `Verif.Timer.timer_base_violated` | The timer is given the time 15 and then a timeout of 15, and the callback runs at 16. |
| C127 | `Verif.Array.array_add_arg_violated` | Adding the last element or the size of an array to it is undefined, unless memory is missing. |
| C127 | `Verif.Array.array_del_arg_violated` | Deleting with a variable `idx` is undefined, for every array and whatever the variable holds. |
| C127 | `Verif.Queue.queue_add_first_arg_violated` | Adding element `i + 1` at the front adds element `i` instead, if the memory suffices, and adding the size adds one more than it is. |
| C127 | `Verif.Queue.queue_peek_first_arg_violated` | Adding the first element once more at the front adds what the memory held. |
| C127 | `Verif.Queue.queue_add_last_arg_violated` | Taking the last element and adding it again at the end is undefined, unless memory is missing. |
| C128 | `Verif.Array.array_loop_violated` | If the body deletes the only element when it is visited, the loop goes on behind the end of the array, and out of its memory. |
| C128 | `Verif.Queue.queue_loop_violated` | If the body adds an element, the loop misses three others. |
| C128 | `Verif.Queue.queue_loop_last_violated` | If the body deletes the element it is at, the last, the loop goes around through all the memory, and visits what is not in the queue, and what was visited. |
| C128 | `Verif.Map.map_loop_del_violated` | A loop that deletes each key it visits visits one of two, and leaves the other. |
| C128 | `Verif.Map.map_loop_put_violated` | In a full map, a loop that replaces one value visits that entry twice and another not at all. |
| C128 | `Verif.LList.list_loop_violated` | "It is safe to delete items from the list while using this iterator"; but when the body deletes the element after the one it is at, `sc_list_foreach_safe` never ends. |
| C129 | `Verif.Timer.timer_order_violated` | A timer of 256 ms fires before one of 16 ms when the call comes after 256 ms. |
| C130 | `Verif.Str.str_null_violated` | Violated by `sc_str_set`, `sc_str_append` and `sc_str_append_fmt`: the header says that they return false if `*str` is NULL (string/sc_str.h:106-136). Whenever there is memory and the text is not too long they return true, and the variable is a string with the text. |
| C132 | `Verif.Log.crash_violated` | A process sets the files and logs a message, each call succeeds and returns 0; then it dies, and of the file the last `B` bytes are missing, all of it if it is shorter. |
| C135 | `Verif.Map.string_flood_violated` | For strings: there are `2 ^ n` different strings such that in a new map they have all been put into, looking for one that is not there looks at all of them, and looking up each of them takes `2 ^ n * (2 ^ n + 1) / 2` looks. They are made of two blocks of eight bytes, and would do for any other seed of the hash (`blocks_same`). |
| C135 | `Verif.Map.u64_flood_violated` | For numbers of 64 bits: those whose two halves are equal all have the hash 0. |
| C135 | `Verif.Map.u32_flood_violated` | For numbers of 32 bits, which are their own hash: multiples of `2 ^ 18` all belong in the first cell of a table of up to `2 ^ 18` cells. |
| C135 | `Verif.Map.row_miss_violated` | Even for keys that no one chose: in a new map with the numbers from 1 to `N`, looking for the number that is one more than the capacity looks at all of them. |
| C138 | `Verif.Timer.same_timeout_violated` | As a promise that adding is cheap: timers with the same timeout wait in the same slot, and each new one looks at all that are there. Adding `n` of them looks at `n·(n−1)/2` cells at least. |
| C138 | `Verif.Timer.poll_idle_violated` | For polling: the wheel never shrinks. After `n` timers were added and all of them removed, so that none is pending, the poll of a single tick still looks at `n` cells or more, each time. |
| C139 | `Verif.Timer.callback_term_violated` | Violated by callbacks that destroy the timer: wherever a timer fires that is not in the last cell of its slot, the sweep goes on in memory that was given back. |
| C140 | `Verif.Heap.max_heap_violated` | For the smallest key, which a heap with the smallest key first holds like any other: negating it is undefined. |
| C141 | `Verif.Thread.Race.thread_race_violated` | Violated by `sc_thread_join` on Windows when the wait for the thread fails: it reads the result that the thread is still to store. |
| C141 | `Verif.Poll.Race.poll_init_race_violated` | Violated by `sc_sock_poll_wait` on Windows: whether the poller is initialised is read without the lock, and `sc_sock_poll_add` in another thread may replace that pointer. |
| C141 | `Verif.Poll.Race.poll_mask_race_violated` | Violated by `sc_sock_send` and `sc_sock_recv` on Windows: they read without the lock where the socket is registered, which the polling thread stores when it does what was submitted. |
| C144 | `Verif.Timer.timer_loop_violated` | No wait takes more than 15 ms longer than it should, and a timer of 32 ms has not fired at 77, which is 45 ms late: more than a tick and the 15 ms. |
| C147 | `Verif.Buf.buf_drain_str_violated` | Violated by strings: the length 2^64 - 9 makes `sc_buf_get_str` return a string and go back to where it was. The loop never ends. |
| C147 | `Verif.Buf.buf_drain_blob_violated` | Violated by blobs: the length 2^64 - 8 makes `sc_buf_get_blob` return a pointer and go back to where the length was. |
| C148 | `Verif.Sock.connect_again_violated` | Violated by connecting to a name that cannot be resolved: if an earlier call has left `EAGAIN` in `errno`, say a read with nothing to read, it is still there, and the caller takes the failure for a connection that is under way. There is none: the object has no descriptor. |
| C148 | `Verif.Sock.WinTransfer.again_violated` | On Windows: once a call has left `EAGAIN` in `errno`, which is what happens whenever there is nothing to read, every later failure of a transfer looks like another one that would block, such as that of a connection that was reset (10054), and callers that wait for the next event never learn of it. |
| C148 | `Verif.Sock.WinOpen.connect_again_violated` | Violated by connecting on Windows: if `errno` was `EAGAIN` before, it is so after every failure, and there is no connection under way. |
| C149 | `Verif.Queue.queue_last_index_violated` | `sc_queue_last` is the index of the last element in no queue that has one; what is there is not an element of the queue. |
| C150 | `Verif.Poll.WinGrow.requests_violated` | 885410839 requests can be pending, and the next one makes an `int` overflow; this happens with no other number. |
| C151 | `Verif.Narrow.heap_sizes_violated` | Violated by heaps: one made for 67108865 elements, which takes 1 GB on a 32-bit system, asks for 64 bytes when it is full, and one that has grown by itself to 67108864 elements for none at all, and takes them for twice as many elements. On i386, where an element has 12 bytes and not 16, one made for 90000000 elements asks for 25 MB. |
| C151 | `Verif.Narrow.heap_add_violated` | Violated by heaps, seen by the caller: adding to a heap with 32 bits that was made for 67108865 elements and has all of them but one is undefined, as soon as there are 64 bytes of memory. |
| C151 | `Verif.Narrow.timer_sizes_violated` | Violated by timers: with 4194304 places per wheel on i386, where a timer has 20 bytes, the list is enlarged to 1 GB, less than the 2.7 GB that it had, and is taken to have twice as many places. The sum of both is less than 4 GB. |
| C151 | `Verif.Narrow.buf_sizes_violated` | Violated by buffers: `sc_buf_init(&b, 4294967312)` on a 32-bit system asks for 16 bytes and stores the capacity 4294967312, and `sc_buf_reserve(&b, 4294967297)` on an empty buffer asks for 4096 bytes. Both succeed. |
| C152 | `Verif.Narrow.time_ms_narrow_violated` | Later it is undefined, at every time. |
| C152 | `Verif.Narrow.sleep_narrow_violated` | Asked for 2^31 milliseconds, it fails at once, and asked for 2^32 + 5, nearly 50 days, it returns 0 after 301 milliseconds: the seconds are those of 5, the rest is that of 2^32 + 5. |
| C153 | `Verif.Memory.Buf.put_raw_own_violated` | Whenever the buffer has to grow for its own bytes, and can, they are read after the memory was given back. |
| C153 | `Verif.Memory.Buf.put_str_own_violated` | Violated by strings: if writing a copy of the string moves the memory of the buffer, writing the string is undefined. |
| C153 | `Verif.Memory.Buf.put_blob_own_violated` | Violated by blobs, in the same way. |
| C156 | `Verif.Ini.Layout.crlf_file_violated` | For a file with longer lines: a comment of 1021 bytes is one line with the line ends of Unix, and two with those of Windows, so that the numbers of all lines after it are wrong. |
| C158 | `Verif.Config.array_max_violated` | Violated by arrays: with a maximum of 10 bytes, the first addition of a number of 4 bytes takes 32. |
| C158 | `Verif.Config.queue_max_violated` | Violated by queues: with a maximum of 3 elements, there is room for 7 from the beginning. |
| C158 | `Verif.Config.heap_max_violated` | Violated by heaps: with a maximum of 2 the first addition makes the capacity 4, and three elements fit. |
| C158 | `Verif.Config.heap_memory_violated` | Violated by heaps: with a maximum of 10 elements the fourth addition asks for the memory of 16. |
| C158 | `Verif.Config.map_max_violated` | Violated by maps: with a maximum of 100 a map created for 100 entries has a capacity of 128. |
| C160 | `Verif.Sock.WinTransfer.eof_violated` | On Windows: once the end of a stream was told to a thread, which is how every connection is meant to end, a connection that is reset or times out afterwards, bytes of which are still to come, is told as one that has ended properly. `w` and `w₂` are the streams of the two sockets; `errno` is the thread's. |
| C163 | `Verif.Sock.PipeText.posix_text_violated` | On other systems: whatever the error, writing and reading fail without storing a text, so that the text of a new pipe is empty. |
| C165 | `Verif.Frame.Win.at_end_violated` | If another connection of the thread has ended: `errno` still has the number of the end when this connection is reset, so the receiver believes that it has had every message, although one that was sent is missing and the sender has not closed its end. |
| C166 | `Verif.Thread.Portable.join_twice_violated` | Violated by joining twice: on Windows the second join gives the value again, elsewhere it gives a null pointer. |
| C166 | `Verif.Thread.Portable.restart_violated` | Violated by a thread started before the one before has begun: on Windows both call the second function, because they take it from the object. |
| C166 | `Verif.Thread.Portable.join_unstarted_violated` | Violated by a join of an object through which nothing was started: on Windows it gives whatever was in memory, elsewhere a null pointer. |

Found by reading, outside what a model can show: `sc_mmap_err` is declared in memory-map/sc_mmap.h:129 but defined only in the branch of
sc_mmap.c (line 355) for systems other than Windows, so a program that calls it does not link there.

## Plan per property

| Id | Model | Proof |
|----|-------|-------|
| C01-C03 | array as (block, cap, size, oom); macros as functions with an allocator oracle; `foreach` as its two nested C loops | simulation with `List`, induction over histories |
| C04-C06 | ring buffer (block, cap, first, last, oom) | abstraction = rotated slice; simulation; growth lemma; negation of C06 by witness |
| C07-C10 | 1-based array heap with the failed-add behaviour | heap-order invariant with a hole; multiset conservation; witness for C09 |
| C11-C17 | open addressing table with cell -1 for the zero key, parametric in key, hash and value; murmurhash over bytes | probe-chain invariant (no empty cell between home and position), backward-shift preserves it; simulation with `Key -> Option Val`; witness for cap > 2^31 |
| C18-C21 | heap of `next`/`prev` pointers | circular-list predicate (separation style over several disjoint lists), each op preserves it |
| C22-C26 | wheel of 16 slots, 64-bit ids, growth, `timeout` with re-entrant callback | invariants on slots; ghost history of added timers |
| C27-C33 | byte strings with 32-bit length, C string functions as list functions | simulation with `List`; replace against leftmost-nonoverlapping spec; tokens against split spec; divergence for empty pattern for all fuels |
| C34-C43 | buffer (bytes, cap, limit, rpos, wpos, err, ref) with 64-bit wrap-around | round trips, invariants, witnesses for the overflow defects |
| C44-C46, C77, C78 | byte tables computed as in the init code, three loops, GF(2) matrices | linearity of the CRC register over GF(2), slicing-by-8, zeros operators; polynomial spec over Mathlib's `ZMod 2`; order of x for two and three bit errors |
| C47-C50 | bit tricks, strtoll/strcasecmp, %.2f as exact rounding, RC4 | bit-level lemmas, case analysis, induction |
| C51-C53, C79, C80 | format interpreter with cursor and size; handlers as state machines that nest, on Windows as threads | prefix invariant; digits lemma; induction over nestings |
| C54-C56 | line reader, trim and parse over bytes, callback oracle | printer/parser round trip; event-prefix theorem |
| C57-C59 | uri parser over bytes with strstr/strpbrk/strchr/strtoul | symbolic execution; round trip; witnesses for C58, C59 |
| C60 | option matcher | case analysis against a declarative spec |
| C61-C64, C81-C84 | logger with sinks as lists of lines, file rotation, mutex, threads | induction over histories and interleavings; progress measure for C84 |
| C65-C67, C85-C89 | interleaving models with mutex and condition variable (spurious wake-ups); join state machine; nanosleep with interruptions; clocks | inductive invariant over all schedules; linearizability to a one-value box; case analysis |
| C68-C69, C90-C92 | system calls as oracles with tables of open descriptors and mappings | case analysis over every outcome; exact condition for the synced range |
| C70, C71, C75, C93-C99 | system-call oracles, table of descriptors, stream of bytes, address texts | induction over histories of calls; prefix theorems; witnesses |
| C72, C100, C101 | kernel interest tables of epoll and kqueue | refinement of the table by the history of requests |
| C73 | index arithmetic of the chunked table | bijection for every capacity |
| C74, C102-C104 | Windows poller: table, chunks, pending operations, wakeup pipe, threads | invariant over every interleaving; refinement of C72's specification once requests are carried out; array of pending requests never overrun |
| C76 | totals over intervals | induction |
| C105, C106 | containers on a memory with addresses; ownership = the blocks of the store are those of the objects | simulation by the models without addresses; induction over programs with any number of objects |
| C107 | mutex and critical section as counters with an owner | histories of Windows without re-entry are histories of POSIX; a witness of re-entry |
| C108 | opening, closing and renewing on top of the pollers, with the descriptors that are open | a common invariant for Linux and the BSDs, the invariant of the Windows poller with changing descriptors; witnesses for stale objects |
| C109 | how each kind of object is made | initialised sockets meet what the histories of the Windows poller start from; witnesses for pipes and accepted sockets |
| C110 | the life of a Windows poller: blocks, sockets and locks taken and given back, with failures at any point | ownership invariant over all histories; witnesses for the two points where it breaks |
| C111 | the text of the last error on each system, with `errno` and the last error of the socket library apart | what each failing path stores; witnesses where it is another text or none |
| C112 | the count of references to the socket library | induction over programs; a witness for other versions |
| C113 | the mutex of the logger and what creation and destruction return, around the runs of threads | ownership invariant over histories; witnesses for the results |
| C114 | the memory of a map and the file on the disk, pages written back at any time | invariant over all runs against the values a crash may leave; witnesses for unaligned ranges and for Windows |
| C115 | the exception filter and the handler for abort on Windows, and what initialisation registers | formatted text computed for every code; witnesses for large codes and for a failed `signal` |
| C116 | two buffers and a wire between them; the system moves pieces of any size | stream invariant over histories |
| C117 | the destructors of all containers on memory, and calls after them | one theorem for each kind; witnesses for queues and maps |
| C118 | sc_time_ms and sc_time_ns of both systems over one clock that counts 100 ns | witness for the wall clock; theorem for differences; witness for wrapping |
| C119 | sc_heap_add and sc_heap_pop with a counter of comparisons | equality with the plain versions; induction over the levels |
| C120 | the sizes of the memory of arrays, queues, heaps, maps, timers and buffers along histories | geometric growth by induction over histories; witness for buffers |
| C121 | the logger with callbacks that are programs calling it, and a mutex that is recursive or not | theorems for both kinds; induction over nesting |
| C122 | mlock and munlock of ranges on both systems, the set of locked pages along histories | characterisation of the set by induction; witness of a shared page |
| C123 | the logger's switches, its calls on the streams and on the callback, many threads | the run is a sequence of whole calls in the order of the lock; an induction on it tracks the switch and the callback that were set last |
| C124 | creation and the growth tests of map, heap and buffer with the results of allocation as input | the threshold field of the map is kept equal to the load factor times the capacity; an insertion below it does not allocate; the violations are runs |
| C125 | the wheel timer with the times of its calls | the time a call does not account for is defined by recursion on the history; the wheel's clock is the last time less that; violated by a run |
| C126 | the same | the clock at which a timer is added differs from the latest time by less than a tick; violated by a run |
| C127 | a small language of argument expressions with the scopes and evaluation order of the macros | induction on the expression that growing keeps its value; the undefined and wrong cases are shown for every container |
| C128 | the foreach loops as a relation whose body makes any calls | induction on the loop with the invariant that the cells still to be visited are unchanged; violations are runs |
| C129 | the timer model of C22 | an invariant of the sweep: counted from some time on, every pending timer is in a slot still to come that belongs to its deadline; `clear` in a callback starts the count again; a call after a whole revolution is computed as the witness |
| C130 | what each string function does with a NULL string or text | direct evaluation for every value of the other arguments; the three functions that differ from the header are shown to create the string |
| C131 | programs of string calls on any number of variables, with failing allocations | an independent transition relation on texts; each call refines it by the theorems of C27 to C31, programs by induction |
| C132 | the files after the process has died in any state of the logger, with all but the last bytes of an open stream written | invariant over the positions of an unfinished call, on top of the serialisation of C81 and the lines of C62; a run in which a buffer is lost; the next process by C62 again |
| C133 | nothing new: the three builds of C44; a message followed by its CRC | the generator is X + 1 times a factor of degree 31; the logarithms of 1 + X^a for all a below 5275, a table checked by the kernel, show that no two of them are close enough for four flipped bits to cancel; linearity for the limit |
| C134 | the probe loop of sc_map with a counter | the occupied cells of a table are determined by its keys (pigeonhole between two free cells), so are the sums of distances from home; runs of occupied cells against the number of keys |
| C135 | the probe loop with a counter of C134; MurmurHash64A as published | keys with one home occupy a run of cells, so a lookup passes them all; two blocks whose scrambled values differ in the highest bit only, which multiplication by an odd number keeps, so that a pair of them cancels; for numbers the hash functions are inverted by hand |
| C136 | nothing new | the homes of the keys are occupied cells; if they are different there are as many as keys, so the sum of all distances is 0 |
| C137 | nothing new; the pending timers are read off the events | the wheel only doubles when all cells of one slot hold pending timers, carried through callbacks and sweeps by induction |
| C138 | the search loop of sc_timer_add and the sweep of sc_timer_timeout with counters | the search passes pending timers only; a slot filled from its first cell on for the lower bounds |
| C139 | `sc_timer_timeout` for callbacks that poll again, to any depth, or destroy | the invariant of the wheel holds in every callback, by induction on the depth; a general counterexample for destroying |
| C140 | a client that negates keys in and out | simulation of a bag that gives the largest by the one that gives the smallest |
| C141 | happens-before (program order, mutexes, start and join); accesses of sc_cond, the logger, sc_thread on Windows, the poller on Windows | a lock discipline and one for ownership that passes between threads imply that conflicting accesses are ordered; each component keeps one of them; short executions for the races that exist |
| C142 | sc_uri_create (as for C58) | the parser finds a cut exactly when one obeys the rules; the text of an accepted string has a cut with the same components |
| C143 | sc_rand_init, sc_rand_read (as for C50) | a step can be undone, so the states of a generator form a circle by counting them; the index counts the bytes modulo 256 |
| C144 | sc_timer_timeout with what it returns, sc_timer_add (as for C22–C26); an event loop as a relation | a sweep of the wheel takes at most a tick and the overshoot; a timer fires when its slot is swept |
| C145 | as for C144 | a call that returns 0 has moved the wheel by a tick, and the next one returns a tick or has moved it again |
| C146 | the get functions of sc_buf (as for C35) | the first value that is not complete fails and sets the error, after which every get function fails |
| C147 | as for C37, in a loop over any sequence of kinds | the read position grows in every round; for the violation, a round that changes nothing |
| C148 | sc_sock_send, sc_sock_recv, sc_sock_accept and sc_sock_connect for POSIX and Windows; on Windows `WSAGetLastError` and `errno` are apart | errno is traced through all system calls: it is what it was or what a failed call set |
| C149 | the index macros of sc_queue (as for C04) | the ring as a list; indices by the number of steps from the first, modulo the capacity |
| C150 | the two counters of the array of pending requests, type int | invariant: the capacities are the first 45 of a sequence; the state in which the next product overflows is reached |
| C151 | the sizes computed before each allocation, modulo 2^w for a size_t of w bits | arithmetic for every w; exact bounds where a check is missing |
| C152 | sc_time_ms and sc_time_sleep with a signed type of 32 bits | arithmetic; reduction to the 64-bit sleep of C67 below the bound |
| C153 | the writing functions on memory with addresses, with a pointer as the source; memcpy of overlapping ranges and reading freed blocks are undefined | comparison with the same call given a copy: equal if the block stays, undefined if it moves |
| C154 | the string map with a memory that may change between the calls | invariant: every key in the table is held; the representation of the finite map does not depend on other memory |
| C155 | the finite numbers of type double, rounding to a nearest one; the expression for the limit as in the code | relative error of rounding; the exact limit is an integer, computed exactly, or too far from one to be passed |
| C156 | the model of ini | two documents are compared through what the lines of each report; reports of appended lines, induction over lines |
| C157 | the models of condition and queue put together with threads that add and signal, or wait and take | invariant: while the queue is not empty somebody owes a signal, a signal is under way, the flag is set or somebody takes; a measure for coming to rest; Windows by simulation |
| C158 | the functions of the containers that look at the maximum, with the maximum as an argument | call by call equal to the function with the default maximum and a failing allocation; invariant on capacity and memory |
| C159 | two programs made of the functions of the models of buffers and sockets, a network between them that carries any number of bytes at any time | invariant: the messages not taken out yet are the bytes in the receiver's buffer, its system, the network and the sender's buffer, in this order; lengths in four bytes can be told apart |
| C160 | the models of receiving on POSIX and on Windows, with errno and the error of the last call apart | case analysis of the call that was not interrupted; the exact condition on Windows, a witness with two sockets |
| C161 | a program made of the functions of the models of maps and lists, with entries that are allocated and released | invariant: list, map and allocated entries are the same sequence; each call refines one on a list ordered by last use |
| C162 | the models of the shutdown handler and of the epoll and kqueue pollers in one process, with the bytes in the pipe | invariant: after a signal a handler runs or there is a byte in the pipe; the registration of the pipe from the theorems on the poller |
| C163 | the pipes of both systems with the text, and the error of the last failed call on Windows | induction over histories; specification: the text that is due is that of the last failure since the pipe was made |
| C164 | the models of the console handler and of the WSAPoll poller in one process, with the bytes in the pipe and whether there was one when WSAPoll looked | invariant: a handler that returned left a byte; while results wait to be told the pipe's entry says what WSAPoll found, also in results left over; the rest from the theorems on the poller |
| C165 | as C159 with the model of Windows sockets, `errno` and the last error of the socket library apart | the invariant of C159, with the end also while `errno` says so; witness with an `errno` left by another connection |
| C166 | the thread objects of both systems with the threads that were started: on Windows these take function and argument from the object when they begin, and leave the result there | both systems simulate, and are simulated by, a machine with one thread at a time; witnesses for programs that are not tidy |
| C167 | the step relations of C65 for both systems | each simulates the other: a POSIX signal that wakes several threads is one that wakes one, followed by spurious wakeups, of which finitely many are needed because finitely many threads have made calls |

C56 is only meaningful for lines that fit the 1 KiB line buffer. C66 relies on `pthread_join`
doing what it says; what is proved is the library's own bookkeeping.

## Axioms of the theorems in MANIFEST.json

Printed by `#print axioms`.

**none** (21 theorems):

* `Verif.Buf`: `buf_clear_valid`
* `Verif.Log`: `level_unique`
* `Verif.Log.Life`: `term_errno_violated`
* `Verif.Memory`: `timer_term`
* `Verif.Mutex`: `progress`
* `Verif.Narrow`: `buf_sizes_violated`, `heap_sizes_violated`, `timer_sizes_violated`
* `Verif.Poll.Win`: `accepted_ready`, `sock_ready`, `waitTime_partial`, `waitTime_violated`
* `Verif.Signal.Win`: `init_violated`
* `Verif.Sock.Win`: `setBlocking_text_violated`
* `Verif.Sock.WinIo`: `posix_ok`, `startup_violated`
* `Verif.Str`: `str_len`
* `Verif.Time`: `mono_win_violated`, `ns_wrap_violated`, `ns_wrap_win_violated`, `sleep_win_violated`

**propext** (80 theorems):

* `Verif.Array`: `array_del_arg_violated`, `array_loop_violated`
* `Verif.Buf`: `buf_drain_blob_violated`, `buf_drain_str_violated`, `buf_get_blob_violated`, `buf_get_str_unterminated_violated`, `buf_get_str_violated`, `buf_move_violated`, `buf_put_fmt_err_violated`, `buf_put_fmt_violated`, `buf_put_text_violated`, `buf_reserve_violated`, `buf_shrink_limit_violated`, `buf_shrink_ref_violated`
* `Verif.Cond`: `init_spec`, `term_partial`, `term_sign_violated`
* `Verif.Cond.Win`: `init_term_spec`
* `Verif.Config`: `array_max_same`, `array_max_violated`, `heap_init_same`, `heap_max_same`, `heap_max_violated`, `heap_memory_violated`, `map_max_violated`, `queue_max_violated`
* `Verif.Heap`: `heap_failed_add_pops_garbage_violated`, `heap_failed_add_violated`, `max_heap_violated`
* `Verif.Ini`: `ini_no_file`, `ini_null`, `trim_space_pointer_defect`
* `Verif.Log`: `name0_ok`, `set_level_violated`
* `Verif.Log.Life`: `win_mutex`
* `Verif.Map`: `map_reserved_violated`, `reuse_partial`
* `Verif.Memory`: `array_term`, `buf_term`, `heap_memory_violated`, `heap_term`, `map_term_partial`, `queue_reuse_violated`, `str_term`
* `Verif.Memory.World.Tidy`: `no_leak`
* `Verif.Mmap.Win`: `failed_grows`
* `Verif.Mutex`: `exclusion`, `init_spec`, `self_deadlock`
* `Verif.Mutex.Win`: `init_term`, `portable_violated`, `progress`
* `Verif.Narrow`: `heapAdd_64`
* `Verif.Opt`: `option_letter_defect`, `option_space_violated`
* `Verif.Poll.Epoll`: `time_violated`, `wait_forever`
* `Verif.Queue`: `queue_oom_sticky_violated`
* `Verif.Sc`: `size_to_bytes_char_violated`, `size_to_bytes_doc_defect`, `size_to_bytes_violated`
* `Verif.Signal`: `snprintf_zero_violated`
* `Verif.Signal.Win`: `init_ok`
* `Verif.Sock`: `failed_text`, `init_spec`, `setBlocking_text_violated`
* `Verif.Sock.Io`: `zero_spec`
* `Verif.Sock.Win`: `finish_text_violated`
* `Verif.Sock.WinPipe`: `init_result`, `term_result`
* `Verif.Sock.WinTransfer`: `again_partial`, `zero_spec`
* `Verif.Str`: `pieces_joined`, `str_append_fmt_violated`, `str_null_partial`
* `Verif.Thread`: `win_join_unstarted_defect`
* `Verif.Thread.Portable`: `join_unstarted_violated`
* `Verif.Timer`: `timer_deadline_invalid_defect`, `timer_deadline_wraps_defect`
* `Verif.Uri`: `uri_null`

**propext, Quot.sound** (209 theorems):

* `Verif.Array`: `array_add_arg_partial`, `array_add_arg_violated`, `array_del_arg_partial`, `array_sort_contents`
* `Verif.Buf`: `bringIn_ok`, `buf_accessors`, `buf_compact_keeps`, `buf_copies_violated`, `buf_get_blob_hostile`, `buf_put_raw_code`, `buf_put_text_long_violated`, `buf_reserve_partial`, `buf_shrink_keeps`, `le_getElem?`, `takeOut_ok`
* `Verif.Cond`: `exclusive`, `linearizable`, `no_lost_signal`, `released_partial`, `settles`, `signal_overwritten_violated`
* `Verif.Config`: `heap_refused_iff`, `map_init_same`, `map_max_same`, `queue_max_same`
* `Verif.Frame.Win`: `at_end_violated`
* `Verif.Heap`: `addC_plain`, `heap_failed_add_partial`, `heap_growth_overflow_defect`, `popC_plain`
* `Verif.Ini`: `chunks_exist`, `lines_exist`, `trim_space_pointer`
* `Verif.Log`: `atomic`, `crash_possible`, `defaults_kept`, `dropped_level`, `exclusive`, `program_order`, `rotation_rename_violated`, `rotation_same_name_violated`, `set_file_errno_violated`, `set_file_off`, `written_level`
* `Verif.Log.Callback`: `deadlock_violated`, `descending_returns_partial`, `endless_violated`, `quiet_partial`, `returns_fair`, `settings_partial`
* `Verif.Log.Life`: `init_result_violated`
* `Verif.Map`: `map_loop_del_violated`, `map_loop_put_violated`, `map_string_hash_and_eq`, `map_string_kind_faithful`, `murmur_reference`
* `Verif.Memory`: `history_ok`, `queue_term_partial`
* `Verif.Memory.Str`: `str_append_self_violated`
* `Verif.Mmap`: `apple_keeps_violated`, `mlock_covers`, `msync_covers_violated`, `term_clears`
* `Verif.Mmap.Crash`: `lost_violated`, `win_covers`, `win_lost_violated`, `win_mem`
* `Verif.Mmap.Lock`: `locked_cause`, `shared_page_violated`, `unlocked`
* `Verif.Mutex.Win`: `exclusion`
* `Verif.Narrow`: `append_refused_iff`, `append_sizes`, `bufInit_refused_iff`, `bufInit_sizes_iff`, `bufReserve_sizes_iff`, `buf_sizes_partial`, `heapInit_sizes`, `heap_add_violated`, `heap_sizes_iff`, `heap_sizes_partial`, `queue_refused_iff`, `queue_sizes`, `sleep_narrow_partial`, `sleep_narrow_violated`, `str_refused_iff`, `str_sizes`, `time_ms_narrow_violated`
* `Verif.Perf`: `set_aborts`
* `Verif.Poll.Epoll`: `data_given`, `data_partial`, `data_violated`, `edge_violated`, `failed_nothing`, `interest`, `no_leak`, `no_ub`, `pollInit_ok`, `pollTerm_ok`, `wait_term`
* `Verif.Poll.Kqueue`: `atomic_violated`, `data_partial`, `data_violated`, `event_spec`, `failed_partial`, `interest_partial`, `keep_violated`, `stuck_violated`, `told_partial`, `wait_term`
* `Verif.Poll.Race`: `poll_init_race_violated`, `poll_mask_race_violated`
* `Verif.Poll.Reuse.Bsd`: `renewed_violated`, `reopened_violated`, `reuse_partial`
* `Verif.Poll.Reuse.Linux`: `renewed_violated`, `reopened_violated`, `reuse_partial`
* `Verif.Poll.Table`: `capacity_sum`
* `Verif.Poll.Win`: `accept_violated`, `add_del_violated`, `add_edge_violated`, `del_violated`, `edge_violated`, `example_history`, `gone_violated`, `granted_violated`, `lost_wakeup_violated`, `memory_violated`, `order_violated`, `pipe_steals_violated`, `pipe_violated`, `stale_violated`, `submit_quiet`, `told_kept`, `told_registered`
* `Verif.Poll.Win.Life`: `leak_violated`
* `Verif.Poll.WinText`: `begin_tells`, `failed_wait_violated`
* `Verif.Queue`: `queue_loop_last_violated`, `queue_loop_violated`, `queue_peek_first_arg_violated`
* `Verif.Sc`: `bytes_to_size_violated`, `count_exact`, `rand_bytes_of_seed`, `rand_period_zero`, `rand_rc4_violated`
* `Verif.Signal`: `conv_exists`, `numeral_exact`
* `Verif.Sock`: `mode_violated`, `path_violated`, `setBlocking_ok`
* `Verif.Sock.Io`: `notify_unset`, `pipeErr_ok`, `pipeInit_ok`, `pipeRead_ok`, `pipeWrite_ok`, `pipe_count_violated`, `pipe_fifo_partial`, `recv_waits`, `send_waits`
* `Verif.Sock.Name`: `empty_violated`, `inet_uncut`, `text_inj`, `unnamed_violated`
* `Verif.Sock.PipeText`: `asked`, `posix_text_partial`, `posix_text_violated`, `windows_term`
* `Verif.Sock.Win`: `unix_result`
* `Verif.Sock.WinIo`: `balanced_partial`
* `Verif.Sock.WinPipe`: `init_ok_partial`, `leak_two_violated`, `leak_violated`
* `Verif.Sock.WinTransfer`: `timeo_violated`
* `Verif.Str`: `pieces_no_delim`, `str_append_fmt_partial`, `str_cmp`, `str_create_fmt`, `str_replace_violated`, `str_set_fmt`, `str_trim_violated`, `subst_unique`, `trimmed_unique`
* `Verif.Str.Spec.Run`: `det`
* `Verif.Thread`: `err_text_violated`, `failed_join_leaks_violated`, `join_after_failed_start_violated`, `join_again`, `start_result_defect`, `win_err_violated`, `win_join`, `win_result`
* `Verif.Thread.Race`: `thread_handover`
* `Verif.Time`: `ns_exact`, `sleep_enough_partial`, `sleep_enough_violated`, `sleep_result`, `sleep_returns`, `sleep_win_partial`
* `Verif.Timer`: `callback_term_violated`, `lift_timeout`, `runG_forget`, `timer_base_violated`, `timer_due_not_fired_defect`, `timer_late_violated`, `timer_loop_violated`, `timer_order_violated`, `timer_stale_id_defect`

**propext, Classical.choice, Quot.sound** (477 theorems):

* `Verif.Array`: `array_add_atomic`, `array_add_succeeds`, `array_block_matches_capacity`, `array_copies_partial`, `array_foreach_walks`, `array_loop_partial`, `array_refines_list`, `array_ub_only_out_of_range`
* `Verif.Buf`: `buf_drain_partial`, `buf_err_get`, `buf_err_sticky_partial`, `buf_get_code`, `buf_get_data_code`, `buf_get_data_hostile`, `buf_get_int_hostile`, `buf_get_str_hostile_partial`, `buf_in_range_partial`, `buf_int_round_trip`, `buf_len_exact`, `buf_limit_partial`, `buf_message_complete`, `buf_message_cut`, `buf_message_read`, `buf_message_round_trip`, `buf_move_partial`, `buf_put_code`, `buf_put_fmt_partial`, `buf_put_text_appends`, `buf_reserved`, `buf_set_peek`, `link_message`, `link_step`, `link_stream`
* `Verif.Cache`: `defined`, `refines`
* `Verif.Cond`: `cond_handover`, `cond_race_free`, `no_duplicates`
* `Verif.Cond.Handover`: `handed_over`, `handed_over_win`, `in_order`, `in_order_win`, `rests`, `rests_win`
* `Verif.Cond.Win`: `cond_handover`, `cond_race_free`, `exclusive`, `linearizable`, `no_duplicates`, `no_lost_signal`, `portable`, `portable_rest`, `settles`
* `Verif.Config`: `array_max_partial`, `array_refused_iff`, `heap_max_partial`, `map_max_partial`, `map_refused_iff`, `queue_max_partial`, `queue_refused_iff`
* `Verif.Crc`: `crc_burst`, `crc_correct`, `crc_empty`, `crc_five_bits`, `crc_incremental`, `crc_odd`, `crc_three_bits`, `crc_unique`, `crc_word_burst`, `crc_word_five`, `crc_word_limit`, `crc_word_odd`, `crc_word_three`
* `Verif.Flt`: `load_factor`, `remap_double`, `size_double`, `value_double`, `value_exact`
* `Verif.Frame`: `at_end`, `complete`, `defined`, `in_order`, `next_any`, `putFrame_ok`, `read_back`, `room`
* `Verif.Frame.Win`: `at_end_partial`, `complete`, `defined`, `in_order`
* `Verif.Heap`: `add_compares`, `heap_copies_partial`, `heap_drain_sorts`, `heap_no_ub`, `heap_refines_priority_queue`, `heap_reserved_partial`, `heap_reserved_violated`, `max_heap_partial`, `pop_compares`
* `Verif.Ini`: `ends_zero`, `ini_callback_result_defect`, `ini_document_file_partial`, `ini_document_partial`, `ini_file`, `ini_file_string_partial`, `ini_file_string_violated`, `ini_key_violated`, `ini_section_violated`, `ini_string`, `ini_truncate_defect`
* `Verif.Ini.Layout`: `crlf`, `crlf_file_partial`, `crlf_file_violated`, `mark`, `padded`, `parts`
* `Verif.LList`: `list_add_moves`, `list_add_next_to_itself`, `list_clear_detaches`, `list_foreach_safe`, `list_foreach_safe_actions`, `list_foreach_safe_r`, `list_frame`, `list_loop_ends`, `list_loop_partial`, `list_loop_violated`, `list_refines_sequences`
* `Verif.Log`: `callback_obeyed`, `callback_once`, `crash_partial`, `crash_restart`, `crash_violated`, `done_name`, `file_size_partial`, `file_size_violated`, `header_length`, `log_callback_sees`, `log_delivers`, `log_fails`, `log_race_free`, `no_deadlock`, `no_interleaving`, `no_leak`, `no_ub`, `rotation_partial`, `set_file_ok`, `set_file_partial`, `set_level_partial`, `step_fine`, `streams_obeyed`, `thread_name`
* `Verif.Log.Life`: `init_partial`, `no_leak`
* `Verif.Map`: `int_row`, `looked_le`, `looked_one`, `looked_same`, `lookup_cost_partial`, `map_calls_terminate`, `map_copies_partial`, `map_foreach_visits_each_once`, `map_init_partial`, `map_init_violated`, `map_load`, `map_loop_partial`, `map_put_atomic`, `map_refines_finite_map`, `map_reserved_partial`, `map_size_counts_keys`, `map_string_keys_by_content`, `reuse_violated`, `row_miss_violated`, `string_flood_violated`, `u32_flood_violated`, `u32_row`, `u64_flood_violated`, `u64_row`
* `Verif.Map.Keys`: `str_map_keys`
* `Verif.Memory`: `array_memory`, `buf_memory`, `buf_move_memory`, `heap_memory_partial`, `map_memory`, `mixed_memory_partial`, `queue_memory`, `str_memory`, `timer_memory`, `uri_memory`
* `Verif.Memory.Buf`: `move_self`, `put_blob_own_partial`, `put_blob_own_violated`, `put_raw_own_partial`, `put_raw_own_violated`, `put_str_own_partial`, `put_str_own_violated`
* `Verif.Memory.Str`: `str_append_from_elsewhere_partial`, `str_set_from_anywhere`
* `Verif.Mmap`: `apple_file`, `apple_keeps_partial`, `apple_offset_violated`, `err_string`, `init_covers_partial`, `init_spec`, `msync_covers_iff`, `msync_covers_partial`, `no_ub`, `range_result`, `resources`, `term_again`, `term_ok`, `win_resources`
* `Verif.Mmap.Crash`: `survives_partial`, `synced_survives_partial`, `win_text`
* `Verif.Mmap.Lock`: `locked_partial`
* `Verif.Mmap.Win`: `init_spec`
* `Verif.Mutex.Win`: `portable_both_partial`, `portable_partial`
* `Verif.Narrow`: `array_refused_iff`, `array_sizes`, `heapInit_refused_iff`, `map_sizes`, `time_ms_narrow_partial`, `timer_sizes_partial`
* `Verif.Opt`: `option_at_partial`
* `Verif.Perf`: `closed_after_end`, `restart_violated`, `scale_violated`, `times_partial`, `totals_partial`
* `Verif.Poll.Epoll`: `event_spec`, `time_partial`, `told`, `wait_spec`
* `Verif.Poll.Kqueue`: `timespec_spec`, `wait_spec`
* `Verif.Poll.Race`: `poll_races_partial`
* `Verif.Poll.Spec`: `after_rw`
* `Verif.Poll.Table`: `in_bounds`, `injective`, `surjective`
* `Verif.Poll.Win`: `beginWait_spec`, `deferred_eq_partial`, `drain_ready_partial`, `edge_once_partial`, `edge_once_violated`, `expand_ok`, `failWait_closed`, `failWait_spec`, `freeSlot_ok`, `interest_partial`, `no_ub_partial`, `ops_in_bounds`, `rearmed_partial`, `reopened_violated`, `reuse_partial`, `setCell_ok`, `wait_partial`, `wakeup_partial`
* `Verif.Poll.Win.Life`: `destroy_violated`, `growOps_ok`, `grow_ok`, `init_ok`, `no_leak_partial`, `no_ub_partial`, `term_ok`
* `Verif.Poll.WinGrow`: `requests_partial`, `requests_violated`
* `Verif.Poll.WinText`: `add_tells`, `del_tells`, `fail_tells_partial`, `finish_tells`, `init_agrees`, `init_tells`, `term_tells`
* `Verif.Queue`: `queue_add_fails_only_when_full_partial`, `queue_add_first_arg`, `queue_add_first_arg_partial`, `queue_add_first_arg_violated`, `queue_add_first_fails_only_when_full_partial`, `queue_add_last_arg_partial`, `queue_add_last_arg_violated`, `queue_clear_resets`, `queue_copies_partial`, `queue_expand_preserves`, `queue_foreach_walks`, `queue_index_partial`, `queue_last_index_violated`, `queue_loop_partial`, `queue_refines_deque`
* `Verif.Race.Guarded`: `not_racy`
* `Verif.Race.Passed`: `not_racy`
* `Verif.Sc`: `bytes_to_size_partial`, `is_pow2_iff`, `rand_apart`, `rand_period`, `rand_read_split`, `rand_stream_partial`, `rand_table_perm`, `size_to_bytes_char_defect`, `size_to_bytes_long_defect`, `size_to_bytes_negative_defect`, `size_to_bytes_ok`, `size_to_bytes_overflow`, `size_to_bytes_rejects_partial`, `to_pow2_least`, `to_pow2_none`
* `Verif.Shutdown`: `never_blocks`, `not_interrupted`, `only_then`, `told`
* `Verif.Shutdown.Kqueue`: `never_blocks`, `not_interrupted`, `only_then`, `told`
* `Verif.Shutdown.Win`: `handled`, `never_blocks`, `only_then`, `told`
* `Verif.Signal`: `errno_unchanged`, `fatal_ends`, `format_cases`, `handler_progress`, `handler_work`, `init_ok`, `log_text`, `log_unsupported_defect`, `shutdown_bound`, `shutdown_first`, `shutdown_forced_partial`, `shutdown_message`, `shutdown_race_violated`, `snprintf_min_violated`, `snprintf_partial`, `snprintf_unsupported`, `snprintf_unterminated_defect`, `snprintf_zero_partial`
* `Verif.Signal.Win`: `abort_reported`, `exception_code_violated`, `exception_reported_partial`, `handler_progress`, `handler_work`, `names_ok`, `other_exits`, `shutdown_first`, `shutdown_forced_partial`, `shutdown_message`, `shutdown_race_violated`, `std_reported`
* `Verif.Sock`: `accept_again`, `accept_mode`, `accept_spec`, `connect_again_partial`, `connect_again_violated`, `connect_inet`, `connect_unix`, `finishConnect_ok`, `listen_spec`, `mode_partial`, `no_leak`, `no_ub`, `path_partial`, `resources`, `term_ok`
* `Verif.Sock.Io`: `again_ok`, `eof_ok`, `notify_partial`, `notify_spec`, `notify_violated`, `pipeTerm_ok`, `pipe_no_leak`, `recv_spec`, `send_spec`, `streams`, `timeo_failed`, `timeo_negative`, `timeo_partial`, `timeo_spec`, `timeo_violated`
* `Verif.Sock.Name`: `name_partial`, `print_partial`
* `Verif.Sock.PipeText`: `windows_init`, `windows_text`
* `Verif.Sock.Win`: `errstr_ok`, `failed_text_partial`, `finish_result`, `pollErrFromCode_ok`, `unix_text_violated`
* `Verif.Sock.WinIo`: `pipe_fifo`, `read_ok`, `write_ok`
* `Verif.Sock.WinOpen`: `accept_ok`, `connect_again_partial`, `connect_again_violated`, `connect_ok`, `listen_ok`, `term_ok`
* `Verif.Sock.WinOpen.Unix`: `listen_mode_violated`, `listen_path_violated`, `listen_unix`, `listen_unix_again`
* `Verif.Sock.WinPipe`: `leak_bound`
* `Verif.Sock.WinTransfer`: `again_violated`, `eof_iff`, `eof_partial`, `eof_violated`, `recv_spec`, `refuse_ok`, `send_spec`, `streams`, `timeo_partial`
* `Verif.Str`: `str_append_null`, `str_append_partial`, `str_append_violated`, `str_create`, `str_create_len`, `str_dup`, `str_history`, `str_null_only`, `str_null_violated`, `str_replace`, `str_replace_returns_partial`, `str_set`, `str_substring`, `str_tokens`, `str_trim_partial`
* `Verif.Thread`: `err_text_partial`, `join_history_partial`, `no_ub_partial`, `win_err_partial`
* `Verif.Thread.Portable`: `join_twice_violated`, `portable_partial`, `restart_violated`
* `Verif.Thread.Race`: `thread_race_free_partial`, `thread_race_violated`
* `Verif.Time`: `elapsed_partial`, `mono_ms_elapsed`, `mono_win_partial`, `ms_exact`, `wall_violated`
* `Verif.Timer`: `add_cost_partial`, `nested_partial`, `nested_revolution_partial`, `poll_cost_partial`, `poll_idle_violated`, `same_timeout_violated`, `timer_base_partial`, `timer_cancel_defined`, `timer_copies_partial`, `timer_due_fires_in_a_revolution`, `timer_fires_once_not_early`, `timer_fires_when_swept`, `timer_full_revolution`, `timer_hint_bounded`, `timer_ids_unique`, `timer_late_bound_partial`, `timer_late_partial`, `timer_loop_bound_partial`, `timer_loop_partial`, `timer_loop_quiet`, `timer_memory`, `timer_order_partial`, `timer_refines_spec`
* `Verif.Uri`: `uri_accepts`, `uri_fragment_question_violated`, `uri_inverts_iff`, `uri_parse_compose_partial`, `uri_path_at_violated`, `uri_path_colon_violated`, `uri_port_defect`, `uri_port_sign_defect`, `uri_query_colon_violated`, `uri_recompose`, `uri_reparse`, `uri_str_iff`, `uri_str_partial`, `uri_str_violated`
