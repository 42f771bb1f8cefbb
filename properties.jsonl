{"id": "C01", "title": "Bitmap range operations touch exactly their range", "statement": "Setting or clearing a range of bits in a runtime bitmap makes exactly the bits index..index+count-1 one (zero) and leaves every other bit of the bitmap as it was; setting, clearing and testing one bit agree with that view.", "quantifier": "every byte array, every start index and count inside it, every bit index", "why_tests_cant": "The implementation works byte-wise with three mask cases (same byte, leading/trailing partial byte, whole bytes); a test samples a few alignments only.", "anchors": ["utils/bitmap.h: bitmap_set, bitmap_clear, bitmap_test, bitmap_batch_set, bitmap_batch_clear"]}
{"id": "C02", "title": "Every small allocation gets a cell that is large enough", "statement": "For every allocation request of 0..32768 bytes the allocator selects a size class whose cells are at least as large as the request, and the class is the smallest such class.", "quantifier": "every request size up to the small-object limit", "why_tests_cant": "The answer is computed from two tables plus a fast path; only an exhaustive argument rules out one bad size.", "anchors": ["runtime/allocator.c: calc_sizeclass", "runtime/sizeclass.h: class_obj_size"]}
{"id": "C03", "title": "A chunk's free-run summary is exact", "statement": "The summary kept for a 512-page chunk reports exactly the number of leading free pages, the number of trailing free pages and the length of the longest run of free pages in that chunk.", "quantifier": "every allocation bitmap of every chunk", "why_tests_cant": "There are 2^512 bitmaps; the code scans 64-bit words with carry-over between words.", "anchors": ["runtime/allocator.c: chunk_summarize"]}
{"id": "C04", "title": "Merged summaries are exact at every level", "statement": "The summary of a group of adjacent regions computed from the regions' own summaries equals the summary computed from the pages directly, so the radix tree never over- or under-reports free memory.", "quantifier": "every list of child regions of equal size and all their page states", "why_tests_cant": "Composition over arbitrary contents and arbitrary depth of the radix tree.", "anchors": ["runtime/allocator.c: merge_summarize, page_summary_update"]}
{"id": "C05", "title": "The page search returns a free run of the requested length", "statement": "When the in-chunk search reports an index for n pages, the n pages starting there are all free and no lower start has n free pages; when it reports failure the chunk contains no run of n free pages.", "quantifier": "every chunk bitmap and every n", "why_tests_cant": "Quantifies over all bitmaps and all request sizes.", "anchors": ["runtime/allocator.c: summary_find_continuous, page_alloc_find (518-575)"]}
{"id": "C06", "title": "Page search across adjacent chunks is sound and complete", "statement": "Searching the page summaries for n free pages yields the start of n consecutive free pages whenever the heap has them, and the heap keeps growing until the OS refuses memory.", "quantifier": "every summary tree, every n, every heap size", "why_tests_cant": "The bound that selects how much of the root level to search depends on how much address space has been used (tens of gigabytes), which no unit test allocates.", "anchors": ["runtime/allocator.c: page_alloc_find, find_continuous bounds at level 0"]}
{"id": "C07", "title": "Fixed-size allocator hands out disjoint blocks", "statement": "No two live blocks returned by the runtime's fixed-size metadata allocator overlap, every live block lies inside memory obtained from the OS, and freeing a block lets exactly that block be reused.", "quantifier": "every history of alloc/free for every block size", "why_tests_cant": "Histories are unbounded; reuse bugs only show up under particular interleavings of alloc and free.", "anchors": ["runtime/fixalloc.c: fixalloc_alloc, fixalloc_free, fixalloc_init"]}
{"id": "C08", "title": "GC mark-bit storage is never shared", "statement": "Mark-bit blocks handed out for different spans never overlap even when many threads allocate at once, and no block is reused until two collection cycles have finished.", "quantifier": "every interleaving of allocating threads and every sequence of collection cycles", "why_tests_cant": "Depends on every interleaving of an atomic bump pointer and on cycle history.", "anchors": ["runtime/gcbits.c: try_alloc, gcbits_new, gcbits_arenas_epoch"]}
{"id": "C09", "title": "Heap pointer bitmap maps every word to its own bit", "statement": "Marking the words of an object as pointer / non-pointer in the heap's pointer bitmap changes the recorded kind of exactly those words: distinct words of an arena use distinct bits and range updates never affect the words of a neighbouring object.", "quantifier": "every word of an arena, every aligned range", "why_tests_cant": "8 million words per 64 MiB arena and all ranges of them.", "anchors": ["runtime/memory.h: arena_bits_index", "runtime/allocator.c: heap_arena_bits_batch_handle"]}
{"id": "C10", "title": "Object slots of a span are never handed out twice", "statement": "Allocating from a span returns a slot that is not currently live; the addresses of two live objects of a span never overlap and lie inside the span; allocation fails only when all slots are live.", "quantifier": "every history of allocations and collection cycles on a span of any object size/count", "why_tests_cant": "Unbounded history; involves the search cursor, the live count and the bitmap staying consistent across sweeps.", "anchors": ["runtime/allocator.c: mcache_alloc, mspan_new", "runtime/collector.c: sweep_span"]}
{"id": "C11", "title": "Sweeping frees exactly the unmarked objects", "statement": "After a sweep the live slots of a span are exactly those marked in the cycle, the live count equals their number, the reclaimed byte count equals the size of the objects freed, and the span is returned to the heap iff nothing in it is marked.", "quantifier": "every allocation bitmap and mark bitmap of a span", "why_tests_cant": "All combinations of two bitmaps.", "anchors": ["runtime/collector.c: sweep_span"]}
{"id": "C12", "title": "Marking with the world stopped finds exactly the reachable objects", "statement": "Draining the mark work-list from the roots terminates and marks an object iff it is reachable from the roots through pointer fields.", "quantifier": "every finite heap graph, every root set, every order in which the work list is served", "why_tests_cant": "All graphs (cycles, sharing, interior pointers).", "anchors": ["runtime/collector.c: handle_gc_ptr, handle_gc_worklist, gc_mark_done"]}
{"id": "C13", "title": "A collection running concurrently with the program never frees a reachable object", "statement": "No object that the program can still reach from a coroutine stack or a global when the mark phase ends is swept, whatever pointer loads, stores and allocations the program performs while marking is in progress.", "quantifier": "every interleaving of mutator steps (load, store with write barrier, allocate) and collector steps", "why_tests_cant": "The failure needs one particular order of scan, load and overwrite; tests rarely hit it.", "anchors": ["runtime/nutils/nutils.c: rti_write_barrier_ptr", "runtime/collector.c: shade_obj_grey, handle_gc_ptr, gc_work"]}
{"id": "C14", "title": "Vector operations behave like an abstract list", "statement": "push, indexed read, indexed write, len, concat, copy and append on a vector return what the same operations on a mathematical list return; out-of-range access throws and changes nothing; the element count never exceeds the capacity.", "quantifier": "every sequence of vector operations on every element type", "why_tests_cant": "Growth points and element sizes make the state space infinite.", "anchors": ["runtime/nutils/vec.c: rt_vec_new, rt_vec_push, rt_vec_access, rt_vec_assign, rt_vec_concat, rt_vec_copy, rt_vec_append, rt_vec_grow"]}
{"id": "C15", "title": "Vector slices share storage until a push, and never corrupt the parent beyond their range", "statement": "slice(start,end) succeeds iff 0<=start<=end<=len (end=-1 meaning len) and shows exactly elements start..end-1; a write through a slice is seen by the parent at the shifted index and nowhere else; a push on a slice never changes any element of the parent.", "quantifier": "every vector, slice bounds and subsequent operations", "why_tests_cant": "Aliasing between any number of slices and arbitrary later operations.", "anchors": ["runtime/nutils/vec.c: rt_vec_slice, rt_vec_push, rt_vec_assign"]}
{"id": "C16", "title": "Map behaves like a finite map", "statement": "After any sequence of assign, delete, lookup and contains the map answers exactly as the abstract finite map: a key holds the last value assigned since its last delete, len counts the live keys, and operations on one key do not disturb another.", "quantifier": "every history of operations, every key set and hash collision pattern, every capacity", "why_tests_cant": "Open addressing with tombstones, swap-with-last deletion and rehashing; histories and collision patterns are unbounded.", "anchors": ["runtime/nutils/map.c: rt_map_assign, rt_map_access, rt_map_delete, rt_map_contains", "runtime/nutils/hash.h: find_hash_slot"]}
{"id": "C17", "title": "Map operations always terminate normally", "statement": "No sequence of inserts and deletes makes a later lookup or insert abort the process.", "quantifier": "every history of operations", "why_tests_cant": "The failing state requires tombstones in every slot, reached only by long insert/delete histories.", "anchors": ["runtime/nutils/hash.h: find_hash_slot (attempts)", "runtime/nutils/map.c: rt_map_assign growth test"]}
{"id": "C18", "title": "Map keys that differ are different keys", "statement": "Two key values that compare different address different map entries, for every key type the language accepts.", "quantifier": "every pair of keys of every key type", "why_tests_cant": "Key identity is decided through a C-string image of the key; only a statement about all byte patterns exposes truncation at a NUL byte.", "anchors": ["runtime/nutils/nutils.c: rtype_value_to_str", "runtime/nutils/hash.h: find_hash_slot", "utils/helper.h: hash_string, str_equal, itoa"]}
{"id": "C19", "title": "Set behaves like a finite set", "statement": "After any sequence of add, delete and contains the set answers exactly as the abstract finite set and add reports whether the element was new.", "quantifier": "every history of operations and every collision pattern", "why_tests_cant": "Unbounded histories; the failing ones need a deletion between colliding keys.", "anchors": ["runtime/nutils/set.c: rt_set_add, rt_set_delete, rt_set_contains"]}
{"id": "C20", "title": "String comparison is a total order and concatenation is exact", "statement": "The six string comparison operators are the byte-wise lexicographic order and its derivatives (so they are mutually consistent, total, transitive), and concatenation yields the bytes of the first followed by those of the second, for strings with any bytes including NUL.", "quantifier": "all pairs/triples of byte strings", "why_tests_cant": "All strings of all lengths, including prefixes and NUL bytes.", "anchors": ["runtime/nutils/string.c: string_ee, string_lt, string_le, string_gt, string_ge, string_concat"]}
{"id": "C21", "title": "Channels deliver each message once, in order", "statement": "The sequence of values successfully received from a channel is a prefix of the sequence of values successfully sent, with nothing lost, duplicated or reordered, and at most the declared capacity of values is ever buffered.", "quantifier": "every interleaving of senders, receivers and close on buffered and unbuffered channels", "why_tests_cant": "All schedules of any number of coroutines.", "anchors": ["runtime/rt_chan.c: rt_chan_send, rt_chan_recv, rt_chan_close, buf_push, buf_pop, waitq_*", "std/builtin/chan.n: chan_new"]}
{"id": "C22", "title": "Closing a channel wakes every waiter and drains correctly", "statement": "After close every coroutine blocked on the channel is resumed with failure, receives still return every buffered value in order before failing, and every later send fails; closing twice is reported.", "quantifier": "every state of the channel at the moment of close and all later histories", "why_tests_cant": "All combinations of queue contents and schedules.", "anchors": ["runtime/rt_chan.c: rt_chan_close, rt_chan_recv, rt_chan_send"]}
{"id": "C23", "title": "select acquires and releases each channel lock exactly once", "statement": "A select statement over any list of channels, including repeated ones, locks each distinct channel once in a global order and releases each lock it holds exactly once on every path.", "quantifier": "every list of cases", "why_tests_cant": "Only particular repetitions of the same channel expose a double release.", "anchors": ["runtime/rt_chan.c: rt_chan_select, sellock, selunlock, selpark_commit"]}
{"id": "C24", "title": "Mutex gives mutual exclusion", "statement": "At most one coroutine is between a successful lock/try_lock and its unlock at any time, whatever the contention, wakeups and starvation hand-offs; unlocking a mutex that is held never trips an internal consistency assertion.", "quantifier": "every interleaving of any number of coroutines performing lock, try_lock and unlock", "why_tests_cant": "All interleavings of the compare-and-swap steps, including the starvation mode that needs a 1 ms wait.", "anchors": ["runtime/rt_mutex.c: rt_mutex_lock, rt_mutex_try_lock, rt_mutex_unlock, sema_acquire, sema_release"]}
{"id": "C25", "title": "Run queues are FIFO and lose no coroutine", "statement": "The runtime's linked queues return elements in the order pushed, each exactly once; removing an element from the middle leaves the order of the others unchanged; the element count is always the number of queued elements.", "quantifier": "every sequence of push, push-front, pop and remove", "why_tests_cant": "Unbounded pointer-manipulation histories.", "anchors": ["runtime/rt_linked.h: rt_linked_fixalloc_push, _push_heap, _pop, _remove", "runtime/linkco.h: linkco_list_push, linkco_list_pop, linkco_list_remove"]}
{"id": "C26", "title": "vec.sort sorts", "statement": "sort returns a permutation of its input in which no element is followed by one that compares less than it, for every input including adversarial ones, and terminates.", "quantifier": "every vector and every comparison that is a strict weak order", "why_tests_cant": "Pattern-defeating quicksort has several fallbacks reached only by special inputs.", "anchors": ["std/builtin/vec.n: sort, pdqsort, insertion_sort, heap_sort, sift_down, partition, break_patterns"]}
{"id": "C27", "title": "vec.search finds the boundary", "statement": "search(n, pred) returns the smallest index at which a monotone predicate holds, or n when there is none.", "quantifier": "every n and every monotone predicate", "why_tests_cant": "All predicates and sizes (midpoint arithmetic).", "anchors": ["std/builtin/vec.n: search"]}
{"id": "C28", "title": "String search functions are exact", "statement": "find, find_after, find_char, rfind, contains, starts_with and ends_with report the first / last occurrence exactly when one exists and -1/false otherwise.", "quantifier": "every text and pattern", "why_tests_cant": "All pairs of strings, including overlapping and empty patterns.", "anchors": ["std/strings/strings.n: find_char, find_after, find, rfind, contains, starts_with, ends_with"]}
{"id": "C29", "title": "split and join are inverse", "statement": "Splitting a string on a separator and joining the pieces with the same separator gives the original string, and no piece contains the separator.", "quantifier": "every string and every non-empty separator", "why_tests_cant": "All placements of separators (leading, trailing, adjacent, overlapping).", "anchors": ["std/strings/strings.n: split, join"]}
{"id": "C30", "title": "replace, trim, reverse, case mapping have their textbook meaning", "statement": "reverse is an involution; trim removes exactly the leading/trailing characters from the cut set; replace substitutes every non-overlapping occurrence from the left; upper/lower change only ASCII letters.", "quantifier": "every string and argument", "why_tests_cant": "All strings and cut sets.", "anchors": ["std/strings/strings.n: reverse, trim, ltrim, rtrim, replace, to_lower, to_upper"]}
{"id": "C31", "title": "String to integer conversion is exact or fails", "statement": "Converting a decimal string to an integer returns the integer it denotes when it is well formed and in range and reports an error otherwise.", "quantifier": "every string", "why_tests_cant": "All strings; overflow boundaries.", "anchors": ["std/strings/strings.n: to_int"]}
{"id": "C32", "title": "URL percent-encoding round-trips", "statement": "Decoding the encoding of any byte string gives back that string, and the encoded text contains only unreserved characters, '+', '%' and hex digits.", "quantifier": "every byte string", "why_tests_cant": "All byte strings.", "anchors": ["std/net/url.n: encode, decode, hex_to_int, int_to_hex"]}
{"id": "C33", "title": "Fixed-width integer serialization round-trips", "statement": "Reading back a value written in little- or big-endian order returns the value, for every width and signedness.", "quantifier": "every value of every width", "why_tests_cant": "2^64 values per function; sign extension and shift mistakes hide in particular bytes.", "anchors": ["std/mem/mem.n: write_*_le, write_*_be, read_*_le, read_*_be", "utils/helper.h: read16le..write64le"]}
{"id": "C34", "title": "I/O buffer is a byte queue", "statement": "A sequence of writes to an in-memory buffer followed by reads returns exactly the written bytes in order; truncate keeps exactly the requested unread prefix.", "quantifier": "every interleaving of writes, reads and truncates of any size", "why_tests_cant": "Unbounded histories with arbitrary chunk sizes.", "anchors": ["std/io/io.n: buffer.write, read, truncate, reset, read_all"]}
{"id": "C35", "title": "Path functions obey their laws", "statement": "base and dir of a path recombine to an equivalent path, and join inserts exactly one separator between components.", "quantifier": "every path string", "why_tests_cant": "All strings, with repeated and trailing separators.", "anchors": ["std/path/path.n: base, dir, join"]}
{"id": "C36", "title": "Parallel moves are sequentialised correctly", "statement": "The ordinary instruction sequence the compiler emits for a set of simultaneous register/stack moves leaves every destination with the value its source had before the sequence, and every other location except the reserved scratch register unchanged.", "quantifier": "every set of simultaneous moves with distinct destinations and every machine state", "why_tests_cant": "All permutations, chains, cycles and fan-outs.", "anchors": ["src/register/interval.c: parallel_moves, move_one, handle_parallel_moves"]}
{"id": "C37", "title": "Block-edge resolution moves are correct", "statement": "The moves inserted on a control-flow edge to reconcile variable locations deliver to each target location the value held in its source location before the edge.", "quantifier": "every mapping between locations, every machine state", "why_tests_cant": "All mappings, including cycles broken through the stack.", "anchors": ["src/register/interval.c: resolve_mappings, resolve_blocked"]}
{"id": "C38", "title": "Live ranges answer membership exactly", "statement": "A variable is reported live at a position iff the position is inside one of the ranges recorded for it; recording a range adds exactly those positions; splitting at a position distributes the positions between the two halves without loss or overlap.", "quantifier": "every sequence of recorded ranges and every query position", "why_tests_cant": "All range lists; the lookup has two search directions with early exits.", "anchors": ["src/register/interval.c: interval_covered, interval_add_range, interval_split_at, interval_next_intersect"]}
{"id": "C39", "title": "Variable-length integer relocation fields are patched in place", "statement": "Writing a value into an existing ULEB128 field keeps the field's width, decodes to the value modulo the width's range, and a SET followed by a SUB leaves the difference of the two symbols; malformed fields are rejected without modification.", "quantifier": "every field contents, width and symbol values", "why_tests_cant": "All byte patterns and 64-bit values.", "anchors": ["src/ld/ld_elf_riscv_uleb.c: ld_elf_riscv_uleb_apply, ld_elf_riscv_uleb_apply_pair"]}
{"id": "C40", "title": "Iterating a map visits every entry once", "statement": "Iterating over a map that is not modified during the loop visits each live key exactly once, with the value it currently holds, and then stops.", "quantifier": "every history of operations leading to the map and every collision pattern", "why_tests_cant": "Unbounded histories with deletions (which move entries) and growth (which rebuilds the table).", "anchors": ["runtime/nutils/nutils.c: iterator_next_key, iterator_take_value", "src/linear.c: for-iterator lowering", "runtime/nutils/map.c: rt_map_delete"]}
{"id": "C41", "title": "Converting between bytes and strings preserves the bytes", "statement": "Converting a byte vector to a string gives a string with exactly those bytes, and converting a string to a byte vector gives exactly its bytes, whatever conversions happened before.", "quantifier": "every sequence of conversions, every byte content", "why_tests_cant": "A pool of small strings makes the result depend on the whole history of conversions.", "anchors": ["runtime/nutils/string.c: vec_to_string, string_to_vec, string_new_with_pool"]}
{"id": "C42", "title": "is_successful tells whether the last channel operation succeeded", "statement": "chan.is_successful() returns true after an operation on the channel that succeeded and false after one that failed because the channel was closed.", "quantifier": "every history of channel operations", "why_tests_cant": "The answer depends on the whole history of the channel.", "anchors": ["runtime/rt_chan.c: rt_chan_is_successful, rt_chan_close, rt_chan_select", "std/builtin/README.md: chan.is_successful"]}
{"id": "C43", "title": "A select receive case behaves the same whether or not it stores the value", "statement": "A select statement whose receive case ignores the value (no variable) receives and discards a value exactly when the same statement with a variable would receive one.", "quantifier": "every history and every select statement", "why_tests_cant": "Only particular combinations of a blocked sender and an unbound receive case reach the assertion.", "anchors": ["runtime/rt_chan.c: rt_chan_select, rt_recv", "src/linear.c: linear_select_case lowering of receive cases"]}
{"id": "C44", "title": "select performs a ready case, and default exactly when none is ready", "statement": "A select statement performs exactly one case whose channel operation can go ahead; it takes the default branch, or blocks if there is none, exactly when no case can go ahead; it reports a closed channel only if the channel is closed.", "quantifier": "every reachable state and every case list", "why_tests_cant": "Depends on all queues, buffers and blocked partners of all channels of the statement.", "anchors": ["runtime/rt_chan.c: rt_chan_select"]}
{"id": "C45", "title": "A free mutex never leaves a waiter asleep", "statement": "If no coroutine holds the mutex and no coroutine inside a mutex call can run, then no coroutine is inside a mutex call: whatever the interleaving of lock, try_lock and unlock, a coroutine blocked in lock is woken once the mutex is released.", "quantifier": "every interleaving of the atomic steps of any number of coroutines performing lock, try_lock and unlock, with every spin decision and every starvation timeout", "why_tests_cant": "a lost wake-up needs one specific interleaving between the release of the semaphore and the parking of the waiter; tests see a vanishing fraction of schedules", "anchors": ["runtime/rt_mutex.c:rt_mutex_waiter_acquire", "runtime/rt_mutex.c:rt_mutex_waiter_release", "runtime/rt_mutex.c:rt_mutex_unlock"]}
{"id": "C46", "title": "URL parsing loses nothing", "statement": "A URL is accepted iff its first colon is followed by '//', and an accepted URL is exactly scheme://authority, path, ?query and #fragment put back together, each component free of the characters that end it; an absent path is reported as '/'.", "quantifier": "every byte string", "why_tests_cant": "All strings, with repeated, missing and misplaced delimiters.", "anchors": ["std/net/url.n: parse"]}
{"id": "C47", "title": "Query strings round-trip", "statement": "For any list of key/value pairs, the query string built by percent-encoding both sides of each pair gives every key its values back in order; a value is everything after the first '=' of its pair.", "quantifier": "every list of pairs of byte strings, every raw query", "why_tests_cant": "All byte strings, including the separators themselves and empty keys or values.", "anchors": ["std/net/url.n: url_t.query, query_t.get, encode, decode"]}
{"id": "C48", "title": "URL host and port", "statement": "The hostname and port of a parsed URL are the authority's host and port; the port is 0 when absent or not a number.", "quantifier": "every accepted URL", "why_tests_cant": "All authorities, with several colons and brackets.", "anchors": ["std/net/url.n: parse_authority"]}
{"id": "C49", "title": "A buffered reader gives out the bytes of its source", "statement": "Over any sequence of read, read_byte, read_until, read_line and read_exact calls on a buffered reader, the bytes handed to the program, in order, are the bytes the underlying reader supplied: none lost, repeated, reordered or invented; no call panics; read returns at most the number asked for; read_until stops at the first delimiter; bytes once returned stay as they were and end of input is reported only when the input has ended.", "quantifier": "every underlying reader (any chunking, empty reads, errors at any point), every buffer size, every sequence of calls", "why_tests_cant": "Chunk boundaries, buffer positions and call orders combine without bound; tests fix one chunking.", "anchors": ["std/io/buf.n: reader.fill, read, read_until, read_exact, read_byte, read_line"]}
{"id": "C50", "title": "Reading by lines yields the lines of the text", "statement": "Calling read_line repeatedly yields each line of the input in order without its line end (\\n or \\r\\n), the last line also when it lacks one, and then EOF on every further call, however the input is chunked.", "quantifier": "every text, every chunking of it, every buffer size, every number of calls", "why_tests_cant": "A line end may fall anywhere relative to chunk and buffer boundaries.", "anchors": ["std/io/buf.n: reader.read_line, read_until, fill"]}
{"id": "C51", "title": "A buffered writer passes on the bytes given to it", "statement": "Over any sequence of write, write_byte and flush calls the underlying writer receives exactly the bytes given, in order and once; after a successful flush it has received all of them; after a failure every further call fails and what was received is a beginning of what was given; every call ends.", "quantifier": "every underlying writer (any short writes, failures at any point), every buffer size, every sequence of calls", "why_tests_cant": "Short writes and failures can occur at every position of every flush.", "anchors": ["std/io/buf.n: writer.write, write_byte, flush, available"]}
{"id": "C52", "title": "Integers are printed exactly", "statement": "Converting an integer of any type to text gives its decimal numeral (or the hexadecimal numeral of its bits): digits that stand for the value, no leading zero, '-' in front of negative values; padding only adds blanks in front or zeros after the sign.", "quantifier": "every integer of every signed and unsigned type up to 64 bits, every fill and width", "why_tests_cant": "2^64 values times widths; tests use a handful and miss the extremes", "anchors": ["std/fmt/utils.n: itos_with, itos, utos_with, utos_hex_with, utos_hex_upper_with"]}
{"id": "C53", "title": "sprintf prints what the format says", "statement": "For every format and argument list, the result is the format's literal bytes with each directive replaced by its argument's text, arguments used from left to right, %% as %, missing arguments and unknown verbs marked; text from arguments is not scanned again; no format makes it fail.", "quantifier": "every format string, every list of arguments", "why_tests_cant": "formats and arguments are unbounded; a test checks single formats", "anchors": ["std/fmt/fmt.n: sprintf"]}
{"id": "C54", "title": "sscanf reads back laid-out text", "statement": "A text of separators and items read with a format of the same separators and one directive per item stores every item's value and returns their number; in particular it reads back what sprintf printed with the same format.", "quantifier": "every list of separators and items (integers of every type, words), every way to write them", "why_tests_cant": "unbounded texts and values", "anchors": ["std/fmt/fmt.n: sscanf, sprintf"]}
{"id": "C55", "title": "json.parse accepts exactly JSON", "statement": "json.parse(s) returns a value for exactly those byte strings that are JSON texts as RFC 8259 defines them with at most 256 nested arrays and objects, and the value is the one the text stands for: escapes and surrogate pairs decoded to UTF-8, bytes that are not UTF-8 and unpaired surrogates turned into U+FFFD, number tokens kept as written, of equal keys the last one. For every other byte string it throws.", "quantifier": "every byte string of every length and every value", "why_tests_cant": "The inputs are all byte strings; tests try a few texts, while a missed case of whitespace, escapes, numbers, nesting or trailing data shows up only on some of infinitely many.", "anchors": ["std/json/json.n: parse, parse_with_depth, parser_value, parser_value_array, parser_value_object, parser_string, parser_number_token, parser_hex4, hex4_peek, append_utf8, utf8_len, consume, must, skip_whitespace, enter_container"]}
{"id": "C56", "title": "A value that json.serialize has written is read back unchanged", "statement": "For every dynamic value (null, bool, number token, UTF-8 string, array, object with different UTF-8 keys, at most 256 levels), json.parse(json.serialize(v)) gives v; in particular for every value json.parse has returned. A string with arbitrary bytes is written as valid JSON for the string with U+FFFD for what is not UTF-8.", "quantifier": "every value tree of any size, every byte string inside it", "why_tests_cant": "Round trips must hold for every string content and every shape of tree, including control characters, quotes, invalid UTF-8 and empty containers.", "anchors": ["std/json/json.n: serialize, serialize_value, serialize_string, serialize_vec, serialize_map, parse"]}
{"id": "C57", "title": "The incremental JSON reader finds the end of a value however the input is cut", "statement": "Writing a JSON text to json.reader in chunks of any sizes has the same effect as writing it at once: no prefix throws, a complete value is reported from exactly the byte that ends the value (the last byte of a string, array or object; the whitespace after a number or literal), value() then gives what json.parse gives for the bytes, and the reader throws only when no continuation can be a JSON text.", "quantifier": "every JSON text, every way to cut it into chunks, every prefix", "why_tests_cant": "The number of ways to cut an input grows exponentially with its length; state carried across a chunk border (inside an escape, a string, a nested array) must be right for each.", "anchors": ["std/json/json.n: reader_t, reader_t.write, reader_t.value, json_space"]}
{"id": "C58", "title": "Typed JSON round trip", "statement": "For a value of a program's own types - booleans, integers, strings, structs, nullables, vectors and string-keyed maps - json.deserialize<T>(json.serialize(v)) gives back a value equal to v: the same fields, the same length and the same element at every index, the same entries.", "quantifier": "every type built from these kinds and every value of it within the depth limit", "why_tests_cant": "values and types are unbounded and the memory that deserialize writes into differs by where in the type a container occurs", "anchors": ["std/json/json.n: serialize_value, serialize_struct, serialize_vec, serialize_map, parser, parser_struct, parser_vec, parser_map, parser_number, parser_nullable", "runtime/nutils/vec.c: rti_vec_grow, rt_vec_element_addr", "runtime/nutils/map.c: rt_map_init_if_needed"]}
{"id": "C59", "title": "The collector's description of a type names every pointer in it", "statement": "For every type, however structs, tuples, arrays, unions, any and the built-in containers are nested in it, the compiler's description of the type marks every word of a value that may hold a pointer to collected memory and marks no word that cannot: an object or a global variable of the type therefore has all its pointers followed by the collector, and a type described as free of pointers has none.", "quantifier": "every type, every place in a value of it", "why_tests_cant": "The types a program can declare are unboundedly many; a missed word shows only when a collection runs while that word holds the only reference, and then as memory corruption far away.", "anchors": ["src/rtype.h: reflect_type, rtype_struct_gc_bits, rtype_array_gc_bits, rtype_tuple_gc_bits, rtype_union_gc_bits, rtype_any", "utils/type.c: calc_gc_bits_size", "runtime/collector.c: scan_global", "runtime/allocator.c: heap_arena_bits_set"]}
{"id": "C60", "title": "Fields are laid out as in C", "statement": "For every struct or tuple type, the fields have the offsets the C layout gives them (each at the first multiple of its alignment after the field before), so that they do not overlap, lie inside the value and are aligned wherever the value itself is, including in arrays; the size is the end of the last field rounded up to the largest alignment; and reflection reports the offsets that field access uses.", "quantifier": "every list of field types, every field, every aligned base address and array index", "why_tests_cant": "The number of field lists is unbounded, and a wrong offset only shows for particular mixtures of sizes; values are exchanged with C functions, which lay them out on their own.", "anchors": ["utils/type.c: type_struct_sizeof, type_tuple_sizeof, type_struct_alignof, type_struct_offset, type_tuple_offset", "utils/helper.h: align_up", "src/rtype.h: rtype_struct"]}
{"id": "C61", "title": "Dominators are computed exactly", "statement": "For every control flow graph the compiler computes, for each basic block, exactly the blocks that every execution path from the function's entry to it passes, and as its immediate dominator the last of them before the block itself; the iteration always ends.", "quantifier": "every control flow graph, every block, every path", "why_tests_cant": "Loops and joins can be nested arbitrarily; a wrong dominator shows only in particular irreducible or deeply nested graphs.", "anchors": ["src/ssa.c: ssa_domers, ssa_calc_dom_blocks, ssa_imm_domer, calc_imm_domer, self_is_imm_dom"]}
{"id": "C62", "title": "Live variables are computed exactly", "statement": "For every function, the variables the compiler considers live at the beginning and at the end of a basic block are exactly those whose value there may still be read on some path; the analysis always ends.", "quantifier": "every control flow graph, every block and variable", "why_tests_cant": "The property speaks about all paths through all functions, and termination about all rounds of the analysis.", "anchors": ["src/ssa.c: ssa_use_def, ssa_live, ssa_calc_live_out, ssa_calc_live_in, ssa_live_changed"]}
{"id": "C63", "title": "Conversion to single assignment form keeps the meaning of a function", "statement": "For every function in which variables are written before they are read, the function after the compiler's conversion to single assignment form does the same as before, step by step: the same operations on the same values, the same branches, the same effects.", "quantifier": "every control flow graph, every meaning of its operations, every number of steps", "why_tests_cant": "A wrong name only shows on particular combinations of branches, loops and definitions, and on inputs that take the affected path.", "anchors": ["src/ssa.c: ssa, ssa_df, ssa_add_phi, ssa_rename, ssa_rename_block, ssa_phi_body_of"]}
{"id": "C64", "title": "After the conversion each name is assigned once", "statement": "For every function in which variables are written before they are read, the conversion to single assignment form succeeds, and no two assignments in its result (operations or phi functions) have the same name.", "quantifier": "every control flow graph, every pair of assignments", "why_tests_cant": "Numbers and stacks have fixed widths; collisions need more definitions than tests have, in the right places.", "anchors": ["src/ssa.c: ssa_new_var_number, ssa_rename_var, ssa_rename_block"]}
{"id": "C65", "title": "The control flow graph does what the linear code does", "statement": "For every linear code of a function, the control flow graph the compiler builds from it (after removing unreachable blocks, joining blocks and splitting edges) passes through exactly the same states as the linear code and ends in the same states, whatever the operations do; and the graph is built for every code that starts with a label, does not end with a branch and only goes to labels that exist.", "quantifier": "every linear code, every meaning of its operations, every execution", "why_tests_cant": "A lost jump or a wrongly joined block shows only on particular arrangements of labels, branches and dead code, and on inputs that take the affected path.", "anchors": ["src/cfg.c: cfg, cfg_build, cfg_pruning, cfg_merge_blocks, broken_critical_edges"]}
{"id": "C66", "title": "The control flow graph is consistent", "statement": "In every control flow graph the compiler builds, block names differ, the successors of a block are exactly where its branches go, predecessors and successors agree, every block is reached from the first, nothing leads to the first block unless the code jumps to its label, and no edge leads from a block with several successors to a block with several predecessors.", "quantifier": "every linear code, every block and edge", "why_tests_cant": "Later passes (dominators, phi functions, register moves on edges) silently produce wrong code when one of these fails; tests do not look at the graph.", "anchors": ["src/cfg.c: cfg_build, cfg_pruning, cfg_merge_blocks, broken_critical_edges"]}
{"id": "C67", "title": "Missing returns and missing match results are reported exactly", "statement": "A function is rejected for a missing return if and only if its end can be reached without a return; a match used as a value is rejected for a missing result if and only if its end can be reached from its start without giving one.", "quantifier": "every function, every path", "why_tests_cant": "The claim is about all paths through all functions, with matches nested in any way.", "anchors": ["src/cfg.c: return_check, ret_check"]}
{"id": "C68", "title": "A word is a keyword exactly if it is written like one", "statement": "A word of the source (letters, digits, underscore, not starting with a digit) is read as the keyword it spells, and as a name if it spells none.", "quantifier": "every word, of any length", "why_tests_cant": "There are infinitely many words; the recogniser is a hand-written switch over first letters and remainders, and a wrong case shows only for a particular word nobody uses in a test.", "anchors": ["src/syntax/scanner.c: scanner_ident, scanner_rest"]}
{"id": "C69", "title": "String literals denote what they say", "statement": "A quoted string literal denotes the sequence of its characters and escapes, in all three kinds of quotes; every sequence of bytes can be written; a line break inside a quoted string and a string that is not closed are reported.", "quantifier": "every sequence of characters and escapes, every following text", "why_tests_cant": "Escapes, quotes, line breaks and the end of the file can meet in any combination.", "anchors": ["src/syntax/scanner.c: scanner_string_advance"]}
{"id": "C70", "title": "A source is split into exactly its tokens", "statement": "For every source made of tokens, blanks, line breaks and comments, the scanner returns exactly the tokens that were written, in order, with a statement end for each line break after a token that can end a statement (unless a point follows); it ends on every text, and never reads outside the text.", "quantifier": "every sequence of tokens and gaps; every text for termination and memory safety", "why_tests_cant": "Longest match, comments, numbers followed by points or letters, and line breaks interact; the tests have only the combinations someone thought of.", "anchors": ["src/syntax/scanner.c: scanner, scanner_item, scanner_skip_space, scanner_number, scanner_special_char, scanner_need_stmt_end"]}
{"id": "C71", "title": "An expression is read with its precedences", "statement": "Every expression is read as the tree its tokens stand for: operators that bind more tightly first, operators of one level from the left, the conditional from the right, unary operators before binary ones, selections, indices and calls first of all; parentheses override this; no text stands for two expressions.", "quantifier": "every expression, of any size and nesting, with any following text", "why_tests_cant": "A precedence error shows only for particular pairs of operators in a particular order and nesting; the ambiguous `<` (less than or type arguments) depends on everything that follows.", "anchors": ["src/syntax/parser.c: parser_precedence_expr, parser_infix_token, parser_left_angle_is_type_args, rules, parser_binary, parser_unary, parser_ternary, parser_access, parser_call_expr", "src/syntax/parser.h: parser_precedence, token_to_ast_op"]}
{"id": "C72", "title": "A wrong expression is reported", "statement": "For every sequence of tokens the expression parser ends, and gives either an expression or an error message; it never crashes.", "quantifier": "every sequence of tokens ended by the end of the source", "why_tests_cant": "Wrong inputs are unlimited, and most of them are never written by a test author.", "anchors": ["src/syntax/parser.c: parser_precedence_expr, rules, parser_type_args_expr, parser_must"]}
{"id": "C73", "title": "A number literal denotes its number", "statement": "A number literal that is in the range of its type, written in base two, eight, ten or sixteen, is compiled to exactly the number that is written; one that is out of range is reported and never compiled to another number.", "quantifier": "every literal, every integer type", "why_tests_cant": "Wrong values appear only at the limits of the types and for particular spellings (leading zeros, sign), among an unlimited number of literals.", "anchors": ["src/semantic/infer.c: infer_literal", "src/linear.c: linear_literal", "utils/type.h: integer_range_check", "src/syntax/scanner.c: scanner_number_convert"]}
{"id": "C74", "title": "Folding constants does not change the program", "statement": "An expression of constants that is computed by the compiler has the value it would have when computed at run time, in every type; the compiler never fails on it; parts that contain variables keep their meaning.", "quantifier": "every expression, all values of the variables", "why_tests_cant": "Depends on combinations of operators and operands at the limits of 64-bit arithmetic.", "anchors": ["src/semantic/analyzer.c: analyzer_constant_folding, analyzer_unary, analyzer_binary"]}
{"id": "C75", "title": "The machine code of an instruction is that instruction (amd64)", "statement": "The bytes the amd64 backend emits for an instruction of its own notation (name, registers, addresses, immediates) are, to a processor that reads them with anything behind them, exactly one instruction that does what was asked, with the same registers, addresses, widths and numbers; the processor goes on behind the last emitted byte.", "quantifier": "every name of the assembler, every combination of operands it accepts, all register numbers, displacements and immediates, all following bytes", "why_tests_cant": "The operand combinations multiply to billions; errors hide in single registers (rsp, rbp, r12, r13, xmm8) and at displacement limits, and the test programs use what the register allocator happens to choose.", "anchors": ["src/binary/encoding/amd64/opcode.c: opcode_select, opcode_fill, opcode_format_encoding, amd64_asm_inst_encoding", "src/binary/encoding/amd64/asm.h"]}
{"id": "C76", "title": "Calls, jumps and references reach the symbol they name (amd64)", "statement": "In the text section the amd64 backend writes for a module, the processor that comes to a call or jump finds that instruction and, taking it, goes on at the label the branch names. A branch to a symbol of another module, and every instruction that addresses a symbol, has a relocation entry; once the linker has entered symbol plus addend minus place, the branch goes to the symbol and the instruction addresses the symbol, and nothing else in the instruction is changed.", "quantifier": "every sequence of labels, branches, references and other instructions, every distance in both directions, every load address and symbol address in reach", "why_tests_cant": "Distances decide between a one byte and a four byte form and the limits (127, 128 bytes) are hit by few programs; forward and backward branches, external ones and immediates behind a displacement are separate paths.", "anchors": ["src/binary/arch/amd64.h: elf_amd64_operation_encodings, amd64_rewrite_rel_symbol, rip_offset", "src/binary/elf/linker.c: elf_put_sym, elf_put_relocate"]}
{"id": "C77", "title": "Compiled control flow does what the source says", "statement": "A compiled function returns the value, fails with the error and has the effects, in the order, that its source has under the rules of the language: operands from left to right, && || and ?: evaluate only what they need, match runs the first case that applies, loops with break and continue, ret gives a match or catch its value, a failing call goes to the nearest enclosing try or catch and otherwise leaves the function with the error, a failing run time check outside a try ends the process, throw leaves the function, return delivers the value computed before deferred blocks run, and a block left in any way first runs its deferred blocks, newest first.", "quantifier": "every function body (any nesting and any combination of these constructs), every behaviour of the functions it calls, every value of its variables, every state of the world, executions of any length", "why_tests_cant": "Jumps, error checks and copies of deferred blocks are generated separately for every way out of every block; the constructs nest in unboundedly many ways and tests pick a few combinations.", "anchors": ["src/linear.c: linear_expr, linear_stmt, linear_body, linear_unwind_scopes, linear_has_error, linear_has_panic, linear_cmp_neg, linear_match_expr, linear_catch_expr, linear_try_catch_stmt, linear_throw, linear_fndef", "runtime/nutils/nutils.c: co_has_error, co_has_panic, co_remove_error, co_throw_error"]}
{"id": "C78", "title": "A deferred call runs exactly once however the function is left", "statement": "If defer k() is put in front of a function body, the function returns the same value or error and has the same effects, followed by exactly one call of k, whether it is left by its end, by a return anywhere inside, by a throw or by a failing call.", "quantifier": "every function body, every behaviour of the functions it calls, every argument, every way out", "why_tests_cant": "The compiler copies the deferred block to each exit; missing or doubling one copy shows only on that exit.", "anchors": ["src/linear.c: linear_defer_register, linear_unwind_scopes, linear_emit_scope_defer_stmts, linear_return, linear_throw, linear_has_error"]}
{"id": "C79", "title": "A called function receives the arguments its caller passed", "statement": "When a function is called, every parameter of a scalar type has, when the body starts, the bytes the caller's argument had; every parameter that is an object (struct, tuple, string, vector, array, …) is an object of the called function's own, with the bytes of the argument, overlapping neither the other parameters nor anything of the caller's; and nothing else in memory has changed. Both sides are compiled separately and agree only on the types.", "quantifier": "every list of parameter types (any number, any nesting of structs and arrays, any size), every result type, every content of the arguments, every position of the two stack frames, each calling convention", "why_tests_cant": "Where an argument goes depends on all the arguments before it: registers run out, objects split over two registers or go to the stack whole. The number of cases is unbounded and a mistake shows only for particular signatures.", "anchors": ["src/lower/amd64_abi.c: amd64_lower_params, amd64_lower_args, amd64_type_classify, amd64_windows_lower_params, amd64_windows_lower_args", "src/lower/arm64_abi.c", "src/lower/riscv64_abi.c", "src/lir.c: lir_memory_mov"]}
{"id": "C80", "title": "The caller gets the value the function returned", "statement": "After a call the result has the value the called function returned: a scalar has the bytes returned, an object is in the caller's storage with the bytes returned, and nothing else in memory has changed, whether the result travels in registers or through storage whose address the caller passed.", "quantifier": "every result type, every content, every position of object and storage, each calling convention", "why_tests_cant": "Results are split by class and size into up to two registers or go through a hidden pointer; each class has its own code on both sides.", "anchors": ["src/lower/amd64_abi.c: amd64_lower_return, amd64_lower_call, amd64_windows_type_classify", "src/lower/arm64_abi.c: arm64_lower_return", "src/lower/riscv64_abi.c: riscv64_lower_return"]}
{"id": "C81", "title": "Calls follow the platform's C convention", "statement": "Functions declared as C functions (and C callbacks) get their arguments and give their results in the registers and stack slots the C convention of the platform prescribes, so that structs can be passed by value to and from C.", "quantifier": "every parameter and result type", "why_tests_cant": "The convention is recursive over field types; agreement between two sides compiled by the same compiler, which is what tests mostly exercise, says nothing about agreement with C.", "anchors": ["src/lower/amd64_abi.c: amd64_type_classify, amd64_lower_call, amd64_lower_return"]}
{"id": "C82", "title": "String and float constants keep their value", "statement": "Wherever a string literal or a floating point literal is written in a program, evaluating it gives exactly the bytes of that literal, whatever other literals and global variables the module contains and in whatever order its functions are compiled; global variables start with their initial bytes, and none overlaps another or a constant.", "quantifier": "every module: every list of global variables and of functions, every sequence of string constants (any bytes) and 32- and 64-bit floating point constants in them; on arm64 every 64-bit floating point value", "why_tests_cant": "The compiler shares constants by a textual name, so whether a literal is right depends on all the other literals of the module; tests use a handful of literals, and a wrong sharing shows up only when two particular literals meet in one module.", "anchors": ["src/lower/lower.h: lower_imm_symbol", "src/build/build.c: build_assembler, elf_assembler_module", "src/binary/elf/linker.c: elf_put_data_aligned, elf_section_data_forward", "src/binary/encoding/arm64/fmov_imm8.h: arm64_fmov_double_to_imm8", "src/linear.c: linear_string, linear_literal"]}
{"id": "C83", "title": "The compiler's name tables find what was stored", "statement": "For every sequence of insertions and deletions in one of the compiler's string tables (symbols, constants, labels, sections), a lookup terminates and returns the value last stored under exactly that name and not deleted since, or nothing if there is none.", "quantifier": "every sequence of set and delete operations with any names and values, every lookup, and every hash function", "why_tests_cant": "An open addressing table goes wrong only for particular collisions, deletions and growth at particular moments; no finite set of names covers all collision patterns.", "anchors": ["utils/table.c: table_get, table_set, table_delete, table_adjust, table_find_entry", "utils/table.h", "utils/helper.h: hash_string, GROW_CAPACITY"]}
{"id": "C84", "title": "Reordering instructions does not change what a function computes", "statement": "The compiler reorders the instructions of each basic block before registers are allocated. For every block this ends without failing an assertion, loses, doubles and adds no instruction, leaves calls, jumps, labels, safepoints and returns in place and moves nothing across them; and for every start state, every result the reordered block computes - in variables, in registers, in global variables and in memory - is the one the block as written computes.", "quantifier": "all basic blocks of instructions, all meanings of the instructions that respect which operands they read and write, all start states", "why_tests_cant": "Whether a wrong order shows depends on latencies, scores and the whole dependency graph of a block; tests see a few blocks, and the same source line is reordered differently as its neighbours change.", "anchors": ["src/schedule.c: schedule, schedule_block, schedule_segment, schedule_build_deps, schedule_execute, schedule_pop_best, schedule_is_mem_read, schedule_is_mem_write, schedule_is_fixed", "src/lir.h: extract_var_operands, extract_reg_operands", "src/register/arch/amd64.c: reg_find, ah"]}
{"id": "C85", "title": "Integer expressions compute their value", "statement": "For every integer expression built from variables, literals, + - * / % & | ^ << >>, comparisons, unary minus, ~, ! and `as` between integer types, and for all values of its variables for which it has a value, the machine code produced for amd64, arm64 and riscv64 runs to its end and leaves that value: arithmetic modulo 2^bits of the operand type, quotients rounded towards zero, the comparison of the mathematical values, conversions that wrap to the new type.", "quantifier": "all expressions of any depth, all types i8 to u64 and bool, all values of the variables, three targets", "why_tests_cant": "Each target chooses other instructions for other literals, widths and signs; an operator is right only if the upper bits left by every operand expression suit it, which no finite set of expressions covers.", "anchors": ["src/linear.c:linear_binary", "src/linear.c:linear_unary", "src/linear.c:linear_as_expr", "src/lower/amd64.c", "src/native/amd64.c", "src/lower/arm64.c", "src/native/arm64.c", "src/lower/riscv64.c", "src/native/riscv64.c"]}
{"id": "C86", "title": "The machine code of an instruction is that instruction (riscv64)", "statement": "For every instruction the riscv64 back end can ask the encoder for, with any registers and any number that fits the instruction, the bytes put into the program are instructions of the processor whose execution, from any state, does what was asked and continues after the bytes (or at the jump target). Loading any 64-bit number takes at most the 26 bytes reserved for it. Numbers that do not fit are refused, not cut off.", "quantifier": "all requests (three registers, register and immediate, extensions, moves, numbers, loads, stores, jumps, branches, calls, floating point), all registers, all immediates and offsets, all machine states and all meanings of memory and floating point", "why_tests_cant": "2^5 registers times 2^12 to 2^64 immediates per instruction, and each picks between short and long forms; tests run a few of them", "anchors": ["src/binary/encoding/riscv64/opcode.c: asm_3r, asm_2ri, asm_2r, asm_mv, li_sub, asm_ld, asm_sd, asm_bxx, asm_call_d, asm_fld, asm_fsd, asm_3fr, asm_2fr, asm_fcmp, asm_if, asm_fi", "src/binary/encoding/riscv64/opcode.h: EXTRACT_IMM, RTYPE, ITYPE, STYPE, UTYPE, C_*, SWIZZLE_BXX, SWIZZLE_JAL"]}
{"id": "C87", "title": "Register allocation gives every live variable a place of its own", "statement": "When register allocation of a function ends, at every position each live variable is in one place: a register of its kind that no call or instruction has taken at that position, or a stack slot of its size in the frame. Two variables that are live at the same position are never in the same register and their slots do not overlap. An operand that needs a register is in one, an operand that needs the stack is not in a register. Where the place of a variable changes between two neighbouring positions, a move of that variable is inserted, reading the old place and writing the new one, and no other moves are inserted.", "quantifier": "every function (numbered blocks, any number of variables, live ranges and uses), every register file and every sequence of splits and spills the walk makes", "why_tests_cant": "The walk splits, spills and evicts depending on the lengths and overlaps of all live ranges; tests compile a handful of functions and a wrong assignment shows only when two particular values are live at once.", "anchors": ["src/register/allocate.c: allocate_walk", "src/register/allocate.c: allocate_free_reg", "src/register/allocate.c: allocate_block_reg", "src/register/allocate.c: spill_interval", "src/register/interval.c: interval_split_at", "src/register/interval.c: interval_find_optimal_split_pos", "src/register/interval.c: replace_virtual_register"]}
{"id": "C88", "title": "Straight-line code computes the same after register allocation", "statement": "Take any stretch of straight-line code of a function, give each variable the registers and stack slots that register allocation chose, and put the moves it inserted between the operations. Started in a machine state where the live variables are in their places, the code does not get stuck, every operation (also every call) reads the same operand values as in the original code, whatever calls leave in the registers they destroy, and at the end each live variable is in its place with the value of the original code.", "quantifier": "every function, every straight-line stretch of operations with arbitrary effects, every starting state and every content of destroyed registers", "why_tests_cant": "A wrong place, a missing move or a move on the wrong side of an operation changes a value only for particular combinations of live ranges; tests execute a few compiled programs.", "anchors": ["src/register/allocate.c: allocate_walk", "src/register/interval.c: interval_split_at", "src/register/interval.c: closure_insert_mov", "src/register/interval.c: block_insert_mov", "src/register/interval.c: replace_virtual_register"]}
{"id": "C89", "title": "The machine code of an instruction is that instruction (arm64)", "statement": "For every instruction of the arm64 assembly language that the back end has a name for, with any registers, conditions and numbers that the instruction can hold, the word put into the program is one the processor knows, and executing it changes registers, flags, memory and the place of execution from any state exactly as the instruction says. A word determines what is done. Numbers that do not fit are refused, not cut off.", "quantifier": "all instructions (moves, arithmetic, shifts, extensions, comparisons, loads and stores of one and two registers in all addressing modes, branches, system, floating point), all registers, all immediates and offsets, all machine states, all meanings of floating point arithmetic", "why_tests_cant": "Each instruction has up to four registers of 32 and numbers of up to 26 bits, and register 31 means two things; tests run a few of them", "anchors": ["src/binary/encoding/arm64/opcode.c: asm_mov, asm_movk, asm_3r, asm_2ri, asm_2r, asm_ri, asm_4r, asm_ldrstr, asm_ldpstp, asm_b, asm_bcc, asm_cbz, asm_cset, asm_mvn, asm_f_ldrstr, asm_f_ldpstp, asm_f_3r, asm_f_4r, asm_f_2r, match_opcode, arm64_asm_inst_encoding", "src/binary/encoding/arm64/asm.h: W_*, P_*, F_*"]}
{"id": "C90", "title": "A value is accepted exactly where its type allows it", "statement": "For every type that is expected somewhere and every type of the value given there, the compiler accepts the program exactly when a value of the second type may be stored in a place of the first: it is the same type up to the naming, order and repetition of union alternatives, it is one of the alternatives or a subset of them, it is boxed as any, it implements the expected interface, or it is a reference or null where a ptr is expected.", "quantifier": "all pairs of types, nested to any depth, with declared and generic types, unions, interfaces and functions; all sets of interface implementations", "why_tests_cant": "Types nest without bound and the comparison walks two of them at once with special cases per kind; tests hold a few pairs", "anchors": ["src/semantic/infer.c: type_compare_visited, type_union_compare, type_compare_ident_args_visited, union_type_contains, can_assign_to_interface, can_assign_to_union, can_assign_to_any, as_to_interface, is_nullable_interface, infer_right_expr"]}
{"id": "C91", "title": "A boxed value is recognised as exactly what it is", "statement": "A value of any type that is put into a union, an any, an interface or a tagged union answers `is t` with yes exactly when its type is t, and `as t` gives back exactly the bytes that were put in when its type is t and reports an error otherwise. Putting a value into a union writes only into the union.", "quantifier": "all programs and all types in them, nested to any depth; all values; all contents of memory before, and all changes to other objects in between", "why_tests_cant": "Types are told apart by 32-bit hashes of texts that are built from hashes of parts; tests hold a few types, and a clash or an ambiguous text needs the right two types in one program", "anchors": ["src/rtype.h: type_hash, ct_register_rtype", "utils/helper.h: hash_string, hash_data", "utils/type.c: type_sizeof", "runtime/rtype.c: rt_find_rtype", "runtime/memory.c: rtypes_deserialize", "runtime/nutils/nutils.c: union_casting, union_assert, union_is, any_casting, any_assert, any_is, interface_casting, interface_assert, interface_is, union_to_any", "src/linear.c: linear_is_expr, linear_as_expr, linear_tagged_union"]}
{"id": "C92", "title": "The memory an arena hands out is the program's own", "statement": "After any sequence of allocations, deallocations (of any address) and resets of an arena, the regions in use do not overlap, are 8-byte aligned and lie inside memory the heap has given to this arena; an allocation of a positive size succeeds if the heap has memory; and reset and deinit give back every block exactly once.", "quantifier": "all histories of alloc, dealloc and reset, all sizes and block sizes, all answers of malloc that keep its promise, all contents of freed memory", "why_tests_cant": "Histories are unbounded and the answers of malloc vary; the tail-free optimisation and the block list have states only long histories reach", "anchors": ["std/allocator/arena.n: init, arena_t.alloc, arena_t.dealloc, arena_t.reset, arena_t.deinit, block_alloc, block_new, align_up"]}
{"id": "C93", "title": "Folding equal strings and constants at link time changes none of them", "statement": "Whatever mergeable sections the object files have, each string and each constant of each section is, after linking, in the output section, whole, unchanged and aligned as its section asked; every reference to a byte of it leads to that byte; what the output sections held before is unchanged; and well-formed sections are accepted.", "quantifier": "all lists of mergeable sections (any number, contents, unit sizes, alignments that are powers of two, flags and output sections), all prior contents of the output sections, all references by offset, symbol and addend", "why_tests_cant": "Which entities coincide, in which order they are sorted and where padding falls depends on all object files together", "anchors": ["src/ld/ld_elf_merge.c: ld_elf_merge_section_eligible, merge_find_group, merge_add_entity, ld_elf_merge_add_section, ld_elf_merge_finalize, ld_elf_merge_emit, ld_elf_merge_map_input", "src/ld/ld_elf.c: ld_elf_adjust_merge_section_addend"]}
{"id": "C94", "title": "Aligning riscv64 code at link time keeps the code", "statement": "When the linker removes alignment padding from a riscv64 section, every byte that is not padding is in the output, unchanged and in order, at the place the linker uses for symbols and relocations; what follows each directive is aligned as the directive asks; in place of the padding there are only no-operations, never more bytes than before; and sections as assemblers write them are accepted at every address instructions may have.", "quantifier": "all section contents, all lists of alignment directives in any order, with or without compressed instructions, all section addresses, all ranges of bytes", "why_tests_cant": "Every removal moves all that follows, and so changes what the next directive needs; the number of directives is unbounded", "anchors": ["src/ld/ld_elf_riscv_relax.c: ld_elf_riscv_relax_plan_build, ld_elf_riscv_relax_layout_pass, ld_elf_riscv_relax_plan_layout, ld_elf_riscv_relax_map, ld_elf_riscv_relax_emit, ld_elf_riscv_relax_write_nops, ld_elf_riscv_relax_padding_is_nops"]}
{"id": "C95", "title": "Relocations of riscv64 show the value the psABI asks for", "statement": "When the linker applies a riscv64 relocation, the patched data or instruction shows exactly the value the psABI defines for it, no other field and no byte behind it changes, and the instruction was one the relocation may stand on; high and low parts together reach the address meant. A relocation whose value fits is applied, one that does not is refused, and unknown numbers are refused. Unrelaxed alignment padding is accepted exactly if it aligns what follows and consists of no-ops.", "quantifier": "all relocation numbers except the two ULEB128 ones, all symbol, place, GOT and thread addresses, all addends, all bytes at the place", "why_tests_cant": "The fields are permuted bit by bit and the values range over 64 bits; errors show up only at distances tests never reach", "anchors": ["src/ld/ld_elf_reloc.c: ld_elf_relocation_apply, ld_elf_reloc_apply_riscv64, ld_elf_reloc_riscv_apply_align, ld_elf_reloc_riscv_write_*, ld_elf_relocation_write_width, ld_elf_reloc_integer_*, ld_elf_reloc_expression_signed"]}
{"id": "C96", "title": "Relocations of arm64 show the value the ABI asks for", "statement": "When the linker applies an arm64 relocation, the patched data or instruction shows exactly the value the ABI defines for it, no other field and no byte behind it changes; a page part and a low part together reach the address meant, four 16-bit moves load it, and thread-relative pairs give the offset. A value the ABI allows is applied, any other and any unknown number is refused.", "quantifier": "all relocation numbers, all symbol, place, GOT and thread addresses, all addends, all bytes at the place", "why_tests_cant": "Split and scaled fields over 64-bit values; errors show up only at distances and alignments tests never reach", "anchors": ["src/ld/ld_elf_reloc.c: ld_elf_relocation_apply, ld_elf_reloc_apply_aarch64, ld_elf_reloc_write_adr, ld_elf_reloc_write_branch26, ld_elf_reloc_write_imm19, ld_elf_reloc_write_imm14, ld_elf_reloc_write_movw, ld_elf_reloc_write_imm12, ld_elf_reloc_page_delta, ld_elf_reloc_integer_floor_page, ld_elf_reloc_floor_shift_12, ld_elf_reloc_floor_shift_16"]}
{"id": "C97", "title": "Relocations of amd64 show the value the ABI asks for", "statement": "When the linker applies an amd64 relocation, the patched number shows exactly the value the ABI defines for it and no byte behind it changes; a call with the usual addend reaches its symbol. A value the ABI allows is applied, any other and any unknown number is refused.", "quantifier": "all relocation numbers, all symbol, place, GOT and thread addresses, all addends, all bytes at the place", "why_tests_cant": "Range checks on 65-bit sums; errors show up only at distances tests never reach", "anchors": ["src/ld/ld_elf_reloc.c: ld_elf_relocation_apply, ld_elf_reloc_apply_x86_64, ld_elf_relocation_supported, ld_elf_relocation_write_width, ld_elf_reloc_integer_add, ld_elf_reloc_expression_signed"]}
{"id": "C98", "title": "Rewritten amd64 sequences do what the original ones asked for", "statement": "When the linker rewrites an instruction sequence of amd64 (a load, call or jump through the global offset table; general dynamic, local dynamic, descriptor and initial exec accesses to thread-local variables), the processor ends up, after the same number of bytes, with exactly the register values, return address and next instruction that the original sequence would have given; no byte outside the sequence changes, every sequence is paired with exactly one call, and a sequence of another form is refused.", "quantifier": "all section contents, relocations, addresses and machine states", "why_tests_cant": "Needs the meaning of instructions; tests only see the addresses and registers that happen to occur", "anchors": ["src/ld/ld_elf_reloc.c: ld_elf_relocation_prepare_x86_tls_sequences, ld_elf_reloc_validate_x86_tls_pair, ld_elf_relocation_apply_x86_tls_pair, ld_elf_relocation_apply_x86_gottpoff, ld_elf_reloc_x86_gotpcrelx_form, ld_elf_relocation_apply_x86_gotpcrelx", "src/ld/ld_elf.c: ld_elf_x86_gotpcrelx_direct_fits"]}
{"id": "C99", "title": "Branches of arm64 reach their target at any distance", "statement": "When the linker finishes an arm64 program, executing any call or jump of its code that names a symbol arrives at that symbol plus the addend, however far it is, with the return address of the branch in x30 for a call and no register but x16 changed on the way; code sections and inserted thunks do not overlap, stay inside the code section and keep their alignment; no byte that is neither a branch nor a thunk changes; a thunk is only written for a branch that cannot reach its target directly; the planning never gives up because it does not settle, whatever the addresses of the other sections do.", "quantifier": "all code sections, branches, symbol values, addends, and all ways the layout of the rest may depend on the layout of the code", "why_tests_cant": "Needs programs of more than 128 MiB and every feedback between thunks and addresses", "anchors": ["src/ld/ld_elf_thunk.c: ld_elf_aarch64_thunk_encode, ld_elf_aarch64_branch26_fits, ld_elf_aarch64_thunk_entry_find_or_add, ld_elf_aarch64_thunk_group_append", "src/ld/ld_elf.c: ld_elf_build_aarch64_thunk_groups, ld_elf_relayout_aarch64_text, ld_elf_plan_aarch64_thunks, ld_elf_validate_aarch64_thunks, ld_elf_emit_aarch64_thunks, ld_elf_apply_relocations"]}
{"id": "C100", "title": "The peephole pass keeps the effect of a block", "statement": "Whatever straight-line block of lowered code the arm64 and amd64 peephole passes are given, running the rewritten block leaves the same registers, the same memory and the same values of all variables needed behind the block as running the original one, for every starting state and whatever all other instructions mean.", "quantifier": "all blocks, all sets of variables live behind the block, all starting states, all meanings of the other instructions", "why_tests_cant": "Needs every combination of adjacent instructions, use counts and live variables; a wrong rewrite shows only for particular values", "anchors": ["src/peephole/peephole.h: peephole_build_use_count, peephole_can_remove_var", "src/peephole/arm64.c: peephole_move_elimination_match1, peephole_move_elimination_match2, peephole_strength_reduction_mul2, peephole_fma_recognition, arm64_peephole_handle_block", "src/peephole/amd64.c: peephole_lea_fusion, amd64_peephole_handle_block", "src/lir.h: lir_operand_equal, lir_can_mov_eliminable"]}
{"id": "C101", "title": "The linker's hash is SHA-256 however the data is handed over", "statement": "For every sequence of byte strings handed to the linker's hash context one after the other, and whatever the context's memory held before, the digest is the SHA-256 digest (FIPS 180-4) of their concatenation; in particular the one-shot function gives the digest of its data, and the way the data is cut makes no difference.", "quantifier": "all byte strings and all ways to cut them into pieces", "why_tests_cant": "The digest depends on every bit of inputs of unbounded length; tests compare a few published vectors and a few cuts.", "anchors": ["src/ld/sha256.c:transform", "src/ld/sha256.c:ld_sha256_init", "src/ld/sha256.c:ld_sha256_update", "src/ld/sha256.c:ld_sha256_final", "src/ld/sha256.c:ld_sha256"]}
{"id": "C102", "title": "A global variable starts with the value its initializer denotes", "statement": "For every type and every constant initializer of a global variable (literals, casts of literals, default values, arrays with fewer elements than the type has, repeated elements, tuples, structs with fields in any order and fields left out, empty containers), when the program starts the bytes of the variable hold exactly the value the initializer denotes, with numbers in two's complement, fields at their offsets, default values where nothing is written, and empty containers with their element size and hashes; no other memory is changed.", "quantifier": "all types, nested to any depth, all initializers, all addresses and all previous contents of memory", "why_tests_cant": "Types and initializers nest without bound; tests look at a few declarations.", "anchors": ["src/semantic/global_eval.c:global_eval_write_default", "src/semantic/global_eval.c:global_eval_write_literal", "src/semantic/global_eval.c:global_eval_write_expr", "src/semantic/global_eval.c:global_eval_literal_as_i64", "src/semantic/infer.c:infer_literal", "runtime/memory.c:symdefs_deserialize"]}
{"id": "C103", "title": "Decompressing a debug section gives exactly the data of its zlib stream, or reports an error", "statement": "For every compressed input and every size stated in the section header, the linker's decompression succeeds exactly when the input is one zlib stream (RFC 1950 and 1951, no preset dictionary) with nothing behind it, a correct checksum, and data of the stated size; the result is then that data. For every other input, however malformed, an error is reported; no array is accessed outside of its bounds and no loop runs on.", "quantifier": "all byte sequences as input and all stated sizes", "why_tests_cant": "The space of streams is unbounded; decoding errors show only for particular trees, distances or lengths.", "anchors": ["src/ld/ld_elf_zlib.c:ld_elf_zlib_decompress_with_allocator", "src/ld/ld_elf_zlib.c:ld_elf_zlib_build_huffman", "src/ld/ld_elf_zlib.c:ld_elf_zlib_decode_symbol", "src/ld/ld_elf_zlib.c:ld_elf_zlib_make_dynamic_trees", "src/ld/ld_elf_zlib.c:ld_elf_zlib_decode_compressed_block", "src/ld/ld_elf_zlib.c:ld_elf_zlib_adler32", "src/ld/ld_elf_zlib.c:ld_elf_zlib_finish"]}
{"id": "C104", "title": "A name means its innermost declaration, in closures too", "statement": "In every accepted program each use of a name reads the innermost declaration of that name around it: a variable of the same function directly, and a variable of a function further out through the environments of all the function literals in between, whatever the nesting of blocks and functions. A variable that is captured is allocated so that it outlives its block. The only scoping error is a variable declared twice in the same block.", "quantifier": "all programs, as far as scoping goes: all nestings of blocks and function literals, all declarations and uses", "why_tests_cant": "Programs nest without bound; a wrong place in an environment shows only for particular combinations of captures on several levels.", "anchors": ["src/semantic/analyzer.c:analyzer_local_ident", "src/semantic/analyzer.c:analyzer_resolve_free", "src/semantic/analyzer.c:analyzer_push_free", "src/semantic/analyzer.c:analyzer_local_fndef", "src/semantic/analyzer.c:analyzer_begin_scope", "src/semantic/analyzer.c:analyzer_end_scope", "src/semantic/analyzer.c:analyzer_redeclare_check", "src/linear.c:linear_capture_expr"]}
{"id": "C105", "title": "The block cipher is Blowfish, and decrypting undoes encrypting", "statement": "For every cipher and every block of eight bytes, encrypting gives what Blowfish as published gives under the words the cipher holds, and decrypting the result gives the block back, and the other way round. Making a cipher from a key of 1 to 56 bytes leaves the published key schedule in it, other keys are refused; with a salt it leaves the salted schedule.", "quantifier": "all contents of the P-array and the S-boxes, all blocks, all keys and salts of any length", "why_tests_cant": "There are 2^64 blocks under each of 2^448 keys; a wrong subkey in one unrolled round of decryption, or a wrong place in the schedule, can agree with published vectors of the other direction.", "anchors": ["std/crypto/blowfish.n:encrypt_block", "std/crypto/blowfish.n:decrypt_block", "std/crypto/blowfish.n:encrypt", "std/crypto/blowfish.n:decrypt", "std/crypto/blowfish.n:get_next_word", "std/crypto/blowfish.n:expand_key", "std/crypto/blowfish.n:expand_key_with_salt", "std/crypto/blowfish.n:new_cipher", "std/crypto/blowfish.n:new_salted_cipher"]}
{"id": "C106", "title": "A password verifies against its own bcrypt hash and no other does", "statement": "The text that hashing a password of at most 72 bytes returns is the one bcrypt prescribes for a salt of 16 bytes and the cost asked for (10 if it is below 4); longer passwords and costs above 31 are refused. Verifying succeeds for the same password and fails for every other one, and the cost can be read back from the text. Two hashes of the same password have different salts.", "quantifier": "all passwords, costs, salts and states of the random number generator, all contents of the initial tables", "why_tests_cant": "A wrong index in the radix-64 coding or in the parser of the text shows only for particular bytes; passwords that collide are not found by trying.", "anchors": ["std/crypto/bcrypt.n:base64_encode", "std/crypto/bcrypt.n:base64_decode", "std/crypto/bcrypt.n:expensive_blowfish_setup", "std/crypto/bcrypt.n:bcrypt", "std/crypto/bcrypt.n:new_from_password", "std/crypto/bcrypt.n:new_from_hash", "std/crypto/bcrypt.n:hash_to_string", "std/crypto/bcrypt.n:constant_time_compare", "std/crypto/bcrypt.n:hash", "std/crypto/bcrypt.n:verify", "std/crypto/bcrypt.n:cost", "std/crypto/bcrypt.n:generate_salt"]}
{"id": "C107", "title": "Linking against a static library uses exactly the files put into it", "statement": "From an archive written by GNU ar or in the BSD format the linker gets all members, with their full names and contents, in their order, and nothing else; from a thin archive the paths of all members, relative ones taken from the directory of the archive. Whatever the bytes of an archive are, reading it ends, nothing outside the file is read, and it is either refused or every member has a name and a content that is a part of the file.", "quantifier": "all lists of members, names and contents (sizes of at most 10 digits), with and without an index of symbols; all byte sequences for the second part", "why_tests_cant": "Names at the limit of 15 bytes, odd sizes, tables of long names and damaged archives combine without bound; a test sees a few archives.", "anchors": ["src/ld/ld_elf_archive.c:ld_elf_archive_record_at", "src/ld/ld_elf_archive.c:ld_elf_archive_member_name", "src/ld/ld_elf_archive.c:ld_elf_archive_long_name", "src/ld/ld_elf_archive.c:ld_elf_archive_resolve_member_path", "src/ld/ld_elf_input.c:ld_elf_parse_archive"]}
{"id": "C108", "title": "Linking gives every name the right definition and takes from libraries what is needed", "statement": "When a program is linked, a name gets its strong definition, and two strong definitions are an error; else its first weak definition; else, if objects ask for common storage, storage of the largest size and alignment asked for. The objects linked are the files given and members of static libraries that were needed when they were added, and in the end every needed name is there. Linking is refused only for a name defined twice, for common storage that is asked for both per thread and not, and for a needed name that no file and no library member has; it always ends. As the ELF specification says, a common symbol wins over a weak definition, and a library member is not added for a common symbol that is already there.", "quantifier": "all lists of objects and library members with any symbols (strong, weak, common, undefined), all entry names", "why_tests_cant": "The outcome depends on the combination and order of all symbols in all objects and members, and members bring new needs; tests link a few programs.", "anchors": ["src/ld/ld_elf.c:ld_elf_record_definition", "src/ld/ld_elf.c:ld_elf_record_undefined_references", "src/ld/ld_elf.c:ld_elf_rebuild_globals", "src/ld/ld_elf.c:ld_elf_extract_archives", "src/ld/ld_elf.c:ld_elf_check_undefined"]}
{"id": "C109", "title": "The symbol table of a linked program has every symbol, as it was given", "statement": "The symbol and string tables that the linker writes are read back, by the layout of ELF64, as exactly the symbols given: the null symbol first, then all locals, then all globals, with their names, binding, type, visibility, section, value and size, and with the index of the first global. Nothing outside the tables is written. It is refused only for a symbol without a name pointer, a binding or type above 15, or tables too large for the format, and the error names a symbol at fault.", "quantifier": "all lists of local and global symbols with any names and field values", "why_tests_cant": "Offsets of names and records depend on all earlier symbols, and the limits lie at 4 GiB of names; tests write a few symbols.", "anchors": ["src/ld/ld_elf_symtab.c:ld_elf_symtab_build", "src/ld/ld_elf_symtab.c:ld_elf_symtab_measure_strings", "src/ld/ld_elf_symtab.c:ld_elf_symtab_write_entries"]}
{"id": "C110", "title": "An unwinder finds the frame description of every address in a linked program", "statement": "The header of the exception frames that the linker writes is read, by the encodings it names, as the address of the exception frames and exactly the pairs of code start and frame description given; a bisecting search in it, as unwinders do, finds for every address the pair with the last start at or before it, and nothing if there is none. Bytes after the header are left alone. It is refused only if a distance does not fit in 32 bits, the output is too small or there are more than 2^32 - 1 pairs, and the error names a pair at fault.", "quantifier": "all addresses of the header and of the frames, all lists of pairs in any order, all addresses searched", "why_tests_cant": "Whether a search finds a pair depends on the order of the whole table and on signed distances; tests look up a few addresses.", "anchors": ["src/ld/ld_elf_eh_frame.c:ld_elf_eh_frame_hdr_encode", "src/ld/ld_elf_eh_frame.c:ld_elf_eh_frame_hdr_relative_i32", "src/ld/ld_elf_eh_frame.c:ld_elf_eh_frame_hdr_compare_entries", "src/ld/ld_elf_eh_frame.c:ld_elf_eh_frame_hdr_size"]}
{"id": "C111", "title": "A linked program has every section at its place in memory", "statement": "Every section that is to be loaded gets an address and a place in the file that respect its alignment; no two meet in memory or in the file; the loader, following the two segments of the program, puts the contents of each at its address and gives each its memory with the permissions it asks for; and the region made read-only after relocation holds exactly the sections that are only written until then, with no writable section on its pages.", "quantifier": "all lists of sections, types, sizes, alignments, image addresses and page sizes for which the linker succeeds", "why_tests_cant": "Places depend on the rounding and the sizes of all sections before; tests link a few programs with the usual sections.", "anchors": ["src/ld/ld_elf.c:ld_elf_layout_outputs", "src/ld/ld_elf.c:ld_elf_output_rank", "src/ld/ld_elf_relro.c:ld_elf_relro_add_section", "src/ld/ld_elf_relro.c:ld_elf_relro_finalize", "src/ld/ld_elf_relro.c:ld_elf_relro_section_is_protected"]}
{"id": "C112", "title": "A linked program claims a protection only if all of its objects have it", "statement": "The program properties that the linker writes are those of the psABI: a feature such as control-flow protection is claimed exactly if every object linked in claims it, an object without notes claiming none; what one object needs the program needs; the stack size is the greatest asked for; what the program uses is stated only if it is known of all objects. Each type occurs once, in the order of types.", "quantifier": "all lists of objects, all notes and properties in them, all bits of all property types, all processors", "why_tests_cant": "A feature wrongly claimed shows only as a crash or a missing protection under an operating system that enforces it, for a combination of objects; tests link a few.", "anchors": ["src/ld/ld_elf_property.c:ld_elf_property_add_object", "src/ld/ld_elf_property.c:ld_elf_property_semantics", "src/ld/ld_elf_property.c:ld_elf_property_parse_descriptor", "src/ld/ld_elf_property.c:ld_elf_property_finalize", "src/ld/ld_elf.c:ld_elf_prepare_gnu_property"]}
{"id": "C113", "title": "Merging common unwind information never changes what an unwinder reads", "statement": "When the linker merges common information entries of exception frames, each entry is replaced by the first one in the list that has the same bytes and the same relocations; entries that differ in any byte or relocation stay apart, and the result is the same index for all equal entries.", "quantifier": "all lists of entries, with all bytes and relocations", "why_tests_cant": "A wrong merge shows only when an exception is thrown through a frame of the merged entry; tests have few distinct entries.", "anchors": ["src/ld/ld_elf_cie.c:ld_elf_cie_deduplicate", "src/ld/ld_elf_cie.c:ld_elf_cie_equal"]}
{"id": "C114", "title": "The start-up code finds in the dynamic section what the linker meant", "statement": "For every position-independent program, reading the dynamic section by the ELF rules gives, under the tag of each datum, exactly that datum if the program has it and nothing otherwise, in a section of the size announced; reading the relocations gives exactly those the linker made, each as often, and those whose value a function of the program computes come after all others.", "quantifier": "all combinations of optional parts, all 64-bit addresses and sizes, all lists of relocations in any order", "why_tests_cant": "Each optional part moves the bytes of all that follow, and signed addends and packed fields have extremes; tests link a few programs.", "anchors": ["src/ld/ld_elf_dynamic.c:ld_elf_dynamic_encode_metadata", "src/ld/ld_elf_dynamic.c:ld_elf_dynamic_metadata_size", "src/ld/ld_elf_dynamic.c:ld_elf_dynamic_encode_relocations", "src/ld/ld_elf_dynamic.c:ld_elf_dynamic_sort_relocations"]}
{"id": "C115", "title": "A call of a function chosen at start-up reaches the chosen function", "statement": "For every processor, the stub that the linker writes for a function that is chosen at start-up, executed at its address, jumps to the address stored in the slot it was made for, wherever stub and slot are. It is refused only if stub or slot are misaligned or the slot is out of the reach of the instructions.", "quantifier": "all 64-bit addresses of stub and slot, all processors", "why_tests_cant": "The instructions split a signed distance into fields with rounding at page and sign boundaries; tests try a few distances.", "anchors": ["src/ld/ld_elf_ifunc.c:ld_elf_ifunc_encode_pltgot", "src/ld/ld_elf_ifunc.c:ld_elf_ifunc_encode_x86_64", "src/ld/ld_elf_ifunc.c:ld_elf_ifunc_encode_aarch64", "src/ld/ld_elf_ifunc.c:ld_elf_ifunc_encode_riscv64"]}
