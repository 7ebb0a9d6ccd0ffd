{"id": "C01", "title": "Readers get every committed entry exactly once, in order, with losses accounted for", "statement": "A reader allowed to see all entries that successfully reads an ordinary entry receives, byte for byte, the k-th entry ever committed to that log (all writes that returned success, in the order they took the log lock), where k = (entries committed before the last flush) + (ordinary entries this reader has received since the later of its open and the last flush) + (the sum of the numbers announced by the drop summaries it received since then). No entry is ever duplicated, reordered, torn or lost without being announced first.", "quantifier": "for every log size accepted by the driver, every finite sequence of open/close/read/write/poll/ioctl calls on any number of descriptors, in any interleaving, with any payloads, short buffers and faulting user pointers", "why_tests_cant": "The claim ranges over all interleavings and all positions of the wrap point; it depends on an invariant relating ring bytes, the write offset and every reader's offset after any number of wraps and failed writes.", "anchors": ["kernel/ulogger-6.x.c:ulogger_read", "kernel/ulogger-6.x.c:ulogger_write_iter", "kernel/ulogger-6.x.c:fix_up_readers", "kernel/ulogger-6.x.c:get_next_entry", "kernel/ulogger-6.x.c:is_between", "kernel/ulogger-6.x.c:do_read_drop_summary", "kernel/ulogger-6.x.c:do_read_log_to_user"]}
{"id": "C02", "title": "Driver operations stay inside the ring and terminate", "statement": "No call ever reads or writes outside the ring buffer and no internal scan over entries loops forever, whatever calls came before.", "quantifier": "for every log size, every reachable state and every call, where every write so far took its data from a user buffer or a vector of user buffers (other sources break it, see C13)", "why_tests_cant": "An out-of-range access or an endless scan would need one particular offset/length combination after an arbitrary history; no finite test set covers all of them.", "anchors": ["kernel/ulogger-6.x.c:get_entry_header", "kernel/ulogger-6.x.c:get_next_entry_by_uid", "kernel/ulogger-6.x.c:get_next_entry", "kernel/ulogger-6.x.c:do_write_log", "kernel/ulogger-6.x.c:do_write_log_from_user", "kernel/ulogger-6.x.c:do_read_log_to_user"]}
{"id": "C03", "title": "A restricted reader only ever receives entries of its own user id", "statement": "A descriptor opened without the right to read everything only receives ordinary entries whose recorded effective user id is the caller's at that call; and the entries it receives are a subsequence, in commit order and without repetition, of the committed entries with that id, skipping one of its own entries only when that entry was counted in a drop summary or flushed.", "quantifier": "for every history of calls and every assignment of user ids to writers and readers", "why_tests_cant": "It is a confidentiality claim over all histories: one counterexample position after a wrap would break it.", "anchors": ["kernel/ulogger-6.x.c:get_next_entry_by_uid", "kernel/ulogger-6.x.c:ulogger_read", "kernel/ulogger-6.x.c:ulogger_poll", "kernel/ulogger-6.x.c:ulogger_open"]}
{"id": "C04", "title": "A failed write leaves no trace in what readers receive", "statement": "A write that returns an error commits nothing: no reader ever receives any part of it, entries committed before it that are still deliverable are delivered unchanged, and later writes are delivered intact.", "quantifier": "for every faulting position inside the user data, every state of the ring and every later sequence of calls", "why_tests_cant": "The failed write really overwrites ring bytes past the write offset; showing that no reader can ever reach them needs an invariant over all continuations.", "anchors": ["kernel/ulogger-6.x.c:ulogger_write_iter", "kernel/ulogger-6.x.c:do_write_log_from_user", "kernel/ulogger-6.x.c:fix_up_readers"]}
{"id": "C05", "title": "What a successful write stores and returns", "statement": "A successful ordinary write commits one entry whose header carries the caller's pid, tid, time and effective uid and whose payload is the first 4076 bytes of process name, NUL, (thread name, NUL when pid differs from tid), then the concatenated user buffers; the return value is the number of user bytes that were kept. The write is short exactly when the whole did not fit.", "quantifier": "for every list of user buffers (including empty ones), every name and every total length", "why_tests_cant": "Truncation interacts with the split into buffers and with the wrap of the ring; the combinations are unbounded.", "anchors": ["kernel/ulogger-6.x.c:ulogger_write_iter", "kernel/ulogger-6.x.c:do_write_log_from_user", "kernel/ulogger-6.x.h:ULOGGER_ENTRY_MAX_PAYLOAD"]}
{"id": "C06", "title": "Retention guarantee of the ring", "statement": "An entry cannot be lost to a reader (or to a future reader) by overwriting until at least (ring size - 2*4100) bytes have been written from that entry on; in particular the newest entries adding up to at most that many bytes are always still available after any write.", "quantifier": "for every ring size, every history without flush and every entry", "why_tests_cant": "The driver drops more than strictly needed when it pulls readers forward; the bound is a worst case over all entry size patterns.", "anchors": ["kernel/ulogger-6.x.c:fix_up_readers", "kernel/ulogger-6.x.c:get_next_entry", "kernel/ulogger-6.x.c:check_buf_size"]}
{"id": "C07", "title": "Flush makes everything older unreadable and resets loss counts", "statement": "After a flush, no reader, present or opened later, receives an entry committed before the flush or a drop summary about one; polling reports not readable and the used length is 0 until the next successful write.", "quantifier": "for every state and every continuation after the flush", "why_tests_cant": "It constrains all future reads of all descriptors, not one.", "anchors": ["kernel/ulogger-6.x.c:ulogger_ioctl", "kernel/ulogger-6.x.h:ULOGGER_FLUSH_LOG"]}
{"id": "C08", "title": "The used-length query is exact", "statement": "The length reported to a reader allowed to see everything is exactly the sum of the stored sizes (24 bytes plus payload) of the committed entries it has not yet read or lost, and it is 0 exactly when there are none.", "quantifier": "for every reachable state, including wrapped rings", "why_tests_cant": "The value is computed from two wrapped offsets that coincide both for an empty and a full ring; only an invariant excludes the confusion.", "anchors": ["kernel/ulogger-6.x.c:ulogger_ioctl", "kernel/ulogger-6.x.h:ULOGGER_GET_LOG_LEN"]}
{"id": "C09", "title": "Which buffer suffices for the next read", "statement": "A next-entry-length query that returns 0 means that a read blocks; one that returns n > 0 means that one record is delivered to every read whose buffer holds that record, and that any smaller buffer is refused with EINVAL and consumes nothing. The record has exactly n bytes unless a loss notice is pending; then it is the notice, which may be longer than n (proved with a concrete run), so a buffer of n bytes is enough exactly if no longer notice is pending.", "quantifier": "for every reachable state", "why_tests_cant": "The failing case needs a lapped reader whose next entry is shorter than the summary text.", "anchors": ["kernel/ulogger-6.x.c:ulogger_ioctl", "kernel/ulogger-6.x.c:do_read_drop_summary", "kernel/ulogger-6.x.h:ULOGGER_GET_NEXT_ENTRY_LEN"]}
{"id": "C10", "title": "Readiness reported by poll is truthful", "statement": "If poll reports a descriptor readable and no other call intervenes, a read by the same user does not block (nor return EAGAIN); if it reports not readable, a read would block. Poll never loses an entry.", "quantifier": "for every reachable state and every user id", "why_tests_cant": "It compares two independent code paths in all states.", "anchors": ["kernel/ulogger-6.x.c:ulogger_poll", "kernel/ulogger-6.x.c:ulogger_read"]}
{"id": "C11", "title": "A rejected read consumes nothing", "statement": "A read that fails because the buffer is too small or faults changes nothing that matters to the reader: retrying with a good buffer returns exactly what the failed call would have returned, and the pending loss count is kept.", "quantifier": "for every state, buffer size and fault position", "why_tests_cant": "The property quantifies over all states and partial copies.", "anchors": ["kernel/ulogger-6.x.c:ulogger_read", "kernel/ulogger-6.x.c:do_read_drop_summary", "kernel/ulogger-6.x.c:do_read_log_to_user"]}
{"id": "C12", "title": "Both header versions describe the same entry", "statement": "For the same entry, a version 1 reader and a version 2 reader receive the same payload and the same length, pid, tid, time; version 1 uses a 20-byte header without the user id, version 2 a 24-byte header with it.", "quantifier": "for every entry and every state", "why_tests_cant": "Equality over all entries and ring positions.", "anchors": ["kernel/ulogger-6.x.c:copy_header_to_user", "kernel/ulogger-6.x.c:get_user_hdr_len", "kernel/ulogger-6.x.c:ulogger_set_version"]}
{"id": "C13", "title": "Which accepted writes commit a complete entry", "statement": "A write through a user vector or user buffer that reports success commits an entry whose announced length is the number of payload bytes stored and delivered. A write of n bytes through any other kind of iterator succeeds with result 0 and stores the header and the names only, while the entry announces the n bytes in addition: a reader that had read everything sees a queue of the header and names and a next entry longer by n (cut to the largest payload). Reading it delivers stale memory and the next access leaves the ring (proved with concrete runs).", "quantifier": "for every reachable state and every iterator kind the VFS can pass", "why_tests_cant": "Ordinary write() and writev() never take the failing path.", "anchors": ["kernel/ulogger-6.x.c:ulogger_write_iter"]}
{"id": "C14", "title": "A blocked reader is not left asleep", "statement": "A blocking read that sleeps while the log holds an entry for it always has a wake-up on its way: in every interleaving of readers and writers at lock granularity, a reader about to sleep or sleeping while its position differs from the write position has been or will be woken by a writer that already committed. A write that fails or writes nothing wakes nobody.", "quantifier": "for every interleaving of any number of readers and writers", "why_tests_cant": "Lost wake-ups are a matter of scheduling that tests meet only by luck.", "anchors": ["kernel/ulogger-6.x.c:ulogger_read", "kernel/ulogger-6.x.c:ulogger_write_iter"]}
{"id": "C15", "title": "The set of log devices stays well formed", "statement": "Registered log devices always have pairwise distinct names, all of the form ulog_ followed by at most ten small letters (as the kernel counts letters, ASCII or Latin-1), with a power-of-two size from 16 KiB to 16 MiB; there are never more than 16, the first is always ulog_main, a rejected request changes nothing, an accepted one adds one device at the end, and a request with a free name, a space and a size in range is granted when there is room and memory.", "quantifier": "for every sequence of requests with arbitrary text and every outcome of the allocations", "why_tests_cant": "Requests are arbitrary strings.", "anchors": ["kernel/ulogger-6.x.c:ulogger_add_log", "kernel/ulogger-6.x.c:check_buf_size", "kernel/ulogger-6.x.c:ulogger_init"]}
{"id": "C16", "title": "Raw mode stores the caller's header but never a wrong length", "statement": "In raw mode a write of at least 20 bytes plus payload commits an entry whose pid, tid, time and uid are the first 20 bytes supplied and whose payload is the rest, cut to 4076 bytes, with length and header size set by the driver; fewer than 20 bytes is EINVAL and exactly 20 bytes is a no-op returning 0.", "quantifier": "for every byte content and every split into buffers", "why_tests_cant": "The split of the 20 header bytes over buffers is arbitrary.", "anchors": ["kernel/ulogger-6.x.c:ulogger_write_iter", "libulog/ulog_write_raw.c:ulog_raw_logv"]}
{"id": "C17", "title": "Parsing any payload is memory safe and yields terminated strings", "statement": "Decoding an entry with any payload bytes touches only bytes of the payload, never fails, and yields process name, thread name and tag that are NUL-terminated inside the payload (or constant strings); a non-binary message is a NUL-terminated string whose reported length counts exactly one NUL, at its end; a binary message is exactly the remaining payload bytes.", "quantifier": "for every byte string as payload, including truncated and hostile ones, and every pid/tid", "why_tests_cant": "Payloads are written by any process; the space is all byte strings up to 64 KiB.", "anchors": ["libulog/ulog_read.c:ulog_parse_payload", "libulog/ulog_read.c:ulog_parse_payload_unformatted", "libulog/ulog_read.c:get_token", "libulog/ulog_read.c:ulog_parse_buf"]}
{"id": "C18", "title": "Length checks of the raw-buffer parser", "statement": "Parsing a raw buffer either returns -1 or only touches bytes inside the given buffer, and it accepts a buffer exactly when it holds a 24-byte header whose announced header size and payload length add up to the buffer length.", "quantifier": "for every buffer content and length", "why_tests_cant": "Hostile buffers are arbitrary.", "anchors": ["libulog/ulog_read.c:ulog_parse_raw"]}
{"id": "C19", "title": "A logged message comes back unchanged through driver and parser", "statement": "A message logged with a given tag, priority word and text, that fits the entry limit, is decoded by a reader of the device as the same process name, thread name, tag, level, colour, binary flag and message bytes.", "quantifier": "for every tag and text without embedded NUL, every 32-bit priority word, every binary buffer, every pid/tid, at every ring position", "why_tests_cant": "It spans three components and all contents.", "anchors": ["libulog/ulog_write.c:__writer_kernel", "libulog/ulog_write.c:ulog_log_buf", "kernel/ulogger-6.x.c:ulogger_write_iter", "libulog/ulog_read.c:ulog_parse_buf"]}
{"id": "C20", "title": "An over-long message is delivered as a terminated prefix", "statement": "A text message that does not fit the entry limit is still delivered with the right tag, level, colour and names (when those fit), as the longest proper prefix of the original text that leaves room for a NUL.", "quantifier": "for every text length and every combination of name and tag lengths that leaves room for at least one byte after the tag", "why_tests_cant": "Boundary behaviour for all length combinations.", "anchors": ["kernel/ulogger-6.x.c:ulogger_write_iter", "libulog/ulog_read.c:ulog_parse_payload"]}
{"id": "C21", "title": "Level filter", "statement": "A message reaches the writer exactly when its level (low three bits of the priority word) is not greater than the tag's level after initialisation; colour and binary bits never influence filtering.", "quantifier": "for every priority word, every cookie state and environment", "why_tests_cant": "All 2^32 priority words and all cookie histories.", "anchors": ["libulog/include/ulog.h:ulog_log", "libulog/ulog_write.c:ulog_log_buf", "libulog/ulog_write.c:ulog_vlog_write"]}
{"id": "C22", "title": "Tag registration is exactly-once under concurrency", "statement": "Whatever threads concurrently initialise, log with, set or read the level of, or enumerate the same tags, each tag used is in the tag list exactly once, the registration hook runs exactly once for each tag registered while a hook is installed, and a level set explicitly is never replaced by a concurrent initialisation; reading a level gives the level written last; and the level a tag starts with is one that the environment gave, or one that the default tag had before, or Info.", "quantifier": "for every number of threads, every interleaving at the granularity of individual shared accesses and lock sections", "why_tests_cant": "Race outcomes depend on the schedule.", "anchors": ["libulog/ulog_write.c:ulog_init_cookie", "libulog/ulog_write.c:ulog_set_level", "libulog/ulog_write.c:ulog_init"]}
{"id": "C23", "title": "Initial level of a tag", "statement": "The level a tag gets when first used is decided, in this order, by ULOG_LEVEL_<tag> (for named tags, the tag cut to 68 characters), ULOG_LEVEL, the level of the default tag if that is set, and otherwise Info; the letters C E W N I D and digits map to their levels, larger digits to Debug, anything else to 0. The environment is not consulted again for that tag.", "quantifier": "for every environment and tag name", "why_tests_cant": "All environments.", "anchors": ["libulog/ulog_write.c:ulog_init_cookie", "libulog/ulog_write.c:parse_level"]}
{"id": "C24", "title": "Setting and listing levels by tag name", "statement": "Setting a level clamps it to 0..7 and getting it returns the clamped value; setting by name changes exactly one registered tag of that name and reports failure, changing nothing, when there is none; listing names returns at most the given number, each registered tag once, most recent first.", "quantifier": "for every sequence of such calls", "why_tests_cant": "All histories of registrations and updates.", "anchors": ["libulog/ulog_write.c:ulog_set_level", "libulog/ulog_write.c:ulog_get_level", "libulog/ulog_write.c:ulog_set_tag_level", "libulog/ulog_write.c:ulog_get_tag_names", "libulog/ulog_write.c:ulog_foreach"]}
{"id": "C25", "title": "A custom write function receives every message until replaced", "statement": "After a custom write function is installed, every accepted message is passed to it exactly once (and then also printed on stderr when ULOG_STDERR is set and the message is not binary) and querying the write function returns it, until another function is installed or the log device is changed. Before any function is installed and after a successful change of the device, no custom function gets any message: a device change silently discards the installed function, so that it stays installed across device changes is false. Installing a null pointer is refused with -EINVAL and changes nothing.", "quantifier": "for every sequence of installs, device changes and messages; ULOG_STDERR kept as it is between install and message", "why_tests_cant": "All call sequences.", "anchors": ["libulog/ulog_write.c:ulog_set_write_func", "libulog/ulog_write.c:ulog_get_write_func", "libulog/ulog_write.c:ulog_set_log_device", "libulog/ulog_write.c:__ctrl_init"]}
{"id": "C26", "title": "Formatted messages are cut at 255 characters and always terminated", "statement": "A formatted message hands the writer its first 255 characters followed by one NUL and the exact count of bytes; a plain string is handed over whole with its NUL; a failed formatting logs nothing.", "quantifier": "for every formatted text", "why_tests_cant": "All lengths.", "anchors": ["libulog/ulog_write.c:ulog_vlog_write", "libulog/ulog_write.c:ulog_log_str"]}
{"id": "C27", "title": "Throttled logging", "statement": "At one call site and thread, throttled logging passes a call on exactly when at least one period has passed since the last call passed on (time starts at 0), so any two of them are a period apart; the message is preceded by the exact number of calls held back since the previous one, in brackets (no prefix when none).", "quantifier": "for every sequence of call times (non-decreasing for the spacing), every period and every text that can be formatted, below 2^32 calls and within the 64-bit clock", "why_tests_cant": "All timing sequences.", "anchors": ["libulog/include/ulog.h:ulog_log_throttle", "libulog/ulog_write.c:ulog_get_time_monotonic"]}
{"id": "C28", "title": "Log-on-change logging", "statement": "At one call site and thread, log-on-change emits exactly the first call and the calls whose value differs from the value of the call before it.", "quantifier": "for every sequence of values", "why_tests_cant": "All sequences.", "anchors": ["libulog/include/ulog.h:ulog_log_change"]}
{"id": "C29", "title": "Chunked binary writes lose nothing", "statement": "Writing a binary block in chunks emits entries whose payloads, with the per-chunk header and index removed, concatenate to exactly the given buffers in order; indexes count 0,1,2,... modulo 256; every chunk fits the driver limit so none is truncated; the temporary vector is never overrun; on error no further chunk is emitted.", "quantifier": "for every list of buffers (including empty ones), every header and tag length and every total size", "why_tests_cant": "Chunk boundaries cut buffers at arbitrary places.", "anchors": ["libulog/ulog_write_bin.c:ulog_bin_writev_chunk", "libulog/ulog_write_bin.c:compute_max_chunk_len"]}
{"id": "C30", "title": "Chunked binary writes emit at least one entry", "statement": "A chunked binary write that succeeds emits one or more entries exactly when some buffer holds at least one byte. (That it always does, as documented, is false: for buffers that are all empty it returns success and emits nothing.)", "quantifier": "for every list of buffers", "why_tests_cant": "The failing case is degenerate input tests do not try.", "anchors": ["libulog/ulog_write_bin.c:ulog_bin_writev_chunk", "libulog/include/ulogbin.h:ulog_bin_writev_chunk"]}
{"id": "C31", "title": "Binary writes come back as binary entries", "statement": "A binary write that fits is decoded by a reader as a binary Info entry with the given tag whose message is exactly the concatenation of the buffers, NUL bytes included.", "quantifier": "for every tag and every list of buffers", "why_tests_cant": "Contents are arbitrary.", "anchors": ["libulog/ulog_write_bin.c:ulog_bin_writev", "libulog/ulog_read.c:ulog_parse_buf"]}
{"id": "C32", "title": "Raw logging cannot forge a drop notice and preserves all fields", "statement": "Raw logging through the library rejects entries with pid and tid both -1 and otherwise stores exactly the given pid, tid, time, names, priority, tag and message, which a reader decodes back.", "quantifier": "for every raw entry with terminated names and tag whose bytes fit the entry limit, in any reachable driver state, text and binary", "why_tests_cant": "Contents are arbitrary.", "anchors": ["libulog/ulog_write_raw.c:ulog_raw_logv", "libulog/ulog_write_raw.c:ulog_raw_log"]}
{"id": "C33", "title": "Drop notices decode as warnings of the device", "statement": "A drop summary delivered by the driver is decoded as a Warning of tag <device name> with text '<n> log entries dropped' and a newline, with pid and tid -1, for the number of entries lost, carrying the time of a surviving entry committed after the lost ones.", "quantifier": "for every loss count below 2^31 and every device name the driver accepts", "why_tests_cant": "All counts.", "anchors": ["kernel/ulogger-6.x.c:do_read_drop_summary", "libulog/ulog_read.c:ulog_parse_payload"]}
{"id": "C34", "title": "C++ stream logging", "statement": "As long as no stream gets more than 512 single characters between two of its flushes: a flush of a C++ log stream by a thread logs one message, being the first 512 bytes (up to a NUL) of the strings that this thread inserted in any of the streams since its last flush, at the level of the stream that is flushed and with the tag that this thread set last (the default tag if none); nothing is logged if there is no such text, nor by any other call. What other threads do has no influence. False of single characters (put, endl): they are never logged.", "quantifier": "for every interleaving of insertions, single characters, tag changes and flushes by any threads on any of the streams, and every version of flush of a bad stream", "why_tests_cant": "All sequences and interleavings of threads.", "anchors": ["libulog/ulog.cpp:xsputn", "libulog/ulog.cpp:sync", "libulog/ulog.cpp:setTag"]}
{"id": "C35", "title": "The log viewer never runs out of frames", "statement": "With the frame pool sized at opening time, processing never finds the pool empty, whatever the devices deliver.", "quantifier": "for every number of devices, every tail setting of at least 0, and every arrival pattern and read result", "why_tests_cant": "All arrival patterns.", "anchors": ["ulogcat/libulogcat_core.c:process_devices", "ulogcat/libulogcat_core.c:alloc_frame", "ulogcat/libulogcat_core.c:ulogcat3_open"]}
{"id": "C36", "title": "Dump output is the time-ordered merge of the devices", "statement": "When nothing new is written, each device holds its text entries in increasing time order (with or without binary entries between them) and output works, a dump ends and returns 0; it prints every text entry of every device exactly once, in increasing time order, keeping each device's order, and when several devices are open one banner before the first entry of each.", "quantifier": "for every number of devices and all contents", "why_tests_cant": "All contents and ties.", "anchors": ["ulogcat/libulogcat_core.c:find_oldest_pending_frame", "ulogcat/libulogcat_core.c:process_devices", "ulogcat/libulogcat_core.c:ulogcat3_process_logs"]}
{"id": "C37", "title": "Tail keeps exactly the last N entries", "statement": "With a tail of N > 0 on quiescent devices, a dump prints exactly the last min(N, total) entries of the merged output; whatever the times of the entries are, they are exactly the last entries of what the dump without a tail prints. (A negative tail, which the command line accepts, makes the call loop forever.)", "quantifier": "for every N > 0 and all contents", "why_tests_cant": "All N and contents.", "anchors": ["ulogcat/libulogcat_core.c:process_tail_flush", "ulogcat/libulogcat_core.c:enqueue_render"]}
{"id": "C38", "title": "When a dump stops", "statement": "A dump ends only after every log device that held data when it was opened was asked and found without readable data, and it ends at the latest in the first turn in which nothing is pending and no device is readable. (That it prints only the entries present at opening and then stops is false: the amount left to read is never decreased for log devices, so entries written meanwhile are printed too and a writer that keeps up keeps the dump from ending.)", "quantifier": "for every writer behaviour", "why_tests_cant": "The failing case needs a writer as fast as the reader, forever.", "anchors": ["ulogcat/libulogcat_ulog.c:ulog_receive_entry", "ulogcat/libulogcat_core.c:update_mark_reached"]}
{"id": "C39", "title": "Rendered lines stay inside the render buffer", "statement": "Rendering any entry in any format never touches memory outside the render buffer and the message, and reports a length within the buffer. In text formats the output is the lines of the message, each with its header, cut to the size of the buffer if they do not fit; a binary entry gives no text. In CSV the output is the whole line, or nothing exactly if the line does not fit. Banner lines are never cut beyond the name of the device.", "quantifier": "for every entry with a priority from 0 to 7, every format, colour and label option, every buffer size", "why_tests_cant": "Message contents, line breaks and sizes are arbitrary.", "anchors": ["ulogcat/libulogcat_text.c:text_render_frame", "ulogcat/libulogcat_text.c:print_ulog_line", "ulogcat/libulogcat_text.c:print_log_line_csv"]}
{"id": "C40", "title": "Kernel log records are parsed inside their buffer", "statement": "Receiving and parsing a kernel message record stays inside the received bytes exactly if the record is not made of three fields only; for a record of exactly three fields the code reads one byte behind the buffer (proved). Parsing never grows the text; escapes \\xHH are decoded to the byte they denote; the message is the first line, NUL-terminated, and its length counts the NUL.", "quantifier": "for every record content and size", "why_tests_cant": "Records are arbitrary bytes.", "anchors": ["ulogcat/libulogcat_klog.c:klog_receive_entry", "ulogcat/libulogcat_klog.c:klog_parse_entry"]}
{"id": "C41", "title": "The kernel message daemon logs each line once", "statement": "The daemon logs exactly the lines of the kernel stream, once each and in order, however the stream is cut into reads, as long as each line is shorter than its buffer and the stream has no NUL; its buffer is never overrun, whatever the stream. (Without the condition on NULs it is false: after a NUL no line is logged until the buffer is full, and then all of them are dropped.)", "quantifier": "for every stream without NUL and every way of cutting it", "why_tests_cant": "All cuts.", "anchors": ["kmsgd/kmsgd.c:main"]}
{"id": "C42", "title": "Shared-memory log records", "statement": "A record built for the shared-memory log never exceeds its 256-byte text area, its three parts are contiguous and its last part is NUL-terminated whenever the area is full; the forwarding daemon turns it back into the same thread name, tag, level and message (cut to the area), for every message that does not begin with an escape character. (For a message that begins with another escape sequence than the colours of seven bytes it is false: the daemon removes seven bytes in any case.)", "quantifier": "for every thread name, tag and message", "why_tests_cant": "All lengths.", "anchors": ["ulog_shd/src/ulog.c:ulog_shd_write", "shdlogd/src/shdlogd.c:fill_raw_entry"]}
{"id": "C43", "title": "Shared-memory loss detection", "statement": "The forwarding daemon announces the exact number of lost records when fewer than 32768 consecutive records are lost, announces a loss without count from 32768 to 65535, and never announces a loss when none happened, for one run of the writer. (False across a restart of the writer, where a loss is announced though none happened; and 65536 lost records in a row are not noticed.)", "quantifier": "for every sequence of received record numbers, including wrap-around of the 16-bit counter", "why_tests_cant": "Wrap-around cases.", "anchors": ["shdlogd/src/shdlogd.c:read_samples"]}
{"id": "C44", "title": "Each control request is answered exactly once", "statement": "A client accepts a request only while none is pending, and each accepted request gets one status callback, never more; the pending request is answered at once with an error when the client is stopped or loses the connection, with success when a set message is reported sent or the end of the list arrives. This holds if (a) a message waiting for the connection can be sent, (b) the client is not stopped inside a status callback and (c) the end of a list comes only to a client that asked for it. For one client that connects once to the server of the library (c) needs no assumption. Without (a), (b) or (c) the property is false of the code: the request is forgotten without an answer; a second callback follows the first; the server sends the end of a list to all its clients, and to a client that connected again.", "quantifier": "for every sequence of API calls and connection, send and message events", "why_tests_cant": "All event orders.", "anchors": ["libulogctl/src/ulogctl_cli.c:send_cb", "libulogctl/src/ulogctl_cli.c:decode_list_end_msg", "libulogctl/src/ulogctl_cli.c:ulogctl_cli_stop", "libulogctl/src/ulogctl_srv.c:send_list_end_msg"]}
{"id": "C45", "title": "Remote listing and level setting", "statement": "Listing reports every registered tag except the default one exactly once with its current level, sorted by name; setting all levels gives every registered tag except the default one the clamped level; setting one tag by a name that one registered tag bears gives that tag the clamped level; no tag of another name changes. If several tags bear the name, only the newest changes (a limit of the code).", "quantifier": "for every set of registered tags and levels", "why_tests_cant": "All sets.", "anchors": ["libulogctl/src/ulogctl_srv.c:decode_list_msg", "libulogctl/src/ulogctl_srv.c:decode_set_all_level_msg", "libulogctl/src/ulogctl_cli.c:decode_list_end_msg"]}
{"id": "C46", "title": "Control socket addresses", "statement": "For every process name that the system can report (at most 16 bytes) the client and the server build the same address. It is AF_UNIX followed by the name of the socket, whose first @ stands for NUL (of a name of 108 bytes the last one is NUL). Building the client address of a name reads and writes inside the address storage exactly for names of at most 99 bytes, building the server address of a socket name exactly for names of at most 108 bytes; longer names make the code copy past the end of its storage (false of the code in general).", "quantifier": "for every name", "why_tests_cant": "All lengths.", "anchors": ["libulogctl/src/ulogctl_cli.c:ulogctl_cli_new_proc", "libulogctl/src/ulogctl_srv.c:ulogctl_srv_new_unix", "libulogctl/src/ulogctl_srv.c:ulogctl_srv_new_unix_proc"]}
{"id": "C47", "title": "Syslog mask emulation", "statement": "Setting the mask 'up to level l' (2 <= l <= 7) lets exactly messages of level at most l through to a foreign write function; a mask whose highest bit is k results in the level k clamped to 2..7, and no other tag is changed. If the wrapper has used its tag before, the mask that is returned is the one up to the previous level, and setting it brings that level (if at least 2) back. False cases: the first call returns 0 although the level is 6, and mask 0, which by POSIX only asks for the mask, sets level 2.", "quantifier": "for every 32-bit mask after every sequence of wrapper calls mixed with any other calls of the library", "why_tests_cant": "All masks, histories and previous levels.", "anchors": ["ulogwrapper/ulog_syslog.c:setlogmask", "ulogwrapper/ulog_syslog.c:openlog", "ulogwrapper/ulog_syslog.c:vsyslog"]}
{"id": "C48", "title": "The GStreamer bridge stays inside its buffer", "statement": "If file base name, line and function, joined by colons, take at most 2048 bytes, forwarding a GStreamer message accesses nothing outside the 2048-byte buffer and the text is place, object, colon and message cut to 2047 bytes. If they take more, a pointer behind the buffer is formed (undefined behaviour) whatever object and message are.", "quantifier": "for every file, line, function, object, message and initial content of the buffer", "why_tests_cant": "Lengths are unbounded.", "anchors": ["libulog-redirect/ulog_gst.c:gst_log_func", "libulog-redirect/ulog_gst.c:prettify_object"]}
{"id": "C49", "title": "The Python bridge forwards each message once", "statement": "After a Python logger is bridged with forwarding, a native text message has exactly the native effects that it has without the bridge, and each Python logger that is bridged at that time and enabled for the level gets exactly one record, with the function set to the tag name and the text without line ends at either side; every other logger gets none. False if a logger is bridged without forwarding first and with forwarding later: the bridge then calls itself without end.", "quantifier": "for every earlier use of the library, every sequence of bridging, unbridging and logging calls, every environment and message with a priority below 8", "why_tests_cant": "All sequences of calls, all messages.", "anchors": ["ulogpy/ulog.py:enable_bridge", "ulogpy/ulog.py:_ulog_bridge", "libulog/ulog_write.c:ulog_get_write_func"]}
{"id": "C50", "title": "Copy of messages on stderr", "statement": "With the copy on stderr active, an accepted text message is first passed to the function behind it and then printed as one line: replay time stamp if one was given, level letter (between the escape sequences of its colour if colours are on), tag, colon, the text, and a newline exactly when the text does not end with one; binary messages are not printed.", "quantifier": "for every priority, tag and C string", "why_tests_cant": "All texts.", "anchors": ["libulog/ulog_write.c:__writer_stderr"]}
{"id": "C51", "title": "Choice of the log device", "statement": "The first accepted message after start or after a successful device change opens the node of the device set by call, else the one named by the first 21 characters of ULOG_DEVICE, else ulog_main, and writes priority, tag and bytes to it; if that node cannot be opened the message goes to stderr only. A missing function, hook or name and names of 21 bytes and more are refused with an error and change nothing; without memory the name set by call is forgotten, but the open device stays. (That the whole value of ULOG_DEVICE counts is false: longer values are cut and may name another device.)", "quantifier": "for every sequence of calls and every environment", "why_tests_cant": "All environments and histories.", "anchors": ["libulog/ulog_write.c:__ctrl_init", "libulog/ulog_write.c:ulog_set_log_device"]}
{"id": "C52", "title": "At most one device descriptor is open", "statement": "At any time the library holds at most one open device descriptor other than 0, and descriptor 0 as often as open returned it, so at most one descriptor in all if open never returns 0. (That 0 is ever closed is false.)", "quantifier": "for every sequence of calls and environments", "why_tests_cant": "Leaks show only after particular sequences.", "anchors": ["libulog/ulog_write.c:ulog_set_log_device", "libulog/ulog_write.c:__ctrl_init"]}
{"id": "C53", "title": "Logging always returns", "statement": "For a program that installs its own write functions or ones it queried before, but not the stderr copy while ULOG_STDERR is set, logging a C string never recurses without end nor calls a null function pointer, however the environment changes. The exception is needed: after the stderr copy is installed while ULOG_STDERR is set, every accepted message recurses without end. While ULOG_STDERR stays set or unset throughout, no query returns the stderr copy that way and no exception is needed.", "quantifier": "for every sequence of calls and environments", "why_tests_cant": "All sequences of installations and queries.", "anchors": ["libulog/ulog_write.c:ulog_set_write_func", "libulog/ulog_write.c:ulog_get_write_func", "libulog/ulog_write.c:__writer_stderr"]}
{"id": "C54", "title": "Calls on tags neither deadlock nor run for ever", "statement": "A thread inside a call of the tag functions can always take a step or waits for the lock while the thread holding it can; and no call takes infinitely many steps, whatever the other threads do.", "quantifier": "for every number of threads and every infinite interleaving", "why_tests_cant": "Schedules are unbounded and the list may grow during a walk.", "anchors": ["libulog/ulog_write.c:ulog_init_cookie", "libulog/ulog_write.c:ulog_foreach", "libulog/ulog_write.c:ulog_get_tag_names", "libulog/ulog_write.c:ulog_set_tag_level"]}
{"id": "C55", "title": "Enumerating tags while others register", "statement": "ulog_foreach calls its callback exactly once for each tag registered when it started, in list order, except for the default tag, and for no other tag, even while other threads register tags.", "quantifier": "for every interleaving of any number of threads", "why_tests_cant": "The walk runs without the lock, races decide.", "anchors": ["libulog/ulog_write.c:ulog_foreach", "libulog/ulog_write.c:ulog_init_cookie"]}
{"id": "C56", "title": "A request for a log device means what it says", "statement": "A request to the logs attribute is accepted exactly if its text is white space, a valid name not in use, digits, and anything else, where the name is a whole word or has 15 characters, and the number, cut to 32 bits, is from 14 to 24, fewer than 16 devices exist, and the kernel grants memory and registration; the new device then has that name and two to that number as size. (That the name is always a whole word and the number never cut is false.)", "quantifier": "for every request text in every reachable state", "why_tests_cant": "The failing texts are odd: words of more than 15 characters and numbers above 2^32.", "anchors": ["kernel/ulogger-6.x.c:ulogger_add_log"]}
{"id": "C57", "title": "What failed allocations do to the driver", "statement": "A request dereferences a null pointer exactly if its text is acceptable, the descriptor and the buffer were allocated and the copy of the name was not. Every registered device has a buffer, except ulog_main if its buffer could not be allocated. (That no failed allocation breaks the driver is false.)", "quantifier": "for every request and every combination of allocation failures", "why_tests_cant": "Allocation failures do not happen in tests.", "anchors": ["kernel/ulogger-6.x.c:ulogger_add_log", "kernel/ulogger-6.x.c:ulogger_init"]}
{"id": "C58", "title": "The list of devices is complete and can be written back", "statement": "Reading the logs attribute gives one line per registered device in the order of registration, none cut, all within a page, and each line read as a request stands for the same name and size.", "quantifier": "for every reachable set of devices and every page size of at least 4096", "why_tests_cant": "Sixteen devices with the longest names are needed to come near the limits.", "anchors": ["kernel/ulogger-6.x.c:ulogger_show_logs", "kernel/ulogger-6.x.c:ulogger_add_log"]}
{"id": "C59", "title": "The log viewer neither loses, repeats nor reorders what it received", "statement": "Without a tail, after any number of calls, whatever the devices deliver and when, the entries printed for each device are the entries received from it in the order of reception, except at most one that is still waiting; each device's first entry is preceded by its banner when several devices are open. If output fails, what was printed is a beginning of this.", "quantifier": "for every number of devices, every arrival pattern, every result of poll, read and output, and every sequence of calls", "why_tests_cant": "All arrival patterns and failures.", "anchors": ["ulogcat/libulogcat_core.c:process_devices", "ulogcat/libulogcat_core.c:flush_frame", "ulogcat/libulogcat_core.c:flush_pending_frame", "ulogcat/libulogcat_core.c:output_rendered"]}
{"id": "C60", "title": "When an entry that was read gets printed", "statement": "A turn in which an entry is waiting or a polled device is readable prints an entry if every device read in it delivers text and output works. A turn in which a device read has a binary entry to skip, or fails, prints nothing, whatever waits, and loses nothing. (So that every such turn prints is false: a device with a stream of binary entries keeps the entries of all others from being printed.)", "quantifier": "for every arrival pattern", "why_tests_cant": "The failing case needs a sustained stream of binary entries.", "anchors": ["ulogcat/libulogcat_core.c:process_devices", "ulogcat/libulogcat_ulog.c:ulog_receive_entry"]}
{"id": "C61", "title": "Results of the processing call", "statement": "With a limit on the number of entries, the processing call returns -1 on an error, 0 only for a dump that reached its end, and otherwise the number of entries read in its last turn, from 1 up to the number of devices, after at least as many entries as the limit were read. (That it returns 1 when there may be more work, as documented, is false.)", "quantifier": "for every state, arrival pattern and limit", "why_tests_cant": "All arrival patterns.", "anchors": ["ulogcat/libulogcat_core.c:ulogcat3_process_logs", "ulogcat/ulogcat.c:process_logs"]}
{"id": "C62", "title": "An entry of one line is shown whole", "statement": "A text entry without line breaks, of any size the driver can hold, is rendered with its header and its whole message, whatever the text format, colours and labels. Entries of many lines may be cut: proved with an entry of 400 empty lines.", "quantifier": "for every entry of one line of the sizes the driver allows", "why_tests_cant": "The worst case depends on header sizes, colour strings and message at once.", "anchors": ["ulogcat/libulogcat_text.c:text_render_frame", "ulogcat/libulogcat_text.c:text_render_size", "ulogcat/libulogcat_text.c:print_ulog_line"]}
{"id": "C63", "title": "CSV output can be read back", "statement": "A file of CSV lines as written by ulogcat is read back by an independent reader as exactly the entries written: time, priority, pids, names, tag, colour and payload, also if messages contain commas or line breaks; hexadecimal payloads give back the bytes of binary entries. Text entries of at most 4076 bytes in all and binary entries of up to 2000 bytes with names of up to 900 bytes are always written. Names with commas cannot be read back, and binary entries of more than 2604 bytes are never written: both proved.", "quantifier": "for every sequence of entries whose names have no comma", "why_tests_cant": "It quantifies over all contents of all entries.", "anchors": ["ulogcat/libulogcat_text.c:print_log_line_csv", "ulogcat/libulogcat_text.c:text_render_frame"]}
{"id": "C64", "title": "A kernel message is shown as it was logged", "statement": "For every record in the format of /dev/kmsg (priority, sequence number, time, flags, escaped text, dictionary) ulogcat gets the priority modulo 8, the time in seconds and nanoseconds, and exactly the text that the kernel logged before escaping.", "quantifier": "for every text, priority, time, flags and dictionary", "why_tests_cant": "Texts with any bytes, escaped or not, of any length.", "anchors": ["ulogcat/libulogcat_klog.c:klog_receive_entry", "ulogcat/libulogcat_klog.c:klog_parse_entry"]}
{"id": "C65", "title": "Lines copied by kmsgd get back their priority and time", "statement": "A line `<P>[ S.U] text` in the kmsgd device is shown as `text` with priority P modulo 8 and time S seconds U microseconds; any other line is shown as a suffix of itself with a consistent length and a valid priority. False for binary entries, which any program may write to that device: in CSV format they are taken for text, and one that fills the frame buffer without a null byte is read beyond its end.", "quantifier": "for every line", "why_tests_cant": "Any digits, any spaces, any text; numbers up to the limits of unsigned long.", "anchors": ["ulogcat/libulogcat_klog.c:parse_prefix", "ulogcat/libulogcat_klog.c:parse_timestamp", "ulogcat/libulogcat_klog.c:kmsgd_fix_entry"]}
{"id": "C66", "title": "A context holds exactly the devices asked for", "statement": "ulogcat3_open opens the named devices in order, without kmsgd; with none named it opens exactly the devices registered in the driver in order of registration, without kmsgd; then the kernel device if asked for. A returned context has at least one device, numbered from 0 in order, and exactly their descriptors are open. If it returns NULL, whatever failed, every descriptor it opened has been closed once. If nothing fails a context is returned.", "quantifier": "for every combination of failures of memory, open and ioctl, every list of names, every reachable set of driver devices", "why_tests_cant": "Failures at every point combined with every registry state.", "anchors": ["ulogcat/libulogcat_core.c:ulogcat3_open", "ulogcat/libulogcat_core.c:ulogcat3_close", "ulogcat/libulogcat_ulog.c:add_all_ulog_devices", "ulogcat/libulogcat_ulog.c:add_ulog_device", "ulogcat/libulogcat_klog.c:add_klog_device"]}
{"id": "C67", "title": "How often the output of the caller is closed", "statement": "With the first version of the interface, the output descriptor is closed once for each call of ulogcat_process_logs that fails to open the devices although memory was available, and once more by ulogcat_destroy if one call succeeded; so it is closed exactly once if the first call succeeds, and more than once after failures (proved). Opening and closing a context leaves the descriptors and streams of the process as they were, but for the output: the descriptor given (if not negative) and the stream given are closed, both if both are given, and standard output if neither is; without memory for the context nothing is closed. So the command ulogcat, which gives descriptor 0 and standard output, closes its standard input too. False: a second context with the defaults (it uses standard output after it was closed), and a stream given together with its own descriptor (closed twice).", "quantifier": "for every world of devices, every output and every number of calls", "why_tests_cant": "The second close hits whatever file has the number by then.", "anchors": ["ulogcat/libulogcat_compat.c:ulogcat_process_logs", "ulogcat/libulogcat_compat.c:ulogcat_destroy", "ulogcat/libulogcat_core.c:ulogcat3_close", "ulogcat/libulogcat_core.c:ulogcat3_open", "ulogcat/ulogcat.c:main"]}
{"id": "C68", "title": "Kernel anomalies are announced", "statement": "The kernel message daemon emits one anomaly event for a line that contains the marker of the end of a trace followed by an identifier and a space, right after that line, with exactly that identifier; other lines emit none.", "quantifier": "for every line without NUL", "why_tests_cant": "All lines.", "anchors": ["kmsgd/kmsgd_evt.c:gen_evt"]}
{"id": "C69", "title": "Colours of shared-memory logs", "statement": "A shared-memory message that begins with the escape sequence of a colour loses exactly that sequence and its log entry has that colour, except for cyan, which comes out as yellow (proved).", "quantifier": "for every digit, thread name, tag and message", "why_tests_cant": "All messages.", "anchors": ["shdlogd/src/shdlogd.c:fill_raw_entry", "shdlogd/src/shdlogd.c:shdcolor"]}
{"id": "C70", "title": "A set request reported done was given to the connection", "statement": "A set request is reported as done by the send callback on an open connection exactly if one is pending, and a pending request was given to libpomp since the last answer. Whether libpomp sent it is not looked at: a message that was given up is reported done as well (proved).", "quantifier": "for every sequence of API calls and connection, send and message events", "why_tests_cant": "All event orders and failures.", "anchors": ["libulogctl/src/ulogctl_cli.c:send_cb"]}
{"id": "C71", "title": "A syslog call logs its text once", "statement": "A syslog call passes exactly one message to a foreign write function if its level is not above that of the wrapper's tag, and none otherwise: the level without the facility, the tag name being the identifier given to the first call of the wrapper (none if that was not openlog), the text cut to 255 bytes and a NUL. openlog passes the message `redirecting syslog to ulog` at level 6 if it is told not to delay, and none otherwise. False cases: with ULOGWRAPPER_LONG_LOGS set, a text of 256 bytes or more makes the code use a va_list a second time (undefined behaviour); an identifier given after a first message is ignored.", "quantifier": "for every sequence of wrapper and library calls, priority and text", "why_tests_cant": "All histories and texts; the misuse of va_list often works by chance.", "anchors": ["ulogwrapper/ulog_syslog.c:vsyslog", "ulogwrapper/ulog_syslog.c:openlog"]}
{"id": "C72", "title": "GStreamer levels are respected", "statement": "A GStreamer message gets to the write function exactly if its level is not 'none', is within the threshold of its category and, converted, is at most the level of the tag ulog_gst; it carries the category as tag (APP if there is none). The conversion never makes a more severe message less severe and gives levels from 3 to 7.", "quantifier": "for every level, threshold, tag level and message whose place fits the buffer", "why_tests_cant": "All combinations.", "anchors": ["libulog-redirect/ulog_gst.c:gst_log_func"]}
{"id": "C73", "title": "A C++ stream keeps working", "statement": "A C++ log stream can always be used again. False of the code: after 513 single characters without a flush the stream is bad for good, and nothing that the thread inserts and flushes through it is ever logged.", "quantifier": "for every later sequence of calls of that thread on the stream", "why_tests_cant": "Needs a particular count of single characters, then all continuations.", "anchors": ["libulog/ulog.cpp:Ulogstream::Ulogstream", "libulog/ulog.cpp:sync"]}
{"id": "C74", "title": "The Python bridge takes every message", "statement": "Every message that the library passes on reaches the bridged Python loggers. False of the code: a message whose priority word has more than the level (a binary flag or colour) raises KeyError and reaches no logger, though its native effects stay the same, and data without NUL given as a buffer is read past its end.", "quantifier": "for every priority word of at least 8, every message and every sequence of bridging calls", "why_tests_cant": "All priority words, all texts.", "anchors": ["ulogpy/ulog.py:_ulog_bridge", "ulogpy/ulog.py:_prio_logging_map"]}
{"id": "C75", "title": "A Python record becomes one native message per line", "statement": "A Python record sent to libulog gives one native message for each of its lines, in order, without the line ends (LF, CR or CR LF) and cut at a NUL, all with the priority of the level, or 5 for an event; a level that is none of the five standard ones gives no message.", "quantifier": "for every text and level", "why_tests_cant": "All texts, with every mixture of line ends.", "anchors": ["ulogpy/ulog.py:ULogHandler.emit", "ulogpy/ulog.py:_logging_prio_map"]}
{"id": "C76", "title": "Bridging a logger that sends to libulog ends", "statement": "Handling a native message ends. False of the code: if a bridged logger is enabled for all levels and also sends its records to libulog, each text message comes back to the bridge without end. It ends at once if the logger is not enabled for the level, or the level of the master tag forbids what the handler sends.", "quantifier": "for every message with a level and a text that is not only line ends, at any depth", "why_tests_cant": "An endless recursion is no finite observation.", "anchors": ["ulogpy/ulog.py:_ulog_bridge", "ulogpy/ulog.py:ULogHandler.emit"]}
{"id": "C77", "title": "Throttled Python logs", "statement": "A throttled call logs its text if and only if every earlier logging of the same text through a throttled call is more than the delay ago. When it logs, the numbers of hidden messages that were shown with the text so far, together with the logged ones, are the number of calls. The level plays no role: an error is hidden by an information with the same text.", "quantifier": "for every history of throttled and change calls with a clock that does not go back and no change text equal to the text plus `_throttled`", "why_tests_cant": "All histories and delays.", "anchors": ["ulogpy/ulog.py:LoggerPlus._throttled_log"]}
{"id": "C78", "title": "Python logs on change", "statement": "A change call logs its text if and only if it is the first with this text or the last one with this text had another value. If its text is that of a throttled call plus `_throttled`, the throttled call raises an exception and logs nothing.", "quantifier": "for every history of throttled and change calls", "why_tests_cant": "All histories.", "anchors": ["ulogpy/ulog.py:LoggerPlus._changed_log"]}
{"id": "C79", "title": "Tags of the ThreadX port", "statement": "Once the port is initialised, each tag is registered at most once, a tag has a level other than -1 exactly if it is registered, the level of a registered tag is in 0..7, and tags are never unregistered. Before a successful initialisation no call has any effect. If the mutex cannot be taken while a level is set, the tag gets the level but is never registered, whatever happens afterwards (with working mutex or not).", "quantifier": "for every execution of any number of threads that touch tags, set levels and set levels by name, with every interleaving of their turns", "why_tests_cant": "All interleavings of any number of threads and calls.", "anchors": ["threadx/src/ulog.c:ulog_init_cookie", "threadx/src/ulog.c:ulog_set_level", "threadx/src/ulog.c:ulog_set_tag_level"]}
{"id": "C80", "title": "Levels of the ThreadX port", "statement": "Setting the level of a tag registers it, gives it this level brought into 0..7 and changes no other tag. A tag used for the first time gets the level of the default tag. Setting a level by name acts on the tag of this name registered last and is seen by a following query; it fails with -1 and changes nothing if no tag of this name is registered. The names are listed from the tag registered last on, as many as asked for; without the library ready or its mutex nothing is listed and setting and asking by name give -1. ulog_foreach goes through the registered tags, each once, in that order; it gives -1 and goes through none before the library is ready or without the mutex, -22 without a function. The letters of levels 2 to 7 are those of the Linux version and are read back as these levels; digits mean min(digit, 7).", "quantifier": "for every reachable state, tag, name and level", "why_tests_cant": "All reachable states and all integers as levels.", "anchors": ["threadx/src/ulog.c:ulog_set_level", "threadx/src/ulog.c:ulog_set_tag_level", "threadx/src/ulog.c:ulog_get_tag_level", "threadx/src/ulog.c:ulog_prio2char", "threadx/src/ulog.c:parse_level", "threadx/src/ulog.c:ulog_foreach"]}
{"id": "C81", "title": "Output of the ThreadX port", "statement": "A formatted message of priority p in 0..7 is printed if and only if p is at most the level of its tag (that of the default tag for a tag not yet used), with the letter of the priority, the tag and at most 255 bytes of text. Of the levels 2 to 7 just information has no colour, and no two of the others have the same. False of the code: a message with a priority of 8 or more (a colour or binary flag) that passes the level reads outside the table of letters, and ulog_log_str and ulog_log_buf print nothing.", "quantifier": "for every reachable state, tag, priority and text", "why_tests_cant": "All states, priorities and texts.", "anchors": ["threadx/src/ulog.c:ulog_vlog", "threadx/src/ulog.c:ulog_log_str", "threadx/src/ulog.c:ulog_log_buf"]}
{"id": "C82", "title": "Records of the ThreadX port", "statement": "A record is built without leaving its 256 bytes: the thread name with its NUL, the tag and the message follow each other, what does not fit is cut and a full area ends with a NUL. Its level is that of the priority, or without priority error for a red text and information otherwise. The forwarding daemon on Linux gives back the thread, tag and (cut) text of such a record, if thread and tag fit and the text does not begin with an escape.", "quantifier": "for every thread name, tag, text, priority and number", "why_tests_cant": "All lengths and contents.", "anchors": ["threadx/src/ulog_ctrl.c:ulog_shd_put", "shdlogd/src/shdlogd.c:fill_raw_entry"]}
{"id": "C83", "title": "Loss of records of the ThreadX port", "statement": "Until ulog_amba_shd_init has found a section nothing is stored and messages go to the console; from then on they go to the section only. Messages logged one after the other are all stored, in order, and the daemon announces no loss, however many there are. False of the code with threads at the same time: a message logged by another thread while a record is written is lost with no gap in the numbers, so that the loss is never announced; and two records written at the same time may be stored in the wrong order, for which two losses are announced though nothing is lost.", "quantifier": "for every number of messages and threads; the false cases after any history, for every two threads and messages", "why_tests_cant": "Any number of messages beyond the wrap of the 16 bit number; the races need chosen schedules.", "anchors": ["threadx/src/ulog_ctrl.c:ulog_shd_put", "shdlogd/src/shdlogd.c:read_samples", "threadx/src/ulog_ctrl.c:ulog_amba_shd_init"]}
{"id": "C84", "title": "Receiving an entry from a log device", "statement": "On a file opened by the library, a call that takes an entry never leaves its buffer, at first the 200 bytes of the frame, then 5120 bytes if the entry does not fit, whatever other programs write or read on the device before, between and after its reads. It fails only if the larger buffer is needed and cannot be allocated. It gives no entry only when there was nothing to read. Otherwise it gives exactly the decoded form, time and kind of one committed entry or of one notice of lost entries. The count of bytes left to read is never reduced, contrary to its purpose: the parser's result, 0, overwrites the size read.", "quantifier": "for every history of the device, every interleaving with calls of others, every content of the memory allocated, success or failure of malloc, every output format", "why_tests_cant": "Needs every size of entry with every interleaving between the two reads of one call.", "anchors": ["ulogcat/libulogcat_ulog.c:ulog_receive_entry", "ulogcat/libulogcat_core.c:alloc_frame"]}
{"id": "C85", "title": "What a viewer of a log device receives", "statement": "From any moment of the life of the device, and as long as nobody clears it, the entries that a viewer with the right to see all entries receives are the committed entries in order of commitment, each once, from its place on; where entries were overwritten before it read them, it receives a notice with exactly their number in their place. Only entries followed by more bytes of entries than the size of the ring less 8200 (the longest entry and what a write may need) are ever counted as lost. When a read finds nothing, everything committed so far was received or counted.", "quantifier": "for every history, every number of calls, every interleaving with writers and other readers", "why_tests_cant": "Unbounded sessions and interleavings, with overwriting between any two steps.", "anchors": ["ulogcat/libulogcat_ulog.c:ulog_receive_entry", "kernel/ulogger-6.x.c:ulogger_read"]}
{"id": "C86", "title": "Messages of the shell command", "statement": "ulogger writes each message argument as one entry, in order, with the time of the clock and the process number, name, tag and level of the last valid option of each kind (its own number and name, tag ulogger and level Info without). If all writes succeed it ends with 0, otherwise it stops at the first failing write with its error. Readers decode each stored entry with exactly these values. The number -1 is refused with EINVAL before anything is written; -h and unknown options log nothing. With -s each message is copied as one line to standard error.", "quantifier": "for every list of options and arguments, clock, success or failure of each write, history of the device and reader", "why_tests_cant": "All option lists, numbers and write failures.", "anchors": ["ulogger/ulogger.c:main", "ulogger/ulogger.c:ulogger_log", "ulogger/ulogger.c:parse_level", "ulogger/ulogger.c:parse_int32"]}
{"id": "C87", "title": "Times given to the shell command", "statement": "With -m, a message argument takes the one or two numbers before it as its time; a last argument is always a message. On standard input a line takes its time from a leading number followed by a space and an optional second number. A message without time keeps the time of the one before (at first 0). False of the documentation: after a message with nanoseconds, one with seconds only keeps the nanoseconds of the former (arguments only); and a line that begins with a number not followed by a space loses that number though it gives no time.", "quantifier": "for every list of arguments, every input, every number; the false cases for every number and text of that form", "why_tests_cant": "All combinations of numbers and texts over any number of messages.", "anchors": ["ulogger/ulogger.c:main", "ulogger/ulogger.c:parse_time", "ulogger/ulogger.c:parse_int32"]}
{"id": "C88", "title": "Standard input of the shell command", "statement": "Without message argument ulogger cuts its input after each newline and after each 255 bytes without newline, and logs each piece in order as one entry with its newline (up to the first NUL of the piece); nothing is lost of an input without NUL.", "quantifier": "for every input of any length, options, clock, success or failure of writes", "why_tests_cant": "Inputs of any length and any contents.", "anchors": ["ulogger/ulogger.c:main"]}
{"id": "C89", "title": "Shell command without log device", "statement": "If the device cannot be opened, the messages that would have been written go through the library in the same order and with the same level, and the copies on standard error are the same. The tag asked for with -t is not used, contrary to the intention of the code: it is always ulogger; number, name and time asked for are dropped too.", "quantifier": "for every list of options and arguments, input and clock", "why_tests_cant": "All option lists and inputs, compared between two environments.", "anchors": ["ulogger/ulogger.c:main", "ulogger/ulogger.c:ulogger_log"]}
{"id": "C90", "title": "From committed entries to printed ones", "statement": "A viewer (ulogcat3_process_logs called any number of times, no tail) that reads a log device of the driver as a privileged reader, while others use the device but nobody flushes it: the outcomes of ulog_receive_entry follow the committed entries in order, with the exact number of those lost noted in their place (only entries followed by more bytes of entries than the size of the ring less 8200 are ever lost); what is output of the device are exactly the entries received that can be rendered, in that order, apart from at most one still waiting for older entries of other devices. If output fails it is the beginning of that. Other devices may behave in any way.", "quantifier": "for every number and behaviour of devices, every interleaving of writers and other readers with poll, read and output, every number of calls, and failing memory or output", "why_tests_cant": "Quantifies over unbounded runs of two concurrent programs and the ring state between them.", "anchors": ["ulogcat/libulogcat_core.c:ulogcat3_process_logs", "ulogcat/libulogcat_ulog.c:ulog_receive_entry", "kernel/ulogger-6.x.c:ulogger_read", "kernel/ulogger-6.x.c:ulogger_poll"]}
{"id": "C91", "title": "A finished dump is complete", "statement": "A dump without tail that ends with 0, of a log device nobody flushes meanwhile, has received everything committed to the device before its readable amount was asked for at the opening: each entry in order, or in its place the exact number of those lost. Only entries followed by more bytes of entries than the size of the ring less 8200 are lost. If no output failed, all of it that was delivered and can be rendered has been output, none is left waiting.", "quantifier": "for every log contents and amount, every interleaving of writers, every number and behaviour of other devices", "why_tests_cant": "Quantifies over all contents and all interleavings between two programs and the driver.", "anchors": ["ulogcat/libulogcat_core.c:ulogcat3_process_logs", "ulogcat/libulogcat_core.c:process_devices", "ulogcat/libulogcat_ulog.c:add_ulog_device", "kernel/ulogger-6.x.c:ulogger_poll"]}
{"id": "C92", "title": "Kernel messages a viewer receives from /dev/kmsg", "statement": "Opening /dev/kmsg leaves the viewer at the first message since the last clear. Each call of klog_receive_entry stays inside its buffers; the calls deliver kernel messages in the order logged, each at most once, with their level, time and text, whatever the kernel logs or overwrites meanwhile. A call that delivers nothing leaves the frame as it was or, if the record was too long for it, with a larger buffer, or with none if memory is refused. A message whose record has at most 199 bytes that is next is delivered. If the kernel kept the reader in place when a record does not fit, every message passed would have been delivered or overwritten; this is false on Linux, where the reader is already past the record: a longer message that is next is dropped by the retry with the larger buffer, without any error.", "quantifier": "for every kernel log with records of up to 8191 bytes, every sequence of calls, every logging and overwriting between the calls and between the two reads of a call, and failing memory", "why_tests_cant": "Quantifies over unbounded logs and all interleavings of the kernel with the two reads; the loss shows only for records above a size.", "anchors": ["ulogcat/libulogcat_klog.c:klog_read_entry", "ulogcat/libulogcat_klog.c:klog_receive_entry", "ulogcat/libulogcat_klog.c:add_klog_device"]}
{"id": "C93", "title": "Options of the log viewer command", "statement": "ulogcat ends before opening anything exactly if an option asks for help (status 0) or is unknown or names a format other than short, aligned, process, long and csv (status -1); the first such option decides. Otherwise the last format (aligned if none) and the last number of lines (0 if none) count; dump, clear, colour and label are in effect exactly if given; kernel messages are shown exactly if asked for; log devices are shown if asked for with -u or -b, or if nothing else is. The devices opened are those of the -b options in their order, as long as memory for the list is never refused. If it is refused up to some option and never again, the names up to there are left out silently (all devices are shown if none is left); if it is refused after a success, the list used is a null pointer or has entries never written.", "quantifier": "for every list of options as returned by getopt, and every pattern of refused memory", "why_tests_cant": "Quantifies over unbounded option lists and all patterns of failing allocations.", "anchors": ["ulogcat/ulogcat.c:get_options", "ulogcat/ulogcat.c:parse_log_format"]}
{"id": "C94", "title": "How the log viewer command ends", "statement": "However ulogcat ends after its options, every descriptor of a device it opened has been closed once and the output has been closed once (not at all if there is no memory for the context). The reading loop returns -1, or 0 if it was a dump that reached its end; without -d it never returns 0. With -d, on devices that can be opened and are not written to, ulogcat ends with 0 after printing all entries in the order of C130 (that of time if each device is in the order of time), or the last N with -t N. It is false that every number of lines is accepted: -1 with one empty log never ends, and 2147483647 overflows an int.", "quantifier": "for every option list, every set of devices, descriptors and failures, every contents of logs", "why_tests_cant": "Quantifies over unbounded inputs and all failures of the system, including those that tests cannot provoke.", "anchors": ["ulogcat/ulogcat.c:main", "ulogcat/ulogcat.c:process_logs", "ulogcat/libulogcat_core.c:ulogcat3_open", "ulogcat/libulogcat_core.c:ulogcat3_close"]}
{"id": "C95", "title": "Clearing logs", "statement": "If ulogcat3_clear succeeds, each device was cleared once, in order: log devices by a flush on a descriptor opened for writing and closed again, the kernel log by klogctl. If it fails, there is a first device that could not be cleared; those before it have been, those behind it have not been tried. A flush on such a descriptor is never refused by the driver, whatever other programs do meanwhile. It is false that the log of kmsgd is cleared when kernel messages are read from it: the path opened is /proc/kmsg, never the device.", "quantifier": "for every list of devices, every result of open, flush and klogctl, every interleaving with other programs", "why_tests_cant": "Quantifies over all device lists, failures and interleavings.", "anchors": ["ulogcat/libulogcat_core.c:ulogcat3_clear", "ulogcat/libulogcat_ulog.c:ulog_clear_buffer", "ulogcat/libulogcat_klog.c:klog_clear_buffer", "kernel/ulogger-6.x.c:ulogger_ioctl"]}
{"id": "C96", "title": "The bytes a viewer writes to its output", "statement": "For a stream, the bytes that have reached it are the rendered texts of the banners and entries output so far, in order; after a failure a beginning of one more text follows and then nothing. The same holds for a descriptor whose writes take a line whole or fail, interruptions included. It is false for descriptors that take less: the rest of a line is never written and no error is reported; even if nothing is taken, a dump ends with 0.", "quantifier": "for every world of devices, every sequence of calls, all entries that can be rendered, every contents of the render buffer, every sequence of answers of the output", "why_tests_cant": "Quantifies over all failures and short writes of the output at any point and over unbounded outputs.", "anchors": ["ulogcat/libulogcat_core.c:output_rendered", "ulogcat/libulogcat_core.c:render_frame", "ulogcat/libulogcat_core.c:flush_banner_frame"]}
{"id": "C97", "title": "What ulogcat -d prints, byte for byte", "statement": "On devices that can be opened and are not written to, ulogcat -d ends with 0 after having written exactly the texts of all entries in the order of C130 (that of time if each device is in the order of time), or of the last N with -t N, with a banner before the first entry of each device if there are several devices. In CSV format with one device, what is written is read back to the entries by a reader of the format. This is false with several devices: the banners are printed in CSV format too, and what is written is never a sequence of CSV lines.", "quantifier": "for every option list with -d, every set of devices, every contents of the logs, all entries that can be rendered", "why_tests_cant": "Quantifies over unbounded logs, all interleavings of times and all options.", "anchors": ["ulogcat/ulogcat.c:main", "ulogcat/libulogcat_core.c:ulogcat3_process_logs", "ulogcat/libulogcat_text.c:text_render_frame"]}
{"id": "C98", "title": "From the log to the screen", "statement": "When the viewer reads one ulog device (in the kernel's numbering, without tail) and prints to a standard output stream, the bytes that come out are, as long as no write fails, the texts of the committed entries the reader may see, in commit order, starting at its position; where entries were overwritten before it came to them there is, in their place, the text of one notice entry saying how many are missing. Such entries are always followed by more bytes of entries than the size of the ring less 8200. At most the entry the viewer holds back is not yet printed. A finished dump has printed every entry committed before the viewer asked for the readable amount, or a notice counting it. What is printed for a text logged through libulog's writer is made of this text, cut so that the entry has at most 4076 bytes of payload, and nothing else: its lines, each with the level, tag, names, ids and time of the logging thread and cut at 5248 bytes, or in CSV format its one CSV line (nothing if that is longer than 5248 bytes); the notice is the one line `N log entries dropped` at level W with the device's name as tag. For kmsgd's device (every format but CSV) the first part holds with entries shown as kernel messages.", "quantifier": "for every run of the driver with any writers, readers and operations interleaved with the viewer in any way, every entry, every text, every output format, every answer of the stream", "why_tests_cant": "The chain writer, driver, reading loop, sorting, rendering and output is only right if every length, terminator and position is handed over right; tests look at a few entries and a few interleavings.", "anchors": ["ulogcat/libulogcat_core.c:ulogcat3_process_logs", "ulogcat/libulogcat_text.c:text_render_frame", "ulogcat/libulogcat_ulog.c:ulog_receive_entry", "libulog/ulog_read.c:ulog_parse_buf", "libulog/ulog_write.c:__writer_kernel"]}
{"id": "C99", "title": "The drivers for all kernel versions behave the same", "statement": "For whatever the kernel passes to a write method for a write from user memory (an array of segments for 3.x, a vector iterator for 4.x, a vector iterator or a single buffer for 6.x, each from its beginning and in full, empty segments included), the three drivers store the same bytes, give the same answers and stay inside the ring, so all properties of the driver hold for each of them. With an iterator that has a position, 4.x and 6.x before Linux 6.4 write what is left; this is false for 6.x since Linux 6.4, which writes as many bytes from the beginning of the segment, and for single buffers with any 6.x.", "quantifier": "for every log, every list of calls, every list of segments, every position and count", "why_tests_cant": "A test runs on one kernel version; the equality is for all segment lists and all states of the ring.", "anchors": ["kernel/ulogger-3.x.c:ulogger_aio_write", "kernel/ulogger-4.x.c:ulogger_write_iter", "kernel/ulogger-6.x.c:ulogger_write_iter"]}
{"id": "C100", "title": "Calls of the driver do not deadlock", "statement": "Whatever devices any number of threads open, use, list, add and unload, no lock is held by two of them, and as long as one thread is inside the driver one of them can go on; each step brings the threads nearer to the end. By its minor number the driver finds exactly the registered device. Before Linux 2.6.35, where open looks the device up under the lock of the device list, this is false: a thread that opens a device other than ulog_main and one that adds a device can wait for each other forever.", "quantifier": "for any number of threads, calls and devices and every schedule", "why_tests_cant": "A deadlock needs one particular schedule of two threads.", "anchors": ["kernel/ulogger-6.x.c:ulogger_open", "kernel/ulogger-6.x.c:ulogger_add_log", "kernel/ulogger-6.x.c:ulogger_exit", "kernel/ulogger-3.x.c:get_log_from_minor"]}
{"id": "C101", "title": "Messages of GLib and libobus", "statement": "After ulog_glib_redirect, a message logged with GLib reaches the write function exactly if it has one of GLib's levels and that, translated (error to critical, critical to error, warning, message and info to info, debug), is not above the level of the tag ulog_glib. Its text is never cut. It has the same effect on the log device and on stderr as ulog_log_str on a tag named like its domain, APP without one. The tag made on the stack for it is never registered: whatever is logged, ulog_foreach and ulog_get_tag_names see exactly the tags used by other calls, once each. Before the redirection and without a level nothing happens. A message of libobus is a message of the tag obus with the same distance from the critical level.", "quantifier": "for every sequence of redirections, level changes, messages of GLib and libobus and other calls of libulog, in changing environments, all domains, flags and texts", "why_tests_cant": "A dangling tag would be found only by a later walk over the list of tags, after any sequence of calls; domains and texts are unbounded.", "anchors": ["libulog-redirect/ulog_glib.c:glog_func", "libulog-redirect/ulog_glib.c:ulog_glib_redirect", "libulog-redirect/ulog_obus.c:obus_func", "libulog/ulog_write.c:ulog_init_cookie"]}
{"id": "C102", "title": "Opening a device for raw and binary messages", "statement": "ulog_raw_open returns a descriptor exactly if the device can be opened, is a character device and accepts raw mode; then this descriptor is open in addition and in raw mode. Otherwise it returns a negative error and no descriptor stays open. ulog_bin_open does the same without raw mode. After any sequence of these calls and of closes, successful or not, the open descriptors are those returned and not yet closed. The path is the one given, else the device named by ULOG_DEVICE (ULOG_DEVICE_BIN), else the main one; the name of a device of the driver is never cut. A write interrupted by signals is repeated until it is not, and the first other answer is the result. False of the code: a binary write answered with zero bytes returns the errno of some earlier call as if it had failed; the driver never gives this answer.", "quantifier": "for every environment, every sequence of opens and closes, every device registered with the driver, any number of interruptions", "why_tests_cant": "Leaks appear only after failures at each step in any order; interruptions and sequences of calls are unbounded.", "anchors": ["libulog/ulog_write_raw.c:ulog_raw_open", "libulog/ulog_write_raw.c:ulog_raw_close", "libulog/ulog_write_bin.c:ulog_bin_open", "libulog/ulog_write_bin.c:ulog_bin_close"]}
{"id": "C103", "title": "Running a program with syslog replaced", "statement": "ulogwrapper without arguments ends with 1; otherwise it runs the program with all its arguments, or ends with -1 if it cannot be run. Without a log device the environment is unchanged; with one only LD_PRELOAD and ULOG_NOSYSLOG may change. With a device, if LD_PRELOAD does not contain the path of the replacement and has at most 4064 bytes, the program loads the replacement first, then what it would have loaded, and ULOG_NOSYSLOG is yes. In all cases either the environment is unchanged or the replacement is loaded first. Running ulogwrapper by ulogwrapper changes nothing more. False: for longer values the last name is cut; if the path is only part of another name, the program is run without the replacement.", "quantifier": "for every environment, argument list and set of devices and programs", "why_tests_cant": "Environments and arguments are unbounded; the limits are at one length and one kind of name.", "anchors": ["ulogwrapper/ulogwrapper.c:main"]}
{"id": "C104", "title": "The command ulogctl", "statement": "The first option that cannot be used ends the command with -1, the first request for help with 0; otherwise the options stand for one request: the last tag with the last level, else all tags with the last level, else the list. The status is -1 exactly if options cannot be used or neither address nor process is given, and then nothing is done; otherwise it is 0, even if the request failed. However events are grouped: once connected and handed over, a request to set levels ends the command, sent exactly once and with nothing printed; for a list it prints one line for each tag of the server's process ever used but the default one, with the letter of its level, sorted by name, and a terminal shows the same in colours, red for Critical and Error, then yellow, green, blue and magenta; a lost connection or a signal prints an error. The address for a process is that of its server, unix: and a path of at most 108 bytes that of the server of the socket; memory outside the address is copied exactly for more than 126 bytes. False: without an operation, or if the message cannot be made, the command waits for ever; -t and -a together set one tag to the level given last; longer paths share addresses.", "quantifier": "for every list of options and arguments, every order and grouping of events, every history of the server's process, every socket path", "why_tests_cant": "Options, events and tags are unbounded; the grouping of events depends on timing.", "anchors": ["libulogctl/tool/ulogctl.c:main", "libulogctl/tool/ulogctl.c:parse_addr", "libulogctl/tool/ulogctl.c:request_status_cb", "libulogctl/tool/ulogctl.c:tag_info_cb", "libulogctl/tool/ulogctl.c:char2level", "libulogctl/tool/ulogctl.c:level2char"]}
{"id": "C105", "title": "The linked queues of libulogcat", "statement": "For any number of devices and any tail of at least 0, whatever was in memory before, opening a context and any calls of ulogcat3_process_logs never use a list head as a frame or memory that is not a node, and no walk over a list goes on for ever, whatever the devices deliver and whether or not output works. Afterwards each queue is a ring in both directions, every frame of the pool is in exactly one queue exactly once, and the calls return, output and keep in the queues, in the same order, what the description with lists of values says. alloc_frame returns a frame, whose buffer is its own small one; the extra buffers in use are those of frames in the render and pending queues, and none is freed twice. ulogcat3_close, although it removes each device from its list twice, uses no freed memory, frees each device exactly once and no other node, puts every frame back into the free queue and leaves no extra buffer. A device that could not be opened is taken off the list without harm to the others.", "quantifier": "for every number of devices, every tail of at least 0, every sequence of calls, everything devices, output and memory may do", "why_tests_cant": "The order of frames in the queues depends on timing and on the time stamps of any number of entries; a damaged list often works on for long.", "anchors": ["ulogcat/libulogcat_list.h:list_add_tail", "ulogcat/libulogcat_list.h:list_remove", "ulogcat/libulogcat_core.c:alloc_frame", "ulogcat/libulogcat_core.c:free_frame", "ulogcat/libulogcat_core.c:find_oldest_pending_frame", "ulogcat/libulogcat_core.c:ulogcat3_close", "ulogcat/libulogcat_core.c:log_device_destroy"]}
{"id": "C106", "title": "From the logging calls of programs to the screen", "statement": "Any number of processes log any text messages with ulog_log or ulog_log_str, one call after the other, each with its own environment and tags; then ulogcat dumps the device to a stream that takes everything. If the processes use this device (ULOG_DEVICE names it, or it is the main log and ULOG_DEVICE is not set), it can be opened, ULOG_STDERR is not set, the tags fit an entry, and the messages let through leave 8200 bytes of the buffer free, then no call faults, the dump ends with status 0 after at most one turn more than there are messages, and the bytes on the stream are exactly the lines of the messages let through, in the order of the calls: those whose level is at most the one of ULOG_LEVEL_<tag> in the environment of their process, else of ULOG_LEVEL, else info; with the tag, time, process and thread of the caller, the text of ulog_log cut to 255 bytes, every text cut to the room in an entry, and each line of a text on a line of its own (in CSV format: one CSV line per message). If the messages do not fit the buffer, the dump ends the same way, and the lines of messages are missing only in runs of messages in whose place there is a notice with their exact number; each missing message is followed by more bytes of messages than the size of the buffer less 8200.", "quantifier": "for every number of processes, every environment of each, every sequence of messages of any length, every size and name of the log, every format, every contents of the buffers before", "why_tests_cant": "Processes, environments and messages are unbounded; it is about five programs at once.", "anchors": ["libulog/include/ulog.h:ulog_log", "libulog/ulog_write.c:ulog_log_str", "libulog/ulog_write.c:ulog_init_cookie", "libulog/ulog_write.c:__ctrl_init", "libulog/ulog_write.c:__writer_kernel", "kernel/ulogger-6.x.c:ulogger_write_iter", "kernel/ulogger-6.x.c:ulogger_read", "ulogcat/libulogcat_ulog.c:ulog_receive_entry", "ulogcat/libulogcat_core.c:ulogcat3_process_logs", "ulogcat/libulogcat_text.c:text_render_frame"]}
{"id": "C107", "title": "Errno and event macros", "statement": "ULOG_ERRNO_RETURN_IF, _ERR_IF and _VAL_IF evaluate the condition once and do nothing else if it is false. Otherwise the error is evaluated once, right after it, one message of level error with function, line, number and text of the error is logged, and the function returns: with _ERR_IF the negation of that error, whatever logging does to errno. Function, line, message, number and text can be told from a message that is not cut, and kind, type and parameters from an event of ULOG_EVT or ULOG_EVTS, which are notices. Arguments of a message that its tag's level forbids are not evaluated; others are evaluated with the errno of before, also if the call initialises the tag. ULOG_BIN sets the binary flag and keeps level and colour. False: _VAL_IF evaluates the value after logging, so with -errno it returns whatever errno is then, not the error it logged; _ERR_IF has no value to return for the least int.", "quantifier": "for every expression with any side effects, every state of library and program, everything logging may do to errno, every text", "why_tests_cant": "Expressions and states are unbounded; errno changes only if writing to the device fails.", "anchors": ["libulog/include/ulog.h:ULOG_PRI_ERRNO", "libulog/include/ulog.h:ULOG_ERRNO_RETURN_IF", "libulog/include/ulog.h:ULOG_ERRNO_RETURN_ERR_IF", "libulog/include/ulog.h:ULOG_ERRNO_RETURN_VAL_IF", "libulog/include/ulog.h:ULOG_EVT", "libulog/include/ulog.h:ULOG_EVTS", "libulog/include/ulog.h:ULOG_BIN", "libulog/include/ulog.h:ulog_log", "libulog/ulog_write.c:ulog_init_cookie"]}
{"id": "C108", "title": "std::cerr redirected to the log", "statement": "After ulog_stdcerr_redirect, each output operation on std::cerr logs one message at the level of its stream, with the tag of the thread: what the thread has inserted into any stream and not flushed yet, then the text, 512 bytes at most; it logs nothing if both are empty. Used alone, each piece inserted is a message of its own, and single characters, and so the ends of lines by std::endl, are not logged. The stream never turns bad, however many characters are put into it. False: text waiting in a stream of another level is logged at the level of std::cerr.", "quantifier": "for every sequence of operations on std::cerr, other streams and tags by any number of threads", "why_tests_cant": "Operations and threads are unbounded.", "anchors": ["libulog-redirect/ulog_stdcerr.cpp:ulog_stdcerr_redirect", "libulog/ulog.cpp:Ulogstream::xsputn", "libulog/ulog.cpp:Ulogstream::sync", "libulog/ulog.cpp:UlogstreamCerr"]}
{"id": "C109", "title": "Colours of the viewer", "statement": "With ULOGCAT_COLORS a list of words separated by bars, the escape sequence of level i is made of word number i: none if that word is absent or empty, otherwise ESC [ word m cut to 31 bytes; without the variable the built-in list is used; if it cannot be copied no level has a colour. All stores stay in the arrays whatever the variable holds, and every sequence is terminated. A coloured line is the sequence of its level, the line as printed without colours, and the reset sequence. A word of more than 28 bytes loses its final m: the sequence is then not complete.", "quantifier": "for every value of ULOGCAT_COLORS, every contents of the context before, every entry and format", "why_tests_cant": "The environment may hold any string of any length.", "anchors": ["ulogcat/libulogcat_text.c:setup_colors", "ulogcat/libulogcat_text.c:text_render_frame"]}
{"id": "C110", "title": "From the kernel's messages to the screen", "statement": "The kernel hands its messages to kmsgd in pieces of any sizes; kmsgd logs the lines through libulog into its device, whose driver stores them; ulogcat dumps this device to a stream that takes everything. If the messages have no line breaks and at most 3900 bytes and leave room in the buffer, and the levels in kmsgd's environment let them through, then nothing faults, kmsgd ends with nothing left over, and the bytes on the stream are exactly one line per message, in order, with the tag KERNEL, the level (priority modulo 8) and time given by the kernel, and the text; after each message with an end-of-trace marker of an oops, panic or warning there is one more line, for the event that kmsgd raises. False for binary entries in CSV format (see C65).", "quantifier": "for every number of messages, every text, priority and time, every cut of the stream into reads, every size and name of the log, every format but CSV, every contents of the buffers before", "why_tests_cant": "Six programs take part, each with its own framing of a line; tests of one do not see what the next makes of it.", "anchors": ["kmsgd/kmsgd.c:main", "kmsgd/kmsgd_evt.c:gen_evt", "libulog/ulog_write.c:ulog_log_str", "kernel/ulogger-6.x.c:ulogger_write_iter", "kernel/ulogger-6.x.c:ulogger_read", "ulogcat/libulogcat_ulog.c:ulog_parse_kmsgd_entry", "ulogcat/libulogcat_klog.c:kmsgd_fix_entry", "ulogcat/libulogcat_text.c:text_render_frame"]}
{"id": "C111", "title": "From the shell command to the screen", "statement": "Runs of the command ulogger and calls of ulog_log and ulog_log_str in any number of processes follow each other in any order on one device; then ulogcat dumps it to a stream that takes everything. If the conditions of C106 hold for the processes, the options of each command let it run, its process number is not -1 and its names fit an entry, and all leaves 8200 bytes of the buffer free, then nothing faults, the driver refuses no call, the dump ends with status 0 after at most one turn more than there are messages, and the bytes on the stream are exactly the lines of the messages, in order: those of the programs as in C106; those of a command one per argument or line of input (or piece of 255 bytes), with the level, tag, name and process number of the options and the time of the clock or, with -m, the time given before the message.", "quantifier": "for every sequence of commands and calls, every options, arguments and input of each command, every environment of each process, every size and name of the log, every output format, every contents of the buffers before", "why_tests_cant": "The command uses the raw mode of the driver, in which it makes the header itself, beside programs for which the driver makes it; tests of one side do not see the other, and command lines and inputs are unbounded.", "anchors": ["ulogger/ulogger.c:main", "ulogger/ulogger.c:ulogger_log", "libulog/ulog_write_raw.c:ulog_raw_open", "libulog/ulog_write_raw.c:ulog_raw_log", "libulog/ulog_write.c:ulog_log_str", "kernel/ulogger-6.x.c:ulogger_write_iter", "kernel/ulogger-6.x.c:ulogger_read", "ulogcat/libulogcat_core.c:ulogcat3_process_logs", "ulogcat/libulogcat_text.c:text_render_frame"]}
{"id": "C112", "title": "Shared-memory logs over time", "statement": "A writer logs through shared memory, samples are overwritten, and the forwarding daemon shdlogd reads, in any order and any number of times. If the tags fit a record, time does not go backwards and libshdata finds and reads what is there, nothing faults; each call of ulog_shd_write stores exactly one record with the next number, and messages that libshdata logs meanwhile store none; the daemon writes to the log only messages that were logged, in their order, none twice, each with the configured process name, process 0, the thread, the time, the level and colour, the tag and the text cut to the record; after each it announces how many were lost before it (exactly below 32768, modulo 65536); a message passed over was overwritten or has the time of an earlier one that was forwarded. If libshdata finds no sample, nothing is written and the position stays; the failure is reported unless it is ENOENT or EAGAIN, and ENODEV opens the section again. If nothing is overwritten and all times differ, each reading forwards all that are left, 2048 at most, and no loss is ever announced. (False if two messages have the same time and a reading comes between them: the second is never forwarded; false if shd_read_quantity fails: the result is overwritten, and records of the last reading are written again with the new times.)", "quantifier": "for every sequence of messages, overwritings and readings, every time and contents of messages, every nesting of messages logged by libshdata, every contents of the memory before", "why_tests_cant": "The position in the section is kept as a time and the losses as a 16-bit number; faults need equal times, exact batches or thousands of records between two readings.", "anchors": ["ulog_shd/src/ulog.c:ulog_shd_write", "ulog_shd/src/ulog.c:ulog_shd_init", "shdlogd/src/shdlogd.c:read_samples", "shdlogd/src/shdlogd.c:fill_raw_entry", "shdlogd/src/shdlogd.c:main"]}
{"id": "C113", "title": "From the shared memory to the screen", "statement": "A writer logs text messages through shared memory, the daemon shdlogd reads and forwards them, and programs log with libulog before, during and after that, in any order. If no call fails, the tags fit, time does not go backwards and the log has room for all, then every call of the driver succeeds and the viewer's dump shows, each once and in the order in which they reached the device: each forwarded message with the process name of the daemon's configuration, its thread, level, tag and text (cut to the record, the colour at its start turned into the entry's colour), each announcement of lost messages as an error of the daemon, and each message of a program let through by its level; nothing else, in every format of the viewer. (False for a message that begins with an escape and of which exactly six bytes are kept: it is shown as <<zero-length>> without names, tag, level and text.)", "quantifier": "for every sequence of messages, overwritings and readings, every interleaving with messages of any number of processes, every format of the viewer and size of the log", "why_tests_cant": "The text passes five programs with different limits; faults show only for special lengths, colours, interleavings or losses.", "anchors": ["ulog_shd/src/ulog.c:ulog_shd_write", "shdlogd/src/shdlogd.c:read_samples", "shdlogd/src/shdlogd.c:fill_raw_entry", "libulog/ulog_write_raw.c:ulog_raw_log", "kernel/ulogger-6.x.c:ulogger_write_iter", "libulog/ulog_read.c:ulog_parse_buf", "ulogcat/libulogcat_text.c:text_render_frame"]}
{"id": "C114", "title": "Levels set at run time, locally or by remote control, decide what is on the screen", "statement": "Processes log through libulog, set levels of their tags (ulog_set_level, ulog_set_tag_level) and serve requests of libulogctl clients, in any order; then the viewer dumps the device. If there is room, no call fails and the screen shows exactly the messages let through, in order: a tag has from its first use the level of the environment, else that of the default tag if that was used before, else 6; a call or request gives it a level clamped to 0..7 that holds until the next one for that tag; other processes and tags are not affected. The server itself logs with tag ulogctl: a debug message for each connection and disconnection, an error for a request that names a tag never used in that process. Without room, notices replace old messages. (False: a request to set all levels reaches the default tag or tags first used later; a request that names a tag reaches all tags of that name: only the latest.)", "quantifier": "for any number of processes, all sequences of messages, level calls, connections and requests, all levels, environments, formats and sizes of the log", "why_tests_cant": "What is shown depends on the whole history of levels, order of first use and environment of each process.", "anchors": ["libulog/ulog_write.c:ulog_set_level", "libulog/ulog_write.c:ulog_set_tag_level", "libulog/ulog_write.c:ulog_init_cookie", "libulogctl/src/ulogctl_srv.c:decode_set_tag_level_msg", "libulogctl/src/ulogctl_srv.c:decode_set_all_level_msg", "libulogctl/src/ulogctl_srv.c:event_cb", "kernel/ulogger-6.x.c:ulogger_write_iter", "ulogcat/libulogcat_text.c:text_render_frame"]}
{"id": "C115", "title": "What a printed line tells", "statement": "From a line that the viewer prints without colours in the short, aligned, process or long format, a reader that knows only the layout gets back the label (U or K), the level as one of C E W N I D or a blank, the tag, the text and, except in the short format and on kernel devices, the name of the process and, if the message is from another thread, that of the thread, in the long format also their numbers, the date and the milliseconds; so lines of different fields differ. With a tag of at most 12 bytes and short names, texts begin in a fixed column of the format. This holds for tags that do not end with a space and have no colon (no parenthesis where processes are shown), names without slash and closing parenthesis that together with the tag fit 127 bytes, and a valid time. (False otherwise: a name with a slash looks like a thread; after a tag of 127 bytes names are lost; levels 0 and 1 look the same.)", "quantifier": "for all levels, tags, names, numbers, times, texts and formats meeting the conditions", "why_tests_cant": "Separators and padding can be confused only by particular tags, names and lengths.", "anchors": ["ulogcat/libulogcat_text.c:print_ulog_line", "ulogcat/libulogcat_text.c:print_klog_line", "ulogcat/libulogcat_text.c:print_log_line"]}
{"id": "C116", "title": "The life of a control server", "statement": "Whatever libpomp answers to any sequence of starts and stops of a new server: a start returns -EBUSY if the server is started, else 0 or libpomp's error; a stop returns 0 if it is not started, else libpomp's answer; libpomp is asked to listen only when the server is not started and to stop only when it is, in turns; and if no stop of the context fails, the server counts as started just when its context listens. ulogctl_srv_new hands out a server just when there is a loop, memory and a context, then returning 0, and otherwise keeps nothing allocated. The example server takes the last socket given, else the last port other than -1, else the name of the process; it exits with 0, or with -1 if an unknown option precedes any request for help; if what takes away succeeds, it uses only what exists, wherever it fails, and leaves nothing behind; its timer fires only while the server listens; and each firing logs the messages whose level is at most that of its tag, numbered by firings. (False: ulogctl_srv_new reports success without a server if libpomp gives no context; a failed stop counts as done, and the next start asks a listening context to listen; ulogctl_srv_destroy frees the server also if the context stays; the exit status does not tell whether the example served.)", "quantifier": "for all sequences of calls, answers of libpomp, options, levels and numbers of firings", "why_tests_cant": "The error paths depend on answers of libpomp that tests do not produce, in any order.", "anchors": ["libulogctl/src/ulogctl_srv.c:ulogctl_srv_new", "libulogctl/src/ulogctl_srv.c:ulogctl_srv_start", "libulogctl/src/ulogctl_srv.c:ulogctl_srv_stop", "libulogctl/src/ulogctl_srv.c:ulogctl_srv_destroy", "libulogctl/examples/ulogctl-srv.c:main"]}
{"id": "C117", "title": "Shell scripts to the screen", "statement": "Any number of shell scripts that use ulog_api.sh and programs that log through libulog use one device in any order, and then ulogcat dumps it; if all fits in the device, no operation fails and the screen shows exactly what was logged, in order. Of a message given to ulogc, uloge, ulogw, ulogn, ulogi or ulogd, the first write of the shell's printf is shown with the level of the function (2 to 7), the tag that the script assigned last or else (shell script), and the script's process, and each further write as text without level and tag; so a shell that writes all at once has the message shown exactly as ulog_log_str of a C program would, byte for byte and with the same room in the log. Sourcing the file sends standard output and error to the device, where each write is shown as Info text less its last byte, unless ULOG_STDERR or ULOG_NO_REDIRECT_STD is y; with ULOG_STDERR=y a message without % and backslash is also printed to the script's own standard error after the letter of its level. (False: a message of several lines keeps its level and tag in a shell that writes by line; a level of 10 or more is refused or shown, 8 and 9 are shown as 0 and 1; output without a newline at the end is shown whole; a message with % is printed to the console as it is logged.)", "quantifier": "for all scripts, programs, interleavings of whole calls, tags, messages, shells and formats of the viewer", "why_tests_cant": "The outcome depends on how the shell splits its output into writes, on the order of scripts and programs, and on all strings.", "anchors": ["libulog/ulog_api.sh:ulog", "libulog/ulog_api.sh:uloge", "kernel/ulogger-6.x.c:ulogger_write_iter", "libulog/ulog_read.c:ulog_parse_payload"]}
{"id": "C118", "title": "The writer under several threads", "statement": "Any number of threads send messages, set the log device, install write functions and ask for the current one, in any interleaving of the single accesses and system calls, while the rest of the program opens and closes its own descriptors. Every message is delivered exactly once: to the kernel writer, to a function the program installed, or to nobody if a device could not be opened; a copy is printed to stderr exactly if ULOG_STDERR is set or nobody got the message, and it is not binary. A message written by a call that no ulog_set_log_device overlaps goes to a device: the one opened last, with no successful ulog_set_log_device since, hence the one set last if none of these calls ran out of memory. The device is opened at most once, and once more per change, however many threads send the first message together; the only descriptors of devices are the current one and perhaps 0. ulog_get_write_func never gives NULL or the initial function, and no null pointer is called. The thread that has the lock is never stuck and gives it back after at most seven steps; there is no deadlock. (False: a message goes to a device even if a change of the device overlaps the call: it can be written to a file of the program that got the same descriptor, or be lost; a device opened as descriptor 0 is closed when another is set; a failed ulog_set_log_device changes nothing.)", "quantifier": "for all numbers of threads, calls, interleavings, results of open, strdup and writev, and settings of the environment", "why_tests_cant": "The races need a switch of threads between two particular instructions; tests see a few schedules out of unboundedly many.", "anchors": ["libulog/ulog_write.c:__ctrl_init", "libulog/ulog_write.c:__writer_init", "libulog/ulog_write.c:__writer_kernel", "libulog/ulog_write.c:ulog_set_log_device", "libulog/ulog_write.c:ulog_set_write_func", "libulog/ulog_write.c:ulog_get_write_func"]}
{"id": "C119", "title": "Several devices on one screen", "statement": "Programs log through libulog to several devices, and the messages let through by their levels fit each device's buffer; then ulogcat dumps all the devices together. Then no call faults, the dump ends with status 0, and its output is exactly the lines of all messages let through, each message once, each device's messages in the order logged, and in the order of their times if the clock did not go back between the messages of a device (else one is shown after a later one only if one of its own device, shown no sooner, is as late); before the first message of each device a line names the device, if there are several. With -t N it is the same for exactly the last N messages of that order. The order and so every byte is determined, equal times included. The same holds for entries written in any other way: those of which nothing is shown (binary data in the text formats) are left out and not counted. With -v csv this is said for messages whose line fits the buffer of a line.", "quantifier": "for all numbers of devices, programs, messages, buffer sizes, formats and N", "why_tests_cant": "The merge depends on every combination of contents and times of all devices, on how often each is polled and on what is pending; a test has a few files.", "anchors": ["ulogcat/libulogcat_core.c:process_devices", "ulogcat/libulogcat_core.c:process_tail_flush", "ulogcat/libulogcat_core.c:flush_banner_frame", "libulog/ulog_write.c:__writer_kernel", "kernel/ulogger-6.x.c:ulogger_read"]}
{"id": "C120", "title": "The devices of the driver do not act on each other", "statement": "In any sequence of calls on the whole driver (requests for new devices, the list of devices, opening a device by name, and all calls on open files, of any number of devices), no call faults, hangs or is answered by the wrong device: the calls on the files of a device, from its creation on, with their results, are exactly a run of one device alone of its name and size, whatever is done on the others meanwhile, so everything said of one device (C01-C14, C16) holds for each. Two drivers on which the same calls are made on a device of the same name and size give the same results there, whatever else was called. A file belongs to the one device it was opened on until it is closed, and its number may then be used on another; calls on other numbers are refused. A new device is empty, and devices stay with their sizes and in their order. (Needs memory for the name of a new device, see C57.)", "quantifier": "for all sequences of calls, devices, files and contents of fresh memory", "why_tests_cant": "Interference would show only for particular orders of calls on particular devices; there are unboundedly many.", "anchors": ["kernel/ulogger-6.x.c:ulogger_open", "kernel/ulogger-6.x.c:ulogger_add_log", "kernel/ulogger-6.x.c:ulogger_release", "kernel/ulogger-6.x.c:ulogger_show_logs", "kernel/ulogger-6.x.c:ulogger_init"]}
{"id": "C121", "title": "Where messages go on Android and Windows", "statement": "In a program built for Android that finds no log device and installs no write function, a text message at a level not above that of its tag is given to the log of Android exactly once, with the name of its tag and its whole text, and with the priority fatal, error, warning, information, information or debug for critical, error, warning, notice, information and debug messages, so a more severe message never gets a lower priority; it is also copied to stderr exactly if ULOG_STDERR is set. In the build for Windows, which looks for no device, each such message appears exactly once, on stderr. Binary messages, refused ones and calls that log nothing send nothing anywhere and open nothing. No call goes wrong, in whatever order and with whatever changes of levels, devices and time stamps. The build for Linux differs from these in the choice of the writer only. False for levels 0 and 1 on Android, which get the lowest priority, and for texts without end given to ulog_log_buf, which are read past their end.", "quantifier": "for all sequences of calls, tags, texts, priorities, environments and all three builds", "why_tests_cant": "The builds for Android and Windows are not run by tests on Linux, and the order of calls, levels and environments is unbounded.", "anchors": ["libulog/ulog_write_android.c:ulog_writer_android", "libulog/ulog_write.c:__ctrl_init", "libulog/ulog_write.c:__writer_stderr", "libulog/ulog_common.h:ulog_is_android"]}
{"id": "C122", "title": "Python records on a device of their own, up to the screen", "statement": "A device handler takes the name of its device with or without /dev/ulog_ in front. If the device is there it is used as it is; if not and the name is up to ten small letters, it is made with 128 KiB. No other device is changed, at most one is added, and the handler is made only if the path of its device is there. It writes raw entries exactly if that was asked for and the device can do it, else plain entries, and keeps only the descriptor it writes to open. Every record of the five levels is written line by line in order with severity critical, error, warning, information or debug. With any number of processes logging to the same device in between, and as long as the log has room, the screen shows each line of each record and each message once, in the order of writing, with the process, thread, names and time given in the record if entries are raw and those of the writing task if not. Records of other levels raise KeyError and write nothing. False: a name with a space makes another device of another size and then fails; with process and thread number -1 every line is dropped silently; a name of the current thread that is not ASCII moves the fields, so an error is shown as critical with a tag without its first two letters.", "quantifier": "for all names, device tables, environments, records, texts, interleavings with all sequences of messages of all processes", "why_tests_cant": "The interleavings, texts and names are unbounded, and the handler needs the driver, which tests of the Python package do not have.", "anchors": ["ulogpy/ulog.py:ULogDeviceHandler", "libulog/ulog_write_raw.c:ulog_raw_log", "kernel/ulogger-6.x.c:ulogger_write_iter"]}
{"id": "C123", "title": "Python programs set up by setup_logging, up to the screen", "statement": "Processes log to one device from Python after setup_logging, from C, or both in one process, in any order, then the viewer dumps it. Every record of a level that its logger takes (debug only if ULOG_LEVEL is D, unless the logger has a level of its own) is shown line by line with severity critical, error, warning, information or debug, as notice if its text begins with EVT:, under the name of its logger, if the level of the tag ulog_py allows it, and once for each call of setup_logging before. An uncaught exception of the main thread is logged as error of root, with its traceback, and ends the program with status 1; KeyboardInterrupt is not logged. The thread that calls setup_logging, and threads it starts later, have the first 15 bytes of the given name; a longer name is warned about. No call faults, the driver refuses none, records of other levels raise KeyError. With room in the log the screen shows exactly these lines and those of the messages from C, in the order of the calls. False: exceptions of other threads are not logged, those of callbacks do not end the program, ULOG_LEVEL=7 shows debug messages of C but no debug records, and setup_logging in another thread does not name the process.", "quantifier": "for all processes, threads, names, environments, records, texts and all interleavings of them with messages from C", "why_tests_cant": "The interleavings, texts and environments are unbounded, and what is shown depends on Python, libulog, the driver and the viewer together.", "anchors": ["ulogpy/ulog.py:setup_logging", "ulogpy/ulog.py:ULogHandler", "libulog/ulog_write.c:ulog_log_str", "libulog/ulog_write.c:ulog_init_cookie"]}
{"id": "C124", "title": "The driver in memory, from loading to unloading", "statement": "The module is loaded and unloaded any number of times; in between devices are added and listed, opened, used and closed in any order, and each kmalloc or vmalloc may fail. No call touches memory that is not there, takes a structure for one of another kind, frees twice or leaves a list of readers that does not come back. While loaded, the memory of the driver is exactly three pieces for each device (structure, name, buffer) and one for each file open for reading. Calls have the results of the driver of C120. Unloading is refused exactly while a file is open; after it no memory, device, attribute or file is left, and the module can be loaded again. Loading succeeds for sizes 14 to 24 if it is granted all, opening fails for want of memory only for reading and then changes nothing. False: if misc_register fails while loading, the buffer of ulog_main leaks; if device_create_file fails, ulog_main stays registered and opening it touches memory of the module that is gone; without memory for a name the null pointer is read; without memory for the buffer of ulog_main loading succeeds and the first message is an access through the null pointer.", "quantifier": "for all sequences of calls, all addresses the kernel may give, and all failures of allocations other than the false cases", "why_tests_cant": "Leaks and stale pointers show only for particular orders of opening, failing, closing and unloading, which are unbounded, and a test of them would crash the kernel.", "anchors": ["kernel/ulogger-6.x.c:ulogger_init", "kernel/ulogger-6.x.c:ulogger_exit", "kernel/ulogger-6.x.c:delete_log", "kernel/ulogger-6.x.c:ulogger_add_log", "kernel/ulogger-6.x.c:ulogger_open", "kernel/ulogger-6.x.c:ulogger_release"]}
{"id": "C125", "title": "Threads that log to shared memory", "statement": "Any number of threads log while others do, while ulog_shd_init runs, fails and is called again, and from within shd_write. As long as ulog_shd_init is not called while it runs or after it returned 0: no uninitialised mutex is locked, no mutex is unlocked by a thread that does not hold it and nothing is written without a section; what a thread logs once ulog_shd_init has returned 0, outside of shd_write, is in the section exactly once and in order; what is logged from within shd_write is never there; samples are numbered 1, 2, 3, ... modulo 65536 in the order in which they are in the section; a thread waits for nothing but the mutex, and who holds it frees it within six steps of its own. ulog_shd_init returns 0 if the four functions it calls succeed, else minus the error of the first that failed, and then the writer, the mutex and the flag are as before. False: if ulog_shd_init is called again while a thread writes, a message from within shd_write is stored; a message logged between the setting of the writer and the setting of the flag is stored nowhere; where the mutex cannot be made the section stays, and calling again makes another.", "quantifier": "for all numbers of threads, all interleavings, all messages and all failures of the functions called", "why_tests_cant": "Interleavings of threads and nested calls are unbounded, and a lost message or a number given twice shows only in particular ones.", "anchors": ["ulog_shd/src/ulog.c:ulog_shd_write", "ulog_shd/src/ulog.c:ulog_shd_init"]}
{"id": "C126", "title": "Requests by number", "statement": "The driver knows the requests 44565 to 44571 and no others: any other number is refused with EINVAL. On an open file a request is refused with EBADF if the file lacks the mode it needs, then with EPERM if it needs a privilege the caller lacks, then with EFAULT if its argument cannot be read, then with EINVAL if the int there is not one it takes (1 or 2 for the version, 0 or 1 for raw mode); and then nothing has changed. Otherwise the result is the size of the device for 44565, less than that size for 44566, at most 4100 for 44567, 1 or 2 for 44569, and 0 for the rest. No request adds a message.", "quantifier": "for all sequences of calls, all open files, all request numbers and all arguments", "why_tests_cant": "There are 2^32 request numbers and 2^32 values, and the result depends on the state the earlier calls left.", "anchors": ["kernel/ulogger-6.x.c:ulogger_ioctl", "kernel/ulogger-6.x.c:ulogger_set_version", "kernel/ulogger-6.x.c:ulogger_set_raw_mode", "libulog/include/ulogger.h:ULOGGER_GET_LOG_BUF_SIZE"]}
{"id": "C127", "title": "ThreadX threads logging to shared memory at the same time", "statement": "Threads call ulog_shd_put while others are in it, and the write of a record may call it again. However they are preempted, no message is stored twice and none both stored and dropped; when all calls have returned each message was stored or dropped, and messages are taken again. A message is dropped only while a record is being written. No call waits for another: it returns after at most six steps of its own thread. If no two threads are in index++ at once, the records stored have the numbers 1, 2, 3, ... modulo 65536, each once. With a single thread messages are stored in order and only those logged by the write itself are dropped. False: without the condition two records can get the same number, and a thread preempted in index++ sets the numbers back however many messages were stored meanwhile; with two threads the flag does not keep the write of a record from logging, to any depth.", "quantifier": "for every number of threads and calls and every interleaving", "why_tests_cant": "The windows are a few instructions wide and the interleavings unbounded.", "anchors": ["threadx/src/ulog_ctrl.c:ulog_shd_put", "threadx/src/ulog_ctrl.c:ulog_amba_shd_init"]}
{"id": "C128", "title": "A thread waiting in poll is woken for every entry", "statement": "Threads poll any number of files of any number of ulog devices while others write, read, poll, open and close. A thread asleep in poll that has something to read in one of the files it polls is already marked to run, or a writer that committed to that device is about to wake it; that wake-up reaches every thread asleep on a readable file of the device. Once woken it looks at all files again and, if the others do nothing meanwhile, returns with data within 2n+2 steps if one of the n files has an entry for it, and otherwise goes back to sleep. Called with an entry there it does not sleep. Poll reports data only if in this call, with the mutex held, it saw an entry for the caller. A thread outside of poll is on no wait queue, and no call gets stuck other than a poll at the end of each of its logs.", "quantifier": "for every set of devices, files, threads and calls and every interleaving of the steps of poll and write", "why_tests_cant": "A lost wake-up needs a write in the window between the test and the sleep.", "anchors": ["kernel/ulogger-6.x.c:ulogger_poll", "kernel/ulogger-6.x.c:ulogger_write_iter"]}
{"id": "C129", "title": "Order and time stamps of writes at the same time", "statement": "Threads write to one device at the same time; the clock and the raw mode of the file are read before the mutex is taken. As long as no program sets the raw mode of a file while it is written to, everything that happens is what the same calls do one after the other in the order in which they had the mutex, with the same results, and the log has the entries of the writes in this order. A write returning before another is called comes first and its time is not later, so the entries of one thread are in the order of their times. No write faults, even if raw mode is set meanwhile. False: entries are in the order of their times (an entry can come after any number of later ones); and if raw mode is set while a write is under way the outcome may be that of no order of the calls.", "quantifier": "for every number of threads and calls, every interleaving and every course of the clock", "why_tests_cant": "It takes a preemption between reading the clock and taking the mutex.", "anchors": ["kernel/ulogger-6.x.c:ulogger_write_iter", "kernel/ulogger-6.x.c:ulogger_set_raw_mode"]}
{"id": "C130", "title": "The order of a dump, whatever the times are", "statement": "A dump of devices that nobody writes to ends with 0 whatever the times of the entries are, equal or going back. The entries come out by turns: the first of each device stand in a line in the order of the devices; the one with the smallest time leaves, among equal ones that in front, and the next of its device goes to the end of the line. So the order is determined, with a tail of N exactly its last N are printed, each device's entries keep their order, and an entry is printed after a later one only if an entry of its own device, printed no sooner than the later one, is as late. If each device is in the order of time then all is. False: only neighbours are out of order (an entry can be printed after any number of later ones of another device).", "quantifier": "for every number of devices, every contents with any times, every tail", "why_tests_cant": "It needs times that go back or are equal, which tests with a real clock do not have.", "anchors": ["ulogcat/libulogcat_core.c:process_devices", "ulogcat/libulogcat_core.c:ulogcat3_process_logs"]}
{"id": "C131", "title": "The first version of the viewer's interface", "statement": "However a handle of ulogcat_create is used: ulogcat_create gives one exactly if memory is granted and none of the options for binary output, sizes and rotation is set. If ulogcat_add_device was never refused memory and the names given are still there when the devices are first opened, processing follows no bad pointer (only a tail of more than 2147483646 minus the number of devices is undefined; one below minus that number minus 1 makes the call return -1 without a context, any other keeps one), and the devices opened are those given, in order, as often as given, without kmsgd; if there is none but kmsgd, all registered ones in the order of registration without kmsgd. A device added after the context was made is not opened, though the call returns 0. With the option to dump, the first call that can open the devices returns 0 after printing all entries in the order of C130, or the last N; a call that returns 0 has read every device up to where it ended when opened. Without it (and without that to clear) a call that returns gives -1. With the option to clear, each call clears the devices in order until that fails and prints nothing. After ulogcat_destroy the descriptors held are those held before, the output was closed once if there was a context and at most once more for each call that returned -1. One array is lost for each refusal of memory right after a success, none else. False: a refusal after a success is harmless (processing then uses a null pointer as the array of names); after a further success it is (entries never written are used as names); names can be thrown away after the call; a failed call leaves the output open (it is closed, though a later call can succeed and print to it).", "quantifier": "for every sequence of calls on a handle, every outcome of the allocations and of the system calls, every contents of the devices", "why_tests_cant": "Refused memory, names that change between the calls and devices that appear late are not in tests, and a print to a closed descriptor goes unnoticed.", "anchors": ["ulogcat/libulogcat_compat.c:ulogcat_create", "ulogcat/libulogcat_compat.c:ulogcat_add_device", "ulogcat/libulogcat_compat.c:ulogcat_process_logs", "ulogcat/libulogcat_compat.c:ulogcat_destroy"]}
{"id": "C132", "title": "The program shdlogd, from its arguments to its end", "statement": "shdlogd with help or a bad option prints its usage once for each of them, does nothing else and ends with 0. Else the last arguments given for the period (as a 32-bit number), the section and the device count, by default 50 ms, \"ulog\" and the default device. If something fails before the first reading, that is reported, no sample is looked for and the status is 1. What it writes to the log and announces is exactly what the readings of C112 do one after the other, beginning with the oldest sample, with the process name of the last -n or \"rtos\". Once it reads it ends only after a signal or after ENODEV from shd_end_read; errors of the loop, of a reading or of opening the section again do not end it; a signal always does. However it ends, the loop, the timer, the device, the section and both arrays have been released if they were obtained, none twice, and samples were only looked for in the section open at the time. If the section can always be opened again, no null pointer is used as a section. If it is stopped after the first success, be it at once, and all waits of the loop succeed, the status is 0. False: a stop by a signal gives 0 (it gives 1 before the first message, and if the wait it interrupts returns an error); a section that cannot be opened again is left alone (a null pointer is given to shd_select_samples, and to shd_close if that answers ENODEV).", "quantifier": "for all arguments, all outcomes of the libraries and allocations, any number of readings and waits with any results, and signals at any time", "why_tests_cant": "It needs failures of each call in turn, a section that goes away, and signals at given points.", "anchors": ["shdlogd/src/shdlogd.c:main", "shdlogd/src/shdlogd.c:parse_opts", "shdlogd/src/shdlogd.c:read_samples", "shdlogd/src/shdlogd.c:on_signal"]}
{"id": "C133", "title": "From the calls of programs to the output of the command ulogcat -d", "statement": "On a machine with logs registered by any requests, any processes log text messages through libulog, each to the log its ULOG_DEVICE names (the main log by default), and the messages let through by the levels in their environments leave 8200 bytes of each log free. Then ulogcat -d with any other options but -k and -c ends with status 0. It has opened exactly the logs named by -b in their order (kmsgd left out) or, if none is named, those the driver lists in the order of registration but that of kmsgd, and it has closed them. It has written exactly the lines, in the format of the last -v, coloured and labelled as the options say, of the messages let through, each once, in the order of C119, or the last N of them with -t N; and before the first of each log a line with its path, if there are several. If a log named by -b cannot be opened, the command ends with -1 and has shown nothing. With -v csv this is said for messages whose line fits the buffer of a line.", "quantifier": "for all sets of registered logs, sizes, processes, environments, messages, options and N", "why_tests_cant": "It is about five programs at once, with unbounded numbers of processes, messages and options.", "anchors": ["ulogcat/ulogcat.c:main", "ulogcat/libulogcat_ulog.c:add_all_ulog_devices", "ulogcat/libulogcat_core.c:ulogcat3_open", "ulogcat/libulogcat_core.c:ulogcat3_process_logs", "libulog/ulog_write.c:__writer_kernel", "kernel/ulogger-6.x.c:ulogger_show_logs"]}
{"id": "C134", "title": "The memory of the control client and server", "statement": "From ulogctl_cli_new to ulogctl_cli_destroy, whatever the user calls (also inside callbacks) and libpomp reports, a client uses and gives back only memory in use, each block once. What stays in use after its end is exactly: the name of every tag ever received, the array of tags if one was received since the last list, the message if a request is pending, and the context if libpomp keeps it; a client that is stopped has no message. If it is not started inside the callback of its stop, its context is asked to connect only after it was asked to stop, and a stopped client has asked it to stop. ulogctl_cli_new gives a client exactly if nothing fails, and else an error with nothing left but a context that libpomp keeps; it touches memory outside the address exactly for addresses of more than 128 bytes or more than was given. A list of one tag is sorted without a look at its name. A server that is asked for a list makes one message for each tag and one for the end, as far as they can be made, uses it exactly if it could be encoded, gives every message back and keeps for ever the name of each request to set one tag. (False: after a tag that cannot be read a null pointer is compared or handed to the user; a client destroyed inside a callback, or while libpomp keeps its context, is used afterwards; started inside the callback of its stop it waits for a connection that was given up, and to start it again is refused.)", "quantifier": "for all sequences of calls, callbacks and answers of libpomp, all sorts, all addresses, all sequences of messages to a server", "why_tests_cant": "Failures of memory and of libpomp at any point, and calls inside callbacks.", "anchors": ["libulogctl/src/ulogctl_cli.c:ulogctl_cli_new", "libulogctl/src/ulogctl_cli.c:ulogctl_cli_destroy", "libulogctl/src/ulogctl_cli.c:ulogctl_cli_list", "libulogctl/src/ulogctl_cli.c:decode_tag_info_msg", "libulogctl/src/ulogctl_cli.c:decode_list_end_msg", "libulogctl/src/ulogctl_srv.c:decode_set_tag_level_msg"]}
{"id": "C135", "title": "What is shown of logs that overflowed", "statement": "Any processes log through libulog, however much, and then ulogcat dumps any number of logs (from the library's calls, and as the command ulogcat -d with any options but -k and -c). No call faults, the dump ends with 0, and the bytes written are determined: per log the lines of exactly the messages its ring still holds, before them a line with the exact number of those dropped if any, at the time of the oldest kept, all logs by turns, the last T records with -t T, and a banner before the first of each log. A ring keeps the newest messages, less than its size, all if that is less, and always the newest that take its size less 8200 bytes. If writes fail halfway the same holds, with a number of lost entries that were each followed by more than that. With -v csv this is said for messages whose line fits the buffer of a line.", "quantifier": "for all numbers of logs, ring sizes, programs, messages, environments, looks and tails", "why_tests_cant": "The exact loss depends on every length logged before and on the merge of all logs.", "anchors": ["kernel/ulogger-6.x.c:fix_up_readers", "kernel/ulogger-6.x.c:ulogger_read", "ulogcat/libulogcat_core.c:process_devices", "ulogcat/libulogcat_core.c:process_tail_flush", "ulogcat/libulogcat_core.c:flush_banner_frame", "libulog/ulog_write.c:__writer_kernel"]}
{"id": "C136", "title": "Following several logs while others write to them", "statement": "A viewer follows or dumps any number of log devices, without a tail, by any number of calls of ulogcat3_process_logs, while others do to the devices whatever they like except flush them. Calls always come to an end. On a stream that takes everything the bytes are texts of the devices in turn, with a banner before the first of each device if there are several. Those of each device are the texts of its committed entries in order, from the place its reader started at, each once, with a notice in the place of entries that were lost because the ring was overwritten; at most one entry per device is received and not yet shown. A dump that ends with 0 has shown, of each device, everything that was committed when its size was asked for.", "quantifier": "for all numbers of devices, ring sizes, looks, calls and interleavings of others' operations before each operation of the viewer", "why_tests_cant": "The place of every write relative to every poll and to both critical sections of every read of every device matters.", "anchors": ["ulogcat/libulogcat_core.c:process_devices", "ulogcat/libulogcat_core.c:ulogcat3_process_logs", "ulogcat/libulogcat_core.c:flush_banner_frame", "ulogcat/libulogcat_ulog.c:ulog_receive_entry", "kernel/ulogger-6.x.c:ulogger_read", "kernel/ulogger-6.x.c:ulogger_poll"]}
{"id": "C137", "title": "The order of entries while following several devices", "statement": "A viewer follows several devices without a tail. Take any moment between two turns of the loop, any entry e output after it and any log device that nobody flushes. Then of the entries that were committed to that device at that moment, either all were dealt with before e (shown, lost, or not to be shown), or the next one delivered is not older than e. So if the times in the log of the device do not go back, no entry committed at that moment is shown after a later one that is shown from then on: an entry is shown after a later one of another device only if it was committed after the turn of the later one began. (That entries are shown in the order of their times while following is false.)", "quantifier": "for all numbers of devices, calls, moments and interleavings of others' operations; the other devices may be anything", "why_tests_cant": "Whether an entry is overtaken depends on the place of its commit relative to each poll of each turn.", "anchors": ["ulogcat/libulogcat_core.c:process_devices", "ulogcat/libulogcat_core.c:ulogcat3_process_logs", "kernel/ulogger-6.x.c:ulogger_poll", "kernel/ulogger-6.x.c:ulogger_read"]}
{"id": "C138", "title": "From the calls of programs to the screen of a viewer that follows", "statement": "Programs log messages with the logging calls of the library to several devices, while a viewer that has opened them reads; the driver calls made for the messages are mixed with those of the viewer in any way. At any time the screen shows of each device the messages let through that were logged so far, from the first up to some place, in order, each once, except that in the place of some of them there is a notice with exactly their number, and a message is only missing if it and the later ones, together with 8200 bytes, are more than the ring holds. If the ring has room for all messages and 8200 bytes the part of the screen of the device is exactly the lines of these messages. A call of the loop with enough turns sees all that is logged and shows everything to the last message. A dump shows at least all messages that were logged before the devices were asked for their amount.", "quantifier": "for all numbers of devices and programs, environments, tags, messages, divisions of the driver calls among the turns of the viewer, formats and earlier calls of the loop", "why_tests_cant": "Every division of the programs' driver calls among the polls and reads of the viewer is covered, with rings that overflow at any of these points.", "anchors": ["ulogcat/libulogcat_core.c:process_devices", "ulogcat/libulogcat_core.c:ulogcat3_process_logs", "libulog/ulog_write.c:ulog_log_str", "libulog/ulog_write.c:__writer_kernel", "ulogcat/libulogcat_ulog.c:ulog_receive_entry", "kernel/ulogger-6.x.c:ulogger_read", "kernel/ulogger-6.x.c:ulogger_write_iter"]}
{"id": "C139", "title": "A tail while others write", "statement": "ulogcat3_process_logs with a tail of T > 0 lines is compared with itself without a tail, in the same surroundings: devices may be written to while they are read, times may go backwards, polls may be interrupted and reads may fail; only the output always succeeds. A dump with the tail reads the same, returns the same and outputs exactly the last T of the entries that the dump without a tail outputs, if the marks are reached, and nothing else. While following at most T + 1 devices, any calls read the same; nothing is output before the marks are reached, and from then on exactly what is output without a tail but for its first k entries, with k fixed when the marks are reached so that the entries output then and those still pending are T, or all if there are fewer. On a stream that takes everything the bytes are, in both runs, the lines of these entries with the banners that they need, the first one printed with a tail included. From programs that log through libulog and the driver to the screen: what the viewer with a tail prints is the end of the lines of C138, all those of each device in order from the first message on. It is false for more devices: with three devices and a tail of one, an older entry can come after a newer one that it precedes without a tail.", "quantifier": "for every number of devices, tail, marks, number and limits of calls, and every behaviour of polling and reading", "why_tests_cant": "The two runs are compared for all interleavings with writers and all numbers of devices and lines; a test sees one timing.", "anchors": ["ulogcat/libulogcat_core.c:process_devices", "ulogcat/libulogcat_core.c:ulogcat3_process_logs", "ulogcat/libulogcat_core.c:flush_pending_queue", "ulogcat/libulogcat_core.c:process_tail_flush"]}
{"id": "C140", "title": "The command ulogcat while programs log", "statement": "On a machine whose logs were registered by any requests, programs log through libulog, by any interleaving of their calls of the driver with those of the command, and the command writes to a stream that takes everything. ulogcat with any valid options but -d, -c and -k opens exactly the logs to be shown and never ends, whatever the number of turns of its loop. Without -t it has always written, in the format asked for and with a banner whenever the log changes if there are several, the lines of the messages of each log from the first on, but for messages overwritten before they were read, in place of which a line with their number is shown, and all of them if they fit the log. With -t T and at most T + 1 logs it has written nothing before the marks are reached, and from then on this but for its first entries. With enough turns the marks are reached, everything said has been read and shown, and with -t T at least the last T entries are on the screen, or all if there are fewer. ulogcat -d in the same surroundings always ends if it has enough turns, with 0 and every descriptor closed; it has written the lines of at least all that was said before the logs were opened, or of the last T entries with -t T.", "quantifier": "for every machine, number of logs, options, programs, messages, interleaving with the calls of the programs, and number of turns", "why_tests_cant": "That the command never ends, and that it shows each message exactly once whatever the interleaving, are statements about all timings and all lengths of runs.", "anchors": ["ulogcat/ulogcat.c:main", "ulogcat/ulogcat.c:process_logs", "ulogcat/libulogcat_core.c:ulogcat3_process_logs", "ulogcat/libulogcat_core.c:process_devices"]}
{"id": "C141", "title": "What the arguments of the commands say", "statement": "A grammar after the manual pages says which lines of arguments ulogcat, ulogger and shdlogd take and which options and operands each means: letters alone or several after one dash, the argument of an option glued to it or in the next word, long names in full or shortened as far as one name begins so, with the argument after = or in the next word, operands between options, and -- after which everything is an operand. Every line that the grammar explains is read as it says, whatever the words are; so the explanation is unique. A line that it does not explain is refused: ulogcat exits with -1, or 0 after -h, and has opened nothing; ulogger logs nothing; shdlogd prints its usage and ends. ulogger logs the operands, each as one message, in order. A library that stops at the first operand reads a line without operands in the same way. False: ulogcat main chooses the log main (operands are ignored without a word, and with a library that stops at operands so are the options behind them); ulogger logs a message that begins with a dash (the line is refused unless the message comes after --).", "quantifier": "for every list of arguments, of any words, and both ways of the C library", "why_tests_cant": "There are endlessly many lines and ways to write the same options; that no line outside the grammar is taken is a statement about all of them.", "anchors": ["ulogcat/ulogcat.c:get_options", "ulogger/ulogger.c:main", "shdlogd/src/shdlogd.c:parse_opts"]}
{"id": "C142", "title": "What the arguments of ulogctl say", "statement": "The grammar of C141 with one more word after a tag, the level, which the program takes from argv[optind] itself, says which lines of arguments ulogctl takes. Every line that it explains is read as it says: the options with their tags and levels in order, and the address as first operand, wherever it stands among the options, between a tag with its level and the next option too. A line that it does not explain ends the command with -1, or 0 after -h, and nothing was connected, sent or printed as a tag. A line with levels that are known and an address or process that fits makes the request its options stand for. False with a library that stops at the first operand: an address before the options makes them all operands, so that no request is made.", "quantifier": "for every list of arguments, of any words, and both ways of the C library", "why_tests_cant": "The program and getopt_long both move optind; that no line makes them lose or repeat a word is a statement about all lines.", "anchors": ["libulogctl/tool/ulogctl.c:main", "libulogctl/tool/ulogctl.c:usage"]}
{"id": "C143", "title": "A session on the shell, from the words typed to the screen", "statement": "On a machine with logs registered by any requests, programs log text messages through libulog and commands ulogger are typed, in any order on each log. Each command is given any words; one whose words the grammar of C141 does not explain, or that asks for help, adds nothing to its log. What is logged leaves 8200 bytes of each log free. Then ulogcat is typed with any words that mean -d and neither -k nor -c. It ends with status 0, has opened exactly the logs its words choose and closed them, and has written exactly the lines of the messages of the programs let through and of the messages the commands stand for, each once, in the order of C119, or the last N of all with -t N, with a banner before the first of each log if there are several. A message of a command is shown with the tag, priority and names its words give and at the time of its -m or of the clock. There is only one such order, and each log keeps its own. With -v csv this is said for messages whose line fits the buffer of a line.", "quantifier": "for all sets of registered logs, processes, environments, messages, lines of words, inputs, clocks, options and N, and both ways of getopt_long", "why_tests_cant": "Four programs and the driver take part, with unbounded numbers of logs, messages, commands and words.", "anchors": ["ulogger/ulogger.c:main", "ulogcat/ulogcat.c:main", "ulogcat/libulogcat_core.c:ulogcat3_process_logs", "libulog/ulog_write_raw.c:ulog_raw_logv", "libulog/ulog_write.c:__writer_kernel"]}
{"id": "C144", "title": "What the arguments of the example ulogctl-srv say", "statement": "The grammar of C141 with the options of its usage says which lines of arguments the example server takes. A line it explains, without -h, makes the server its words stand for: the last socket given, wherever it stands and whatever else is given; else the last port, if its word begins with a number of an int other than -1; else that of the process with -p; else none. With -h the program ends with 0, and a line that the grammar does not explain ends it with -1, or with 0 after -h, before anything is made. False: that a port has to be a number (a word that begins with none is port 0, so that the system chooses), and that -i always makes a server (-1 and 4294967295 make none).", "quantifier": "for every list of arguments, of any words, both ways of the C library, and all answers of libpomp", "why_tests_cant": "It is about all lines of words, with every bundling, abbreviation and order of the options.", "anchors": ["libulogctl/examples/ulogctl-srv.c:main", "libulogctl/examples/ulogctl-srv.c:usage"]}
{"id": "C145", "title": "All programs agree on the log that ULOG_DEVICE names", "statement": "For every log that the driver can have and every value of ULOG_DEVICE, or none: a program that logs with libulog and has set no device, one that calls ulog_raw_open(NULL), the command ulogger and ulogwrapper form the path of this log exactly if its name is ulog_ followed by the value (by main if there is none); and so does ulogcat -b with the value. No value names two logs, and one of more than ten bytes names none. The command ulogger opens the log named, in raw mode, if that can be opened. False: that the paths are always the same (for a value of more than 21 bytes ulogger opens another path than libulog, as they cut it at different lengths; neither is a log of the driver).", "quantifier": "for every history of the registration of logs, every log registered, every value of the variable, and all answers of the system", "why_tests_cant": "Tests try a few short names; it is about all names the driver takes and all values, with five buffers of three sizes.", "anchors": ["ulogger/ulogger.c:main", "libulog/ulog_write.c:__ctrl_init", "libulog/ulog_write_raw.c:ulog_raw_open", "ulogwrapper/ulogwrapper.c:main", "ulogcat/libulogcat_ulog.c:add_ulog_device"]}
