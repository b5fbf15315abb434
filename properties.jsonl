{"id": "C01", "title": "Size::round is the least multiple not below its argument", "statement": "For a Size whose unit is a power of two, round(len) returns the smallest multiple of the unit that is at least len, whenever len + unit fits in usize.", "quantifier": "every power-of-two unit, every len for which len+unit is representable, 32- and 64-bit targets, debug and release builds", "why_tests_cant": "The domain is every usize (and every power-of-two unit); tests sample a handful of values around 4096.", "anchors": ["src/lib.rs:Size::round", "src/lib.rs:Size::truncate"]}
{"id": "C02", "title": "Size::truncate and Size::offset split an address", "statement": "For a power-of-two unit, truncate(len) is the largest multiple of the unit not above len, offset(len) is smaller than the unit, and truncate(len) + offset(len) = len; neither call ever panics.", "quantifier": "every power-of-two unit and every len in usize", "why_tests_cant": "The domain is every usize (and every power-of-two unit); tests sample a handful of values around 4096.", "anchors": ["src/lib.rs:Size::truncate", "src/lib.rs:Size::offset"]}
{"id": "C03", "title": "Size::count and Size::size convert between bytes and units", "statement": "count(len) is the number of units needed to hold len bytes and size(count) is count times the unit, so size(count(len)) = round(len), as long as the results are representable (u32 count, usize bytes).", "quantifier": "every power-of-two unit, every len/count with representable results", "why_tests_cant": "The domain is every usize (and every power-of-two unit); tests sample a handful of values around 4096.", "anchors": ["src/lib.rs:Size::count", "src/lib.rs:Size::size"]}
{"id": "C04", "title": "Rounding never silently shrinks a request", "statement": "Size::round never returns a value below its argument: either it returns at least len or it panics.", "quantifier": "every power-of-two unit, every len in usize including values near usize::MAX, debug and release builds", "why_tests_cant": "The failing points are a unit-sized sliver at the very top of a 2^64 domain and depend on the build profile.", "anchors": ["src/lib.rs:Size::round"]}
{"id": "C05", "title": "Size::bounds is the smallest enclosing page range", "statement": "bounds(ptr, len) returns a unit-aligned pointer p and a multiple-of-unit length n such that [p, p+n) contains [ptr, ptr+len), and no smaller aligned range does, as long as the range is not empty, does not run past the end of the address space and does not begin in its first unit (one that ends with the very last byte: not in its first two units).", "quantifier": "every power-of-two unit, every pointer and length, debug and release builds", "why_tests_cant": "The domain is every usize (and every power-of-two unit); tests sample a handful of values around 4096.", "anchors": ["src/lib.rs:Size::bounds"]}
{"id": "C06", "title": "Cached page and allocation sizes are right under every schedule", "statement": "Every call of page_size() and allocation_size() returns the system's page size and allocation granularity, no matter how many threads call them at once, how their steps interleave, or which previously stored value each relaxed load observes.", "quantifier": "every number of threads, every interleaving of their loads and stores, every choice of the value a relaxed load returns", "why_tests_cant": "Schedules and relaxed-memory reorderings cannot be enumerated by running threads.", "anchors": ["src/lib.rs:page_size", "src/lib.rs:allocation_size", "src/lib.rs:load_system_info"]}
{"id": "C07", "title": "Ring is a bounded FIFO byte queue", "statement": "For any sequence of write, read, consume, clear, fill_buf/as_read_slice and length queries on a Ring, every returned byte, count and slice equals what a plain bounded FIFO queue of the ring's capacity returns, and no call faults or panics.", "quantifier": "every capacity, every finite history of calls with every argument, as long as fewer than 2^64 bytes (2^usize bits if the capacity does not divide it) have passed through since the last clear", "why_tests_cant": "It must hold after every finite history of calls with every argument; a test runs one history. Wrap-around happens at every alignment of the two positions.", "anchors": ["src/io/ring.rs:Ring", "src/io/mod.rs:SeqRead", "src/io/mod.rs:SeqWrite"]}
{"id": "C08", "title": "Ring lengths always add up", "statement": "At every moment read_len() + write_len() = write_capacity(), is_empty() is read_len()==0, is_full() is write_len()==0, and write_capacity() never changes.", "quantifier": "every history of calls on a Ring in which fewer than 2^64 bytes pass through, as in C07", "why_tests_cant": "It must hold after every finite history of calls with every argument; a test runs one history.", "anchors": ["src/io/ring.rs:Ring::read_len", "src/io/ring.rs:Ring::write_len", "src/io/ring.rs:Ring::write_capacity"]}
{"id": "C09", "title": "Ring slices are contiguous, mapped and self-disjoint", "statement": "as_read_slice and as_write_slice always designate one contiguous address range inside the ring's double mapping; the addresses in one slice designate pairwise different bytes of memory; and the read slice and the write slice of a Ring share no byte of memory.", "quantifier": "every reachable ring state, every max argument", "why_tests_cant": "Positions take every value modulo the capacity; an out-of-range slice is undefined behaviour that a test need not notice.", "anchors": ["src/io/mod.rs:SeqRead::as_read_slice", "src/io/mod.rs:SeqWrite::as_write_slice", "src/io/ring.rs:Ring"]}
{"id": "C10", "title": "Ring writes never touch unread bytes", "statement": "write(buf) on a Ring stores exactly min(buf.len(), write_len()) leading bytes of buf, returns that number, and leaves all unread bytes and all memory outside the ring unchanged.", "quantifier": "every reachable ring state, every buffer", "why_tests_cant": "It must hold after every finite history of calls with every argument; a test runs one history.", "anchors": ["src/io/mod.rs:SeqWrite::write_into", "src/io/ring.rs:Ring"]}
{"id": "C11", "title": "Ring consume and feed clamp any argument", "statement": "consume(n) discards exactly min(n, read_len()) bytes and feed(n) exposes exactly min(n, write_len()) bytes for every usize n including usize::MAX; positions never cross.", "quantifier": "every reachable ring state, every usize n", "why_tests_cant": "Every usize argument in every state.", "anchors": ["src/io/ring.rs:Ring::consume", "src/io/ring.rs:Ring::feed"]}
{"id": "C12", "title": "Feeding publishes exactly what was placed in the write slice", "statement": "Writing into a Ring's write slice does not change the readable bytes, and a following feed(n) appends exactly the first min(n, write_len()) bytes of the write slice to the readable bytes.", "quantifier": "every reachable ring state, every data placed in the slice, every n", "why_tests_cant": "It must hold after every finite history of calls with every argument; a test runs one history.", "anchors": ["src/io/mod.rs:SeqWrite::as_write_slice", "src/io/ring.rs:Ring::feed"]}
{"id": "C13", "title": "Ring::clear empties the ring and nothing else", "statement": "After clear() the ring is empty with full write space, the bytes stored in its memory are unmodified, and it behaves as a new ring.", "quantifier": "every reachable ring state", "why_tests_cant": "It must hold after every finite history of calls with every argument; a test runs one history.", "anchors": ["src/io/ring.rs:Ring::clear"]}
{"id": "C14", "title": "write_all on a Ring succeeds exactly when the data fits", "statement": "write_all(buf) (and write!) on a Ring returns Ok exactly when buf.len() <= write_len() and then appends all of buf; otherwise it returns a WriteZero error after filling the ring with the leading write_len() bytes of buf.", "quantifier": "every reachable ring state, every buffer", "why_tests_cant": "It must hold after every finite history of calls with every argument; a test runs one history.", "anchors": ["src/io/ring.rs:Write for Ring", "src/io/mod.rs:SeqWrite::write_into"]}
{"id": "C15", "title": "Ring::new capacity", "statement": "Ring::new(hint) and InfiniteRing::new(hint), when they succeed, have a capacity that is the least multiple of the allocation granularity not below hint, are empty, and have all-zero memory; a hint of 0 is an error.", "quantifier": "every hint, every kernel state, every outcome of every system call", "why_tests_cant": "Every hint and every combination of system-call outcomes.", "anchors": ["src/io/ring.rs:Ring::new", "src/io/ring.rs:InfiniteRing::new", "src/os/unix/posix/mod.rs:map_ring"]}
{"id": "C16", "title": "Ring keeps FIFO order for ever on 32-bit targets", "statement": "On a 32-bit target a Ring keeps behaving as a FIFO queue after more than 4 GiB have passed through it, whatever its capacity.", "quantifier": "every capacity and every history on a 32-bit target", "why_tests_cant": "The failing history needs more than 2^32 bytes through a ring whose capacity is not a power of two.", "anchors": ["src/io/ring.rs:Ring::read_offset", "src/io/ring.rs:Ring::write_offset"]}
{"id": "C17", "title": "read_exact, read_until and read_to_end on a Ring", "statement": "On a Ring read_exact(n) returns the next n bytes or, when fewer are readable, UnexpectedEof; read_until(d) returns the readable bytes up to and including the first d, or all of them; read_to_end returns all; each consumes exactly what it returns.", "quantifier": "every reachable ring state, every n and delimiter", "why_tests_cant": "It must hold after every finite history of calls with every argument; a test runs one history.", "anchors": ["src/io/ring.rs:BufRead for Ring", "src/io/ring.rs:Read for Ring"]}
{"id": "C18", "title": "The bytes::Buf and BufMut views of a Ring are complete", "statement": "chunk() is always all remaining() bytes and chunk_mut() is always all remaining_mut() bytes (a single chunk); put_slice appends its argument exactly when it fits, copy_to_slice returns the next bytes exactly when there are enough, otherwise they panic.", "quantifier": "every reachable ring state, every argument", "why_tests_cant": "It must hold after every finite history of calls with every argument; a test runs one history.", "anchors": ["src/io/bytes.rs:Buf for Ring", "src/io/bytes.rs:BufMut for Ring"]}
{"id": "C19", "title": "InfiniteRing holds the most recent bytes", "statement": "After any sequence of write, write_all, read, consume on an InfiniteRing, the readable bytes are what a queue that appends and then evicts its oldest bytes beyond the capacity would hold, and every read returns that queue's front.", "quantifier": "every capacity and every finite history of calls in which fewer than 2^64 bytes pass through, as in C07", "why_tests_cant": "It must hold after every finite history of calls with every argument; a test runs one history.", "anchors": ["src/io/ring.rs:InfiniteRing"]}
{"id": "C20", "title": "InfiniteRing::write_all never fails and keeps the tail", "statement": "write_all(buf) always returns Ok and afterwards the readable bytes are the last capacity() bytes of (old readable bytes followed by all of buf).", "quantifier": "every reachable state, every buffer including ones longer than the capacity", "why_tests_cant": "It must hold after every finite history of calls with every argument; a test runs one history.", "anchors": ["src/io/ring.rs:InfiniteRing::write_all"]}
{"id": "C21", "title": "InfiniteRing::write is a short write of the head", "statement": "write(buf) returns min(buf.len(), capacity) and appends exactly that leading part of buf, evicting the oldest bytes.", "quantifier": "every reachable state, every buffer", "why_tests_cant": "It must hold after every finite history of calls with every argument; a test runs one history.", "anchors": ["src/io/mod.rs:SeqWrite::write_into", "src/io/ring.rs:InfiniteRing::feed"]}
{"id": "C22", "title": "InfiniteRing lengths", "statement": "write_len() always equals write_capacity(), read_len() never exceeds it, and both slices stay inside the double mapping with pairwise distinct bytes.", "quantifier": "every reachable state", "why_tests_cant": "It must hold after every finite history of calls with every argument; a test runs one history.", "anchors": ["src/io/ring.rs:InfiniteRing"]}
{"id": "C23", "title": "InfiniteRing consume drops the oldest bytes", "statement": "consume(n) discards exactly the min(n, read_len()) oldest readable bytes for every n.", "quantifier": "every reachable state, every usize n", "why_tests_cant": "It must hold after every finite history of calls with every argument; a test runs one history.", "anchors": ["src/io/ring.rs:InfiniteRing::consume"]}
{"id": "C24", "title": "InfiniteRing::feed accepts any length", "statement": "feed(n) is safe for every usize n: it exposes min(n, capacity) bytes of the write slice and evicts the oldest, without panicking or losing newer bytes.", "quantifier": "every reachable state, every usize n, debug and release builds", "why_tests_cant": "The failing points are within capacity of usize::MAX and behave differently per build profile.", "anchors": ["src/io/ring.rs:InfiniteRing::feed"]}
{"id": "C25", "title": "A ring mapping is circular", "statement": "When Ring::new/InfiniteRing::new succeeds, for every i below the capacity the bytes at address ptr+i and ptr+capacity+i are the same memory, all 2*capacity addresses are readable and writable, and every other page's mapping is what it was before.", "quantifier": "every capacity, every prior address-space layout, every address the kernel picks", "why_tests_cant": "All layouts and all addresses.", "anchors": ["src/os/unix/posix/mod.rs:map_ring", "src/os/unix/posix/mod.rs:wrap_fd", "src/os/unix/posix/mod.rs:wrap_ptr"]}
{"id": "C26", "title": "Ring creation leaks nothing at any failure point", "statement": "If creating a ring fails at any system call (descriptor creation, sizing, any of the three mappings), no file descriptor stays open and no page stays mapped that was not before.", "quantifier": "every prior state, every combination of system-call outcomes and errno values", "why_tests_cant": "Fault injection at every syscall in every state.", "anchors": ["src/os/unix/posix/mod.rs:map_ring", "src/os/unix/posix/mod.rs:tmp_open", "src/os/unix/posix/mod.rs:wrap_fd", "src/os/unix/posix/memfd.rs:memfd_open"]}
{"id": "C27", "title": "Dropping a ring releases exactly its pages", "statement": "Dropping a Ring or InfiniteRing unmaps exactly the 2*capacity bytes it mapped and leaves every other mapping and descriptor untouched, after any history of use.", "quantifier": "every history, every address-space layout", "why_tests_cant": "It must hold after every finite history of calls with every argument; a test runs one history.", "anchors": ["src/io/ring.rs:Drop for Ring", "src/io/ring.rs:Drop for InfiniteRing", "src/os/unix/posix/mod.rs:unmap_ring"]}
{"id": "C28", "title": "Ring creation errors name the failing step", "statement": "When creating a ring fails the returned Error's operation() tells which step failed: MemoryFd for the descriptor and its sizing, RingAllocate for the reservation, RingPrimary and RingSecondary for the halves, and raw_os_error() is that system call's errno.", "quantifier": "every combination of system-call outcomes", "why_tests_cant": "Fault injection at every syscall.", "anchors": ["src/os/unix/posix/mod.rs:map", "src/os/unix/posix/mod.rs:tmp_open", "src/error.rs:Error"]}
{"id": "C29", "title": "The shared-memory name is always a valid C string", "statement": "On targets without memfd, the generated object name is always '/vmap-' followed by exactly seven decimal digits and one terminating NUL, so building it never panics, whatever the clock says.", "quantifier": "every nanosecond reading", "why_tests_cant": "The clock takes 10^9 values.", "anchors": ["src/os/unix/posix/memfd.rs:memfd_open"]}
{"id": "C30", "title": "Mach ring creation releases what it acquires", "statement": "On macOS/iOS, creating a ring leaves behind only the ring's own address range, and failing leaves nothing: no address range and no port right.", "quantifier": "every combination of kernel outcomes", "why_tests_cant": "Fault injection plus leak accounting.", "anchors": ["src/os/unix/mach.rs:map_ring", "src/os/unix/mach.rs:unmap_ring"]}
{"id": "C31", "title": "Windows ring creation retries and cleans up", "statement": "On Windows, creating a ring tries at most six reservations, on success maps the same section at pg and pg+len, on failure leaves no view and no handle, and always closes the section handle; sizes and offsets are passed as two 32-bit halves that recombine to the original value.", "quantifier": "every combination of API outcomes, every usize", "why_tests_cant": "Races for the reserved range cannot be provoked on demand.", "anchors": ["src/os/windows.rs:map_ring", "src/os/windows.rs:map_ring_handle", "src/os/windows.rs:MapHandle"]}
{"id": "C32", "title": "Which ranges of a file can be mapped", "statement": "map_if(f) returns Ok(None) exactly when, after any truncation and resize, the offset lies beyond the end of the file or an Exact/Min length exceeds what is left after the offset; it never returns Ok(None) for a range inside the file, and otherwise the map's length is: the requested length for Exact, min(requested, rest) for Max, and the rest of the file for Min and End.", "quantifier": "every file length, offset, extent, option combination", "why_tests_cant": "All combinations of four extents, offsets and file sizes.", "anchors": ["src/map.rs:Options::map_if"]}
{"id": "C33", "title": "A file map shows the file's bytes at the requested offset", "statement": "For every successful file mapping, byte i of the map is byte offset+i of the file, for every i below the map's length, however the offset relates to page boundaries.", "quantifier": "every offset, length, file content, kernel-chosen address", "why_tests_cant": "All offsets modulo the page size and all contents.", "anchors": ["src/map.rs:Options::map_if", "src/os/unix/mod.rs:map_file"]}
{"id": "C34", "title": "The OS sees aligned file offsets", "statement": "Every file mapping request passes the OS an offset that is a multiple of the allocation granularity, not above the requested offset and less than one unit below it, and a length that ends exactly at the requested end.", "quantifier": "every offset and length", "why_tests_cant": "The domain is every usize (and every power-of-two unit); tests sample a handful of values around 4096.", "anchors": ["src/map.rs:Options::map_if", "src/lib.rs:Size::truncate"]}
{"id": "C35", "title": "Resize and truncate change the file as documented", "statement": "After map_if, if resizing did not fail, the file's length is: Exact(n) -> n; Min(n) -> max(n, old); Max(n) -> min(n, old); End -> old, where old is 0 if truncate is set; kept bytes are unchanged and new bytes are zero; and the file is never modified when no change is needed.", "quantifier": "every file, every option combination", "why_tests_cant": "All combinations of truncate, resize and contents.", "anchors": ["src/map.rs:Options::map_if", "src/map.rs:Options::resize", "src/map.rs:Options::truncate"]}
{"id": "C36", "title": "map and open are map_if and open_if with None turned into InvalidRange", "statement": "map(f) behaves as map_if(f) except that Ok(None) becomes an InvalidInput error with operation MapFile; open/open_if likewise, and the returned File is the opened file.", "quantifier": "every option set, file and kernel outcome", "why_tests_cant": "All option sets and failure points.", "anchors": ["src/map.rs:Options::map", "src/map.rs:Options::open", "src/map.rs:Options::open_if"]}
{"id": "C37", "title": "Anonymous allocations have the promised size and are zeroed", "statement": "alloc() with write or copy access returns a map whose length is: Exact/Max(n) -> n; Min(n) -> at least n; End -> at least 1, the last two filling the allocation unit exactly; all bytes are zero and writable; and the map starts at the requested offset within its page.", "quantifier": "every offset, extent and kernel outcome", "why_tests_cant": "The domain is every usize (and every power-of-two unit); tests sample a handful of values around 4096.", "anchors": ["src/map.rs:Options::alloc", "src/map.rs:MapMut::new", "src/os/unix/mod.rs:map_anon"]}
{"id": "C38", "title": "A read-only anonymous map can be allocated", "statement": "Map::with_options().alloc() succeeds whenever the kernel has room.", "quantifier": "every length and offset on unix", "why_tests_cant": "It depends on the OS's treatment of the flags; a test only sees it if someone writes it.", "anchors": ["src/os/unix/mod.rs:map_anon", "src/map.rs:Options::alloc"]}
{"id": "C39", "title": "Dropping a non-empty map unmaps exactly its pages", "statement": "Dropping a Map or MapMut of positive length unmaps exactly the pages its creation mapped and nothing else.", "quantifier": "every offset, length, layout, history of use", "why_tests_cant": "It must hold after every finite history of calls with every argument; a test runs one history.", "anchors": ["src/map.rs:Drop for MapMut", "src/lib.rs:Size::bounds"]}
{"id": "C40", "title": "Dropping any map releases its pages", "statement": "Dropping a Map or MapMut, of any length including zero, leaves no page mapped that its creation mapped.", "quantifier": "every offset and length", "why_tests_cant": "Zero-length maps at unaligned offsets are an easily missed corner, and a leak is invisible to assertions.", "anchors": ["src/map.rs:Drop for MapMut", "src/map.rs:Options::map_if", "src/map.rs:Options::alloc"]}
{"id": "C41", "title": "Shared writes reach the file; copies do not", "statement": "A write at index i of a MapMut created with write access changes byte offset+i of the file (and of every other shared map of it) and no other byte; a write to a map created with copy access changes neither the file nor any other map.", "quantifier": "every pair of maps, every index and value", "why_tests_cant": "All overlaps of two maps and all indices.", "anchors": ["src/map.rs:Options::write", "src/map.rs:Options::copy", "src/os/unix/mod.rs:map_file"]}
{"id": "C42", "title": "into_map_mut", "statement": "into_map_mut keeps pointer, length and bytes; on success every byte is writable; on a shared map of a file that was not opened for writing it fails with operation Protect and hands the unchanged map back, still mapped and readable.", "quantifier": "every map, every kernel outcome", "why_tests_cant": "It must hold after every finite history of calls with every argument; a test runs one history.", "anchors": ["src/map.rs:Map::into_map_mut", "src/error.rs:ConvertResult"]}
{"id": "C43", "title": "into_map", "statement": "into_map keeps pointer, length and bytes and makes the pages read-only.", "quantifier": "every map, every kernel outcome", "why_tests_cant": "Page protections are not observable through the safe API that tests use.", "anchors": ["src/map.rs:MapMut::into_map"]}
{"id": "C44", "title": "Out-of-range sub-range calls are rejected without effect", "statement": "flush_range, advise_range, lock_range and unlock_range return an InvalidInput error carrying their own operation, without any system call, whenever off+len exceeds the map's length (as mathematical integers).", "quantifier": "every map, every off and len in usize, debug and release builds", "why_tests_cant": "The failing inputs wrap usize and depend on the build profile.", "anchors": ["src/map.rs:MapMut::flush_range", "src/map.rs:MapMut::advise_range", "src/map.rs:MapMut::lock_range", "src/map.rs:MapMut::unlock_range"]}
{"id": "C45", "title": "In-range sub-range calls act on enclosing pages of the map only", "statement": "For off+len <= map length, the page range handed to the OS contains the requested bytes, is page-aligned, and lies inside the pages of the mapping.", "quantifier": "every map, every in-range off and len", "why_tests_cant": "The domain is every usize (and every power-of-two unit); tests sample a handful of values around 4096.", "anchors": ["src/map.rs:MapMut::flush_range", "src/lib.rs:Size::bounds"]}
{"id": "C46", "title": "Scalar writes and reads round-trip", "statement": "After write_volatile/write_unaligned::<T>(off, v) succeeds, read_volatile/read_unaligned::<T>(off) returns v, every byte outside [off, off+size_of::<T>()) keeps its value, and the bytes inside are v's native byte order.", "quantifier": "every scalar type, value, offset, map", "why_tests_cant": "All values of up to 128 bits at all offsets.", "anchors": ["src/lib.rs:Span::read_volatile", "src/lib.rs:Span::read_unaligned", "src/lib.rs:SpanMut::write_volatile", "src/lib.rs:SpanMut::write_unaligned"]}
{"id": "C47", "title": "Scalar accesses outside the map panic", "statement": "read_volatile, read_unaligned, write_volatile and write_unaligned panic, touching no memory, whenever off + size_of::<T>() exceeds the span's length (as mathematical integers).", "quantifier": "every span, scalar type and usize offset, debug and release builds", "why_tests_cant": "The failing offsets wrap usize and depend on the build profile.", "anchors": ["src/lib.rs:assert_capacity"]}
{"id": "C48", "title": "Volatile accesses are aligned or panic", "statement": "An in-range volatile access panics exactly when the absolute address is not a multiple of the scalar's alignment; unaligned accesses never panic in range.", "quantifier": "every span, type and offset", "why_tests_cant": "The domain is every usize (and every power-of-two unit); tests sample a handful of values around 4096.", "anchors": ["src/lib.rs:assert_alignment"]}
{"id": "C49", "title": "A synchronous flush makes the flushed bytes durable", "statement": "After flush or flush_range with Flush::Sync returns Ok on a shared file map, a crash at any later point before the bytes are modified again leaves the file holding the flushed bytes.", "quantifier": "every map, range, history and crash point", "why_tests_cant": "Crash points cannot be enumerated by tests.", "anchors": ["src/map.rs:MapMut::flush", "src/map.rs:MapMut::flush_range", "src/os/unix/mod.rs:flush"]}
{"id": "C50", "title": "Advice never changes what a map contains", "statement": "advise and advise_range with any hint leave every byte of every map unchanged.", "quantifier": "every map, range and hint", "why_tests_cant": "The loss only shows on private maps with one particular hint.", "anchors": ["src/map.rs:MapMut::advise", "src/os/unix/mod.rs:advise"]}
{"id": "C51", "title": "Options builder methods are independent and last-wins", "statement": "Each builder method sets only its own option; repeating one keeps the last value; order of calls to different options does not matter except between write() and copy(), where the later one decides.", "quantifier": "every sequence of builder calls", "why_tests_cant": "All sequences of builder calls.", "anchors": ["src/map.rs:Options"]}
{"id": "C52", "title": "open honours create, create_new and truncate only with write access", "statement": "open/open_if: a missing file is created only with create/create_new and write access; create_new fails if the file exists and never modifies it; asking for creation or truncation without write access fails with the file system unchanged.", "quantifier": "every option set and file-system state", "why_tests_cant": "All option combinations and file-system states.", "anchors": ["src/map.rs:Options::open", "src/map.rs:Options::create", "src/map.rs:Options::create_new", "src/map.rs:Options::truncate"]}
{"id": "C53", "title": "BufReader is transparent", "statement": "For any sequence of read, fill_buf, consume and set_lowat on a BufReader over any well-behaved reader, the bytes handed out (returned by read or consumed) followed by the buffered bytes are exactly the bytes taken from the inner reader, in order.", "quantifier": "every inner reader behaviour (chunking, errors, EOF), every history", "why_tests_cant": "It must hold after every finite history of calls with every argument; a test runs one history.", "anchors": ["src/io/buffer.rs:BufReader::read", "src/io/buffer.rs:BufReader::fill_buf", "src/io/buffer.rs:BufReader::consume"]}
{"id": "C54", "title": "BufReader asks the inner reader only at or below the low-water mark", "statement": "fill_buf calls the inner reader exactly once if at most lowat bytes are buffered and otherwise not at all; read bypasses the buffer only when it is empty and the destination is at least the capacity.", "quantifier": "every state, lowat and destination size", "why_tests_cant": "It must hold after every finite history of calls with every argument; a test runs one history.", "anchors": ["src/io/buffer.rs:BufReader::fill_buf", "src/io/buffer.rs:BufReader::read", "src/io/buffer.rs:BufReader::set_lowat"]}
{"id": "C55", "title": "BufReader reports end of file only when the inner reader does", "statement": "read into a non-empty destination returns Ok(0) only if nothing was buffered and in that very call the inner reader, offered a non-empty slice, returned Ok(0).", "quantifier": "every inner reader, every history", "why_tests_cant": "It must hold after every finite history of calls with every argument; a test runs one history.", "anchors": ["src/io/buffer.rs:BufReader::read"]}
{"id": "C56", "title": "Reader errors lose no data", "statement": "When the inner reader returns an error, BufReader's read/fill_buf return that error and the buffered bytes are unchanged.", "quantifier": "every inner reader, every history", "why_tests_cant": "It must hold after every finite history of calls with every argument; a test runs one history.", "anchors": ["src/io/buffer.rs:BufReader::fill_buf", "src/io/buffer.rs:BufReader::read"]}
{"id": "C57", "title": "A misbehaving reader cannot break the buffer", "statement": "Even if the inner reader reports more bytes than it was given room for, BufReader never panics or faults and never buffers more than its capacity.", "quantifier": "every inner reader, honest or not, every history", "why_tests_cant": "Adversarial inner readers cannot be enumerated.", "anchors": ["src/io/buffer.rs:BufReader::fill_buf", "src/io/ring.rs:Ring::feed"]}
{"id": "C58", "title": "BufWriter preserves byte order", "statement": "For any sequence of writes and flushes on a BufWriter over any well-behaved writer, the bytes the inner writer received followed by the buffered bytes are exactly the accepted bytes in the order they were accepted.", "quantifier": "every inner writer behaviour, every history of write/flush with every buffer length", "why_tests_cant": "The failing case is a write whose length equals the free space exactly while data is buffered.", "anchors": ["src/io/buffer.rs:BufWriter::write", "src/io/buffer.rs:BufWriter::flush_buf"]}
{"id": "C59", "title": "BufWriter neither loses nor duplicates bytes", "statement": "For any history over any well-behaved, non-panicking writer, the bytes received by the inner writer together with the buffered bytes are a permutation of the accepted bytes.", "quantifier": "every inner writer behaviour, every history", "why_tests_cant": "It must hold after every finite history of calls with every argument; a test runs one history.", "anchors": ["src/io/buffer.rs:BufWriter::write", "src/io/buffer.rs:BufWriter::flush_buf"]}
{"id": "C60", "title": "A successful flush delivers everything", "statement": "When flush() returns Ok the buffer is empty, the inner writer has received every accepted byte, and its flush was called after the last byte.", "quantifier": "every state and inner writer", "why_tests_cant": "It must hold after every finite history of calls with every argument; a test runs one history.", "anchors": ["src/io/buffer.rs:BufWriter::flush"]}
{"id": "C61", "title": "A failed flush keeps exactly the unsent suffix", "statement": "When flushing fails, the buffer holds exactly the suffix of its previous contents that the inner writer did not accept, so a retry neither repeats nor skips a byte.", "quantifier": "every inner writer, every failure point", "why_tests_cant": "Every failure point.", "anchors": ["src/io/buffer.rs:BufWriter::flush_buf"]}
{"id": "C62", "title": "Interrupted writes are retried and zero-length writes are errors", "statement": "While flushing, an Interrupted error is never reported to the caller and loses nothing; an Ok(0) from the inner writer ends the flush with WriteZero; any other error is returned unchanged.", "quantifier": "every sequence of inner responses", "why_tests_cant": "Every sequence of inner responses.", "anchors": ["src/io/buffer.rs:BufWriter::flush_buf"]}
{"id": "C63", "title": "into_inner returns the writer only when everything was delivered", "statement": "into_inner returns Ok(w) only after all buffered bytes were accepted by w; otherwise it returns the error together with a BufWriter holding exactly the undelivered bytes.", "quantifier": "every state and inner writer", "why_tests_cant": "It must hold after every finite history of calls with every argument; a test runs one history.", "anchors": ["src/io/buffer.rs:BufWriter::into_inner", "src/io/buffer.rs:IntoInnerError"]}
{"id": "C64", "title": "Dropping a BufWriter flushes unless the writer panicked", "statement": "Dropping a BufWriter attempts to write all buffered bytes unless a previous inner write panicked, in which case nothing more is written; the ring is unmapped exactly once either way and also when taken apart with into_parts.", "quantifier": "every state and inner writer", "why_tests_cant": "It must hold after every finite history of calls with every argument; a test runs one history.", "anchors": ["src/io/buffer.rs:Drop for BufWriter", "src/io/buffer.rs:BufWriter::into_parts"]}
{"id": "C65", "title": "into_parts reports panics and keeps the bytes", "statement": "into_parts returns the ring as Ok exactly when the most recent inner write did not panic, and either way the ring holds the buffered bytes.", "quantifier": "every history including inner panics at any call", "why_tests_cant": "It must hold after every finite history of calls with every argument; a test runs one history.", "anchors": ["src/io/buffer.rs:BufWriter::into_parts", "src/io/buffer.rs:WriterPanicked"]}
{"id": "C66", "title": "BufWriter write results", "statement": "write(buf) returning Ok(n) has accepted exactly the first n bytes of buf; returning Err has accepted none of them; writes shorter than the free space never reach the inner writer.", "quantifier": "every state and inner writer", "why_tests_cant": "It must hold after every finite history of calls with every argument; a test runs one history.", "anchors": ["src/io/buffer.rs:BufWriter::write"]}
{"id": "C67", "title": "A misbehaving writer cannot break the buffer", "statement": "Even if the inner writer claims to have written more than it was offered, BufWriter never panics or faults in its own code.", "quantifier": "every inner writer, every history", "why_tests_cant": "Adversarial inner writers cannot be enumerated.", "anchors": ["src/io/buffer.rs:BufWriter::flush_buf", "src/io/ring.rs:Ring::consume"]}
{"id": "C68", "title": "Errors convert to io::Error faithfully", "statement": "For every Error e, io::Error::from(e) has kind e.kind(); converting an io::Error into an Error and back is the identity; input errors are InvalidInput; raw_os_error is None exactly for errors that carry no OS code.", "quantifier": "every Error value", "why_tests_cant": "All error values.", "anchors": ["src/error.rs:Error::kind", "src/error.rs:From<Error> for std::io::Error", "src/error.rs:Error::raw_os_error"]}
{"id": "C69", "title": "Error display names the operation", "statement": "Display of an Error is 'failed to <operation>, <cause>' for every operation except None, for which it is the cause alone; different operations have different names, and each name is the phrase for the words of the operation's own name ('map file view' for MapFileView, 'advise mapped memory' for Advise).", "quantifier": "every operation and cause", "why_tests_cant": "Finite table, but a table-wide injectivity claim.", "anchors": ["src/error.rs:Display for Error", "src/error.rs:Operation::as_str"]}
{"id": "C70", "title": "round works whenever its result is representable", "statement": "For a power-of-two unit, round(len) returns the least multiple of the unit not below len whenever that multiple fits in usize; in particular it never panics on a value that is already a multiple.", "quantifier": "every power-of-two unit, every len whose rounded value fits, debug and release builds", "why_tests_cant": "One failing argument per unit out of 2^64, only in debug builds.", "anchors": ["src/lib.rs:Size::round"]}
{"id": "C71", "title": "Two rings never interfere", "statement": "Creating, using or dropping one Ring never changes the readable bytes, the memory or the mappings of another live Ring; two live rings never share addresses.", "quantifier": "every reachable state with two live rings, every call on one of them", "why_tests_cant": "Placement is chosen by the operating system; a stale or overlapping mapping shows up only for some layouts.", "anchors": ["src/io/ring.rs:Ring", "src/os/unix/posix/mod.rs:map_ring", "src/os/unix/posix/mod.rs:unmap_ring"]}
{"id": "C72", "title": "Data placed in an InfiniteRing's write slice is invisible until fed", "statement": "Storing bytes into the slice returned by as_write_slice does not change what an InfiniteRing has to read until feed is called.", "quantifier": "every reachable state, every stored data", "why_tests_cant": "It must hold after every finite history of calls with every argument; a test runs one history.", "anchors": ["src/io/ring.rs:InfiniteRing", "src/io/mod.rs:SeqWrite::as_write_slice"]}
{"id": "C73", "title": "BufReader::into_inner returns the reader untouched", "statement": "into_inner of a BufReader returns the inner reader exactly as it was and unmaps the ring's memory and nothing else.", "quantifier": "every reachable BufReader", "why_tests_cant": "It must hold after every finite history of calls with every argument; a test runs one history.", "anchors": ["src/io/buffer.rs:BufReader::into_inner"]}
{"id": "C74", "title": "A failed map or open leaves nothing behind", "statement": "When map, map_if, open or open_if does not return a map, no page stays mapped and every descriptor table entry is as before, except that open_if returning no map hands out exactly the newly opened file.", "quantifier": "every file, option set, address-space layout and pattern of system-call failures", "why_tests_cant": "Leaks after a failing system call need fault injection at every call.", "anchors": ["src/map.rs:Options::map_if", "src/map.rs:Options::open", "src/map.rs:Options::open_if"]}
{"id": "C75", "title": "Maps do not interfere", "statement": "Whatever sequence of mapping, allocating, opening, closing, dropping, flushing, advising, locking, converting and writing a program performs, no two live maps share a page, and once every map has been dropped the address space is as it was before.", "quantifier": "every finite sequence of calls with arguments that do not overflow, every layout and failure pattern", "why_tests_cant": "Interference of maps depends on the addresses the kernel picks and on the whole history.", "anchors": ["src/map.rs:MapMut", "src/map.rs:Map", "src/map.rs:Options::map_if", "src/map.rs:Options::alloc", "src/map.rs:Drop for MapMut"]}
{"id": "C76", "title": "A MapMut from the builder can be written", "statement": "Every byte of every MapMut that the builder returns for a file can be written.", "quantifier": "every sequence of builder calls, file, offset, length", "why_tests_cant": "Whether it can depends on which builder methods were never called.", "anchors": ["src/map.rs:Options::new", "src/map.rs:Options::map_if"]}
{"id": "C77", "title": "Using one map or ring never disturbs another", "statement": "In a program that uses any number of maps and rings, a call on one of them, creating another, or closing a file leaves every other one in place: its address, length and pages stay as they are; its bytes stay as they are unless the call writes to the same file; a ring's memory and positions change only through calls on that ring.", "quantifier": "every program, every finite history of calls with arguments that do not overflow, every layout and failure pattern", "why_tests_cant": "Interference depends on the addresses the kernel picks and on the whole history.", "anchors": ["src/map.rs:MapMut", "src/map.rs:Map", "src/io/ring.rs:Ring", "src/io/ring.rs:InfiniteRing", "src/map.rs:Drop for MapMut"]}
{"id": "C78", "title": "No call panics", "statement": "Creating, dropping, flushing, advising, locking and converting maps, opening files and any call on a ring return normally, with Ok or Err, in every state a program can reach, as long as the arguments do not overflow the address space.", "quantifier": "every program, every finite history of calls, every layout and failure pattern, debug and release builds", "why_tests_cant": "Panics may hide behind any history and any failing system call.", "anchors": ["src/map.rs:MapMut", "src/map.rs:Map", "src/io/ring.rs:Ring", "src/io/ring.rs:InfiniteRing", "src/map.rs:Options::map_if"]}
{"id": "C79", "title": "Without memfd, ring creation leaves no name behind", "statement": "On systems without memfd_create, with a clock at or after 1970, creating the shared-memory object for a ring never panics; if it succeeds the object is new, under a name nobody used, and the name space is unchanged afterwards; it gives up only on errors other than 'already exists', and it succeeds as soon as one of the names it tries is free.", "quantifier": "every clock value, name-space state and pattern of failures (a name another process takes meanwhile shows up as EEXIST)", "why_tests_cant": "Name clashes and races between processes cannot be provoked reliably.", "anchors": ["src/os/unix/posix/memfd.rs:memfd_open"]}
{"id": "C80", "title": "os::unmap reports what it did", "statement": "os::unmap returns Ok exactly when it removed the mapping at the address it was given, and an error exactly when it removed nothing.", "quantifier": "every address-space state, address and length, on unix and Windows", "why_tests_cant": "A wrong report is invisible as long as callers ignore the result, and every address has to be considered.", "anchors": ["src/os/unix/mod.rs:unmap", "src/os/windows.rs:unmap"]}
{"id": "C81", "title": "Maps on Windows show the right bytes and go away", "statement": "On Windows, mapping a file or memory never panics and leaves no handle open; a map has the length the options ask for, shows exactly the wanted bytes with the wanted access at addresses that showed nothing before, changes what no other address shows, and dropping it restores the previous views; when no map is returned nothing changes.", "quantifier": "every option set, file length, address-space layout and pattern of API failures", "why_tests_cant": "Placement and failures are chosen by the operating system.", "anchors": ["src/os/windows.rs:map_file", "src/os/windows.rs:map_anon", "src/map.rs:Options::map_if", "src/map.rs:Options::alloc", "src/map.rs:Drop for MapMut"]}
{"id": "C82", "title": "Windows range calls report failures exactly", "statement": "On Windows, a Sync flush is Ok exactly when writing the view back and then flushing the file's buffers both succeed, an Async flush exactly when the first does; protect, lock and unlock make one system call each, for exactly the range given, and are Ok exactly when Windows grants it, which it can only if the pages belong to views (for protect: views mapped with an access that allows the new one; for unlock: pages that are locked); lock and unlock then change the locks of exactly the pages of the range; advise does nothing; errors name the operation.", "quantifier": "every range, file, mode and pattern of API outcomes", "why_tests_cant": "Failures of the flush calls cannot be provoked on demand.", "anchors": ["src/os/windows.rs:flush", "src/os/windows.rs:protect", "src/os/windows.rs:lock", "src/os/windows.rs:unlock", "src/os/windows.rs:advise"]}
{"id": "C83", "title": "Calls passed through to the inner object leave the buffer alone", "statement": "If the object inside a BufReader can also be written, then Write calls on the BufReader reach it at once, unchanged and in order, lose or duplicate no buffered byte, and the bytes read are, as without them, those the inner object produced, in order. Likewise Read calls on a BufWriter reach the inner object at once and neither flush nor change what is buffered.", "quantifier": "every inner object (any return value, error or panic), every finite history of mixed calls", "why_tests_cant": "Interleavings of both directions with a misbehaving inner object are too many to test.", "anchors": ["src/io/buffer.rs:Write for BufReader", "src/io/buffer.rs:Read for BufWriter", "src/io/buffer.rs:BufReader::get_mut", "src/io/buffer.rs:BufWriter::get_mut"]}
{"id": "C84", "title": "read_exact through a BufReader", "statement": "read_exact of n bytes over a BufReader, if it succeeds, gives exactly the next n bytes of the inner reader's stream and consumes exactly these; it ends early only if the inner reader reported end of file, failed or panicked, interruptions being retried.", "quantifier": "every inner reader, buffer state and n", "why_tests_cant": "Depends on how the inner reader splits its data and where it fails.", "anchors": ["src/io/buffer.rs:Read for BufReader", "src/io/buffer.rs:BufRead for BufReader"]}
{"id": "C85", "title": "read_until and read_to_end through a BufReader", "statement": "read_until gives exactly the bytes of the stream up to and including the first delimiter (or all up to end of file) and leaves what follows for the next read; read_to_end gives exactly the rest of the stream.", "quantifier": "every inner reader, buffer state and delimiter", "why_tests_cant": "The delimiter may fall anywhere relative to the ring's wrap and the reader's chunks.", "anchors": ["src/io/buffer.rs:BufRead for BufReader", "src/io/buffer.rs:Read for BufReader"]}
{"id": "C86", "title": "write_all through a BufWriter", "statement": "write_all over a BufWriter with an inner writer that returns true counts accepts all bytes if it succeeds: none is lost or duplicated between the inner writer and the buffer, and unless a chunk fits the buffer exactly they are in order; it fails only if the inner writer failed, panicked, or accepted no byte.", "quantifier": "every inner writer with true counts, buffer state and data", "why_tests_cant": "Depends on how the inner writer splits its data and where it fails.", "anchors": ["src/io/buffer.rs:Write for BufWriter"]}
{"id": "C87", "title": "A failed into_inner can be retried without loss or duplication", "statement": "The error of a failed into_inner holds the same writer and the error that occurred; retrying until it succeeds hands the inner writer exactly the bytes that were still buffered, once and in order; into_error returns the same error, delivers what it still can and unmaps the ring.", "quantifier": "every inner writer, buffer contents and number of failures", "why_tests_cant": "Needs inner writers that fail midway, repeatedly.", "anchors": ["src/io/buffer.rs:BufWriter::into_inner", "src/io/buffer.rs:IntoInnerError::into_inner", "src/io/buffer.rs:IntoInnerError::into_error", "src/io/buffer.rs:IntoInnerError::into_parts"]}
{"id": "C88", "title": "A ring handed from one BufWriter to another keeps its bytes", "statement": "from_parts with a ring that holds bytes delivers these first, before anything written later; taking a BufWriter apart with into_parts and building another from its ring loses nothing: what the first inner writer got together with what the second gets on flush is what was accepted, each byte once, and in order unless a write exactly filled the ring's free space.", "quantifier": "every pair of inner writers, every ring contents and every history", "why_tests_cant": "The bytes left in the ring depend on the whole history.", "anchors": ["src/io/buffer.rs:BufWriter::from_parts", "src/io/buffer.rs:BufWriter::into_parts"]}
{"id": "C89", "title": "os::protect gives exactly the requested access", "statement": "os::protect makes one system call on exactly the given range. On success exactly the pages of the range get exactly the access asked for: every byte keeps its value and can be stored to if and only if ReadWrite or ReadCopy was asked for. On failure no page changed and the error names Protect and carries the OS error. It succeeds whenever the range is aligned and mapped, write access is permitted and the OS agrees.", "quantifier": "every address-space state, range, access and OS outcome", "why_tests_cant": "Wrong access on a neighbouring page shows only when that page is used.", "anchors": ["src/os/unix/mod.rs:protect"]}
{"id": "C90", "title": "The raw os functions act on exactly what they are given", "statement": "On unix, os::map_file and os::map_anon return page-aligned fresh pages that show the file from the given offset (or zeroes) with exactly the access and sharing asked for; os::unmap, lock, unlock, advise and flush each make one system call on exactly the given range and affect exactly the pages that share a byte with it; every failure changes nothing, names the operation and carries the OS error.", "quantifier": "every address-space state, file, offset, range, option and OS outcome", "why_tests_cant": "Effects on neighbouring pages show only when these are used; failures need fault injection.", "anchors": ["src/os/unix/mod.rs:map_file", "src/os/unix/mod.rs:map_anon", "src/os/unix/mod.rs:unmap", "src/os/unix/mod.rs:lock", "src/os/unix/mod.rs:unlock", "src/os/unix/mod.rs:advise", "src/os/unix/mod.rs:flush"]}
{"id": "C91", "title": "Rings work on Windows as anywhere else", "statement": "On Windows, a ring or infinite ring obtained from new has as capacity the least multiple of the allocation granularity that is at least the hint, occupies fresh addresses, and answers every history of calls exactly as a bounded FIFO queue (or, for the infinite ring, a lossy queue) of that capacity does; the hint never wraps into a smaller ring.", "quantifier": "every process state, hint, outcome of each Windows call (including lost races), and history of calls during which fewer than 2^64 bytes (2^usize bits if the capacity does not divide it) pass through since the last clear", "why_tests_cant": "The tests run on one platform with small rings; lost races and overflowing hints do not occur.", "anchors": ["src/io/ring.rs:Ring::new", "src/io/ring.rs:InfiniteRing::new", "src/os/windows.rs:map_ring", "src/os/windows.rs:map_ring_handle"]}
{"id": "C92", "title": "Rings work on macOS as anywhere else", "statement": "On macOS, a ring or infinite ring obtained from new has as capacity the least multiple of the page size that is at least the hint, occupies fresh addresses, and answers every history of calls exactly as a bounded FIFO queue (or, for the infinite ring, a lossy queue) of that capacity does; the hint never wraps into a smaller ring.", "quantifier": "every task state, hint, outcome of each Mach call, and history of calls during which fewer than 2^64 bytes (2^usize bits if the capacity does not divide it) pass through since the last clear", "why_tests_cant": "The tests run on one platform with small rings; overflowing hints do not occur.", "anchors": ["src/io/ring.rs:Ring::new", "src/io/ring.rs:InfiniteRing::new", "src/os/unix/mach.rs:map_ring"]}
{"id": "C93", "title": "Buffered readers and writers touch nothing but their own ring", "statement": "In a program that holds any number of maps and rings, whatever calls are made on a BufReader or BufWriter, and whatever the inner reader or writer does, no byte of another map, ring or file changes, no page is mapped, unmapped, locked or protected, and no file is opened, closed or resized; dropping the buffered object or taking it apart (also when the inner writer panics) leaves the program in the state it would be in had it dropped the ring.", "quantifier": "every reachable program state, every inner reader or writer, every sequence of calls during which fewer than 2^64 bytes (2^usize bits if the capacity does not divide it) pass through the ring", "why_tests_cant": "Stray writes show only in memory the tests do not look at, and depend on where the kernel placed the maps.", "anchors": ["src/io/buffer.rs:BufReader", "src/io/buffer.rs:BufWriter", "src/io/buffer.rs:BufWriter::into_inner", "src/io/buffer.rs:Drop for BufWriter"]}
{"id": "C94", "title": "Rings work on Unixes without memfd as anywhere else", "statement": "On systems that have only named shared memory, with a clock at or after 1970, a ring or infinite ring obtained from new has the capacity, the memory and the behaviour (bounded FIFO or lossy queue) it has on Linux; a failed new changes nothing and names the call that failed; no shared-memory name is left behind or removed, and while new is still trying names it has changed nothing.", "quantifier": "every clock, set of names in use, address-space layout, failure pattern, hint and history of calls", "why_tests_cant": "Name clashes, failures of shm_open and the systems in question do not occur in the tests.", "anchors": ["src/io/ring.rs:Ring::new", "src/io/ring.rs:InfiniteRing::new", "src/os/unix/posix/mod.rs:map_ring", "src/os/unix/posix/memfd.rs:memfd_open"]}
{"id": "C95", "title": "Shared maps of a file always show the file as it is now", "statement": "At every point of every program, a map made for reading, or for writing to the file, shows the file's present content: whatever has been written since through this map, through any other map of the file or to the file itself.  Two such maps of one file agree wherever they overlap, and a byte stored through one is seen through all at once, no other byte changing.  A byte whose page lies wholly behind the file's present end cannot be read.", "quantifier": "every program (any sequence of library calls, writes to the file and other maps), every pair of maps of a file, offset and length", "why_tests_cant": "Tests map a file once, write, and look; they do not interleave several maps, writes and protection changes.", "anchors": ["src/map.rs:Options::map_if", "src/map.rs:Options::open_if", "src/map.rs:MapMut::into_map", "src/map.rs:Map::into_map_mut", "src/os/unix/mod.rs:map_file"]}
{"id": "C96", "title": "A copy-on-write map shows its own changes over the file", "statement": "At every point of every program, each byte of a copy-on-write map is either the map's own or the file's.  A store makes the page it hits the map's own as it then is; advise_range with WillNotNeed gives the pages of its range back to the file; nothing else - no other map, write or conversion - changes the map's own bytes, and the others always show the file as it is now.", "quantifier": "every program in which the file is not shortened, every map, byte and sequence of stores and advice", "why_tests_cant": "Needs programs that mix writes to the file and to the map over several pages, with advice in between.", "anchors": ["src/map.rs:Options::copy", "src/map.rs:Options::map_if", "src/map.rs:Options::open_if", "src/map.rs:MapMut::advise_range", "src/os/unix/mod.rs:map_file"]}
{"id": "C97", "title": "Allocated memory is an array of bytes", "statement": "At every point of every program, memory obtained from alloc or MapMut::new reads as zero where nothing has been stored, and otherwise as the last value stored; reading it never faults; nothing else the program does, to this or other memory, changes it, except that copy-on-write memory becomes zero again in pages given up with advise_range and WillNotNeed.", "quantifier": "every program, allocation whose size fits the address space, byte and sequence of stores", "why_tests_cant": "Tests allocate once and write once.", "anchors": ["src/map.rs:Options::alloc", "src/map.rs:MapMut::new", "src/os/unix/mod.rs:map_anon"]}
{"id": "C98", "title": "A map of a file can always be read", "statement": "While a map of a file is held, reading any of its bytes never faults.  (False: a map does not keep the file from being shortened, for instance by resizing it in a second map; then exactly the bytes whose page begins behind the new end fault.)", "quantifier": "every program, map, offset and byte", "why_tests_cant": "Tests never shorten a mapped file.", "anchors": ["src/map.rs:Options::map_if", "src/map.rs:Options::open_if", "src/map.rs:Options::resize", "src/map.rs:Options::truncate"]}
{"id": "C99", "title": "All views of a map show the same bytes", "statement": "Indexing, deref, as_ref, as_mut, and the slice made of as_ptr (or as_mut_ptr) and len are the same bytes, for a Map and a MapMut, in number, order, values and bounds checks; what is stored through one is read through the others; TryFrom is into_map and into_map_mut; Options::default, with_options and From<usize> for Extent are the documented shorthands.", "quantifier": "every map, state, index and value", "why_tests_cant": "One view that is off by one, or of the wrong length, shows only for particular offsets and lengths.", "anchors": ["src/map.rs:impl Deref for Map", "src/map.rs:impl DerefMut for MapMut", "src/map.rs:impl Span for Map", "src/map.rs:impl SpanMut for MapMut", "src/map.rs:impl TryFrom<Map> for MapMut", "src/lib.rs:impl From<usize> for Extent"]}
{"id": "C100", "title": "A failed conversion propagated with ? releases the map", "statement": "map.into_map_mut()? and map.into_map()? either succeed like the conversion, or return its error after unmapping exactly the pages of the (non-empty) map and nothing else; in a program they are the conversion followed by a drop.", "quantifier": "every map, state and failure", "why_tests_cant": "Tests cannot make mprotect fail at will, nor see which pages are mapped.", "anchors": ["src/error.rs:impl From<(Error, F)> for Error", "src/map.rs:Map::into_map_mut", "src/map.rs:MapMut::into_map"]}
{"id": "C101", "title": "Printed errors and maps can be told apart", "statement": "The Debug text of an error shows its operation, kind and cause, and two errors with the same text agree in all three; Display of Operation and Input are the fragments of the error's text; the Debug text of a Map or MapMut determines its address and length.", "quantifier": "every error, cause, map", "why_tests_cant": "All pairs of values cannot be tried.", "anchors": ["src/error.rs:impl Debug for Error", "src/error.rs:impl Display for Operation", "src/error.rs:impl Display for Input", "src/map.rs:impl Debug for Map"]}
{"id": "C102", "title": "The Debug text of WriterPanicked tells how much is unwritten", "statement": "The Debug text of the WriterPanicked returned by into_parts gives the number of buffered bytes and the capacity, as the standard library's does.  (False: it gives the free room and the capacity.)", "quantifier": "every ring", "why_tests_cant": "Tests do not print it.", "anchors": ["src/io/buffer.rs:impl Debug for WriterPanicked", "src/io/buffer.rs:WriterPanicked::into_inner", "src/io/buffer.rs:BufWriter::into_parts"]}
{"id": "C103", "title": "raw_os_error is Some exactly for errors constructed via last_os_error", "statement": "As its documentation says: Some for errors constructed via last_os_error, otherwise None.  (False: an error made from an io::Error that has an OS code, such as that of opening a missing file, gives Some as well.)", "quantifier": "every error", "why_tests_cant": "The doc test tries one error of each sort.", "anchors": ["src/error.rs:Error::raw_os_error", "src/error.rs:Error::io", "src/map.rs:Options::open_if"]}
{"id": "C104", "title": "The accessors of buffered readers and writers", "statement": "lowat is the level set last (0 at first), whatever else is called; get_ref, get_mut, deref, deref_mut, as_ref and as_mut all reach the inner object and touch nothing else.", "quantifier": "every history of calls, inner object and function applied to it", "why_tests_cant": "Tests set the level once.", "anchors": ["src/io/buffer.rs:BufReader::lowat", "src/io/buffer.rs:BufReader::set_lowat", "src/io/buffer.rs:BufReader::get_ref", "src/io/buffer.rs:BufWriter::get_ref", "src/io/buffer.rs:BufReader::get_mut"]}
{"id": "C105", "title": "Address space and handles on Windows are always accounted for", "statement": "In whole programs on Windows, at every moment each map has exactly one view and each ring exactly its two halves, no address belongs to two of them or to anything that was there before, no handle and no reservation is left open, every other view was there at the start; once everything has been dropped the views are exactly those from the start.", "quantifier": "every program (any number of maps and rings, made, used and dropped in any order), address-space layout and pattern of API failures", "why_tests_cant": "A leak or an overlap needs a particular interleaving of creations, drops and failures.", "anchors": ["src/os/windows.rs:unmap", "src/os/windows.rs:unmap_ring", "src/os/windows.rs:map_ring", "src/map.rs:Drop for MapMut", "src/io/ring.rs:Drop for Ring", "src/io/ring.rs:Drop for InfiniteRing"]}
{"id": "C106", "title": "map_if on Windows resizes, maps or refuses, and says which", "statement": "On Windows map_if never panics and leaves nothing open; it returns a map iff the range is inside the file after truncating and resizing as asked and no call fails; the map has the wanted length and shows the wanted bytes with the wanted access; the file then has the length asked for and no other file changes; None means the range is not inside the file; an error names the step that failed, and nothing was mapped.", "quantifier": "every option set, file length, address-space layout and pattern of API failures", "why_tests_cant": "Combinations of truncate, resize, offset and length with failing calls are too many to test.", "anchors": ["src/map.rs:Options::map_if", "src/map.rs:Options::map", "src/os/windows.rs:map_file"]}
{"id": "C107", "title": "A map or ring on Windows keeps its memory as long as it lives", "statement": "On Windows, from when a map or ring is returned until it is dropped, each of its addresses shows the same byte of the same file or memory with the same access: byte i of a file's map is byte offset + i of the file, an allocation shows memory of its own that is no file and that nothing else shows, and a ring's memory stays circular, whatever else the program does.", "quantifier": "every program, every map or ring in it, every later moment, every address", "why_tests_cant": "It is about every later history of other maps and rings.", "anchors": ["src/map.rs:Options::map_if", "src/map.rs:Options::alloc", "src/io/ring.rs:Ring::new", "src/io/ring.rs:InfiniteRing::new", "src/os/windows.rs:map_ring"]}
{"id": "C108", "title": "Range calls on Windows are about exactly the pages of their range", "statement": "On Windows flush, advise, lock and unlock, of a range inside a map or the whole map, are about exactly the fewest whole pages that contain the range, all of them pages of that map; into_map and into_map_mut are about the pages of the map; a range not inside the map is refused without a call; no step of a program panics (for sizes within the address space).", "quantifier": "every program, every map in it, every range", "why_tests_cant": "Tests use ranges at the start of one map.", "anchors": ["src/map.rs:MapMut::flush_range", "src/map.rs:MapMut::advise_range", "src/map.rs:MapMut::lock_range", "src/map.rs:MapMut::unlock_range", "src/map.rs:MapMut::into_map", "src/map.rs:Map::into_map_mut"]}
{"id": "C109", "title": "Threads that create rings do not disturb each other or the rest of the program", "statement": "Ring::new and InfiniteRing::new may run in several threads at once, interrupted between any two system calls by each other and by everything else the program does: each returns without a panic, a returned ring has memory of its own that is circular and works as if the program had only one thread, no page or byte of any other map or ring changes, a creation that fails leaves nothing mapped.  (Partial: false if, as POSIX permits, a failing MAP_FIXED mmap unmaps pages of the range: another thread's new map may land there and the cleanup of the failed creation unmaps it.)", "quantifier": "every program, number of threads, interleaving of system calls, address-space layout and pattern of failures", "why_tests_cant": "Interleavings are up to the scheduler; the harmful one needs a failing mmap as well.", "anchors": ["src/os/unix/posix/mod.rs:map_ring", "src/os/unix/posix/mod.rs:wrap_fd", "src/os/unix/posix/mod.rs:wrap_ptr", "src/io/ring.rs:Ring::new", "src/io/ring.rs:InfiniteRing::new"]}
{"id": "C110", "title": "The system calls of a ring creation", "statement": "Creating a ring takes at most seven system calls whatever happens in between (so it cannot be held up by other threads); uninterrupted, they are what map_ring does; they touch no file descriptor but the one opened first, and that one is closed in the end, on every path.", "quantifier": "every state at each call, length and pattern of failures", "why_tests_cant": "Failures of each call cannot be provoked at will.", "anchors": ["src/os/unix/posix/mod.rs:map_ring", "src/os/unix/posix/mod.rs:tmp_open", "src/os/unix/posix/mod.rs:wrap_fd", "src/os/unix/posix/mod.rs:wrap_ptr"]}
{"id": "C111", "title": "map_if is right for the file as it was at some moment, whatever others do", "statement": "While map_if runs, other threads and processes may write, cut, extend and rename files, map and unmap memory and open and close other descriptors between any two of its system calls. It still does not panic, makes at most four system calls, each of which either sets the file's length to one the options name or makes the returned map on free pages and nothing else; the map (or Ok(None)) is the one the options ask for at a length the file had at some moment during the call.", "quantifier": "every interleaving with any behaviour of others that leaves the file's descriptor open, every option set, every outcome of every system call", "why_tests_cant": "Needs another process to act in a window of a few instructions.", "anchors": ["src/map.rs:Options::map_if"]}
{"id": "C112", "title": "open_if leaves the rest of the world alone, whatever others do", "statement": "With others acting between any two system calls of open_if as in C111: it does not panic and makes at most six system calls; none touches mapped pages, other descriptors, or any file but the one being opened; a failed call has closed its descriptor; a successful one returns a new descriptor of the file that had the name, or was created under it, at some moment during the call, and a map that is right for a length this file had during the call.", "quantifier": "every interleaving, option set and outcome of every system call", "why_tests_cant": "Needs another process to act in a window of a few instructions.", "anchors": ["src/map.rs:Options::open_if", "src/map.rs:Options::open"]}
{"id": "C113", "title": "create_new is exclusive and makes create and truncate irrelevant", "statement": "As documented: a file returned by open or open_if with create_new(true) did not exist before and was created atomically, and .create() and .truncate() are ignored. (The second half is false if another process writes to the new file before open_if has read its length: truncate then deletes what was written.)", "quantifier": "every option set, path, file-system state and interleaving with other processes", "why_tests_cant": "Races between processes cannot be provoked reliably.", "anchors": ["src/map.rs:Options::create_new", "src/map.rs:Options::truncate", "src/map.rs:Options::open_if"]}
{"id": "C114", "title": "resize(Min) never shortens, resize(Max) never lengthens, and a map lies inside its file", "statement": "resize(Extent::Min(n)) without truncate never makes a file shorter, resize(Extent::Max(n)) never makes it longer, and when map_if returns a map the file has all its bytes. (False if another process changes the file's length between the moment it is read and the moment it is set or mapped.)", "quantifier": "every option set, file and interleaving with other processes", "why_tests_cant": "Needs another process to act in a window of a few instructions.", "anchors": ["src/map.rs:Options::resize", "src/map.rs:Options::map_if"]}
{"id": "C115", "title": "Allocated memory after fork: private with copy(), common with write()", "statement": "As documented for copy(): memory allocated with copy() can be used in a child process.  After a fork it holds, in the parent and in the child, what it held at the fork and then what this process stored last, whatever the other process does (store to it, unmap it, change its access, map and close anything).  Memory allocated with write() is one array for both: a byte stored by either is what both read.", "quantifier": "every program up to the fork, every sequence of system calls and stores of both processes after it in any order, every byte", "why_tests_cant": "Tests never fork; the orders of actions of two processes cannot be enumerated.", "anchors": ["src/map.rs:Options::copy", "src/map.rs:Options::write", "src/map.rs:Options::alloc", "src/os/unix/mod.rs:map_anon"]}
{"id": "C116", "title": "Copy-on-write maps of files after fork", "statement": "After a fork, a copy-on-write map of a file has in the parent and in the child bytes of its own: those it had at the fork, and the pages this process has stored to since, as they then were.  Nothing the other process does changes them; every other byte is the file's present one.", "quantifier": "every program up to the fork, every map, every sequence of system calls and stores of both processes after it during which the file is not shortened, every byte", "why_tests_cant": "Tests never fork.", "anchors": ["src/map.rs:Options::copy", "src/map.rs:Options::map_if", "src/os/unix/mod.rs:map_file"]}
{"id": "C117", "title": "Locked bytes stay locked until they are unlocked", "statement": "As documented, lock_range locks the pages of its range so that they stay in memory: after a successful lock_range, and for as long as the program keeps the map and does not unlock any of these bytes, their pages are locked, whatever else the program does.  (False of the code: unlock_range on other bytes of the same page unlocks the page.  It holds if no byte on the same pages is unlocked.)", "quantifier": "every program, map, range and every later point", "why_tests_cant": "Lock state is not visible to a test that reads and writes the map.", "anchors": ["src/map.rs:MapMut::lock_range", "src/map.rs:MapMut::unlock_range", "src/map.rs:Map::lock_range", "src/os/unix/mod.rs:lock", "src/os/unix/mod.rs:unlock"]}
{"id": "C118", "title": "Access and locks of a map are a matter of the calls on this map alone", "statement": "At every point of every program: a map made without write access faults on every store unless into_map_mut or into_map succeeded on it; a map made with write access accepts a store to every byte that can be read, for as long as it exists; a byte is locked exactly if its page has been covered by a successful lock_range and not by a later unlock_range on this map.  Nothing done with any other map, ring or file changes either.", "quantifier": "every way to make a map (map_if, open_if, alloc), every program, every byte", "why_tests_cant": "Tests look at one map at a time and never at locks.", "anchors": ["src/map.rs:Options::map_if", "src/map.rs:Options::open_if", "src/map.rs:Options::alloc", "src/map.rs:Map::into_map_mut", "src/map.rs:MapMut::into_map", "src/map.rs:MapMut::lock_range", "src/map.rs:MapMut::unlock_range"]}
{"id": "C119", "title": "No file is leaked, closed or replaced behind the program's back", "statement": "At every point of every program the descriptors open are exactly those of the File values the program has: those it began with and those open_if returned, less those it dropped.  Making, using, converting and dropping maps, rings and infinite rings opens or closes none for good, whether it succeeds or fails, and neither does a failing open_if.  A File that open_if returns has a descriptor that was not in use, is the file of that name, open for reading, and for writing iff asked for.  No call renames or removes a file or gives a name another file; only open_if with create or create_new and write access adds a name.", "quantifier": "every program, every failure of every system call", "why_tests_cant": "A leaked or doubly closed descriptor shows up only after many calls, or in another part of the program; tests do not count descriptors.", "anchors": ["src/map.rs:Options::open_if", "src/map.rs:Options::map_if", "src/os/unix/posix/mod.rs:map_ring", "src/io/ring.rs:Ring::new", "src/io/ring.rs:InfiniteRing::new"]}
{"id": "C120", "title": "Shared maps of a file on Windows show the file as it is now", "statement": "At every point of every program on Windows, a map made for reading, executing, or writing to the file shows the file's present content, whatever has been stored since through this or any other map; two such maps of one file agree wherever they overlap; a store through a writable MapMut changes exactly that byte of that file, and is seen at once through all of them; a store without write access is a fault; reading or storing beyond the end is a panic that touches no memory.  Only stores, map_if (when asked to truncate or resize) and others change files.", "quantifier": "every program, map, offset, byte and value", "why_tests_cant": "Tests make one map at a time and never look at it later in a longer program; the Windows layer is not run at all on the author's machine.", "anchors": ["src/map.rs:Options::map_if", "src/os/windows.rs:map_file"]}
{"id": "C121", "title": "A copy-on-write map on Windows shows its own changes over the file", "statement": "At every point of every program on Windows, each byte of a copy-on-write map is either the map's own or the file's.  A store makes the page it hits the map's own as it then is; nothing else changes the map's own bytes, and no store through it changes a file or a byte of another map.  A byte can be stored to exactly if it can be read.", "quantifier": "every program, map, offset, byte and value", "why_tests_cant": "Tests check one store.", "anchors": ["src/map.rs:Options::map_if", "src/map.rs:Options::copy", "src/os/windows.rs:map_file"]}
{"id": "C122", "title": "Allocated memory on Windows is an array of bytes", "statement": "At every point of every program on Windows, memory obtained from alloc reads as zero where nothing has been stored and otherwise as the last value stored; reading it never faults; nothing else the program does changes it; a store succeeds exactly inside it and with write access (write() or copy()), and changes no file.", "quantifier": "every program, options, byte and value", "why_tests_cant": "Tests allocate once and read it back.", "anchors": ["src/map.rs:Options::alloc", "src/os/windows.rs:map_anon"]}
{"id": "C123", "title": "On Windows a map keeps its file from being shortened", "statement": "On Windows, while a map of a file is held, the file is at least as long as the end of the map, and reading any byte of the map never faults, whatever the program does - including asking for a shorter file with resize or truncate - unless others shorten the file.  (On Unix this is false, see C98.)", "quantifier": "every program, map and byte", "why_tests_cant": "Tests never shorten a mapped file.", "anchors": ["src/map.rs:Options::map_if", "src/map.rs:Options::resize", "src/map.rs:Options::truncate", "src/os/windows.rs:map_file"]}
{"id": "C124", "title": "map_if on Windows keeps the bytes of the file and appends zeros", "statement": "On Windows map_if changes the contents of no other file; of the file it maps it keeps the bytes up to the length after truncating, and those it adds by resizing are zero; if it fails, the file is as it was, has the length and contents asked for, or is truncated to nothing as asked.", "quantifier": "every state, options and pattern of failures", "why_tests_cant": "Failures cannot be provoked in tests.", "anchors": ["src/map.rs:Options::map_if", "src/map.rs:Options::resize", "src/map.rs:Options::truncate"]}
{"id": "C125", "title": "Creating a ring on Windows works while other threads use the address space", "statement": "Between any two system calls of a ring creation on Windows (its addresses are reserved, released, and only then mapped) other threads may map, unmap, reserve and release memory, also at the very place it has found.  The creation still does not panic and returns after at most 32 calls; none of its calls touches a view, handle, reservation, file or byte that is not its own, so several creations can go on at once; a ring it returns is two adjoining views of new zeroed memory that nobody else can get at; one that fails leaves nothing behind.  It fails only if Windows refuses a section or address space, or after six attempts, each of which failed because Windows refused a view or others had taken the place meanwhile.", "quantifier": "every interleaving with any behaviour of others that leaves the creation's own section, views and reservation alone, every length and every outcome of every call", "why_tests_cant": "The window between VirtualFree and MapViewOfFileEx is a few instructions; tests cannot hit it.", "anchors": ["src/os/windows.rs:map_ring", "src/os/windows.rs:map_ring_handle", "src/os/windows.rs:reserve", "src/io/ring.rs:Ring::new"]}
{"id": "C126", "title": "A Map is the corresponding MapMut less the right to store", "statement": "Map::with_options() with any options returns, for map, map_if, open, open_if and alloc, a map at the same address and of the same length, or the same error, with the same effect on files, descriptors and memory, as MapMut::with_options() with these options; reading, len, as_ptr, advice, locking and dropping act as on a MapMut at that place; into_map and into_map_mut keep address and length, also in the value handed back on failure.", "quantifier": "every options, state, file, path, range", "why_tests_cant": "The tests use a few options for each of the two types.", "anchors": ["src/map.rs:Map::with_options", "src/map.rs:Map", "src/map.rs:MapMut", "src/map.rs:Options"]}
{"id": "C127", "title": "Copying from a BufReader to a BufWriter delivers every byte once and in order", "statement": "std::io::copy from a BufReader to a BufWriter over arbitrary inner objects, followed by flush, delivers to the inner writer exactly what was buffered in the writer, then what was buffered in the reader, then what the inner reader handed out up to end of file, each byte once and in this order, and returns the number copied; on an error or panic every byte is accounted for (received, in one of the two buffers, or in the one piece the failing writer refused); no other map or ring changes.", "quantifier": "every reader, writer, capacities, size of the copy buffer, sizes of pieces, interrupts, errors, reachable program state", "why_tests_cant": "The tests never use the two together; whether the order is kept depends on the exact sizes of the pieces.", "anchors": ["src/io/buffer.rs137-151", "src/io/buffer.rs181-192", "src/io/buffer.rs356-375", "src/io/buffer.rs422-440"]}
{"id": "C128", "title": "After fork each process has the ring it had", "statement": "When a program that holds a ring or an infinite ring forks, parent and child each have a ring with the contents it had, which from then on behaves as a queue of its own, whatever the other process does.", "quantifier": "every program, ring, history, actions of either process after the fork", "why_tests_cant": "The tests never fork.", "anchors": ["src/os/unix/posix/mod.rs:map_ring", "src/io/ring.rs:Ring", "src/io/ring.rs:InfiniteRing"]}
{"id": "C129", "title": "On Windows, rings are queues in every program", "statement": "On Windows, at every point of a program that makes, uses and drops any maps and rings while files change, a Ring it has made and not dropped behaves as a bounded FIFO queue and an InfiniteRing as a lossy queue: what can be read and the write slice are the queue's, no call panics or faults, and every call answers as the queue does, whatever else the program has done in between.", "quantifier": "every process state, program, ring, history of calls and other actions; at most posBound bytes appended since the last clear", "why_tests_cant": "The tests use one ring at a time, in a program that does nothing else, and are not run on Windows with other mappings coming and going.", "anchors": ["src/os/windows.rs:map_ring", "src/os/windows.rs:unmap_ring", "src/io/ring.rs:Ring", "src/io/ring.rs:InfiniteRing"]}
{"id": "C130", "title": "Text lines through a ring", "statement": "On a Ring, write! of any text in any pieces is write_all of the whole text (Ok exactly when it fits, else the ring is filled with its beginning and the error is WriteZero); on an InfiniteRing it always succeeds and keeps the last capacity bytes. split(d) and lines() on either yield exactly the readable bytes cut at every delimiter (lines without \\n or \\r\\n, InvalidData for exactly the lines that are not UTF-8) and leave the ring empty; read_line takes exactly the first line. Lines written to an empty ring with write! come back from lines().", "quantifier": "every reachable ring, its contents (also wrapped around its end), text, pieces, delimiter and notion of valid text", "why_tests_cant": "The documentation examples write a few lines of one shape and read two; no test writes text in arbitrary pieces, reads invalid text or iterates over lines.", "anchors": ["src/io/ring.rs:Ring", "src/io/ring.rs:InfiniteRing", "src/io/ring.rs:BufRead for Ring", "src/io/ring.rs:Write for InfiniteRing"]}
{"id": "C131", "title": "Lines of a buffered reader", "statement": "Iterating over split(d) or lines() of a BufReader yields, one for one, the pieces of the stream (what was buffered, then what the inner reader delivers, however it is cut by short reads and interruptions): each ends at its first delimiter or at an end of file, and none is lost or doubled except the beginning of a line during which the inner reader failed, whose error is yielded instead. The iteration ends only at end of file with nothing buffered. If the inner reader never fails and its end of file is final, the items are exactly the lines of the whole stream. read_line keeps what was read before an error.", "quantifier": "every reader (also lying or panicking), buffer contents, capacity, low-water mark, delimiter, notion of valid text and number of items", "why_tests_cant": "The tests read two lines from one well-behaved source; lines across buffer refills, errors in mid-line and end of file without a final newline are not tested.", "anchors": ["src/io/buffer.rs:BufReader", "src/io/buffer.rs:BufRead for BufReader"]}
{"id": "C132", "title": "Numbers and buffers through bytes::Buf and bytes::BufMut", "statement": "With the bytes feature: put of a number of m bytes (any width, endianness, signed or not) appends exactly its base-256 digits when m bytes are free and panics otherwise; get consumes the next m bytes and returns the one number below 256^m with these digits, or panics when fewer are readable. Any sequence of numbers put is got back by the same sequence of gets. put_bytes, copy_to_bytes and chunks_vectored append or return exactly the bytes asked for, or panic; reader() and writer() behave as Read and Write of the ring itself. put of one ring into another moves everything readable if it fits and panics otherwise, and changes no other map or ring of the program.", "quantifier": "every reachable ring and contents (also wrapped around its end), width, endianness, value and sequence of numbers; for put of a ring every program holding both", "why_tests_cant": "The test of bytes.rs puts one string of 11 bytes and advances over it once; no test puts a number, wraps around or overfills.", "anchors": ["src/io/bytes.rs:Buf for Ring", "src/io/bytes.rs:BufMut for Ring"]}
{"id": "C133", "title": "When the system grants what is asked, the calls succeed", "statement": "If no system call fails on its own account and address space is offered, then: map_if returns a map of the requested length (after truncating and resizing) whenever the range lies inside the file, the file is open for what the options ask and the map is not empty, and Ok(None) whenever it does not lie inside; open_if does so for a file that is there or is created, and returns the file with it; Ring::new and InfiniteRing::new of any size above zero return an empty ring with room for the size rounded up; alloc returns memory for every access but read-only (on Windows for every access). In particular no argument the library computes itself (rounded offset, length, flags, protection) is refused. The same on Windows; rings also on macOS.", "quantifier": "every state of the process, options, file, offset, length, resize, hint", "why_tests_cant": "The tests make a few maps with offset zero or one page; a wrong flag or an offset that is not rounded down for some option shows only as an error for these options.", "anchors": ["src/map.rs:Options::map_if", "src/map.rs:Options::open_if", "src/map.rs:Options::alloc", "src/os/unix/mod.rs:map_file", "src/os/windows.rs:map_file", "src/io/ring.rs:Ring::new", "src/io/ring.rs:InfiniteRing::new", "src/os/unix/mach.rs:map_ring"]}
{"id": "C134", "title": "From BufWriter::new to its drop, every accepted byte reaches the inner writer", "statement": "For every history of writes and flushes on a new BufWriter followed by its drop (also when panics of the inner writer are caught in between), the inner writer has received exactly the bytes that were accepted with Ok, each once.  (False: after a panic that was caught, further writes are accepted and the drop delivers none of them; what the inner writer refuses during the drop is lost without a report.)", "quantifier": "every inner writer, capacity and history", "why_tests_cant": "Needs an inner writer that panics once and recovers, and a look at what arrives after the drop.", "anchors": ["src/io/buffer.rs:BufWriter", "src/io/buffer.rs:BufWriter::flush_buf", "src/io/buffer.rs:Write for BufWriter", "src/io/buffer.rs:Drop for BufWriter"]}
{"id": "C135", "title": "Rings in a child process on macOS", "statement": "After fork on macOS, the child has the rings of its parent with the contents they had: every history of calls on such a ring answers in the child as it would have answered in the parent.  (False: the second half of the ring is mapped with VM_INHERIT_NONE, so the first call whose bytes lie on both sides of the ring's end is a memory fault in the child; up to then the calls answer correctly.)", "quantifier": "every ring, every state it is in at the fork, every history of calls afterwards", "why_tests_cant": "Needs a fork on macOS and contents that wrap around.", "anchors": ["src/os/unix/mach.rs:map_ring", "src/io/ring.rs:Ring"]}
{"id": "C136", "title": "Buffered readers and writers after fork", "statement": "When a program that holds a BufReader or BufWriter forks, every byte buffered at that moment or accepted afterwards is delivered once, and each process goes on with a buffer of its own.  (False: both processes deliver what was buffered at the fork when they drop their copy; and since the memory of the ring is shared, what one process writes replaces what the other has been told was accepted.  True as long as the other process neither drops nor writes to its copy.)", "quantifier": "every program, buffered object, inner reader or writer, history of either process after the fork", "why_tests_cant": "Needs two processes and all their interleavings.", "anchors": ["src/io/buffer.rs:BufWriter", "src/io/buffer.rs:BufReader", "src/os/unix/posix/mod.rs:map_ring"]}
{"id": "C137", "title": "The system calls of every function", "statement": "On Unix every function makes the system calls its kind allows, with these arguments, in this order, and no others, in every state a program can reach: mapping a file asks for its length, sets it at most once for truncate and once for resize and only if asked to, and maps once, at a place the kernel chooses, stopping at the first failure; opening opens first and closes the file again on failure; creating a ring is one memory file, one length, one reservation, two fixed mappings inside it and one close (and gives the reservation back on failure); each range call and conversion is one call on the pages of the range, or none if the range is invalid; dropping is one munmap of exactly the pages (none for an empty map). Reading and writing memory, all calls on rings, and all calls on buffered readers and writers make none.", "quantifier": "every reachable program state, step, outcome of every system call", "why_tests_cant": "Tests see results, not the calls made; a superfluous or misdirected call that succeeds is invisible to them.", "anchors": ["src/map.rs:Options::map_if", "src/map.rs:Options::open_if", "src/map.rs:Options::alloc", "src/map.rs:Drop for MapMut", "src/map.rs:MapMut::flush_range", "src/os/unix/posix/mod.rs:map_ring", "src/io/ring.rs:Drop for Ring", "src/io/buffer.rs:BufWriter", "src/io/buffer.rs:BufReader"]}
{"id": "C138", "title": "A synchronous flush makes the flushed bytes durable on Windows", "statement": "On Windows, after flush or flush_range with Flush::Sync has returned Ok on a map of a file that is not copy-on-write, given that file, every flushed byte is on the disk, and stays there through everything the program and the system do later (including dropping the map), until the byte is changed. After a flush with Flush::Async the next flush with Flush::Sync that returns Ok with the same file, of any range of any map, has the same effect. Neither Flush::Async alone, nor Flush::Sync with another file than the mapped one, is enough, though they return Ok.", "quantifier": "every program and state it can reach, every map, range, crash point and every choice of what Windows writes back on its own", "why_tests_cant": "Crash points and write-back orders cannot be enumerated by tests, and a lost write needs a power failure to show.", "anchors": ["src/map.rs:MapMut::flush", "src/map.rs:MapMut::flush_range", "src/os/windows.rs:flush"]}
{"id": "C139", "title": "The system calls of every function on Windows", "statement": "On Windows every function makes the system calls its kind allows, with these arguments, in this order, and no others, in every state a program can reach (arguments not overflowing usize): mapping a file asks for its length, sets it at most once for truncate and once for resize and only if asked to, makes one section of the file with the protection that belongs to the access asked for, views it once from the beginning of the granule on, and closes the section on every way out; allocating makes, views and closes one section of exactly the bytes needed; a ring makes a section of twice its length and tries at most six times to find room and view it twice, taking away the first view if the second fails, and closes the section; dropping unmaps the view (both views of a ring, the second first) and nothing for an empty map; flush, lock, unlock and the conversions make one call each (Flush::Sync at most one more, for the file given) on the fewest whole pages of the range; advise, reading, writing and using rings make none. No function makes more than 32 calls.", "quantifier": "every program, state, option set and every choice of what Windows refuses", "why_tests_cant": "Calls that fail, retries and leaks on error paths depend on what the system refuses; tests see one order of events.", "anchors": ["src/map.rs:Options::map_if", "src/map.rs:Options::alloc", "src/os/windows.rs:map_file", "src/os/windows.rs:map_anon", "src/os/windows.rs:map_ring", "src/os/windows.rs:unmap", "src/os/windows.rs:unmap_ring", "src/os/windows.rs:flush"]}
{"id": "C140", "title": "A ring that does not fit the address space is refused", "statement": "Ring::new and InfiniteRing::new with a hint for which twice the capacity exceeds the address space return an error on every platform and change nothing: no mapping, handle, port or descriptor appears or disappears.  (False on Windows and macOS: debug builds panic, because 2 * len overflows; a release build on macOS allocates the wrapped-around length and then places len bytes over whatever is behind it, leaving it there when it reports the error, if the system lets it.)", "quantifier": "every hint, page size, address width, build profile and outcome of the system calls", "why_tests_cant": "No test asks for a ring of more than a few pages; the sums overflow only for capacities of at least half the address space.", "anchors": ["src/io/ring.rs:Ring::new", "src/io/ring.rs:InfiniteRing::new", "src/os/unix/mach.rs:map_ring", "src/os/windows.rs:map_ring", "src/os/unix/posix/mod.rs:map_ring"]}
{"id": "C141", "title": "Rings work on macOS in programs with maps", "statement": "On macOS and iOS, Ring::new and InfiniteRing::new do not panic, whatever the kernel answers and whatever maps and rings exist already: they return either the error of the call that failed, after giving back every page they had reserved and leaving all other mappings, files and descriptors as they were, or a ring that is empty, zeroed, of the capacity asked for rounded up to pages, at addresses that were free, made by exactly four calls.  Everything that is said of maps, rings, buffered readers and writers in whole programs holds there too.", "quantifier": "every kernel state, hint (twice the capacity fits the address space, otherwise C140) and outcome of every system call", "why_tests_cant": "CI runs on one system at a time, without fault injection, and rings and maps are tested apart.", "anchors": ["src/os/unix/mach.rs:map_ring", "src/os/unix/mach.rs:unmap_ring", "src/io/ring.rs:Ring::new", "src/io/ring.rs:InfiniteRing::new", "src/os/unix/mod.rs:map_ring"]}
{"id": "C142", "title": "Dropping rings gives everything back on macOS", "statement": "A program on macOS that has dropped all its rings holds no more port rights than when it started.  (False: every ring obtained costs one port right for good; dropping the ring does not give it back.)", "quantifier": "every program: any number of maps and rings, made and dropped in any order, with every outcome of the system calls", "why_tests_cant": "Nothing visible happens until a long-running process hits its port limit.", "anchors": ["src/os/unix/mach.rs:map_ring", "src/os/unix/mach.rs:unmap_ring", "src/io/ring.rs:Ring::drop", "src/io/ring.rs:InfiniteRing::drop"]}
{"id": "C143", "title": "On Windows, BufReader is transparent in every program", "statement": "In a Windows program that makes a BufReader and then does anything (makes, uses and drops maps, rings and other buffers, while files change and the inner reader behaves in any way), the bytes its calls have handed out followed by the buffered bytes are exactly the bytes taken from the inner reader, at most the capacity is buffered, and no call on it panics or faults.", "quantifier": "every reachable program state, every inner reader, every interleaving of calls on the reader with other steps, during which fewer than posBound bytes (counted as calls x capacity) pass through", "why_tests_cant": "The buffer's memory must survive whatever else the program does with the address space, on a system whose views are made and released in other units than pages.", "anchors": ["src/io/buffer.rs:BufReader::new", "src/io/buffer.rs:Read for BufReader", "src/io/buffer.rs:BufRead for BufReader", "src/os/windows.rs:map_ring"]}
{"id": "C144", "title": "On Windows, BufWriter delivers what it accepts in every program", "statement": "In a Windows program that makes a BufWriter and then does anything, the bytes received by the inner writer together with the buffered bytes are those accepted, each once (in order unless a write exactly fills the free space); dropping the writer delivers the rest unless the inner writer's last answer was a refusal (panic, error or zero), and the program then holds its ring no more.", "quantifier": "every reachable program state, every inner writer, every interleaving of calls on the writer with other steps, during which fewer than posBound bytes (counted as calls x capacity) pass through", "why_tests_cant": "The buffer's memory must survive whatever else the program does with the address space, with every behaviour of the inner writer.", "anchors": ["src/io/buffer.rs:BufWriter::new", "src/io/buffer.rs:Write for BufWriter", "src/io/buffer.rs:Drop for BufWriter", "src/os/windows.rs:map_ring", "src/os/windows.rs:unmap_ring"]}
{"id": "C145", "title": "Conversions between Map and MapMut in whole programs on Windows", "statement": "On Windows, at every point of every program, into_map_mut and into_map on a non-empty map do not panic, and succeed exactly if Windows agrees and the map was made with write() or copy(); they give the same map back, converted or (with an error that names the failed call) not; no byte that the map shows, no lock, no file and no other map changes. After into_map_mut has succeeded, every byte that can be read can be written and then reads as written; a map made with neither write() nor copy() can never be converted or written, whatever happens before.", "quantifier": "every program and state it can reach, every map, every answer of Windows, both widths", "why_tests_cant": "Tests convert one fresh map on one machine; that earlier calls, other maps and their places cannot change the outcome is about every program.", "anchors": ["src/map.rs:Map::into_map_mut", "src/map.rs:MapMut::into_map", "src/os/windows.rs:protect"]}
{"id": "C146", "title": "Locked memory in whole programs on Windows", "statement": "On Windows, at every point of every program, a byte of a map is locked exactly if the calls on that map say so: a successful lock_range locks all bytes that share a page with the range, a successful unlock_range unlocks them, once, however often they were locked; failed calls, conversions, and whatever is done with other maps, allocations and rings (including making them where a locked map was dropped) have no effect; a new map is not locked. unlock_range succeeds only if everything in the pages of the range is locked. At every point what is locked is mapped.", "quantifier": "every program and state it can reach, every map, every range whose end does not overflow, every answer of Windows", "why_tests_cant": "Whether memory is locked cannot be seen by a test, and leaks of locks show only when addresses are used again.", "anchors": ["src/map.rs:MapMut::lock_range", "src/map.rs:MapMut::unlock_range", "src/os/windows.rs:lock", "src/os/windows.rs:unlock", "src/os/windows.rs:unmap"]}
{"id": "C147", "title": "Maps and allocations on Windows while other threads act", "statement": "On Windows, while other threads map, allocate, reserve, close, write, and cut or extend any file between any two of its system calls, map_if and alloc never panic and return after at most six calls. What they return is right: a map has the length wanted for a length the file had at some moment during the call, shows the right bytes of a new section of that file and has the right access, and lies inside the section; Ok(None) is returned only if the range lay outside the file at some moment during the call; an allocation has the wanted length and is zero. After an error their section, handle and view are gone. No call touches anything of others, except that map_if sets the length of its own file, and only to what its options name. Any number of threads that make maps, allocations and rings at the same time never share a handle, a view or a reservation, and each of them gets what it would get among strangers.", "quantifier": "every option, every file and length, every answer of Windows, every behaviour of other threads between any two system calls that leaves alone what the call holds, any number of threads making maps, allocations and rings", "why_tests_cant": "The interleavings of several threads' system calls with changes of the file's length cannot be enumerated or forced by a test.", "anchors": ["src/os/windows.rs:map_file", "src/os/windows.rs:map_anon", "src/os/windows.rs:MapHandle", "src/map.rs:Options::map_if", "src/map.rs:Options::alloc"]}
{"id": "C148", "title": "Threads that create rings at the same time on macOS do not disturb each other", "statement": "On macOS, whatever other threads do between the kernel calls of Ring::new or InfiniteRing::new (map, unmap, write, open and close files, make rings themselves \u2014 but leave alone pages they were never told about), the creation does not panic and ends after at most five kernel calls. If it succeeds, the ring is a circular mapping of zeroed memory that came into being during this creation and that no other page, descriptor or name leads to. If it fails, the error is that of the kernel call that failed and every page it had is free again. None of its calls changes a page, byte, file or descriptor that is not its own. Any number of threads can create rings at the same time; no two of them ever have a page in common.", "quantifier": "every number of threads, every interleaving of their kernel calls, every outcome of each call, every ring length of whole pages whose double fits the address space, every behaviour of the rest of the program that leaves the pages of unfinished creations alone", "why_tests_cant": "A test sees the few interleavings the scheduler happens to produce; a map that lands in another thread's reservation between two of its calls, or a second half mapped with another thread's port, shows only under a schedule nobody controls, and kernel calls fail at will only in the model.", "anchors": ["src/os/unix/mach.rs:map_ring", "src/io/ring.rs:Ring::new", "src/io/ring.rs:InfiniteRing::new"]}
{"id": "C149", "title": "Processes that create rings at the same time without memfd do not get in each other's way", "statement": "On systems without memfd_create, any number of processes and threads may create rings at the same time, even at the same nanosecond, so that they try the same names: none panics (after 1970), each gets a shared-memory object of its own that is new and, once returned, has no name by which another program could open it; each removes only the name it made itself, while it still stands for its own object, and never a name of somebody else; afterwards the name space is as before; and a creation has to try again only because the name existed before or another creation is using it at that moment.", "quantifier": "every number of concurrent creations, every interleaving of their system calls and of other programs' changes to the name space (that leave names just made by ring creations alone), every clock and every pattern of failures", "why_tests_cant": "The window between making and removing a name is a few microseconds; a test cannot make two processes meet in it, at the same nanosecond.", "anchors": ["src/os/unix/posix/memfd.rs:memfd_open"]}
{"id": "C150", "title": "A memory entry that covers less than asked does not break a ring on macOS", "statement": "On macOS, mach_make_memory_entry takes the wanted size and hands back the size of the entry it made, which may be less. Whatever size comes back, Ring::new and InfiniteRing::new either give a ring whose two halves of the asked length show the same memory, or fail and leave no page of the reserved address space behind.", "quantifier": "for all task states, ring lengths (in pages), sizes that come back from mach_make_memory_entry (at least one page), and outcomes of the four kernel calls", "why_tests_cant": "The kernel gives shorter entries only for allocations that it keeps as several objects, which needs very large rings or particular kernel versions; tests on ordinary sizes always see the full size come back.", "anchors": ["src/os/unix/mach.rs:79-131", "src/os/unix/mach.rs:99", "src/os/unix/mach.rs:107-128"]}
{"id": "C151", "title": "On Unix, rings are queues in every program", "statement": "On Linux, macOS and other Unixes, at every point of a program that makes, uses and drops any maps and rings while files change and are written back, a Ring it has made and not dropped behaves as a bounded FIFO queue and an InfiniteRing as a lossy queue (write_all included): what can be read and the write slice are the queue's, no call panics or faults, and every call answers as the queue does, whatever else the program has done in between.", "quantifier": "every kernel and program state, ring, history of calls and other actions; at most posBound bytes appended since the last clear", "why_tests_cant": "The tests use one ring at a time, in a program that does nothing else; the ring's memory must survive every interleaving with other mappings and files.", "anchors": ["src/io/ring.rs:Ring", "src/io/ring.rs:InfiniteRing", "src/os/unix/posix.rs:map_ring", "src/os/unix/mach.rs:map_ring", "src/os/unix/posix.rs:unmap_ring"]}
{"id": "C152", "title": "On Unix, BufReader is transparent in every program", "statement": "In a program on Linux, macOS or another Unix that makes a BufReader and then does anything (makes, uses and drops maps, rings and other buffers, while files change and the inner reader behaves in any way), the bytes its calls have handed out followed by the buffered bytes are exactly the bytes taken from the inner reader, at most the capacity is buffered, no call on it panics or faults, and a call changes no memory but the ring's.", "quantifier": "every reachable program state, every inner reader, every interleaving of calls on the reader with other steps, during which fewer than posBound bytes (counted as calls x capacity) pass through", "why_tests_cant": "The buffer's memory must survive whatever else the program does with the address space between two calls, for every behaviour of the inner reader.", "anchors": ["src/io/buffer.rs:BufReader::new", "src/io/buffer.rs:Read for BufReader", "src/io/buffer.rs:BufRead for BufReader"]}
{"id": "C153", "title": "On Unix, BufWriter delivers what it accepts in every program", "statement": "In a program on Linux, macOS or another Unix that makes a BufWriter and then does anything, the bytes received by the inner writer together with the buffered bytes are those accepted, each once (in order unless a write exactly fills the free space); dropping the writer delivers the rest unless the inner writer's last answer was a refusal (panic, error or zero); into_inner returns the inner writer only after it has received everything, and otherwise an error whose writer still has the rest; after the drop or a successful into_inner the program holds the ring no more.", "quantifier": "every reachable program state, every inner writer, every interleaving of calls on the writer with other steps, during which fewer than posBound bytes (counted as calls x capacity) pass through", "why_tests_cant": "The buffer's memory must survive whatever else the program does with the address space, with every behaviour of the inner writer, until the drop.", "anchors": ["src/io/buffer.rs:BufWriter::new", "src/io/buffer.rs:Write for BufWriter", "src/io/buffer.rs:Drop for BufWriter", "src/io/buffer.rs:BufWriter::into_inner"]}
{"id": "C154", "title": "The documentation's ring examples do what they say", "statement": "The ring example of the crate's documentation (fill a Ring::new(4000) with numbered lines until at most 20 bytes of room are left, check that the next line does not fit, read lines 1 and 2, write the next line again) returns Ok and no assertion fails, whatever the state of the process, whenever the ring can be created; if it cannot be created it panics at the unwrap. The same holds for the InfiniteRing example (write lines until the capacity is exceeded, skip over the overwritten tail with consume(20 - read_offset()), read line 2).", "quantifier": "every process state, every outcome of every system call, 32 and 64 bit, with and without overflow checks, Linux and macOS ring creation, every new ring of every capacity from 220 bytes to 2 GiB", "why_tests_cant": "The doc test runs on the page size of the build machine only. Whether the examples work depends on how the lengths of the lines add up modulo the capacity: they work for pages of 4 to 64 KiB and fail for pages of 128 KiB (Ring: the loop's own write! returns WriteZero) and 512 KiB (InfiniteRing: 20 - read_offset() underflows).", "anchors": ["src/lib.rs:96-129", "src/io/ring.rs:19-57", "src/io/ring.rs:185-217", "src/io/ring.rs:134-158", "src/io/ring.rs:282-313"]}
{"id": "C155", "title": "The documentation's buffer examples do what they say, for every text", "statement": "The three BufWriter/BufReader examples of the documentation hold for every capacity and every text shorter than it. into_inner over a writer that accepts n bytes and then fails (any error kind but Interrupted): if n is less than the text, into_inner fails with that error, the recovered ring holds exactly the text from byte n on and the writer is recovered; otherwise into_inner returns the writer. into_parts after a flush in which the writer panicked: the flush unwinds and the ring wrapped in WriterPanicked holds the whole text (for an empty text nothing is written, so the ring is not wrapped and the example's unwrap_err panics). BufWriter at one end and BufReader at the other end of a socket: after write_all and flush, read_line returns exactly the first line, however the two sockets cut the bytes into pieces.", "quantifier": "every process state and system-call outcome, capacity, text, limit of the writer, error kind, and every sequence of partial writes and partial reads of the sockets", "why_tests_cant": "The doc tests run one text with one limit, over a loopback socket that takes and delivers everything at once.", "anchors": ["src/io/buffer.rs:16-33", "src/io/buffer.rs:196-222", "src/io/buffer.rs:264-306", "src/io/buffer.rs:315-354", "src/io/buffer.rs:356-439"]}
{"id": "C156", "title": "Rings and buffers answer the same on every machine", "statement": "What a Ring, InfiniteRing, BufReader or BufWriter answers is determined by its capacity, the calls made on it and (for buffers) the inner reader or writer. Two rings with the same readable bytes, the same bytes in the write slice and the same place within the capacity give the same answers to the same calls, every one of them, and stay in the same state: on Linux or macOS, with 32-bit or 64-bit pointers, with or without overflow checks, wherever the memory was mapped, however often the ring went round before, whatever else goes on in the meantime. Newly made rings of the same capacity are in the same state. For a BufWriter the same capacity and buffered bytes are enough.", "quantifier": "for every pair of targets, kernel states, reachable rings in the same state, and every sequence of calls (write, read, consume, feed, stores into the write slice, clear, both slices, lengths, flags; write_all on infinite rings; read, fill_buf, consume, set_lowat; write, flush), each run interleaved with arbitrary other activity of its own; every inner reader and writer; fewer bytes than the position arithmetic holds (C27)", "why_tests_cant": "tests run on one machine in one build profile and cannot compare two runs on different platforms, let alone all placements of the memory, histories and interleavings", "anchors": ["src/io/ring.rs:35-185", "src/io/ring.rs:187-345", "src/io/mod.rs:26-115", "src/io/buffer.rs:131-192", "src/io/buffer.rs:356-440"]}
{"id": "C157", "title": "The examples of the documentation of maps hold on every Unix system", "statement": "Each example program in the documentation of Map, MapMut and Options (two regions of a file, changing a file through a map, advise, with_options, into_map_mut, into_map, MapMut::new, write, copy, create, create_new, truncate, offset, len with an exact, minimum or maximum length, resize with an exact, minimum or maximum length, open, open_if, map, map_if, alloc) comes to its end: no assertion in it fails and no call panics or faults, and it returns Ok(()) unless the operating system reports an error for one of its calls, which it then returns. The examples that assert success itself (write, open, open_if, map, map_if) end with Ok(()) on every system that grants the calls. The one about minimum lengths needs pages of at least 2000 bytes; with smaller pages its last assertion fails.", "quantifier": "for all Unix systems (page size, open files, other mappings, error and placement choices of the kernel), all targets, both build profiles; for write, copy, truncate, resize also all file contents", "why_tests_cant": "The documentation tests run on one machine with one page size, an empty process and no failing system calls.", "anchors": ["src/lib.rs:46-52", "src/lib.rs:73-86", "src/map.rs:29-32", "src/map.rs:92-97", "src/map.rs:222-231", "src/map.rs:250-252", "src/map.rs:279-285", "src/map.rs:543-547", "src/map.rs:575-581", "src/map.rs:610-618", "src/map.rs:654-656", "src/map.rs:690-702", "src/map.rs:785-871", "src/map.rs:929-1013", "src/map.rs:1057-1058", "src/map.rs:1095-1099", "src/map.rs:1136-1137", "src/map.rs:1172-1176", "src/map.rs:543-547", "src/map.rs:575-581", "src/map.rs:1057-1058", "src/map.rs:1095-1099", "src/map.rs:1136-1137", "src/map.rs:1172-1176", "src/map.rs:1225-1226"]}
{"id": "C158", "title": "Opening files on Windows", "statement": "On Windows, Options::open_if never panics and either fails or succeeds completely. Success: the file with that path has been opened, an existing one or, if creation was asked for, a new empty one; it is open for writing exactly if write access was asked for; it has been truncated and resized as asked, its kept bytes are the old ones and added ones zero; and the range is mapped, None being returned exactly if it lies outside the file. Failure: no file is left open, no mapping left over. Files with other names never change. open is the same, with an InvalidRange error and the file closed where open_if gives None. Without write access, create, create_new and truncate are refused with ERROR_INVALID_PARAMETER before Windows is asked, no file changes in any way, and no writable shared map is made. create_new never opens an existing file; without create or create_new a missing file is not created; a file that is mapped is not truncated by opening it.", "quantifier": "every set of files and open handles, every path, all options with fields in the range of their types, every choice of Windows (errors, addresses), all targets, both build profiles", "why_tests_cant": "The tests open a few files with a few of the option combinations and no call fails.", "anchors": ["src/map.rs:1067-1070", "src/map.rs:1108-1111", "src/map.rs:1182-1215", "src/map.rs:517-712", "src/os/windows.rs:16-79"]}
{"id": "C159", "title": "Programs on Windows leak no file, and keep what they have mapped", "statement": "On Windows, whatever sequence of `open_if`, `map_if`, `alloc`, ring creation, calls on maps and rings, and drops a program makes, while other processes write to the files: the open files are exactly those open at the start and the `File`s the program holds; a held `File` stays the same file; a name keeps its file; the mapped views are exactly those of what the program holds. From when `open_if` returns a map until the map is dropped, byte i of the map is byte offset + i of the file that the path names, even after the `File` is closed, and the file cannot be truncated by opening it. Opening, mapping and closing never panic. Once all is dropped, the process is as it was at the start, unless a map of length 0 was among what was dropped (then its view remains).", "quantifier": "all programs (sequences of calls of any length) on Windows, all options and paths, all file systems, all choices of the operating system including failures, all writes and resizes by other processes, 32 and 64 bit", "why_tests_cant": "The claim is about every sequence of calls and every failure of every call; the project's tests run a handful of single calls, and on Windows cannot see which handles and views a process has left.", "anchors": ["src/map.rs:1067-1070", "src/map.rs:1108-1111", "src/map.rs:1143-1146", "src/map.rs:1182-1215", "src/os/windows.rs:22-70"]}
{"id": "C160", "title": "The examples of the documentation of maps hold on Windows", "statement": "Each example program in the documentation of Map, MapMut and Options (two regions of a file, changing a file through a map, advise, with_options, into_map_mut, into_map, MapMut::new, alloc, create, create_new, truncate, offset, len with exact, min and max, resize with exact, min and max, copy, and, where Windows grants what they assert, write, open, open_if, map and map_if), run on Windows on a file with the contents the example supposes, never fails an assertion, never panics and never touches memory it does not have: it runs to its end unless Windows refuses a call, and then returns the error.", "quantifier": "all Windows systems (page size, allocation granularity), all choices of the system including failures, all states of the process before, all contents of the files where the example does not need particular ones, 32 and 64 bit, overflow checks on and off", "why_tests_cant": "The documentation tests run on one machine, in one state, with one granularity, and not on Windows unless someone has such a machine; a refused call is never seen.", "anchors": ["src/lib.rs:46-87", "src/map.rs:29-32", "src/map.rs:59-63", "src/map.rs:92-97", "src/map.rs:222-231", "src/map.rs:250-252", "src/map.rs:279-285", "src/map.rs:610-618", "src/map.rs:654-656", "src/map.rs:690-702", "src/map.rs:735-736", "src/map.rs:785-793", "src/map.rs:820-838", "src/map.rs:861-871", "src/map.rs:929-1013", "src/map.rs:543-547", "src/map.rs:575-581", "src/map.rs:1057-1058", "src/map.rs:1095-1099", "src/map.rs:1136-1137", "src/map.rs:1172-1176", "src/map.rs:1225-1226"]}
{"id": "C161", "title": "The documentation's ring examples do what they say on Windows", "statement": "On Windows, where rings are rounded to the allocation granularity of 64 KiB, the ring example of the documentation (Ring::new(4000), fill it with numbered lines, the next line does not fit, read two lines, write the next line again) and the InfiniteRing example return Ok and no assertion fails, whatever the state of the process, whenever the ring can be created; afterwards the process has exactly the views, handles and reservations it had before. If the ring cannot be created the example panics at the unwrap, and nothing is left behind.", "quantifier": "every process state, every outcome of every system call (including lost races for the reserved addresses), every memory of the process, 32 and 64 bit, with and without overflow checks", "why_tests_cant": "Doc tests run on Windows at best on one machine with one layout of the address space. Whether the last line that fits leaves at most 20 bytes depends on the capacity, which differs between the platforms.", "anchors": ["src/lib.rs:96-129", "src/io/ring.rs:21-56", "src/io/ring.rs:189-217", "src/os/windows.rs:165-218"]}
{"id": "C162", "title": "The documentation's examples of buffered writers do what they say on Windows", "statement": "On Windows the examples of BufWriter::into_inner (recover what a failing writer did not take), of BufWriter::into_parts (recover the text after the writer panicked) and of BufWriter and BufReader at the two ends of a socket end as documented, for any capacity, any text shorter than it, any limit of the writer and any error kind but Interrupted, however the sockets cut the text; with any other expected text the assertion fails. If the buffer cannot be created, the error is returned (or the unwrap panics). Of the two examples that recover the ring nothing is left in the end. With any other inner writer too, dropping a buffered writer or taking the inner writer out of it hands on a prefix of the text and leaves nothing of the ring, also if the inner writer panics meanwhile.", "quantifier": "every process state, every outcome of every system call, every capacity, text, limit, error kind, every splitting of the stream, 32 and 64 bit, with and without overflow checks", "why_tests_cant": "The doc tests use one text, one capacity and one limit, and sockets that happen to deliver everything at once.", "anchors": ["src/io/buffer.rs:20-31", "src/io/buffer.rs:196-220", "src/io/buffer.rs:262-306", "src/io/buffer.rs:312-349", "src/os/windows.rs:165-218"]}
{"id": "C163", "title": "The crate's own tests of rings pass everywhere, except that of the `bytes` traits on Windows", "statement": "On Unix with any page size from 4 KiB to 16 MiB, whatever the process has done before and whatever the system calls do, each of the crate's tests of rings (`size`, `wrap`, `ring_sizes_vs_page_size`, `overwrite`, `test_bytes_sanity`) passes if its rings can be created, and leaves no mapping and no descriptor behind; otherwise it panics on its `expect`. The same holds on Windows for any allocation granularity of that range, byte order and word size, with the exception of `test_bytes_sanity`: it takes the capacity of `Ring::new(page_size())` for `page_size()`, which holds exactly when the allocation granularity is the page size, so on Windows (4 KiB pages, 64 KiB granularity) it always panics.", "quantifier": "all targets (word sizes, with and without overflow checks), all well-formed states of the process, all answers of the system, all page sizes and granularities from 4 KiB to 16 MiB, both byte orders", "why_tests_cant": "The tests run on the machine at hand, with its page size and a willing system; that they pass on all others, and which of them does not, cannot be seen by running them there.", "anchors": ["src/io/mod.rs:126-138", "src/io/mod.rs:141-157", "src/io/mod.rs:160-214", "src/io/mod.rs:217-230", "src/io/bytes.rs:45-68"]}
{"id": "C164", "title": "The crate's own tests of maps pass on every Unix", "statement": "On Unix, whatever the process has done before and whatever the system calls do, each of the crate's tests of maps (`alloc_min`, `alloc_exact`, `alloc_offset`, `read_end`, `read_min`, `read_max`, `read_exact`, `copy`, `write_into_mut`, `truncate`, `volatile`, `unaligned`) either returns `Ok` or returns an error carrying an OS error code; no assertion fails and no access faults. This holds for every page size (over 5 bytes for `alloc_offset`), word size and byte order; `volatile` needs that the alignment of `u64` divides 8 and the page size. The test `allocation_size` passes on every target, also with any other power of two (but 1) in place of 4096. Writing one more byte in `alloc_offset` faults, as its comment says.", "quantifier": "all targets (word sizes, with and without overflow checks), all well-formed states of the process, all answers of the system, all page sizes, both byte orders and all alignments of u64 that divide 8 and the page", "why_tests_cant": "The tests run on the machine at hand, with its page size, byte order and a willing system, in a fresh process; that they pass on all others cannot be seen by running them there, and the comment on the fault of one more byte is not tested at all.", "anchors": ["src/lib.rs:618-645", "src/lib.rs:647-658", "src/lib.rs:660-669", "src/lib.rs:671-687", "src/lib.rs:689-732", "src/lib.rs:734-748", "src/lib.rs:750-776", "src/lib.rs:778-792", "src/lib.rs:810-838", "src/lib.rs:840-868"]}
{"id": "C165", "title": "The crate's own tests of maps pass on Windows", "statement": "On Windows, whatever the process has done before and whatever the system calls do, each of the crate's tests of maps (`alloc_min`, `alloc_exact`, `alloc_offset`, `read_end`, `read_min`, `read_max`, `read_exact`, `copy`, `write_into_mut`, `truncate`, `volatile`, `unaligned`) either returns `Ok` or returns an error carrying an OS error code; no assertion fails and no access faults. This holds for every page size (over 5 bytes for `alloc_offset`), allocation granularity, word size and byte order; `volatile` needs that the alignment of `u64` divides 8 and the granularity.", "quantifier": "all targets (word sizes, with and without overflow checks), all well-formed states of the process, all answers of the system, all page sizes and granularities, both byte orders and all alignments of u64 that divide 8 and the granularity", "why_tests_cant": "The tests run on the machine at hand, with its page size, byte order and a willing system, in a fresh process; that they pass on all others, and when calls fail, cannot be seen by running them there.", "anchors": ["src/lib.rs:647-658", "src/lib.rs:660-669", "src/lib.rs:671-687", "src/lib.rs:689-732", "src/lib.rs:734-748", "src/lib.rs:750-776", "src/lib.rs:778-792", "src/lib.rs:810-838", "src/lib.rs:840-868"]}
{"id": "C166", "title": "Numbers read and written through maps on Windows", "statement": "On Windows, in memory that can be read and written (as that of any map allocated for writing, or of a file opened for writing or as a copy), a scalar that lies within the map is written and read back, with its native bytes and all other bytes of the map as they were, for shared and copy-on-write maps alike; a volatile access in range panics exactly if its address is not a multiple of the type's alignment; an access that ends beyond the map panics whatever the memory, unless its end wraps around `usize` in a build without overflow checks, in which case it touches the memory below the map.", "quantifier": "all targets, all scalar types, values, offsets and spans, both byte orders, all alignments, all states of the process in which the memory can be written", "why_tests_cant": "Round trip, native representation and frame for all types, offsets and both kinds of mapping; the wrap-around at the end of the address space is not reachable by ordinary tests.", "anchors": ["src/lib.rs:486-490", "src/lib.rs:494-497", "src/lib.rs:512-516", "src/lib.rs:520-523", "src/lib.rs:588-597", "src/lib.rs:600-608"]}
{"id": "C167", "title": "On Windows os::protect takes effect page by page, and the latest granted call decides", "statement": "On Windows, a program that has memory that can be read and written may call os::protect on any ranges in any order, between reads and writes. Every byte can always be read; a byte can be written exactly if the latest granted call about its page asked for ReadWrite (or ReadCopy), or there was none, and otherwise writing is a memory fault and nothing else stops the program; a byte written is read back and no other changes. If into_map_mut or into_map succeeds, every byte of a map of a view with write access can be written again. New anonymous memory is never protected, whatever was protected before. The crate's test alloc_offset passes, and with one byte more it faults, as its comment says.", "quantifier": "every process state, every outcome of every system call, every sequence of calls, every range (also parts of pages, several pages, memory of others), every map, every byte", "why_tests_cant": "The crate's test protects one byte at one offset and cannot contain the faulting write; a wrong range, a wrong constant or a protection that outlives its memory shows only as an access violation in some other program.", "anchors": ["src/os/windows.rs:231-244", "src/lib.rs:671-687", "src/map.rs:101-107", "src/map.rs:289-295", "src/map.rs:420-434"]}
{"id": "C168", "title": "Copying from one ring to another", "statement": "std::io::copy from a Ring or InfiniteRing to another ring, in a program that holds any other maps and rings: if the target is a Ring with room for all readable bytes of the source, the result is Ok with their number, they are appended in order, and the source is empty; if the room is too small, the result is WriteZero, the target is full with the first bytes, and the source has given up whole pieces (8 KiB in the standard library) up to and including the first that did not fit, so that at least one byte is always lost; if the target is an InfiniteRing the result is always Ok, the source is empty, and the target holds the last capacity bytes of what both held. Only functions of the two rings are called.", "quantifier": "every reachable program state, every two distinct rings of either kind, every contents, every piece size", "why_tests_cant": "Tests copy a few bytes; here every fill level, capacity, wrap position and piece size is covered, and that the loss happens in every case without room.", "anchors": ["src/io/ring.rs:144-158", "src/io/ring.rs:292-318"]}
{"id": "C169", "title": "read_exact and read_to_end on an InfiniteRing", "statement": "On an InfiniteRing, read_exact of m bytes returns the next m readable bytes, or, if fewer are readable, stores all of them and returns UnexpectedEof; read_to_end returns all readable bytes, whatever positive sizes the vector offers, and leaves the ring empty.", "quantifier": "every reachable InfiniteRing, every length, every sequence of destination sizes", "why_tests_cant": "All states after overwriting, all lengths and all growth patterns of the destination.", "anchors": ["src/io/ring.rs:292-296"]}
{"id": "C170", "title": "Rings through the standard library's adapters", "statement": "On a Ring or InfiniteRing: take(limit) read to its end gives the first limit readable bytes (all, if fewer) and leaves the others in the ring; bytes() yields exactly the readable bytes, one by one, and then ends; chain of two rings read to its end gives the readable bytes of the first and then those of the second and leaves both empty; read_vectored fills only the first slice that is not empty; write_vectored appends only what fits of the first slice that is not empty (on an InfiniteRing: its first capacity bytes) and returns that number.", "quantifier": "every reachable ring of either kind, every contents, limit, sequence of destination sizes and list of slices", "why_tests_cant": "All fill levels, wrap positions, limits, destination sizes and lists of slices.", "anchors": ["src/io/ring.rs:144-158", "src/io/ring.rs:292-301"]}
{"id": "C171", "title": "Copying from a BufReader to a Ring", "statement": "std::io::copy from a BufReader to a Ring appends to the ring, in order, the bytes that were buffered and those then read, up to the room of the ring. Ok(n): the inner reader reported end of file, everything was moved and n is its length. WriteZero: the ring is full and bytes that were read are lost. Any other error, and any panic, is the inner reader's, and then nothing is lost. Interrupted reads are retried. No other map or ring changes.", "quantifier": "every reachable program state with a BufReader and a Ring, every honest inner reader, every contents, every sequence of copy-buffer sizes", "why_tests_cant": "All fill levels and wrap positions of two rings, all inner readers (short reads, errors, panics) and all sizes of the copy buffer.", "anchors": ["src/io/buffer.rs:137-151", "src/io/ring.rs:150-158"]}
{"id": "C172", "title": "Copying from a Ring to a BufWriter", "statement": "std::io::copy from a Ring to a BufWriter takes the bytes off the ring in order; what the inner writer has received and what is in the writer's buffer are together exactly what was in the buffer and what was moved, nothing lost or doubled except, on an error or panic of the inner writer, the rest of the piece in hand. Ok(n): the ring is empty and n is the number of bytes that were in it; a flush that then succeeds has delivered everything. No other map or ring changes. The inner writer receives the bytes in order.", "quantifier": "every reachable program state with a Ring and a BufWriter, every honest inner writer, every contents, every size of the copy buffer", "why_tests_cant": "All fill levels and wrap positions of two rings, all inner writers (short writes, errors, panics) and all sizes of the copy buffer.", "anchors": ["src/io/ring.rs:144-148", "src/io/buffer.rs:422-440"]}
{"id": "C173", "title": "Copying from a BufReader to an InfiniteRing", "statement": "std::io::copy from a BufReader to an InfiniteRing moves, in order, the bytes that were buffered and those then read; the ring never refuses, and ends up holding the last bytes of what it held and what was moved, as many as it has capacity for. Ok(n): the inner reader reported end of file, everything was moved and n is its length. Any error or panic is the inner reader's. No bytes are lost on the way; interrupted reads are retried. No other map or ring changes.", "quantifier": "every reachable program state with a BufReader and an InfiniteRing, every honest inner reader, every contents, every sequence of copy-buffer sizes", "why_tests_cant": "All fill levels and wrap positions of two rings, all inner readers (short reads, errors, panics) and all sizes of the copy buffer.", "anchors": ["src/io/buffer.rs:137-151", "src/io/ring.rs:298-318"]}
{"id": "C174", "title": "Copying from an InfiniteRing to a BufWriter", "statement": "std::io::copy from an InfiniteRing to a BufWriter takes the bytes off the ring in order; what the inner writer has received and what is in the writer's buffer are together exactly what was in the buffer and what was moved, nothing lost or doubled except, on an error or panic of the inner writer, the rest of the piece in hand. Ok(n): the ring is empty and n is the number of bytes that were readable; a flush that then succeeds has delivered everything. No other map or ring changes. The inner writer receives the bytes in order.", "quantifier": "every reachable program state with an InfiniteRing and a BufWriter, every honest inner writer, every contents, every size of the copy buffer", "why_tests_cant": "All fill levels and wrap positions of two rings, all inner writers (short writes, errors, panics) and all sizes of the copy buffer.", "anchors": ["src/io/ring.rs:292-296", "src/io/buffer.rs:422-440"]}
{"id": "C175", "title": "BufReader through take and bytes", "statement": "reader.take(n).read_to_end gives the next bytes of the stream, never more than n, and what the inner reader handed over beyond them stays buffered for the next call; success means that n bytes were read or the inner reader reported end of file; two such calls in a row go on where the first stopped. reader.bytes().next() takes exactly one byte off the stream, and is None only at end of file. Errors and panics are the inner reader's and lose nothing; interrupted reads are retried. No other map or ring changes.", "quantifier": "every reachable program state with a BufReader, every honest inner reader, every limit, contents and sequence of destination sizes", "why_tests_cant": "All fill levels, low-water marks and wrap positions, all inner readers (short reads, errors, panics), all limits.", "anchors": ["src/io/buffer.rs:137-151", "src/io/buffer.rs:180-192"]}
{"id": "C176", "title": "Formatted text to a BufWriter", "statement": "write! to a BufWriter accepts a front part of the text; what the inner writer has received and what is in the buffer are together exactly what was in the buffer and that part, nothing lost or doubled. Ok(()): the whole text; a flush that then succeeds has delivered everything. An error or panic is the inner writer's and means that some of the text is missing. No other map or ring changes. The inner writer receives the text in order.", "quantifier": "every reachable program state with a BufWriter, every honest inner writer, every text and every way to cut it into pieces", "why_tests_cant": "All fill levels and wrap positions, all inner writers (short writes, errors, panics), all texts and pieces.", "anchors": ["src/io/buffer.rs:422-440"]}
{"id": "C177", "title": "Exactly what a BufWriter delivers, and in which order", "statement": "If the inner writer takes all it is given, any sequence of write_all calls (one write!, for example) and a flush succeed, and the bytes arrive in an order that depends only on the lengths of the pieces and the fill level: a piece that leaves room is kept, one that fills the buffer to the last byte goes on at once ahead of what is buffered, and for a longer one what is buffered goes on first. So the bytes arrive in the order written, whatever they are, if and only if no non-empty piece fills the buffer to the last byte while there is something in it.", "quantifier": "every reachable program state with a BufWriter, every inner writer that takes all it is given, every sequence of pieces", "why_tests_cant": "All fill levels and wrap positions, all sequences of lengths; both directions of the equivalence.", "anchors": ["src/io/buffer.rs:356-376", "src/io/buffer.rs:422-440"]}
{"id": "C178", "title": "Chained buffered readers, and vectored reads and writes of buffered readers and writers", "statement": "Two BufReaders joined with Read::chain and read to the end give the first stream whole and then the second whole; the second reader is not touched before the first is at its end with an empty buffer; nothing handed over by either inner reader is lost, also when one of them fails, panics or is interrupted, and an error or panic is that of the reader whose turn it is. read_vectored on a BufReader stores the next bytes of the stream into the first slice that is not empty and leaves the others alone. write_vectored on a BufWriter that returns Ok(m) has accepted exactly the first m bytes of the slices put one after the other, and on an error none.", "quantifier": "every reachable state of a program, all honest inner readers and writers, all buffer contents, destinations and slices, positions below the wrap-around bound", "why_tests_cant": "The readers can answer each call in any way, and the switch from the first to the second can fall anywhere relative to the buffers' fill levels.", "anchors": ["src/io/buffer.rs:Read for BufReader", "src/io/buffer.rs:Write for BufWriter"]}
{"id": "C179", "title": "io::copy between rings on Windows moves the bytes in order, or stops at WriteZero with a full Ring", "statement": "In a program on Windows that makes a Ring or InfiniteRing a and another ring b of either kind, at any two times, and uses both and does anything else with maps, rings and files in between: `io::copy(&mut a, &mut b)` never panics or faults. If b is a Ring and all readable bytes of a fit into it, it returns Ok with their number, b holds its own bytes followed by all of a's, and a is empty. If they do not fit, it returns WriteZero, b is full (its own bytes followed by as many of a's as there was room for), and a has lost whole pieces of the copy buffer up to and including the first that did not fit. If b is an InfiniteRing, the result is Ok, a is empty, and b holds the last capacity bytes of what both held. Nothing but calls of functions of the two rings takes place, and both rings go on working as queues afterwards.", "quantifier": "All Windows programs (states reachable by any operations), all memories the process can have, all pairs of different rings and all their histories, all copy buffer sizes, both pointer widths.", "why_tests_cant": "Tests copy between two fresh rings on one machine; they do not vary the history of the rings, the other mappings of the process, or the sizes, and the repository's tests of rings run on the operating system at hand.", "anchors": ["src/io/ring.rs:46-61", "src/io/ring.rs:114-158", "src/io/ring.rs:245-296", "src/os/windows.rs:131-189"]}
{"id": "C180", "title": "read_exact, read_to_end, write_all, copy_to_slice and put_slice on rings on Windows", "statement": "In a program on Windows that makes a Ring or an InfiniteRing, uses it and does anything else with maps, rings and files: `read_exact` of n bytes hands out the first n readable bytes, with Ok if there are that many, and with UnexpectedEof and all readable bytes if not; `read_to_end` hands out all readable bytes in order, whatever sizes it reads in; `write_all` to a Ring appends the bytes there is room for, with Ok if these are all and WriteZero if not; `write_all` to an InfiniteRing is always Ok and leaves the last capacity bytes of what it held and was given; `copy_to_slice` and `put_slice` of the bytes crate do what they are asked for exactly when the Ring has enough readable bytes, or enough room, and panic otherwise. Nothing else panics or faults, nothing but functions of that ring is called, and the ring goes on as a queue with the rest.", "quantifier": "All Windows programs (states reachable by any operations), all memories the process can have, all histories of the ring, all lengths and read sizes, both pointer widths.", "why_tests_cant": "Tests use a few fixed lengths on a fresh ring and the operating system at hand; here every fill level, wrap position and length is covered, in every state of the process.", "anchors": ["src/io/ring.rs:144-158", "src/io/ring.rs:292-318", "src/io/bytes.rs:9-38", "src/os/windows.rs:131-189"]}
{"id": "C181", "title": "take, bytes, split, lines, read_line and write! on rings on Windows", "statement": "In a program on Windows that makes a Ring or an InfiniteRing, uses it and does anything else with maps, rings and files: `take(limit)` read to its end gives the first limit readable bytes and leaves the others in the ring; `bytes()` yields the readable bytes one by one; `split(d)` yields them cut at every d; `lines()` yields every line without its line ending, and an error for a line that is not UTF-8, which costs no other line; `read_line` appends the first line to the caller's string, or leaves the string as it was and reports InvalidData if the line is not UTF-8; `write!` of a text in any pieces to a Ring is Ok exactly if the whole text fits and otherwise fills the ring with its beginning and reports WriteZero; `write!` to an InfiniteRing always succeeds and leaves the last capacity bytes. Nothing panics or faults, only functions of that ring are called, and the ring goes on as a queue with what is left.", "quantifier": "All Windows programs (states reachable by any operations), all memories the process can have, all histories of the ring, all limits, delimiters, texts and pieces, both pointer widths, any notion of valid text.", "why_tests_cant": "Tests use a few fixed texts on a fresh ring and the operating system at hand; here every text, fill level and wrap position is covered, in every state of the process.", "anchors": ["src/io/ring.rs:134-158", "src/io/ring.rs:282-318", "src/os/windows.rs:131-189"]}
{"id": "C182", "title": "chain of two rings, and vectored reads and writes, on Windows", "statement": "In a program on Windows that makes rings at any times, uses them and does anything else with maps, rings and files: `a.chain(b)` of a Ring or InfiniteRing a and another Ring b, read to its end in pieces of any sizes, gives the readable bytes of a and then those of b, and leaves both empty; `read_vectored` hands out what the first slice that is not empty has room for and leaves the rest readable; `write_vectored` takes what fits of the first slice that is not empty (on an InfiniteRing its first capacity bytes, dropping the oldest bytes). Nothing panics or faults, only functions of these rings are called, and the rings go on as queues.", "quantifier": "All Windows programs (states reachable by any operations), all memories the process can have, all histories of the rings, all read sizes and slice lists, both pointer widths.", "why_tests_cant": "Tests use a few fixed fills and slices on fresh rings and the operating system at hand; here every fill level and wrap position of both rings is covered, in every state of the process.", "anchors": ["src/io/ring.rs:144-154", "src/io/ring.rs:292-301", "src/os/windows.rs:131-189"]}
{"id": "C183", "title": "Copying from a BufReader to a Ring on Windows", "statement": "On Windows, in a program that makes a BufReader and a Ring at any two times and does anything else, std::io::copy from the one to the other appends to the ring, in order, the bytes that were buffered and those then read, up to the room of the ring. Ok(n): the inner reader reported end of file, everything was moved and n is its length. WriteZero: the ring is full and bytes that were read are lost. Any other error, and any panic, is the inner reader's, and then nothing is lost. Both can be used on as before, and every other ring of the program holds what it held.", "quantifier": "every program on Windows with a BufReader and a Ring, every honest inner reader, every contents, every memory the process can have, every sequence of copy-buffer sizes", "why_tests_cant": "All histories of a program on Windows, all fill levels and wrap positions of two rings, all inner readers and all sizes of the copy buffer.", "anchors": ["src/io/buffer.rs:137-151", "src/io/ring.rs:150-158", "src/os/windows.rs:131-189"]}
{"id": "C184", "title": "Copying from a BufReader to an InfiniteRing on Windows", "statement": "On Windows, in a program that makes a BufReader and an InfiniteRing at any two times and does anything else, std::io::copy from the one to the other never fails because of the ring: the bytes read are those moved and those still buffered, and the ring holds the last bytes of what it held and what was moved, as many as it has capacity for. Ok(n): everything up to end of file was moved and n is its length. An error or panic is the inner reader's. Both can be used on as before, and every other Ring of the program holds what it held.", "quantifier": "every program on Windows with a BufReader and an InfiniteRing, every honest inner reader, every contents, every memory the process can have, every sequence of copy-buffer sizes", "why_tests_cant": "All histories of a program on Windows, all fill levels and wrap positions of two rings, all inner readers and all sizes of the copy buffer.", "anchors": ["src/io/buffer.rs:137-151", "src/io/ring.rs:298-318", "src/os/windows.rs:131-189"]}
{"id": "C185", "title": "Copying from a Ring to a BufWriter on Windows", "statement": "On Windows, in a program that makes a Ring and a BufWriter at any two times and does anything else, std::io::copy from the one to the other takes bytes off the front of the ring and hands them to the writer, none lost or doubled, in order. Ok(n): the ring is empty and n is the number of bytes that were in it. An error or panic is the inner writer's; what was read but refused is then lost. Both can be used on as before, and every other Ring of the program holds what it held.", "quantifier": "every program on Windows with a Ring and a BufWriter, every honest inner writer, every contents, every memory the process can have, every size of the copy buffer", "why_tests_cant": "All histories of a program on Windows, all fill levels and wrap positions of two rings, all inner writers and all sizes of the copy buffer.", "anchors": ["src/io/ring.rs:144-148", "src/io/buffer.rs:422-440", "src/os/windows.rs:131-189"]}
