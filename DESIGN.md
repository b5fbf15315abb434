# DESIGN — a Lean 4 model of vmap-rs

## The model

The model is a set of total, computable Lean functions that follow the Rust code function by
function (`lean/Verif/Model/`). Every definition cites the file and lines it models, and says
what it simplifies.

* **Integers.** `usize`/`u64` are `Nat` with explicit bounds. Every Rust `+`, `-`, `*` goes through
  `addU`/`subU`/`mulU`, which take a `Target` = (32- or 64-bit `usize`) × (overflow checks on = debug,
  off = release): on overflow they *panic* (debug) or *wrap* (release). `as` casts are explicit `%`.
* **Panics and memory faults** are values (`Fault.panic`, `Fault.memory`) of the error monad `Exec`.
  A theorem that a call returns `ok` says that it neither panics nor touches an unmapped or
  forbidden address.
* **Kernel** (`Model/Kernel`). Page table, memory objects (bytes and length), stable storage, file
  descriptors, a name space, a log of system calls, and an *oracle* that decides for every system call
  whether it fails, with which errno, and which address `mmap(NULL, …)` picks. Theorems quantify over
  all kernels and all oracles, hence over all failure points and layouts.
* **Ring, InfiniteRing, Map, MapMut, Options, Span** run on that kernel: slices are address ranges, reads
  and writes go through the page table, so circular aliasing, bounds and copy-on-write are
  consequences of the system calls the code makes.
* **BufReader, BufWriter** take an arbitrary inner reader or writer, which may lie about counts, fail,
  be interrupted or panic. Unbounded loops take fuel; running out of fuel is the outcome "still
  running", so every statement holds at every intermediate point.
* **page_size/allocation_size** are threads with interleaved steps; a relaxed load returns any value
  ever stored.
* **macOS**: the calls of mach.rs act on the same kernel state as maps (`Model/Darwin`), so whole programs
  run there too; `Model/Mach` has them once more on a task of their own, with what a child inherits.
* **Windows** (`Model/Windows`) has its own environment.
* **Whole programs** (`Spec/World`, on Windows `Spec/WinWorld`): any number of maps, rings and files
  used in any order; with ring creation interrupted by other threads in `Spec/Threads`. `Spec/Race` has
  other processes act between the system calls of `map_if` and `open_if`. `Spec/Fork` follows parent and
  child after `fork`.

Specifications live in `Verif/Spec/` and do not use the model's helper functions. Property theorems
live in `Verif/Props/`, each followed by an `example` with a non-trivial instance of its hypotheses.
Helper lemmas live in `Verif/Proofs/`.

## Trusted base

* Lean 4.33.0's kernel, and the axioms listed with each theorem below (at most `propext`,
  `Classical.choice`, `Quot.sound`).
* The reading of the Rust source: the model is written by hand from `/repo`; the code is never run.
* The environment as written down in the model:
  * Linux `mmap`, `munmap`, `mprotect`, `msync`, `madvise`, `mlock`, `munlock`, `ftruncate`,
    `memfd_create`, `open`, `close`, `fstat` (Model/Kernel, Model/File). In particular: the last page of
    the address space is never mapped; `munmap` fails only for misaligned or empty ranges; a failing
    `mprotect` changes nothing; a failing `MAP_FIXED` mapping may or may not have removed the old one;
    `MAP_FIXED` otherwise replaces; files are plain names, permission checks are the oracle's; a
    copy-on-write page keeps its private copy when the file is cut before it (POSIX leaves this open;
    Linux drops such copies, and the page then faults until the file grows again).
  * `fork` (Model/Fork): the child has the same addresses and descriptors; private pages are copied as of
    the fork, shared ones stay shared (for rings on macOS, where the inheritance is that of the Mach
    calls, see Model/MachFork). Two processes' calls do not overlap in time.
  * Stable storage: `msync(MS_SYNC)` writes the shared pages of the range; the kernel may write back
    any byte at any time; power fails between calls, not inside one.
  * std: `OpenOptions::open`, `File::set_len`, `File::metadata`, the default methods of `Read`, `Write`
    and `BufRead`, formatting of integers, `CStr`. The bytes crate's default methods. The kind and
    message tables of `system_error` are parameters.
  * Mach `vm_allocate`, `vm_map`, `vm_deallocate`, `mach_make_memory_entry`; the Windows calls of
    Model/Windows, after their documentation. Other threads of the same process appear as
    failing calls (lost races) and, around the calls of ring creation, `map_if` and `alloc`, as anything
    that leaves the call's own handle, section, views and reservation alone (Spec/WinJob, Spec/WinMapJob;
    for macOS Spec/MachJob). For the shared-memory name space of targets without memfd, other programs do
    not remove names that ring creations have made (Spec/ShmJob).
* An inner reader or writer is a function of its own state and the request; it does not reach the
  ring's memory except through the slice it is given.

## Code that is modelled

| source | model |
|---|---|
| src/lib.rs:168-229, 285-462 (enums, Size) | Model/Size, Unix, Map |
| src/lib.rs:230-283 (cached sizes) | Model/SysInfo |
| src/lib.rs:465-608 (Span, SpanMut) | Model/Span |
| src/map.rs (Map, MapMut, Options) | Model/Map, Model/MapJob (map_if and open_if cut into system calls), Model/WinMapJob (the same on Windows), Model/File (std), Model/Views, Model/Windows for the Windows layer |
| src/error.rs | Model/Error |
| src/io/mod.rs, src/io/ring.rs | Model/Ring, RingApi, RingStd |
| src/io/buffer.rs | Model/Buffer, Model/BufferStd (delegating impls, IntoInnerError, std loops), Model/Lines (line iterators) |
| src/os/unix/mod.rs | Model/Unix on Model/Kernel |
| src/os/unix/posix/mod.rs, memfd.rs (all variants) | Model/RingMap, Model/RingJob (the same, cut into system calls), Model/Memfd, Model/RingShm, Model/ShmJob (the fallback memfd_open cut into system calls) |
| src/os/unix/mach.rs | Model/Darwin (on the kernel state of maps), Model/MachJob (map_ring cut into kernel calls), Model/Mach, Model/MachShort (memory entries that cover less than asked) |
| src/os/windows.rs | Model/Windows |



## Per property

For each property: what of the code is modelled, how the proof goes, the theorems with the axioms
they depend on (p = `propext`, c = `Classical.choice`, q = `Quot.sound`, – = none), and the status.
No theorem depends on any other axiom. Theorem names omit the `Vmap.` prefix. `…_full`/`…_false`
names: the full claim is written down as a definition and refuted.


### C01 — Size::round is the least multiple not below its argument (proved)

* Modelled: `Size` (src/lib.rs:285-462) over checked or wrapping arithmetic, bitwise and, complement, shifts.
* Proof: `x &&& !(u-1)` is shown to be `x / u * u` for powers of two (Proofs/Size), then division arithmetic.
* Theorems: `C01_round_least_multiple` [pcq].

### C02 — Size::truncate and Size::offset split an address (proved)

* Modelled: `Size` (src/lib.rs:285-462) over checked or wrapping arithmetic, bitwise and, complement, shifts.
* Proof: same bit lemma; the subtraction `unit - 1` cannot underflow.
* Theorems: `C02_truncate_offset_split` [pcq].

### C03 — Size::count and Size::size convert between bytes and units (proved)

* Modelled: `Size` (src/lib.rs:285-462) over checked or wrapping arithmetic, bitwise and, complement, shifts.
* Proof: shifts by `trailing_zeros` are multiplication and division; the `as u32` is explicit.
* Theorems: `C03_count` [pcq], `C03_size` [pq], `C03_size_count` [pcq].

### C04 — Rounding never silently shrinks a request (partial)

* Modelled: `Size` (src/lib.rs:285-462) over checked or wrapping arithmetic, bitwise and, complement, shifts.
* Proof: case split on wrap-around; witness by evaluation; exact characterisation (Props/Exact).
* Theorems: `C04_round_not_below_partial` [pcq], `C04_round_shrinks` [pq], `C04_round_zero` [pcq], `C04_iff` [pcq].
* Gap: False in release builds exactly when len + unit exceeds the address space, where the result is always 0 (characterised by an iff); proved everywhere else.

### C05 — Size::bounds is the smallest enclosing page range (proved)

* Modelled: `Size` (src/lib.rs:285-462) over checked or wrapping arithmetic, bitwise and, complement, shifts.
* Proof: C01/C02 applied to `offset` and `len + offset`; minimality against every aligned range.
* Theorems: `C05_bounds_enclosing` [pcq], `C05_bounds_empty` [pcq], `C05_exact` [pcq], `C05_in_space` [pcq].
* Note: C05_exact gives the arguments for which it holds by an iff; C05_in_space is the statement as written.

### C06 — Cached page and allocation sizes are right under every schedule (proved)

* Modelled: `page_size`, `allocation_size`, `load_system_info` as small steps of any number of threads; each relaxed load may see any value ever stored (Model/SysInfo). Unix `system_info`.
* Proof: invariant over schedules by induction (stored values are 0 or right; each thread's output is a prefix of the right answers); a step count gives completion.
* Theorems: `C06_sizes` [pcq], `C06_unix` [p], `C06_used` [p].
* Note: Relaxed loads may return any value ever stored, which is more than Rust's memory model allows.

### C07 — Ring is a bounded FIFO byte queue (proved)

* Modelled: `Ring` and the `SeqRead`/`SeqWrite` traits (src/io/ring.rs, src/io/mod.rs) running on the model kernel: slices are address ranges, bytes go through the page table.
* Proof: the window view: the bytes of the ring's memory seen from the write position are (free space, readable bytes); each call is one rewriting of that window (Proofs/Ring, RingView, Window), then induction over the list of calls. The specification is a plain list queue (Spec/Queue).
* Theorems: `C07_ring_fifo` [pcq], `C07_ring_step` [pcq], `C07_ring_history` [pcq].

### C08 — Ring lengths always add up (proved)

* Modelled: `Ring` and the `SeqRead`/`SeqWrite` traits (src/io/ring.rs, src/io/mod.rs) running on the model kernel: slices are address ranges, bytes go through the page table.
* Proof: invariant over call lists.
* Theorems: `C08_ring_lengths` [pcq].

### C09 — Ring slices are contiguous, mapped and self-disjoint (proved)

* Modelled: `Ring` and the `SeqRead`/`SeqWrite` traits (src/io/ring.rs, src/io/mod.rs) running on the model kernel: slices are address ranges, bytes go through the page table.
* Proof: the page table sends address `ptr+i` to byte `i mod cap` of one object (C25), so distinct offsets below cap are distinct bytes.
* Theorems: `C09_ring_slices` [pcq].

### C10 — Ring writes never touch unread bytes (proved)

* Modelled: `Ring` and the `SeqRead`/`SeqWrite` traits (src/io/ring.rs, src/io/mod.rs) running on the model kernel: slices are address ranges, bytes go through the page table.
* Proof: store/load frame lemmas through the page table.
* Theorems: `C10_ring_write` [pcq].

### C11 — Ring consume and feed clamp any argument (proved)

* Modelled: `Ring` and the `SeqRead`/`SeqWrite` traits (src/io/ring.rs, src/io/mod.rs) running on the model kernel: slices are address ranges, bytes go through the page table.
* Proof: u64 positions: the clamped sums stay below the bound of C08.
* Theorems: `C11_ring_consume` [pcq], `C11_C12_ring_feed` [pcq].

### C12 — Feeding publishes exactly what was placed in the write slice (proved)

* Modelled: `Ring` and the `SeqRead`/`SeqWrite` traits (src/io/ring.rs, src/io/mod.rs) running on the model kernel: slices are address ranges, bytes go through the page table.
* Proof: the window view: the bytes of the ring's memory seen from the write position are (free space, readable bytes); each call is one rewriting of that window (Proofs/Ring, RingView, Window), then induction over the list of calls.
* Theorems: `C11_C12_ring_feed` [pcq], `C12_ring_poke` [pcq].

### C13 — Ring::clear empties the ring and nothing else (proved)

* Modelled: `Ring` and the `SeqRead`/`SeqWrite` traits (src/io/ring.rs, src/io/mod.rs) running on the model kernel: slices are address ranges, bytes go through the page table.
* Proof: positions reset; the memory is untouched by definition of the kernel state; then C07's relation holds again.
* Theorems: `C13_ring_clear` [pcq].

### C14 — write_all on a Ring succeeds exactly when the data fits (proved)

* Modelled: `Ring` and the `SeqRead`/`SeqWrite` traits (src/io/ring.rs, src/io/mod.rs) running on the model kernel: slices are address ranges, bytes go through the page table. std's `Write::write_all` loop restated.
* Proof: induction on std's loop.
* Theorems: `C14_ring_write_all` [pcq].

### C15 — Ring::new capacity (proved)

* Modelled: `map_ring`/`unmap_ring` of src/os/unix/posix/mod.rs with `memfd_create`, `ftruncate`, three `mmap`s, `close`, on a kernel whose oracle decides every outcome. `Ring::new`, `InfiniteRing::new`.
* Proof: case analysis over the system calls; C01 for the size.
* Theorems: `C15_C25_ring_new` [pcq], `C15_C25_infinite_new` [pcq], `C15_ring_hint_zero` [pcq], `C15_infinite_hint_zero` [pcq].

### C16 — Ring keeps FIFO order for ever on 32-bit targets (partial)

* Modelled: `Ring` and the `SeqRead`/`SeqWrite` traits (src/io/ring.rs, src/io/mod.rs) running on the model kernel: slices are address ranges, bytes go through the page table. 32-bit targets, where `as usize` truncates the u64 positions.
* Proof: for capacities dividing 2^32 the truncation commutes with `%`; for all others a reachable history is exhibited after which a write overwrites unread bytes.
* Theorems: `C16_ring32_fifo_partial` [pcq], `C16_ring32_overwrites` [pcq].
* Gap: False: every capacity that does not divide 2^32 fails (negation proved for all of them); proved for capacities dividing 2^32.

### C17 — read_exact, read_until and read_to_end on a Ring (proved)

* Modelled: `Ring` and the `SeqRead`/`SeqWrite` traits (src/io/ring.rs, src/io/mod.rs) running on the model kernel: slices are address ranges, bytes go through the page table. std's `read_exact`, `read_until`, `read_to_end` restated.
* Proof: induction on std's loops over the queue specification.
* Theorems: `C17_ring_read_exact` [pcq], `C17_ring_read_until` [pcq], `C17_ring_read_to_end` [pcq].

### C18 — The bytes::Buf and BufMut views of a Ring are complete (proved)

* Modelled: `bytes::Buf`/`BufMut` impls (src/io/ring.rs) and the default methods of the bytes crate.
* Proof: corollaries of the window view.
* Theorems: `C18_ring_chunks` [pcq], `C18_ring_copy_to_slice` [pcq], `C18_ring_put_slice` [pcq].

### C19 — InfiniteRing holds the most recent bytes (proved)

* Modelled: `InfiniteRing` (src/io/ring.rs) on the model kernel.
* Proof: the window view with the readable part a suffix; specification: append, keep the last cap bytes.
* Theorems: `C19_infinite_lossy` [pcq], `C19_infinite_step` [pcq], `C19_infinite_history` [pcq].

### C20 — InfiniteRing::write_all never fails and keeps the tail (proved)

* Modelled: `InfiniteRing` (src/io/ring.rs) on the model kernel.
* Proof: the overridden `write_all` stores at most cap bytes in one go; list arithmetic on drops.
* Theorems: `C20_infinite_write_all` [pcq].

### C21 — InfiniteRing::write is a short write of the head (proved)

* Modelled: `InfiniteRing` (src/io/ring.rs) on the model kernel.
* Proof: window view.
* Theorems: `C21_infinite_write` [pcq].

### C22 — InfiniteRing lengths (proved)

* Modelled: `InfiniteRing` (src/io/ring.rs) on the model kernel.
* Proof: invariant over call lists.
* Theorems: `C22_infinite_lengths` [pcq], `C19_infinite_step` [pcq].

### C23 — InfiniteRing consume drops the oldest bytes (proved)

* Modelled: `InfiniteRing` (src/io/ring.rs) on the model kernel.
* Proof: window view.
* Theorems: `C23_infinite_consume` [pcq].

### C24 — InfiniteRing::feed accepts any length (partial)

* Modelled: `InfiniteRing` (src/io/ring.rs) on the model kernel.
* Proof: u64 sum `rlen + n` overflows near 2^64: witness; otherwise window view; the overflowing calls in general in Props/Exact.
* Theorems: `C24_infinite_feed_partial` [pcq], `C24_infinite_feed_32` [pcq], `C24_infinite_feed_overflow` [pcq], `C24_overflow` [pcq].
* Gap: False on 64-bit when read_len() + m exceeds 2^64 (for every such call: debug builds panic, release builds discard bytes; witness too); proved for all other arguments and for all arguments on 32-bit.

### C25 — A ring mapping is circular (proved)

* Modelled: `map_ring`/`unmap_ring` of src/os/unix/posix/mod.rs with `memfd_create`, `ftruncate`, three `mmap`s, `close`, on a kernel whose oracle decides every outcome.
* Proof: page-table extensionality: both `MAP_FIXED` mappings of the same object.
* Theorems: `C15_C25_ring_new` [pcq], `C15_C25_infinite_new` [pcq], `C25_aliases` [pq].

### C26 — Ring creation leaks nothing at any failure point (proved)

* Modelled: `map_ring`/`unmap_ring` of src/os/unix/posix/mod.rs with `memfd_create`, `ftruncate`, three `mmap`s, `close`, on a kernel whose oracle decides every outcome.
* Proof: case analysis over every failing call.
* Theorems: `C26_C28_ring_new_fails` [pcq], `C26_C28_infinite_new_fails` [pcq], `C26_ring_new_no_panic` [pcq].
* Note: Linux/android memfd path of posix map_ring.

### C27 — Dropping a ring releases exactly its pages (proved)

* Modelled: `map_ring`/`unmap_ring` of src/os/unix/posix/mod.rs with `memfd_create`, `ftruncate`, three `mmap`s, `close`, on a kernel whose oracle decides every outcome.
* Proof: `munmap` of the whole double range; the invariant that pointer and length never change over any history.
* Theorems: `C27_ring_drop` [pcq], `C27_infinite_drop` [pcq], `C27_ring_lifecycle` [pcq].

### C28 — Ring creation errors name the failing step (proved)

* Modelled: `map_ring`/`unmap_ring` of src/os/unix/posix/mod.rs with `memfd_create`, `ftruncate`, three `mmap`s, `close`, on a kernel whose oracle decides every outcome.
* Proof: same case analysis, following the errno through `last_os_error`.
* Theorems: `C26_C28_ring_new_fails` [pcq], `C26_C28_infinite_new_fails` [pcq].

### C29 — The shared-memory name is always a valid C string (partial)

* Modelled: the name of the fallback `memfd_open` (src/os/unix/posix/memfd.rs:33-61); std's formatting and `CStr` check restated.
* Proof: digit-count lemmas for zero padding.
* Theorems: `C29_name_partial` [pcq], `C29_panics_before_1970` [pq], `C29_false` [pq].
* Gap: Proved for clocks at or after 1970; before 1970 duration_since().unwrap() panics.

### C30 — Mach ring creation releases what it acquires (partial)

* Modelled: `map_ring`/`unmap_ring` of src/os/unix/mach.rs over a Mach task (pages, memory objects, port rights).
* Proof: case analysis; the port right is shown to remain in every successful run.
* Theorems: `C30_partial` [pcq], `C30_leaks` [pcq], `C30_false` [pcq].
* Gap: Address space proved in full; the memory-entry port right is never released, so the part about port rights is false after success and after a RingSecondary failure.

### C31 — Windows ring creation retries and cleans up (proved)

* Modelled: src/os/windows.rs over a process with sections, views, reservations and handles (Model/Windows); an address shows a byte of a section, whose bytes are a file's, or memory that is zero at first, or the process's own copy of it (`WinBytes`: a store to a copy-on-write view copies the page; a file grows by zeros, as on NTFS; SetEndOfFile is refused where it would cut off what a section of the file shows; VirtualProtect, by which the crate only ever asks for read and write access, leaves what a view allows as it is, except in Model/WinGuard).
* Proof: stepwise lemmas per API call, induction on the retry loop.
* Theorems: `C31_halves` [pcq], `C31_map_ring` [pcq], `C31_succeeds` [pcq].
* Note: Windows API restated as environment; other threads appear only as failing calls.

### C32 — Which ranges of a file can be mapped (partial)

* Modelled: `Options::map_if/map/open/open_if` (src/map.rs:1067-1215), std's `File`/`OpenOptions`, `map_file`.
* Proof: decision logic on numbers (`newLen`, `InRange`, `wanted`), through the exact sequence of calls; for files of any length with the length modulo the address space (Props/Exact).
* Theorems: `C32_map_if_decision_partial` [pcq], `C32_false_32bit` [pcq], `C32_exact` [pcq].
* Gap: Proved for files shorter than the address space; false on 32-bit targets for files of 4 GiB and more (witness proved): C32_exact shows, for every length, that the decision is that for the length modulo 2^32.

### C33 — A file map shows the file's bytes at the requested offset (proved)

* Modelled: `Options::map_if/map/open/open_if` (src/map.rs:1067-1215), std's `File`/`OpenOptions`, `map_file`.
* Proof: page-table reasoning: address `ptr+i` is byte `off+i` (Created/MapsAll).
* Theorems: `C33_file_bytes` [pcq], `C33_stays` [p].

### C34 — The OS sees aligned file offsets (proved)

* Modelled: `Options::map_if/map/open/open_if` (src/map.rs:1067-1215), std's `File`/`OpenOptions`, `map_file`.
* Proof: the logged `mmap` call's arguments against C02.
* Theorems: `C34_aligned_offset` [pcq].

### C35 — Resize and truncate change the file as documented (partial)

* Modelled: `Options::map_if/map/open/open_if` (src/map.rs:1067-1215), std's `File`/`OpenOptions`, `map_file`.
* Proof: case analysis on truncate/resize; bytes kept and zeroed from `ftruncate`'s definition; the general case (Spec/BigFile) in Props/Exact.
* Theorems: `C35_resize_partial` [pcq], `C35_false_32bit` [pcq], `C35_exact` [pcq], `C35_left_small` [pq].
* Gap: Proved for files shorter than the address space; false on 32-bit targets for longer files (witness proved); C35_exact gives the resulting length for every file.

### C36 — map and open are map_if and open_if with None turned into InvalidRange (proved)

* Modelled: `Options::map_if/map/open/open_if` (src/map.rs:1067-1215), std's `File`/`OpenOptions`, `map_file`.
* Proof: unfolding of the three wrappers, descriptor bookkeeping.
* Theorems: `C36_map` [p], `C36_open` [p], `C36_C74_open_if` [pcq].

### C37 — Anonymous allocations have the promised size and are zeroed (partial)

* Modelled: `Options::alloc`, `MapMut::new`, `map_anon`.
* Proof: page-table reasoning plus C01; sizes that wrap in release builds case by case (Props/Exact).
* Theorems: `C37_alloc_partial` [pcq], `C37_new_partial` [pcq], `C37_debug` [pcq], `C37_false` [pcq], `C37_release` [pcq].
* Gap: Proved when offset within the page plus length fits the address space; otherwise debug builds panic (proved) and in release builds every success maps one page only, whatever was asked for (proved for all such sizes, with a witness).

### C38 — A read-only anonymous map can be allocated (partial)

* Modelled: `map_anon`'s flags (src/os/unix/mod.rs:70-75): `ReadOnly` lacks `MAP_ANON`, so `mmap(fd = -1)` is EBADF.
* Proof: refuted for every kernel state; the other accesses succeed whenever there is room.
* Theorems: `C38_partial` [pcq], `C38_never` [pq], `C38_false` [pcq].
* Gap: False: a read-only anonymous map can never be allocated (proved for all inputs); proved for every other access.

### C39 — Dropping a non-empty map unmaps exactly its pages (proved)

* Modelled: `Drop for MapMut`.
* Proof: page arithmetic: C05's bounds are exactly the pages of creation; also for allocations whose size wraps around in a release build (creation and drop wrap alike).
* Theorems: `C39_drop_file` [pcq], `C39_drop_alloc` [pcq], `C39_drop_any_alloc` [pcq].

### C40 — Dropping any map releases its pages (partial)

* Modelled: `Drop for MapMut`.
* Proof: as C39; length zero is skipped by the code, so its page stays.
* Theorems: `C40_partial` [pcq], `C40_alloc_partial` [pcq], `C40_empty_leaks` [pcq], `C40_empty_alloc_leaks` [pcq], `C40_false` [pcq].
* Gap: False for maps of length zero, which always leak their page (proved for all of them); proved for all others.

### C41 — Shared writes reach the file; copies do not (proved)

* Modelled: stores through a map, copy-on-write.
* Proof: frame lemmas over all maps of the kernel.
* Theorems: `C41_shared_write` [pcq], `C41_copy_write` [pcq], `C41_created` [pcq].

### C42 — into_map_mut (proved)

* Modelled: `into_map_mut`, `mprotect` with may-write bits.
* Proof: case analysis on the outcome.
* Theorems: `C42_into_map_mut` [pcq], `C42_not_writable` [pcq], `C42_created` [pcq], `C42_succeeds` [pcq].

### C43 — into_map (partial)

* Modelled: `into_map` (asks for `ReadWrite`).
* Proof: as C42; every page is shown to stay writable.
* Theorems: `C43_partial` [pcq], `C43_stays_writable` [pcq], `C43_false` [pcq].
* Gap: False: into_map leaves every page writable (proved for all maps); pointer, length and bytes are kept.

### C44 — Out-of-range sub-range calls are rejected without effect (partial)

* Modelled: the four `*_range` calls with their overflow-prone `off + len` check.
* Proof: arithmetic; the wrapped case is followed to the page it reaches.
* Theorems: `C44_rejected_partial` [p], `C44_debug` [p], `C44_release` [pcq], `C44_wrapped` [pcq], `C44_destroys_neighbour` [pcq], `C44_false` [pcq].
* Gap: Proved when off + len is a usize; debug builds panic otherwise; false in release builds, where C44_wrapped says for every overflowing pair whether the call is rejected and which pages it reaches otherwise (the page below the map, for one pair, proved for all aligned maps).

### C45 — In-range sub-range calls act on enclosing pages of the map only (proved)

* Modelled: the same calls and the whole-map variants.
* Proof: C05's enclosing bounds; exactly one logged system call.
* Theorems: `C45_range_calls` [pcq], `C45_whole` [pcq], `C45_succeeds` [pcq].

### C46 — Scalar writes and reads round-trip (proved)

* Modelled: `Span`/`SpanMut` scalar access (src/lib.rs:465-608), both byte orders, all 14 scalar types.
* Proof: encode/decode round trip and store/load frames.
* Theorems: `C46_size` [p], `C46_unaligned` [pcq], `C46_volatile` [pcq], `C46_maps` [pcq].

### C47 — Scalar accesses outside the map panic (partial)

* Modelled: `assert_capacity`.
* Proof: arithmetic; wrap-around followed in release builds.
* Theorems: `C47_out_of_range_panics_partial` [pq], `C47_wraps_below` [pq], `C47_false` [pq].
* Gap: False in release builds when off + size wraps usize (what happens then is proved for all such accesses); proved otherwise.

### C48 — Volatile accesses are aligned or panic (proved)

* Modelled: `assert_alignment`.
* Proof: arithmetic.
* Theorems: `C48_volatile_alignment` [pcq], `C48_unaligned_never_panics` [pcq].

### C49 — A synchronous flush makes the flushed bytes durable (proved)

* Modelled: `flush`/`flush_range` with `msync`; stable storage separate from the page cache; power failure.
* Proof: the synced pages cover the bytes; later steps of any program (World) only write data or write back, so the bytes stay on storage until modified.
* Theorems: `C49_durable` [pcq], `C49_durable_flush` [pcq].
* Note: For every state a program can reach and every later history of calls, other writers and kernel write-back; crash points are between calls.

### C50 — Advice never changes what a map contains (partial)

* Modelled: `advise`/`advise_range`, `madvise`.
* Proof: MADV_DONTNEED drops private copies; everything else is invisible.
* Theorems: `C50_advise_partial` [pcq], `C50_shared_partial` [pcq], `C50_discards` [pcq], `C50_false` [pcq].
* Gap: False for private maps and WillNotNeed, which discards their modifications (proved for all of them); proved in all other cases.

### C51 — Options builder methods are independent and last-wins (proved)

* Modelled: the builder methods of `Options`.
* Proof: induction over the list of calls; commutation of different setters.
* Theorems: `C51_last_wins` [p], `C51_order` [p], `C51_defaults` [–].

### C52 — open honours create, create_new and truncate only with write access (proved)

* Modelled: std's `OpenOptions::open` on a name space.
* Proof: case analysis.
* Theorems: `C52_open_if` [pcq], `C52_open` [pcq].

### C53 — BufReader is transparent (proved)

* Modelled: `BufReader` (src/io/buffer.rs) over an arbitrary inner reader: a state and a function to responses (Ok n, any n; error; panic).
* Proof: invariant over call lists, on top of the Ring theorems.
* Theorems: `C53_C57_bufreader_transparent` [pcq], `C53_bufreader_step` [pcq], `C53_read_count` [pcq].
* Note: Every inner reader (honest or not); below 2^64 bytes counted as calls x capacity.

### C54 — BufReader asks the inner reader only at or below the low-water mark (proved)

* Modelled: `BufReader` (src/io/buffer.rs) over an arbitrary inner reader: a state and a function to responses (Ok n, any n; error; panic).
* Proof: case analysis with a recording reader.
* Theorems: `C54_fill_buf_calls` [pcq], `C54_read_calls` [pcq], `C54_set_lowat` [pcq], `C54_new_lowat` [p].

### C55 — BufReader reports end of file only when the inner reader does (proved)

* Modelled: `BufReader` (src/io/buffer.rs) over an arbitrary inner reader: a state and a function to responses (Ok n, any n; error; panic).
* Proof: case analysis.
* Theorems: `C55_read_eof` [pcq].

### C56 — Reader errors lose no data (proved)

* Modelled: `BufReader` (src/io/buffer.rs) over an arbitrary inner reader: a state and a function to responses (Ok n, any n; error; panic).
* Proof: case analysis.
* Theorems: `C56_read_error` [pcq], `C56_fill_buf_error` [pcq].

### C57 — A misbehaving reader cannot break the buffer (proved)

* Modelled: `BufReader` (src/io/buffer.rs) over an arbitrary inner reader: a state and a function to responses (Ok n, any n; error; panic).
* Proof: feed clamps (C11).
* Theorems: `C53_C57_bufreader_transparent` [pcq].

### C58 — BufWriter preserves byte order (partial)

* Modelled: `BufWriter` (src/io/buffer.rs) over an arbitrary inner writer; `flush_buf`'s loop takes fuel, running out is the outcome `pending`, so statements hold at every intermediate point.
* Proof: invariant over histories; the exact-fit branch writes directly while bytes are buffered: refuted for every such state.
* Theorems: `C58_order_partial` [pcq], `C58_order_false` [pcq], `C58_exact_fit_overtakes` [pcq].
* Gap: False: a write that exactly fills the free space overtakes buffered bytes (proved for every such state, and with a concrete history). Proved for histories without such a write.

### C59 — BufWriter neither loses nor duplicates bytes (proved)

* Modelled: `BufWriter` (src/io/buffer.rs) over an arbitrary inner writer; `flush_buf`'s loop takes fuel, running out is the outcome `pending`, so statements hold at every intermediate point.
* Proof: multiset invariant.
* Theorems: `C59_C67_bufwriter_conserves` [pcq].

### C60 — A successful flush delivers everything (proved)

* Modelled: `BufWriter` (src/io/buffer.rs) over an arbitrary inner writer; `flush_buf`'s loop takes fuel, running out is the outcome `pending`, so statements hold at every intermediate point.
* Proof: induction on the loop.
* Theorems: `C60_flush_ok` [pcq], `C60_C61_C62_flush` [pcq].

### C61 — A failed flush keeps exactly the unsent suffix (proved)

* Modelled: `BufWriter` (src/io/buffer.rs) over an arbitrary inner writer; `flush_buf`'s loop takes fuel, running out is the outcome `pending`, so statements hold at every intermediate point.
* Proof: induction on the loop.
* Theorems: `C61_flush_keeps_suffix` [pcq], `C60_C61_C62_flush` [pcq].

### C62 — Interrupted writes are retried and zero-length writes are errors (proved)

* Modelled: `BufWriter` (src/io/buffer.rs) over an arbitrary inner writer; `flush_buf`'s loop takes fuel, running out is the outcome `pending`, so statements hold at every intermediate point.
* Proof: induction on the loop; progress bound.
* Theorems: `C62_flush_error` [pcq], `C62_flush_terminates` [pcq], `C60_C61_C62_flush` [pcq].

### C63 — into_inner returns the writer only when everything was delivered (proved)

* Modelled: `BufWriter` (src/io/buffer.rs) over an arbitrary inner writer; `flush_buf`'s loop takes fuel, running out is the outcome `pending`, so statements hold at every intermediate point.
* Proof: from C60/C61.
* Theorems: `C63_into_inner` [pcq].

### C64 — Dropping a BufWriter flushes unless the writer panicked (proved)

* Modelled: `BufWriter` (src/io/buffer.rs) over an arbitrary inner writer; `flush_buf`'s loop takes fuel, running out is the outcome `pending`, so statements hold at every intermediate point.
* Proof: from C60/C61 and C27.
* Theorems: `C64_drop` [pcq], `C64_into_parts_drop` [pcq].

### C65 — into_parts reports panics and keeps the bytes (proved)

* Modelled: `BufWriter` (src/io/buffer.rs) over an arbitrary inner writer; `flush_buf`'s loop takes fuel, running out is the outcome `pending`, so statements hold at every intermediate point.
* Proof: the `panicked` flag as an invariant.
* Theorems: `C65_into_parts` [pcq].

### C66 — BufWriter write results (proved)

* Modelled: `BufWriter` (src/io/buffer.rs) over an arbitrary inner writer; `flush_buf`'s loop takes fuel, running out is the outcome `pending`, so statements hold at every intermediate point.
* Proof: case analysis with a recording writer.
* Theorems: `C66_write` [pcq].

### C67 — A misbehaving writer cannot break the buffer (proved)

* Modelled: `BufWriter` (src/io/buffer.rs) over an arbitrary inner writer; `flush_buf`'s loop takes fuel, running out is the outcome `pending`, so statements hold at every intermediate point.
* Proof: consume clamps (C11).
* Theorems: `C59_C67_bufwriter_conserves` [pcq].

### C68 — Errors convert to io::Error faithfully (proved)

* Modelled: `Error` and its conversions (src/error.rs); `system_error` and std's tables are parameters.
* Proof: case analysis over all ways to obtain an error.
* Theorems: `C68_every_error` [–], `C68_to_io` [–], `C68_round_trip` [–], `C68_input` [–], `C68_no_code` [–], `C68_convert` [–].
* Note: The system_error crate's kind and message tables are parameters.

### C69 — Error display names the operation (proved)

* Modelled: `Display` and the operation names.
* Proof: evaluation over the 19 operations, string cancellation; the texts against a phrase made from the words of the operation's name (`Spec.phrase`).
* Theorems: `C69_display` [p], `C69_names` [pcq], `C69_unambiguous` [pcq], `C69_words` [pcq], `C69_says` [pcq].

### C70 — round works whenever its result is representable (partial)

* Modelled: `Size` (src/lib.rs:285-462) over checked or wrapping arithmetic, bitwise and, complement, shifts.
* Proof: as C01 without the slack of one unit; the failing argument is exhibited; iff in Props/Exact.
* Theorems: `C70_round_representable_partial` [pcq], `C70_round_panics_on_multiple` [p], `C70_iff` [pcq].
* Gap: False in debug builds for the single argument usize::MAX+1-unit (witness proved); proved everywhere else; the panicking arguments are characterised by an iff.

### C71 — Two rings never interfere (proved)

* Modelled: `map_ring`/`unmap_ring` of src/os/unix/posix/mod.rs with `memfd_create`, `ftruncate`, three `mmap`s, `close`, on a kernel whose oracle decides every outcome. `Ring` and the `SeqRead`/`SeqWrite` traits (src/io/ring.rs, src/io/mod.rs) running on the model kernel: slices are address ranges, bytes go through the page table.
* Proof: disjoint page ranges; frame lemmas for creation, every call, and drop.
* Theorems: `C71_rings_call` [pcq], `C71_rings_new` [pcq], `C71_rings_drop` [pcq].

### C72 — Data placed in an InfiniteRing's write slice is invisible until fed (partial)

* Modelled: `InfiniteRing` (src/io/ring.rs) on the model kernel.
* Proof: window view; for full rings every store into the write slice hits readable bytes; exact result in Props/Exact.
* Theorems: `C72_infinite_poke_partial` [pcq], `C72_infinite_poke_evicts` [pcq], `C72_exact` [pcq].
* Gap: False when the data reaches into the readable bytes; C72_exact gives the readable bytes after any store into the write slice; proved for data within the free part.

### C73 — BufReader::into_inner returns the reader untouched (proved)

* Modelled: `BufReader` (src/io/buffer.rs) over an arbitrary inner reader: a state and a function to responses (Ok n, any n; error; panic).
* Proof: C27.
* Theorems: `C73_bufreader_into_inner` [pcq].

### C74 — A failed map or open leaves nothing behind (proved)

* Modelled: `Options::map_if/map/open/open_if` (src/map.rs:1067-1215), std's `File`/`OpenOptions`, `map_file`.
* Proof: case analysis over all failing calls, page table and descriptors.
* Theorems: `C74_map_if_leaves_nothing` [pcq], `C74_open_leaves_nothing` [pcq], `C36_C74_open_if` [pcq].

### C75 — Maps do not interfere (partial)

* Modelled: whole programs (Spec/World): any number of maps, rings and files, any sequence of calls, other writers, spontaneous write-back.
* Proof: invariant (disjoint owned pages; the pages of dropped empty maps stay mapped and distinct) by induction over reachable states.
* Theorems: `C75_disjoint` [pcq], `C75_pages` [pcq], `C75_all_dropped_partial` [pcq], `C75_exact` [pcq], `C75_full_false` [pcq].
* Gap: Disjointness proved for all programs; C75_exact: after everything is dropped, exactly one page is lost per empty map dropped (see C40), so the address space is restored iff there was none.

### C76 — A MapMut from the builder can be written (partial)

* Modelled: `Options::map_if/map/open/open_if` (src/map.rs:1067-1215), std's `File`/`OpenOptions`, `map_file`.
* Proof: protection bits of creation; default options give read-only pages; iff in Props/Exact.
* Theorems: `C76_partial` [pcq], `C76_false` [pcq], `C76_exact` [pcq].
* Gap: Proved when write or copy access was chosen; otherwise every write faults (iff proved), e.g. for Options::<MapMut>::new(), whose pages are read-only.

### C77 — Using one map or ring never disturbs another (proved)

* Modelled: whole programs (Spec/World): any number of maps, rings and files, any sequence of calls, other writers, spontaneous write-back.
* Proof: one frame lemma per kind of step.
* Theorems: `C77_others` [pcq], `C77_bytes` [pcq], `C77_bytes_files` [pcq], `C77_own` [pcq], `C77_alloc_own` [pcq], `C77_rings` [pcq].

### C78 — No call panics (proved)

* Modelled: whole programs (Spec/World): any number of maps, rings and files, any sequence of calls, other writers, spontaneous write-back.
* Proof: the invariant of C75 discharges the preconditions of each call.
* Theorems: `C78_no_panic` [pcq].
* Note: map[idx] = b is excluded: it panics when out of bounds, as documented.

### C79 — Without memfd, ring creation leaves no name behind (proved)

* Modelled: the fallback `memfd_open` loop with `shm_open`/`shm_unlink` on a name space.
* Proof: induction on the rounds.
* Theorems: `C79_memfd_open` [pcq], `C79_progress` [pcq], `C79_succeeds` [pcq].

### C80 — os::unmap reports what it did (partial)

* Modelled: `os::unmap` on unix and Windows.
* Proof: unix: case analysis; Windows: `UnmapViewOfFile` returns non-zero on success, which the code takes for failure.
* Theorems: `C80_unix_partial` [pq], `C80_windows_inverted` [pq], `C80_windows_false` [pq].
* Gap: True on unix; on Windows the report is inverted (Err on success, Ok on failure).

### C81 — Maps on Windows show the right bytes and go away (partial)

* Modelled: src/os/windows.rs over a process with sections, views, reservations and handles (Model/Windows); an address shows a byte of a section, whose bytes are a file's, or memory that is zero at first, or the process's own copy of it (`WinBytes`: a store to a copy-on-write view copies the page; a file grows by zeros, as on NTFS; SetEndOfFile is refused where it would cut off what a section of the file shows; VirtualProtect, by which the crate only ever asks for read and write access, leaves what a view allows as it is, except in Model/WinGuard). `map_if` from the known file length on, `alloc`, drop.
* Proof: as C32/C33/C37/C39, on views.
* Theorems: `C81_permits` [–], `C81_map_partial` [pcq], `C81_alloc_partial` [pcq], `C81_empty_leaks` [pcq], `C81_false` [pcq].
* Gap: Proved except for dropping empty maps, which leaves their view mapped.

### C82 — Windows range calls report failures exactly (proved)

* Modelled: src/os/windows.rs over a process with sections, views, reservations and handles (Model/Windows); an address shows a byte of a section, whose bytes are a file's, or memory that is zero at first, or the process's own copy of it (`WinBytes`: a store to a copy-on-write view copies the page; a file grows by zeros, as on NTFS; SetEndOfFile is refused where it would cut off what a section of the file shows; VirtualProtect, by which the crate only ever asks for read and write access, leaves what a view allows as it is, except in Model/WinGuard).
* Proof: unfolding; the pages of a range are compared with the views one by one.
* Theorems: `C82_flush` [pcq], `C82_protect` [pcq], `C82_lock` [pcq], `C82_unlock` [pcq], `C82_advise` [–].

### C83 — Calls passed through to the inner object leave the buffer alone (proved)

* Modelled: `BufReader` (src/io/buffer.rs) over an arbitrary inner reader: a state and a function to responses (Ok n, any n; error; panic). The delegating `Write`/`Read` implementations, with an inner object that can do both.
* Proof: the read stream of C53 and the buffer contents of C59 with calls on the inner object interleaved; induction over the calls.
* Theorems: `C83_bufreader_duplex` [pcq], `C83_bufwriter_duplex` [p].

### C84 — read_exact through a BufReader (proved)

* Modelled: `BufReader` (src/io/buffer.rs) over an arbitrary inner reader: a state and a function to responses (Ok n, any n; error; panic). std's `read_exact` loop.
* Proof: induction on the fuel with the ring's window view; one lemma per `read`.
* Theorems: `C84_read_exact` [pcq].

### C85 — read_until and read_to_end through a BufReader (proved)

* Modelled: `BufReader` (src/io/buffer.rs) over an arbitrary inner reader: a state and a function to responses (Ok n, any n; error; panic). std's `read_until` and `read_to_end` loops.
* Proof: as C84, one lemma per `fill_buf`/`consume`.
* Theorems: `C85_read_until` [pcq], `C85_read_until_buffered` [pcq], `C85_read_to_end` [pcq].

### C86 — write_all through a BufWriter (proved)

* Modelled: `BufWriter` (src/io/buffer.rs) over an arbitrary inner writer; `flush_buf`'s loop takes fuel, running out is the outcome `pending`, so statements hold at every intermediate point. std's `write_all` loop.
* Proof: induction on the fuel, one `write` step lemma.
* Theorems: `C86_write_all` [pcq].
* Note: The exact-fit exception to the order is the fault recorded under C58.

### C87 — A failed into_inner can be retried without loss or duplication (proved)

* Modelled: `BufWriter` (src/io/buffer.rs) over an arbitrary inner writer; `flush_buf`'s loop takes fuel, running out is the outcome `pending`, so statements hold at every intermediate point. `IntoInnerError` and its methods; a retry loop written as specification.
* Proof: induction on the number of retries; drop as in C27 and C66.
* Theorems: `C87_retry` [pcq], `C87_into_error` [pcq].

### C88 — A ring handed from one BufWriter to another keeps its bytes (proved)

* Modelled: `BufWriter` (src/io/buffer.rs) over an arbitrary inner writer; `flush_buf`'s loop takes fuel, running out is the outcome `pending`, so statements hold at every intermediate point.
* Proof: C60 applied to the ring that was handed over.
* Theorems: `C88_from_parts` [pcq], `C88_handover` [pcq].
* Note: The exact-fit exception to the order is the fault recorded under C58.

### C89 — os::protect gives exactly the requested access (proved)

* Modelled: `os::protect` (src/os/unix/mod.rs:109-121) on the model kernel.
* Proof: case analysis of `mprotect`; the pages are described by the bytes they share with the range.
* Theorems: `C89_protect` [pcq], `C89_access` [pcq], `C89_protect_ok` [pcq].

### C90 — The raw os functions act on exactly what they are given (proved)

* Modelled: the functions of src/os/unix/mod.rs on the model kernel.
* Proof: case analysis of each system call.
* Theorems: `C90_map_file` [pq], `C90_map_anon` [pq], `C90_unmap` [pcq], `C90_lock` [pcq], `C90_unlock` [pcq], `C90_advise` [pcq], `C90_flush` [pcq].
* Note: map_anon with ReadOnly always fails (C38).

### C91 — Rings work on Windows as anywhere else (proved)

* Modelled: Ring::new and InfiniteRing::new over the Windows layer; ring operations run in any machine memory in which the views of the process show the sections they should.
* Proof: the two views of C31 form a circular mapping shown nowhere else, which is all that the invariant of reachable rings (C07-C24) needs; sizes for which 2*len overflows never succeed.
* Theorems: `C91_windows_ring` [pcq], `C91_windows_fifo` [pcq], `C91_windows_infinite` [pcq], `C91_windows_lossy` [pcq], `C91_memory` [pcq].
* Note: For every memory in which the views of the process show what they should (WinMem); C91_memory: there is one.

### C92 — Rings work on macOS as anywhere else (proved)

* Modelled: Ring::new and InfiniteRing::new over the Mach layer; ring operations run in any machine memory that agrees with the task's page table.
* Proof: as C91, from the ring of C30.
* Theorems: `C92_macos_ring` [pcq], `C92_macos_fifo` [pcq], `C92_macos_infinite` [pcq], `C92_macos_lossy` [pcq], `C92_memory` [pq].
* Note: For every memory of the task (MachMem); C92_memory: there is one.  The leaked port right is C30.

### C93 — Buffered readers and writers touch nothing but their own ring (proved)

* Modelled: `BufReader` (src/io/buffer.rs) over an arbitrary inner reader: a state and a function to responses (Ok n, any n; error; panic). `BufWriter` (src/io/buffer.rs) over an arbitrary inner writer; `flush_buf`'s loop takes fuel, running out is the outcome `pending`, so statements hold at every intermediate point. whole programs (Spec/World): any number of maps, rings and files, any sequence of calls, other writers, spontaneous write-back.
* Proof: every call on a buffered object is a sequence of steps on its ring (induction over the calls), and each of those is a step of the whole program; the frame of each step is C77's.
* Theorems: `C93_reader` [pcq], `C93_writer` [pcq], `C93_runs` [pcq], `C93_new` [p], `C93_reader_into_inner` [pq], `C93_writer_drop` [pcq], `C93_writer_into_inner` [pcq].
* Note: The inner reader or writer itself is assumed not to touch memory other than the slice it is given.

### C94 — Rings work on Unixes without memfd as anywhere else (proved)

* Modelled: `memfd_open` without memfd, followed by `tmp_open`, `map_ring` and the ring constructors (src/os/unix/posix/memfd.rs:33-61, src/os/unix/posix/mod.rs:22-30, 91-102) on the model kernel with a set of names in use and a clock.
* Proof: induction over the rounds: after n failed tries the kernel differs only in its clock and log, and the rest is what Ring::new does over memfd_create; then C07, C15, C19, C25, C26, C28.
* Theorems: `C94_ring` [pcq], `C94_infinite` [pcq], `C94_fifo` [pcq], `C94_lossy` [pcq].
* Note: A clock before 1970 panics (C79).

### C95 — Shared maps of a file always show the file as it is now (proved)

* Modelled: whole programs (Spec/World): any number of maps, rings and files, any sequence of calls, other writers, spontaneous write-back.
* Proof: an invariant of the whole-program model: as long as a map is held its page-table entries stay entries of the same file bytes, shared or private as made (over_later); a load then reads the file.
* Theorems: `C95_shared` [pcq], `C95_agree` [pcq], `C95_written` [pcq].
* Note: Unix model; the other processes of the system are the pwrite and writeBack steps.

### C96 — A copy-on-write map shows its own changes over the file (proved)

* Modelled: whole programs (Spec/World): any number of maps, rings and files, any sequence of calls, other writers, spontaneous write-back. Private pages are copied on the first store (breakCow).
* Proof: induction over the program (Overlay.inv): the copies in the page table are exactly the overlay.
* Theorems: `C96_private` [pcq], `C96_private_open` [pcq].
* Note: For programs in which the mapped file is not shortened (what happens then to private pages behind the end differs between systems).

### C97 — Allocated memory is an array of bytes (proved)

* Modelled: whole programs (Spec/World): any number of maps, rings and files, any sequence of calls, other writers, spontaneous write-back.
* Proof: as C96; the object of an allocation is reached by no other map, descriptor or name (C77), so its bytes change only through the map itself (Cells.inv).
* Theorems: `C97_alloc` [pcq].
* Note: Unix model; allocations whose size fits the address space (C37).

### C98 — A map of a file can always be read (partial)

* Modelled: whole programs (Spec/World): any number of maps, rings and files, any sequence of calls, other writers, spontaneous write-back.
* Proof: from the same invariant; the counterexample is a two-step program on the demo kernel.
* Theorems: `C98_partial` [pcq], `C98_exact` [pcq], `C98_false` [pcq].
* Gap: False in general (C98_false: a second map resizes the file).  C98_exact says which bytes can be read.

### C99 — All views of a map show the same bytes (proved)

* Modelled: the slice-returning methods and traits of Map and MapMut (Model/Views.lean).
* Proof: each view is the same address and length; stores are read back by C42's store lemma.
* Theorems: `C99_read` [–], `C99_write` [–], `C99_coherent` [pcq], `C99_traits` [p].

### C100 — A failed conversion propagated with ? releases the map (proved)

* Modelled: `?` on a ConvertResult: the error is taken out of the pair and the map dropped (src/error.rs:19-28).
* Proof: case analysis of mprotect, then C39's drop lemma.
* Theorems: `C100_into_map_mut` [pcq], `C100_into_map` [pcq], `C100_program` [pq], `C100_program_into_map` [pq].
* Note: Empty maps are not unmapped (C40).

### C101 — Printed errors and maps can be told apart (proved)

* Modelled: the Display and Debug implementations as functions to strings (Model/Text.lean), with std's debug_struct.
* Proof: the texts are split at the separators, which the names in front of them do not contain; hexadecimal and decimal digits determine the number.
* Theorems: `C101_debug` [pcq], `C101_unambiguous` [pcq], `C101_display` [pcq], `C101_map` [pcq].
* Note: std's and system_error's own Debug texts are parameters; C101_unambiguous assumes that std's kind names are distinct and without commas.

### C102 — The Debug text of WriterPanicked tells how much is unwritten (partial)

* Modelled: the Debug implementation of WriterPanicked over the ring model.
* Proof: from the ring invariant; the counterexample is a new ring.
* Theorems: `C102_partial` [pcq], `C102_exact` [pcq], `C102_false` [pcq], `C102_ring` [p].
* Gap: False in general (C102_false); C102_exact says what is printed.

### C103 — raw_os_error is Some exactly for errors constructed via last_os_error (partial)

* Modelled: Error::raw_os_error over the ways an error can come about.
* Proof: case analysis; the counterexample is an error that open_if returns.
* Theorems: `C103_partial` [–], `C103_exact` [–], `C103_false` [–], `C103_open` [p].
* Gap: False in general (C103_false, and C103_open for the call that returns the error); C103_exact says when it is Some.

### C104 — The accessors of buffered readers and writers (proved)

* Modelled: `BufReader` (src/io/buffer.rs) over an arbitrary inner reader: a state and a function to responses (Ok n, any n; error; panic). The accessors are in Model/BufferViews.lean.
* Proof: induction over the calls.
* Theorems: `C104_lowat` [p], `C104_inner` [–].

### C105 — Address space and handles on Windows are always accounted for (partial)

* Modelled: src/os/windows.rs over a process with sections, views, reservations and handles (Model/Windows); an address shows a byte of a section, whose bytes are a file's, or memory that is zero at first, or the process's own copy of it (`WinBytes`: a store to a copy-on-write view copies the page; a file grows by zeros, as on NTFS; SetEndOfFile is refused where it would cut off what a section of the file shows; VirtualProtect, by which the crate only ever asks for read and write access, leaves what a view allows as it is, except in Model/WinGuard). Programs are steps on a process and a table of what they hold (Spec/WinWorld).
* Proof: an invariant (WinInv) by induction over the steps; one lemma per call.
* Theorems: `C105_views` [pcq], `C105_disjoint` [pcq], `C105_all_dropped_partial` [pcq], `C105_full_false` [pcq].
* Gap: Proved at every moment; the end is proved for programs that drop no empty map, and false otherwise (the view of an empty map stays, as in C81).

### C106 — map_if on Windows resizes, maps or refuses, and says which (proved)

* Modelled: src/os/windows.rs over a process with sections, views, reservations and handles (Model/Windows); an address shows a byte of a section, whose bytes are a file's, or memory that is zero at first, or the process's own copy of it (`WinBytes`: a store to a copy-on-write view copies the page; a file grows by zeros, as on NTFS; SetEndOfFile is refused where it would cut off what a section of the file shows; VirtualProtect, by which the crate only ever asks for read and write access, leaves what a view allows as it is, except in Model/WinGuard). std's `metadata().len()` and `set_len` over SetEndOfFile (Model/WindowsMap).
* Proof: case analysis of the sizing steps, then C81.
* Theorems: `C106_map_if` [pcq], `C106_small` [pq], `C106_map` [p].

### C107 — A map or ring on Windows keeps its memory as long as it lives (proved)

* Modelled: src/os/windows.rs over a process with sections, views, reservations and handles (Model/Windows); an address shows a byte of a section, whose bytes are a file's, or memory that is zero at first, or the process's own copy of it (`WinBytes`: a store to a copy-on-write view copies the page; a file grows by zeros, as on NTFS; SetEndOfFile is refused where it would cut off what a section of the file shows; VirtualProtect, by which the crate only ever asks for read and write access, leaves what a view allows as it is, except in Model/WinGuard). As C105.
* Proof: each step keeps the views that belong to what is held (WinNext), and views are disjoint, so what an address shows is determined.
* Theorems: `C107_kept` [pcq], `C107_file` [pcq], `C107_memory` [pcq], `C107_own` [pcq], `C107_ring` [pcq].

### C108 — Range calls on Windows are about exactly the pages of their range (partial)

* Modelled: src/os/windows.rs over a process with sections, views, reservations and handles (Model/Windows); an address shows a byte of a section, whose bytes are a file's, or memory that is zero at first, or the process's own copy of it (`WinBytes`: a store to a copy-on-write view copies the page; a file grows by zeros, as on NTFS; SetEndOfFile is refused where it would cut off what a section of the file shows; VirtualProtect, by which the crate only ever asks for read and write access, leaves what a view allows as it is, except in Model/WinGuard). As C105.
* Proof: Size::bounds (C05) on the map's view, whose base and length are bounded by the invariant of C105.
* Theorems: `C108_range` [pcq], `C108_rejected_partial` [p], `C108_debug` [pq], `C108_full_false` [p], `C108_no_panic` [pcq].
* Gap: Refusal is proved when off + len is a usize; debug builds panic otherwise; false in release builds (as C44).

### C109 — Threads that create rings do not disturb each other or the rest of the program (partial)

* Modelled: Model/RingJob: `map_ring` cut into its system calls; Spec/Threads: programs with threads, every interleaving of these calls with each other and with the operations of Spec/World (which are atomic: each of them makes at most one call that changes the address space, except ring creation, which is what is cut up). Not modelled: data races inside one call, interruption by signals.
* Proof: an invariant per running creation (Proofs/Threads: its descriptor is the only way to its memory object; its reserved pages are booked as a handle), kept by its own calls and, because every other step leaves objects it cannot reach alone (Effect, Hid in Proofs/World), by everyone else's. `C109_full_false`: a fixed mmap fails and unmaps, another thread's allocation lands in the hole, the cleanup unmaps it.
* Theorems: `C109_no_panic_partial` [pcq], `C109_rings_partial` [pcq], `C109_finished_partial` [pcq], `C109_apart_partial` [pcq], `C109_others_partial` [pcq], `C109_bytes_partial` [pcq], `C109_all_dropped_partial` [pcq], `C109_full_false` [pcq].
* Gap: Proved when a failing mmap over the reserved memory unmaps nothing; the negation is proved for the general case, with a witness.

### C110 — The system calls of a ring creation (proved)

* Modelled: Model/RingJob.
* Proof: case analysis of each call, in any kernel state.
* Theorems: `C110_alone` [–], `C110_ends` [pq], `C110_descriptor` [pq].

### C111 — map_if is right for the file as it was at some moment, whatever others do (proved)

* Modelled: Model/MapJob: map_if and open_if cut into their system calls; Spec/Race: between any two of them the state may change in any way that keeps it consistent, keeps the call's own descriptor and reuses no object.
* Proof: an invariant on the point reached (what is known about the length that was read), kept by any behaviour of others; C111_alone ties the cut-up version to Options.mapIf.
* Theorems: `C111_alone` [p], `C111_ends` [pcq], `C111_others` [pcq], `C111_result` [pcq].

### C112 — open_if leaves the rest of the world alone, whatever others do (proved)

* Modelled: Model/MapJob: map_if and open_if cut into their system calls; Spec/Race: between any two of them the state may change in any way that keeps it consistent, keeps the call's own descriptor and reuses no object.
* Proof: as C111, with the case analysis of open (C52); C112_alone ties the cut-up version to Options.openIf.
* Theorems: `C112_alone` [p], `C112_ends` [pcq], `C112_others` [pcq], `C112_leaves_nothing` [pcq], `C112_result` [pcq].

### C113 — create_new is exclusive and makes create and truncate irrelevant (partial)

* Modelled: Model/MapJob: map_if and open_if cut into their system calls; Spec/Race: between any two of them the state may change in any way that keeps it consistent, keeps the call's own descriptor and reuses no object.
* Proof: C113_exclusive_partial from C112; C113_ignored_partial: the new file is empty, so the truncation step does nothing, in any kernel state; the counterexample is a run on the demo kernel in which another process writes six bytes after open.
* Theorems: `C113_exclusive_partial` [pcq], `C113_ignored_partial` [pq], `C113_full_false` [pcq].
* Gap: Exclusive creation is proved under all interleavings; create and truncate are proved to be ignored when nobody writes to the new file meanwhile; the negation is proved otherwise, with a witness.

### C114 — resize(Min) never shortens, resize(Max) never lengthens, and a map lies inside its file (partial)

* Modelled: Model/MapJob: map_if and open_if cut into their system calls; Spec/Race: between any two of them the state may change in any way that keeps it consistent, keeps the call's own descriptor and reuses no object.
* Proof: as C111, with the present length of the file known at every point; the counterexamples are runs on the demo kernel.
* Theorems: `C114_partial` [pcq], `C114_min_false` [pcq], `C114_max_false` [pcq], `C114_inside_false` [pcq].
* Gap: Proved when nobody else changes the file's length during the call; each of the three parts is false otherwise (witnesses).

### C115 — Allocated memory after fork: private with copy(), common with write() (proved)

* Modelled: Model/Fork: two processes over one kernel; fork copies the page table and the descriptors, gives the child copies of the private pages (as of the fork), and inherits no locks; afterwards either process makes any system call of Model/Kernel, opens files, or stores a byte, in any order. Before the fork: any program of Spec/World.
* Proof: `Change`: what one process's call can change (act_change, for every call); `Apart`: private objects of one are invisible to the other; an induction over what happened since the fork on top of C97's invariant.
* Theorems: `C115_private` [pcq], `C115_common` [pcq].

### C116 — Copy-on-write maps of files after fork (proved)

* Modelled: Model/Fork: two processes over one kernel; fork copies the page table and the descriptors, gives the child copies of the private pages (as of the fork), and inherits no locks; afterwards either process makes any system call of Model/Kernel, opens files, or stores a byte, in any order. Before the fork: any program of Spec/World.
* Proof: as C115, on top of C96's invariant.
* Theorems: `C116_copy` [pcq].

### C117 — Locked bytes stay locked until they are unlocked (partial)

* Modelled: Spec/World (whole programs), Spec/Settings (what the calls on one map say about its access and locks).
* Proof: every step but unlock_range on the same map keeps the lock of a page (locked_step); the counterexample locks bytes 0..100 and unlocks bytes 200..300 of one page.
* Theorems: `C117_partial` [pcq], `C117_false` [pcq].
* Gap: False in general (C117_false: pages are unlocked as a whole).  Proved when no byte on the same pages is unlocked.

### C118 — Access and locks of a map are a matter of the calls on this map alone (proved)

* Modelled: Spec/World (whole programs), Spec/Settings (what the calls on one map say about its access and locks).
* Proof: an induction over the program: every other step leaves the protection and the lock state of the map's pages alone (sameSet_step); path_settings shows that every program is covered.
* Theorems: `C118_settings` [pcq], `C118_store` [pcq], `C118_readonly` [pcq], `C118_writable` [pcq].

### C119 — No file is leaked, closed or replaced behind the program's back (proved)

* Modelled: Spec/World (whole programs), Spec/Ledger (the files a program has, counted by its own calls).
* Proof: an induction over the program; for each call a lemma says what it does to the table of descriptors and to the names (step_files, openIf_files), drawing on C26-C28 for rings.
* Theorems: `C119_descriptors` [pcq], `C119_accounted` [pcq], `C119_open` [pcq], `C119_names` [pcq], `C119_name_stays` [pcq].

### C120 — Shared maps of a file on Windows show the file as it is now (proved)

* Modelled: src/os/windows.rs over a process with sections, views, reservations and handles (Model/Windows); an address shows a byte of a section, whose bytes are a file's, or memory that is zero at first, or the process's own copy of it (`WinBytes`: a store to a copy-on-write view copies the page; a file grows by zeros, as on NTFS; SetEndOfFile is refused where it would cut off what a section of the file shows; VirtualProtect, by which the crate only ever asks for read and write access, leaves what a view allows as it is, except in Model/WinGuard). Spec/WinBytes: the map as the file, an overlay over the file, or an array.
* Proof: each step leaves the view of a held map and the copies of its section alone (win_step_calm, win_other_step), so a read is a read of the file; induction over the program.
* Theorems: `C120_shared` [pcq], `C120_agree` [pcq], `C120_store` [pcq], `C120_stored` [pcq], `C120_written` [pcq], `C120_only` [pcq], `C120_bounds` [pcq].
* Note: Stores are through the map as a MapMut; a Map offers none.

### C121 — A copy-on-write map on Windows shows its own changes over the file (proved)

* Modelled: src/os/windows.rs over a process with sections, views, reservations and handles (Model/Windows); an address shows a byte of a section, whose bytes are a file's, or memory that is zero at first, or the process's own copy of it (`WinBytes`: a store to a copy-on-write view copies the page; a file grows by zeros, as on NTFS; SetEndOfFile is refused where it would cut off what a section of the file shows; VirtualProtect, by which the crate only ever asks for read and write access, leaves what a view allows as it is, except in Model/WinGuard). Spec/WinBytes: the map as the file, an overlay over the file, or an array.
* Proof: as C120, with the overlay carried through the induction; only stores through this map touch the copies of its section, since every view has a section of its own.
* Theorems: `C121_copy` [pcq], `C121_isolated` [pcq], `C121_store` [pcq].

### C122 — Allocated memory on Windows is an array of bytes (proved)

* Modelled: src/os/windows.rs over a process with sections, views, reservations and handles (Model/Windows); an address shows a byte of a section, whose bytes are a file's, or memory that is zero at first, or the process's own copy of it (`WinBytes`: a store to a copy-on-write view copies the page; a file grows by zeros, as on NTFS; SetEndOfFile is refused where it would cut off what a section of the file shows; VirtualProtect, by which the crate only ever asks for read and write access, leaves what a view allows as it is, except in Model/WinGuard). Spec/WinBytes: the map as the file, an overlay over the file, or an array.
* Proof: as C121, over the memory of the section, which no other view shows (C107).
* Theorems: `C122_alloc` [pcq], `C122_store` [pcq].

### C123 — On Windows a map keeps its file from being shortened (proved)

* Modelled: src/os/windows.rs over a process with sections, views, reservations and handles (Model/Windows); an address shows a byte of a section, whose bytes are a file's, or memory that is zero at first, or the process's own copy of it (`WinBytes`: a store to a copy-on-write view copies the page; a file grows by zeros, as on NTFS; SetEndOfFile is refused where it would cut off what a section of the file shows; VirtualProtect, by which the crate only ever asks for read and write access, leaves what a view allows as it is, except in Model/WinGuard). Spec/WinBytes: the map as the file, an overlay over the file, or an array.
* Proof: set_len is refused while a view of the part to be cut off exists (windows: ERROR_USER_MAPPED_FILE), by induction over the program the file stays at least as long as the map. An example shows that others can shorten it.
* Theorems: `C123_read` [pcq].

### C124 — map_if on Windows keeps the bytes of the file and appends zeros (proved)

* Modelled: src/os/windows.rs over a process with sections, views, reservations and handles (Model/Windows); an address shows a byte of a section, whose bytes are a file's, or memory that is zero at first, or the process's own copy of it (`WinBytes`: a store to a copy-on-write view copies the page; a file grows by zeros, as on NTFS; SetEndOfFile is refused where it would cut off what a section of the file shows; VirtualProtect, by which the crate only ever asks for read and write access, leaves what a view allows as it is, except in Model/WinGuard). Spec/WinBytes: the map as the file, an overlay over the file, or an array.
* Proof: case analysis of the sizing steps (WinSized), following the contents through each set_len.
* Theorems: `C124_contents` [pcq].

### C125 — Creating a ring on Windows works while other threads use the address space (proved)

* Modelled: Model/WinJob: map_ring of src/os/windows.rs cut into its system calls; Spec/WinJob: between any two of them the state may change in any way that keeps it consistent, keeps the handle, views and reservation of the creation, and neither views nor writes its section.
* Proof: an invariant on the point reached (the section is the creation's own; which views of it exist), kept by every call and by any behaviour of others; C125_apart shows that the calls of one creation are such behaviour for another; C125_alone ties the cut-up version to Win.mapRing.
* Theorems: `C125_alone` [pq], `C125_ends` [pcq], `C125_others` [pcq], `C125_apart` [pcq], `C125_result` [pcq], `C125_failed` [pcq], `C125_six` [pcq], `C125_refused` [pcq].

### C126 — A Map is the corresponding MapMut less the right to store (proved)

* Modelled: Model/FromPtr: the functions of Options<T> with `T::from_ptr` as a parameter.
* Proof: case analysis; Model/Map is shown to be the case T = MapMut.
* Theorems: `C126_made` [pq], `C126_acts` [p], `C126_converts` [p].

### C127 — Copying from a BufReader to a BufWriter delivers every byte once and in order (partial)

* Modelled: Model/Copy: the loop of std::io::copy (environment) over the modelled `read` and `write_all`, in any reachable state of a program holding both rings.
* Proof: induction over the rounds; each round leaves the other ring as it is (C93); negation: a run with full pieces followed step by step.
* Theorems: `C127_copy_partial` [pcq], `C127_delivered_partial` [pcq], `C127_order_false` [pcq], `C127_exact` [pcq].
* Gap: The order is false (consequence of C58): for every copy buffer of c bytes and every writer whose capacity is two or more times c, a source handing out full pieces arrives with its last piece first; e.g. 16 KiB through BufWriter::new(_, 16384) with the 8 KiB of std::io::copy arrive with the halves swapped. Everything else is proved, and the order when no piece exactly fills the free space, in particular when all of it is shorter than the capacity. With an inner writer that takes all it is given, nothing is lost and the order of arrival is determined exactly (C127_exact).

### C128 — After fork each process has the ring it had (partial)

* Modelled: Model/Fork: fork as in C115, with the ring's pages shared; a ring after any program of Spec/World; Spec/ForkRing: calls of one process, arbitrary actions of the other.
* Proof: an invariant: nothing but the ring's pages leads to its memory, in either process (it has no name and no descriptor is left open), so that only stores to them change it; the state of the ring is carried along with the specification queue. Negation: the position at which both write is the same after the fork.
* Theorems: `C128_alone_partial` [pcq], `C128_infinite_partial` [pcq], `C128_shared_false` [pcq].
* Gap: On systems other than macOS (there: C135). False when both processes use it: the memory is shared (MAP_SHARED), the positions are not, so what one appends replaces what the other has appended since the fork (shown for every ring, contents and bytes). Proved when the other process does anything but store to the ring's addresses; dropping its copy of the ring is harmless.

### C129 — On Windows, rings are queues in every program (proved)

* Modelled: Spec/WinWorld (programs on Windows), with ring calls that run in a memory of the process (Spec/WinQueue: WinShows, WinRingCall); everything else the program does is arbitrary.
* Proof: C107 makes the ring circular in every memory of the process; no other step changes the bytes of its section (they belong to no file and to no other handle), so the section's contents, read from the write position once around, stay write slice and queue of the specification; a call is the step of C07/C19 in that memory, and its memory afterwards is a memory of the next state.
* Theorems: `C129_ring` [pcq], `C129_infinite` [pcq].
* Note: Over all programs of Spec/WinWorld; calls run in any memory (Kernel) that shows what the process's views say and has its contents.

### C130 — Text lines through a ring (proved)

* Modelled: Model/Lines: write_fmt, read_line, Split, Lines (std) over Model/Ring and RingStd; valid text is an arbitrary predicate. Spec/Lines: the rows of a text, by recursion on its bytes.
* Proof: write!: induction over the pieces with C14/C20; the iterators: read_until takes exactly the first row (C17 again, for both rings), so collecting is the recursion equation of rows; the round trip from both.
* Theorems: `C130_ring_write_fmt` [pcq], `C130_infinite_write_fmt` [pcq], `C130_ring_split` [pcq], `C130_ring_lines` [pcq], `C130_infinite_split` [pcq], `C130_infinite_lines` [pcq], `C130_ring_read_line` [pcq], `C130_ring_round_trip` [pcq].
* Note: The loops are std's, over the crate's fill_buf, consume and write; which bytes are UTF-8 is any predicate (true of no bytes).

### C131 — Lines of a buffered reader (proved)

* Modelled: Model/Lines over Model/BufferStd (read_until) and an arbitrary spied reader.
* Proof: Induction over the items with the loop invariant of read_until (C85): each item is one row of the stream; for a final end of file the last unterminated row has no successor.
* Theorems: `C131_split` [pcq], `C131_lines` [pcq], `C131_read_line` [pcq].
* Note: That lines() drops the beginning of a line on an error is std's doing; read_line does not.

### C132 — Numbers and buffers through bytes::Buf and bytes::BufMut (proved)

* Modelled: Model/Bytes: the provided methods of bytes::Buf and BufMut (environment) over the six methods of src/io/bytes.rs. Spec/Bytes: digits in base 256.
* Proof: One round of each loop suffices because chunk and chunk_mut are all there is (C18); digits by induction on the width; a sequence by induction on it; put of a ring as two uses of rings in a program (C93).
* Theorems: `C132_put_number` [pcq], `C132_get_number` [pcq], `C132_numbers_round_trip` [pcq], `C132_signed_round_trip` [pcq], `C132_put_bytes` [pcq], `C132_copy_to_bytes` [pcq], `C132_adapters` [pcq], `C132_put_ring` [pcq].
* Note: The provided methods are those of the bytes crate (version 1), over the crate's chunk, advance, chunk_mut, advance_mut. get_int(n) for n below 8, whose sign extension differs between versions of bytes, is not covered; floats are put and got as their bit patterns.

### C133 — When the system grants what is asked, the calls succeed (proved)

* Modelled: Spec/Works: a system that fails no call on its own account and offers one free stretch of memory; the call sequences are those of Model/Map, RingMap, WindowsMap, Windows, Mach.
* Proof: Each system call is followed with its arguments; every check the system makes (offset and address aligned, exactly one of MAP_SHARED and MAP_PRIVATE, descriptor open for what is asked, length representable and not zero, place free) is met by what the library passes.
* Theorems: `C133_map_if` [pcq], `C133_open_if` [pcq], `C133_ring` [pcq], `C133_infinite` [pcq], `C133_alloc` [pcq], `C133_windows_map_if` [pcq], `C133_windows_open_if` [pcq], `C133_windows_alloc` [pcq], `C133_windows_ring` [pcq], `C133_windows_infinite` [pcq], `C133_macos_ring` [pcq], `C133_macos_infinite` [pcq].
* Note: The memory offered is one stretch p..p+n that is free now (Spec/Works: Willing). That read-only alloc always fails on Unix is C38.

### C134 — From BufWriter::new to its drop, every accepted byte reaches the inner writer (partial)

* Modelled: Model/BufWriter: new, write, flush, drop, with an arbitrary inner writer whose every answer (bytes taken, error, panic) is recorded.
* Proof: The invariant of C58 over the history (received ++ buffered is what was accepted) composed with the case analysis of flush_buf in the drop (C64); counterexample: a writer that panics once.
* Theorems: `C134_partial` [pcq], `C134_lost_after_panic` [pcq], `C134_false` [pcq].
* Gap: Missing: histories whose last inner write was refused (panic, error or zero bytes taken). For these the full statement is false (C134_false); C134_lost_after_panic shows it in every such state, C134_partial accounts for every byte received or lost.

### C135 — Rings in a child process on macOS (partial)

* Modelled: Model/Mach records the inheritance each call gives its pages; Model/MachFork: the child task (copies of inherited pages, nothing elsewhere). Spec/MachFork: which memories a child can have, and which calls reach over the end.
* Proof: Simulation between the ring in the parent and the half of it in the child: loads and stores inside the first half agree, others fault; induction over the history. Counterexample: 300 bytes at position 8000 of a ring of 8192.
* Theorems: `C135_partial` [pcq], `C135_contents` [pcq], `C135_false` [pcq].
* Gap: Missing: calls over the end of the ring, for which the full statement is false (C135_false). C135_partial says exactly which histories answer correctly and that all others end in a memory fault, never in wrong bytes. On the other Unix systems both halves are inherited and shared (C128).

### C136 — Buffered readers and writers after fork (partial)

* Modelled: Model/Fork (two processes over common memory objects) and Model/Buffer. Spec/ForkBuf: the history of a BufWriter or BufReader in one process, interleaved with arbitrary actions of the other that do not store to the addresses of the ring.
* Proof: Every call on the buffered object is a sequence of calls on its ring (as for C93), so C128's invariant carries over; the bytes by the single-call accounting of C59 and C53. Dropping in one process is, for the other, an munmap elsewhere, so the second drop finds the same bytes.
* Theorems: `C136_writer_partial` [pcq], `C136_reader_partial` [pcq], `C136_twice` [pcq], `C136_overwritten` [pcq], `C136_false` [pcq].
* Gap: On systems other than macOS (there: C135). Missing: both processes use or drop their copy, for which the full statement is false: C136_twice (for every state and every writer that takes what it is offered), C136_overwritten (for every state and all bytes), C136_false.

### C137 — The system calls of every function (proved)

* Modelled: The log the model of the kernel keeps of every call with its arguments and result. Spec/Calls: for each kind of step the calls it may make.
* Proof: Case analysis of every function over the outcome of each of its calls; the memory operations by induction over the bytes stored.
* Theorems: `C137_calls` [pcq], `C137_reader` [pq], `C137_writer` [pq].
* Note: Unix, including macOS. The calls std makes inside File::metadata, set_len and OpenOptions::open are taken to be one fstat, ftruncate and open each (repetitions after EINTR not counted).

### C138 — A synchronous flush makes the flushed bytes durable on Windows (proved)

* Modelled: Model/Windows and Model/WindowsMap with the log of calls; Spec/WinStore: the disk and what is on its way there, changed by the successful calls of the log and by arbitrary write-back.
* Proof: The flush covers the pages of the range, which the map's view shows (C108, C120), so FlushViewOfFile hands over each byte and FlushFileBuffers brings it to the disk; from then on every effect writes the same value, by induction over the later steps. Counterexamples by computation: an asynchronous flush; a synchronous one with another open file.
* Theorems: `C138_sync` [pcq], `C138_whole` [pcq], `C138_async` [pcq], `C138_async_false` [pq], `C138_other_file_false` [pq].
* Note: The range must not overflow usize (o + l < 2^bits; see C44 for what happens otherwise). What FlushViewOfFile and FlushFileBuffers do to the disk is taken from the Windows documentation.

### C139 — The system calls of every function on Windows (proved)

* Modelled: The log the model of Windows keeps of every call with its arguments. Spec/WinCalls: for each kind of step the calls it may make.
* Proof: Case analysis of every function over the outcome of each of its calls; the ring loop by induction over the attempts left; ranges and views by C108 and the invariant of reachable states.
* Theorems: `C139_calls` [pcq], `C139_bounded` [pq].
* Note: Range arguments whose sum overflows usize are excluded, see C108_full_false. The calls std makes inside File::metadata and File::set_len are taken to be one each.

### C140 — A ring that does not fit the address space is refused (partial)

* Modelled: Model/Ring over Model/RingMap (Unix), Model/Platform over Model/Windows and Model/Mach, with wrapping or panicking arithmetic by build profile.
* Proof: Unix: the outcomes of map_ring (C25, C26); a circular mapping that large has no place. Windows: the section has the wrapped-around length, so every view of len bytes is refused; induction over the attempts. macOS: the four calls one after another, with the page table after each.
* Theorems: `C140_unix` [pcq], `C140_windows_partial` [pcq], `C140_macos_partial` [pcq], `C140_debug` [pcq], `C140_macos_destroys` [pcq], `C140_false` [pcq].
* Gap: Full on Unix without Mach (C140_unix).  Missing: debug builds on Windows and macOS, which panic (C140_debug); release builds on macOS when the system places the first half, for which the statement is false (C140_macos_destroys for every such state, C140_false).

### C141 — Rings work on macOS in programs with maps (proved)

* Modelled: Model/Darwin: the calls of mach.rs on the same kernel state as maps (page table with protections and contents, log, port rights), map_ring and unmap_ring over them, and the choice between them and posix by system (src/os/unix/mod.rs:17-29); Ring::make and InfiniteRing::make are the constructors on any Unix.
* Proof: The outcomes of the four calls one after another, with the page table after each (Proofs/Darwin); the result is the same circular mapping as on posix (made_of_ringPt), so everything built on it applies.
* Theorems: `C141_ring` [pcq], `C141_infinite` [pcq], `demoMac_world` [p].
* Note: Whole programs: Spec/World makes and drops rings with the system's own map_ring and unmap_ring, so C75, C77, C78, C93, C95-C99, C117-C119, C137 and the rest of the whole-program properties are theorems about macOS programs as well; demoMac_world is such a program.

### C142 — Dropping rings gives everything back on macOS (partial)

* Modelled: Model/Darwin with the list of port rights. Spec/Ports: runs of a program with the number of rings asked for and obtained.
* Proof: No other call touches the rights (Proofs/Ports: every function of the model); the count by induction over the run. Negation by computation: one ring made and dropped.
* Theorems: `C142_rights_partial` [pcq], `C142_elsewhere` [pq], `C142_false` [pcq].
* Gap: Missing: the rights are given back, which is false (C142_false).  C142_rights_partial counts them exactly from below: one for each ring ever obtained, whatever was dropped; at most one for each call.

### C143 — On Windows, BufReader is transparent in every program (proved)

* Modelled: Model/WinBuffer over Model/Platform and Model/Windows for what makes the ring; Model/Buffer for the calls, run in a memory of the process. Spec/WinBuffer: runs of a program with the calls on the reader.
* Proof: Whatever positions a ring has, feeding and consuming leads there from a new ring over the same memory (RingRep.ringAt), so the theorems about reachable rings apply in every memory of the process; a call on the reader is a sequence of calls on its ring (Uses); invariant by induction over the run.
* Theorems: `C143_reader` [pcq].
* Note: The inner reader is assumed not to touch memory other than the slice it is given. RingAt in the conclusion: in every memory of the process the ring is in a state that C54-C57 and C83-C85 speak about.

### C144 — On Windows, BufWriter delivers what it accepts in every program (proved)

* Modelled: As C143; Model/WinBuffer.lastFlush is the part of the drop that calls the inner writer, after which the ring is dropped.
* Proof: As C143, with the step lemmas of C58-C62; the drop from the courses a flush can take.
* Theorems: `C144_writer` [pcq], `C144_drop` [pcq].
* Note: The exceptions in the statement are those of C58 (order) and C134 (loss at the drop). The inner writer is assumed not to touch memory.

### C145 — Conversions between Map and MapMut in whole programs on Windows (proved)

* Modelled: Model/Windows (intoMap, intoMapMut, protect, VirtualProtect's rules for views), Spec/WinSettings (WinNewMap: how a map comes about).
* Proof: The view of a map is followed through every later step (win_later_ind); the pages of the call are the pages of that view only, since views do not share pages, so what Windows can grant is decided by the access the view was made with.
* Theorems: `C145_into_map_mut` [pcq], `C145_into_map` [pcq], `C145_bytes` [pcq], `C145_store` [pcq], `C145_never` [pcq].
* Note: into_map asks Windows for write access too, so it is the same condition; the Map it returns still has writable pages (its type prevents writing).

### C146 — Locked memory in whole programs on Windows (proved)

* Modelled: Model/Windows (lockRange, unlockRange; VirtualLock, VirtualUnlock and UnmapViewOfFile after their documentation), Spec/WinSettings (WinSettings: what the calls say).
* Proof: An invariant over all steps (what is locked lies in a view), and for each step what it does to the locks of pages inside and outside the map's view.
* Theorems: `C146_locks` [pcq], `C146_unlock` [pcq], `C146_mapped` [pcq].
* Note: Ranges whose end overflows (in builds without overflow checks they can name pages before the map) are C108's.

### C147 — Maps and allocations on Windows while other threads act (proved)

* Modelled: Model/WinMapJob: map_if and alloc over src/os/windows.rs cut into their system calls; Spec/WinMapJob: between any two of them the state may change in any way that keeps it consistent and leaves alone what the call has; WinTeam is a program whose threads make rings and maps.
* Proof: an invariant on the point reached (the section is the call's own, its length is one the file had, where its view is), kept by every call and by any behaviour of others; C147_apart shows that the calls of one thread are such behaviour for the others, and C147_team extends that to any number of threads by induction over the program; C147_alone_map and C147_alone_alloc tie the cut-up version to Win.mapIf and Win.alloc.
* Theorems: `C147_alone_map` [p], `C147_alone_alloc` [p], `C147_ends` [pcq], `C147_others` [pcq], `C147_map` [pcq], `C147_alloc` [pcq], `C147_failed` [pcq], `C147_apart` [pcq], `C147_team` [pcq].

### C148 — Threads that create rings at the same time on macOS do not disturb each other (proved)

* Modelled: Model/MachJob (map_ring cut into its kernel calls), over the kernel calls of Model/Darwin
* Proof: Invariant over all interleavings: the pages a creation has are mapped, and show memory that is newer than the creation and that nothing else leads to; every call keeps this and everything of others; by induction over runs and over teams of threads
* Theorems: `C148_alone` [p], `C148_ends` [pcq], `C148_others` [pcq], `C148_result` [pcq], `C148_failed` [pcq], `C148_apart` [pcq], `C148_team` [pcq].
* Note: map_ring of mach.rs cut into its kernel calls with anybody in between; C148_alone ties the cut version to the uncut one

### C149 — Processes that create rings at the same time without memfd do not get in each other's way (proved)

* Modelled: The fallback `memfd_open` (src/os/unix/posix/memfd.rs:33-61) cut into its system calls (Model/ShmJob), over a name space shared by all processes. `C149_alone` shows that with nothing in between it is `memfdOpen` of Model/Memfd (C79).
* Proof: invariant over all interleavings: a name made by a creation stands for that creation's object, objects are new and pairwise different, and have no other name.
* Theorems: `C149_alone` [pcq], `C149_no_panic` [pcq], `C149_step` [pcq], `C149_own` [pcq], `C149_keeps` [pq], `C149_clean` [pcq], `C149_over` [pcq], `C149_retry` [pcq].
* Note: A descriptor is stood for by the object it leads to.

### C150 — A memory entry that covers less than asked does not break a ring on macOS (partial)

* Modelled: `Mach.mapRingUpTo` (Model/MachShort.lean): mach.rs:79-131 on a kernel whose memory entries cover at most `cover + 1` pages; `C150_whole` ties it to `Mach.mapRing`
* Proof: case analysis of the four calls with the resulting page table written out (`mapRingUpTo_cases`), against `MachRing` of Spec/Mach.lean; the negation is a three-page ring with an entry for two
* Theorems: `C150_partial` [pcq], `C150_whole` [pq], `C150_bystanders` [pcq], `C150_short` [pcq], `C150_short_leaks` [pcq], `C150_false` [pcq].
* Gap: False of the code: the size that came back is used for the second half but never compared with the one asked for. C150_partial: true for entries covering the whole length. C150_short: for every shorter entry a successful creation returns a mapping in which page c of the first half is page 0 and the second half does not begin with page 0. C150_short_leaks: for every shorter entry a failing vm_map leaves the pages from 2*c on mapped. C150_bystanders holds without restriction: no panic, no page in use is touched, and dropping the ring gives every page back.

### C151 — On Unix, rings are queues in every program (proved)

* Modelled: Model/Ring, Model/Darwin, Spec/World
* Proof: Spec/UnixQueue defines the traces (ring calls update the list queue, any other step leaves it); Proofs/UnixQueue carries the representation (RingRep, InfRep) through every step: ring_step/inf_step/inf_writeAll for calls, Effect.apart for the rest.
* Theorems: `C151_ring` [pcq], `C151_infinite` [pcq].
* Note: Traces over World steps, any kernel (mach or not).

### C152 — On Unix, BufReader is transparent in every program (proved)

* Modelled: Model/Buffer, Spec/World
* Proof: induction over Spec.Reads with rd_step for calls, Uses.world for the program state and HoldsRing.other for the rest
* Theorems: `C152_reader` [pcq].
* Note: Unix counterpart of C143; joins C53 (one history) and C93 (non-interference) into one statement.

### C153 — On Unix, BufWriter delivers what it accepts in every program (proved)

* Modelled: Model/Buffer, Spec/World
* Proof: induction over Spec.Writes with wr_step, Uses.world and HoldsRing.other; the ends by C64_drop, C63_into_inner, C93_writer_drop, C93_writer_into_inner
* Theorems: `C153_writer` [pcq], `C153_drop` [pcq], `C153_into_inner` [pcq].
* Note: Unix counterpart of C144, with into_inner.

### C154 — The documentation's ring examples do what they say (partial)

* Modelled: Model/Doc.lean (the example programs, `Display` of an integer, the pieces of `write!`); Spec/Doc.lean (how many bytes the lines take)
* Proof: Invariant of the two loops over the number of lines written (the ring holds exactly lines 1 to j), with the theorems of C130, C08, C20 and C27 for each call; the page sizes by kernel computation of the sum of the line lengths.
* Theorems: `C154_ring_partial` [pcq], `C154_infinite_partial` [pcq], `C154_ring_body` [pcq], `C154_infinite_body` [pcq], `C154_ring_false` [pcq], `C154_infinite_false` [pcq].
* Gap: False for large pages: C154_ring_false (128 KiB) and C154_infinite_false (512 KiB) are witnesses; the partial theorems hold for pages of 4, 8, 16, 32 and 64 KiB. C154_ring_body and C154_infinite_body decide the outcome exactly for any capacity from 220 bytes to 2 GiB.

### C155 — The documentation's buffer examples do what they say, for every text (proved)

* Modelled: Model/Doc.lean (`recover`, `unwind`, `relay` and their writers, sender and receiver) over Model/Buffer.lean and Model/BufferStd.lean
* Proof: The text goes into the empty ring without a call of the writer; induction over the rounds of flush_buf and of read_until, the buffer being a view of the ring (readable bytes, free space) at each step.
* Theorems: `C155_into_inner` [pcq], `C155_into_parts` [pcq], `C155_socket` [pcq].
* Note: The drops at the end of the socket example are not part of it (C27, C64).

### C156 — Rings and buffers answer the same on every machine (proved)

* Modelled: `Ring.exec`, `InfiniteRing.exec`, `InfiniteRing.writeAll`, `BufReader.exec`, `BufWriter.exec`, `Ring.make`, `InfiniteRing.make`; runs with other activity: `RingAnswers`, `InfAnswers`, `ReaderAnswers`, `WriterAnswers` (Spec/Same.lean)
* Proof: each run is shown to follow the queue with its write slice in view (C10, C22); that queue depends on the byte count only through its remainder, and only in `clear`; for buffers a step-by-step simulation of one run by the other
* Theorems: `C156_ring` [pcq], `C156_new` [pcq], `C156_infinite` [pcq], `C156_infinite_new` [pcq], `C156_reader` [pcq], `C156_writer` [pcq], `C156_runs` [pcq], `C156_reader_runs` [pcq], `C156_writer_runs` [pcq].
* Note: Two-run (relational) statement. Windows rings are covered as far as C91 places them (RingAt.placed).

### C157 — The examples of the documentation of maps hold on every Unix system (proved)

* Modelled: Model/DocMap.lean: the examples as programs over the crate's model, `?` returning the error, assert! panicking.
* Proof: A file with a known text and maps that show it (Sees) are carried through each call: opening and mapping (C32, C35, C36 exact), stores (C41), conversions (C42, C43), flush and advise; success on granting systems from C133.
* Theorems: `C157_regions` [pcq], `C157_changes` [pcq], `C157_map_type` [pcq], `C157_with_options` [pcq], `C157_into_map_mut` [pcq], `C157_with_options_mut` [pcq], `C157_into_map` [pcq], `C157_new` [pcq], `C157_alloc` [pcq], `C157_create` [pcq], `C157_create_new` [pcq], `C157_truncate` [pcq], `C157_offset` [pcq], `C157_len_exact` [pcq], `C157_len_min` [pcq], `C157_len_min_small_pages` [p], `C157_len_max` [pcq], `C157_resize_exact` [pcq], `C157_resize_min` [pcq], `C157_resize_max` [pcq], `C157_open` [pcq], `C157_open_if` [pcq], `C157_write` [pcq], `C157_map` [pcq], `C157_map_if` [pcq], `C157_copy` [pcq].
* Note: Unix. The temporary directory is a path of the system; fs::write before the example is the file's content at the start. What happens when main returns is left out.

### C158 — Opening files on Windows (proved)

* Modelled: Model/WinFile.lean: the file system, CreateFileW, the calls of map_if through a handle opened for reading or writing, open and open_if; Spec/WinFile.lean
* Proof: Cases of CreateFileW (Opening), then map_if through the handle: either the write access is there and it is map_if of C106 and C124, or the first call needing it is refused (Denied).
* Theorems: `C158_open_if` [pcq], `C158_open` [p], `C158_needs_write` [p], `C158_create_new` [pcq], `C158_missing` [pcq], `C158_reading` [pcq], `C158_mapped` [pcq].
* Note: OpenOptions::open of std (the table of creation dispositions) and CreateFileW as documented are part of the model.

### C159 — Programs on Windows leak no file, and keep what they have mapped (partial)

* Modelled: Model/WinFile.lean, Model/Windows.lean, Model/WindowsMap.lean; programs: Spec/WinDisk.lean over Spec/WinWorld.lean
* Proof: invariant by induction over the steps (FsInv in Proofs/WinDisk.lean): the invariant of C105 for the process, consistency of the file system, and who owns which open file; open_if is split into CreateFileW, a step that leaves all views alone, and map_if, the step of C105; no other call makes a view of a file
* Theorems: `C159_views` [pcq], `C159_files` [pcq], `C159_same_file` [pcq], `C159_all_dropped_partial` [pcq], `C159_full_false` [pcq], `C159_kept` [pcq], `C159_shows` [pcq], `C159_no_panic` [pcq], `C159_not_truncated` [pcq].
* Gap: Everything is proved but the last sentence in full: dropping a map of length 0 does not unmap its view (as in C105), so the full statement is false of the code (C159_full_false); C159_all_dropped_partial is for programs that drop no such map. Files are not deleted or renamed by other processes.

### C160 — The examples of the documentation of maps hold on Windows (proved)

* Modelled: Model/WinDocMap.lean: the examples as programs over the crate's model on Windows, `?` returning the error, assert! panicking.
* Proof: A file with a known text and maps that show it (WinSeen) are carried through each call: opening (C158), mapping (C106, C81 exact), stores and conversions, drops.
* Theorems: `C160_regions` [pcq], `C160_changes` [pcq], `C160_map_type` [pcq], `C160_with_options` [pcq], `C160_into_map_mut` [pcq], `C160_with_options_mut` [pcq], `C160_into_map` [pcq], `C160_new` [pcq], `C160_alloc` [pcq], `C160_create` [pcq], `C160_create_new` [pcq], `C160_truncate` [pcq], `C160_offset` [pcq], `C160_len_exact` [pcq], `C160_len_min` [pcq], `C160_len_max` [pcq], `C160_resize_exact` [pcq], `C160_resize_min` [pcq], `C160_resize_max` [pcq], `C160_open` [pcq], `C160_open_if` [pcq], `C160_map` [pcq], `C160_map_if` [pcq], `C160_write` [pcq], `C160_copy` [pcq].
* Note: The example of Extent::Min allocates at least 2000 bytes and asserts that one allocation unit comes back, so it is proved for granularities of at least 2000 (Windows has 65536).  The examples of open, open_if, map, map_if and write assert that calls succeed, so they are proved for a Windows that fails no call on its own account (and, but for write, offers a free place).

### C161 — The documentation's ring examples do what they say on Windows (proved)

* Modelled: Model/WinDoc (winRing, winInfinite) over Model/Doc, Model/Platform and Model/Windows
* Proof: winRing_new / winInf_new (creation ends; an error leaves nothing; dropping a ring at the same place leaves nothing) with the examples' bodies of C154 at capacity 65536; that the body does not move the ring is proved by going through its calls (Stays).
* Theorems: `C161_ring` [pcq], `C161_infinite` [pcq].
* Note: Allocation granularity 64 KiB (as on every Windows); C154 has the counterexamples for other sizes. The body of the examples runs in any memory of the process that shows what its views show.

### C162 — The documentation's examples of buffered writers do what they say on Windows (proved)

* Modelled: Model/WinDoc (winRecover, winUnwind, winRelay, BufWriter.winIntoInner, BufWriter.winDrop) over Model/WinBuffer and Model/Buffer
* Proof: winWriter_new gives an empty ring of at least the capacity in the process's memory; the calls in between are those of C155; flush_erring_short, flush_erring_all, flush_sender and readUntil_receiver describe the writers and readers. C162_drop and C162_into_inner_any allow any inner writer: lastFlush_view and flush_view describe the flush, and the ring is still the one that winNew made.
* Theorems: `C162_into_inner` [pcq], `C162_into_inner_any` [pcq], `C162_into_parts` [pcq], `C162_drop` [pcq], `C162_socket` [pcq].
* Note: Counterpart of C155 on Windows. In the socket example the two buffers are still alive at the end.

### C163 — The crate's own tests of rings pass everywhere, except that of the `bytes` traits on Windows (partial)

* Modelled: Tests.size, wrap, sizes, overwrite, bytesSanity and the whole tests ring, infinite, rings, winRing, winInfinite, winRings (Model/RingTests)
* Proof: Each body is run on any new ring through the view of a ring as (readable bytes, free bytes): write_all of what fits appends it, consume drops it, as_read_slice shows its front; the loops by induction over the words. What the infinite ring holds after the words is the last capacity bytes of a periodic text. The whole tests add creation and drop: on Unix by C15/C25/C27, on Windows by the lemmas of C161. The list of rings is handled by induction, with nothing left of a ring before the next is created.
* Theorems: `C163_size` [pcq], `C163_wrap` [pcq], `C163_sizes` [pcq], `C163_overwrite` [pcq], `C163_bytes` [pcq], `C163_windows_size` [pcq], `C163_windows_wrap` [pcq], `C163_windows_sizes` [pcq], `C163_windows_overwrite` [pcq], `C163_windows_bytes_partial` [pcq], `C163_windows_bytes_false` [pcq].
* Gap: False of test_bytes_sanity on Windows: C163_windows_bytes_false shows that it panics whenever the allocation granularity is larger than a page; C163_windows_bytes_partial is the case where it is not. All other tests pass on both platforms.

### C164 — The crate's own tests of maps pass on every Unix (proved)

* Modelled: MapTests.allocationSize, allocMin, allocExact, allocOffset, readEnd, readMin, readMax, readExact, copy, writeIntoMut, truncate, volatile, unaligned (Model/MapTests), over Options.open_/alloc, MapMut/Map, Span reads and writes, Unix.protect
* Proof: `allocation_size` is proved for every unit that is a power of two, from the closed forms of C01 to C03. Each other test: each step is run by the lemmas of C123 on opened maps, extended to offsets, to anonymous maps at any offset (all zero), and to u64 reads and writes (the value written is what the bytes written decode to, and the bytes around it stay). alloc_offset: the pages of the map are split by protect into one that can be written and one that cannot.
* Theorems: `C164_allocation_size` [pcq], `C164_alloc_min` [pcq], `C164_alloc_exact` [pcq], `C164_alloc_offset` [pcq], `C164_alloc_offset_fault` [pcq], `C164_read_end` [pcq], `C164_read_min` [pcq], `C164_read_max` [pcq], `C164_read_exact` [pcq], `C164_copy` [pcq], `C164_write_into_mut` [pcq], `C164_truncate` [pcq], `C164_volatile` [pcq], `C164_unaligned` [pcq].
* Note: The tests as programs over the model; what happens when the test function returns (drops, removal of the temporary directory) is left out.

### C165 — The crate's own tests of maps pass on Windows (proved)

* Modelled: WinMapTests.* (Model/WinMapTests), WinSpan.* (Model/WinSpan), over WinFs.open_, Win.alloc, intoMapMut, intoMap, protect, load, store
* Proof: As C164, with the lemmas of C160 on maps on Windows extended to anonymous maps at any offset, to u64 reads and writes and to several bytes written to a copy-on-write view (each write makes a page the process's own with the bytes it had; all bytes of the view keep what they showed but the one written).
* Theorems: `C165_alloc_min` [pcq], `C165_alloc_exact` [pcq], `C165_alloc_offset` [pcq], `C165_read_end` [pcq], `C165_read_min` [pcq], `C165_read_max` [pcq], `C165_read_exact` [pcq], `C165_copy` [pcq], `C165_write_into_mut` [pcq], `C165_truncate` [pcq], `C165_volatile` [pcq], `C165_unaligned` [pcq].
* Note: The tests as programs over the model of the crate on Windows. There VirtualProtect does not change the access of views; the fault that one more byte in alloc_offset causes is C167_alloc_offset_fault.

### C166 — Numbers read and written through maps on Windows (proved)

* Modelled: WinSpan.readVolatile, readUnaligned, writeVolatile, writeUnaligned (Model/WinSpan), Win.load, Win.store
* Proof: One byte written to a view through to its section, or to the process's own copy of a page, changes what that address shows and no other address of the view; several bytes by induction; encode and decode as in C46. C166_alloc and C166_open show that maps have such memory.
* Theorems: `C166_unaligned` [pcq], `C166_volatile` [pcq], `C166_out_of_range` [pq], `C166_wraps_below` [pq], `C166_alloc` [pcq], `C166_open` [pcq].
* Note: The Windows counterpart of C46, C47 and C48; the wrap-around that makes C47 false is part of the statement here (C166_wraps_below).

### C167 — On Windows os::protect takes effect page by page, and the latest granted call decides (proved)

* Modelled: Model/WinGuard (WinGuard.protect, store, load, call, run, intoMap, intoMapMut, allocOffset) over Model/Windows
* Proof: run_inv: by induction over the program, a page is barred exactly if the history of granted calls says so (MayWrite), and the memory stays readable and writable for the views; into_map_mut asks for all pages of the map (WinSeen.whole); win_alloc_new: the pages of a new view are apart from those of all views that were there; win_allocOffset: the protected byte is the first of its page.
* Theorems: `C167_last_wins` [pcq], `C167_only_faults` [pcq], `C167_into_map_mut` [pcq], `C167_new_memory` [pcq], `C167_alloc_offset` [pcq], `C167_alloc_offset_fault` [pcq].
* Note: Model/WinGuard adds to the process the pages that VirtualProtect has made read-only; the rest of the crate is as in Model/Windows. A ReadCopy request asks for PAGE_READWRITE, as in the code.

### C168 — Copying from one ring to another (proved)

* Modelled: Model/RingCopy: copyRings (the loop of std), Ring.copyToRing etc. over Ring.read, Ring.writeAll, InfiniteRing.read, InfiniteRing.writeAll
* Proof: Induction on the rounds of the loop over two laws (a source gives up its first bytes, a target answers as its queue), each proved for both kinds of rings as steps of a program (C151), so that the other ring is not disturbed.
* Theorems: `C168_ring_to_ring` [pcq], `C168_infinite_to_ring` [pcq], `C168_ring_to_infinite` [pcq], `C168_infinite_to_infinite` [pcq], `C168_loses` [pcq].
* Note: The loop of std::io::copy is environment; every step is a method of src/io/ring.rs.

### C169 — read_exact and read_to_end on an InfiniteRing (proved)

* Modelled: Model/RingCopy: InfiniteRing.readExact, InfiniteRing.readToEnd
* Proof: From the specification state of a reachable InfiniteRing; two rounds suffice for read_exact, induction on the rounds for read_to_end.
* Theorems: `C169_infinite_read_exact` [pcq], `C169_infinite_read_to_end` [pcq].
* Note: The loops are those of std (environment).

### C170 — Rings through the standard library's adapters (proved)

* Modelled: Model/RingAdapt: takeRead, chainRead, bytesNext, collectBytes, readAll, readVectored, writeVectored over Ring.read, Ring.write, InfiniteRing.read, InfiniteRing.write
* Proof: One law (a read takes bytes off the front) proved for both kinds of rings and carried through every adapter; induction on the rounds.
* Theorems: `C170_ring_take` [pcq], `C170_infinite_take` [pcq], `C170_ring_bytes` [pcq], `C170_infinite_bytes` [pcq], `C170_ring_chain` [pcq], `C170_infinite_chain` [pcq], `C170_ring_read_vectored` [pcq], `C170_infinite_read_vectored` [pcq], `C170_ring_write_vectored` [pcq], `C170_infinite_write_vectored` [pcq].
* Note: The adapters and default methods are those of std (environment); every step is a method of src/io/ring.rs.

### C171 — Copying from a BufReader to a Ring (proved)

* Modelled: Model/BufCopy: BufReader.copyToRing over BufReader.read and Ring.writeAll
* Proof: Induction over the rounds, in a program with any other maps and rings: each read and each write_all is a sequence of calls on one ring, which leaves the memory of all others alone.
* Theorems: `C171_reader_to_ring` [pcq].
* Note: The loop is that of std (environment); every step is a method of src/io/buffer.rs or src/io/ring.rs. Positions below the bound of C16.

### C172 — Copying from a Ring to a BufWriter (partial)

* Modelled: Model/BufCopy: Ring.copyToWriter over Ring.read and BufWriter.writeAll
* Proof: Induction over the rounds, as for C171; the negation by running the copy on a writer that takes everything.
* Theorems: `C172_ring_to_writer_partial` [pcq], `C172_delivered_partial` [pcq], `C172_order_false` [pcq], `C172_exact` [pcq].
* Gap: False of the code as to the order: a piece that exactly fills the free space of the writer's buffer overtakes what is in it (C172_order_false). Proved otherwise in full; the order is proved if everything together is shorter than the writer's capacity, or if the writer's buffer is empty and the ring's bytes fit the copy buffer. With an inner writer that takes all it is given, the order of arrival is determined exactly (C172_exact, C174_exact). The loop is that of std (environment).

### C173 — Copying from a BufReader to an InfiniteRing (proved)

* Modelled: Model/BufCopyInf: BufReader.copyToInfinite over BufReader.read and InfiniteRing.writeAll
* Proof: Induction over the rounds, as for C171, with the infinite ring refining the queue that keeps the last bytes.
* Theorems: `C173_reader_to_infinite` [pcq].
* Note: The loop is that of std (environment); every step is a method of src/io/buffer.rs or src/io/ring.rs. Positions below the bound of C16.

### C174 — Copying from an InfiniteRing to a BufWriter (partial)

* Modelled: Model/BufCopyInf: InfiniteRing.copyToWriter over InfiniteRing.read and BufWriter.writeAll
* Proof: Induction over the rounds, as for C172; the negation by running the copy on a writer that takes everything.
* Theorems: `C174_infinite_to_writer_partial` [pcq], `C174_delivered_partial` [pcq], `C174_order_false` [pcq], `C174_exact` [pcq].
* Gap: False of the code as to the order: a piece that exactly fills the free space of the writer's buffer overtakes what is in it (C174_order_false). Proved otherwise in full; the order is proved if everything together is shorter than the writer's capacity, or if the writer's buffer is empty and the ring's bytes fit the copy buffer. With an inner writer that takes all it is given, the order of arrival is determined exactly (C172_exact, C174_exact). The loop is that of std (environment).

### C175 — BufReader through take and bytes (proved)

* Modelled: Model/BufAdapt: BufReader.takeToEnd, BufReader.nextByte over BufReader.read
* Proof: Induction over the rounds; each read is a sequence of calls on the reader's ring (C152).
* Theorems: `C175_take` [pcq], `C175_take_twice` [pcq], `C175_bytes` [pcq].
* Note: The loops are those of std (environment); every step is a method of src/io/buffer.rs. Positions below the bound of C16.

### C176 — Formatted text to a BufWriter (partial)

* Modelled: Model/BufAdapt: BufWriter.writeFmt over BufWriter.writeAll
* Proof: Induction over the pieces; the negation by running it on a writer that takes everything.
* Theorems: `C176_write_fmt_partial` [pcq], `C176_delivered_partial` [pcq], `C176_order_false` [pcq].
* Gap: False of the code as to the order: write!(w, "{}{}", a, c) on a fresh BufWriter whose capacity is the length of the text delivers c before a (C176_order_false, a consequence of C58). Proved otherwise in full; the order is proved if everything together is shorter than the capacity, or the buffer is empty and the text is one piece. The loop is that of std (environment).

### C177 — Exactly what a BufWriter delivers, and in which order (proved)

* Modelled: Model/Buffer: BufWriter.write, flush; Model/BufAdapt: BufWriter.writeFmt. Spec/Arrives: the order of arrival as a function of lists
* Proof: One piece at a time against the specification (kept, passed on, flushed first); the equivalence by induction over the lengths, with zeros and ones as witnesses.
* Theorems: `C177_exact` [pcq], `C177_order_iff` [pcq], `C177_order` [pcq], `C177_order_broken` [pcq].
* Note: The exact extent of the fault of C58. Positions below the bound of C16.

### C178 — Chained buffered readers, and vectored reads and writes of buffered readers and writers (proved)

* Modelled: Model/BufChain: Chain::read, a read-to-end loop over it, and std's default read_vectored and write_vectored, over the modelled `read` and `write`.
* Proof: induction over the calls: the phase of the second reader first, then that of the first, whose last call turns into the first of the second; slices by recursion, then C66 for the single write.
* Theorems: `C178_chain` [pcq], `C178_chain_all` [pcq], `C178_read_vectored` [pcq], `C178_write_vectored` [pcq].
* Note: The loops are those of std (environment). The order in which a BufWriter delivers what it accepted is the subject of C58 and C177.

### C179 — io::copy between rings on Windows moves the bytes in order, or stops at WriteZero with a full Ring (proved)

* Modelled: Ring.copyToRing, InfiniteRing.copyToRing, Ring.copyToInfinite, InfiniteRing.copyToInfinite (Model/RingCopy), run in a memory that shows the Windows state; Spec/WinCopy: WinOnlyCalls.
* Proof: Induction over the rounds: each read and write is a WinRingCall/WinInfCall (WinHolds.run), which extends the trace of its own ring and is another step in the trace of the other; the arithmetic of pieces is that of C168.
* Theorems: `C179_ring_to_ring` [pcq], `C179_infinite_to_ring` [pcq], `C179_ring_to_infinite` [pcq], `C179_infinite_to_infinite` [pcq].
* Note: Within the byte bound posBound of C24. The loop of io::copy and write_all are the standard library's (environment); a write_all to an InfiniteRing counts as the write of the bytes it keeps.

### C180 — read_exact, read_to_end, write_all, copy_to_slice and put_slice on rings on Windows (proved)

* Modelled: Ring.readExact, Ring.readToEnd, Ring.writeAll, Ring.copyToSlice, Ring.putSlice (Model/RingStd), InfiniteRing.readExact, InfiniteRing.readToEnd (Model/RingCopy), InfiniteRing.writeAll (Model/Ring), run in a memory that shows the Windows state.
* Proof: Induction over the loops, with each read a WinRingCall/WinInfCall that extends the trace of the ring (win_ring_source, win_inf_source, win_ring_sink, win_inf_sink of C179).
* Theorems: `C180_ring` [pcq], `C180_infinite` [pcq], `C180_slices` [pcq].
* Note: write_all within the byte bound posBound of C24. The loops of read_exact, read_to_end and (for Ring) write_all are the standard library's (environment).

### C181 — take, bytes, split, lines, read_line and write! on rings on Windows (proved)

* Modelled: takeRead, collectBytes, readAll (Model/RingAdapt), readLine, splitNext, linesNext, collect, Ring.writeFmt, InfiniteRing.writeFmt (Model/Lines), run in a memory that shows the Windows state.
* Proof: WinLeft (Spec/WinLines) says what is left of the ring after calls of its functions alone; it is an invariant of read, fill_buf and consume, so the inductions of C130 and C170 over the adapters apply to it; write! by induction over the pieces with the sinks of C179.
* Theorems: `C181_ring_adapters` [pcq], `C181_infinite_adapters` [pcq], `C181_ring_lines` [pcq], `C181_infinite_lines` [pcq], `C181_ring_write_fmt` [pcq], `C181_infinite_write_fmt` [pcq].
* Note: write! within the byte bound posBound of C24. The adapters and loops are the standard library's (environment). What counts as UTF-8 is any function that accepts the empty text.

### C182 — chain of two rings, and vectored reads and writes, on Windows (proved)

* Modelled: chainRead, readAll, readVectored, writeVectored (Model/RingAdapt), run in a memory that shows the Windows state.
* Proof: The induction of C170 over the chain, with the invariant of the second ring stated for whatever was done with the first meanwhile (win_chain); the frame lemmas of C179 put both traces at the final world.
* Theorems: `C182_rings` [pcq], `C182_infinite_ring` [pcq], `C182_ring_vectored` [pcq], `C182_infinite_vectored` [pcq].
* Note: write_vectored within the byte bound posBound of C24. Chain and the vectored calls are the standard library's (environment). The chain's second ring is a Ring.

### C183 — Copying from a BufReader to a Ring on Windows (proved)

* Modelled: Model/BufCopy: BufReader.copyToRing over BufReader.read and Ring.writeAll; Model/WinWorld: programs on Windows
* Proof: Induction over the rounds; each read is one call in the trace of the reader and each write_all a sequence of calls in the trace of the ring, and a call on one ring leaves the traces of all others valid.
* Theorems: `C183_reader_to_ring` [pcq].
* Note: The loop is that of std (environment); every step is a method of src/io/buffer.rs or src/io/ring.rs. Positions below the bound of C16.

### C184 — Copying from a BufReader to an InfiniteRing on Windows (proved)

* Modelled: Model/BufCopyInf: BufReader.copyToInfinite over BufReader.read and InfiniteRing.writeAll; Model/WinWorld: programs on Windows
* Proof: Induction over the rounds as for C183, with the trace of the infinite ring, which keeps the last bytes.
* Theorems: `C184_reader_to_infinite` [pcq].
* Note: The loop is that of std (environment); every step is a method of src/io/buffer.rs or src/io/ring.rs. Positions below the bound of C16.

### C185 — Copying from a Ring to a BufWriter on Windows (partial)

* Modelled: Model/BufCopy: Ring.copyToWriter over Ring.read and BufWriter.writeAll; Model/WinWorld: programs on Windows
* Proof: Induction over the rounds; a write_all is a sequence of calls in the trace of the writer (win_writeAll_trace), and a call on one ring leaves the traces of all others valid; the negation from C172_order_false, whose hypotheses hold in every memory of such a program.
* Theorems: `C185_ring_to_writer_partial` [pcq], `C185_order_false` [pcq].
* Gap: False of the code as to the order: a piece that exactly fills the free space of the writer's buffer overtakes what is in it (C185_order_false). Proved otherwise in full; the order is proved if everything together is shorter than the writer's capacity, or if the writer's buffer is empty and the ring's bytes fit the copy buffer. The loop is that of std (environment). Positions below the bound of C16.

## Code that is not modelled

* The derived `Debug` implementations (those written by hand are in Model/Text), and the other derives.
* `AsRef`/`Deref`/`DerefMut` are modelled as the pointer and length they return and by indexed reads and
  writes; slices methods of std on top of them are not.
* Direct construction from raw pointers (`unsafe` `from_ptr` by the user) with arguments other than the
  ones the crate uses.
* `Send`/`Sync`: a ring or map is used by one thread at a time (Rust's `&mut`). Modelled with threads
  or other processes in between are the cached sizes (C06), ring creation (C109, C110), and mapping and
  opening files (C111-C114); two processes after `fork` (C115, C116).
* On Windows, what VirtualLock and the flushing calls do beyond succeeding or failing; what VirtualProtect does is in Model/WinGuard (C167), apart from the model of the rest.

Not expressible here: wall-clock behaviour, hardware memory ordering beyond the over-approximation of
relaxed loads, and undefined behaviour other than touching memory that must not be touched.

## Testing the model

`Props/CrateTests` repeats the crate's own unit tests (src/lib.rs, src/io/mod.rs, src/io/bytes.rs) on the
model, evaluated by the Lean kernel. They prove nothing in general; they check that the model
does what the code is known to do.

## Testing the theorems

`seeded/LOG.jsonl` lists deliberate mistakes made in a scratch copy of the model, the claim each breaks,
and which theorems stop proving. For each mistake the claims were also evaluated on concrete instances by
a separate program of executable checks, to tell mistakes that make a claim false from equivalent changes.
Each line names the theorems that were tightened because of it.
