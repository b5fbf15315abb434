{
 "claims": [
  {
   "property": "C01",
   "status": "proved",
   "theorems": [
    "Vmap.C01_round_least_multiple"
   ],
   "note": ""
  },
  {
   "property": "C02",
   "status": "proved",
   "theorems": [
    "Vmap.C02_truncate_offset_split"
   ],
   "note": ""
  },
  {
   "property": "C03",
   "status": "proved",
   "theorems": [
    "Vmap.C03_count",
    "Vmap.C03_size",
    "Vmap.C03_size_count"
   ],
   "note": ""
  },
  {
   "property": "C04",
   "status": "partial",
   "theorems": [
    "Vmap.C04_round_not_below_partial",
    "Vmap.C04_round_shrinks",
    "Vmap.C04_round_zero",
    "Vmap.C04_iff"
   ],
   "note": "False in release builds exactly when len + unit exceeds the address space, where the result is always 0 (characterised by an iff); proved everywhere else."
  },
  {
   "property": "C05",
   "status": "proved",
   "theorems": [
    "Vmap.C05_bounds_enclosing",
    "Vmap.C05_bounds_empty",
    "Vmap.C05_exact",
    "Vmap.C05_in_space"
   ],
   "note": "C05_exact gives the arguments for which it holds by an iff; C05_in_space is the statement as written."
  },
  {
   "property": "C06",
   "status": "proved",
   "theorems": [
    "Vmap.C06_sizes",
    "Vmap.C06_unix",
    "Vmap.C06_used"
   ],
   "note": "Relaxed loads may return any value ever stored, which is more than Rust's memory model allows."
  },
  {
   "property": "C07",
   "status": "proved",
   "theorems": [
    "Vmap.C07_ring_fifo",
    "Vmap.C07_ring_step",
    "Vmap.C07_ring_history"
   ],
   "note": ""
  },
  {
   "property": "C08",
   "status": "proved",
   "theorems": [
    "Vmap.C08_ring_lengths"
   ],
   "note": ""
  },
  {
   "property": "C09",
   "status": "proved",
   "theorems": [
    "Vmap.C09_ring_slices"
   ],
   "note": ""
  },
  {
   "property": "C10",
   "status": "proved",
   "theorems": [
    "Vmap.C10_ring_write"
   ],
   "note": ""
  },
  {
   "property": "C100",
   "status": "proved",
   "theorems": [
    "Vmap.C100_into_map_mut",
    "Vmap.C100_into_map",
    "Vmap.C100_program",
    "Vmap.C100_program_into_map"
   ],
   "note": "Empty maps are not unmapped (C40)."
  },
  {
   "property": "C101",
   "status": "proved",
   "theorems": [
    "Vmap.C101_debug",
    "Vmap.C101_unambiguous",
    "Vmap.C101_display",
    "Vmap.C101_map"
   ],
   "note": "std's and system_error's own Debug texts are parameters; C101_unambiguous assumes that std's kind names are distinct and without commas."
  },
  {
   "property": "C102",
   "status": "partial",
   "theorems": [
    "Vmap.C102_partial",
    "Vmap.C102_exact",
    "Vmap.C102_false",
    "Vmap.C102_ring"
   ],
   "note": "False in general (C102_false); C102_exact says what is printed."
  },
  {
   "property": "C103",
   "status": "partial",
   "theorems": [
    "Vmap.C103_partial",
    "Vmap.C103_exact",
    "Vmap.C103_false",
    "Vmap.C103_open"
   ],
   "note": "False in general (C103_false, and C103_open for the call that returns the error); C103_exact says when it is Some."
  },
  {
   "property": "C104",
   "status": "proved",
   "theorems": [
    "Vmap.C104_lowat",
    "Vmap.C104_inner"
   ],
   "note": ""
  },
  {
   "property": "C105",
   "status": "partial",
   "theorems": [
    "Vmap.C105_views",
    "Vmap.C105_disjoint",
    "Vmap.C105_all_dropped_partial",
    "Vmap.C105_full_false"
   ],
   "note": "Proved at every moment; the end is proved for programs that drop no empty map, and false otherwise (the view of an empty map stays, as in C81)."
  },
  {
   "property": "C106",
   "status": "proved",
   "theorems": [
    "Vmap.C106_map_if",
    "Vmap.C106_small",
    "Vmap.C106_map"
   ],
   "note": ""
  },
  {
   "property": "C107",
   "status": "proved",
   "theorems": [
    "Vmap.C107_kept",
    "Vmap.C107_file",
    "Vmap.C107_memory",
    "Vmap.C107_own",
    "Vmap.C107_ring"
   ],
   "note": ""
  },
  {
   "property": "C108",
   "status": "partial",
   "theorems": [
    "Vmap.C108_range",
    "Vmap.C108_rejected_partial",
    "Vmap.C108_debug",
    "Vmap.C108_full_false",
    "Vmap.C108_no_panic"
   ],
   "note": "Refusal is proved when off + len is a usize; debug builds panic otherwise; false in release builds (as C44)."
  },
  {
   "property": "C109",
   "status": "partial",
   "theorems": [
    "Vmap.C109_no_panic_partial",
    "Vmap.C109_rings_partial",
    "Vmap.C109_finished_partial",
    "Vmap.C109_apart_partial",
    "Vmap.C109_others_partial",
    "Vmap.C109_bytes_partial",
    "Vmap.C109_all_dropped_partial",
    "Vmap.C109_full_false"
   ],
   "note": "Proved when a failing mmap over the reserved memory unmaps nothing; the negation is proved for the general case, with a witness."
  },
  {
   "property": "C11",
   "status": "proved",
   "theorems": [
    "Vmap.C11_ring_consume",
    "Vmap.C11_C12_ring_feed"
   ],
   "note": ""
  },
  {
   "property": "C110",
   "status": "proved",
   "theorems": [
    "Vmap.C110_alone",
    "Vmap.C110_ends",
    "Vmap.C110_descriptor"
   ],
   "note": ""
  },
  {
   "property": "C111",
   "status": "proved",
   "theorems": [
    "Vmap.C111_alone",
    "Vmap.C111_ends",
    "Vmap.C111_others",
    "Vmap.C111_result"
   ],
   "note": ""
  },
  {
   "property": "C112",
   "status": "proved",
   "theorems": [
    "Vmap.C112_alone",
    "Vmap.C112_ends",
    "Vmap.C112_others",
    "Vmap.C112_leaves_nothing",
    "Vmap.C112_result"
   ],
   "note": ""
  },
  {
   "property": "C113",
   "status": "partial",
   "theorems": [
    "Vmap.C113_exclusive_partial",
    "Vmap.C113_ignored_partial",
    "Vmap.C113_full_false"
   ],
   "note": "Exclusive creation is proved under all interleavings; create and truncate are proved to be ignored when nobody writes to the new file meanwhile; the negation is proved otherwise, with a witness."
  },
  {
   "property": "C114",
   "status": "partial",
   "theorems": [
    "Vmap.C114_partial",
    "Vmap.C114_min_false",
    "Vmap.C114_max_false",
    "Vmap.C114_inside_false"
   ],
   "note": "Proved when nobody else changes the file's length during the call; each of the three parts is false otherwise (witnesses)."
  },
  {
   "property": "C115",
   "status": "proved",
   "theorems": [
    "Vmap.C115_private",
    "Vmap.C115_common"
   ],
   "note": ""
  },
  {
   "property": "C116",
   "status": "proved",
   "theorems": [
    "Vmap.C116_copy"
   ],
   "note": ""
  },
  {
   "property": "C117",
   "status": "partial",
   "theorems": [
    "Vmap.C117_partial",
    "Vmap.C117_false"
   ],
   "note": "False in general (C117_false: pages are unlocked as a whole).  Proved when no byte on the same pages is unlocked."
  },
  {
   "property": "C118",
   "status": "proved",
   "theorems": [
    "Vmap.C118_settings",
    "Vmap.C118_store",
    "Vmap.C118_readonly",
    "Vmap.C118_writable"
   ],
   "note": ""
  },
  {
   "property": "C119",
   "status": "proved",
   "theorems": [
    "Vmap.C119_descriptors",
    "Vmap.C119_accounted",
    "Vmap.C119_open",
    "Vmap.C119_names",
    "Vmap.C119_name_stays"
   ],
   "note": ""
  },
  {
   "property": "C12",
   "status": "proved",
   "theorems": [
    "Vmap.C11_C12_ring_feed",
    "Vmap.C12_ring_poke"
   ],
   "note": ""
  },
  {
   "property": "C120",
   "status": "proved",
   "theorems": [
    "Vmap.C120_shared",
    "Vmap.C120_agree",
    "Vmap.C120_store",
    "Vmap.C120_stored",
    "Vmap.C120_written",
    "Vmap.C120_only",
    "Vmap.C120_bounds"
   ],
   "note": "Stores are through the map as a MapMut; a Map offers none."
  },
  {
   "property": "C121",
   "status": "proved",
   "theorems": [
    "Vmap.C121_copy",
    "Vmap.C121_isolated",
    "Vmap.C121_store"
   ],
   "note": ""
  },
  {
   "property": "C122",
   "status": "proved",
   "theorems": [
    "Vmap.C122_alloc",
    "Vmap.C122_store"
   ],
   "note": ""
  },
  {
   "property": "C123",
   "status": "proved",
   "theorems": [
    "Vmap.C123_read"
   ],
   "note": ""
  },
  {
   "property": "C124",
   "status": "proved",
   "theorems": [
    "Vmap.C124_contents"
   ],
   "note": ""
  },
  {
   "property": "C125",
   "status": "proved",
   "theorems": [
    "Vmap.C125_alone",
    "Vmap.C125_ends",
    "Vmap.C125_others",
    "Vmap.C125_apart",
    "Vmap.C125_result",
    "Vmap.C125_failed",
    "Vmap.C125_six",
    "Vmap.C125_refused"
   ],
   "note": ""
  },
  {
   "property": "C126",
   "status": "proved",
   "theorems": [
    "Vmap.C126_made",
    "Vmap.C126_acts",
    "Vmap.C126_converts"
   ],
   "note": ""
  },
  {
   "property": "C127",
   "status": "partial",
   "theorems": [
    "Vmap.C127_copy_partial",
    "Vmap.C127_delivered_partial",
    "Vmap.C127_order_false",
    "Vmap.C127_exact"
   ],
   "note": "The order is false (consequence of C58): for every copy buffer of c bytes and every writer whose capacity is two or more times c, a source handing out full pieces arrives with its last piece first; e.g. 16 KiB through BufWriter::new(_, 16384) with the 8 KiB of std::io::copy arrive with the halves swapped. Everything else is proved, and the order when no piece exactly fills the free space, in particular when all of it is shorter than the capacity. With an inner writer that takes all it is given, nothing is lost and the order of arrival is determined exactly (C127_exact)."
  },
  {
   "property": "C128",
   "status": "partial",
   "theorems": [
    "Vmap.C128_alone_partial",
    "Vmap.C128_infinite_partial",
    "Vmap.C128_shared_false"
   ],
   "note": "On systems other than macOS (there: C135). False when both processes use it: the memory is shared (MAP_SHARED), the positions are not, so what one appends replaces what the other has appended since the fork (shown for every ring, contents and bytes). Proved when the other process does anything but store to the ring's addresses; dropping its copy of the ring is harmless."
  },
  {
   "property": "C129",
   "status": "proved",
   "theorems": [
    "Vmap.C129_ring",
    "Vmap.C129_infinite"
   ],
   "note": "Over all programs of Spec/WinWorld; calls run in any memory (Kernel) that shows what the process's views say and has its contents."
  },
  {
   "property": "C13",
   "status": "proved",
   "theorems": [
    "Vmap.C13_ring_clear"
   ],
   "note": ""
  },
  {
   "property": "C130",
   "status": "proved",
   "theorems": [
    "Vmap.C130_ring_write_fmt",
    "Vmap.C130_infinite_write_fmt",
    "Vmap.C130_ring_split",
    "Vmap.C130_ring_lines",
    "Vmap.C130_infinite_split",
    "Vmap.C130_infinite_lines",
    "Vmap.C130_ring_read_line",
    "Vmap.C130_ring_round_trip"
   ],
   "note": "The loops are std's, over the crate's fill_buf, consume and write; which bytes are UTF-8 is any predicate (true of no bytes)."
  },
  {
   "property": "C131",
   "status": "proved",
   "theorems": [
    "Vmap.C131_split",
    "Vmap.C131_lines",
    "Vmap.C131_read_line"
   ],
   "note": "That lines() drops the beginning of a line on an error is std's doing; read_line does not."
  },
  {
   "property": "C132",
   "status": "proved",
   "theorems": [
    "Vmap.C132_put_number",
    "Vmap.C132_get_number",
    "Vmap.C132_numbers_round_trip",
    "Vmap.C132_signed_round_trip",
    "Vmap.C132_put_bytes",
    "Vmap.C132_copy_to_bytes",
    "Vmap.C132_adapters",
    "Vmap.C132_put_ring"
   ],
   "note": "The provided methods are those of the bytes crate (version 1), over the crate's chunk, advance, chunk_mut, advance_mut. get_int(n) for n below 8, whose sign extension differs between versions of bytes, is not covered; floats are put and got as their bit patterns."
  },
  {
   "property": "C133",
   "status": "proved",
   "theorems": [
    "Vmap.C133_map_if",
    "Vmap.C133_open_if",
    "Vmap.C133_ring",
    "Vmap.C133_infinite",
    "Vmap.C133_alloc",
    "Vmap.C133_windows_map_if",
    "Vmap.C133_windows_open_if",
    "Vmap.C133_windows_alloc",
    "Vmap.C133_windows_ring",
    "Vmap.C133_windows_infinite",
    "Vmap.C133_macos_ring",
    "Vmap.C133_macos_infinite"
   ],
   "note": "The memory offered is one stretch p..p+n that is free now (Spec/Works: Willing). That read-only alloc always fails on Unix is C38."
  },
  {
   "property": "C134",
   "status": "partial",
   "theorems": [
    "Vmap.C134_partial",
    "Vmap.C134_lost_after_panic",
    "Vmap.C134_false"
   ],
   "note": "Missing: histories whose last inner write was refused (panic, error or zero bytes taken). For these the full statement is false (C134_false); C134_lost_after_panic shows it in every such state, C134_partial accounts for every byte received or lost."
  },
  {
   "property": "C135",
   "status": "partial",
   "theorems": [
    "Vmap.C135_partial",
    "Vmap.C135_contents",
    "Vmap.C135_false"
   ],
   "note": "Missing: calls over the end of the ring, for which the full statement is false (C135_false). C135_partial says exactly which histories answer correctly and that all others end in a memory fault, never in wrong bytes. On the other Unix systems both halves are inherited and shared (C128)."
  },
  {
   "property": "C136",
   "status": "partial",
   "theorems": [
    "Vmap.C136_writer_partial",
    "Vmap.C136_reader_partial",
    "Vmap.C136_twice",
    "Vmap.C136_overwritten",
    "Vmap.C136_false"
   ],
   "note": "On systems other than macOS (there: C135). Missing: both processes use or drop their copy, for which the full statement is false: C136_twice (for every state and every writer that takes what it is offered), C136_overwritten (for every state and all bytes), C136_false."
  },
  {
   "property": "C137",
   "status": "proved",
   "theorems": [
    "Vmap.C137_calls",
    "Vmap.C137_reader",
    "Vmap.C137_writer"
   ],
   "note": "Unix, including macOS. The calls std makes inside File::metadata, set_len and OpenOptions::open are taken to be one fstat, ftruncate and open each (repetitions after EINTR not counted)."
  },
  {
   "property": "C138",
   "status": "proved",
   "theorems": [
    "Vmap.C138_sync",
    "Vmap.C138_whole",
    "Vmap.C138_async",
    "Vmap.C138_async_false",
    "Vmap.C138_other_file_false"
   ],
   "note": "The range must not overflow usize (o + l < 2^bits; see C44 for what happens otherwise). What FlushViewOfFile and FlushFileBuffers do to the disk is taken from the Windows documentation."
  },
  {
   "property": "C139",
   "status": "proved",
   "theorems": [
    "Vmap.C139_calls",
    "Vmap.C139_bounded"
   ],
   "note": "Range arguments whose sum overflows usize are excluded, see C108_full_false. The calls std makes inside File::metadata and File::set_len are taken to be one each."
  },
  {
   "property": "C14",
   "status": "proved",
   "theorems": [
    "Vmap.C14_ring_write_all"
   ],
   "note": ""
  },
  {
   "property": "C140",
   "status": "partial",
   "theorems": [
    "Vmap.C140_unix",
    "Vmap.C140_windows_partial",
    "Vmap.C140_macos_partial",
    "Vmap.C140_debug",
    "Vmap.C140_macos_destroys",
    "Vmap.C140_false"
   ],
   "note": "Full on Unix without Mach (C140_unix).  Missing: debug builds on Windows and macOS, which panic (C140_debug); release builds on macOS when the system places the first half, for which the statement is false (C140_macos_destroys for every such state, C140_false)."
  },
  {
   "property": "C141",
   "status": "proved",
   "theorems": [
    "Vmap.C141_ring",
    "Vmap.C141_infinite",
    "Vmap.demoMac_world"
   ],
   "note": "Whole programs: Spec/World makes and drops rings with the system's own map_ring and unmap_ring, so C75, C77, C78, C93, C95-C99, C117-C119, C137 and the rest of the whole-program properties are theorems about macOS programs as well; demoMac_world is such a program."
  },
  {
   "property": "C142",
   "status": "partial",
   "theorems": [
    "Vmap.C142_rights_partial",
    "Vmap.C142_elsewhere",
    "Vmap.C142_false"
   ],
   "note": "Missing: the rights are given back, which is false (C142_false).  C142_rights_partial counts them exactly from below: one for each ring ever obtained, whatever was dropped; at most one for each call."
  },
  {
   "property": "C143",
   "status": "proved",
   "theorems": [
    "Vmap.C143_reader"
   ],
   "note": "The inner reader is assumed not to touch memory other than the slice it is given. RingAt in the conclusion: in every memory of the process the ring is in a state that C54-C57 and C83-C85 speak about."
  },
  {
   "property": "C144",
   "status": "proved",
   "theorems": [
    "Vmap.C144_writer",
    "Vmap.C144_drop"
   ],
   "note": "The exceptions in the statement are those of C58 (order) and C134 (loss at the drop). The inner writer is assumed not to touch memory."
  },
  {
   "property": "C145",
   "status": "proved",
   "theorems": [
    "Vmap.C145_into_map_mut",
    "Vmap.C145_into_map",
    "Vmap.C145_bytes",
    "Vmap.C145_store",
    "Vmap.C145_never"
   ],
   "note": "into_map asks Windows for write access too, so it is the same condition; the Map it returns still has writable pages (its type prevents writing)."
  },
  {
   "property": "C146",
   "status": "proved",
   "theorems": [
    "Vmap.C146_locks",
    "Vmap.C146_unlock",
    "Vmap.C146_mapped"
   ],
   "note": "Ranges whose end overflows (in builds without overflow checks they can name pages before the map) are C108's."
  },
  {
   "property": "C147",
   "status": "proved",
   "theorems": [
    "Vmap.C147_alone_map",
    "Vmap.C147_alone_alloc",
    "Vmap.C147_ends",
    "Vmap.C147_others",
    "Vmap.C147_map",
    "Vmap.C147_alloc",
    "Vmap.C147_failed",
    "Vmap.C147_apart",
    "Vmap.C147_team"
   ],
   "note": ""
  },
  {
   "property": "C148",
   "status": "proved",
   "theorems": [
    "Vmap.C148_alone",
    "Vmap.C148_ends",
    "Vmap.C148_others",
    "Vmap.C148_result",
    "Vmap.C148_failed",
    "Vmap.C148_apart",
    "Vmap.C148_team"
   ],
   "note": "map_ring of mach.rs cut into its kernel calls with anybody in between; C148_alone ties the cut version to the uncut one"
  },
  {
   "property": "C149",
   "status": "proved",
   "theorems": [
    "Vmap.C149_alone",
    "Vmap.C149_no_panic",
    "Vmap.C149_step",
    "Vmap.C149_own",
    "Vmap.C149_keeps",
    "Vmap.C149_clean",
    "Vmap.C149_over",
    "Vmap.C149_retry"
   ],
   "note": "A descriptor is stood for by the object it leads to."
  },
  {
   "property": "C15",
   "status": "proved",
   "theorems": [
    "Vmap.C15_C25_ring_new",
    "Vmap.C15_C25_infinite_new",
    "Vmap.C15_ring_hint_zero",
    "Vmap.C15_infinite_hint_zero"
   ],
   "note": ""
  },
  {
   "property": "C150",
   "status": "partial",
   "theorems": [
    "Vmap.C150_partial",
    "Vmap.C150_whole",
    "Vmap.C150_bystanders",
    "Vmap.C150_short",
    "Vmap.C150_short_leaks",
    "Vmap.C150_false"
   ],
   "note": "False of the code: the size that came back is used for the second half but never compared with the one asked for. C150_partial: true for entries covering the whole length. C150_short: for every shorter entry a successful creation returns a mapping in which page c of the first half is page 0 and the second half does not begin with page 0. C150_short_leaks: for every shorter entry a failing vm_map leaves the pages from 2*c on mapped. C150_bystanders holds without restriction: no panic, no page in use is touched, and dropping the ring gives every page back."
  },
  {
   "property": "C151",
   "status": "proved",
   "theorems": [
    "Vmap.C151_ring",
    "Vmap.C151_infinite"
   ],
   "note": "Traces over World steps, any kernel (mach or not)."
  },
  {
   "property": "C152",
   "status": "proved",
   "theorems": [
    "Vmap.C152_reader"
   ],
   "note": "Unix counterpart of C143; joins C53 (one history) and C93 (non-interference) into one statement."
  },
  {
   "property": "C153",
   "status": "proved",
   "theorems": [
    "Vmap.C153_writer",
    "Vmap.C153_drop",
    "Vmap.C153_into_inner"
   ],
   "note": "Unix counterpart of C144, with into_inner."
  },
  {
   "property": "C154",
   "status": "partial",
   "theorems": [
    "Vmap.C154_ring_partial",
    "Vmap.C154_infinite_partial",
    "Vmap.C154_ring_body",
    "Vmap.C154_infinite_body",
    "Vmap.C154_ring_false",
    "Vmap.C154_infinite_false"
   ],
   "note": "False for large pages: C154_ring_false (128 KiB) and C154_infinite_false (512 KiB) are witnesses; the partial theorems hold for pages of 4, 8, 16, 32 and 64 KiB. C154_ring_body and C154_infinite_body decide the outcome exactly for any capacity from 220 bytes to 2 GiB."
  },
  {
   "property": "C155",
   "status": "proved",
   "theorems": [
    "Vmap.C155_into_inner",
    "Vmap.C155_into_parts",
    "Vmap.C155_socket"
   ],
   "note": "The drops at the end of the socket example are not part of it (C27, C64)."
  },
  {
   "property": "C156",
   "status": "proved",
   "theorems": [
    "Vmap.C156_ring",
    "Vmap.C156_new",
    "Vmap.C156_infinite",
    "Vmap.C156_infinite_new",
    "Vmap.C156_reader",
    "Vmap.C156_writer",
    "Vmap.C156_runs",
    "Vmap.C156_reader_runs",
    "Vmap.C156_writer_runs"
   ],
   "note": "Two-run (relational) statement. Windows rings are covered as far as C91 places them (RingAt.placed)."
  },
  {
   "property": "C157",
   "status": "proved",
   "theorems": [
    "Vmap.C157_regions",
    "Vmap.C157_changes",
    "Vmap.C157_map_type",
    "Vmap.C157_with_options",
    "Vmap.C157_into_map_mut",
    "Vmap.C157_with_options_mut",
    "Vmap.C157_into_map",
    "Vmap.C157_new",
    "Vmap.C157_alloc",
    "Vmap.C157_create",
    "Vmap.C157_create_new",
    "Vmap.C157_truncate",
    "Vmap.C157_offset",
    "Vmap.C157_len_exact",
    "Vmap.C157_len_min",
    "Vmap.C157_len_min_small_pages",
    "Vmap.C157_len_max",
    "Vmap.C157_resize_exact",
    "Vmap.C157_resize_min",
    "Vmap.C157_resize_max",
    "Vmap.C157_open",
    "Vmap.C157_open_if",
    "Vmap.C157_write",
    "Vmap.C157_map",
    "Vmap.C157_map_if",
    "Vmap.C157_copy"
   ],
   "note": "Unix. The temporary directory is a path of the system; fs::write before the example is the file's content at the start. What happens when main returns is left out."
  },
  {
   "property": "C158",
   "status": "proved",
   "theorems": [
    "Vmap.C158_open_if",
    "Vmap.C158_open",
    "Vmap.C158_needs_write",
    "Vmap.C158_create_new",
    "Vmap.C158_missing",
    "Vmap.C158_reading",
    "Vmap.C158_mapped"
   ],
   "note": "OpenOptions::open of std (the table of creation dispositions) and CreateFileW as documented are part of the model."
  },
  {
   "property": "C159",
   "status": "partial",
   "theorems": [
    "Vmap.C159_views",
    "Vmap.C159_files",
    "Vmap.C159_same_file",
    "Vmap.C159_all_dropped_partial",
    "Vmap.C159_full_false",
    "Vmap.C159_kept",
    "Vmap.C159_shows",
    "Vmap.C159_no_panic",
    "Vmap.C159_not_truncated"
   ],
   "note": "Everything is proved but the last sentence in full: dropping a map of length 0 does not unmap its view (as in C105), so the full statement is false of the code (C159_full_false); C159_all_dropped_partial is for programs that drop no such map. Files are not deleted or renamed by other processes."
  },
  {
   "property": "C16",
   "status": "partial",
   "theorems": [
    "Vmap.C16_ring32_fifo_partial",
    "Vmap.C16_ring32_overwrites"
   ],
   "note": "False: every capacity that does not divide 2^32 fails (negation proved for all of them); proved for capacities dividing 2^32."
  },
  {
   "property": "C160",
   "status": "proved",
   "theorems": [
    "Vmap.C160_regions",
    "Vmap.C160_changes",
    "Vmap.C160_map_type",
    "Vmap.C160_with_options",
    "Vmap.C160_into_map_mut",
    "Vmap.C160_with_options_mut",
    "Vmap.C160_into_map",
    "Vmap.C160_new",
    "Vmap.C160_alloc",
    "Vmap.C160_create",
    "Vmap.C160_create_new",
    "Vmap.C160_truncate",
    "Vmap.C160_offset",
    "Vmap.C160_len_exact",
    "Vmap.C160_len_min",
    "Vmap.C160_len_max",
    "Vmap.C160_resize_exact",
    "Vmap.C160_resize_min",
    "Vmap.C160_resize_max",
    "Vmap.C160_open",
    "Vmap.C160_open_if",
    "Vmap.C160_map",
    "Vmap.C160_map_if",
    "Vmap.C160_write",
    "Vmap.C160_copy"
   ],
   "note": "The example of Extent::Min allocates at least 2000 bytes and asserts that one allocation unit comes back, so it is proved for granularities of at least 2000 (Windows has 65536).  The examples of open, open_if, map, map_if and write assert that calls succeed, so they are proved for a Windows that fails no call on its own account (and, but for write, offers a free place)."
  },
  {
   "property": "C161",
   "status": "proved",
   "theorems": [
    "Vmap.C161_ring",
    "Vmap.C161_infinite"
   ],
   "note": "Allocation granularity 64 KiB (as on every Windows); C154 has the counterexamples for other sizes. The body of the examples runs in any memory of the process that shows what its views show."
  },
  {
   "property": "C162",
   "status": "proved",
   "theorems": [
    "Vmap.C162_into_inner",
    "Vmap.C162_into_inner_any",
    "Vmap.C162_into_parts",
    "Vmap.C162_drop",
    "Vmap.C162_socket"
   ],
   "note": "Counterpart of C155 on Windows. In the socket example the two buffers are still alive at the end."
  },
  {
   "property": "C163",
   "status": "partial",
   "theorems": [
    "Vmap.C163_size",
    "Vmap.C163_wrap",
    "Vmap.C163_sizes",
    "Vmap.C163_overwrite",
    "Vmap.C163_bytes",
    "Vmap.C163_windows_size",
    "Vmap.C163_windows_wrap",
    "Vmap.C163_windows_sizes",
    "Vmap.C163_windows_overwrite",
    "Vmap.C163_windows_bytes_partial",
    "Vmap.C163_windows_bytes_false"
   ],
   "note": "False of test_bytes_sanity on Windows: C163_windows_bytes_false shows that it panics whenever the allocation granularity is larger than a page; C163_windows_bytes_partial is the case where it is not. All other tests pass on both platforms."
  },
  {
   "property": "C164",
   "status": "proved",
   "theorems": [
    "Vmap.C164_allocation_size",
    "Vmap.C164_alloc_min",
    "Vmap.C164_alloc_exact",
    "Vmap.C164_alloc_offset",
    "Vmap.C164_alloc_offset_fault",
    "Vmap.C164_read_end",
    "Vmap.C164_read_min",
    "Vmap.C164_read_max",
    "Vmap.C164_read_exact",
    "Vmap.C164_copy",
    "Vmap.C164_write_into_mut",
    "Vmap.C164_truncate",
    "Vmap.C164_volatile",
    "Vmap.C164_unaligned"
   ],
   "note": "The tests as programs over the model; what happens when the test function returns (drops, removal of the temporary directory) is left out."
  },
  {
   "property": "C165",
   "status": "proved",
   "theorems": [
    "Vmap.C165_alloc_min",
    "Vmap.C165_alloc_exact",
    "Vmap.C165_alloc_offset",
    "Vmap.C165_read_end",
    "Vmap.C165_read_min",
    "Vmap.C165_read_max",
    "Vmap.C165_read_exact",
    "Vmap.C165_copy",
    "Vmap.C165_write_into_mut",
    "Vmap.C165_truncate",
    "Vmap.C165_volatile",
    "Vmap.C165_unaligned"
   ],
   "note": "The tests as programs over the model of the crate on Windows. There VirtualProtect does not change the access of views; the fault that one more byte in alloc_offset causes is C167_alloc_offset_fault."
  },
  {
   "property": "C166",
   "status": "proved",
   "theorems": [
    "Vmap.C166_unaligned",
    "Vmap.C166_volatile",
    "Vmap.C166_out_of_range",
    "Vmap.C166_wraps_below",
    "Vmap.C166_alloc",
    "Vmap.C166_open"
   ],
   "note": "The Windows counterpart of C46, C47 and C48; the wrap-around that makes C47 false is part of the statement here (C166_wraps_below)."
  },
  {
   "property": "C167",
   "status": "proved",
   "theorems": [
    "Vmap.C167_last_wins",
    "Vmap.C167_only_faults",
    "Vmap.C167_into_map_mut",
    "Vmap.C167_new_memory",
    "Vmap.C167_alloc_offset",
    "Vmap.C167_alloc_offset_fault"
   ],
   "note": "Model/WinGuard adds to the process the pages that VirtualProtect has made read-only; the rest of the crate is as in Model/Windows. A ReadCopy request asks for PAGE_READWRITE, as in the code."
  },
  {
   "property": "C168",
   "status": "proved",
   "theorems": [
    "Vmap.C168_ring_to_ring",
    "Vmap.C168_infinite_to_ring",
    "Vmap.C168_ring_to_infinite",
    "Vmap.C168_infinite_to_infinite",
    "Vmap.C168_loses"
   ],
   "note": "The loop of std::io::copy is environment; every step is a method of src/io/ring.rs."
  },
  {
   "property": "C169",
   "status": "proved",
   "theorems": [
    "Vmap.C169_infinite_read_exact",
    "Vmap.C169_infinite_read_to_end"
   ],
   "note": "The loops are those of std (environment)."
  },
  {
   "property": "C17",
   "status": "proved",
   "theorems": [
    "Vmap.C17_ring_read_exact",
    "Vmap.C17_ring_read_until",
    "Vmap.C17_ring_read_to_end"
   ],
   "note": ""
  },
  {
   "property": "C170",
   "status": "proved",
   "theorems": [
    "Vmap.C170_ring_take",
    "Vmap.C170_infinite_take",
    "Vmap.C170_ring_bytes",
    "Vmap.C170_infinite_bytes",
    "Vmap.C170_ring_chain",
    "Vmap.C170_infinite_chain",
    "Vmap.C170_ring_read_vectored",
    "Vmap.C170_infinite_read_vectored",
    "Vmap.C170_ring_write_vectored",
    "Vmap.C170_infinite_write_vectored"
   ],
   "note": "The adapters and default methods are those of std (environment); every step is a method of src/io/ring.rs."
  },
  {
   "property": "C171",
   "status": "proved",
   "theorems": [
    "Vmap.C171_reader_to_ring"
   ],
   "note": "The loop is that of std (environment); every step is a method of src/io/buffer.rs or src/io/ring.rs. Positions below the bound of C16."
  },
  {
   "property": "C172",
   "status": "partial",
   "theorems": [
    "Vmap.C172_ring_to_writer_partial",
    "Vmap.C172_delivered_partial",
    "Vmap.C172_order_false",
    "Vmap.C172_exact"
   ],
   "note": "False of the code as to the order: a piece that exactly fills the free space of the writer's buffer overtakes what is in it (C172_order_false). Proved otherwise in full; the order is proved if everything together is shorter than the writer's capacity, or if the writer's buffer is empty and the ring's bytes fit the copy buffer. With an inner writer that takes all it is given, the order of arrival is determined exactly (C172_exact, C174_exact). The loop is that of std (environment)."
  },
  {
   "property": "C173",
   "status": "proved",
   "theorems": [
    "Vmap.C173_reader_to_infinite"
   ],
   "note": "The loop is that of std (environment); every step is a method of src/io/buffer.rs or src/io/ring.rs. Positions below the bound of C16."
  },
  {
   "property": "C174",
   "status": "partial",
   "theorems": [
    "Vmap.C174_infinite_to_writer_partial",
    "Vmap.C174_delivered_partial",
    "Vmap.C174_order_false",
    "Vmap.C174_exact"
   ],
   "note": "False of the code as to the order: a piece that exactly fills the free space of the writer's buffer overtakes what is in it (C174_order_false). Proved otherwise in full; the order is proved if everything together is shorter than the writer's capacity, or if the writer's buffer is empty and the ring's bytes fit the copy buffer. With an inner writer that takes all it is given, the order of arrival is determined exactly (C172_exact, C174_exact). The loop is that of std (environment)."
  },
  {
   "property": "C175",
   "status": "proved",
   "theorems": [
    "Vmap.C175_take",
    "Vmap.C175_take_twice",
    "Vmap.C175_bytes"
   ],
   "note": "The loops are those of std (environment); every step is a method of src/io/buffer.rs. Positions below the bound of C16."
  },
  {
   "property": "C176",
   "status": "partial",
   "theorems": [
    "Vmap.C176_write_fmt_partial",
    "Vmap.C176_delivered_partial",
    "Vmap.C176_order_false"
   ],
   "note": "False of the code as to the order: write!(w, \"{}{}\", a, c) on a fresh BufWriter whose capacity is the length of the text delivers c before a (C176_order_false, a consequence of C58). Proved otherwise in full; the order is proved if everything together is shorter than the capacity, or the buffer is empty and the text is one piece. The loop is that of std (environment)."
  },
  {
   "property": "C177",
   "status": "proved",
   "theorems": [
    "Vmap.C177_exact",
    "Vmap.C177_order_iff",
    "Vmap.C177_order",
    "Vmap.C177_order_broken"
   ],
   "note": "The exact extent of the fault of C58. Positions below the bound of C16."
  },
  {
   "property": "C178",
   "status": "proved",
   "theorems": [
    "Vmap.C178_chain",
    "Vmap.C178_chain_all",
    "Vmap.C178_read_vectored",
    "Vmap.C178_write_vectored"
   ],
   "note": "The loops are those of std (environment). The order in which a BufWriter delivers what it accepted is the subject of C58 and C177."
  },
  {
   "property": "C179",
   "status": "proved",
   "theorems": [
    "Vmap.C179_ring_to_ring",
    "Vmap.C179_infinite_to_ring",
    "Vmap.C179_ring_to_infinite",
    "Vmap.C179_infinite_to_infinite"
   ],
   "note": "Within the byte bound posBound of C24. The loop of io::copy and write_all are the standard library's (environment); a write_all to an InfiniteRing counts as the write of the bytes it keeps."
  },
  {
   "property": "C18",
   "status": "proved",
   "theorems": [
    "Vmap.C18_ring_chunks",
    "Vmap.C18_ring_copy_to_slice",
    "Vmap.C18_ring_put_slice"
   ],
   "note": ""
  },
  {
   "property": "C180",
   "status": "proved",
   "theorems": [
    "Vmap.C180_ring",
    "Vmap.C180_infinite",
    "Vmap.C180_slices"
   ],
   "note": "write_all within the byte bound posBound of C24. The loops of read_exact, read_to_end and (for Ring) write_all are the standard library's (environment)."
  },
  {
   "property": "C181",
   "status": "proved",
   "theorems": [
    "Vmap.C181_ring_adapters",
    "Vmap.C181_infinite_adapters",
    "Vmap.C181_ring_lines",
    "Vmap.C181_infinite_lines",
    "Vmap.C181_ring_write_fmt",
    "Vmap.C181_infinite_write_fmt"
   ],
   "note": "write! within the byte bound posBound of C24. The adapters and loops are the standard library's (environment). What counts as UTF-8 is any function that accepts the empty text."
  },
  {
   "property": "C182",
   "status": "proved",
   "theorems": [
    "Vmap.C182_rings",
    "Vmap.C182_infinite_ring",
    "Vmap.C182_ring_vectored",
    "Vmap.C182_infinite_vectored"
   ],
   "note": "write_vectored within the byte bound posBound of C24. Chain and the vectored calls are the standard library's (environment). The chain's second ring is a Ring."
  },
  {
   "property": "C183",
   "status": "proved",
   "theorems": [
    "Vmap.C183_reader_to_ring"
   ],
   "note": "The loop is that of std (environment); every step is a method of src/io/buffer.rs or src/io/ring.rs. Positions below the bound of C16."
  },
  {
   "property": "C184",
   "status": "proved",
   "theorems": [
    "Vmap.C184_reader_to_infinite"
   ],
   "note": "The loop is that of std (environment); every step is a method of src/io/buffer.rs or src/io/ring.rs. Positions below the bound of C16."
  },
  {
   "property": "C185",
   "status": "partial",
   "theorems": [
    "Vmap.C185_ring_to_writer_partial",
    "Vmap.C185_order_false"
   ],
   "note": "False of the code as to the order: a piece that exactly fills the free space of the writer's buffer overtakes what is in it (C185_order_false). Proved otherwise in full; the order is proved if everything together is shorter than the writer's capacity, or if the writer's buffer is empty and the ring's bytes fit the copy buffer. The loop is that of std (environment). Positions below the bound of C16."
  },
  {
   "property": "C19",
   "status": "proved",
   "theorems": [
    "Vmap.C19_infinite_lossy",
    "Vmap.C19_infinite_step",
    "Vmap.C19_infinite_history"
   ],
   "note": ""
  },
  {
   "property": "C20",
   "status": "proved",
   "theorems": [
    "Vmap.C20_infinite_write_all"
   ],
   "note": ""
  },
  {
   "property": "C21",
   "status": "proved",
   "theorems": [
    "Vmap.C21_infinite_write"
   ],
   "note": ""
  },
  {
   "property": "C22",
   "status": "proved",
   "theorems": [
    "Vmap.C22_infinite_lengths",
    "Vmap.C19_infinite_step"
   ],
   "note": ""
  },
  {
   "property": "C23",
   "status": "proved",
   "theorems": [
    "Vmap.C23_infinite_consume"
   ],
   "note": ""
  },
  {
   "property": "C24",
   "status": "partial",
   "theorems": [
    "Vmap.C24_infinite_feed_partial",
    "Vmap.C24_infinite_feed_32",
    "Vmap.C24_infinite_feed_overflow",
    "Vmap.C24_overflow"
   ],
   "note": "False on 64-bit when read_len() + m exceeds 2^64 (for every such call: debug builds panic, release builds discard bytes; witness too); proved for all other arguments and for all arguments on 32-bit."
  },
  {
   "property": "C25",
   "status": "proved",
   "theorems": [
    "Vmap.C15_C25_ring_new",
    "Vmap.C15_C25_infinite_new",
    "Vmap.C25_aliases"
   ],
   "note": ""
  },
  {
   "property": "C26",
   "status": "proved",
   "theorems": [
    "Vmap.C26_C28_ring_new_fails",
    "Vmap.C26_C28_infinite_new_fails",
    "Vmap.C26_ring_new_no_panic"
   ],
   "note": "Linux/android memfd path of posix map_ring."
  },
  {
   "property": "C27",
   "status": "proved",
   "theorems": [
    "Vmap.C27_ring_drop",
    "Vmap.C27_infinite_drop",
    "Vmap.C27_ring_lifecycle"
   ],
   "note": ""
  },
  {
   "property": "C28",
   "status": "proved",
   "theorems": [
    "Vmap.C26_C28_ring_new_fails",
    "Vmap.C26_C28_infinite_new_fails"
   ],
   "note": ""
  },
  {
   "property": "C29",
   "status": "partial",
   "theorems": [
    "Vmap.C29_name_partial",
    "Vmap.C29_panics_before_1970",
    "Vmap.C29_false"
   ],
   "note": "Proved for clocks at or after 1970; before 1970 duration_since().unwrap() panics."
  },
  {
   "property": "C30",
   "status": "partial",
   "theorems": [
    "Vmap.C30_partial",
    "Vmap.C30_leaks",
    "Vmap.C30_false"
   ],
   "note": "Address space proved in full; the memory-entry port right is never released, so the part about port rights is false after success and after a RingSecondary failure."
  },
  {
   "property": "C31",
   "status": "proved",
   "theorems": [
    "Vmap.C31_halves",
    "Vmap.C31_map_ring",
    "Vmap.C31_succeeds"
   ],
   "note": "Windows API restated as environment; other threads appear only as failing calls."
  },
  {
   "property": "C32",
   "status": "partial",
   "theorems": [
    "Vmap.C32_map_if_decision_partial",
    "Vmap.C32_false_32bit",
    "Vmap.C32_exact"
   ],
   "note": "Proved for files shorter than the address space; false on 32-bit targets for files of 4 GiB and more (witness proved): C32_exact shows, for every length, that the decision is that for the length modulo 2^32."
  },
  {
   "property": "C33",
   "status": "proved",
   "theorems": [
    "Vmap.C33_file_bytes",
    "Vmap.C33_stays"
   ],
   "note": ""
  },
  {
   "property": "C34",
   "status": "proved",
   "theorems": [
    "Vmap.C34_aligned_offset"
   ],
   "note": ""
  },
  {
   "property": "C35",
   "status": "partial",
   "theorems": [
    "Vmap.C35_resize_partial",
    "Vmap.C35_false_32bit",
    "Vmap.C35_exact",
    "Vmap.C35_left_small"
   ],
   "note": "Proved for files shorter than the address space; false on 32-bit targets for longer files (witness proved); C35_exact gives the resulting length for every file."
  },
  {
   "property": "C36",
   "status": "proved",
   "theorems": [
    "Vmap.C36_map",
    "Vmap.C36_open",
    "Vmap.C36_C74_open_if"
   ],
   "note": ""
  },
  {
   "property": "C37",
   "status": "partial",
   "theorems": [
    "Vmap.C37_alloc_partial",
    "Vmap.C37_new_partial",
    "Vmap.C37_debug",
    "Vmap.C37_false",
    "Vmap.C37_release"
   ],
   "note": "Proved when offset within the page plus length fits the address space; otherwise debug builds panic (proved) and in release builds every success maps one page only, whatever was asked for (proved for all such sizes, with a witness)."
  },
  {
   "property": "C38",
   "status": "partial",
   "theorems": [
    "Vmap.C38_partial",
    "Vmap.C38_never",
    "Vmap.C38_false"
   ],
   "note": "False: a read-only anonymous map can never be allocated (proved for all inputs); proved for every other access."
  },
  {
   "property": "C39",
   "status": "proved",
   "theorems": [
    "Vmap.C39_drop_file",
    "Vmap.C39_drop_alloc",
    "Vmap.C39_drop_any_alloc"
   ],
   "note": ""
  },
  {
   "property": "C40",
   "status": "partial",
   "theorems": [
    "Vmap.C40_partial",
    "Vmap.C40_alloc_partial",
    "Vmap.C40_empty_leaks",
    "Vmap.C40_empty_alloc_leaks",
    "Vmap.C40_false"
   ],
   "note": "False for maps of length zero, which always leak their page (proved for all of them); proved for all others."
  },
  {
   "property": "C41",
   "status": "proved",
   "theorems": [
    "Vmap.C41_shared_write",
    "Vmap.C41_copy_write",
    "Vmap.C41_created"
   ],
   "note": ""
  },
  {
   "property": "C42",
   "status": "proved",
   "theorems": [
    "Vmap.C42_into_map_mut",
    "Vmap.C42_not_writable",
    "Vmap.C42_created",
    "Vmap.C42_succeeds"
   ],
   "note": ""
  },
  {
   "property": "C43",
   "status": "partial",
   "theorems": [
    "Vmap.C43_partial",
    "Vmap.C43_stays_writable",
    "Vmap.C43_false"
   ],
   "note": "False: into_map leaves every page writable (proved for all maps); pointer, length and bytes are kept."
  },
  {
   "property": "C44",
   "status": "partial",
   "theorems": [
    "Vmap.C44_rejected_partial",
    "Vmap.C44_debug",
    "Vmap.C44_release",
    "Vmap.C44_wrapped",
    "Vmap.C44_destroys_neighbour",
    "Vmap.C44_false"
   ],
   "note": "Proved when off + len is a usize; debug builds panic otherwise; false in release builds, where C44_wrapped says for every overflowing pair whether the call is rejected and which pages it reaches otherwise (the page below the map, for one pair, proved for all aligned maps)."
  },
  {
   "property": "C45",
   "status": "proved",
   "theorems": [
    "Vmap.C45_range_calls",
    "Vmap.C45_whole",
    "Vmap.C45_succeeds"
   ],
   "note": ""
  },
  {
   "property": "C46",
   "status": "proved",
   "theorems": [
    "Vmap.C46_size",
    "Vmap.C46_unaligned",
    "Vmap.C46_volatile",
    "Vmap.C46_maps"
   ],
   "note": ""
  },
  {
   "property": "C47",
   "status": "partial",
   "theorems": [
    "Vmap.C47_out_of_range_panics_partial",
    "Vmap.C47_wraps_below",
    "Vmap.C47_false"
   ],
   "note": "False in release builds when off + size wraps usize (what happens then is proved for all such accesses); proved otherwise."
  },
  {
   "property": "C48",
   "status": "proved",
   "theorems": [
    "Vmap.C48_volatile_alignment",
    "Vmap.C48_unaligned_never_panics"
   ],
   "note": ""
  },
  {
   "property": "C49",
   "status": "proved",
   "theorems": [
    "Vmap.C49_durable",
    "Vmap.C49_durable_flush"
   ],
   "note": "For every state a program can reach and every later history of calls, other writers and kernel write-back; crash points are between calls."
  },
  {
   "property": "C50",
   "status": "partial",
   "theorems": [
    "Vmap.C50_advise_partial",
    "Vmap.C50_shared_partial",
    "Vmap.C50_discards",
    "Vmap.C50_false"
   ],
   "note": "False for private maps and WillNotNeed, which discards their modifications (proved for all of them); proved in all other cases."
  },
  {
   "property": "C51",
   "status": "proved",
   "theorems": [
    "Vmap.C51_last_wins",
    "Vmap.C51_order",
    "Vmap.C51_defaults"
   ],
   "note": ""
  },
  {
   "property": "C52",
   "status": "proved",
   "theorems": [
    "Vmap.C52_open_if",
    "Vmap.C52_open"
   ],
   "note": ""
  },
  {
   "property": "C53",
   "status": "proved",
   "theorems": [
    "Vmap.C53_C57_bufreader_transparent",
    "Vmap.C53_bufreader_step",
    "Vmap.C53_read_count"
   ],
   "note": "Every inner reader (honest or not); below 2^64 bytes counted as calls x capacity."
  },
  {
   "property": "C54",
   "status": "proved",
   "theorems": [
    "Vmap.C54_fill_buf_calls",
    "Vmap.C54_read_calls",
    "Vmap.C54_set_lowat",
    "Vmap.C54_new_lowat"
   ],
   "note": ""
  },
  {
   "property": "C55",
   "status": "proved",
   "theorems": [
    "Vmap.C55_read_eof"
   ],
   "note": ""
  },
  {
   "property": "C56",
   "status": "proved",
   "theorems": [
    "Vmap.C56_read_error",
    "Vmap.C56_fill_buf_error"
   ],
   "note": ""
  },
  {
   "property": "C57",
   "status": "proved",
   "theorems": [
    "Vmap.C53_C57_bufreader_transparent"
   ],
   "note": ""
  },
  {
   "property": "C58",
   "status": "partial",
   "theorems": [
    "Vmap.C58_order_partial",
    "Vmap.C58_order_false",
    "Vmap.C58_exact_fit_overtakes"
   ],
   "note": "False: a write that exactly fills the free space overtakes buffered bytes (proved for every such state, and with a concrete history). Proved for histories without such a write."
  },
  {
   "property": "C59",
   "status": "proved",
   "theorems": [
    "Vmap.C59_C67_bufwriter_conserves"
   ],
   "note": ""
  },
  {
   "property": "C60",
   "status": "proved",
   "theorems": [
    "Vmap.C60_flush_ok",
    "Vmap.C60_C61_C62_flush"
   ],
   "note": ""
  },
  {
   "property": "C61",
   "status": "proved",
   "theorems": [
    "Vmap.C61_flush_keeps_suffix",
    "Vmap.C60_C61_C62_flush"
   ],
   "note": ""
  },
  {
   "property": "C62",
   "status": "proved",
   "theorems": [
    "Vmap.C62_flush_error",
    "Vmap.C62_flush_terminates",
    "Vmap.C60_C61_C62_flush"
   ],
   "note": ""
  },
  {
   "property": "C63",
   "status": "proved",
   "theorems": [
    "Vmap.C63_into_inner"
   ],
   "note": ""
  },
  {
   "property": "C64",
   "status": "proved",
   "theorems": [
    "Vmap.C64_drop",
    "Vmap.C64_into_parts_drop"
   ],
   "note": ""
  },
  {
   "property": "C65",
   "status": "proved",
   "theorems": [
    "Vmap.C65_into_parts"
   ],
   "note": ""
  },
  {
   "property": "C66",
   "status": "proved",
   "theorems": [
    "Vmap.C66_write"
   ],
   "note": ""
  },
  {
   "property": "C67",
   "status": "proved",
   "theorems": [
    "Vmap.C59_C67_bufwriter_conserves"
   ],
   "note": ""
  },
  {
   "property": "C68",
   "status": "proved",
   "theorems": [
    "Vmap.C68_every_error",
    "Vmap.C68_to_io",
    "Vmap.C68_round_trip",
    "Vmap.C68_input",
    "Vmap.C68_no_code",
    "Vmap.C68_convert"
   ],
   "note": "The system_error crate's kind and message tables are parameters."
  },
  {
   "property": "C69",
   "status": "proved",
   "theorems": [
    "Vmap.C69_display",
    "Vmap.C69_names",
    "Vmap.C69_unambiguous",
    "Vmap.C69_words",
    "Vmap.C69_says"
   ],
   "note": ""
  },
  {
   "property": "C70",
   "status": "partial",
   "theorems": [
    "Vmap.C70_round_representable_partial",
    "Vmap.C70_round_panics_on_multiple",
    "Vmap.C70_iff"
   ],
   "note": "False in debug builds for the single argument usize::MAX+1-unit (witness proved); proved everywhere else; the panicking arguments are characterised by an iff."
  },
  {
   "property": "C71",
   "status": "proved",
   "theorems": [
    "Vmap.C71_rings_call",
    "Vmap.C71_rings_new",
    "Vmap.C71_rings_drop"
   ],
   "note": ""
  },
  {
   "property": "C72",
   "status": "partial",
   "theorems": [
    "Vmap.C72_infinite_poke_partial",
    "Vmap.C72_infinite_poke_evicts",
    "Vmap.C72_exact"
   ],
   "note": "False when the data reaches into the readable bytes; C72_exact gives the readable bytes after any store into the write slice; proved for data within the free part."
  },
  {
   "property": "C73",
   "status": "proved",
   "theorems": [
    "Vmap.C73_bufreader_into_inner"
   ],
   "note": ""
  },
  {
   "property": "C74",
   "status": "proved",
   "theorems": [
    "Vmap.C74_map_if_leaves_nothing",
    "Vmap.C74_open_leaves_nothing",
    "Vmap.C36_C74_open_if"
   ],
   "note": ""
  },
  {
   "property": "C75",
   "status": "partial",
   "theorems": [
    "Vmap.C75_disjoint",
    "Vmap.C75_pages",
    "Vmap.C75_all_dropped_partial",
    "Vmap.C75_exact",
    "Vmap.C75_full_false"
   ],
   "note": "Disjointness proved for all programs; C75_exact: after everything is dropped, exactly one page is lost per empty map dropped (see C40), so the address space is restored iff there was none."
  },
  {
   "property": "C76",
   "status": "partial",
   "theorems": [
    "Vmap.C76_partial",
    "Vmap.C76_false",
    "Vmap.C76_exact"
   ],
   "note": "Proved when write or copy access was chosen; otherwise every write faults (iff proved), e.g. for Options::<MapMut>::new(), whose pages are read-only."
  },
  {
   "property": "C77",
   "status": "proved",
   "theorems": [
    "Vmap.C77_others",
    "Vmap.C77_bytes",
    "Vmap.C77_bytes_files",
    "Vmap.C77_own",
    "Vmap.C77_alloc_own",
    "Vmap.C77_rings"
   ],
   "note": ""
  },
  {
   "property": "C78",
   "status": "proved",
   "theorems": [
    "Vmap.C78_no_panic"
   ],
   "note": "map[idx] = b is excluded: it panics when out of bounds, as documented."
  },
  {
   "property": "C79",
   "status": "proved",
   "theorems": [
    "Vmap.C79_memfd_open",
    "Vmap.C79_progress",
    "Vmap.C79_succeeds"
   ],
   "note": ""
  },
  {
   "property": "C80",
   "status": "partial",
   "theorems": [
    "Vmap.C80_unix_partial",
    "Vmap.C80_windows_inverted",
    "Vmap.C80_windows_false"
   ],
   "note": "True on unix; on Windows the report is inverted (Err on success, Ok on failure)."
  },
  {
   "property": "C81",
   "status": "partial",
   "theorems": [
    "Vmap.C81_permits",
    "Vmap.C81_map_partial",
    "Vmap.C81_alloc_partial",
    "Vmap.C81_empty_leaks",
    "Vmap.C81_false"
   ],
   "note": "Proved except for dropping empty maps, which leaves their view mapped."
  },
  {
   "property": "C82",
   "status": "proved",
   "theorems": [
    "Vmap.C82_flush",
    "Vmap.C82_protect",
    "Vmap.C82_lock",
    "Vmap.C82_unlock",
    "Vmap.C82_advise"
   ],
   "note": ""
  },
  {
   "property": "C83",
   "status": "proved",
   "theorems": [
    "Vmap.C83_bufreader_duplex",
    "Vmap.C83_bufwriter_duplex"
   ],
   "note": ""
  },
  {
   "property": "C84",
   "status": "proved",
   "theorems": [
    "Vmap.C84_read_exact"
   ],
   "note": ""
  },
  {
   "property": "C85",
   "status": "proved",
   "theorems": [
    "Vmap.C85_read_until",
    "Vmap.C85_read_until_buffered",
    "Vmap.C85_read_to_end"
   ],
   "note": ""
  },
  {
   "property": "C86",
   "status": "proved",
   "theorems": [
    "Vmap.C86_write_all"
   ],
   "note": "The exact-fit exception to the order is the fault recorded under C58."
  },
  {
   "property": "C87",
   "status": "proved",
   "theorems": [
    "Vmap.C87_retry",
    "Vmap.C87_into_error"
   ],
   "note": ""
  },
  {
   "property": "C88",
   "status": "proved",
   "theorems": [
    "Vmap.C88_from_parts",
    "Vmap.C88_handover"
   ],
   "note": "The exact-fit exception to the order is the fault recorded under C58."
  },
  {
   "property": "C89",
   "status": "proved",
   "theorems": [
    "Vmap.C89_protect",
    "Vmap.C89_access",
    "Vmap.C89_protect_ok"
   ],
   "note": ""
  },
  {
   "property": "C90",
   "status": "proved",
   "theorems": [
    "Vmap.C90_map_file",
    "Vmap.C90_map_anon",
    "Vmap.C90_unmap",
    "Vmap.C90_lock",
    "Vmap.C90_unlock",
    "Vmap.C90_advise",
    "Vmap.C90_flush"
   ],
   "note": "map_anon with ReadOnly always fails (C38)."
  },
  {
   "property": "C91",
   "status": "proved",
   "theorems": [
    "Vmap.C91_windows_ring",
    "Vmap.C91_windows_fifo",
    "Vmap.C91_windows_infinite",
    "Vmap.C91_windows_lossy",
    "Vmap.C91_memory"
   ],
   "note": "For every memory in which the views of the process show what they should (WinMem); C91_memory: there is one."
  },
  {
   "property": "C92",
   "status": "proved",
   "theorems": [
    "Vmap.C92_macos_ring",
    "Vmap.C92_macos_fifo",
    "Vmap.C92_macos_infinite",
    "Vmap.C92_macos_lossy",
    "Vmap.C92_memory"
   ],
   "note": "For every memory of the task (MachMem); C92_memory: there is one.  The leaked port right is C30."
  },
  {
   "property": "C93",
   "status": "proved",
   "theorems": [
    "Vmap.C93_reader",
    "Vmap.C93_writer",
    "Vmap.C93_runs",
    "Vmap.C93_new",
    "Vmap.C93_reader_into_inner",
    "Vmap.C93_writer_drop",
    "Vmap.C93_writer_into_inner"
   ],
   "note": "The inner reader or writer itself is assumed not to touch memory other than the slice it is given."
  },
  {
   "property": "C94",
   "status": "proved",
   "theorems": [
    "Vmap.C94_ring",
    "Vmap.C94_infinite",
    "Vmap.C94_fifo",
    "Vmap.C94_lossy"
   ],
   "note": "A clock before 1970 panics (C79)."
  },
  {
   "property": "C95",
   "status": "proved",
   "theorems": [
    "Vmap.C95_shared",
    "Vmap.C95_agree",
    "Vmap.C95_written"
   ],
   "note": "Unix model; the other processes of the system are the pwrite and writeBack steps."
  },
  {
   "property": "C96",
   "status": "proved",
   "theorems": [
    "Vmap.C96_private",
    "Vmap.C96_private_open"
   ],
   "note": "For programs in which the mapped file is not shortened (what happens then to private pages behind the end differs between systems)."
  },
  {
   "property": "C97",
   "status": "proved",
   "theorems": [
    "Vmap.C97_alloc"
   ],
   "note": "Unix model; allocations whose size fits the address space (C37)."
  },
  {
   "property": "C98",
   "status": "partial",
   "theorems": [
    "Vmap.C98_partial",
    "Vmap.C98_exact",
    "Vmap.C98_false"
   ],
   "note": "False in general (C98_false: a second map resizes the file).  C98_exact says which bytes can be read."
  },
  {
   "property": "C99",
   "status": "proved",
   "theorems": [
    "Vmap.C99_read",
    "Vmap.C99_write",
    "Vmap.C99_coherent",
    "Vmap.C99_traits"
   ],
   "note": ""
  }
 ]
}