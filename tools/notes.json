{
 "C01": {
  "note": "all admissible genera/ids/offsets; inadmissible preplaced offsets are rejected; tags of holes (C01_hole), values kept in the index (C01_inplaced)"
 },
 "C02": {
  "note": "order, sameness and hash laws for every pair/triple of tags"
 },
 "C03": {
  "note": "portable, SSE2 and AVX2 scans proved for every index; the AVX scan reads two bytes past the index end (C03_scan_AVX_refuted), proved only when those bytes are readable; it compares entries as floating-point numbers, which is right in the usual mode of the processor (C03_avx_lanes, C03_avx_float_partial) and finds the first entry for every key in programs that set denormals-are-zeros (C03_avx_mode_refuted)"
 },
 "C23": {
  "note": "unsigned conversion proved for all values; signed conversion has undefined behaviour exactly at the minimum (C23_i2a_min_undefined), proved for all other values and for wrapping targets"
 },
 "C24": {
  "note": "all operands"
 },
 "C25": {
  "note": "exact unit round trip is false (C25_roundtrip_refuted); loss bounded by one unit (C25_roundtrip_partial)"
 },
 "C26": {
  "note": "all schedules of any number of threads, fewer than 2^31-1 simultaneous references; beyond that the counter overflows (C26_counter_overflow)"
 },
 "C27": {
  "note": ""
 },
 "C28": {
  "note": "pointer part proved; the tag is lost for every nonzero tag (C28_tag_lost), and set_tag puts its bits over the pointer (C28_set_tag_refuted)"
 },
 "C36": {
  "note": "columns up to 2047; erase rejects larger ones; fptu_erase on whole tuples: filters erase all matching fields, a single type erases only the first one; missing for erase: junk and erased values of more than 2047 units, where an assertion of the allocator may fail (C36_erase_tuple_partial, C36_erase_tuple_type_partial)"
 },
 "C37": {
  "note": ""
 },
 "C04": {
  "note": "all byte strings up to the limit, over arbitrary previous memory"
 },
 "C05": {
  "note": "length read back is wrong for every length not divisible by 4 (C05_length_refuted); round trip proved for multiples of 4, stored bytes and space proved for all lengths; the same for every binary field of every reachable tuple (C05_history_partial), reading after storing (C05_set_partial)"
 },
 "C06": {
  "note": "properties up to 255 bytes (the code accepts 254 and 255 although essentials.h documents 253), all serialized tuples"
 },
 "C35": {
  "note": "is_zeroed answers false for an empty range; stated so in the theorem"
 },
 "C09": {
  "note": "all histories for the repaired allocator; for the code as it is all histories without a step in which gear.cxx:300/393/591 show, plus a witness history where a value of another field is overwritten (C09_set_refuted)"
 },
 "C10": {
  "note": "as C09; refuted for the code by C10_insert_refuted"
 },
 "C11": {
  "note": "loose fields: proved (erasing never throws, removes exactly the field, is defined when the junk and the values erased have at most 2047 units); preplaced fields: refuted in general, erase() never removes a present value (getter.h:212-217 inverted)",
  "status": "partial"
 },
 "C12": {
  "note": "layout validity and acceptance by the library's own validation for every history of the repaired allocator; refutations for the code (C12_layout_refuted, C12_swap_refuted, C12_release_refuted, C12_big_hole_refuted, C12_audit_refuted) and an assertion in the validation that fires on a valid tuple (C12_audit_aborts). Absence of undefined behaviour is proved for buffers of any size as long as no step drops a value that together with the junk has more than 2047 units (C12_no_undefined_partial, C12_step_partial)"
 },
 "C13": {
  "note": "every failing step of the repaired code leaves the tuple unchanged; C13_failed_set_refuted for the code"
 },
 "C14": {
  "note": "C14_reclaim_refuted for the code"
 },
 "C15": {
  "note": "missing: histories which a defect of gear.cxx has broken; for the success direction of set, steps where the junk and the old values of the field exceed 2047 units (C12_big_hole_refuted)"
 },
 "C16": {
  "note": "inserting, setting a field without value, and resizing values (best fit among the gaps between all other values); refuted for resizing with holes and a full index: a value at the end stays there, ties do not go to the lowest address",
  "status": "partial"
 },
 "C07": {
  "note": "proved for every buffer and schema with non-colliding definitions: an accepted tuple's payloads lie inside the buffer and partition the payload area when there is any payload, and reading loose and preplaced fields depends only on bytes of the buffer, except varbin whose stored length may exceed its size (C07_varbin_overread) and nested tuples which are not validated (C07_nested_unchecked). Witnesses for accepted bad buffers: C07_unaccounted, C07_header_outside, C07_overlap"
 },
 "C08": {
  "note": "false in general: the audit reads a stretchy header outside the buffer (C08_reads_refuted); proved for all other reads (C08_reads_partial)"
 },
 "C19": {
  "note": "every tuple of every history (without allocator defects) up to 65534 units: its serialized form is accepted by validation, reports the same holes, reads the same, and can be loaded again with the same fields; refuted for 65535 units, for reserves exceeding 65534 units, and for large tuples with a preplaced schema"
 },
 "C40": {
  "note": "accounting of brutto size, loose count, capacity for every reachable tuple; netto size subtracts units from bytes (C40_netto_refuted)"
 },
 "C41": {
  "note": "creation within limits succeeds and the promised space can be used; requests above 65534 units in total and rounding of the preplaced area lose space (refuted); a tuple for no items cannot be reset (refuted); fptu_alloc/fptu_space/fptu_clear are the same functions (C41_alloc, C41_space, C41_clear)"
 },
 "C17": {
  "note": "every tuple of every history (without allocator defects): compaction keeps all fields and their order, removes all holes and gaps, and frees exactly the junk; refuted for nulls of stretchy types (undefined behaviour); repaired version without restrictions"
 },
 "C18": {
  "note": "proved for the vector sized right (C18_sort_repaired, C18_optimize_repaired); the code as it is zeroes as many units after the index as there are index entries (C18_overwrites_refuted, C18_sort_refuted) unless the index is already sorted (C18_sort_partial)"
 },
 "C20": {
  "note": "every row of the table for every genus and value, both placements (binaries: lengths divisible by 4, C20_varbin_partial, see C05 for the others); reading of absent fields in any state; -0.0 reads back as +0.0 when NULLs are not distinguished (refuted); erasing preplaced fields: see C11"
 },
 "C21": {
  "note": "all integer setters and inserters, every argument of their C++ types, every genus, any reachable tuple; refuted: set_unsigned/insert_unsigned(int64_t) refuse all unsigned fields, 128-bit arguments are truncated silently, saturation is never applied"
 },
 "C22": {
  "note": "getters return the number of whatever object the field holds; after-set form restricted to histories without allocator defects"
 },
 "C39": {
  "note": "sizes and masks for all genera; conversions of the table between numbers are lossless except i8 to unsigned types (refuted) and 64-bit times to 32-bit ones (refuted)"
 },
 "C44": {
  "note": "all finite, infinite and NaN arguments for all integer fields (floating-point fields: C57); the fraction is dropped; histories without allocator defects"
 },
 "C30": {
  "note": "all definition sequences; placement, image, offset searches and use in tuples without opaque structures (define_preplaced_fixed_opacity is unusable, C30_opacity_refuted); by_loose refuted for every schema with four or more loose fields (C30_by_loose_refuted); importing a definition keeps kind, size, NULL discernment and collection (C30_imported)",
  "status": "partial"
 },
 "C45": {
  "note": "the estimate is refuted in general; the excess over it is bounded by 7 bytes and one unit per field of variable size"
 },
 "C31": {
  "note": "every schema (without opaque structures) with a field at offset 0 and every tuple, forwards; backwards for preplaced areas under 16384 bytes; holes of the index are visited as fields, other schemas, postfix operators and it[n] refuted",
  "status": "partial"
 },
 "C32": {
  "note": "every index content and every collection token (C32_collection, unrestricted); C32_insert_partial has the restrictions of insertion (C10)",
  "status": "proved"
 },
 "C33": {
  "note": "a growth keeps all fields and yields the space asked for (C33_shift_partial, C33_grow_partial, C33_content_partial); failed growth keeps the fields and tuple_overflow is thrown exactly beyond the limit (C33_failed); the retry loop does what the modification does, never leaks insufficient_space, and ends within three attempts if the content and the new value have at most 57343 units and the junk and old values of the field at most 2047, for tuples with and without preplaced fields, including assignments of preplaced text (C33_preplaced_completes_partial); with preplaced fields the sizes are smaller because of the defect C33_preplaced_refuted. Six defects of the growth are refuted with witnesses.",
  "status": "partial"
 },
 "C34": {
  "note": "explicit modes, weak handles and loading of external data validate exactly as asked (C34_modes, C34_weak, C34_load, C34_clone_explicit); copies and clones keep the fields (C34_load_partial, C34_clone_partial, C34_to_rw_partial, C34_clone_rw_partial, C34_move_to_ro_partial, C34_managed_partial, C34_clone_managed_partial, C34_take_clone_partial). Refuted: clones of managed handles for another schema are not checked against it, and into another kind of buffer lose the schema; the default of tuple_ro_managed::clone is inverted, unvalidated clones forget the holes, take_weak and take_managed_clone optimize exactly when told not to.",
  "status": "partial"
 },
 "C38": {
  "status": "partial",
  "note": "nested tuples: with the right token every function stores what it gets (C38_nested, C38_nested_read_partial), fptu_upsert_nested itself never stores anything (refuted for all arguments). fptu_field_as_iovec: exact for nested tuples, with its header for properties; refuted for all other types."
 },
 "C46": {
  "status": "partial",
  "note": "all types, columns and values, all error codes; for the code as it is restricted to steps in which the defects of gear.cxx do not show. Refuted: fptu_insert_96..256 of zeros store nothing, 64-bit arguments of fptu_upsert_int32/uint32 are cut. Upserts are defined when the junk and the old values have at most 2047 units (C46_defined_partial). fptu_is_empty_ro agrees with fptu_is_empty_rw and with the absence of fields (C46_is_empty_partial), except after the leak of C14 (C46_is_empty_refuted)."
 },
 "C47": {
  "status": "partial",
  "note": "sizes within CopyFits (see C19). Refuted: fptu_fetch ignores holes; fptu_get_buffer_size ends the process for large requests"
 },
 "C48": {
  "status": "partial",
  "note": "every text field of every reachable tuple, if the text is not empty and has no zero byte, seen right after the call; later calls keep it unless both texts fill their units. Refuted: empty text gives NULL, zero bytes cut, shared holder"
 },
 "C49": {
  "status": "proved",
  "note": "all bit patterns, both modes; 'reads back' is stated without a reader: strictly nearest to the printed double among all doubles and ±2^1024. The compile-time variant ERTHINK_D2A_AVOID_MUL is not modelled"
 },
 "C50": {
  "status": "partial",
  "note": "all finite doubles, thresholds from -14 to 14. Refuted: no digit after the point for one-digit numbers in exponential form (1.e+22); thresholds 15 and -15 use characters never written or outside of the buffer"
 },
 "C51": {
  "status": "partial",
  "note": "all fractions, for the conversion with the rounding term computed only where used. Refuted for the code: shift by a negative amount for every fraction"
 },
 "C52": {
  "status": "partial",
  "note": "at most 17 digits and closer than half of the way to any other double. Refuted: nearest (36282152733170464e-91) and shortest (0.001 is 10e-4)"
 },
 "C53": {
  "note": "all clock values and signatures; little-endian layout"
 },
 "C54": {
  "note": "one byte of the mark or of the signature: always detected; several bytes refuted"
 },
 "C55": {
  "note": "all sizes, contents and clock values; single owner; the mark after the payload is probed by check(), in release builds not by detach()"
 },
 "C56": {
  "note": "all sequences without requests that wrap around; return to empty for stack order; other orders and huge requests refuted"
 },
 "C57": {
  "note": "all bit patterns; histories without allocator defects; the sign of zero is lost in loose fields without NULLs (refuted); decimal fields are a stub in the code and not modelled"
 },
 "C58": {
  "note": "64-bit times exactly; 32-bit times keep whole seconds only (refuted beyond); insert_datetime refuses collections of 32-bit times (refuted); histories without allocator defects"
 },
 "C59": {
  "note": "all values; histories without allocator defects"
 },
 "C60": {
  "note": "all values and sizes; rounding up wraps around near 2^64 (refuted there)"
 },
 "C61": {
  "note": "all data"
 },
 "C62": {
  "note": "writing an ipnet value reads 3 bytes beyond the argument (refuted)"
 },
 "C63": {
  "note": "columns above 2047 reach fields of another type, fptu_get_cstr does not report success (both refuted); histories without allocator defects"
 },
 "C64": {
  "note": "the table of names (C64_name_partial); columns above 2047 spill into the type, four types have no name (both refuted)"
 },
 "C65": {
  "note": "bytes of every variable-size value of every reachable tuple; no traces when no junk is reported; refuted for tuples with junk: erased values are in the serialized form. Missing: histories of the unrepaired code in which a defect of gear.cxx shows"
 },
 "C66": {
  "note": "all interleavings with operations on other fields; refuted when the field itself is changed by token meanwhile (stored twice; another field overwritten). Missing: steps of the unrepaired code in which a defect of gear.cxx shows"
 },
 "C67": {
  "note": "assignment and erasure through iterators, the loop over a collection; refuted: it++ does not advance, the loop stops when a value is dropped. Missing: binary blobs (C05), stretchy values where the defect of gear.cxx:591 shows"
 },
 "C68": {
  "note": "a book of values, written independently of buffers, predicts every tuple; reading by token; preplaced fields; whole lives (Props/Story.lean) with failed operations, growth of the buffer, reservation, transfer through the serialized form, sorting and reset. Without restrictions for the repaired allocator. Missing: steps of the unrepaired code in which a defect of gear.cxx shows; fields used both as a collection and not; values of binary blobs read with padding (C05)"
 },
 "C69": {
  "note": "two-run (noninterference) proof for the allocator, all setters, insertion, erasure, compaction, sorting (C69_sort), growth into a new buffer (C69_grow), modifications with automatic growth (C69_managed_partial), whole lives with and without growth, the serialized image and the getters. Without restrictions for the repaired allocator (C69_grown_repaired for lives with growth; the reallocating variant for old buffers is excluded, it is refuted in C33); tokens of preplaced fields of variable length are assumed aligned, as schemas make them. Refuted for the code: five operations write three units behind the buffer (consequence of gear.cxx:300), and the getter of binary blobs reads behind it (C05); a new tuple of a schema whose preplaced fields do not end at a multiple of four bytes carries up to three bytes of uninitialised memory into its serialized form (C69_padding_refuted)"
 },
 "C70": {
  "note": "end-to-end theorem from schema definitions over the byte-exact construction to the getters, for new tuples, reset tuples and after histories that spare the field. Missing: opaque structures, initial values of fields of variable size (refuted: the definition is accepted and the field then reads garbage), imported fields of variable size at odd offsets; histories in which no defect of gear.cxx shows"
 },
 "C71": {
  "note": "Loose fields and collections: proved for every state (C71_present), every history (C71_history_partial, restricted as C68), agreement with getters, erase, updates and the serialized form. Preplaced fields: refuted for every tuple, the answer is inverted (getter.h:212-217)."
 },
 "C72": {
  "note": "functions of misc.cxx compiled on Elbrus with an old glibc only; memory is a total function of addresses, little-endian; loops without a bound of their own take a number of rounds"
 },
 "C73": {
  "note": "false for -31 … -1: the number of fractions is compared with nanoseconds (C73_clock_refuted); proved for all other arguments, with a bound of 4.3 for these (C73_clock_bound); Linux branch, LP64"
 },
 "C74": {
  "note": "Proved for all queries but RDRAND, and for the choice on systems that save the wide registers. Refuted: has_RDRAND looks at bit 31 (hypervisor) instead of 30; the choice does not look at OSXSAVE and XCR0. Resolution before the constructor of the global variable is proved to be safe."
 },
 "C75": {
  "note": "comparison, casts, validity, static tokens and kinds. Refuted: tokens of one field with different modes are mutually <= but not == (C75_trichotomy_refuted), the invalid default token passes for a preplaced one (C75_default_refuted), a hole passes the validation of preplaced tokens and violates an assertion (C75_hole_refuted)"
 },
 "C76": {
  "note": "fptu_shrink, fptu_cond_shrink, fptu_take, fptu_take_noshrink, fptu_check_ro_ex (C76_check: when the check that does not allow holes accepts), fptu_junkspace. Missing for the code as it is: 256 or more fields (C76_many_refuted: a value is lost) and null values of stretchy types (C76_null_refuted); the largest tuple (C19)"
 },
 "C77": {
  "note": "One thread; the contents of the tuples are arbitrary for the ownership theorems and real tuples for C77_take, C77_nested_partial. Missing, because false in the code: readers of a nested tuple obtained from a modifiable one see later changes (C77_nested_refuted, hence C77_exclusive_partial and C77_readers_partial exclude that call); a read-only handle moved to itself is emptied (C77_self_move_refuted, hence C77_move_partial); get_nested_managed of an absent nested tuple throws (C77_absent_refuted); tuple_rw_managed from a hollow handle ends the process (C77_hollow_refuted)"
 },
 "C78": {
  "note": "snprintf and gmtime_r are modelled by their standards (round to nearest, ties to even; Gregorian calendar, 64-bit time_t); the reader in the theorem sums the lengths of years and months by itself"
 },
 "C79": {
  "note": "last_partial/again_partial/undo_partial exclude states in which a defect of gear.cxx shows (C12) and values that erase the field; C79_inplace needs no such exclusion; shortening always succeeds is refuted (C79_shorter_refuted: full index), C79_shorter_partial gives the only failure when the junk and the old value have up to 2047 units",
  "status": "partial"
 },
 "C80": {
  "note": "sequences in which a defect of gear.cxx shows (C12) are excluded from order_partial; sorting and optimize with sorting are proved for the repaired sort (C18_sort_refuted loses values in the code); compaction and erasure hold for the code as it is",
  "status": "partial"
 },
 "C81": {
  "note": "Proved about the model of the code as it is: order kept by insertion, assignment and erasing through an iterator, operations on other fields, compaction and serialization; the newest value is first when the index has no holes at the insertions; whole histories. Refuted in full: an insertion into an index with a hole may land between older values (C81_newest_refuted), and std::sort of the index need not be stable (C81_sort_refuted). Partial also because the steps in which a defect of gear.cxx shows are excluded.",
  "status": "partial"
 },
 "C43": {
  "note": "right for seven-bit text followed by a zero byte (C43_reserved_partial), never wrong when it says yes (C43_only); the length is not respected, bytes above 127 read behind a table, four reserved words are unknown (refuted)"
 },
 "C82": {
  "note": "Managed handles: equal exactly if the same in every respect; copies, moves. Modifiable handles and a modifiable against a managed one: in programs without get_nested_managed of a modifiable tuple (as in C77); without that restriction equality still means the same buffer with two owners. Weak handles: equal when taken, afterwards exactly as long as the index begins at the same place. Refuted: equality does not mean the weak handle is up to date; comparing a modifiable handle that holds nothing, or comparing with a hollow read-only one, is undefined behaviour."
 },
 "C83": {
  "note": "Conversions, iteration and equality proved for all views; order among texts of equal length (C83_order_partial). Refuted: nil is equal to no string although it converts to the empty one, and is not nil after a round trip through std::string_view (C83_nil_refuted); texts of different length are ordered by length, unlike strings (C83_order_refuted); zero bytes cut C strings (C83_cstr_refuted); an array of characters without a zero byte, assigned to a field, is read beyond its end (C83_array_refuted)."
 },
 "C84": {
  "note": "Loose and preplaced fields, comparing with tokens, searching by a loop, and the token of the schema are proved for every reachable tuple and schema. Fails for units of the index that are holes (C84_holes_refuted) and, for the token, for schemas with four or more loose fields (C84_token_refuted)."
 },
 "C85": {
  "note": "Count and exclusive ownership proved for every schedule with outdated loads. The order of accesses is refuted: ref_counter is a plain volatile integer, the test for one in detach and is_alterable has no acquire barrier, so the last owner may release or alter the buffer while an access of a former owner is not ordered before it. Proved when the decision came from the atomic decrement, and for all releases if loads are acquire operations (x86). The counter is taken not to wrap (C26 covers that)."
 },
 "C86": {
  "note": "Extent: proved. Alignment: proved for the types with an alignment of at most 4; refuted for 64-bit types, IP addresses and get_int128/get_uint128. Lifetime: refuted for get_int128 and get_uint128 of the handles, proved for all other getters."
 },
 "C87": {
  "note": "Bounds, termination, absence of changes under interference and the contract of prefaulting are proved for all inputs. That every page is accessed is refuted for ranges that do not begin at a page (the payload of a buffer does not): C87_pages gives the exact condition, C87_aligned_partial and C87_prefault_partial cover ranges that begin at a page. What the system does with a vector written to /dev/null is not modelled.",
  "status": "partial"
 },
 "C88": {
  "note": "Swapping is proved in full. The conversions are right exactly when the macros __BYTE_ORDER and __LITTLE_ENDIAN describe the machine (C88_convert_iff); the header does not ensure this (C88_macros_refuted). The branches that call compiler built-ins are not modelled.",
  "status": "partial"
 },
 "C89": {
  "note": "nearest, error bound, monotone, exact iff 53 bits, exact for rounded clock readings; telling moments apart and the whole part are false for moments in full (C89_exact_refuted, C89_whole_partial)"
 },
 "C90": {
  "note": "false for the inline functions, since remove is declared pure (C90_inline_refuted); holds if it were not (C90_plain) and, as declared, for programs whose removals have their results used and are followed by a call of a function not declared pure (C90_fenced_partial)"
 },
 "C91": {
  "note": "finite numbers in every case (C91_finite_partial), infinities for integer fields and everything for double fields in every case; infinities for float fields and NaN for integer fields go wrong when the library is compiled with -ffast-math as its build file does (C91_infinity_refuted, C91_nan_refuted)"
 },
 "C92": {
  "note": "ensure and make_from_buffer for every tuple except those on which validation ends the process (C12_audit_aborts); reset of a valid tuple that it refuses formats a null pointer (C92_reset_refuted); texts of 2^31 characters and more are not formatted (C92_format_refuted)"
 },
 "C93": {
  "note": "nine kinds of failure do not set the last error, message pointers die with the next failure, FPTU_ENOMEM has the text of an invalid code (all refuted); memory for the message is available, threads do not end, outcomes of the tuple functions are inputs",
  "status": "partial"
 },
 "C94": {
  "note": "Proved: at every scale but the largest tuples can be made and hold what the scale promises; the largest scale without a preplaced area; the estimates; opening when everything fits together. Refuted: the largest scale with any preplaced field, and opening of larger tuples at the largest scale."
 },
 "C95": {
  "note": "Proved: every tuple has and keeps the settings of the moment it was made; no destroyed schema is used when the settings are made before the first tuple. Refuted: a later setup destroys the schema of existing tuples. The loop over the fields of a read-only tuple without naming a schema stays inside the tuple if it has room for the default schema (C95_walk_partial); otherwise it visits places outside of the tuple (C95_walk_refuted)."
 },
 "C96": {
  "note": "Proved for all tuples, schemas and heaps: fields keep their values, a later compaction gives the same, no heap is needed for small tuples. False in that the tuple left behind fails the validation (C96_shortage_rejected for every tuple, C96_shortage_refuted a reachable one).",
  "status": "partial"
 }
}