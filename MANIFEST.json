{
 "claims": [
  {
   "property": "C01",
   "status": "proved",
   "theorems": [
    "Fptu.Props.C01_loose_token_lossless",
    "Fptu.Props.C01_loose_token_accepts",
    "Fptu.Props.C01_preplaced_token_lossless",
    "Fptu.Props.C01_preplaced_token_rejects",
    "Fptu.Props.C01_hole",
    "Fptu.Props.C01_inplaced"
   ],
   "note": "all admissible genera/ids/offsets; inadmissible preplaced offsets are rejected; tags of holes (C01_hole), values kept in the index (C01_inplaced)"
  },
  {
   "property": "C02",
   "status": "proved",
   "theorems": [
    "Fptu.Props.C02_same_iff",
    "Fptu.Props.C02_strict_weak_order",
    "Fptu.Props.C02_order_physical",
    "Fptu.Props.C02_hash_respects_same",
    "Fptu.Props.C02_modes_keep_field"
   ],
   "note": "order, sameness and hash laws for every pair/triple of tags"
  },
  {
   "property": "C03",
   "status": "partial",
   "theorems": [
    "Fptu.Props.C03_scan_correct",
    "Fptu.Props.C03_scan_AVX_correct_partial",
    "Fptu.Props.C03_scan_AVX_refuted",
    "Fptu.Props.C03_all_agree_with_reference",
    "Fptu.Props.C03_hollow",
    "Fptu.Props.C03_next_correct",
    "Fptu.Props.C03_avx_lanes",
    "Fptu.Props.C03_avx_float_partial",
    "Fptu.Props.C03_avx_mode_refuted",
    "Fptu.Props.C03_lookup"
   ],
   "note": "portable, SSE2 and AVX2 scans proved for every index; the AVX scan reads two bytes past the index end (C03_scan_AVX_refuted), proved only when those bytes are readable; it compares entries as floating-point numbers, which is right in the usual mode of the processor (C03_avx_lanes, C03_avx_float_partial) and finds the first entry for every key in programs that set denormals-are-zeros (C03_avx_mode_refuted)"
  },
  {
   "property": "C04",
   "status": "proved",
   "theorems": [
    "Fptu.Props.C04_estimate",
    "Fptu.Props.C04_string_roundtrip"
   ],
   "note": "all byte strings up to the limit, over arbitrary previous memory"
  },
  {
   "property": "C05",
   "status": "partial",
   "theorems": [
    "Fptu.Props.C05_history_partial",
    "Fptu.Props.C05_set_partial",
    "Fptu.Props.C05_estimate",
    "Fptu.Props.C05_varbin_roundtrip_partial",
    "Fptu.Props.C05_length_refuted"
   ],
   "note": "length read back is wrong for every length not divisible by 4 (C05_length_refuted); round trip proved for multiples of 4, stored bytes and space proved for all lengths; the same for every binary field of every reachable tuple (C05_history_partial), reading after storing (C05_set_partial)"
  },
  {
   "property": "C06",
   "status": "proved",
   "theorems": [
    "Fptu.Props.C06_property_roundtrip",
    "Fptu.Props.C06_nested_roundtrip",
    "Fptu.Props.C06_header_roundtrip"
   ],
   "note": "properties up to 255 bytes (the code accepts 254 and 255 although essentials.h documents 253), all serialized tuples"
  },
  {
   "property": "C07",
   "status": "partial",
   "theorems": [
    "Fptu.Props.C07_layout_partial",
    "Fptu.Props.C07_read_loose_partial",
    "Fptu.Props.C07_read_preplaced_partial",
    "Fptu.Props.C07_unaccounted",
    "Fptu.Props.C07_header_outside",
    "Fptu.Props.C07_overlap",
    "Fptu.Props.C07_varbin_overread",
    "Fptu.Props.C07_nested_unchecked"
   ],
   "note": "proved for every buffer and schema with non-colliding definitions: an accepted tuple's payloads lie inside the buffer and partition the payload area when there is any payload, and reading loose and preplaced fields depends only on bytes of the buffer, except varbin whose stored length may exceed its size (C07_varbin_overread) and nested tuples which are not validated (C07_nested_unchecked). Witnesses for accepted bad buffers: C07_unaccounted, C07_header_outside, C07_overlap"
  },
  {
   "property": "C08",
   "status": "partial",
   "theorems": [
    "Fptu.Props.C08_reads_partial",
    "Fptu.Props.C08_reads_refuted"
   ],
   "note": "false in general: the audit reads a stretchy header outside the buffer (C08_reads_refuted); proved for all other reads (C08_reads_partial)"
  },
  {
   "property": "C09",
   "status": "partial",
   "theorems": [
    "Fptu.Props.C09_set_refuted",
    "Fptu.Props.C09_single_partial",
    "Fptu.Props.C09_set_partial",
    "Fptu.Props.C09_unset_partial",
    "Fptu.Props.C09_set_repaired",
    "Fptu.Props.C09_set_preplaced_fixed",
    "Fptu.Props.C09_set_preplaced_stretchy_partial"
   ],
   "note": "all histories for the repaired allocator; for the code as it is all histories without a step in which gear.cxx:300/393/591 show, plus a witness history where a value of another field is overwritten (C09_set_refuted)"
  },
  {
   "property": "C10",
   "status": "partial",
   "theorems": [
    "Fptu.Props.C10_insert_refuted",
    "Fptu.Props.C10_insert_partial",
    "Fptu.Props.C10_insert_repaired"
   ],
   "note": "as C09; refuted for the code by C10_insert_refuted"
  },
  {
   "property": "C11",
   "status": "partial",
   "theorems": [
    "Fptu.Props.C11_preplaced_fixed_refuted",
    "Fptu.Props.C11_preplaced_stretchy_refuted",
    "Fptu.Props.C11_erase_collection",
    "Fptu.Props.C11_erase_single"
   ],
   "note": "loose fields: proved (erasing never throws, removes exactly the field, is defined when the junk and the values erased have at most 2047 units); preplaced fields: refuted in general, erase() never removes a present value (getter.h:212-217 inverted)"
  },
  {
   "property": "C12",
   "status": "partial",
   "theorems": [
    "Fptu.Props.C12_audit_partial",
    "Fptu.Props.C12_audit_repaired",
    "Fptu.Props.C12_audit_refuted",
    "Fptu.Props.C12_audit_aborts",
    "Fptu.Props.C12_layout_refuted",
    "Fptu.Props.C12_swap_refuted",
    "Fptu.Props.C12_release_refuted",
    "Fptu.Props.C12_big_hole_refuted",
    "Fptu.Props.C12_phantom_field",
    "Fptu.Props.C12_layout_partial",
    "Fptu.Props.C12_layout_repaired",
    "Fptu.Props.C12_no_undefined_partial",
    "Fptu.Props.C12_step_partial"
   ],
   "note": "layout validity and acceptance by the library's own validation for every history of the repaired allocator; refutations for the code (C12_layout_refuted, C12_swap_refuted, C12_release_refuted, C12_big_hole_refuted, C12_audit_refuted) and an assertion in the validation that fires on a valid tuple (C12_audit_aborts). Absence of undefined behaviour is proved for buffers of any size as long as no step drops a value that together with the junk has more than 2047 units (C12_no_undefined_partial, C12_step_partial)"
  },
  {
   "property": "C13",
   "status": "partial",
   "theorems": [
    "Fptu.Props.C13_failed_set_refuted",
    "Fptu.Props.C13_failed_partial",
    "Fptu.Props.C13_failed_repaired"
   ],
   "note": "every failing step of the repaired code leaves the tuple unchanged; C13_failed_set_refuted for the code"
  },
  {
   "property": "C14",
   "status": "partial",
   "theorems": [
    "Fptu.Props.C14_reclaim_refuted",
    "Fptu.Props.C14_reclaim_partial"
   ],
   "note": "C14_reclaim_refuted for the code"
  },
  {
   "property": "C15",
   "status": "partial",
   "theorems": [
    "Fptu.Props.C15_insert_partial",
    "Fptu.Props.C15_set_partial"
   ],
   "note": "missing: histories which a defect of gear.cxx has broken; for the success direction of set, steps where the junk and the old values of the field exceed 2047 units (C12_big_hole_refuted)"
  },
  {
   "property": "C16",
   "status": "partial",
   "theorems": [
    "Fptu.Props.C16_insert",
    "Fptu.Props.C16_set_new",
    "Fptu.Props.C16_set_preplaced_new",
    "Fptu.Props.C16_resize_partial",
    "Fptu.Props.C16_full_refuted"
   ],
   "note": "inserting, setting a field without value, and resizing values (best fit among the gaps between all other values); refuted for resizing with holes and a full index: a value at the end stays there, ties do not go to the lowest address"
  },
  {
   "property": "C17",
   "status": "partial",
   "theorems": [
    "Fptu.Props.C17_compactify_partial",
    "Fptu.Props.C17_compactify_repaired",
    "Fptu.Props.C17_compactify_completes",
    "Fptu.Props.C17_optimize_partial",
    "Fptu.Props.C17_serialized_partial",
    "Fptu.Props.C17_null_refuted",
    "Fptu.Props.C17_preplaced_refuted",
    "Fptu.Props.C17_assertion_refuted"
   ],
   "note": "every tuple of every history (without allocator defects): compaction keeps all fields and their order, removes all holes and gaps, and frees exactly the junk; refuted for nulls of stretchy types (undefined behaviour); repaired version without restrictions"
  },
  {
   "property": "C18",
   "status": "partial",
   "theorems": [
    "Fptu.Props.C18_sort_repaired",
    "Fptu.Props.C18_optimize_repaired",
    "Fptu.Props.C18_sort_partial",
    "Fptu.Props.C18_overwrites_refuted",
    "Fptu.Props.C18_sort_refuted"
   ],
   "note": "proved for the vector sized right (C18_sort_repaired, C18_optimize_repaired); the code as it is zeroes as many units after the index as there are index entries (C18_overwrites_refuted, C18_sort_refuted) unless the index is already sorted (C18_sort_partial)"
  },
  {
   "property": "C19",
   "status": "partial",
   "theorems": [
    "Fptu.Props.C19_serialized_partial",
    "Fptu.Props.C19_recreated_partial",
    "Fptu.Props.C19_too_large_refuted",
    "Fptu.Props.C19_overflow_refuted",
    "Fptu.Props.C19_recreate_refuted"
   ],
   "note": "every tuple of every history (without allocator defects) up to 65534 units: its serialized form is accepted by validation, reports the same holes, reads the same, and can be loaded again with the same fields; refuted for 65535 units, for reserves exceeding 65534 units, and for large tuples with a preplaced schema"
  },
  {
   "property": "C20",
   "status": "partial",
   "theorems": [
    "Fptu.Props.C20_varbin_partial",
    "Fptu.Props.C20_write_partial",
    "Fptu.Props.C20_read_absent",
    "Fptu.Props.C20_negative_zero_refuted"
   ],
   "note": "every row of the table for every genus and value, both placements (binaries: lengths divisible by 4, C20_varbin_partial, see C05 for the others); reading of absent fields in any state; -0.0 reads back as +0.0 when NULLs are not distinguished (refuted); erasing preplaced fields: see C11"
  },
  {
   "property": "C21",
   "status": "partial",
   "theorems": [
    "Fptu.Props.C21_set_integer_partial",
    "Fptu.Props.C21_set_integer_u64_partial",
    "Fptu.Props.C21_set_unsigned_partial",
    "Fptu.Props.C21_set_number_partial",
    "Fptu.Props.C21_set_int128_partial",
    "Fptu.Props.C21_set_uint128_partial",
    "Fptu.Props.C21_insert_partial",
    "Fptu.Props.C21_bin128_partial",
    "Fptu.Props.C21_unsigned_int64_refuted",
    "Fptu.Props.C21_unsigned_int64_signed_refuted",
    "Fptu.Props.C21_int128_refuted",
    "Fptu.Props.C21_saturation_refuted"
   ],
   "note": "all integer setters and inserters, every argument of their C++ types, every genus, any reachable tuple; refuted: set_unsigned/insert_unsigned(int64_t) refuse all unsigned fields, 128-bit arguments are truncated silently, saturation is never applied"
  },
  {
   "property": "C22",
   "status": "partial",
   "theorems": [
    "Fptu.Props.C22_getters",
    "Fptu.Props.C22_after_set_partial"
   ],
   "note": "getters return the number of whatever object the field holds; after-set form restricted to histories without allocator defects"
  },
  {
   "property": "C23",
   "status": "partial",
   "theorems": [
    "Fptu.Props.C23_u2a32",
    "Fptu.Props.C23_digit_groups",
    "Fptu.Props.C23_u2a64",
    "Fptu.Props.C23_i2a32_partial",
    "Fptu.Props.C23_i2a64_partial",
    "Fptu.Props.C23_i2a_min_undefined",
    "Fptu.Props.C23_i2a_wrapping"
   ],
   "note": "unsigned conversion proved for all values; signed conversion has undefined behaviour exactly at the minimum (C23_i2a_min_undefined), proved for all other values and for wrapping targets"
  },
  {
   "property": "C24",
   "status": "proved",
   "theorems": [
    "Fptu.Props.C24_mul128",
    "Fptu.Props.C24_carry_exact",
    "Fptu.Props.C24_carry_chain",
    "Fptu.Props.C24_clz",
    "Fptu.Props.C24_bswap",
    "Fptu.Props.C24_abs"
   ],
   "note": "all operands"
  },
  {
   "property": "C25",
   "status": "partial",
   "theorems": [
    "Fptu.Props.C25_roundtrip_partial",
    "Fptu.Props.C25_roundtrip_refuted",
    "Fptu.Props.C25_seconds",
    "Fptu.Props.C25_timespec",
    "Fptu.Props.C25_order_chronological",
    "Fptu.Props.C25_conversion_monotone",
    "Fptu.Props.C25_now_rounding",
    "Fptu.Props.C25_units"
   ],
   "note": "exact unit round trip is false (C25_roundtrip_refuted); loss bounded by one unit (C25_roundtrip_partial)"
  },
  {
   "property": "C26",
   "status": "proved",
   "theorems": [
    "Fptu.Props.C26_refcount_safe",
    "Fptu.Props.C26_refcount_released",
    "Fptu.Props.C26_detach_terminates",
    "Fptu.Props.C26_alterable_exclusive",
    "Fptu.Props.C26_counter_overflow"
   ],
   "note": "all schedules of any number of threads, fewer than 2^31-1 simultaneous references; beyond that the counter overflows (C26_counter_overflow)"
  },
  {
   "property": "C27",
   "status": "proved",
   "theorems": [
    "Fptu.Props.C27_tag_lossless",
    "Fptu.Props.C27_local_tag",
    "Fptu.Props.C27_flags"
   ],
   "note": ""
  },
  {
   "property": "C28",
   "status": "partial",
   "theorems": [
    "Fptu.Props.C28_pointer_partial",
    "Fptu.Props.C28_tag_lost",
    "Fptu.Props.C28_set_tag_refuted"
   ],
   "note": "pointer part proved; the tag is lost for every nonzero tag (C28_tag_lost), and set_tag puts its bits over the pointer (C28_set_tag_refuted)"
  },
  {
   "property": "C29",
   "status": "proved",
   "theorems": [
    "Fptu.Props.C29_constructors",
    "Fptu.Props.C29_compare",
    "Fptu.Props.C29_order_laws",
    "Fptu.Props.C29_operators",
    "Fptu.Props.C29_hash",
    "Fptu.Props.C29_nil_empty"
   ],
   "note": ""
  },
  {
   "property": "C30",
   "status": "partial",
   "theorems": [
    "Fptu.Props.C30_names",
    "Fptu.Props.C30_rejects",
    "Fptu.Props.C30_loose_ids",
    "Fptu.Props.C30_imported",
    "Fptu.Props.C30_no_overlap_partial",
    "Fptu.Props.C30_define_preplaced_partial",
    "Fptu.Props.C30_by_offset_partial",
    "Fptu.Props.C30_walk_partial",
    "Fptu.Props.C30_by_loose_partial",
    "Fptu.Props.C30_by_loose_refuted",
    "Fptu.Props.C30_initial_partial",
    "Fptu.Props.C30_usable_partial",
    "Fptu.Props.C30_opacity_refuted",
    "Fptu.Props.C30_opacity_limits",
    "Fptu.Props.C30_import_gap_refuted",
    "Fptu.Props.C30_import_image_refuted",
    "Fptu.Props.C30_get_name_refuted",
    "Fptu.Props.C30_prev_refuted",
    "Fptu.Props.C30_import_invalid_refuted"
   ],
   "note": "all definition sequences; placement, image, offset searches and use in tuples without opaque structures (define_preplaced_fixed_opacity is unusable, C30_opacity_refuted); by_loose refuted for every schema with four or more loose fields (C30_by_loose_refuted); importing a definition keeps kind, size, NULL discernment and collection (C30_imported)"
  },
  {
   "property": "C31",
   "status": "partial",
   "theorems": [
    "Fptu.Props.C31_forward_partial",
    "Fptu.Props.C31_no_schema_partial",
    "Fptu.Props.C31_backward_partial",
    "Fptu.Props.C31_compare",
    "Fptu.Props.C31_loose",
    "Fptu.Props.C31_holes_refuted",
    "Fptu.Props.C31_begin_refuted",
    "Fptu.Props.C31_backward_refuted",
    "Fptu.Props.C31_postfix_refuted",
    "Fptu.Props.C31_index_refuted"
   ],
   "note": "every schema (without opaque structures) with a field at offset 0 and every tuple, forwards; backwards for preplaced areas under 16384 bytes; holes of the index are visited as fields, other schemas, postfix operators and it[n] refuted"
  },
  {
   "property": "C32",
   "status": "proved",
   "theorems": [
    "Fptu.Props.C32_collection",
    "Fptu.Props.C32_insert_partial",
    "Fptu.Props.C32_erase"
   ],
   "note": "every index content and every collection token (C32_collection, unrestricted); C32_insert_partial has the restrictions of insertion (C10)"
  },
  {
   "property": "C33",
   "status": "partial",
   "theorems": [
    "Fptu.Props.C33_shift_partial",
    "Fptu.Props.C33_grow_partial",
    "Fptu.Props.C33_content_partial",
    "Fptu.Props.C33_failed",
    "Fptu.Props.C33_loop_partial",
    "Fptu.Props.C33_set_partial",
    "Fptu.Props.C33_set_completes_partial",
    "Fptu.Props.C33_insert_completes_partial",
    "Fptu.Props.C33_preplaced_completes_partial",
    "Fptu.Props.C33_junk_refuted",
    "Fptu.Props.C33_drop_refuted",
    "Fptu.Props.C33_realloc_refuted",
    "Fptu.Props.C33_reset_refuted",
    "Fptu.Props.C33_preplaced_refuted",
    "Fptu.Props.C33_overlap_refuted"
   ],
   "note": "a growth keeps all fields and yields the space asked for (C33_shift_partial, C33_grow_partial, C33_content_partial); failed growth keeps the fields and tuple_overflow is thrown exactly beyond the limit (C33_failed); the retry loop does what the modification does, never leaks insufficient_space, and ends within three attempts if the content and the new value have at most 57343 units and the junk and old values of the field at most 2047, for tuples with and without preplaced fields, including assignments of preplaced text (C33_preplaced_completes_partial); with preplaced fields the sizes are smaller because of the defect C33_preplaced_refuted. Six defects of the growth are refuted with witnesses."
  },
  {
   "property": "C34",
   "status": "partial",
   "theorems": [
    "Fptu.Props.C34_modes",
    "Fptu.Props.C34_weak",
    "Fptu.Props.C34_load",
    "Fptu.Props.C34_load_partial",
    "Fptu.Props.C34_clone_explicit",
    "Fptu.Props.C34_clone_default_refuted",
    "Fptu.Props.C34_clone_default_repaired",
    "Fptu.Props.C34_clone_partial",
    "Fptu.Props.C34_clone_holes_refuted",
    "Fptu.Props.C34_to_rw_partial",
    "Fptu.Props.C34_clone_rw_partial",
    "Fptu.Props.C34_take_weak_refuted",
    "Fptu.Props.C34_move_to_ro_partial",
    "Fptu.Props.C34_managed_partial",
    "Fptu.Props.C34_clone_managed_partial",
    "Fptu.Props.C34_clone_managed_refuted",
    "Fptu.Props.C34_take_clone_partial"
   ],
   "note": "explicit modes, weak handles and loading of external data validate exactly as asked (C34_modes, C34_weak, C34_load, C34_clone_explicit); copies and clones keep the fields (C34_load_partial, C34_clone_partial, C34_to_rw_partial, C34_clone_rw_partial, C34_move_to_ro_partial, C34_managed_partial, C34_clone_managed_partial, C34_take_clone_partial). Refuted: clones of managed handles for another schema are not checked against it, and into another kind of buffer lose the schema; the default of tuple_ro_managed::clone is inverted, unvalidated clones forget the holes, take_weak and take_managed_clone optimize exactly when told not to."
  },
  {
   "property": "C35",
   "status": "proved",
   "theorems": [
    "Fptu.Props.C35_pollute_frame",
    "Fptu.Props.C35_pollute_twice",
    "Fptu.Props.C35_pollute_effect",
    "Fptu.Props.C35_is_zeroed",
    "Fptu.Props.C35_accesses"
   ],
   "note": "is_zeroed answers false for an empty range; stated so in the theorem"
  },
  {
   "property": "C36",
   "status": "partial",
   "theorems": [
    "Fptu.Props.C36_first",
    "Fptu.Props.C36_next",
    "Fptu.Props.C36_count",
    "Fptu.Props.C36_count_ex",
    "Fptu.Props.C36_erase",
    "Fptu.Props.C36_erase_tuple_partial",
    "Fptu.Props.C36_erase_tuple_type_partial",
    "Fptu.Props.C36_erase_tuple_column"
   ],
   "note": "columns up to 2047; erase rejects larger ones; fptu_erase on whole tuples: filters erase all matching fields, a single type erases only the first one; missing for erase: junk and erased values of more than 2047 units, where an assertion of the allocator may fail (C36_erase_tuple_partial, C36_erase_tuple_type_partial)"
  },
  {
   "property": "C37",
   "status": "proved",
   "theorems": [
    "Fptu.Props.C37_cmp_binary_lex",
    "Fptu.Props.C37_cmp_binary_order"
   ],
   "note": ""
  },
  {
   "property": "C38",
   "status": "partial",
   "theorems": [
    "Fptu.Props.C38_iovec_nested",
    "Fptu.Props.C38_iovec_property",
    "Fptu.Props.C38_iovec_stretchy_refuted",
    "Fptu.Props.C38_iovec_fixed_refuted",
    "Fptu.Props.C38_upsert_nested_refuted",
    "Fptu.Props.C38_nested",
    "Fptu.Props.C38_nested_read_partial"
   ],
   "note": "nested tuples: with the right token every function stores what it gets (C38_nested, C38_nested_read_partial), fptu_upsert_nested itself never stores anything (refuted for all arguments). fptu_field_as_iovec: exact for nested tuples, with its header for properties; refuted for all other types."
  },
  {
   "property": "C39",
   "status": "partial",
   "theorems": [
    "Fptu.Props.C39_float",
    "Fptu.Props.C39_complete",
    "Fptu.Props.C39_time_refuted",
    "Fptu.Props.C39_sizes",
    "Fptu.Props.C39_masks",
    "Fptu.Props.C39_convertible_partial",
    "Fptu.Props.C39_convertible_refuted"
   ],
   "note": "sizes and masks for all genera; conversions of the table between numbers are lossless except i8 to unsigned types (refuted) and 64-bit times to 32-bit ones (refuted)"
  },
  {
   "property": "C40",
   "status": "partial",
   "theorems": [
    "Fptu.Props.C40_account",
    "Fptu.Props.C40_empty",
    "Fptu.Props.C40_netto_partial",
    "Fptu.Props.C40_netto_refuted",
    "Fptu.Props.C40_payload"
   ],
   "note": "accounting of brutto size, loose count, capacity for every reachable tuple; netto size subtracts units from bytes (C40_netto_refuted)"
  },
  {
   "property": "C41",
   "status": "partial",
   "theorems": [
    "Fptu.Props.C41_space",
    "Fptu.Props.C41_alloc",
    "Fptu.Props.C41_clear",
    "Fptu.Props.C41_clear_refuted",
    "Fptu.Props.C41_create_partial",
    "Fptu.Props.C41_limits",
    "Fptu.Props.C41_capped_refuted",
    "Fptu.Props.C41_rounding_refuted",
    "Fptu.Props.C41_reset",
    "Fptu.Props.C41_reset_refuted",
    "Fptu.Props.C41_estimate_enough"
   ],
   "note": "creation within limits succeeds and the promised space can be used; requests above 65534 units in total and rounding of the preplaced area lose space (refuted); a tuple for no items cannot be reset (refuted); fptu_alloc/fptu_space/fptu_clear are the same functions (C41_alloc, C41_space, C41_clear)"
  },
  {
   "property": "C42",
   "status": "proved",
   "theorems": [
    "Fptu.Props.C42_log2size"
   ],
   "note": ""
  },
  {
   "property": "C44",
   "status": "partial",
   "theorems": [
    "Fptu.Props.C44_set_real_partial",
    "Fptu.Props.C44_not_finite"
   ],
   "note": "all finite, infinite and NaN arguments for all integer fields (floating-point fields: C57); the fraction is dropped; histories without allocator defects"
  },
  {
   "property": "C45",
   "status": "partial",
   "theorems": [
    "Fptu.Props.C45_bound_partial",
    "Fptu.Props.C45_refuted",
    "Fptu.Props.C45_stretchy_refuted"
   ],
   "note": "the estimate is refuted in general; the excess over it is bounded by 7 bytes and one unit per field of variable size"
  },
  {
   "property": "C46",
   "status": "partial",
   "theorems": [
    "Fptu.Props.C46_upsert_partial",
    "Fptu.Props.C46_defined_partial",
    "Fptu.Props.C46_upsert_repaired",
    "Fptu.Props.C46_update",
    "Fptu.Props.C46_insert_partial",
    "Fptu.Props.C46_insert_any_partial",
    "Fptu.Props.C46_insert_binary_refuted",
    "Fptu.Props.C46_upsert_binary_partial",
    "Fptu.Props.C46_upsert_int_partial",
    "Fptu.Props.C46_upsert_null_partial",
    "Fptu.Props.C46_int32_refuted",
    "Fptu.Props.C46_get_partial",
    "Fptu.Props.C46_is_empty_partial",
    "Fptu.Props.C46_is_empty_refuted"
   ],
   "note": "all types, columns and values, all error codes; for the code as it is restricted to steps in which the defects of gear.cxx do not show. Refuted: fptu_insert_96..256 of zeros store nothing, 64-bit arguments of fptu_upsert_int32/uint32 are cut. Upserts are defined when the junk and the old values have at most 2047 units (C46_defined_partial). fptu_is_empty_ro agrees with fptu_is_empty_rw and with the absence of fields (C46_is_empty_partial), except after the leak of C14 (C46_is_empty_refuted)."
  },
  {
   "property": "C47",
   "status": "partial",
   "theorems": [
    "Fptu.Props.C47_fetch_ex_partial",
    "Fptu.Props.C47_fetch_partial",
    "Fptu.Props.C47_fetch_refuted",
    "Fptu.Props.C47_fetch_empty",
    "Fptu.Props.C47_buffer_size_refuted"
   ],
   "note": "sizes within CopyFits (see C19). Refuted: fptu_fetch ignores holes; fptu_get_buffer_size ends the process for large requests"
  },
  {
   "property": "C48",
   "status": "partial",
   "theorems": [
    "Fptu.Props.C48_cstr_partial",
    "Fptu.Props.C48_empty_refuted",
    "Fptu.Props.C48_nul_refuted",
    "Fptu.Props.C48_later_partial",
    "Fptu.Props.C48_later_refuted",
    "Fptu.Props.C48_history_partial"
   ],
   "note": "every text field of every reachable tuple, if the text is not empty and has no zero byte, seen right after the call; later calls keep it unless both texts fill their units. Refuted: empty text gives NULL, zero bytes cut, shared holder"
  },
  {
   "property": "C49",
   "status": "proved",
   "theorems": [
    "Fptu.Props.C49_roundtrip",
    "Fptu.Props.C49_distinct",
    "Fptu.Props.C49_fast_integers",
    "Fptu.Props.C49_special"
   ],
   "note": "all bit patterns, both modes; 'reads back' is stated without a reader: strictly nearest to the printed double among all doubles and ±2^1024. The compile-time variant ERTHINK_D2A_AVOID_MUL is not modelled"
  },
  {
   "property": "C50",
   "status": "partial",
   "theorems": [
    "Fptu.Props.C50_shodan_partial",
    "Fptu.Props.C50_digit_refuted",
    "Fptu.Props.C50_threshold_refuted"
   ],
   "note": "all finite doubles, thresholds from -14 to 14. Refuted: no digit after the point for one-digit numbers in exponential form (1.e+22); thresholds 15 and -15 use characters never written or outside of the buffer"
  },
  {
   "property": "C51",
   "status": "partial",
   "theorems": [
    "Fptu.Props.C51_fraction_partial",
    "Fptu.Props.C51_fixedpoint_refuted"
   ],
   "note": "all fractions, for the conversion with the rounding term computed only where used. Refuted for the code: shift by a negative amount for every fraction"
  },
  {
   "property": "C52",
   "status": "partial",
   "theorems": [
    "Fptu.Props.C52_half_partial",
    "Fptu.Props.C52_nearest_refuted",
    "Fptu.Props.C52_shortest_refuted"
   ],
   "note": "at most 17 digits and closer than half of the way to any other double. Refuted: nearest (36282152733170464e-91) and shortest (0.001 is 10e-4)"
  },
  {
   "property": "C53",
   "status": "proved",
   "theorems": [
    "Fptu.Props.C53_setup",
    "Fptu.Props.C53_rounds",
    "Fptu.Props.C53_dead",
    "Fptu.Props.C53_labels"
   ],
   "note": "all clock values and signatures; little-endian layout"
  },
  {
   "property": "C54",
   "status": "partial",
   "theorems": [
    "Fptu.Props.C54_byte_partial",
    "Fptu.Props.C54_signature_partial",
    "Fptu.Props.C54_damage_refuted"
   ],
   "note": "one byte of the mark or of the signature: always detected; several bytes refuted"
  },
  {
   "property": "C55",
   "status": "proved",
   "theorems": [
    "Fptu.Props.C55_life",
    "Fptu.Props.C55_damage",
    "Fptu.Props.C55_items"
   ],
   "note": "all sizes, contents and clock values; single owner; the mark after the payload is probed by check(), in release builds not by detach()"
  },
  {
   "property": "C56",
   "status": "partial",
   "theorems": [
    "Fptu.Props.C56_disjoint_partial",
    "Fptu.Props.C56_lifo_partial",
    "Fptu.Props.C56_order_refuted",
    "Fptu.Props.C56_room_partial",
    "Fptu.Props.C56_huge_refuted"
   ],
   "note": "all sequences without requests that wrap around; return to empty for stack order; other orders and huge requests refuted"
  },
  {
   "property": "C57",
   "status": "partial",
   "theorems": [
    "Fptu.Props.C57_set_float_partial",
    "Fptu.Props.C57_insert_float_partial",
    "Fptu.Props.C57_set_number_double_partial",
    "Fptu.Props.C57_insert_number_double_partial",
    "Fptu.Props.C57_set_number_float_partial",
    "Fptu.Props.C57_negative_zero_refuted"
   ],
   "note": "all bit patterns; histories without allocator defects; the sign of zero is lost in loose fields without NULLs (refuted); decimal fields are a stub in the code and not modelled"
  },
  {
   "property": "C58",
   "status": "partial",
   "theorems": [
    "Fptu.Props.C58_set_partial",
    "Fptu.Props.C58_insert_partial",
    "Fptu.Props.C58_seconds_refuted",
    "Fptu.Props.C58_insert_refuted"
   ],
   "note": "64-bit times exactly; 32-bit times keep whole seconds only (refuted beyond); insert_datetime refuses collections of 32-bit times (refuted); histories without allocator defects"
  },
  {
   "property": "C59",
   "status": "partial",
   "theorems": [
    "Fptu.Props.C59_set_bool_partial",
    "Fptu.Props.C59_insert_bool_partial",
    "Fptu.Props.C59_set_enum_partial"
   ],
   "note": "all values; histories without allocator defects"
  },
  {
   "property": "C60",
   "status": "partial",
   "theorems": [
    "Fptu.Props.C60_is_zero",
    "Fptu.Props.C60_is_allones",
    "Fptu.Props.C60_is_power2",
    "Fptu.Props.C60_floor",
    "Fptu.Props.C60_ceil_partial",
    "Fptu.Props.C60_ceil_refuted"
   ],
   "note": "all values and sizes; rounding up wraps around near 2^64 (refuted there)"
  },
  {
   "property": "C61",
   "status": "proved",
   "theorems": [
    "Fptu.Props.C61_hexadecimal",
    "Fptu.Props.C61_injective",
    "Fptu.Props.C61_sorted"
   ],
   "note": "all data"
  },
  {
   "property": "C62",
   "status": "partial",
   "theorems": [
    "Fptu.Props.C62_ipv4",
    "Fptu.Props.C62_empty",
    "Fptu.Props.C62_store_partial",
    "Fptu.Props.C62_overread_refuted"
   ],
   "note": "writing an ipnet value reads 3 bytes beyond the argument (refuted)"
  },
  {
   "property": "C63",
   "status": "partial",
   "theorems": [
    "Fptu.Props.C63_field_partial",
    "Fptu.Props.C63_compare_partial",
    "Fptu.Props.C63_opaque",
    "Fptu.Props.C63_column_refuted",
    "Fptu.Props.C63_error_refuted"
   ],
   "note": "columns above 2047 reach fields of another type, fptu_get_cstr does not report success (both refuted); histories without allocator defects"
  },
  {
   "property": "C64",
   "status": "partial",
   "theorems": [
    "Fptu.Props.C64_tag_partial",
    "Fptu.Props.C64_tag_refuted",
    "Fptu.Props.C64_field",
    "Fptu.Props.C64_name_partial",
    "Fptu.Props.C64_name_refuted"
   ],
   "note": "the table of names (C64_name_partial); columns above 2047 spill into the type, four types have no name (both refuted)"
  },
  {
   "property": "C65",
   "status": "partial",
   "theorems": [
    "Fptu.Props.C65_payload_partial",
    "Fptu.Props.C65_equal_partial",
    "Fptu.Props.C65_no_traces_partial",
    "Fptu.Props.C65_traces_refuted"
   ],
   "note": "bytes of every variable-size value of every reachable tuple; no traces when no junk is reported; refuted for tuples with junk: erased values are in the serialized form. Missing: histories of the unrepaired code in which a defect of gear.cxx shows"
  },
  {
   "property": "C66",
   "status": "partial",
   "theorems": [
    "Fptu.Props.C66_script_partial",
    "Fptu.Props.C66_script_repaired",
    "Fptu.Props.C66_stale_refuted"
   ],
   "note": "all interleavings with operations on other fields; refuted when the field itself is changed by token meanwhile (stored twice; another field overwritten). Missing: steps of the unrepaired code in which a defect of gear.cxx shows"
  },
  {
   "property": "C67",
   "status": "partial",
   "theorems": [
    "Fptu.Props.C67_assign_partial",
    "Fptu.Props.C67_erase_defined_partial",
    "Fptu.Props.C67_erase_partial",
    "Fptu.Props.C67_kept_partial",
    "Fptu.Props.C67_walk",
    "Fptu.Props.C67_update_partial",
    "Fptu.Props.C67_update_refuted",
    "Fptu.Props.C67_postfix_refuted"
   ],
   "note": "assignment and erasure through iterators, the loop over a collection; refuted: it++ does not advance, the loop stops when a value is dropped. Missing: binary blobs (C05), stretchy values where the defect of gear.cxx:591 shows"
  },
  {
   "property": "C68",
   "status": "partial",
   "theorems": [
    "Fptu.Props.C68_book_partial",
    "Fptu.Props.C68_book_repaired",
    "Fptu.Props.C68_reads",
    "Fptu.Props.C68_last_set_partial",
    "Fptu.Props.C68_same_reads",
    "Fptu.Props.C68_last_preplaced_partial",
    "Fptu.Props.C68_story_partial",
    "Fptu.Props.C68_story_preplaced_partial",
    "Fptu.Props.C68_story_reads_partial",
    "Fptu.Props.C68_two_stories_partial"
   ],
   "note": "a book of values, written independently of buffers, predicts every tuple; reading by token; preplaced fields; whole lives (Props/Story.lean) with failed operations, growth of the buffer, reservation, transfer through the serialized form, sorting and reset. Without restrictions for the repaired allocator. Missing: steps of the unrepaired code in which a defect of gear.cxx shows; fields used both as a collection and not; values of binary blobs read with padding (C05)"
  },
  {
   "property": "C69",
   "status": "partial",
   "theorems": [
    "Fptu.Props.C69_new_partial",
    "Fptu.Props.C69_padding_refuted",
    "Fptu.Props.C69_step_partial",
    "Fptu.Props.C69_step_repaired",
    "Fptu.Props.C69_compact",
    "Fptu.Props.C69_life_partial",
    "Fptu.Props.C69_life_repaired",
    "Fptu.Props.C69_image_partial",
    "Fptu.Props.C69_image_repaired",
    "Fptu.Props.C69_read_partial",
    "Fptu.Props.C69_overrun_refuted",
    "Fptu.Props.C69_read_refuted",
    "Fptu.Props.C69_sort",
    "Fptu.Props.C69_grow",
    "Fptu.Props.C69_managed_partial",
    "Fptu.Props.C69_grown_repaired"
   ],
   "note": "two-run (noninterference) proof for the allocator, all setters, insertion, erasure, compaction, sorting (C69_sort), growth into a new buffer (C69_grow), modifications with automatic growth (C69_managed_partial), whole lives with and without growth, the serialized image and the getters. Without restrictions for the repaired allocator (C69_grown_repaired for lives with growth; the reallocating variant for old buffers is excluded, it is refuted in C33); tokens of preplaced fields of variable length are assumed aligned, as schemas make them. Refuted for the code: five operations write three units behind the buffer (consequence of gear.cxx:300), and the getter of binary blobs reads behind it (C05); a new tuple of a schema whose preplaced fields do not end at a multiple of four bytes carries up to three bytes of uninitialised memory into its serialized form (C69_padding_refuted)"
  },
  {
   "property": "C70",
   "status": "partial",
   "theorems": [
    "Fptu.Props.C70_new_partial",
    "Fptu.Props.C70_reset_partial",
    "Fptu.Props.C70_reset_ok",
    "Fptu.Props.C70_stays_partial",
    "Fptu.Props.C70_stretchy_initial_refuted"
   ],
   "note": "end-to-end theorem from schema definitions over the byte-exact construction to the getters, for new tuples, reset tuples and after histories that spare the field. Missing: opaque structures, initial values of fields of variable size (refuted: the definition is accepted and the field then reads garbage), imported fields of variable size at odd offsets; histories in which no defect of gear.cxx shows"
  },
  {
   "property": "C71",
   "status": "partial",
   "theorems": [
    "Fptu.Props.C71_present",
    "Fptu.Props.C71_history_partial",
    "Fptu.Props.C71_get",
    "Fptu.Props.C71_erase",
    "Fptu.Props.C71_update",
    "Fptu.Props.C71_same",
    "Fptu.Props.C71_serialized_partial",
    "Fptu.Props.C71_preplaced_refuted",
    "Fptu.Props.C71_preplaced_stretchy_refuted"
   ],
   "note": "Loose fields and collections: proved for every state (C71_present), every history (C71_history_partial, restricted as C68), agreement with getters, erase, updates and the serialized form. Preplaced fields: refuted for every tuple, the answer is inverted (getter.h:212-217)."
  },
  {
   "property": "C72",
   "status": "proved",
   "theorems": [
    "Fptu.Props.C72_memcmp",
    "Fptu.Props.C72_strlen",
    "Fptu.Props.C72_strnlen",
    "Fptu.Props.C72_strncmp",
    "Fptu.Props.C72_strcmp"
   ],
   "note": "functions of misc.cxx compiled on Elbrus with an old glibc only; memory is a total function of addresses, little-endian; loops without a bound of their own take a number of rounds"
  },
  {
   "property": "C73",
   "status": "partial",
   "theorems": [
    "Fptu.Props.C73_clock_partial",
    "Fptu.Props.C73_clock_refuted",
    "Fptu.Props.C73_clock_bound",
    "Fptu.Props.C73_clock_economy",
    "Fptu.Props.C73_no_coarse"
   ],
   "note": "false for -31 … -1: the number of fractions is compared with nanoseconds (C73_clock_refuted); proved for all other arguments, with a bound of 4.3 for these (C73_clock_bound); Linux branch, LP64"
  },
  {
   "property": "C74",
   "status": "partial",
   "theorems": [
    "Fptu.Props.C74_queries_partial",
    "Fptu.Props.C74_rdrand_refuted",
    "Fptu.Props.C74_choice_partial",
    "Fptu.Props.C74_choice_refuted",
    "Fptu.Props.C74_early"
   ],
   "note": "Proved for all queries but RDRAND, and for the choice on systems that save the wide registers. Refuted: has_RDRAND looks at bit 31 (hypervisor) instead of 30; the choice does not look at OSXSAVE and XCR0. Resolution before the constructor of the global variable is proved to be safe."
  },
  {
   "property": "C75",
   "status": "partial",
   "theorems": [
    "Fptu.Props.C75_order",
    "Fptu.Props.C75_equality",
    "Fptu.Props.C75_trichotomy_refuted",
    "Fptu.Props.C75_trichotomy_partial",
    "Fptu.Props.C75_casts",
    "Fptu.Props.C75_cast_type",
    "Fptu.Props.C75_default_refuted",
    "Fptu.Props.C75_valid",
    "Fptu.Props.C75_hole_refuted",
    "Fptu.Props.C75_asserted_partial",
    "Fptu.Props.C75_native",
    "Fptu.Props.C75_kinds"
   ],
   "note": "comparison, casts, validity, static tokens and kinds. Refuted: tokens of one field with different modes are mutually <= but not == (C75_trichotomy_refuted), the invalid default token passes for a preplaced one (C75_default_refuted), a hole passes the validation of preplaced tokens and violates an assertion (C75_hole_refuted)"
  },
  {
   "property": "C76",
   "status": "partial",
   "theorems": [
    "Fptu.Props.C76_shrink_partial",
    "Fptu.Props.C76_shrink_repaired",
    "Fptu.Props.C76_cond_shrink_partial",
    "Fptu.Props.C76_check",
    "Fptu.Props.C76_take_noshrink_partial",
    "Fptu.Props.C76_take_partial",
    "Fptu.Props.C76_null_refuted",
    "Fptu.Props.C76_many_refuted"
   ],
   "note": "fptu_shrink, fptu_cond_shrink, fptu_take, fptu_take_noshrink, fptu_check_ro_ex (C76_check: when the check that does not allow holes accepts), fptu_junkspace. Missing for the code as it is: 256 or more fields (C76_many_refuted: a value is lost) and null values of stretchy types (C76_null_refuted); the largest tuple (C19)"
  },
  {
   "property": "C77",
   "status": "partial",
   "theorems": [
    "Fptu.Props.C77_counts",
    "Fptu.Props.C77_no_ub",
    "Fptu.Props.C77_no_leak",
    "Fptu.Props.C77_failed",
    "Fptu.Props.C77_exclusive_partial",
    "Fptu.Props.C77_readers_partial",
    "Fptu.Props.C77_copy",
    "Fptu.Props.C77_move_partial",
    "Fptu.Props.C77_self_move",
    "Fptu.Props.C77_rw_move",
    "Fptu.Props.C77_to_rw",
    "Fptu.Props.C77_in_place",
    "Fptu.Props.C77_hollow_refuted",
    "Fptu.Props.C77_absent_refuted",
    "Fptu.Props.C77_plain",
    "Fptu.Props.C77_take",
    "Fptu.Props.C77_nested_partial",
    "Fptu.Props.C77_nested_refuted",
    "Fptu.Props.C77_self_move_refuted"
   ],
   "note": "One thread; the contents of the tuples are arbitrary for the ownership theorems and real tuples for C77_take, C77_nested_partial. Missing, because false in the code: readers of a nested tuple obtained from a modifiable one see later changes (C77_nested_refuted, hence C77_exclusive_partial and C77_readers_partial exclude that call); a read-only handle moved to itself is emptied (C77_self_move_refuted, hence C77_move_partial); get_nested_managed of an absent nested tuple throws (C77_absent_refuted); tuple_rw_managed from a hollow handle ends the process (C77_hollow_refuted)"
  },
  {
   "property": "C78",
   "status": "proved",
   "theorems": [
    "Fptu.Props.C78_reads_back",
    "Fptu.Props.C78_width",
    "Fptu.Props.C78_sorted",
    "Fptu.Props.C78_sorted_strictly",
    "Fptu.Props.C78_nanoseconds_exact",
    "Fptu.Props.C78_nanoseconds_differ",
    "Fptu.Props.C78_type_names",
    "Fptu.Props.C78_lge_names"
   ],
   "note": "snprintf and gmtime_r are modelled by their standards (round to nearest, ties to even; Gregorian calendar, 64-bit time_t); the reader in the theorem sums the lengths of years and months by itself"
  },
  {
   "property": "C79",
   "status": "partial",
   "theorems": [
    "Fptu.Props.C79_last_partial",
    "Fptu.Props.C79_again_partial",
    "Fptu.Props.C79_undo_partial",
    "Fptu.Props.C79_inplace",
    "Fptu.Props.C79_shorter_partial",
    "Fptu.Props.C79_shorter_refuted"
   ],
   "note": "last_partial/again_partial/undo_partial exclude states in which a defect of gear.cxx shows (C12) and values that erase the field; C79_inplace needs no such exclusion; shortening always succeeds is refuted (C79_shorter_refuted: full index), C79_shorter_partial gives the only failure when the junk and the old value have up to 2047 units"
  },
  {
   "property": "C80",
   "status": "partial",
   "theorems": [
    "Fptu.Props.C80_erase_collection",
    "Fptu.Props.C80_erase_single",
    "Fptu.Props.C80_compactify",
    "Fptu.Props.C80_sort_repaired",
    "Fptu.Props.C80_optimize_compact",
    "Fptu.Props.C80_optimize_repaired",
    "Fptu.Props.C80_order_partial"
   ],
   "note": "sequences in which a defect of gear.cxx shows (C12) are excluded from order_partial; sorting and optimize with sorting are proved for the repaired sort (C18_sort_refuted loses values in the code); compaction and erasure hold for the code as it is"
  },
  {
   "property": "C81",
   "status": "partial",
   "theorems": [
    "Fptu.Props.C81_insert_partial",
    "Fptu.Props.C81_kept_partial",
    "Fptu.Props.C81_erase",
    "Fptu.Props.C81_assign_partial",
    "Fptu.Props.C81_loop",
    "Fptu.Props.C81_compactify",
    "Fptu.Props.C81_serialized_partial",
    "Fptu.Props.C81_first",
    "Fptu.Props.C81_history_partial",
    "Fptu.Props.C81_newest_refuted",
    "Fptu.Props.C81_sort_refuted"
   ],
   "note": "Proved about the model of the code as it is: order kept by insertion, assignment and erasing through an iterator, operations on other fields, compaction and serialization; the newest value is first when the index has no holes at the insertions; whole histories. Refuted in full: an insertion into an index with a hole may land between older values (C81_newest_refuted), and std::sort of the index need not be stable (C81_sort_refuted). Partial also because the steps in which a defect of gear.cxx shows are excluded."
  },
  {
   "property": "C43",
   "status": "partial",
   "theorems": [
    "Fptu.Props.C43_only",
    "Fptu.Props.C43_behind",
    "Fptu.Props.C43_reserved_partial",
    "Fptu.Props.C43_view_refuted",
    "Fptu.Props.C43_ascii_refuted",
    "Fptu.Props.C43_words_refuted"
   ],
   "note": "right for seven-bit text followed by a zero byte (C43_reserved_partial), never wrong when it says yes (C43_only); the length is not respected, bytes above 127 read behind a table, four reserved words are unknown (refuted)"
  },
  {
   "property": "C82",
   "status": "partial",
   "theorems": [
    "Fptu.Props.C82_managed",
    "Fptu.Props.C82_copy",
    "Fptu.Props.C82_move",
    "Fptu.Props.C82_modifiable_partial",
    "Fptu.Props.C82_exclusive_partial",
    "Fptu.Props.C82_same_buffer",
    "Fptu.Props.C82_taken",
    "Fptu.Props.C82_changed",
    "Fptu.Props.C82_stale_refuted",
    "Fptu.Props.C82_empty_refuted"
   ],
   "note": "Managed handles: equal exactly if the same in every respect; copies, moves. Modifiable handles and a modifiable against a managed one: in programs without get_nested_managed of a modifiable tuple (as in C77); without that restriction equality still means the same buffer with two owners. Weak handles: equal when taken, afterwards exactly as long as the index begins at the same place. Refuted: equality does not mean the weak handle is up to date; comparing a modifiable handle that holds nothing, or comparing with a hollow read-only one, is undefined behaviour."
  },
  {
   "property": "C83",
   "status": "partial",
   "theorems": [
    "Fptu.Props.C83_from_std",
    "Fptu.Props.C83_bytes",
    "Fptu.Props.C83_from_cstr",
    "Fptu.Props.C83_cstr_refuted",
    "Fptu.Props.C83_array_partial",
    "Fptu.Props.C83_array_refuted",
    "Fptu.Props.C83_equal",
    "Fptu.Props.C83_nil_refuted",
    "Fptu.Props.C83_order_partial",
    "Fptu.Props.C83_order_refuted"
   ],
   "note": "Conversions, iteration and equality proved for all views; order among texts of equal length (C83_order_partial). Refuted: nil is equal to no string although it converts to the empty one, and is not nil after a round trip through std::string_view (C83_nil_refuted); texts of different length are ordered by length, unlike strings (C83_order_refuted); zero bytes cut C strings (C83_cstr_refuted); an array of characters without a zero byte, assigned to a field, is read beyond its end (C83_array_refuted)."
  },
  {
   "property": "C84",
   "status": "partial",
   "theorems": [
    "Fptu.Props.C84_loose",
    "Fptu.Props.C84_preplaced",
    "Fptu.Props.C84_equal",
    "Fptu.Props.C84_search",
    "Fptu.Props.C84_token_partial",
    "Fptu.Props.C84_token_refuted",
    "Fptu.Props.C84_holes_refuted"
   ],
   "note": "Loose and preplaced fields, comparing with tokens, searching by a loop, and the token of the schema are proved for every reachable tuple and schema. Fails for units of the index that are holes (C84_holes_refuted) and, for the token, for schemas with four or more loose fields (C84_token_refuted)."
  },
  {
   "property": "C85",
   "status": "partial",
   "theorems": [
    "Fptu.Props.C85_single_release",
    "Fptu.Props.C85_released",
    "Fptu.Props.C85_release_partial",
    "Fptu.Props.C85_release_acquire",
    "Fptu.Props.C85_alterable",
    "Fptu.Props.C85_release_refuted",
    "Fptu.Props.C85_alterable_refuted"
   ],
   "note": "Count and exclusive ownership proved for every schedule with outdated loads. The order of accesses is refuted: ref_counter is a plain volatile integer, the test for one in detach and is_alterable has no acquire barrier, so the last owner may release or alter the buffer while an access of a former owner is not ordered before it. Proved when the decision came from the atomic decrement, and for all releases if loads are acquire operations (x86). The counter is taken not to wrap (C26 covers that)."
  },
  {
   "property": "C86",
   "status": "partial",
   "theorems": [
    "Fptu.Props.C86_extent",
    "Fptu.Props.C86_aligned_loose_partial",
    "Fptu.Props.C86_aligned_preplaced_partial",
    "Fptu.Props.C86_aligned_refuted",
    "Fptu.Props.C86_aligned_preplaced_refuted",
    "Fptu.Props.C86_alive_partial",
    "Fptu.Props.C86_alive_refuted"
   ],
   "note": "Extent: proved. Alignment: proved for the types with an alignment of at most 4; refuted for 64-bit types, IP addresses and get_int128/get_uint128. Lifetime: refuted for get_int128 and get_uint128 of the handles, proved for all other getters."
  },
  {
   "property": "C87",
   "status": "partial",
   "theorems": [
    "Fptu.Props.C87_inside",
    "Fptu.Props.C87_unchanged",
    "Fptu.Props.C87_pages",
    "Fptu.Props.C87_aligned_partial",
    "Fptu.Props.C87_pages_refuted",
    "Fptu.Props.C87_prefault",
    "Fptu.Props.C87_prefault_partial"
   ],
   "note": "Bounds, termination, absence of changes under interference and the contract of prefaulting are proved for all inputs. That every page is accessed is refuted for ranges that do not begin at a page (the payload of a buffer does not): C87_pages gives the exact condition, C87_aligned_partial and C87_prefault_partial cover ranges that begin at a page. What the system does with a vector written to /dev/null is not modelled."
  },
  {
   "property": "C88",
   "status": "partial",
   "theorems": [
    "Fptu.Props.C88_swap",
    "Fptu.Props.C88_convert_partial",
    "Fptu.Props.C88_convert_iff",
    "Fptu.Props.C88_macros_refuted",
    "Fptu.Props.C88_mapped_partial",
    "Fptu.Props.C88_swap_arith"
   ],
   "note": "Swapping is proved in full. The conversions are right exactly when the macros __BYTE_ORDER and __LITTLE_ENDIAN describe the machine (C88_convert_iff); the header does not ensure this (C88_macros_refuted). The branches that call compiler built-ins are not modelled."
  },
  {
   "property": "C89",
   "status": "partial",
   "theorems": [
    "Fptu.Props.C89_nearest",
    "Fptu.Props.C89_exact",
    "Fptu.Props.C89_clock",
    "Fptu.Props.C89_monotone",
    "Fptu.Props.C89_fractional",
    "Fptu.Props.C89_exact_refuted",
    "Fptu.Props.C89_whole_partial"
   ],
   "note": "nearest, error bound, monotone, exact iff 53 bits, exact for rounded clock readings; telling moments apart and the whole part are false for moments in full (C89_exact_refuted, C89_whole_partial)"
  },
  {
   "property": "C90",
   "status": "partial",
   "theorems": [
    "Fptu.Props.C90_plain",
    "Fptu.Props.C90_fenced_partial",
    "Fptu.Props.C90_allowed",
    "Fptu.Props.C90_inline_refuted"
   ],
   "note": "false for the inline functions, since remove is declared pure (C90_inline_refuted); holds if it were not (C90_plain) and, as declared, for programs whose removals have their results used and are followed by a call of a function not declared pure (C90_fenced_partial)"
  },
  {
   "property": "C91",
   "status": "partial",
   "theorems": [
    "Fptu.Props.C91_strict",
    "Fptu.Props.C91_finite_partial",
    "Fptu.Props.C91_infinity_integer",
    "Fptu.Props.C91_double",
    "Fptu.Props.C91_infinity_refuted",
    "Fptu.Props.C91_nan_refuted"
   ],
   "note": "finite numbers in every case (C91_finite_partial), infinities for integer fields and everything for double fields in every case; infinities for float fields and NaN for integer fields go wrong when the library is compiled with -ffast-math as its build file does (C91_infinity_refuted, C91_nan_refuted)"
  },
  {
   "property": "C92",
   "status": "partial",
   "theorems": [
    "Fptu.Props.C92_format",
    "Fptu.Props.C92_format_refuted",
    "Fptu.Props.C92_ensure_partial",
    "Fptu.Props.C92_open_partial",
    "Fptu.Props.C92_reset_refuted",
    "Fptu.Props.C92_handle_reset_partial",
    "Fptu.Props.C92_handle_reset_refuted"
   ],
   "note": "ensure and make_from_buffer for every tuple except those on which validation ends the process (C12_audit_aborts); reset of a valid tuple that it refuses formats a null pointer (C92_reset_refuted); texts of 2^31 characters and more are not formatted (C92_format_refuted)"
  },
  {
   "property": "C93",
   "status": "partial",
   "theorems": [
    "Fptu.Props.C93_quiet",
    "Fptu.Props.C93_last_partial",
    "Fptu.Props.C93_threads",
    "Fptu.Props.C93_silent_refuted",
    "Fptu.Props.C93_sizing",
    "Fptu.Props.C93_message_partial",
    "Fptu.Props.C93_message_refuted",
    "Fptu.Props.C93_upsert",
    "Fptu.Props.C93_kinds",
    "Fptu.Props.C93_text",
    "Fptu.Props.C93_text_refuted"
   ],
   "note": "nine kinds of failure do not set the last error, message pointers die with the next failure, FPTU_ENOMEM has the text of an invalid code (all refuted); memory for the message is available, threads do not end, outcomes of the tuple functions are inputs"
  },
  {
   "property": "C94",
   "status": "partial",
   "theorems": [
    "Fptu.Props.C94_create_partial",
    "Fptu.Props.C94_extreme",
    "Fptu.Props.C94_extreme_refuted",
    "Fptu.Props.C94_estimate",
    "Fptu.Props.C94_open_partial",
    "Fptu.Props.C94_open_refuted",
    "Fptu.Props.C94_open_witness_refuted"
   ],
   "note": "Proved: at every scale but the largest tuples can be made and hold what the scale promises; the largest scale without a preplaced area; the estimates; opening when everything fits together. Refuted: the largest scale with any preplaced field, and opening of larger tuples at the largest scale."
  },
  {
   "property": "C95",
   "status": "partial",
   "theorems": [
    "Fptu.Props.C95_settings",
    "Fptu.Props.C95_lifetime_partial",
    "Fptu.Props.C95_lifetime_refuted",
    "Fptu.Props.C95_walk_partial",
    "Fptu.Props.C95_walk_refuted"
   ],
   "note": "Proved: every tuple has and keeps the settings of the moment it was made; no destroyed schema is used when the settings are made before the first tuple. Refuted: a later setup destroys the schema of existing tuples. The loop over the fields of a read-only tuple without naming a schema stays inside the tuple if it has room for the default schema (C95_walk_partial); otherwise it visits places outside of the tuple (C95_walk_refuted)."
  },
  {
   "property": "C96",
   "status": "partial",
   "theorems": [
    "Fptu.Props.C96_request",
    "Fptu.Props.C96_enough",
    "Fptu.Props.C96_shortage_partial",
    "Fptu.Props.C96_shortage_rejected",
    "Fptu.Props.C96_shortage_refuted"
   ],
   "note": "Proved for all tuples, schemas and heaps: fields keep their values, a later compaction gives the same, no heap is needed for small tuples. False in that the tuple left behind fails the validation (C96_shortage_rejected for every tuple, C96_shortage_refuted a reachable one)."
  }
 ]
}
