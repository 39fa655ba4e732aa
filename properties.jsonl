{"id": "C01", "title": "Field token encoding is lossless", "statement": "A token built from (genus,id,collection,discernible,saturated) or from (offset,genus,discernible,saturated) with arguments in the documented ranges reports back exactly those arguments, loose and preplaced tokens are never confused, and out-of-range arguments throw instead of producing a token.", "quantifier": "every genus, id, offset and flag combination", "why_tests_cant": "The argument space is 2^32 tags; a packing collision (e.g. offset carrying into the loose marker) shows up only at particular combinations of offset and flags.", "anchors": ["fast_positive/tuples/essentials.h: make_tag, tag_from_offset, tag2genus, tag2id, tag2offset, tag2indysize, is_loose, is_preplaced, is_loose_collection, is_discernible_null, is_saturated", "fast_positive/tuples/token.h: class token"]}
{"id": "C02", "title": "Token identity ignores access flags and is a consistent order", "statement": "Tokens that address the same field compare as 'same', hash equally, and token ordering is a strict weak order whose equivalence is exactly 'same field'; preplaced tokens order by physical offset and before all loose tokens; enforcing NULL/saturation modes never changes which field a token addresses.", "quantifier": "all pairs and triples of 32-bit tags", "why_tests_cant": "Order axioms quantify over triples of 32-bit values.", "anchors": ["fast_positive/tuples/essentials.h: normalize_tag, tag_less, tag_same", "fast_positive/tuples/token.h: token_nonstatic_tag"]}
{"id": "C03", "title": "Field search finds the first matching descriptor on every CPU", "statement": "The field lookup returns the first index entry whose genus+id equals the requested one and 'not found' exactly when there is none, and every search implementation selected by CPU dispatch (portable unrolled, SSE2, AVX, AVX2) returns the same answer as the reference loop without looking at entries outside the index.", "quantifier": "every index length and content, every descriptor, every implementation", "why_tests_cant": "Vectorised loops have a distinct path per length modulo 4/8/16 and per match lane; index length goes to 8191 with arbitrary content, and a test machine runs only one implementation.", "anchors": ["src/scan_portable.cxx: fptu_scan_referential, fptu_scan_unroll", "src/scan_SSE2.cxx", "src/scan_AVX.cxx", "src/scan_AVX2.cxx", "src/scan_ifunc.cxx", "fast_positive/tuples/details/scan.h: lookup, next"]}
{"id": "C04", "title": "Strings of any length are stored and read back intact", "statement": "Storing a string of any admissible length and reading it back yields the same bytes and length; the space estimate equals the space written; the size recomputed from stored data equals the space reserved; strings above the limit throw before anything is written.", "quantifier": "every byte string of every length 0..max, every previous memory content", "why_tests_cant": "Two encodings (tiny/large) with unit padding, lengths up to 262 kB and arbitrary content.", "anchors": ["fast_positive/tuples/details/field.h: stretchy_value_string"]}
{"id": "C05", "title": "Binary blobs of any length are stored and read back intact", "statement": "Storing a varbin of any admissible length and reading it back yields the same bytes and the same length.", "quantifier": "every byte string of every length", "why_tests_cant": "The stored length uses a brutto/tail-bytes split; errors occur only for some residues modulo 4.", "anchors": ["fast_positive/tuples/details/field.h: stretchy_value_varbin"]}
{"id": "C06", "title": "Properties and nested tuples are stored and read back intact", "statement": "Storing a property (8-bit id plus up to 253 bytes) or a nested tuple and reading it back yields the same id, bytes and length; the size recomputed from memory equals the size reserved.", "quantifier": "every property id, every byte string, every well-formed nested tuple", "why_tests_cant": "Domain is all byte strings and all nested images.", "anchors": ["fast_positive/tuples/details/field.h: stretchy_value_property, stretchy_value_tuple"]}
{"id": "C07", "title": "A tuple that passes validation can be read without leaving the buffer", "statement": "If the audit of a serialized tuple succeeds then every descriptor, every preplaced field and every payload (header and body) lies inside the buffer handed over, payloads of distinct fields never overlap, and there are no unaccounted bytes between them.", "quantifier": "every byte buffer of every size (including hostile input), every schema, every hole-policy", "why_tests_cant": "Attacker-controlled input: soundness must hold for every byte buffer.", "anchors": ["src/audit.cxx: audit_tuple, map_insert, check_chunk, check_loose, inline_lite_checkup, tuple_ro::audit"]}
{"id": "C08", "title": "Validation itself never reads outside the buffer", "statement": "Auditing any buffer only reads bytes inside the buffer.", "quantifier": "every byte buffer of every size", "why_tests_cant": "Needs a hostile descriptor placed so that the field header lies past the end; the over-read is invisible to ordinary tests.", "anchors": ["src/audit.cxx: check_loose, audit_tuple", "fast_positive/tuples/details/field.h: stretchy_value::brutto_units"]}
{"id": "C09", "title": "Setting a field makes that value readable and leaves all other fields alone", "statement": "After a successful set of a field, reading that field returns the value set, and every other field of the tuple reads exactly as before.", "quantifier": "every reachable tuple state (every history of set/insert/erase/optimize), every field type and value", "why_tests_cant": "Correctness depends on the hole layout produced by the whole history; space of histories is unbounded.", "anchors": ["fast_positive/tuples/details/rw.h: assign_field_value", "src/gear.cxx: realloc_data, alloc_loose", "src/rw.cxx"]}
{"id": "C10", "title": "Inserting adds exactly one value", "statement": "After a successful insert/append the multiset of stored (field,value) pairs gains exactly the new pair and no other pair changes.", "quantifier": "every reachable tuple state, every field and value", "why_tests_cant": "Depends on allocator state reached by arbitrary histories.", "anchors": ["fast_positive/tuples/details/rw.h: append_field", "src/gear.cxx: alloc_loose"]}
{"id": "C11", "title": "Erasing removes exactly the addressed values", "statement": "After erasing a field, it is absent (count returned equals the number of values it had), and no other field changes.", "quantifier": "every reachable tuple state, every field", "why_tests_cant": "Depends on merge/trim paths of the allocator chosen by history.", "anchors": ["src/rw.cxx: tuple_rw::erase", "fast_positive/tuples/details/rw.h: erase", "src/gear.cxx: release_loose, merge_holes, trim_hole"]}
{"id": "C12", "title": "A mutable tuple stays structurally valid after every operation", "statement": "After every completed operation, whether it succeeded or threw, all field payloads lie inside the used area, never overlap, cover it completely together with the holes, and the hole statistics equal the real number and volume of holes.", "quantifier": "every history of operations of every length starting from an empty tuple", "why_tests_cant": "Invariant over unbounded histories; violations need particular hole-size coincidences.", "anchors": ["src/gear.cxx", "src/audit.cxx: tuple_rw::audit", "fast_positive/tuples/details/rw.h: tuple_rw"]}
{"id": "C13", "title": "Failed modifications are harmless", "statement": "If a modification throws insufficient_space the tuple keeps all its fields and values, and remains usable.", "quantifier": "every reachable tuple state and every failing request", "why_tests_cant": "Exception paths depend on exact free-space and hole configuration.", "anchors": ["src/gear.cxx: tail_alloc, index_alloc, alloc_loose, realloc_data, release_data"]}
{"id": "C14", "title": "Erasing everything reclaims all space", "statement": "When the last field is erased the tuple is back to its initial empty layout: no junk remains and the full capacity is available again.", "quantifier": "every history ending with all loose fields erased, in every erase order", "why_tests_cant": "Depends on erase order (n! orders) and on merge/trim logic.", "anchors": ["src/gear.cxx: release_loose, merge_holes, trim_hole, release_data"]}
{"id": "C15", "title": "A reported space deficit is genuine and an operation within free space succeeds", "statement": "Inserting or setting a value succeeds whenever the contiguous free tail and one free index slot suffice, and insufficient_space is thrown only if neither the tail nor any hole can hold the value.", "quantifier": "every reachable tuple state, every request size", "why_tests_cant": "Interaction of hole search, tail and index space in all states.", "anchors": ["src/gear.cxx: alloc_loose, realloc_data, lookup_hole"]}
{"id": "C16", "title": "Hole selection is best-fit", "statement": "When a value is placed into freed space, the hole used is large enough and no other usable hole is smaller; ties go to the lowest address.", "quantifier": "every set of holes, every request", "why_tests_cant": "Quantifies over all hole populations and orders.", "anchors": ["src/gear.cxx: best_fit, lookup_hole"]}
{"id": "C17", "title": "Compaction preserves content and removes all junk", "statement": "After compactify (or optimize with compactification) every field has the same value as before, in the same order, and no holes or free gaps remain.", "quantifier": "every valid mutable tuple", "why_tests_cant": "Moving overlapping chunks with relative references; depends on arbitrary layouts.", "anchors": ["src/gear.cxx: tuple_rw::compactify, tuple_rw::optimize"]}
{"id": "C18", "title": "Sorting the index preserves content", "statement": "After optimize with index sorting the tuple has the same fields with the same values.", "quantifier": "every valid mutable tuple with any number of fields", "why_tests_cant": "Sorting starts only at 256 or more loose fields.", "anchors": ["src/gear.cxx: tuple_rw::sort, tuple_rw::optimize"]}
{"id": "C19", "title": "Serialized form represents the same fields", "statement": "Taking the read-only form of a mutable tuple yields a buffer that passes validation, whose size field equals its length, and in which every field reads the same value; a tuple re-created from it has the same fields.", "quantifier": "every valid mutable tuple", "why_tests_cant": "Quantifies over all tuple contents, including the maximal sizes.", "anchors": ["src/rw.cxx: take_asis, tuple_rw::tuple_rw(const audit_holes_info&...), create_from_ro", "src/audit.cxx"]}
{"id": "C20", "title": "NULL handling follows the documented table", "statement": "For fixed/stretchy, loose/preplaced and discernible/indiscernible tokens, writing zero/empty values, reading absent fields, and reading designated NULLs behave as in the table documented in token.h.", "quantifier": "every genus, token kind, flag and value", "why_tests_cant": "Combination of type x placement x flag x value.", "anchors": ["fast_positive/tuples/token.h: is_discernible_null", "fast_positive/tuples/details/getter.h: accessor_ro::get", "fast_positive/tuples/details/rw.h: assign_field_value, append_field", "fast_positive/tuples/details/meta.h: genus_traits"]}
{"id": "C21", "title": "Integer setters store exactly the given number or fail", "statement": "set_integer/set_unsigned/insert_integer/insert_unsigned on an integer field either store a value that reads back as the same mathematical integer, or throw (value_range / type_mismatch) and store nothing, or saturate to the nearest bound when the token is saturated.", "quantifier": "every 64-bit argument, every integer genus, both range policies", "why_tests_cant": "2^64 arguments x genus x policy; wrong boundary constants are single-value defects.", "anchors": ["fast_positive/tuples/details/rw.h: set_integer, set_unsigned, set_number", "src/rw.cxx: insert_integer, insert_unsigned, insert_number"]}
{"id": "C22", "title": "Integer getters return exactly the stored number or fail", "statement": "get_integer, get_unsigned, get_int128, get_uint128 return exactly the stored number for every field of the type kind they serve and throw type_mismatch for other fields; get_number returns the exact number or throws value_range when a 64-bit integer exceeds the exactly representable range; no silent wrap.", "quantifier": "every stored value of every numeric genus", "why_tests_cant": "2^64 values x genus.", "anchors": ["fast_positive/tuples/details/getter.h: get_integer, get_unsigned, get_number_as_ieee754double", "fast_positive/tuples/details/meta.h: genus_traits<u8>..<i64>"]}
{"id": "C23", "title": "Integer formatting prints the exact decimal value", "statement": "The integer-to-text conversion prints the canonical decimal notation (no leading zeros, minus sign for negatives) of every 32/64-bit integer.", "quantifier": "all 2^64 unsigned and signed values", "why_tests_cant": "Range too large for tests; digit-group boundaries are special cases.", "anchors": ["fast_positive/erthink/erthink_u2a.h: u2a, i2a, dec2, dec3, dec4, branchless"]}
{"id": "C24", "title": "Wide arithmetic helpers are exact", "statement": "64x64->128 multiplication, add-with-carry of 64/128 bit operands, bit-length (clz) fallbacks, byte swap and branchless absolute value equal their mathematical definitions.", "quantifier": "all operand values", "why_tests_cant": "2^128 operand pairs; carry propagation errors are sparse.", "anchors": ["fast_positive/erthink/erthink_mul.h", "fast_positive/erthink/erthink_carryadd.h", "fast_positive/erthink/erthink_clz.h", "fast_positive/erthink/erthink_bswap.h", "fast_positive/erthink/erthink_misc.h"]}
{"id": "C25", "title": "Date-time conversions are exact", "statement": "Building a datetime from seconds, milli-, micro- or nanoseconds and reading it in the same unit returns the same number, and datetime ordering equals chronological ordering.", "quantifier": "all 32-bit seconds and all fractions", "why_tests_cant": "2^64 values; fixed-point rounding errors appear only for some fractions.", "anchors": ["fast_positive/tuples/types/datetime.h"]}
{"id": "C26", "title": "Shared buffers are released exactly once, never while in use", "statement": "For any number of threads adding and dropping references to a shared buffer, the buffer is returned to its allotter exactly once, only after the last reference was dropped.", "quantifier": "every number of threads and every interleaving of atomic steps", "why_tests_cant": "Schedules are unbounded and races are not reproducible by tests.", "anchors": ["src/1Hippeus/buffer.cxx: add_reference, detach", "fast_positive/tuples/1Hippeus/buffer.h"]}
{"id": "C27", "title": "Buffer tags are lossless", "statement": "A buffer tag returns the allotter, depot and crate identifiers and the local/readonly/HPU flags it was built from, and changing one attribute leaves the others.", "quantifier": "every flag, allot, depot and crate value", "why_tests_cant": "2^64 tag space.", "anchors": ["fast_positive/tuples/1Hippeus/buffer.h: buffer_tag"]}
{"id": "C28", "title": "Tagged smart pointers keep pointer and kind", "statement": "A tuple handle that packs a pointer together with a kind tag gives back the same pointer and the same kind.", "quantifier": "every pointer representable on the platform and every tag", "why_tests_cant": "All pointers and tags; depends on platform bit layout.", "anchors": ["fast_positive/tuples/details/tagged_pointer.h"]}
{"id": "C29", "title": "String views form a total order consistent with equality and hashing", "statement": "Comparison of string views is a total order (by length, then bytes); equality agrees with comparison; equal views hash equally; an empty view and a nil view are distinguished as documented.", "quantifier": "all pairs and triples of views", "why_tests_cant": "Order axioms quantify over triples of arbitrary strings.", "anchors": ["fast_positive/tuples/string_view.h: string_view"]}
{"id": "C30", "title": "Schema definitions stay consistent", "statement": "After any sequence of schema definitions, names map to exactly one field and back, two preplaced fields never overlap, automatically chosen loose ids are unused, and lookups by name/offset/tag find exactly the defined fields.", "quantifier": "every sequence of definitions", "why_tests_cant": "Binary searches over arbitrary definition sequences.", "anchors": ["src/schema.cxx"]}
{"id": "C31", "title": "Iteration over fields of a read-only tuple visits every present field exactly once", "statement": "Walking a tuple from begin to end visits each non-null preplaced field and each loose field exactly once and terminates; walking backwards visits the same sequence reversed.", "quantifier": "every valid tuple and schema", "why_tests_cant": "Any mixture of null/non-null fields at any position.", "anchors": ["src/ro.cxx: field_iterator_ro", "fast_positive/tuples/details/ro.h"]}
{"id": "C32", "title": "Collections enumerate exactly the values of one field", "statement": "Iterating a collection yields every value of that field exactly once, in index order, and nothing else.", "quantifier": "every index content", "why_tests_cant": "Depends on arbitrary index content.", "anchors": ["fast_positive/tuples/details/getter.h: collection_iterator_ro, collection_ro", "fast_positive/tuples/details/rw.h: collection_iterator_rw"]}
{"id": "C33", "title": "Automatic growth completes a modification that fits in a tuple", "statement": "With an autogrowth tuple, a modification that throws insufficient_space is retried with a larger buffer, and the stored content is unchanged by the growth; growth fails only if the tuple limits are exceeded.", "quantifier": "every reachable tuple state, every deficit", "why_tests_cant": "Depends on arbitrary deficits and layouts.", "anchors": ["src/autogrowth.cxx: manage_space_deficit"]}
{"id": "C34", "title": "Explicit tuple kinds choose the documented validation mode", "statement": "Constructing/cloning/taking handles performs validation and optimisation exactly when the caller's options ask for it.", "quantifier": "every option combination", "why_tests_cant": "Combination of enum options over call sites; a swapped pair gives no visible failure on valid data.", "anchors": ["fast_positive/tuples.h: apply_validation_mode, take_weak, take_managed_clone", "src/managed.cxx: clone"]}
{"id": "C35", "title": "Memory pollution and zero-check touch exactly the requested bytes", "statement": "The pollute helper changes only bytes of the given range and applying it twice restores them; the zero check returns true exactly when all bytes in the range are zero.", "quantifier": "every address alignment, every length, every content", "why_tests_cant": "All alignments x lengths x contents.", "anchors": ["src/1Hippeus/utils.cxx"]}
{"id": "C36", "title": "C API filter functions select exactly the requested fields", "statement": "fptu_first/fptu_next/fptu_field_count/fptu_erase act on exactly those fields whose column matches and whose type matches the requested type or type-set.", "quantifier": "every index content, column and filter", "why_tests_cant": "Arbitrary index contents and 32-bit filters.", "anchors": ["src/compat_common.cxx: fptu_first, fptu_next, fptu_field_count, fptu_erase, match"]}
{"id": "C37", "title": "C API binary comparison is a total preorder", "statement": "fptu_cmp_binary is lexicographic by bytes and then by length: antisymmetric, transitive, and 'equal' exactly for equal byte strings.", "quantifier": "all pairs/triples of byte strings", "why_tests_cant": "Order axioms over arbitrary strings.", "anchors": ["src/compat_common.cxx: fptu_cmp_binary", "fast_positive/tuples/details/legacy_compat.h: cmp2int, diff2lge"]}
{"id": "C38", "title": "C API nested upsert and field iovec", "statement": "fptu_upsert_nested stores a nested tuple that can be read back as nested, and fptu_field_as_iovec describes exactly the bytes of the field.", "quantifier": "every nested tuple / every field", "why_tests_cant": "Byte length depends on genus and content.", "anchors": ["src/compat_rw.cxx: fptu_upsert_nested", "src/compat_field.cxx: fptu_field_as_iovec"]}
{"id": "C39", "title": "Type tables agree with each other", "statement": "For every genus the static size, unit count, fixed/stretchy, inplaced and loose-size tables agree, and each numeric type is readable through a getter of a type only if every value converts without loss.", "quantifier": "all 32 genera and all values of the stored type", "why_tests_cant": "Conversion losslessness quantifies over 2^64 values.", "anchors": ["src/tablets.cxx", "fast_positive/tuples/details/meta.h"]}
{"id": "C40", "title": "Size queries describe the real layout", "statement": "brutto size is the number of bytes from the first descriptor (plus header) to the end of data; netto size is brutto minus junk; free space plus used space equals capacity.", "quantifier": "every reachable tuple state", "why_tests_cant": "All layouts.", "anchors": ["fast_positive/tuples/details/rw.h: brutto_size, netto_size, junk_size, empty_size, head_space, tail_space"]}
{"id": "C41", "title": "Tuple creation reserves what was asked", "statement": "Creating a tuple for a given number of items and data bytes in a buffer of the estimated size succeeds and that many items with that many bytes can be stored; impossible requests throw; nothing is accepted above the limits.", "quantifier": "every items limit, data size and buffer size", "why_tests_cant": "Size arithmetic over all sizes with rounding and caps.", "anchors": ["fast_positive/tuples/details/rw.h: estimate_required_space, tuple_rw ctor", "src/rw.cxx: create_new, reset"]}
{"id": "C42", "title": "log2size rounds up to the allowed grid", "statement": "For admissible bounds and step, log2size returns the smallest allowed power of two that is not less than the requested value, and the upper bound when the value is larger than every allowed size.", "quantifier": "every value, every admissible (min, max, step)", "why_tests_cant": "The result depends on value, bounds and step over the whole 64-bit range.", "anchors": ["src/1Hippeus/utils.cxx: log2size"]}
{"id": "C44", "title": "Floating-point arguments for integer fields", "statement": "set_number with a float or double argument on an integer field stores the integer part of the argument, or throws value_range and changes nothing when the argument is NaN, infinite or outside the bounds of the field; the conversion is never undefined.", "quantifier": "every finite value, both infinities, NaN; every integer genus; any tuple", "why_tests_cant": "Boundary constants per type and 2^64 arguments; undefined conversions do not fail tests.", "anchors": ["fast_positive/tuples/details/rw.h: roundtrip_bounds, is_safe_roundtrip, set_number(float), set_number(double)"]}
{"id": "C45", "title": "The estimated tuple size is enough", "statement": "schema::estimate_tuple_size for a set of fields and an expected length of values of variable size is not less than the size of a tuple without holes that holds all these fields with values of at most that length.", "quantifier": "every set of fields, expected length and values", "why_tests_cant": "Quantifies over all combinations of types and lengths, with rounding to units.", "anchors": ["src/schema.cxx: estimate_tuple_size"]}
{"id": "C46", "title": "Storing through the C API", "statement": "fptu_upsert_* either returns FPTU_OK, and then the column reads back exactly the given value and every other field is unchanged, or returns an error code and changes nothing; fptu_insert_* adds one field with the value, fptu_update_* replaces a value only if the column has one of the type, otherwise FPTU_ENOFIELD. Invalid columns and values out of range are rejected, FPTU_ENOSPACE is returned only when the space is really missing.", "quantifier": "every tuple reachable by any history, every type, column and value", "why_tests_cant": "Quantifies over all tuple states (junk, full index, fragmented data) and all values and columns.", "anchors": ["src/compat_rw.cxx: fptu_upsert_*, fptu_insert_*, fptu_update_*", "src/compat_ro.cxx: fptu_get_*"]}
{"id": "C47", "title": "Loading a tuple through the C API", "statement": "A buffer of the size reported by fptu_check_and_get_buffer_size[_ex] suffices for fptu_fetch[_ex]; the loaded tuple is valid, has the same fields and room for what was asked for; functions declared not to throw report errors instead of ending the process.", "quantifier": "every tuple reachable by any history, every reserve", "why_tests_cant": "All histories, hole counts and sizes.", "anchors": ["src/compat_rw.cxx: fptu_check_and_get_buffer_size, fptu_fetch, fptu_fetch_ex, fptu_check_and_get_buffer_size_ex, fptu_get_buffer_size"]}
{"id": "C48", "title": "C strings of text fields", "statement": "fptu_field_cstr returns a C string with exactly the text of the field, and it stays valid as long as the tuple does.", "quantifier": "every text, every sequence of calls", "why_tests_cant": "Depends on the length modulo 4, the content, and earlier calls.", "anchors": ["src/compat_field.cxx: string_view_to_CAPI, fptu_field_cstr"]}
{"id": "C49", "title": "Text of a floating-point number reads back as the same number", "statement": "d2a, in the fast and in the accurate mode, writes at most 23 characters for every double; the text of a finite number is a decimal number with the same sign (of zero too) that any reader rounding to nearest reads as the very same double, never as infinity; different numbers have different texts; in the fast mode integers below 2^64 are written exactly; infinities and NaN are written by name.", "quantifier": "all 2^64 bit patterns, both modes", "why_tests_cant": "2^64 arguments; the error of the scaled multiplication depends on all bits of the mantissa and of one of 86 table entries.", "anchors": ["fast_positive/erthink/erthink_d2a.h: grisu::convert, make_digits, adjust, ieee754_default_printer, d2a"]}
{"id": "C50", "title": "Decimal or exponential form", "statement": "The printer that chooses between the decimal and the exponential form writes a number with a point and digits on both sides of it, with no exponent when the number is within the thresholds, that reads back as the same double.", "quantifier": "all finite doubles, all thresholds accepted at compile time, both modes", "why_tests_cant": "2^64 arguments times 900 pairs of thresholds.", "anchors": ["fast_positive/erthink/erthink_d2a.h: shodan_printer"]}
{"id": "C51", "title": "Text of a fixed-point fraction", "statement": "The fractional part of a 32.32 fixed-point number is written as a point and digits that read back as the same fraction.", "quantifier": "all 2^32 fractions", "why_tests_cant": "Correctness for all fractions; the undefined shift is invisible on the usual processors.", "anchors": ["fast_positive/erthink/erthink_d2a.h: diy_fp::fixedpoint, fractional_printer"]}
{"id": "C52", "title": "Accuracy and length of the text of a floating-point number", "statement": "The text of the accurate mode has at most 17 digits, is nearest to the binary value among the texts of its length, and no shorter text reads back as the same number.", "quantifier": "all finite doubles", "why_tests_cant": "2^64 arguments; the exceptions are rare.", "anchors": ["fast_positive/erthink/erthink_d2a.h: d2a, adjust, make_digits"]}
{"id": "C53", "title": "Guard marks are written and accepted", "statement": "Writing a guard mark always ends and the mark is accepted for its signature; marks of zeros, of ones, and of released blocks are accepted for no signature; labels that differ in one character have different signatures.", "quantifier": "all clock values, all signatures, all labels", "why_tests_cant": "The search for a mark loops over a pseudo-random sequence of 2^32 values; its termination depends on the clock and the signature.", "anchors": ["src/1Hippeus/hipagut.cxx", "fast_positive/tuples/1Hippeus/hipagut.h"]}
{"id": "C54", "title": "Damage of a guard mark is detected", "statement": "A mark that has been overwritten is rejected, and so is a mark probed for another signature.", "quantifier": "all marks, all signatures, all changes", "why_tests_cant": "2^64 marks times all changes; undetected ones are rare.", "anchors": ["src/1Hippeus/hipagut.cxx: mixup, hipagut_probe"]}
{"id": "C55", "title": "Buffers of the default allocator are guarded", "statement": "A buffer has at least the requested size and is valid; whatever is written into its payload, it stays valid and its release succeeds and gives back exactly what was taken; a change of one byte of any of its guards, for example just past the payload, is reported by the validation or by the release.", "quantifier": "all sizes, memory contents, clock values, addresses, writes", "why_tests_cant": "Quantifies over all memory contents, all addresses and values of a stray write.", "anchors": ["src/1Hippeus/allot_stdcxx.cxx", "src/1Hippeus/buffer.cxx", "fast_positive/tuples/1Hippeus/hipagut_allocator.h"]}
{"id": "C56", "title": "Arena of short-lived allocations", "statement": "Blocks taken from the arena are aligned, lie within it and never overlap; a request is served while there is room; when all blocks are given back the whole arena is free again.", "quantifier": "all sequences of allocations and releases, all sizes", "why_tests_cant": "All interleavings of allocations and releases of unbounded length.", "anchors": ["fast_positive/erthink/erthink_short_alloc.h", "src/gear.cxx: tuple_rw::optimize", "src/audit.cxx"]}
{"id": "C57", "title": "Real numbers in floating-point fields", "statement": "set_float, insert_float, set_number and insert_number store into a double field exactly the given number, into a float field the nearest float (ties to even), and get_float reads it back; NaN and infinities are kept; a finite number beyond the largest float is refused for a float field with value_range, and then nothing is changed; other fields are never changed.", "quantifier": "every bit pattern of float and double, every field token, every tuple reachable by any history", "why_tests_cant": "2^64 bit patterns with subnormal numbers, ties and overflow borders, times all tuple states.", "anchors": ["fast_positive/tuples/details/rw.h: set_float, set_number", "src/rw.cxx: insert_float, insert_number", "fast_positive/tuples/details/getter.h: get_float"]}
{"id": "C58", "title": "Dates in time fields", "statement": "set_datetime and insert_datetime store the given point in time, get_datetime reads it back; fields of other types are refused with an exception and nothing is changed.", "quantifier": "every point in time, both types of time fields, every tuple reachable by any history", "why_tests_cant": "All 2^64 times and all tuple states.", "anchors": ["fast_positive/tuples/details/rw.h: set_datetime", "src/rw.cxx: insert_datetime", "fast_positive/tuples/details/getter.h: get_datetime"]}
{"id": "C59", "title": "Booleans and enumerations", "statement": "set_bool/set_enum followed by get_bool/get_enum gives the stored value, for optional fields too; fields of other types are refused and nothing is changed.", "quantifier": "every value, field token and tuple reachable by any history", "why_tests_cant": "All tuple states and all tokens (loose, preplaced, with distinguished NULL).", "anchors": ["fast_positive/tuples/details/rw.h: set_bool, set_enum", "src/rw.cxx: insert_bool, insert_enum", "fast_positive/tuples/details/getter.h: get_bool, get_enum"]}
{"id": "C60", "title": "Byte tests, powers of two and rounding", "statement": "The library's tests whether an object is all zeros (or all ones) answer for every byte of the object; the power-of-two test is exact; rounding down and up to an alignment give the nearest multiples in that direction.", "quantifier": "objects of every size and content; every 64-bit value and power-of-two alignment", "why_tests_cant": "All contents of objects of all sizes, all 64-bit values; the word-at-a-time code has a different path for each tail size and sign extension.", "anchors": ["fast_positive/tuples/details/utils.h: is_zero, is_allones, is_power2, floor, ceil"]}
{"id": "C61", "title": "Hexadecimal text", "statement": "The hexadecimal text of binary data has two lower-case digits for each byte, high digit first, so different data have different texts, and texts sort as the data do.", "quantifier": "all byte sequences of any length", "why_tests_cant": "Unbounded length and all contents.", "anchors": ["src/misc.cxx: hexadecimal"]}
{"id": "C62", "title": "Network addresses and fixed-size binaries", "statement": "An address made of an IPv4 address is the IPv4-mapped IPv6 one in network order and is empty only for 0.0.0.0; an address, network or fixed-size binary reads back from a field as stored, the padding of the field is zero, and only the argument is read.", "quantifier": "all addresses, values and memory contents around the argument", "why_tests_cant": "2^32 addresses; what lies beyond the argument is not under the control of a test.", "anchors": ["fast_positive/tuples/types/ip_address.h", "fast_positive/tuples/details/meta.h: unit_n"]}
{"id": "C63", "title": "Searching and comparing fields through the C API", "statement": "Searching a serialized tuple for a type and column through the C API and reading the field found gives the tuple's value or 'no field'; comparing a fixed-size or variable binary field with given bytes answers by lexicographic order, 'equal' exactly for equal bytes, and 'incomparable' without a field; column numbers out of range find nothing; every getter reports success or failure through its error argument.", "quantifier": "every tuple reachable by any history, every type, column and value", "why_tests_cant": "All tuple contents, columns and values; the answer must hold for columns beyond the range too.", "anchors": ["src/compat_ro.cxx: fptu_lookup_ro, fptu_cmp_96..256, fptu_cmp_opaque, fptu_get_cstr", "src/compat_field.cxx: fptu_field_*", "fast_positive/tuples/details/legacy_compat.h: cmpbin, error_guard"]}
{"id": "C64", "title": "Tags and names of types in the C API", "statement": "A tag made of a column and a type gives back both; the type and column reported for a field are those under which it is found; every type of the C API has its own name.", "quantifier": "every column, type and index entry", "why_tests_cant": "All pairs of columns and types, including columns out of range.", "anchors": ["src/compat_common.cxx: fptu_make_tag, fptu_get_type, fptu_get_colnum, fptu_type_name", "src/compat_field.cxx: fptu_field_type, fptu_field_column"]}
{"id": "C65", "title": "Stored bytes depend on the value only; nothing is left of values that are gone", "statement": "After any sequence of operations, a field of variable size that holds a value occupies exactly the bytes the format gives for that value (header, bytes, zero padding), whatever the memory contained before, so equal values are equal bytes in every tuple; and after compaction every unit of the payload is part of a value that the tuple still contains, so nothing of overwritten or erased values remains.", "quantifier": "every reachable tuple, schema, field and value", "why_tests_cant": "The property is about all histories and all previous contents of the memory; a test sees one buffer, usually a zeroed one.", "anchors": ["fast_positive/tuples/details/field.h: store", "src/rw.cxx: optimize, compactify", "fast_positive/tuples/details/rw.h: take_asis"]}
{"id": "C66", "title": "Accessors of fields", "statement": "Working with a field through an accessor obtained once from the tuple gives the same results and the same tuple as working with it by token: assignments, reads, presence queries, removals, exceptions, with any modifications of other fields in between.", "quantifier": "every reachable tuple, loose field stored at most once, sequence of operations through the accessor and by tokens of other fields", "why_tests_cant": "An accessor is a pointer into a buffer which every operation rearranges; that it never becomes stale is about all interleavings.", "anchors": ["fast_positive/tuples/details/rw.h: accessor_rw, assign, remove", "fast_positive/tuples/details/getter.h: accessor_ro, at"]}
{"id": "C67", "title": "Iterators over collections of a modifiable tuple", "statement": "Assigning or erasing through an iterator changes exactly the value at the iterator; all other iterators and accessors stay at their values. A loop over a collection which replaces each value by a function of it replaces every value once. Incrementing an iterator moves it to the next value.", "quantifier": "every reachable tuple, collection, iterator, value and function", "why_tests_cant": "All tuples, positions and functions; the effect on all other iterators.", "anchors": ["fast_positive/tuples/details/rw.h: collection_iterator_rw, collection_rw", "src/rw.cxx: erase", "fast_positive/tuples/details/scan.h: next"]}
{"id": "C68", "title": "A tuple holds what its history says", "statement": "After any sequence of setting, inserting, erasing and compacting, with exceptions caught and ignored, each field of a tuple has exactly the values that the successful operations on this field gave it: a field reads as the value set last, an erased one as absent, a collection has the inserted values. Operations that failed, operations on other fields and compactions do not matter. The same holds over whole lives, in which the buffer also grows, room is reserved, the tuple is sorted, transferred through its serialized form into another buffer, or reset (which empties every field).", "quantifier": "every reachable tuple, every finite sequence of operations on loose and preplaced fields and compactions, every placement of exceptions", "why_tests_cant": "Sequences of unbounded length over buffers whose layout, holes and pointers depend on everything done before.", "anchors": ["fast_positive/tuples/details/rw.h: set_*, insert_*, erase, optimize", "src/rw.cxx", "src/gear.cxx", "fast_positive/tuples/details/getter.h: get_*"]}
{"id": "C69", "title": "A tuple touches only its own memory", "statement": "What an operation, a compaction, a sorting, a growth into a new buffer, a getter or the serialization does depends only on the fields of the tuple and on the geometry of its buffer, never on what the free space of the buffer or the memory around it contained before. So a tuple made in uninitialised memory behaves like one made in zeroed memory, its serialized form contains no leftovers of that memory, and nothing behind the end of the buffer is written or read.", "quantifier": "every reachable tuple, every contents of the free space and of the memory around the buffer, every operation, growth and sorting, every finite sequence of operations and compactions, every finite sequence of operations with automatic growth", "why_tests_cant": "It relates two executions over all contents of uninitialised memory; a test sees one content, usually zeros, and cannot notice a dependency on it.", "anchors": ["fast_positive/tuples/details/rw.h: set_*, insert_*, erase, optimize, take_asis", "src/gear.cxx", "src/rw.cxx", "fast_positive/tuples/details/getter.h: get_*"]}
{"id": "C70", "title": "A tuple made for a schema starts with the initial values", "statement": "After any sequence of schema definitions, a tuple created for the schema, or reset, has no loose fields, and each preplaced field reads as the initial value given with its definition; without one an optional field reads as absent and a mandatory one as zero or empty. The contents of the memory in which the tuple is made play no role. The value stays until the field itself is set or erased, whatever happens to other fields.", "quantifier": "every sequence of schema definitions, every contents of the buffer, every following sequence of operations on other fields and compactions", "why_tests_cant": "It composes the schema, the construction and the getters over all layouts of preplaced fields, all initial values and all histories; tests try a few layouts in zeroed memory.", "anchors": ["src/schema.cxx: add_definition", "fast_positive/tuples/details/rw.h: tuple_rw::tuple_rw, set_*, erase", "src/rw.cxx: create_new, reset", "fast_positive/tuples/details/getter.h: get_*"]}
{"id": "C71", "title": "Presence of fields is reported truthfully", "statement": "`is_present(token)` says whether the tuple has a value of the field: for loose fields and collections after any sequence of set, insert, erase and compaction, and equally in the serialized form. It agrees with the other ways to ask: the getter of a field which distinguishes NULLs throws field_absent exactly if the field is not present, `erase` reports exactly that the field was present and leaves it absent, and the update functions of the C API fail with field_absent exactly if the field is not present, changing nothing. For preplaced fields it should say whether the getter would return a value.", "quantifier": "for all tuples reachable by any history, all loose tokens, all values; for preplaced fields all tuples and all tokens", "why_tests_cant": "presence depends on the whole history of operations, on hole reuse in the index and on compaction; the agreement between four different code paths has to hold in every state", "anchors": ["fast_positive/tuples/details/getter.h:212-217", "fast_positive/tuples/details/getter.h:565-606", "fast_positive/tuples/details/rw.h:1211-1220", "fast_positive/tuples/details/rw.h:1280-1284"]}
{"id": "C72", "title": "The replacements of C library functions follow the C standard", "statement": "On Elbrus the library replaces memcmp, strcmp, strncmp, strlen and strnlen. Their results have the sign and value the C standard requires: comparison by the first different byte taken as unsigned, zero exactly for equal operands, lengths up to the first zero byte, and no more than the given number of bytes is looked at.", "quantifier": "all contents of memory, all addresses and alignments, all lengths", "why_tests_cant": "the paths depend on the alignment of both operands, the length and the position of the difference within a machine word; all comparisons of the library (names, values, tuples) rest on them there", "anchors": ["src/misc.cxx:97-209", "fast_positive/tuples/details/crutches.h"]}
{"id": "C73", "title": "The current time has the requested precision", "statement": "`fptu_now(grain)` reads the coarse system clock only if its resolution is no worse than requested: `grain` nanoseconds for positive arguments, 2^k units of 2^-32 s for -k; and it does read the cheaper clock whenever that is precise enough.", "quantifier": "all arguments and all resolutions below a second", "why_tests_cant": "depends on the resolution reported by the kernel, one value per machine", "anchors": ["src/time.cxx:50-131", "fast_positive/tuples/types/datetime.h:66-85"]}
{"id": "C74", "title": "The search function chosen at load time fits the processor", "statement": "Each query for a feature of the processor answers what the manuals define for the CPUID registers, also on processors that do not know a leaf. The search function chosen at load time consists of instructions that can be executed under the running system, and is the widest such one.", "quantifier": "all processors (all register contents of CPUID) and all states of XCR0", "why_tests_cant": "a test sees the one processor and system it runs on", "anchors": ["fast_positive/tuples/details/cpu_features.h:26-147", "src/cpu_features_ia32.cxx:70-97", "src/scan_ifunc.cxx:37-52"]}
{"id": "C75", "title": "Tokens compare and convert consistently", "statement": "The relations <, <=, >, >= of tokens are one total order consistent with the notion of addressing the same field and with ==; equal tokens hash equally. A cast of a token to a placement or a type succeeds exactly when the token has it and never changes an answer about the token. Tokens made by the constructors are valid and the constructors either throw or make a proper token; the token of a member of a structure equals the token constructed from the offset and the type of the member.", "quantifier": "all 32-bit tokens, all types, offsets, ids and modes", "why_tests_cant": "All pairs and triples of 32-bit tokens; tests compare a handful.", "anchors": ["fast_positive/tuples/token.h: token_operations, token_nonstatic_tag, token, cast_typecheck, cast_preplaced, cast_loose, token_native", "fast_positive/tuples/essentials.h: tag_from_offset, normalize_tag, mask_*"]}
{"id": "C76", "title": "Defragmentation through the C API gains what it promised and loses nothing", "statement": "`fptu_shrink` keeps every field, turns exactly the amount reported by `fptu_junkspace` into room for fields and data, and answers true if iterators became invalid; answering false it changed nothing. `fptu_take` gives a serialized tuple with the same fields that passes the check which does not allow holes; `fptu_take_noshrink` one that passes it exactly if there was no junk.", "quantifier": "every tuple any history of operations produces", "why_tests_cant": "The layout of holes depends on the whole history; the sorting of the index sets in only from 256 fields on.", "anchors": ["src/compat_rw.cxx: fptu_space4items, fptu_space4data, fptu_junkspace, fptu_take_noshrink, fptu_shrink", "fast_positive/tuples/legacy.h: fptu_cond_shrink, fptu_take", "src/compat_ro.cxx: fptu_check_ro_ex", "src/gear.cxx: optimize"]}
{"id": "C77", "title": "Handles own their buffers", "statement": "Copying, moving, swapping, assigning, converting (modifiable to read-only and back), cloning, growing and destroying managed handles, and obtaining managed handles to nested tuples, keeps every buffer exactly as long as a handle refers to it: it is handed back once, when the last one is gone; no handle ever points into a buffer that was handed back; at the end nothing is left. An operation that throws leaves all handles and buffers as they were. What a managed read-only handle shows never changes while it is kept; a modifiable tuple obtained from a read-only handle is nobody else's, and takes over the buffer without copying when it can. Moving gives the target what the source had and leaves the source hollow.", "quantifier": "every program over any number of handle variables, of any length, with any contents of the tuples, exceptions caught", "why_tests_cant": "The counter of a buffer depends on the whole history of all handles of a program; a leak or a double release shows only in particular orders of moves, conversions and exceptions.", "anchors": ["src/managed.cxx: tuple_ro_managed, tuple_rw_fixed constructors and assignments, check_buffer, peek_basis", "fast_positive/tuples.h: tuple_ro_managed, tuple_rw_fixed, tuple_rw_managed, get_nested_managed", "src/1Hippeus/buffer.cxx: add_reference, detach", "src/rw.cxx: take_asis, ~tuple_rw", "src/autogrowth.cxx: manage_space_deficit"]}
{"id": "C78", "title": "Printed moments name the moment", "statement": "The text of a datetime is always YYYY-MM-DDZhh:mm:ss.nnnnnnnnn with a date that exists, and reading it back gives the nanosecond nearest to the moment, also when rounding carries into the next second, day or year; sorting texts never contradicts the order of moments, and strictly follows it for moments more than a nanosecond apart; a moment built from whole nanoseconds prints as exactly these nanoseconds. Names of field types, and of results of comparisons, are all different.", "quantifier": "all 2^64 moments, all pairs of moments", "why_tests_cant": "There are 2^64 moments; mistakes of rounding and of the calendar show at isolated moments (last half nanosecond of a second, end of February, year 2100).", "anchors": ["src/debug.cxx: to_string(const fptu_datetime_t &), to_string(const fptu_lge)", "src/misc.cxx: to_string(const fptu::genus)", "fast_positive/tuples/types/datetime.h: fractional_seconds, from_nsec"]}
{"id": "C79", "title": "Replacing a value", "statement": "Assigning a field twice leaves exactly the tuple, byte for byte, that assigning the last value alone leaves, when both values take the same space; assigning the same value again changes nothing; replacing a value by one that takes as much space and back restores the tuple. Replacing a present value by one that takes as much space never fails and changes only the cells of the value. Replacing it by a shorter one does not fail either.", "quantifier": "every reachable tuple, every loose or preplaced field of every type, every pair of values", "why_tests_cant": "Byte equality after replacement must hold for every layout of holes and vacancies and every pair of values; the failure of shortening needs a full index together with a value in the middle of the data.", "anchors": ["src/gear.cxx: tuple_rw::realloc_data, fetch_loose, lookup", "fast_positive/tuples/details/rw.h:1319-1442"]}
{"id": "C80", "title": "Repetition and order of operations", "statement": "Erasing a field, compacting and optimizing once more right after they succeeded changes not a byte and reports that nothing was erased or moved. What a tuple holds depends, for each loose field, only on the operations on this field that succeeded and their order: operations on different fields can be interleaved in any way, with compactions anywhere, failed operations in between and in buffers of any size, with the same content at the end and the same values read.", "quantifier": "every reachable tuple, every pair of sequences of operations of any length", "why_tests_cant": "The number of interleavings grows beyond any test suite, and each of them leaves another layout of holes and vacancies.", "anchors": ["src/gear.cxx: erase, compactify, optimize, sort", "fast_positive/tuples/details/rw.h:1056-1150"]}
{"id": "C81", "title": "The order of the values of a collection", "statement": "The loop over a collection meets its values in an order that other operations do not change: inserting a value keeps the relative order of the others, erasing or assigning through an iterator keeps the places of the others, operations on other fields, compaction and serialization keep the order. When the tuple has no holes at the moment of an insertion, for example after a compaction, the new value comes first, so that a plain read of the field gives the newest value.", "quantifier": "all reachable tuples, collections, values and iterators; all histories of operations and compactions", "why_tests_cant": "The order depends on where in the index each entry lands, that is on the whole history of holes; a test observes one history.", "anchors": ["fast_positive/tuples/details/rw.h: collection_iterator_rw, append_field", "src/gear.cxx: index_alloc, alloc_loose, compactify, sort_index", "fast_positive/tuples/details/scan.h: next"]}
{"id": "C43", "title": "Recognizing reserved words", "statement": "The recognizer of reserved words tells of any text whether it is one of the 42 reserved words of ECMAScript it knows, and reads nothing outside the text.", "quantifier": "every memory content, every text and length", "why_tests_cant": "The answer comes from a hash of length and two characters; all texts that share a slot, and what lies behind the text in memory, cannot be enumerated.", "anchors": ["src/gperf_ECMAScript_keywords.h: ECMAScript_keywords::in_word_set"]}
{"id": "C82", "title": "Comparing handles", "statement": "Comparing handles tells whether they refer to the same tuple: a copy is equal to its source, the target of a move to what the source was; two modifiable handles are equal only if they are the same; a weak handle taken from a modifiable tuple is equal to it as long as it shows what the tuple contains; a managed read-only handle is never equal to a modifiable tuple; `!=` is the opposite of `==`; every comparison is defined, also of handles that hold nothing.", "quantifier": "all programs over any number of handles, all contents, all changes of the tuple", "why_tests_cant": "Whether two handles may refer to the same place depends on every earlier copy, move and conversion, and on whether a change moved the beginning of the index.", "anchors": ["fast_positive/tuples.h: operator== and operator!= of tuple_ro_weak, tuple_ro_managed, tuple_rw_fixed; take_weak_asis", "fast_positive/tuples/details/rw.h: operator==", "src/rw.cxx: take_asis"]}
{"id": "C83", "title": "Text views and standard strings", "statement": "Converting between text views and standard strings keeps the text: a view of a string has its content, also with zero bytes, and converts back to it; indices, first and last byte, forward and reverse loops agree with the content; a view is equal to a string exactly if it converts to the same content, nil included; comparison orders views and strings as strings are ordered.", "quantifier": "all memory contents, views and strings of any length", "why_tests_cant": "Any bytes, any length, nil and empty texts, and every pair of texts.", "anchors": ["fast_positive/tuples/string_view.h: constructors, conversions, iterators, front, back, operators with std::string"]}
{"id": "C84", "title": "What an iterator over fields tells about its field", "statement": "At every position a loop over the fields visits, the iterator gives the type and the identifier of the field and an accessor that reads the value a getter reads with a token of that field; comparing the iterator with a token is true exactly at the fields the token designates, so searching by such a loop finds what a getter finds; the token the iterator gives for a schema is the one returned by the definition of the field, and schema_no_such_field is reported exactly for fields that are not in the schema.", "quantifier": "every history of a tuple, every field, every sequence of schema definitions, every token", "why_tests_cant": "Depends on the arrangement of the index after arbitrary histories and on binary searches over arbitrary schemas.", "anchors": ["fast_positive/tuples/details/ro.h:81-130", "fast_positive/tuples/details/ro.h:390-436", "src/ro.cxx:41-77"]}
{"id": "C85", "title": "Accesses of former owners are over before a shared buffer is released or altered in place", "statement": "Several threads may own references to one buffer. Whatever values of the reference counter a thread may see under the C++ memory model, the buffer is handed back exactly once and only when nobody owns a reference; an owner that finds the buffer alterable is its only owner; and every access any owner ever made to the bytes of the buffer happens before its release and before an alteration that relies on is_alterable().", "quantifier": "any number of threads, all schedules of any length, all values outdated loads may return", "why_tests_cant": "Which value an unordered load returns and whether accesses are ordered depends on the processor and the compiler; on x86 the defect cannot even be observed.", "anchors": ["src/1Hippeus/buffer.cxx:113-206", "fast_positive/tuples/1Hippeus/buffer.h:336", "fast_positive/tuples/1Hippeus/buffer.h:433-435"]}
{"id": "C86", "title": "The memory a getter reads or refers to is alive, within the tuple, and aligned", "statement": "A getter of a fixed-size type either throws, or gives a value, or gives a reference. What it reads or refers to lies entirely within the tuple and holds the value of the field, or, when the field is absent, within a constant area of zeros large enough for the type; it is aligned as the C++ type of the field demands, wherever a buffer with 4-byte aligned units lies; and a returned reference refers to an object that still exists.", "quantifier": "all schemas, all reachable tuples, all tokens and fixed-size types, all buffer addresses; all getters of accessors, tuples and handles", "why_tests_cant": "Reading a misaligned object or a dangling reference usually works on x86-64 without optimization; whether an address is misaligned depends on all fields stored before.", "anchors": ["fast_positive/tuples/details/getter.h:123-152", "fast_positive/tuples/details/getter.h:278-428", "fast_positive/tuples/details/getter.h:614-651", "fast_positive/tuples/details/meta.h:40", "fast_positive/tuples/details/meta.h:50-283", "fast_positive/tuples.h:247-291", "fast_positive/tuples.h:613-657", "src/ro.cxx:209-252", "src/rw.cxx:49-92", "src/schema.cxx:196-217"]}
{"id": "C87", "title": "Probing memory touches every page of a range, stays inside the range and changes nothing", "statement": "Deep checking of a buffer and prefaulting access only bytes inside the given range, end for every non-zero step, and leave the memory as it is, also when other threads change the probed bytes meanwhile; every page that the range overlaps is accessed. Prefaulting reports success only if the system accepted all vectors, each of which is not empty and within the limit of the system, and reports lack of memory as such.", "quantifier": "all addresses, lengths (also negative), steps, page sizes, memory contents and interleavings with other threads; all answers of the system", "why_tests_cant": "A lost update needs another thread between a load and an exchange; a page that is not touched shows only if it is unmapped or read-only.", "anchors": ["src/1Hippeus/utils.cxx:175-194", "src/1Hippeus/utils.cxx:237-271", "src/1Hippeus/buffer.cxx:71-72", "src/1Hippeus/buffer.cxx:108-109"]}
{"id": "C88", "title": "Conversions between byte orders", "statement": "Swapping the bytes of a number reverses them and undoes itself. Converting a number to the order of the network, or to little-endian order, gives a number whose bytes in memory are in that order, and converting back gives the number; this holds on little-endian and on big-endian machines. An IPv4 address becomes the IPv4-mapped IPv6 address.", "quantifier": "all numbers of 16, 32 and 64 bits, both kinds of machines, all definitions of the macros that describe the machine", "why_tests_cant": "Tests run on machines of one kind with one set of headers; 2^64 numbers.", "anchors": ["fast_positive/erthink/erthink_bswap.h:40-125", "fast_positive/erthink/erthink_endian.h:25-28", "fast_positive/erthink/erthink_endian.h:74-147", "fast_positive/tuples/types/ip_address.h:32-33"]}
{"id": "C89", "title": "Moments as floating-point seconds", "statement": "The number of seconds of a moment as a double is the double nearest to the moment, at most a quarter of a microsecond off; a later moment never gives a smaller number; a moment of the clock rounded as by default, and the fraction of a second alone, are given exactly. It tells different moments apart and its whole part is the whole seconds of the moment.", "quantifier": "all 2^64 moments, all readings of the clock and all roundings", "why_tests_cant": "2^64 moments, and rounding errors appear only for moments with more than 53 significant bits.", "anchors": ["fast_positive/tuples/types/datetime.h:163-166", "fast_positive/tuples/types/datetime.h:186-188"]}
{"id": "C90", "title": "Removal happens whatever the compiler may assume of the declarations", "statement": "Every execution of a program that the declarations of the library's functions allow is the one in order: a removed field is removed, whether the caller looks at the result or not, and a question about its presence asked before and after the removal gets different answers.", "quantifier": "all programs of removals, questions about presence and other calls, all tuples, all executions allowed by the attributes of the functions", "why_tests_cant": "A test shows what one compiler with one set of options did; the attribute lets another one do otherwise.", "anchors": ["fast_positive/tuples/details/rw.h:1038-1046", "fast_positive/tuples/details/rw.h:1083-1087", "fast_positive/tuples/details/rw.h:1281-1284", "fast_positive/erthink/erthink_defs.h:382-395"]}
{"id": "C91", "title": "Infinities and NaN in the library as it is built", "statement": "The setters of the library treat numbers as the same functions compiled in the user's program do: finite numbers alike, infinities are stored in floating-point fields and refused for integer fields, and NaN is refused for integer fields.", "quantifier": "all numbers, types of fields and tuples, and all ways of compiling that the options of the build allow", "why_tests_cant": "What the compiler makes of a test for NaN under -ffast-math differs from compiler to compiler and from function to function.", "anchors": ["src/CMakeLists.txt:226-228", "src/rw.cxx:139-187", "src/rw.cxx:250-261", "src/rw.cxx:511-605", "fast_positive/tuples/details/rw.h:465-474", "fast_positive/tuples/details/rw.h:711-808"]}
{"id": "C92", "title": "Exceptions about damaged tuples tell what is damaged", "statement": "When a tuple is refused as damaged - by the check of a modifiable tuple, by opening serialized bytes, or by resetting a tuple - the caller gets the documented bad_tuple exception, and its text contains the address of the tuple and the reason found by validation, complete and not empty; formatting the text writes only into the string that is returned.", "quantifier": "every tuple and every serialized form however damaged, every schema, every capacity the standard library gives to a string, every C library", "why_tests_cant": "Damages are unlimited in number, tests look at the type of the exception at most, and a null pointer given to printf goes unnoticed with the usual C library.", "anchors": ["src/misc.cxx: format_va, format", "src/except.cxx: bad_tuple_ro, bad_tuple_rw", "src/rw.cxx: ensure, reset", "src/ro.cxx: make_from_buffer"]}
{"id": "C93", "title": "Last error of the C API", "statement": "After a call of the C API fails, the last error code and message of the calling thread are those of that failure, equal to the code the call returned or stored; they stay until the thread's next failure or until cleared, whatever other threads do; a message handed out can be read for as long; every code has its own text.", "quantifier": "every interleaving of calls of any number of threads, every outcome of each call, every code", "why_tests_cant": "Interleavings of threads and sequences of failures are unbounded; failures such as exhausted memory are hard to provoke.", "anchors": ["src/compat_common.cxx: fptu_set_error, fptu_clear_error, fptu_last_error_code, fptu_last_error_msg", "fast_positive/tuples/details/legacy_compat.h: error_guard", "src/compat_rw.cxx", "src/debug.cxx: to_string(fptu_error)"]}
{"id": "C94", "title": "Tuples made and opened at a scale", "statement": "A tuple can be made at every scale with every schema, and has room for the fields and bytes of the scale; serialized bytes can be opened for changing at every scale with the same fields and with that much additional room; the space estimated for a scale is enough for a tuple made at it.", "quantifier": "all scales, all sizes of the preplaced area, all buffers the allocator may give, all histories of the tuple opened", "why_tests_cant": "The limits meet only for the largest scale or for large tuples, in combination with a schema; tests use the smallest scale or no schema.", "anchors": ["src/managed.cxx:34-63", "src/managed.cxx:67-140", "fast_positive/tuples.h:157-168", "fast_positive/tuples/details/rw.h:1150-1196"]}
{"id": "C95", "title": "Default settings", "statement": "A tuple gets the scale, the schema and the allocator set as default at the moment it is made, and keeps them whatever is set later; tuples made with the default schema can be used as long as they exist; a loop over the fields of a read-only tuple, without naming a schema, stays inside the tuple.", "quantifier": "all programs of setups, creations and uses, of any length; all schemas and tuples", "why_tests_cant": "Use of a destroyed schema mostly goes unnoticed in a test, and the order of setups and uses is unlimited.", "anchors": ["src/managed.cxx:20-32", "src/managed.cxx:67-84", "fast_positive/tuples.h:170-198", "fast_positive/tuples/details/rw.h:192-216", "fast_positive/tuples.h:338-348"]}
{"id": "C96", "title": "Compaction when memory runs out", "statement": "If the compaction of a tuple fails because memory ran out, it throws bad_alloc, every field keeps its value, the tuple still passes the validation, and the compaction can be repeated later with the same result.", "quantifier": "all tuples any history of modifications produces, all schemas, all ways the heap can refuse memory", "why_tests_cant": "The heap is asked only for tuples with more than 256 chunks of data, and tests do not make it refuse.", "anchors": ["src/gear.cxx:757-875", "src/gear.cxx:826-827", "fast_positive/tuples/internal.h:133-138", "src/audit.cxx:442-447"]}
