# Formal model of libfptu: design

Everything below is about the source in `/repo` read as text (it was not built or run).
The model and the proofs are in `lean/Verif/`.  Files named `Props*.lean` hold the property
theorems; the other files hold model definitions and helper lemmas.

## Trusted base

* Lean 4 kernel (4.33.0). No axioms of our own; theorems depend at most on `propext`,
  `Classical.choice`, `Quot.sound`. No `sorry`, `native_decide`, `bv_decide`.
* Our reading of the C++ source. Every definition carries the file and lines it models.
* Build configuration assumed: little-endian 64-bit target, `NDEBUG` build (assertions absent).
  A violated `assert`/`constexpr_assert` which the code relies on is a distinct outcome `ub`
  in the model, never silently assumed away.
* The C++ abstract machine facts: atomics are sequentially consistent (except in C85), `std::sort` sorts,
  `std::memcpy/memmove/memcmp` behave as documented, allocation either succeeds or throws.

## Modelling conventions

* Sizes and addresses are `Nat`, counted in 4-byte units unless "bytes" is said; fixed-width
  wrap-around is written explicitly (`% 65536`) where the code can wrap.
* A unit of tuple memory is `Cell` = two 16-bit halves `lo`, `hi` (little endian), because the code
  always accesses the index as `uint16_t offset; uint16_t genus_and_id`.
* A mutable tuple is a flat memory `Nat → Cell` with `head pivot tail end` and `junk.{count,volume}`:
  the same fields as `tuple_rw`. Relative offsets are relative to the address of their own cell.
* Outcomes of operations: `ok`, `exc e state` (a C++ exception and the state left behind), `ub`.

* Histories (`Reachable`, `History` in `Props/TupleObs.lean`, `Props/AuditComplete.lean`) start with a fresh tuple and consist of
  any number of modifications that succeed or throw, compactions, resets, and transfers (serialization and re-creation in
  another buffer, movement within a buffer, growth into another buffer); for the repaired code also sorting of the index.
* `StepBenign` says that the three defects of `src/gear.cxx` do not show in a step. It always holds for the repaired code, and for the
  code as it is whenever the tuple has no junk and the field is loose (`benign_clean`).

## What is modelled

| source | modelled in `lean/Verif/Model/` | not modelled |
|--------|--------------------------------|--------------|
| `tuples/essentials.h`, `tuples/token.h` | `Tags`, `Token` | printing |
| `src/scan_*.cxx`, `details/scan.h` | `Scan` | (the choice of the implementation: `Cpu`) |
| `details/field.h` | `Cells`, `Stretchy`, `Gear` | |
| `src/gear.cxx` | `Gear`, `Compact`, `Shortage` | memory of the vector of `sort`, `debug_check` |
| `src/rw.cxx`, `details/rw.h` | `TupleRW`, `Accessor`, `Serial`, `Numeric`, `Real`, `Iterate` | storing into `decimal`; printing |
| `details/getter.h`, `details/ro.h`, `src/ro.cxx` | `TupleRW`, `Numeric`, `Real`, `Iterate`, `Refers` | `make_from_buffer`, hashes |
| `src/audit.cxx` | `Audit` | messages |
| `src/schema.cxx`, `tuples/schema.h` | `Schema` | memory exhaustion |
| `src/autogrowth.cxx`, `src/managed.cxx` (scales) | `Grow` | memory exhaustion |
| `src/managed.cxx:18-112`, `tuples.h:157-198` (`defaults`, constructors by scale) | `Defaults` | several threads changing the settings, schemas other than by identity |
| `tuples.h` (handles), `src/managed.cxx` (clones, moves), `ro.cxx:189-205` | `Handle` | allocation tags, finding the basis by addresses |
| `tuples.h` and `src/managed.cxx` (who owns which buffer), `buffer.cxx`, `rw.cxx` (destructor), `autogrowth.cxx` | `Owner`, `OwnerTuple` | several threads (see `Buffer`), the part of `peek_basis` that recognizes a modifiable form by its content: every block here holds one |
| `tuples.h`, `rw.h`: comparison of handles | `HandleCmp` | |
| `string_view.h`: conversions from and to standard strings | `StdText` | assertions on sizes above `INT_MAX`, overload resolution |
| `src/tablets.cxx`, `details/meta.h` | `Numeric` | |
| `src/compat_common.cxx`, `details/legacy_compat.h`, `src/debug.cxx` `to_string` of `fptu_error` | `Capi`, `CapiRw`, `LastError` | no memory for a message, end of a thread |
| `src/compat_rw.cxx`, `src/compat_ro.cxx`, `src/compat_field.cxx` | `CapiRw`, `CapiCmp`, `CapiTake` | iteration (`fptu_first`/`next`: `Capi`), null pointers as tuple arguments |
| `src/1Hippeus/buffer.cxx`, `1Hippeus/utils.cxx`, `details/tagged_pointer.h` | `Buffer`, `BufferOrder`, `Memory` | real allocators |
| `src/1Hippeus/utils.cxx:175-194, 237-271` | `Pages` | what the system does with the vectors; offsets beyond 2^63 |
| `src/CMakeLists.txt:226-228` (meaning of `-ffinite-math-only` for `rw.cxx`, `rw.h`) | `FastMath` | other effects of `-ffast-math` |
| `erthink/erthink_defs.h:382-395` (meaning of the attribute), `details/rw.h:1038-1046` | `PureCalls` | what a particular compiler does; removals that throw |
| `erthink/erthink_bswap.h`, `erthink/erthink_endian.h` | `ByteOrder` | branches with compiler built-ins |
| `src/1Hippeus/hipagut.cxx`, `1Hippeus/hipagut.h`, `1Hippeus/hipagut_allocator.h`, `src/1Hippeus/allot_stdcxx.cxx`, `buffer.cxx` (creation, validation, release) | `Guard` | deep checking (page probes), buffers with separate payload, big-endian layout |
| `erthink_short_alloc.h` | `Arena` | checkpoints and fills of debug builds |
| `tuples/string_view.h` | `StringView` | stream output |
| `types/datetime.h`, `src/time.cxx` | `Datetime`, `Seconds` | the system clock |
| `src/debug.cxx` `to_string` of datetime and `fptu_lge`, `src/misc.cxx` `to_string` of `genus` | `Print` | `snprintf` and `gmtime_r` are what the standards say; printing of fields is compiled out (`#if 0`) |
| `erthink_{u2a,misc,mul,carryadd,clz,bswap}.h` | `Arith` | `a2d`, casts |
| `details/utils.h`, `types/ip_address.h`, `details/meta.h` `unit_n`, `src/misc.cxx` `hexadecimal` | `Utils` | `bitset_mask`, hash helpers, big-endian order |
| `src/misc.cxx:97-209` (replacements for Elbrus) | `Elbrus` | |
| `src/misc.cxx:51-77` `format`, `src/except.cxx:48-86` | `Message` | the texts of `%p` and `%zd` |
| `details/cpu_features.h`, `src/cpu_features_ia32.cxx`, `src/scan_ifunc.cxx` | `Cpu` | other compilers, `clflush_size`, `apic_id` |
| `erthink_d2a.h` | `D2a` | the variant `ERTHINK_D2A_AVOID_MUL` (off by default), `output_double` |
| `src/gperf_ECMAScript_keywords.h` | `Keywords` | its caller `src/TODO/json_emit.cxx` (`#if 0`) |

Not modelled at all: the lookup of fields inside of inlay fields (schema.cxx:306-316, not implemented: it throws inside a `noexcept` function and so ends the process), the messages of `src/except.cxx` except those about damaged tuples, the rest of `src/debug.cxx` and `src/misc.cxx` (printing).

## Plan per property

| id | what is modelled | how it is proved |
|----|------------------|------------------|
| C01, C02 | `essentials.h` tag packing, `token.h` constructors, order, hash | arithmetic on bit fields for all 32-bit tags |
| C03 | reference scan, unrolled scan, SSE2/AVX/AVX2 loops with lane masks | each loop refines "first index matching" by induction on length; loads recorded, proved in range; `Model/ScanFloat` has the floating-point comparison of the AVX loop in both denormal modes (`C03_avx_lanes`, `C03_avx_float_partial`) |
| C04–C06 | `field.h` string/varbin/property/nested `store`, `length`, `brutto_units` over cells | round-trip for all byte lists; varbin is refuted with a witness, and a `_partial` theorem for length divisible by 4 |
| C07, C08 | `audit.cxx` incl. `map_insert` interval map and its bounds checks | loop invariant over the interval list; C08 refuted with a witness buffer |
| C09–C16 | `gear.cxx` allocator in full, `assign_field_value`, `append_field`, `erase` | coverage-count invariant: for each address the number of chunks covering it is 1 inside the payload area and 0 outside; per-function Hoare specifications; induction over histories. The unguarded claim is false for the code (see Findings): negation proved, `_partial` for histories that avoid the defective branch |
| C17, C18 | `compactify`, `sort`, `optimize` | content-preservation by induction over chunks; sort refuted |
| C19 | `take_asis`, `create_from_ro` | composition of allocator invariant with the audit model |
| C20 | null-handling decision logic in getters/setters | case analysis for all genera and values |
| C21, C22 | numeric setters/getters | integer arithmetic for all values |
| C23, C24 | `erthink` helpers | arithmetic, all operands |
| C25 | `datetime.h` | fixed-point arithmetic; exact claim refuted, rounding bound proved |
| C26 | reference counter of `hippeus::buffer` | transition system with arbitrary thread count; invariant over all schedules |
| C27, C28 | bit packing of `buffer_tag`, `tagged_pointer` | arithmetic; C28 refuted for nonzero tags |
| C29 | `string_view` comparison | order laws on lists |
| C30 | `schema.cxx` definitions and searches | invariant over definition sequences; binary-search correctness; imported definitions compared with their sources |
| C31, C32 | iterators over fields, loose fields and collections (`Model/Iterate.lean`) | refinement to list filtering |
| C33 | `manage_space_deficit` and the retry loop (`Model/Grow.lean`) | a growth is a movement of the content (`Moved`) after a compaction; induction over attempts; refutations for the new buffer |
| C34 | handles: construction, clones, taking read-only forms (`Model/Handle.lean`) | case analysis over modes for all buffers; copies through C19, optimization through C17; refutations |
| C35 | `uintptr_applier` | byte-level refinement of word loops |
| C36–C38 | `compat_*.cxx` | refinement to list filters; order laws; loop invariant of `fptu_erase`; refutations |
| C46–C48 | `compat_rw.cxx`, `compat_ro.cxx`, `compat_field.cxx` | reduction to C09–C15 (storing), C19 (loading), C04 (texts); refutations |
| C49–C52 | `erthink_d2a.h` (`Model/D2a.lean`) | all 2098 exponents of the table by `decide +kernel`, digit generation by induction over the loops, rational error bounds, gaps between doubles; refutations |
| C53–C55 | guard marks, guarded allocator, buffers (`Model/Guard.lean`) | full period of the generator by doubling; exclusive-or patterns by a decision procedure over signed digits plus whole-table `decide +kernel`; byte memory |
| C56 | `allocation_arena`, `short_alloc` (`Model/Arena.lean`) | invariant over all sequences of operations; refutations |
| C39 | type tables | whole-table `decide` + lossless conversion for all values |
| C40, C41 | size queries, creation | arithmetic |
| C45 | `estimate_tuple_size` | arithmetic over all token lists |
| C44 | `set_number(float/double)` on integer fields, `roundtrip_bounds` | rational arithmetic, all arguments |
| C57–C59 | setters, inserters and getters of reals, dates, booleans, enumerations (`Model/Real.lean`); the conversion `double` to `float` on bit patterns | rational error bounds of the rounding, then reduction to C09/C10 |
| C60 | byte tests, powers of two, rounding (`Model/Utils.lean`) | induction over sizes, bitwise lemmas |
| C61 | `hexadecimal` | induction over the data |
| C62 | network addresses, `unit_n::read`/`write` | arithmetic on bytes; the overread is refuted |
| C63 | lookup, field getters and comparisons of the C API (`Model/CapiCmp.lean`) | reduction to C19 (serialized tuple) and C37 (order) |
| C64 | tags and names of the C API | arithmetic on tags, whole table of types |
| C65 | stored bytes of values of variable size over all histories (`Lemmas/Image.lean`, `Lemmas/Exact.lean`); also C05 and C48 for all histories | invariant `Exact`: every such field holds exactly what storing some value leaves; the format `image` is stated independently |
| C66 | `accessor_rw` of loose fields (`Model/Accessor.lean`) | both programs, through the accessor and by token, are run on the same script; invariant: the accessor holds what a lookup finds |
| C67 | `collection_iterator_rw`, `erase(iterator)`, a user's loop over a collection (`Model/Accessor.lean`) | frame of an assignment through any pointer (`assignAt_spec`), induction over the index for the loop |
| C68 | sequences of `set`/`insert`/`erase` and `compactify` with exceptions caught (`life`, Props/Book.lean) | a book of values (`Book.run`) simulates the tuple: one step by C09-C11 and the frame `step_stay`, induction over the sequence; preplaced fields by disjoint slots; whole lives with growth, reservation, transfer through the serialized form, sorting and reset (`Story`, Props/Story.lean) by composition with C33, C18 and C17 |
| C69 | two tuples with the same used part in buffers of different contents (`SameUsed`, Props/Isolation.lean); sorting, growth and whole lives with growth, where the contents of each new buffer differ too (Props/IsolationGrow.lean) | two-run simulation (`Twin`, `Sim`: Lemmas/Twin, TwinRw, TwinCompact): the runs agree on a growing set of units that covers the used part, and each unit outside of it still has its old contents; `C69_overrun_refuted` and `C69_read_refuted` for the code as it is |
| C70 | schema definitions (Model/Schema), byte-exact construction and reset (`createFor`, `createNewFor`, `resetFor`, Model/Serial), getters (Model/TupleRW) | composition of C30 (initial image), the byte-level memory lemmas and the slot invariance of C68 (Props/Initial.lean); `C70_stretchy_initial_refuted` for initial values of fields of variable size |
| C71 | `is_present` (`isPresent`, Model/Accessor) | reduction to the lookup lemmas and the book of C68 (Props/Present.lean); `C71_preplaced_refuted`: inverted for preplaced fields |
| C72 | `memcmp`, `strcmp`, `strncmp`, `strlen`, `strnlen` for Elbrus (`src/misc.cxx:97-209`, `Model/Elbrus.lean`) | big-endian numbers compare as their bytes do; induction over words, then the remaining bits of the length |
| C73 | choice of the clock in `fptu_now` (`src/time.cxx:50-131`, `Model/Datetime.lean`) | arithmetic; refuted for -31 … -1 |
| C74 | queries of CPU features and the resolver (`Model/Cpu.lean`) | bit of the register named by the manual, all queries by cases; the choice by cases; refuted for RDRAND and for systems that do not save the wide registers |
| C75 | operators, casts, constructors and kinds of tokens (`Model/Token.lean`, `Model/Tags.lean`) | arithmetic on tags via C01/C02; kinds by the whole table of 32 genera; refuted for tokens of different modes, the default token and holes |
| C76 | `fptu_shrink`, `fptu_take` and the accounting functions of the C API (`Model/CapiTake.lean`) | composition of C17, C18, C19 and C40; refuted for 256 or more fields (a run of 257 operations evaluated by the kernel) and for nulls |
| C77 | the variables of a program, blocks with counters, 22 operations on handles with all their exceptions (`Model/Owner.lean`); blocks that hold real tuples (`Model/OwnerTuple.lean`) | invariant (counter = number of variables referring to the block) over programs of any length, contents left open; an executable checker of programs for the cases and refutations |
| C78 | `to_string` of a datetime, names of types and of comparison results (`Model/Print.lean`) | a reader written for the specification inverts the text; calendar in closed form by induction; order of fixed-width digits |
| C79 | assignment of loose and preplaced fields, `reallocDataWith` | overwriting lemma for memories; case analysis of absent, present of the same size, present and shorter (`Lemmas/Replace.lean`) |
| C80 | erasure, `compactify`, `optimize`, `sort` repeated; sequences of assignments, insertions, erasures and compactions | junk counters zero after compaction; sortedness after sorting; the book of C68 splits into independent histories of the words |
| C81 | the order of the loop over a collection under insertion, erasure and assignment through iterators, other operations, compaction, serialization | addresses of the entries as a sorted list, one address inserted or removed; without holes the new entry is below all; histories by induction |
| C43 | perfect hash of reserved words (`Model/Keywords.lean`), reads of unreadable bytes are undefined behaviour | whole table by `decide +kernel`, then all texts by the hash; refutations |
| C82 | the operators `==`, `!=` of all handle kinds and `take_weak_asis`, on the programs of C77 (`Model/HandleCmp.lean`) | from the invariant of C77 (a handle's pointer lies in its buffer, modifiable tuples are alone); two concrete programs for the refutations |
| C83 | constructors from C and standard strings, conversions back, iterators, comparison with `std::string` (`Model/StdText.lean`) | induction over the loops; equality and order from C29 |
| C84 | Accessor, token, type, identifier of the iterators over fields and their comparison with tokens (Model/IterField), on top of the positions of Model/Iterate and the searches of Model/Schema; dereferencing at a hole violates an assertion and is undefined behaviour | `C84_loose`, `C84_preplaced`: the accessor reads what the getters read; `C84_equal`, `C84_search`: where an iterator is equal to a token, as a list in the order of the loop; `C84_token_partial` through `C30_by_offset_partial` and `C30_by_loose_partial`; refutations with holes and with four loose fields |
| C85 | The counter as one location of the C++ memory model (modification order, loads seeing any modification not older than known, `__sync_*` as read-modify-writes with full barrier), accesses to the payload as events, happens-before per thread (Model/BufferOrder) | Inductive invariant over all schedules (Lemmas/BufferOrder): an owner never sees an outdated one, every access is known to an owner or published by the counter. `C85_release_partial`, `C85_release_acquire`, `C85_alterable`; refutations by a schedule of two threads |
| C86 | Address, size and alignment of the object `get<>` casts the field to, and the return types of the 37 getters at each level (Model/Refers); sizes and alignments of x86-64 | Case analysis over the places with the layout theorem (C12) and the schema's alignment (induction over definitions); the table of getters as a whole |
| C87 | `Model/Pages`: the loops of `probe_pages` and `prefault_oomsafe`, with an arbitrary action of other threads before each load and before each exchange, and arbitrary answers of the system | induction on the loops: `C87_inside`, `C87_unchanged`, `C87_pages` (exact condition), `C87_aligned_partial`, `C87_pages_refuted`, `C87_prefault`, `C87_prefault_partial` |
| C88 | `Model/ByteOrder`: the portable `bswap` functions on bit vectors, the test of the preprocessor with macros that may be undefined, the conversions, the mapped IPv4 address | bit by bit: `C88_swap`, `C88_swap_arith`, `C88_convert_partial`, `C88_convert_iff`, `C88_macros_refuted`, `C88_mapped_partial` |
| C89 | `Model/Seconds`: conversion of integers to `double`, `std::ldexp` and addition of non-negative `double`s, `fractional_seconds`, `seconds` | rational arithmetic over the rounding of `Lemmas/Real`: `C89_nearest`, `C89_exact`, `C89_clock`, `C89_monotone`, `C89_fractional`, `C89_exact_refuted`, `C89_whole_partial` |
| C90 | `Model/PureCalls`: the executions that the attribute `pure` allows for programs of `remove`, `is_present` and other calls | induction over programs and executions: `C90_plain`, `C90_allowed`, `C90_fenced_partial`, `C90_inline_refuted` |
| C91 | `Model/FastMath`: the setters with floating-point arguments, compiled with `-ffinite-math-only` or not | case analysis over numbers and types; the strict case is the model of C57 (`C91_strict`): `C91_finite_partial`, `C91_infinity_integer`, `C91_double`, `C91_infinity_refuted`, `C91_nan_refuted` |
| C92 | `Model/Message`: `format_va` over `vsnprintf` and a `std::string` of any capacity, the constructors of `bad_tuple_ro`, `bad_tuple_rw`, and `ensure`, `reset`, `make_from_buffer` with the messages of `Model/Audit` | every refusal of the validation carries a non-empty text (induction along the validation); `C92_format`, `C92_format_refuted`, `C92_ensure_partial`, `C92_open_partial`; with `C12_audit_partial` the opposite for `reset` (`C92_reset_refuted`) |
| C93 | `Model/LastError`: the texts of exceptions, the error of each thread as code, text and count of changes; every function of the C API that can fail as a step on it; `to_string(fptu_error)` | induction over the calls of all threads, cases over calls and outcomes; texts of codes by reading the number back | partial: nine kinds of failure leave the last error as it was, messages are gone after the next failure, `FPTU_ENOMEM` has no text (all refuted) |
| C94 | `Model/Defaults`: the tables of scales, the constructors by scale on top of `Serial` and `Grow` | from C41 and C19 by the tables; the refutations for all schemas and all histories | partial: the largest scale does not go together with a schema |
| C95 | `Model/Defaults`: the settings, the schemas destroyed, the tuples made; a program as a list of calls | induction over the program, against the settings and tuples computed from the text of the program | partial: a later `setup` destroys the schema of existing tuples, and iteration goes by the default schema of the moment |
| C96 | `Model/Shortage`: `compactify` with a heap that may refuse the vector between its passes | the first pass by the lemmas of C17; rejection by showing that the validation finds no volume of holes without holes |

## Findings (disagreements between code and property)

Each is a theorem with a concrete witness or a general refutation.

* C03: the AVX scan reads two bytes past the end of the index (`C03_scan_AVX_refuted`).
* C03: the AVX scan compares entries as floating-point numbers, which are all denormal. In a thread with the denormals-are-zeros flag of
  `MXCSR` set, as programs linked with `-ffast-math` have it, every search of a non-empty index answers with the first entry (`C03_avx_mode_refuted`).
* C05: the length of a binary blob whose length is not divisible by 4 is read back wrong (`C05_length_refuted`).
* C07: `audit` accepts bytes that are no payload of any field when the tuple has no payload at all (`C07_unaccounted`), a
  stretchy header outside of the buffer (`C07_header_outside`), two fields sharing one unit (`C07_overlap`), a binary blob
  whose stored length exceeds its chunk (`C07_varbin_overread`), any bytes as a nested tuple (`C07_nested_unchecked`).
* C08: `audit` reads the header of a stretchy payload before checking that it is inside the buffer (`C08_reads_refuted`).
* C12: the validation of mutable tuples terminates the process on a valid tuple when the number of index entries plus the
  number of stretchy preplaced fields of the schema exceeds 8191 (audit.cxx:91; `C12_audit_aborts`).
* C09, C10, C12, C14: `alloc_loose` (src/gear.cxx:300) moves the rest of a partly used hole by the size of the rest instead
  of the size of the used part. Five operations suffice to overwrite the value of an unrelated field
  (`C09_set_refuted`, `C10_insert_refuted`, `C12_layout_refuted`); space is lost forever (`C14_reclaim_refuted`).
* C69: by the same defect the rest of a hole near the end of a full buffer may reach behind the buffer; the next value put there is
  written out of bounds (`C69_overrun_refuted`: five operations, three units). The getter of binary blobs reads the memory behind a
  full buffer (`C69_read_refuted`, consequence of C05). The constructor copies exactly the
  bytes of the initial image, so up to three bytes behind it keep what the uninitialised buffer contained and get into the serialized
  form (`C69_padding_refuted`).
* C70: an initial value given for a preplaced field of variable size is accepted and taken as a reference inside of the tuple; the
  field of a new tuple then reads as whatever the buffer contained (`C70_stretchy_initial_refuted`).
* C12: `realloc_data` (src/gear.cxx:591) compares the start of the released chunk with the end of data, not its end; the
  tuple gets a hole beyond the end of its data (`C12_swap_refuted`).
* C12, C13: `release_data` (src/gear.cxx:393) counts the junk before the index allocation that may throw
  (`C13_failed_set_refuted`, `C12_release_refuted`).
* C12: a hole of more than 2047 units does not fit its descriptor (include/fast_positive/details/field.h:432-434); with
  assertions off it becomes a text field nobody has set (`C12_big_hole_refuted`, `C12_phantom_field`). All theorems about absence of
  undefined behaviour (C11, C12, C15, C36, C46, C67, C79) carry the matching condition that the junk and the values dropped by the step have
  at most 2047 units together (`SmallHoles`, `occupied`).
* C73: `fptu_now(-k)` compares 2^k units of 2^-32 s with nanoseconds (src/time.cxx:104-128); with k = 22 it may read a clock four times
  coarser than requested (`C73_clock_refuted`).
* C74: `has_RDRAND` looks at bit 31 of ECX, which says that there is a hypervisor, instead of bit 30 (cpu_features.h:97, `C74_rdrand_refuted`).
* C74: the resolver does not look at OSXSAVE and XCR0 (scan_ifunc.cxx:40-45); on a system that does not save the wide registers every search is an
  invalid instruction (`C74_choice_refuted`).
* C75: `operator==` of tokens compares the modes too, while `<`, `>=`, `is_same` and the hash do not (token.h:214-258): tokens of one field with
  different modes are mutually `<=` and unequal (`C75_trichotomy_refuted`).
* C75: the default, invalid token counts as preplaced (text at offset 0) for `cast_preplaced` and every accessor (`C75_default_refuted`).
* C75: `token(offset, hole)` passes the validation (`type > hole`, token.h:360) and violates the assertion `indysize > 0` of `tag_from_offset`
  (`C75_hole_refuted`).
* C76: `fptu_shrink` (and `take_optimized`) sorts the index of a tuple with 256 or more fields by the defective `sort` of C18; the payload is
  overwritten with zeros, or memory after the buffer (`C76_many_refuted`). Sorting is done although there is no junk.
* C77: `get_nested_managed` of a modifiable tuple hands out a managed read-only handle into the buffer that is still being modified; its
  contents change with the next modification, and may stop being a tuple at all (tuples.h:665-669, `C77_nested_refuted`).
  `x = std::move(x)` empties a `tuple_ro_managed` and releases its buffer (managed.cxx:321-329, `C77_self_move_refuted`);
  `tuple_rw_fixed` guards against that. `get_nested_managed` of an absent nested tuple throws `logic_error`, where `get_nested_weak`
  gives a hollow handle (`C77_absent_refuted`). The constructor of `tuple_rw_managed` from a read-only handle is `noexcept`
  although it throws for hollow handles and whenever a copy fails (tuples.h:1175-1176, `C77_hollow_refuted`).
* C11: `exist()` of preplaced fields returns `is_null()` (getter.h:212-217), hence `erase()` never removes a present
  preplaced field (`C11_preplaced_fixed_refuted`, `C11_preplaced_stretchy_refuted`); `is_present` of a preplaced field answers
  the opposite for the same reason (`C71_preplaced_refuted`, `C71_preplaced_stretchy_refuted`).
* C19: a tuple of 65535 units can be built but its serialized form is rejected (`C19_too_large_refuted`); loading with a reserve
  may set the end of data beyond the end of the space (`C19_overflow_refuted`); a large tuple with a preplaced schema
  cannot be loaded at all (`C19_recreate_refuted`).
* C17: `compactify` does not check that a stretchy field has a payload: a null in the index that has to move
  (src/gear.cxx:795, `C17_null_refuted`) and an unset stretchy preplaced field (src/gear.cxx:842, `C17_preplaced_refuted`) are
  undefined behaviour; an assertion fails on valid tuples with a full index (src/gear.cxx:802, `C17_assertion_refuted`).
* C18: `sort` creates its vector with as many zero items as the index has entries and then appends the entries
  (src/gear.cxx:923), so writing back zeroes the units after the index: preplaced fields and payloads
  (`C18_overwrites_refuted`, `C18_sort_refuted`).
* C20: -0.0 of a loose `float`/`double` field without NULLs reads back as +0.0 (`C20_negative_zero_refuted`).
* C21: `set_unsigned(int64_t)` and `insert_unsigned(int64_t)` call `set_integer`/`insert_integer` and so refuse every unsigned field
  (rw.h:529, rw.cxx:318; `C21_unsigned_int64_refuted`, `C21_unsigned_int64_signed_refuted`); 128-bit arguments are cut to 64
  bits (`C21_int128_refuted`); the saturation flag has no effect (`C21_saturation_refuted`).
* C39: `u8` is declared convertible from `i8` instead of `u8` (meta.h:297; `C39_convertible_refuted`). 64-bit times are declared convertible to 32-bit ones, which drops their fraction (`C39_time_refuted`).
* C44: the fraction of a floating-point argument is dropped without notice (part of `C44_set_real_partial`).
* C57: the sign of a zero is lost in loose fields without NULLs (`C57_negative_zero_refuted`).
* C58: a 32-bit time field silently drops the fraction of a second (`C58_seconds_refuted`); `insert_datetime` refuses collections of
  32-bit times, though `set_datetime` serves the type (`C58_insert_refuted`).
* C60: rounding up to an alignment gives 0 for sizes close to 2^64 (`C60_ceil_refuted`).
* C62: storing an `ip_net_t` (17 bytes in a field of 20) reads three bytes beyond the argument (meta.h:244, 269; `C62_overread_refuted`).
* C63: the comparisons of the C API do not check the column: column `2048 + c` of a 96-bit field is column `c` of a 128-bit one (`C63_column_refuted`); `fptu_get_cstr` does not store `FPTU_OK` (compat_ro.cxx:122-132, `C63_error_refuted`).
* C64: `fptu_make_tag` with a column above 2047 makes a tag of another type (`C64_tag_refuted`); `fptu_bool`, `fptu_ip`, `fptu_mac`, `fptu_ipnet` have no name (`C64_name_refuted`).
* C16: with a full index, resizing is not best fit: a value at the end of the data stays there although a gap could hold it, and of two gaps of the exact size the first in index order is used (gear.cxx:567-612, `C16_full_refuted`).
* C65: units of erased values are in the serialized form of a tuple with junk (`C65_traces_refuted`).
* C66: an accessor whose field is changed by token goes stale silently: a field that is no collection gets stored twice, or
  the value of another field is overwritten (`C66_stale_refuted`).
* C67: `it++` (rw.h:927, getter.h:495) leaves the iterator where it is and returns the next position
  (`C67_postfix_refuted`); an assignment of an empty value through an iterator ends the loop (`C67_update_refuted`).
* C30: `by_loose` never finds the middle token of four or more loose fields (schema.cxx:399-408, `C30_by_loose_refuted`);
  `define_preplaced_fixed_opacity` reserves no space, is undefined behaviour without an initial value and violates an assertion
  for 3 bytes (`C30_opacity_refuted`); `import_definition` cannot fill a gap and may misplace an initial value
  (`C30_import_gap_refuted`, `C30_import_image_refuted`), and accepts the invalid token (`C30_import_invalid_refuted`); `get_name`
  violates its assertion for a token with other flags (`C30_get_name_refuted`); the backward walk goes wrong in preplaced
  areas of 16384 bytes and more (`C30_prev_refuted`).
* C45: `estimate_tuple_size` counts neither the tuple header next to preplaced fields nor the headers of values of variable size
  (`C45_refuted`, `C45_stretchy_refuted`).
* C31: units of the index freed by an erase are visited as fields (`C31_holes_refuted`); a schema whose first preplaced field is
  not at offset 0 makes `begin` refer to no field (`C31_begin_refuted`); the walk backwards skips fields in preplaced areas of
  16384 bytes and more (`C31_backward_refuted`); postfix `++`/`--` do not move the iterator, and for loose fields return a
  position in the wrong direction (`C31_postfix_refuted`); `it[n]` pairs a field with the token of another (`C31_index_refuted`).
* C33: a growth into a new buffer forgets the junk counters (autogrowth.cxx:174-191, `C33_junk_refuted`); the managed unset of a
  preplaced field with a full index damages another field (`C33_drop_refuted`); the `realloc` variant sets the end of the
  buffer to 2^32 - 10 units (autogrowth.cxx:139-167, `C33_realloc_refuted`); a growth within a large buffer makes `reset` throw
  (`C33_reset_refuted`); with preplaced fields a growth fails far below the limit (`C33_preplaced_refuted`); near the limit
  the payload is copied beyond the end of the new buffer (`C33_overlap_refuted`).
* C34: `tuple_ro_managed::clone` validates by default exactly when no schema is given, contrary to its comment
  (managed.cxx:468-473, `C34_clone_default_refuted`); without validation it assumes a source without holes
  (managed.cxx:479, `C34_clone_holes_refuted`); `take_weak` and `take_managed_clone` optimize when told not to
  (tuples.h:852-855, 885-894, `C34_take_weak_refuted`). A clone of a managed handle for another schema is not checked
  against that schema, and one into another kind of buffer without a schema is checked without the schema of the source
  (managed.cxx:359-378, `C34_clone_managed_refuted`).
* C36: `fptu_erase` with a single type erases only the first field of the type (`C36_erase_tuple_type_partial`).
* C38: `fptu_upsert_nested` makes a token for opaque binaries and always fails (compat_rw.cxx:342-352, `C38_upsert_nested_refuted`);
  `fptu_field_as_iovec` counts units for fixed-size fields and includes the header of the encoding in texts and binaries
  (`C38_iovec_fixed_refuted`, `C38_iovec_stretchy_refuted`).
* C46: `fptu_insert_96` ... `fptu_insert_256` of zeros report success and insert nothing (`C46_insert_binary_refuted`); 64-bit arguments of the
  32-bit functions are cut silently (`C46_int32_refuted`).
* C47: `fptu_fetch` takes every source for one without holes (compat_rw.cxx:149, `C47_fetch_refuted`); `fptu_get_buffer_size` is `noexcept`
  and throws (`C47_buffer_size_refuted`).
* C48: the C string of an empty text is the null pointer (`C48_empty_refuted`), texts are cut at zero bytes (`C48_nul_refuted`), and a later call may change
  what an earlier result shows (`C48_later_refuted`).
* C50: a one-digit number in exponential form has no digit after the point, `1.e+22` (erthink_d2a.h:677, `C50_digit_refuted`); the thresholds 15
  and -15 pass the compile-time checks and use characters never written or outside of the buffer (`C50_threshold_refuted`).
* C51: the conversion of a 32-bit fraction shifts by a negative amount (erthink_d2a.h:179, `C51_fixedpoint_refuted`).
* C52: the accurate text is not always the nearest (`C52_nearest_refuted`) nor free of superfluous zeros: 0.001 is `10e-4` (`C52_shortest_refuted`).
* C54: for every signature there are two different accepted marks with the same second half, so damage of several bytes may pass
  (`C54_damage_refuted`); damage of a single byte never does.
* C56: blocks released in the order of their allocation leave the arena in use (`C56_order_refuted`); a request near 2^64 bytes wraps
  around and is "served" (`C56_huge_refuted`).
* C40: `netto_size` subtracts a number of units from a number of bytes (`C40_netto_refuted`).
* C41: space requested at creation may silently not be there (`C41_capped_refuted`, `C41_rounding_refuted`); a tuple created for
  no items cannot be reset (`C41_reset_refuted`).
* C23: `i2a` of the smallest integer is undefined behaviour (`C23_i2a_min_undefined`).
* C25: conversion of fractions of a second loses a unit (`C25_roundtrip_refuted`).
* C26: 2^31 - 1 simultaneous references overflow the counter (`C26_counter_overflow`).
* C28: the tag of a tagged pointer is lost (`C28_tag_lost`); `set_tag` with a nonzero tag puts its bits over the pointer (`C28_set_tag_refuted`).
* C79 `C79_shorter_refuted`: replacing a value by a shorter one throws `insufficient_space` when the index is full and
  the value is not the last one of the data: the rest of its room needs an index entry to be remembered in (`realloc_data`).
* C81: the order of a collection is not the order of insertion: a new value takes the index entry an erased field left, wherever it is
  (`C81_newest_refuted`), and sorting may permute equal keys (`C81_sort_refuted`). A token that is no collection then reads an older value.
* C43: the recognizer of reserved words compares with `strcmp`, ignoring the length: a view of `in` inside `in x` is not recognized, and the byte
  behind the view is read (`C43_view_refuted`); characters above 127 index its table of 128 entries (`C43_ascii_refuted`); `null`, `true`, `false`,
  `await` are missing (`C43_words_refuted`). Its only caller is switched off by `#if 0`.
* C82: a weak handle stays equal to the modifiable tuple it was taken from although it shows stale content, when a change leaves
  the beginning of the index in place (`C82_stale_refuted`); comparing a modifiable handle whose tuple was moved away with a read-only
  one, or any modifiable handle with a hollow one, accesses members through a null pointer (`C82_empty_refuted`).
* C83: a nil view converts to an empty `std::string` but compares unequal to it, and comes back from `std::string_view` as an
  empty, not nil, view (`C83_nil_refuted`); the order of views is not the order of strings: `"b" < "aa"` (`C83_order_refuted`).
* C83: `tuple[token] = array` for an array of characters looks for a zero byte instead of using the size of the array, and reads beyond
  an array that is filled up (rw.h:859-863, `C83_array_refuted`).
* C84: after an erase, a loop over all fields that looks at each of them (`*it`, `field_token(…)`) reaches a hole, where the
  assertion of `make_tag` fails; without assertions a token with the reserved type is made. `field_token(schema)` reports
  `schema_no_such_field` for a field that is in the schema if the schema has four or more loose fields (the search behind C30).
* C85: `ref_counter` is a plain `volatile` integer; the test `ref_counter != 1` in `detach` and the one in `is_alterable()` have no
  acquire barrier.  When another thread has used the buffer and dropped its reference, the last owner may release the buffer
  (`drown`, `repay`) or alter it in place without that use being ordered before: a data race, harmless on x86 only.
* C86: 64-bit values, IP addresses and 128-bit integers are read through pointers to their C++ types although payloads and preplaced
  fields are aligned to 4 bytes only (meta.h:168-177, 218-227; getter.h:418, 424; schema.cxx:204-210): undefined behaviour
  (`C86_aligned_refuted`, `C86_aligned_preplaced_refuted`).
* C86: `get_int128` and `get_uint128` of the handles return a reference to a temporary (tuples.h:273-274, 639-640;
  `C86_alive_refuted`).
* C87: probing starts at the first byte of the range and goes on in steps of a page, so for a range that does not begin at a page the
  last page may be missed: of 8192 bytes that begin 48 bytes behind the start of a page, the third page is not accessed
  (`src/1Hippeus/utils.cxx:178`). Deep checking passes the payload of a buffer, which follows a header and need not begin
  at a page. `C87_pages` tells exactly when no page is missed.
* C88: `erthink_endian.h:25-28` demands the macro `__BYTE_ORDER__`, but line 74 tests `__BYTE_ORDER` and `__LITTLE_ENDIAN`, and
  `<endian.h>` is included only if the compiler does not define the former. Where no other header defines the latter, both count
  as 0 and big-endian machines are taken for little-endian ones (`C88_macros_refuted`).
* C88: the portable branch of `bswap16` reads `return return` (erthink_bswap.h:85), so compilers without a built-in reject it.
* C89: `seconds()` gives the same number for different moments, and the next second for the last moments of a second (`C89_exact_refuted`).
* C90: `tuple_rw::remove` (rw.h:1038) is declared `__pure_function` although it removes a field. The attribute lets the compiler leave out
  `erase(static token)` when its result is not used, and answer `is_present` after a removal with the answer from before (`C90_inline_refuted`).
  The model is the documented contract of the attribute; no particular compiler was tried.
* C91: `src/CMakeLists.txt:226-228` compiles the library with `-ffast-math`, under which `std::isinf` and `std::isnan` are constants. The
  library's `set_float(token, infinity)` then throws `value_range` for `float` fields although the inline function stores the infinity
  (`C91_infinity_refuted`), and `set_number(token, NaN)` of an integer field converts the NaN, which is undefined behaviour
  (`C91_nan_refuted`). C57 and the theorems about integer fields hold for infinities and NaN only without the option (`C91_strict`).
* C92: `reset` of a valid tuple that it does not accept (created for no loose fields, `C41_reset_refuted`, or grown within a large buffer, `C33_reset_refuted`)
  asks the validation for the reason, gets a null pointer, and gives it to `%s` (except.cxx:77, 84-85): undefined behaviour, or, where the C library
  prints something for it, `fptu::bug` instead of `bad_tuple` (`C92_reset_refuted`). The `reset` of the handles is `noexcept` (tuples.h:813), so the process ends (`C92_handle_reset_refuted`).
* C93: `fptu_alloc` (too large, no memory), `fptu_init`/`fptu_clear` of null, `fptu_erase` with a wrong column, `fptu_check_and_get_buffer_size` of a damaged tuple and others fail without setting the last error, which then tells of an older failure or of none (`C93_silent_refuted`).
* C93: `cbfs->err_msg` and the result of `fptu_last_error_msg` point into a string that the next failure of the thread overwrites or frees (`C93_message_refuted`).
* C93: `FPTU_ENOMEM` prints as `invalid(fptu_error)12` (debug.cxx:34-47); on Linux "no field" and "no space" are named after `ENOENT` and `ENOSPC` while their numbers are `ENOKEY` and `ENOBUFS` (`C93_text_refuted`).
* C94: with any schema that has a preplaced field, `tuple_rw_fixed(extreme, schema)` always throws `tuple_too_large`: the bytes of the scale are passed without subtracting the preplaced area (managed.cxx:72-80), while `estimate_space_for_tuple` subtracts it (`C94_extreme_refuted`).
* C94: at scale `extreme` a serialized tuple with a schema opens only while it holds at most 32764 bytes, the preplaced area counted twice (`C94_open_refuted`, `C94_open_witness_refuted`).
* C95: `defaults::setup` destroys the default schema at once, while tuples made with it keep the plain pointer: the next use of such a tuple is use after free (managed.cxx:26-32, rw.h:216, `C95_lifetime_refuted`).
* C95: `for (auto f : tuple)` over a read-only tuple goes by the default schema of the moment, whatever the tuple was made with; over a tuple
  with less preplaced data it visits and reads places outside of the tuple (tuples.h:338-348, `C95_walk_refuted`).
* C96: `compactify` removes the holes from the index before it asks for the memory of its vector (gear.cxx:769-827), although the comment at lines 758-762
  says that the steps cannot be separated. If more than 256 chunks have to be moved and the heap refuses, `bad_alloc` leaves a tuple that neither the validation
  of mutable tuples nor, once serialized, of read-only ones accepts (`C96_shortage_rejected`, `C96_shortage_refuted`).

The three defects of `src/gear.cxx` are parameters of the model (`Fix`): `Fix.code` is the code as it is, `Fix.repaired`
changes exactly the three lines named above. Theorems named `_partial` hold for both, for `Fix.code` restricted to steps in
which the defects do not show; theorems named `_repaired` hold without restriction for `Fix.repaired`.
