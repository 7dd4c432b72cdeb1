{
 "claims": [
  {
   "property": "C01",
   "status": "partial",
   "theorems": [
    "Verif.VM.C01_fresh_runtime",
    "Verif.VM.C01_layout_partial",
    "Verif.VM.C01_layout_any_state",
    "Verif.VM.C01_heap_overflow_accepted",
    "Verif.VM.C01_forged_frame_leaves_memory"
   ],
   "note": "Invariant over all operation histories. False for two code paths (heapAllocEx address wrap, forged frame cells), which are proved as counterexamples and excluded by hypotheses."
  },
  {
   "property": "C02",
   "status": "proved",
   "theorems": [
    "Verif.VM.C02_store_confined",
    "Verif.VM.C02_load_confined",
    "Verif.VM.C02_frame_confined",
    "Verif.VM.C02_local_to_phys"
   ],
   "note": "Every load/store either fails without effect or touches only bytes of plugin memory."
  },
  {
   "property": "C03",
   "status": "proved",
   "theorems": [
    "Verif.VM.C03_read_own_write",
    "Verif.VM.C03_other_reads_unchanged",
    "Verif.VM.C03_push_pop"
   ],
   "note": "Read-after-write, non-interference, push/pop."
  },
  {
   "property": "C04",
   "status": "proved",
   "theorems": [
    "Verif.VM.C04_call_return",
    "Verif.VM.C04_callee_never_ub"
   ],
   "note": "Well nested instruction sequences of any length and depth inside the callee."
  },
  {
   "property": "C05",
   "status": "proved",
   "theorems": [
    "Verif.VM.C05_scope_restores"
   ],
   "note": "Leaving a scope restores hp and hp_scope for any well nested body."
  },
  {
   "property": "C06",
   "status": "proved",
   "theorems": [
    "Verif.VM.C06_tracker_frees_exactly",
    "Verif.VM.C06_balanced_restores_heap",
    "Verif.VM.C06_never_below_data"
   ],
   "note": "Tracker accounting over balanced runs."
  },
  {
   "property": "C07",
   "status": "proved",
   "theorems": [
    "Verif.VM.C07_invoke",
    "Verif.VM.C07_registers_restored"
   ],
   "note": "Arbitrary callee behaviour."
  },
  {
   "property": "C08",
   "status": "proved",
   "theorems": [
    "Verif.VM.C08_call",
    "Verif.VM.C08_unbound",
    "Verif.VM.C08_combined_call",
    "Verif.VM.C08_replaced_call",
    "Verif.VM.C08_replacement_ignores_count"
   ],
   "note": "Interpreter native-call instructions, for every native behaviour; built-in replacements covered."
  },
  {
   "property": "C09",
   "status": "proved",
   "theorems": [
    "Verif.VM.C09_direct_arrays",
    "Verif.VM.C09_genarray_instruction"
   ],
   "note": "All dimension lists, direct arrays; instruction level theorem included."
  },
  {
   "property": "C10",
   "status": "proved",
   "theorems": [
    "Verif.VM.C10_relative_arrays"
   ],
   "note": "All dimension lists, relative vectors."
  },
  {
   "property": "C11",
   "status": "partial",
   "theorems": [
    "Verif.VM.C11_size_exact_partial",
    "Verif.VM.C11_refused_only_if_too_big",
    "Verif.VM.C11_one_dimension",
    "Verif.VM.C11_margin_underflow",
    "Verif.VM.C11_margin_underflow_ub",
    "Verif.VM.C11_legacy_failure_moves_heap"
   ],
   "note": "Exact size proved when at least 64 bytes of stack are free of the margin; the unsigned margin test is bypassed otherwise (counterexamples proved). The heap pointer is not restored after a failed legacy one-dimensional push (counterexample proved)."
  },
  {
   "property": "C12",
   "status": "proved",
   "theorems": [
    "Verif.VM.C12_init_array",
    "Verif.VM.C12_unaligned_overrun"
   ],
   "note": "Cell aligned addresses, as in the statement; unaligned counterexample proved."
  },
  {
   "property": "C13",
   "status": "proved",
   "theorems": [
    "Verif.VM.C13_string_copy"
   ],
   "note": "string copies into plugin memory: prefix, terminator, nothing else written"
  },
  {
   "property": "C14",
   "status": "partial",
   "theorems": [
    "Verif.VM.C14_utf8_copy_partial",
    "Verif.VM.C14_one_byte_buffer_corrupts",
    "Verif.VM.C14_empty_text_reads_before_memory"
   ],
   "note": "n = 1 and empty text at address 0 excluded; counterexamples proved for both"
  },
  {
   "property": "C15",
   "status": "proved",
   "theorems": [
    "Verif.VM.C15_sdiv",
    "Verif.VM.C15_sdiv_i32",
    "Verif.VM.C15_sdiv_i64"
   ],
   "note": "32- and 64-bit division instructions."
  },
  {
   "property": "C16",
   "status": "proved",
   "theorems": [
    "Verif.VM.C16_bounds"
   ],
   "note": "BOUNDS instruction, all cell values and limits."
  },
  {
   "property": "C17",
   "status": "proved",
   "theorems": [
    "Verif.VM.C17_switch",
    "Verif.VM.C17_order_independent"
   ],
   "note": "Interpreter SWITCH/CASETBL, any table."
  },
  {
   "property": "C18",
   "status": "partial",
   "theorems": [
    "Verif.Graph.C18_boundaries_partial",
    "Verif.Graph.C18_negative_table"
   ],
   "note": "Proved for every accepted method without negative case counts; C18_negative_table proves that the builder accepts a method with a negative count in which the interpreter jumps into the middle of an instruction."
  },
  {
   "property": "C19",
   "status": "partial",
   "theorems": [
    "Verif.Graph.C19_scan_terminates_partial",
    "Verif.Graph.C19_negative_table_diverges"
   ],
   "note": "Proved for every method without negative case counts; C19_negative_table_diverges proves that the scan of a method with one need not end."
  },
  {
   "property": "C20",
   "status": "partial",
   "theorems": [
    "Verif.Verifier.C20_balance_partial",
    "Verif.Verifier.C20_replacement",
    "Verif.Verifier.C20_locals_not_counted",
    "Verif.Verifier.C20_genarray_below"
   ],
   "note": "Proved for every accepted method without negative case counts, with replaced natives called with the right number of arguments: stack pointer = entry - 4*depth(position), depth within the computed maximum, no instruction takes more cells than the depth. Missing parts are refuted: C20_replacement, C20_locals_not_counted (typed stack), C20_genarray_below, C18_negative_table."
  },
  {
   "property": "C21",
   "status": "partial",
   "theorems": [
    "Verif.Verifier.C21_heap_partial",
    "Verif.Verifier.C21_break_bug",
    "Verif.Verifier.C21_heap_amount"
   ],
   "note": "Proved for heap scopes, and for tracker entries when no break bug was excused; C21_break_bug and C21_heap_amount prove that the rest is false of accepted methods."
  },
  {
   "property": "C22",
   "status": "partial",
   "theorems": [
    "Verif.Verifier.C22_globals_partial",
    "Verif.Verifier.C22_unaligned"
   ],
   "note": "Proved for aligned addresses and for all accesses with respect to the memory block; C22_unaligned proves that an unaligned accepted address reads past the data section."
  },
  {
   "property": "C23",
   "status": "proved",
   "theorems": [
    "Verif.Cfg.C23_order",
    "Verif.Cfg.C23_acyclic",
    "Verif.Cfg.C23_entry_cycle_repeats"
   ],
   "note": "For every graph whose entry is not an edge target, and (C25_built) for every graph the graph builder accepts; C23_entry_cycle_repeats shows the hypothesis is needed."
  },
  {
   "property": "C24",
   "status": "proved",
   "theorems": [
    "Verif.Cfg.C24_dominators"
   ],
   "note": "For every graph whose entry is not an edge target (see C23)."
  },
  {
   "property": "C25",
   "status": "proved",
   "theorems": [
    "Verif.Graph.C25_built",
    "Verif.Cfg.C25_reducible"
   ],
   "note": "Accepted exactly when reducible; for every graph whose entry is not an edge target (see C23)."
  },
  {
   "property": "C26",
   "status": "proved",
   "theorems": [
    "Verif.BitSet.C26_bitset",
    "Verif.BitSet.C26_for_each"
   ],
   "note": "All histories of set/unset/take-any/union, and enumeration."
  },
  {
   "property": "C27",
   "status": "proved",
   "theorems": [
    "Verif.Runtime.C27_round_trip",
    "Verif.Runtime.C27_ids_distinct",
    "Verif.Runtime.C27_only_handed_out",
    "Verif.Runtime.C27_in_bounds",
    "Verif.Runtime.C27_null"
   ],
   "note": "round trip, distinctness, null and unknown ids over every history of table operations"
  },
  {
   "property": "C28",
   "status": "proved",
   "theorems": [
    "Verif.Runtime.C28_binding",
    "Verif.Runtime.C28_call",
    "Verif.Runtime.C28_answer",
    "Verif.Runtime.C28_permanent",
    "Verif.Runtime.C28_isolated",
    "Verif.Runtime.C28_rebind",
    "Verif.Runtime.C28_builtins_permanent"
   ],
   "note": "permanence, isolation, replacement and built-in binding over every sequence of binding calls"
  },
  {
   "property": "C29",
   "status": "proved",
   "theorems": [
    "Verif.Image.C29_line",
    "Verif.Image.C29_file",
    "Verif.Image.C29_compiled_line",
    "Verif.Image.C29_compiled_file"
   ],
   "note": "for every table sorted by address; and every table the compiler emits is of that form"
  },
  {
   "property": "C30",
   "status": "proved",
   "theorems": [
    "Verif.Image.C30_native",
    "Verif.Image.C30_public"
   ],
   "note": "both lookups, for every validated name table; duplicates resolved to first (linear) and to a matching index (cached)"
  },
  {
   "property": "C31",
   "status": "proved",
   "theorems": [
    "Verif.Smx.C31_round_trip",
    "Verif.Smx.C31_distinct",
    "Verif.Smx.C31_empty_tail_rejected"
   ],
   "note": "every list of 1 to 255 sections; an empty section at the very end is later refused by the range check (shown)"
  },
  {
   "property": "C32",
   "status": "partial",
   "theorems": [
    "Verif.Smx.C32_section_names",
    "Verif.Smx.C32_confined_partial",
    "Verif.Smx.C32_unused_section_unchecked"
   ],
   "note": "section names: proved for every accepted container. Byte ranges: proved for every section the VM consults; sections nobody looks up are not checked (counterexample proved)"
  },
  {
   "property": "C33",
   "status": "proved",
   "theorems": [
    "Verif.Smx.C33_names",
    "Verif.Smx.C33_names_stable",
    "Verif.Smx.C33_names_total",
    "Verif.Smx.C33_pool",
    "Verif.Smx.C33_pool_stable"
   ],
   "note": "every sequence of additions to the name table and the data pool"
  },
  {
   "property": "C34",
   "status": "proved",
   "theorems": [
    "Verif.Rtti.C34_round_trip",
    "Verif.Rtti.C34_prefix_free",
    "Verif.Rtti.C34_overlong_accepted_then_undefined"
   ],
   "note": "All 32-bit values, all trailing bytes, three readers; prefix free."
  },
  {
   "property": "C35",
   "status": "partial",
   "theorems": [
    "Verif.Rtti.C35_type",
    "Verif.Rtti.C35_view_injective",
    "Verif.Rtti.C35_signature_partial",
    "Verif.Rtti.C35_typeset_partial",
    "Verif.Rtti.C35_type_id",
    "Verif.Rtti.C35_method_signature_misread",
    "Verif.Rtti.C35_fifty_arguments_rejected"
   ],
   "note": "Types and type ids: proved for every type. Signatures and typesets: proved for argument counts below 256 other than 50; fifty arguments are rejected and method signatures are misread by decodeFunction (counterexamples proved)."
  },
  {
   "property": "C36",
   "status": "partial",
   "theorems": [
    "Verif.Rtti.C36_validator_safe",
    "Verif.Rtti.C36_format_decodes",
    "Verif.Rtti.C36_partial",
    "Verif.Rtti.C36_doubled_prefix",
    "Verif.Rtti.C36_doubled_marks",
    "Verif.Rtti.C36_overlong_index"
   ],
   "note": "Validator safety proved for every blob; decoding proved safe for the documented format and for accepted descriptors without embedded function types or overlong integers; counterexamples proved for the rest."
  },
  {
   "property": "C37",
   "status": "proved",
   "theorems": [
    "Verif.C37.C37_folding_agrees",
    "Verif.C37.C37_division_by_zero",
    "Verif.C37.C37_undefined_operands",
    "Verif.C37.C37_constant_expressions",
    "Verif.C37.C37_required_constants",
    "Verif.C37.C37_constant_conditional_rejected",
    "Verif.C37.C37_conditional_reads_uninitialised",
    "Verif.C37.C37_compiler_overflow"
   ],
   "note": "Every operator and operand pair: folded values, refused divisions and the operands for which the C++ expression is undefined; every constant expression, through both evaluators of the compiler. Witnesses show what TernaryExpr::FoldToConstant does with a constant or unset second operand."
  },
  {
   "property": "C38",
   "status": "proved",
   "theorems": [
    "Verif.C38.C38_value",
    "Verif.C38.C38_error",
    "Verif.C38.C38_condition",
    "Verif.C38.C38_condition_error",
    "Verif.C38.C38_effects",
    "Verif.C38.C38_covers_all"
   ],
   "note": "Every expression of the modelled language (integers, globals, one-dimensional global arrays, parameters, locals), in value, condition and discarded position, for every valuation; calls are covered by C57. Expressions without a meaning in the source (undefined shifts) are excluded."
  },
  {
   "property": "C39",
   "status": "proved",
   "theorems": [
    "Verif.C39.C39_follows",
    "Verif.C39.C39_error",
    "Verif.C39.C39_runs_forever",
    "Verif.C39.C39_bound_irrelevant",
    "Verif.C39.C39_break_inside"
   ],
   "note": "Every statement of the modelled language (expressions, declarations, blocks, if, while, do, for, switch, break, continue, return, assert, exit), any nesting, with calls to compiled functions; also errors and non-termination. Statements whose source meaning is undefined are excluded."
  },
  {
   "property": "C40",
   "status": "proved",
   "theorems": [
    "Verif.Labels.C40_linking"
   ],
   "note": "every interleaving of emits, uses and bindings within the 1 GiB offset range; compiler labels and data labels. The JIT assembler labels (vm/label.h) are not modelled"
  },
  {
   "property": "C41",
   "status": "partial",
   "theorems": [
    "Verif.ArrayInit.C41_size_partial",
    "Verif.ArrayInit.C41_row_partial",
    "Verif.ArrayInit.C41_element",
    "Verif.ArrayInit.C41_struct_partial",
    "Verif.ArrayInit.C41_int64_short",
    "Verif.ArrayInit.C41_int64_ellipsis",
    "Verif.ArrayInit.C41_char_braces",
    "Verif.ArrayInit.C41_struct_too_many",
    "Verif.ArrayInit.C41_field_char_braces",
    "Verif.ArrayInit.C41_size_wraps"
   ],
   "note": "Arrays of cells of any rank and any accepted initialiser: in full (C41_element). Characters from strings, fully initialised 64-bit arrays, enum structs: C41_row_partial, C41_size_partial, C41_struct_partial. The rest is false of the code and refuted: C41_int64_short, C41_int64_ellipsis, C41_char_braces, C41_struct_too_many, C41_field_char_braces, C41_size_wraps. Array arguments of type new[] and the type checks of constants are not modelled."
  },
  {
   "property": "C42",
   "status": "proved",
   "theorems": [
    "Verif.Text.C42_cells"
   ],
   "note": "Every string."
  },
  {
   "property": "C43",
   "status": "proved",
   "theorems": [
    "Verif.Text.C43_fits",
    "Verif.Text.C43_too_large",
    "Verif.Text.C43_sound"
   ],
   "note": "Both directions: every literal that fits, every literal that does not, and everything read without a report. Floating point literals are only recognised (number_float), not evaluated."
  },
  {
   "property": "C44",
   "status": "partial",
   "theorems": [
    "Verif.Text.C44_char_partial",
    "Verif.Text.C44_string_partial",
    "Verif.Text.C44_malformed",
    "Verif.Text.C44_overlong",
    "Verif.Text.C44_beyond"
   ],
   "note": "Every text of scalar values. Byte sequences that are not UTF-8 of a text are not all kept: C44_overlong, C44_beyond prove the exceptions, C44_malformed what happens to malformed bytes."
  },
  {
   "property": "C45",
   "status": "partial",
   "theorems": [
    "Verif.Source.C45_line_and_column",
    "Verif.Source.C45_lines_make_up_file",
    "Verif.Source.C45_positions_partial",
    "Verif.Source.C45_distinct_partial",
    "Verif.Source.C45_huge_file"
   ],
   "note": "Every history of opened files, entered files, expanded macros and lookups, and every recorded position, for texts below 2^32 bytes; C45_huge_file proves that larger files break the map. Equality of paths and reading from disk are not modelled."
  },
  {
   "property": "C46",
   "status": "partial",
   "theorems": [
    "Verif.Md5.C46_digest_partial",
    "Verif.Md5.C46_chunks_partial",
    "Verif.Md5.C46_finalized",
    "Verif.Md5.C46_huge_chunk"
   ],
   "note": "Every input and every split into chunks of at most 4294967232 bytes; C46_huge_chunk proves that a longer chunk after others makes update read outside its input."
  },
  {
   "property": "C47",
   "status": "partial",
   "theorems": [
    "Verif.Watchdog.C47_reports_partial",
    "Verif.Watchdog.C47_declared_when_stuck",
    "Verif.Watchdog.C47_watchdog_lives",
    "Verif.Watchdog.C47_stale_timeout",
    "Verif.Graph.C47_backward_jumps",
    "Verif.Graph.C47_no_second_iteration",
    "Verif.Graph.C47_switch_loop_unchecked"
   ],
   "note": "Every timeout is declared and reported at the next poll, and every backward jump polls. C47_stale_timeout proves that a timeout declared in one top-level call can stop the next one; C47_switch_loop_unchecked that a loop through a switch does not poll."
  },
  {
   "property": "C48",
   "status": "partial",
   "theorems": [
    "Verif.VM.C48_call_partial",
    "Verif.VM.C48_pending",
    "Verif.VM.C48_emptied",
    "Verif.VM.C48_int64_is_used_as_pointer",
    "Verif.VM.C48_no_room_drops_outer_scope"
   ],
   "note": "Every argument list of valid cells, references, arrays and strings, and every callee. Not covered because the code is wrong there (proved): 64-bit arguments are dereferenced as pointers (C48_int64_is_used_as_pointer); with under 68 bytes of room the enclosing heap scope is dropped (C48_no_room_drops_outer_scope). Host objects are disjoint and not changed by the callee."
  },
  {
   "property": "C49",
   "status": "proved",
   "theorems": [
    "Verif.Alloc.C49_chunks",
    "Verif.Alloc.C49_request"
   ],
   "note": "For every history of allocations and releases, any page size dividing 2^64 and any addresses the system maps that are free."
  },
  {
   "property": "C50",
   "status": "partial",
   "theorems": [
    "Verif.Alloc.C50_arena_partial",
    "Verif.Alloc.C50_rounding_wraps",
    "Verif.Alloc.C50_buffer"
   ],
   "note": "Byte buffer proved in full. Pool allocator for requests up to 2^64-8 bytes; C50_rounding_wraps proves that larger ones are granted without room."
  },
  {
   "property": "C51",
   "status": "partial",
   "theorems": [
    "Verif.Errors.C51_text_partial",
    "Verif.Errors.C51_one_past",
    "Verif.Errors.C51_distinct"
   ],
   "note": "All codes but 34; C51_one_past proves that code 34 reads past the end of the table."
  },
  {
   "property": "C52",
   "status": "partial",
   "theorems": [
    "Verif.StackUsage.C52_chain_fits_partial",
    "Verif.StackUsage.C52_terminates",
    "Verif.StackUsage.C52_other_chain",
    "Verif.StackUsage.C52_later_entry_first",
    "Verif.StackUsage.C52_pragma_wraps"
   ],
   "note": "Proved for acyclic call graphs and chains from the function the computation starts at; the code only starts at the first entry of an unordered map, so other chains are not counted (C52_other_chain, C52_later_entry_first), and a huge #pragma dynamic wraps (C52_pragma_wraps)."
  },
  {
   "property": "C53",
   "status": "proved",
   "theorems": [
    "Verif.Errors.C53_try_catch",
    "Verif.Errors.C53_nothing_left"
   ],
   "note": "All nested host programs behave like try/catch; the debugger callback and the message length limit are not modelled."
  },
  {
   "property": "C54",
   "status": "proved",
   "theorems": [
    "Verif.VM.C54_round_trip",
    "Verif.VM.C54_case_table",
    "Verif.VM.C54_declared_size"
   ],
   "note": "Every instruction, any operands; case tables of any length."
  },
  {
   "property": "C55",
   "status": "partial",
   "theorems": [
    "Verif.Smx.C55_partial",
    "Verif.Smx.C55_decompress_partial",
    "Verif.Smx.C55_data_offset_unchecked",
    "Verif.Smx.C55_compressed_size_wraps",
    "Verif.Smx.C55_short_code_section",
    "Verif.Smx.C55_short_rows"
   ],
   "note": "proved for files whose data offset, fixed headers and row sizes fit; counterexamples proved for each missing check"
  },
  {
   "property": "C56",
   "status": "partial",
   "theorems": [
    "Verif.Text.C56_letters",
    "Verif.Text.C56_hex",
    "Verif.Text.C56_decimal",
    "Verif.Text.C56_unicode_partial",
    "Verif.Text.C56_unicode_throws",
    "Verif.Text.C56_unicode_dropped",
    "Verif.Text.C56_decimal_overflow"
   ],
   "note": "All escapes; code points that do not exist are not diagnosed (C56_unicode_throws, C56_unicode_dropped) and a long decimal escape overflows (C56_decimal_overflow)."
  },
  {
   "property": "C57",
   "status": "proved",
   "theorems": [
    "Verif.C57.C57_returns",
    "Verif.C57.C57_error",
    "Verif.C57.C57_runs_forever",
    "Verif.C57.C57_one_result",
    "Verif.C57.C57_bound_irrelevant",
    "Verif.C57.C57_host_call",
    "Verif.C57.C57_host_error"
   ],
   "note": "Every program of functions over the modelled language (integer parameters, locals, globals and one-dimensional global arrays), with recursion and mutual recursion: returned values, errors and non-termination, for runs of the interpreter and for calls from the host. That the verifier accepts the functions is a hypothesis (Loaded.valid)."
  },
  {
   "property": "C58",
   "status": "partial",
   "theorems": [
    "Verif.Graph.C58_scan_defined_partial",
    "Verif.Graph.C58_negative_table_overflows",
    "Verif.Graph.C58_negative_table_leaves"
   ],
   "note": "Every code image whose case tables have no negative count; negative counts are not rejected by the code, and the scan then overflows or leaves the method (C58_negative_table_overflows, C58_negative_table_leaves)."
  },
  {
   "property": "C59",
   "status": "proved",
   "theorems": [
    "Verif.Parse.C59_parse",
    "Verif.Parse.C59_read_is_written",
    "Verif.Parse.C59_terminates",
    "Verif.Parse.C59_unambiguous",
    "Verif.Parse.C59_precedence",
    "Verif.Parse.C59_named_default"
   ],
   "note": "named default arguments lose their name (C59_named_default); sizeof, new, array literals and error recovery are not modelled"
  },
  {
   "property": "C60",
   "status": "partial",
   "theorems": [
    "Verif.C60.C60_accepted_partial",
    "Verif.C60.C60_program_partial",
    "Verif.C60.C60_returns_partial",
    "Verif.C60.C60_assert_rejected",
    "Verif.C60.C60_exit_rejected",
    "Verif.C60.C60_endless_while_rejected",
    "Verif.C60.C60_endless_do_rejected"
   ],
   "note": "Proved for every function of the modelled language without assert, exit and constant endless while and do loops; counterexamples are proved for those: the verifier never accepts HALT, which assert and exit compile to, and a function ending in while(1) or do..while(1) left by returning keeps a jump behind its last instruction. Float, array, native-call and heap code of the generator is not in the modelled language."
  },
  {
   "property": "C61",
   "status": "partial",
   "theorems": [
    "Verif.X64.C61_assembler_partial",
    "Verif.X64.C61_excluded_calls_are_wrong",
    "Verif.X64.C61_rsp_index_is_dropped"
   ],
   "note": "Proved for every method without label or absolute address operands, for all registers, operands, displacements and immediates, outside the cases of Call.Encodable; C61_excluded_calls_are_wrong shows that each excluded call is encoded as another instruction. Methods with label and address operands are not modelled."
  },
  {
   "property": "C62",
   "status": "partial",
   "theorems": [
    "Verif.Jit.C62_compiled_instruction_partial",
    "Verif.Jit.C62_compiled_error_partial",
    "Verif.Jit.C62_error_numbers",
    "Verif.Jit.C62_bad_address_number",
    "Verif.Jit.C62_index_escapes",
    "Verif.Jit.C62_remainder_escapes",
    "Verif.Jit.C62_reference_escapes",
    "Verif.Jit.C62_blocks_escape",
    "Verif.Jit.C62_heap_straddles",
    "Verif.Jit.C62_heap_underflow",
    "Verif.Jit.C62_test_float",
    "Verif.Jit.C62_store_two_bytes",
    "Verif.Jit.C62_last_cell",
    "Verif.Jit.C62_bounds_unsigned",
    "Verif.Jit.C62_overlap",
    "Verif.Jit.C62_refused"
   ],
   "note": "Proved per instruction for the 70 instructions that fall through and need no host helper, each through the bytes of the assembler and the decoder of the processor specification; errors for accesses through a register, divisions and bounds. Jumps and errors of whole methods are in C65, calls in C68. Missing: natives, indirection vectors. False outside Side: an index of 2^30, 64-bit remainders, unchecked references and block operations leave the sandbox (witnesses), wrong results for testing a float, two-byte stores, overlapping copies, heap checks near 4 GB."
  },
  {
   "property": "C63",
   "status": "partial",
   "theorems": [
    "Verif.Cond.C63_keeps_what_holds",
    "Verif.Cond.C63_one_answer",
    "Verif.Cond.C63_ends",
    "Verif.Cond.C63_mismatch_reported",
    "Verif.Cond.C63_endinput_in_main",
    "Verif.Cond.C63_second_else_accepted",
    "Verif.Cond.C63_second_else_reported",
    "Verif.Cond.C63_unclosed_header_accepted",
    "Verif.Cond.C63_closing_header",
    "Verif.Cond.C63_closing_header_keeps",
    "Verif.Cond.C63_skipped_lines",
    "Verif.Cond.C63_comment_in_skipped_string"
   ],
   "note": "Proved for every set of well-formed files; mismatches in the main file are reported, but a second #else after a kept part ended by #elseif, a missing #endif in an included file, and (without assertions) a stray #endif in an included file are not; with assertions the last one aborts.  In skipped text a comment start inside a string hides directives.  Conditions and text are abstract; text after a directive and unopenable files are not modelled."
  },
  {
   "property": "C64",
   "status": "partial",
   "theorems": [
    "Verif.X64.C64_jump",
    "Verif.X64.C64_raw",
    "Verif.X64.C64_const",
    "Verif.X64.C64_table",
    "Verif.X64.C64_release",
    "Verif.X64.C64_bind_total",
    "Verif.X64.C64_shared_case_asserts",
    "Verif.X64.C64_shared_case_lost"
   ],
   "note": "Jumps, constants, untouched bytes and switch tables are proved for every sequence of calls in which the assertions of the assembler hold, in debug and release builds alike. The switch-table part is false of a release build when two cases share a block (C64_shared_case_lost; a debug build stops, C64_shared_case_asserts). Thunk calls (call through PatchCodeLabel) and the growth of the buffer are not modelled."
  },
  {
   "property": "C65",
   "status": "partial",
   "theorems": [
    "Verif.Jit.C65_method_partial",
    "Verif.Jit.C65_entry",
    "Verif.Jit.C65_error_partial"
   ],
   "note": "Proved for whole methods: any number of instructions, including jumps, conditional jumps and both forms of switch, at the level of the bytes of the linked image; errors reach the reporting code with number and mapped return address. Calls and returns are in C68. Missing: natives, instructions whose code calls the host; prologue, RETN and the bodies of the handlers are a parameter. Methods with shared or unsupported switch cases do not link (C64)."
  },
  {
   "property": "C66",
   "status": "partial",
   "theorems": [
    "Verif.Jit.C66_exchange",
    "Verif.Jit.C66_follow_partial",
    "Verif.Jit.C66_stops_partial",
    "Verif.Jit.C66_hidden_loop"
   ],
   "note": "Exchanging any of the loop edges succeeds and exchanging again restores bytes and edges; with any subset exchanged the processor follows the interpreter or goes to the timeout path from an instruction of the run, with a return address mapped to it; with all exchanged, and no way back through a conditional jump that does not jump or through a switch, there is a bound on the number of instructions. Missing: such hidden loops (C66_hidden_loop is a verified method that cannot be stopped), calls, returns and natives."
  },
  {
   "property": "C67",
   "status": "partial",
   "theorems": [
    "Verif.TimeoutPatch.C67_reaches_all_partial",
    "Verif.TimeoutPatch.C67_compiled_during_timeout",
    "Verif.TimeoutPatch.C67_woken"
   ],
   "note": "Proved for all interleavings in which no method is linked while a timeout is pending and the watchdog's wait does not end spuriously. Missing: exactly those two, where the code does not keep the property (C67_compiled_during_timeout, C67_woken)."
  },
  {
   "property": "C68",
   "status": "partial",
   "theorems": [
    "Verif.Jit.C68_calls_partial",
    "Verif.Jit.C68_invocation_partial",
    "Verif.Jit.C68_stack_low_partial",
    "Verif.Jit.C68_caller_restored",
    "Verif.Jit.C68_same_frame",
    "Verif.Jit.C68_same_return"
   ],
   "note": "Proved for methods linked to their callees by direct calls, at the level of the bytes in memory, with the native stack, frame pointers and return addresses, to any depth the native stack has room for; the stack error when plugin stack is short; frames equal to those of the interpreter. Missing: calls of natives and other host code, callees compiled on first call (the thunk that is patched), entry from the host. Assumed: the native stack has room (compiled code does not check it), and for the stack error that the memory block is not at the bottom of the address space."
  },
  {
   "property": "C69",
   "status": "partial",
   "theorems": [
    "Verif.Jit.C69_trace_partial"
   ],
   "note": "Proved at the level of the bytes in memory: after any history of calls and returns, for every error that a compiled instruction raises through a throw path, the walk over the native stack gives exactly the active calls, and the search for the entry frame ends at the frame of the host. Missing: index errors, errors in natives, timeouts, and a function that finds too little plugin stack (its trace entry has no instruction of its own). The store of the frame pointer into the environment is left out: the walk starts at rbp."
  },
  {
   "property": "C70",
   "status": "partial",
   "theorems": [
    "Verif.Names.C70_names_partial",
    "Verif.Names.C70_const_sees_itself"
   ],
   "note": "Proved for globals, statics, constants, enums, functions and all block statements over any number of files, for both passes; a local constant sees itself in its own initialiser (C70_const_sees_itself). Types, methodmaps and enum structs are not modelled."
  },
  {
   "property": "C71",
   "status": "partial",
   "theorems": [
    "Verif.FunDecl.C71_one_definition_partial",
    "Verif.FunDecl.C71_accepted",
    "Verif.FunDecl.C71_two_bodies",
    "Verif.FunDecl.C71_native_ignored",
    "Verif.FunDecl.C71_two_forwards"
   ],
   "note": "What the compiler accepts is characterised for every sequence (C71_accepted); it agrees with the rule for up to two declarations without a native after a body (C71_one_definition_partial). Witnesses: C71_two_bodies, C71_native_ignored, C71_two_forwards."
  },
  {
   "property": "C72",
   "status": "partial",
   "theorems": [
    "Verif.Returns.C72_returns_value_partial",
    "Verif.Returns.C72_void",
    "Verif.Returns.C72_forward_unchecked",
    "Verif.Returns.C72_mixed_unchecked"
   ],
   "note": "Proved for functions without a forward. With a forward the check is skipped (C72_forward_unchecked), and a function without a return type may mix returns with and without a value in one order (C72_mixed_unchecked). Constructs outside the modelled language (Lang) are not covered."
  },
  {
   "property": "C73",
   "status": "proved",
   "theorems": [
    "Verif.Liveness.C73_emitted",
    "Verif.Liveness.C73_nothing_missing",
    "Verif.Liveness.C73_unused_reports"
   ],
   "note": ""
  },
  {
   "property": "C74",
   "status": "partial",
   "theorems": [
    "Verif.Types.C74_copy_fits_left",
    "Verif.Types.C74_copy_within_source_partial",
    "Verif.Types.C74_argument_fits_partial",
    "Verif.Types.C74_enum_struct_argument",
    "Verif.Types.C74_ternary_char",
    "Verif.Types.C74_ternary_unsized",
    "Verif.Types.C74_char_argument_short",
    "Verif.Types.C74_int64_as_any",
    "Verif.Types.C74_any_flattens"
   ],
   "note": "The write side of array assignments holds for all expressions. The read side fails for conditional expressions with character arrays or arrays without a size (C74_ternary_char, C74_ternary_unsized). Arguments: proved except for sized character parameters (C74_char_argument_short), 64-bit elements against any (C74_int64_as_any) and arrays of arrays against any[] (C74_any_flattens), where the code accepts what does not fit."
  },
  {
   "property": "C75",
   "status": "partial",
   "theorems": [
    "Verif.Types.C75_argument_partial",
    "Verif.Types.C75_assignment_partial",
    "Verif.Types.C75_int_return_unchecked",
    "Verif.Types.C75_any_takes_reference",
    "Verif.Types.C75_any_takes_array",
    "Verif.Types.C75_any_elements",
    "Verif.Types.C75_sizes_appear",
    "Verif.Types.C75_recursive_no_answer",
    "Verif.Types.C75_assignment_inner_of_int"
   ],
   "note": "Proved with the hypotheses named in the theorems; what they leave out is accepted by the code although it does not fit (C75_int_return_unchecked, C75_any_takes_reference, C75_any_takes_array, C75_any_elements, C75_sizes_appear). C75_recursive_no_answer and C75_assignment_inner_of_int: inputs for which the compiler does not come to an answer."
  },
  {
   "property": "C76",
   "status": "partial",
   "theorems": [
    "Verif.Storage.C76_fields",
    "Verif.Storage.C76_names",
    "Verif.Storage.C76_disjoint",
    "Verif.Storage.C76_code_partial",
    "Verif.Storage.C76_overflow",
    "Verif.Storage.C76_open_array"
   ],
   "note": "All of it for sizes that fit in a cell and arrays with declared sizes. The sums of sizes overflow unchecked (C76_overflow), and arrays without a size let every index through that is not negative (C76_open_array). Arrays of several dimensions are in C41 and C12."
  },
  {
   "property": "C77",
   "status": "partial",
   "theorems": [
    "Verif.Macro.C77_substitution",
    "Verif.Macro.C77_arguments",
    "Verif.Macro.C77_argument_count",
    "Verif.Macro.C77_line_comment",
    "Verif.Macro.C77_block_comment",
    "Verif.Macro.C77_expansion_partial",
    "Verif.Macro.C77_meaning_unique",
    "Verif.Macro.C77_ends_partial",
    "Verif.Macro.C77_ends_objects",
    "Verif.Macro.C77_endless",
    "Verif.Macro.C77_lost_name",
    "Verif.Macro.C77_split_literal",
    "Verif.Macro.C77_backslash"
   ],
   "note": "Substitution and argument splitting are proved for all definitions and arguments without comments, backslashes and character literals in arguments, the expansion of every text in which a bare name of a macro with parameters is followed by a token of the same text, and that reading ends unless a macro is entered that is in use (always, without parameters). C77_endless, C77_lost_name, C77_split_literal and C77_backslash show where the code fails."
  },
  {
   "property": "C78",
   "status": "partial",
   "theorems": [
    "Verif.Binding.C78_arguments_partial",
    "Verif.Binding.C78_own_parameter_partial",
    "Verif.Binding.C78_order_partial",
    "Verif.Binding.C78_named_default",
    "Verif.Binding.C78_named_default_refused"
   ],
   "note": "Proved for all calls without '.name = _': the compiler forgets the name of such an argument, so that another parameter may get the default value of yet another one (C78_named_default) or a legal call is refused (C78_named_default_refused). Which types fit is a parameter of the model (see C72, C75)."
  },
  {
   "property": "C79",
   "status": "partial",
   "theorems": [
    "Verif.HeapScope.C79_paired",
    "Verif.HeapScope.C79_kept",
    "Verif.HeapScope.C79_body_scopes",
    "Verif.HeapScope.C79_released_partial",
    "Verif.HeapScope.C79_bounded_partial",
    "Verif.HeapScope.C79_flow",
    "Verif.HeapScope.C79_continue_leaks",
    "Verif.HeapScope.C79_for_leaks"
   ],
   "note": "Pairing of saves and restores and that nothing is released early are proved for all statements and paths. That everything is released, and the bound, fail in the code for bodies that are taken to return although break or continue leaves them (C79_continue_leaks) and for for-loops whose condition takes from the heap (C79_for_leaks); they are proved for all others. Code is a tree: that labels lead where they should is C39 and C40."
  },
  {
   "property": "C80",
   "status": "partial",
   "theorems": [
    "Verif.DataSection.C80_own_storage",
    "Verif.DataSection.C80_initial",
    "Verif.DataSection.C80_size_partial",
    "Verif.DataSection.C80_reads",
    "Verif.DataSection.C80_writes_partial",
    "Verif.DataSection.C80_literals",
    "Verif.DataSection.C80_struct",
    "Verif.DataSection.C80_public_partial",
    "Verif.DataSection.C80_store_before",
    "Verif.DataSection.C80_store_before_read",
    "Verif.DataSection.C80_int64_array",
    "Verif.DataSection.C80_struct_without_value"
   ],
   "note": "Storage, initial values, reads, passed addresses, literals, structs and the table of public variables are proved for every program. Writes are proved for variables declared before the code only: the compiler writes the raw value of an unbound label for a variable declared later, so that such code writes into another variable (C80_store_before, C80_store_before_read). The number of cells is proved for the variables C41 covers; arrays of int64 get half their cells (C80_int64_array). A public struct variable without a value gets the address 0 (C80_struct_without_value)."
  },
  {
   "property": "C81",
   "status": "partial",
   "theorems": [
    "Verif.Long.C81_statements_partial",
    "Verif.Long.C81_value_partial",
    "Verif.Long.C81_condition_partial",
    "Verif.Long.C81_slots",
    "Verif.Long.C81_operand_changed",
    "Verif.Long.C81_parameter_overwritten"
   ],
   "note": "Proved for the code run by the interpreter's model, if no right operand changes the variable its left operand is, and no parameter is assigned to; counterexamples for both. Calls, array elements, fields, ? :, && and ||, and control flow are not included."
  },
  {
   "property": "C82",
   "status": "partial",
   "theorems": [
    "Verif.LocalVar.C82_values_partial",
    "Verif.LocalVar.C82_element",
    "Verif.LocalVar.C82_int64_overlap",
    "Verif.LocalVar.C82_decl_unset"
   ],
   "note": "Proved for the code run by the interpreter's model, for arrays and enum structs that are emitted as declared (see C41). The keyword decl and arrays of int64 that are not given completely do not keep the property; counterexamples."
  },
  {
   "property": "C83",
   "status": "partial",
   "theorems": [
    "Verif.Reports.C83_exit",
    "Verif.Reports.C83_exit_codes",
    "Verif.Reports.C83_written",
    "Verif.Reports.C83_told",
    "Verif.Reports.C83_true",
    "Verif.Reports.C83_warnings",
    "Verif.Reports.C83_sorted",
    "Verif.Reports.C83_disabled_partial",
    "Verif.Reports.C83_disabled_is_error",
    "Verif.Reports.C83_options"
   ],
   "note": "Exit code, output file, printed messages and their order are proved for all runs, and what -w does. Partial because a disabled warning still stops the compilation when warnings are errors (C83_disabled_is_error), so that clause is proved only without warnings as errors (C83_disabled_partial)."
  },
  {
   "property": "C84",
   "status": "proved",
   "theorems": [
    "Verif.Tokens.C84_tokens",
    "Verif.Tokens.C84_unique",
    "Verif.Tokens.C84_longest",
    "Verif.Tokens.C84_body",
    "Verif.Tokens.C84_cached",
    "Verif.Tokens.C84_cached_all"
   ],
   "note": "Names, keywords, integers, operators and signs; directives, macros, strings, characters and floats are outside this model (C42, C43, C44 and others treat some of them)."
  },
  {
   "property": "C85",
   "status": "partial",
   "theorems": [
    "Verif.Lines.C85_buffer",
    "Verif.Lines.C85_newline_partial",
    "Verif.Lines.C85_semicolon",
    "Verif.Lines.C85_needed",
    "Verif.Lines.C85_end",
    "Verif.Lines.C85_cached_partial",
    "Verif.Lines.C85_cached_line_lost",
    "Verif.Lines.C85_included_twice"
   ],
   "note": "Text read directly: proved when at most one token is given back and no file is included twice (C85_included_twice). Cached bodies: proved for lines whose number is not that of the last line of the main file; C85_cached_line_lost shows a newline that is not seen. Tokens over several lines and macros are not modelled."
  },
  {
   "property": "C86",
   "status": "proved",
   "theorems": [
    "Verif.Methodmap.C86_ends",
    "Verif.Methodmap.C86_line",
    "Verif.Methodmap.C86_member",
    "Verif.Methodmap.C86_no_member",
    "Verif.Methodmap.C86_once",
    "Verif.Methodmap.C86_delete",
    "Verif.Methodmap.C86_base",
    "Verif.Methodmap.C86_nullable",
    "Verif.Methodmap.C86_construct",
    "Verif.Methodmap.C86_call",
    "Verif.Methodmap.C86_static_call",
    "Verif.Methodmap.C86_constructor_and_destructor_rejected"
   ],
   "note": "methodmap declarations without their types, getters, setters and bodies, and without enumerations of the same name; a map with both a constructor and a destructor is rejected (C86_constructor_and_destructor_rejected)"
  },
  {
   "property": "C87",
   "status": "partial",
   "theorems": [
    "Verif.Parse.C87_read_partial",
    "Verif.Parse.C87_body_partial",
    "Verif.Parse.C87_terminates",
    "Verif.Parse.C87_unambiguous_partial",
    "Verif.Parse.C87_else_partial",
    "Verif.Parse.C87_no_declaration",
    "Verif.Parse.C87_break",
    "Verif.Parse.C87_exit_takes_next",
    "Verif.Parse.C87_exit_value_lost",
    "Verif.Parse.C87_exit_last",
    "Verif.Parse.C87_exit_counterexample",
    "Verif.Parse.C87_name_left_out"
   ],
   "note": "the grammar of statements, in both directions, except exit, which the code reads wrongly (proved: exit; takes the next expression statement, exit e; loses its value); forms without parentheses, old-style, const, static and enum declarations and initialisers in braces are not modelled"
  },
  {
   "property": "C88",
   "status": "partial",
   "theorems": [
    "Verif.EnumDecl.C88_distinct",
    "Verif.EnumDecl.C88_const_partial",
    "Verif.EnumDecl.C88_enum",
    "Verif.EnumDecl.C88_run",
    "Verif.EnumDecl.C88_size",
    "Verif.EnumDecl.C88_before_use",
    "Verif.EnumDecl.C88_self",
    "Verif.EnumDecl.C88_twice_zero"
   ],
   "note": "All but constants whose own expression mentions them, which are accepted with an undefined value (C88_self). Types of enums, enums inside functions and the old labels are not modelled."
  },
  {
   "property": "C89",
   "status": "proved",
   "theorems": [
    "Verif.FunTable.C89_functions",
    "Verif.FunTable.C89_generates",
    "Verif.FunTable.C89_value",
    "Verif.FunTable.C89_same_name"
   ],
   "note": "For code up to 1 GiB, the limit of the compiler's labels. That names of public functions differ is a hypothesis; the compiler does not quite see to it (C71_two_bodies), and C89_same_name shows what happens then. Signatures are in C35."
  },
  {
   "property": "C90",
   "status": "partial",
   "theorems": [
    "Verif.DebugVars.C90_locals_partial",
    "Verif.DebugVars.C90_outside",
    "Verif.DebugVars.C90_method",
    "Verif.DebugVars.C90_name_partial",
    "Verif.DebugVars.C90_global",
    "Verif.DebugVars.C90_static",
    "Verif.DebugVars.C90_all",
    "Verif.DebugVars.C90_accepted",
    "Verif.DebugVars.C90_unused",
    "Verif.DebugVars.C90_end",
    "Verif.DebugVars.C90_late_global"
   ],
   "note": "Proved with the range of a row taken without its end (C90_end: with its end, as the header documents it, left variables are listed), and for names whose innermost variable is used (C90_unused). Globals declared after a function are not listed for it (C90_late_global). Types of rows and functions in included files within functions are not modelled."
  },
  {
   "property": "C91",
   "status": "partial",
   "theorems": [
    "Verif.Flt.C91_value_partial",
    "Verif.Flt.C91_constant_partial",
    "Verif.Flt.C91_condition_partial",
    "Verif.Flt.C91_negative_zero",
    "Verif.Flt.C91_not_of_constant",
    "Verif.Flt.C91_constant_chain"
   ],
   "note": "Expressions without a warning about types. Not covered: conditions whose value is -0.0 or a NaN (C91_negative_zero), ! of a constant like -0.0 (C91_not_of_constant), chains of float constants (C91_constant_chain); elements, fields, calls, ? :, && and ||, operators on bits."
  },
  {
   "property": "C92",
   "status": "partial",
   "theorems": [
    "Verif.Unused.C92_warnings_partial",
    "Verif.Unused.C92_no_warnings_partial",
    "Verif.Unused.C92_pragma_unused"
   ],
   "note": "Warnings 203 and 204 are exactly those about variables that nothing reads. Missing: #pragma unused with several names (the code marks only the first variable, C92_pragma_unused), sizeof, values of static variables, and functions."
  },
  {
   "property": "C93",
   "status": "partial",
   "theorems": [
    "Verif.Convert.C93_kind_partial",
    "Verif.Convert.C93_named",
    "Verif.Convert.C93_upcast",
    "Verif.Convert.C93_agree_partial",
    "Verif.Convert.C93_bool_differs",
    "Verif.Convert.C93_any_differs",
    "Verif.Convert.C93_void",
    "Verif.Convert.C93_functions",
    "Verif.Convert.C93_view",
    "Verif.Convert.C93_view_kind",
    "Verif.Convert.C93_choice_partial",
    "Verif.Convert.C93_choice_of_null"
   ],
   "note": "What a value is never changes without a message (C93_kind_partial), enums and methodmaps get only what belongs in them (C93_named, C93_upcast). view_as is characterised in full for values (C93_view). With c ? null : h a handle gets into any nullable type (C93_choice_of_null); c ? x : y without null and any in C93_choice_partial. Missing: arrays, references, other operators. Assignments and calls differ for any and bool (C93_any_differs, C93_bool_differs), so the agreement is partial."
  },
  {
   "property": "C94",
   "status": "partial",
   "theorems": [
    "Verif.Include.C94_search_partial",
    "Verif.Include.C94_search",
    "Verif.Include.C94_determined",
    "Verif.Include.C94_start",
    "Verif.Include.C94_once",
    "Verif.Include.C94_name",
    "Verif.Include.C94_empty_file_missed",
    "Verif.Include.C94_empty_file_replaced"
   ],
   "note": "The search is proved for every file system; empty files are taken for missing ones (C94_empty_file_missed), so the full statement holds without them (C94_search). The generated file read before the main one, Windows paths and the limit on the number of files are left out."
  }
 ]
}