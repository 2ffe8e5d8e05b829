{
 "claims": [
  {
   "property": "C01",
   "status": "partial",
   "theorems": [
    "Verif.Props.IntLiteral.C01_binary_overflow_iff",
    "Verif.Props.IntLiteral.C01_binary_value",
    "Verif.Props.IntLiteral.C01_decimal_missed_overflow",
    "Verif.Props.IntLiteral.C01_decimal_no_spurious_warning",
    "Verif.Props.IntLiteral.C01_decimal_overflow_partial",
    "Verif.Props.IntLiteral.C01_decimal_value",
    "Verif.Props.IntLiteral.C01_hex_overflow_iff",
    "Verif.Props.IntLiteral.C01_hex_value",
    "Verif.Props.IntLiteral.C01_octal_classic_value",
    "Verif.Props.IntLiteral.C01_octal_overflow_partial",
    "Verif.Props.IntLiteral.C01_octal_spurious_overflow_warning",
    "Verif.Props.IntLiteral.C01_octal_value"
   ],
   "note": "Values are proved for all four bases. The overflow diagnostic is exact for hex and binary; for octal and decimal the property is false of the code (witness theorems) and the exact behaviour is proved (decimal: up to 10*2^64)."
  },
  {
   "property": "C02",
   "status": "proved",
   "theorems": [
    "Verif.Props.IntLiteral.C02_decimal_type",
    "Verif.Props.IntLiteral.C02_explicit_suffix",
    "Verif.Props.IntLiteral.C02_other_type",
    "Verif.Props.IntLiteral.C02_suffix",
    "Verif.Props.IntLiteral.C02_value_in_range"
   ],
   "note": ""
  },
  {
   "property": "C12",
   "status": "proved",
   "theorems": [
    "Verif.Props.Layout.C12_struct_layout",
    "Verif.Props.Layout.C12_struct_members",
    "Verif.Props.Layout.C12_union_layout"
   ],
   "note": ""
  },
  {
   "property": "C13",
   "status": "partial",
   "theorems": [
    "Verif.Props.Layout.C13_anonymous_bitfield_assert",
    "Verif.Props.Layout.C13_anonymous_bitfield_overlap",
    "Verif.Props.Layout.C13_bitfields_disjoint_partial",
    "Verif.Props.Layout.C13_union_bitfield_not_at_zero"
   ],
   "note": "False of the code for some anonymous bit-fields and for unions (witness theorems). Proved for structs whose anonymous bit-fields fit in the unit of the preceding bit-field."
  },
  {
   "property": "C46",
   "status": "proved",
   "theorems": [
    "Verif.Props.Align.C46_alignUp64_eq",
    "Verif.Props.Align.C46_alignUp64_least",
    "Verif.Props.Align.C46_alignUp_least",
    "Verif.Props.Align.C46_isPowerOfTwo_iff",
    "Verif.Props.Align.C46_roundUp32",
    "Verif.Props.Align.C46_roundUp64"
   ],
   "note": ""
  },
  {
   "property": "C14",
   "status": "proved",
   "theorems": [
    "Verif.Props.Pack.C14_block_restores",
    "Verif.Props.Pack.C14_failed_pop",
    "Verif.Props.Pack.C14_named_pop",
    "Verif.Props.Pack.C14_pop_value",
    "Verif.Props.Pack.C14_push_value",
    "Verif.Props.Pack.C14_set"
   ],
   "note": ""
  },
  {
   "property": "C15",
   "status": "proved",
   "theorems": [
    "Verif.Props.IntType.C15_common_type",
    "Verif.Props.IntType.C15_promotion",
    "Verif.Props.IntType.C15_representation",
    "Verif.Props.IntType.C15_total_and_symmetric",
    "Verif.Props.IntType.C15_value_preserved"
   ],
   "note": ""
  },
  {
   "property": "C23",
   "status": "partial",
   "theorems": [
    "Verif.Props.Enum.C23_error_iff_partial",
    "Verif.Props.Enum.C23_large_explicit_not_diagnosed",
    "Verif.Props.Enum.C23_overflow_not_diagnosed",
    "Verif.Props.Enum.C23_values",
    "Verif.Props.Enum.C23_values_mod"
   ],
   "note": "Values and diagnostics of enumerators that stay in int are exact; an implicit increment past INT_MAX and some large explicit values are silently wrapped, against the property (witness theorems)."
  },
  {
   "property": "C16",
   "status": "partial",
   "theorems": [
    "Verif.Props.Fold.C16_bits_determine",
    "Verif.Props.Fold.C16_bitwise",
    "Verif.Props.Fold.C16_bitwise_not",
    "Verif.Props.Fold.C16_compare",
    "Verif.Props.Fold.C16_error_iff",
    "Verif.Props.Fold.C16_host_ub_only_if_source_ub",
    "Verif.Props.Fold.C16_logical_not",
    "Verif.Props.Fold.C16_min_div_minus_one_host_ub",
    "Verif.Props.Fold.C16_min_result_host_overflow",
    "Verif.Props.Fold.C16_negate_partial",
    "Verif.Props.Fold.C16_negate_unsigned_host_ub",
    "Verif.Props.Fold.C16_shift_by_width_host_ub",
    "Verif.Props.Fold.C16_shift_error",
    "Verif.Props.Fold.C16_shift_left_signed",
    "Verif.Props.Fold.C16_shift_left_unsigned",
    "Verif.Props.Fold.C16_shift_right",
    "Verif.Props.Fold.C16_signed_arithmetic",
    "Verif.Props.Fold.C16_unary_plus",
    "Verif.Props.Fold.C16_unsigned_arithmetic",
    "Verif.Props.Fold.C16_zero_divisor"
   ],
   "note": "All operators, all values. Missing: INT_MIN / -1, shift by exactly the width and negation of 2^(n-1) make the compiler itself execute undefined behaviour (witness theorems)."
  },
  {
   "property": "C18",
   "status": "partial",
   "theorems": [
    "Verif.Props.Imm.C18_immediate_partial",
    "Verif.Props.Imm.C18_immediate_wrong",
    "Verif.Props.Cast.C18_literal_agrees_with_run_time",
    "Verif.Props.Fold.C18_literal_cast",
    "Verif.Props.Cast.C18_memory_cast",
    "Verif.Props.Cast.C18_register_cast"
   ],
   "note": "Literals, registers and memory operands are proved. An immediate that is not folded (the value of a comma expression) is converted wrongly by two conversions in a row: C18_immediate_wrong."
  },
  {
   "property": "C17",
   "status": "partial",
   "theorems": [
    "Verif.Props.FloatFold.C17_correct_iff_true_partial",
    "Verif.Props.FloatFold.C17_false_comparison_wrong"
   ],
   "note": "False of the code: a comparison of two floating literals that should be 0 is folded to 1. Proved: correct exactly when the relation holds."
  },
  {
   "property": "C20",
   "status": "partial",
   "theorems": [
    "Verif.Props.Compound.C20_bitfield_partial",
    "Verif.Props.Compound.C20_bitfield_shift_wrong",
    "Verif.Props.Compound.C20_division_nonnegative",
    "Verif.Props.Compound.C20_division_partial",
    "Verif.Props.Compound.C20_division_same_type",
    "Verif.Props.Compound.C20_narrow_min_traps",
    "Verif.Props.Compound.C20_narrow_negative_divisor_wrong",
    "Verif.Props.Compound.C20_ring_and_bitwise",
    "Verif.Props.Compound.C20_shift",
    "Verif.Props.Compound.C20_signed_by_unsigned_wrong",
    "Verif.Props.Compound.C20_small_literal_wrong",
    "Verif.Props.Compound.C20_zero_literal"
   ],
   "note": "+ - * & | ^ << >> are proved for all types and values. /= and %= differ from C for mixed signedness, narrow negative divisors, small literals and min/-1; bit-fields are proved except for >>= of a negative field in an unsigned common type (witness theorems)."
  },
  {
   "property": "C21",
   "status": "partial",
   "theorems": [
    "Verif.Props.Pointer.C21_both_literal_partial",
    "Verif.Props.Pointer.C21_both_literal_unscaled",
    "Verif.Props.Pointer.C21_difference_partial",
    "Verif.Props.Pointer.C21_literal_index",
    "Verif.Props.Pointer.C21_negative_difference_wrong",
    "Verif.Props.Pointer.C21_run_time"
   ],
   "note": "Run-time and literal indices proved. A literal pointer plus a literal is not scaled, and negative pointer differences are divided unsigned (witness theorems)."
  },
  {
   "property": "C25",
   "status": "partial",
   "theorems": [
    "Verif.Props.Bitfield.C25_agrees_with_run_time",
    "Verif.Props.Bitfield.C25_static_bitfield_partial",
    "Verif.Props.Bitfield.C25_unmasked_value_wrong",
    "Verif.Props.Bitfield.C37_width_64_host_ub"
   ],
   "note": "False of the code for literals that do not fit the width as unsigned numbers (negative values spill into the other fields, witness) and for width 64. Proved for all other literals, fields and old contents."
  },
  {
   "property": "C37",
   "status": "partial",
   "theorems": [
    "Verif.Props.Bitfield.C37_load",
    "Verif.Props.Bitfield.C37_neighbours",
    "Verif.Props.Bitfield.C37_round_trip",
    "Verif.Props.Bitfield.C37_store_partial",
    "Verif.Props.Bitfield.C37_width_64_host_ub"
   ],
   "note": "Loads are proved for all fields; stores for all fields narrower than 64 bits. Width 64: the compiler computes 1ull << 64 (witness)."
  },
  {
   "property": "C34",
   "status": "partial",
   "theorems": [
    "Verif.Props.Encode.C34_allocatable_bases_supported",
    "Verif.Props.Encode.C34_memory_operand_partial",
    "Verif.Props.Encode.C34_r12_wrong",
    "Verif.Props.Encode.C34_r13_wrong",
    "Verif.Props.Encode.C34_register_operands",
    "Verif.Props.Encode.C34_vex_memory_operand_partial",
    "Verif.Props.Encode.C34_vex_register_operands"
   ],
   "note": "Memory operands with base r12 and no index, and with base r13 and offset 0, are encoded wrongly (theorems C34_r12_wrong, C34_r13_wrong; reachable through inline assembly and _exception_info); every operand the generator itself allocates is covered."
  },
  {
   "property": "C35",
   "status": "proved",
   "theorems": [
    "Verif.Props.Jump.C35_jump_lands",
    "Verif.Props.Jump.C35_other_code_unchanged",
    "Verif.Props.Jump.C35_size"
   ],
   "note": "All forward and backward jumps of functions smaller than 2 GiB."
  },
  {
   "property": "C36",
   "status": "partial",
   "theorems": [
    "Verif.Props.Cond.C36_float_compare_partial",
    "Verif.Props.Cond.C36_integer_compare",
    "Verif.Props.Cond.C36_nan_correct_iff",
    "Verif.Props.Cond.C36_nan_wrong",
    "Verif.Props.Cond.C36_negate"
   ],
   "note": "All integer and pointer comparisons and all ordered float comparisons. With a NaN operand ==, !=, < and <= are wrong in the code itself: C36_nan_correct_iff says exactly which operators are right."
  },
  {
   "property": "C56",
   "status": "proved",
   "theorems": [
    "Verif.Props.ShortCircuit.C56_folded",
    "Verif.Props.ShortCircuit.C56_labels_unique",
    "Verif.Props.ShortCircuit.C56_short_circuit"
   ],
   "note": "All nestings over arbitrary operands; the machine is the IR's stack machine, jumps to labels being the subject of C35."
  },
  {
   "property": "C40",
   "status": "proved",
   "theorems": [
    "Verif.Props.ErrorOrder.C40_error_order",
    "Verif.Props.ErrorOrder.C40_error_strict_weak",
    "Verif.Props.ErrorOrder.C40_exports_sorted",
    "Verif.Props.Sort.C40_key_order",
    "Verif.Props.ErrorOrder.C40_lex_order",
    "Verif.Props.ErrorOrder.C40_lex_strict_weak",
    "Verif.Props.Sort.C40_sort"
   ],
   "note": "The merge sort for any strict weak order, and that the orders the compiler sorts with are strict weak orders."
  },
  {
   "property": "C58",
   "status": "partial",
   "theorems": [
    "Verif.Props.ErrorOrder.C58_report_order",
    "Verif.Props.ErrorOrder.C58_same_position_not_deterministic"
   ],
   "note": "Reports at different positions are printed in position order whatever the schedule. Reports at the same position keep the order in which the threads made them: C58_same_position_not_deterministic."
  },
  {
   "property": "C59",
   "status": "proved",
   "theorems": [
    "Verif.Props.Stmt.C59_accepted_iff",
    "Verif.Props.Stmt.C59_never_stuck",
    "Verif.Props.Stmt.C59_statements"
   ],
   "note": "The code of every accepted body, run from its start, ends with an outcome and final state exactly when the source semantics does, and never gets stuck; a body is accepted exactly when it meets the control-flow constraints of the C standard. Expressions are those of C56 over opaque leaves."
  },
  {
   "property": "C41",
   "status": "proved",
   "theorems": [
    "Verif.Props.Stmt.C41_duplicates",
    "Verif.Props.Stmt.C41_switch"
   ],
   "note": "Dispatch on the IR level: the switch node is a case list searched in order. The emitted compare-and-jump sequence is C57."
  },
  {
   "property": "C55",
   "status": "proved",
   "theorems": [
    "Verif.Props.Stmt.C55_goto"
   ],
   "note": ""
  },
  {
   "property": "C44",
   "status": "partial",
   "theorems": [
    "Verif.Props.ToU64.C44_accepted_iff_partial",
    "Verif.Props.ToU64.C44_colon_accepted",
    "Verif.Props.ToU64.C44_decimal",
    "Verif.Props.ToU64.C44_hex",
    "Verif.Props.ToU64.C44_hex_garbage_accepted"
   ],
   "note": "Decimal and hexadecimal numerals are converted correctly for every length. The code also accepts the empty string, ':' as a digit and anything after 0x (witness theorems)."
  },
  {
   "property": "C42",
   "status": "partial",
   "theorems": [
    "Verif.Props.Utf16.C42_even_plane_wrong",
    "Verif.Props.Utf16.C42_right_iff",
    "Verif.Props.Utf16.C42_text_preserved_partial"
   ],
   "note": "False of the code for the even supplementary planes: U+20000 becomes U+10000. C42_right_iff says for exactly which texts the conversion is right."
  },
  {
   "property": "C45",
   "status": "proved",
   "theorems": [
    "Verif.Props.Crc32.C45_crc32",
    "Verif.Props.Crc32.C45_poly_injective"
   ],
   "note": "As a remainder of polynomials over the field with two elements, for data of any length."
  },
  {
   "property": "C31",
   "status": "proved",
   "theorems": [
    "Verif.Props.Spinlock.C31_fifo",
    "Verif.Props.Spinlock.C31_mutual_exclusion",
    "Verif.Props.Spinlock.C31_progress"
   ],
   "note": "Ticket spinlock, any number of threads, sequentially consistent memory."
  },
  {
   "property": "C30",
   "status": "partial",
   "theorems": [
    "Verif.Props.WorkQueue.C30_at_most_once_partial",
    "Verif.Props.WorkQueue.C30_fifo_partial",
    "Verif.Props.WorkQueue.C30_none_lost_partial",
    "Verif.Props.WorkQueue.C30_progress_partial",
    "Verif.Props.WorkQueue.C30_reused_entry_delivered_twice"
   ],
   "note": "Work queue, any number of producers and consumers. Missing: entries that are added again while an old pop of them is in flight; C30_reused_entry_delivered_twice shows that the property fails then."
  },
  {
   "property": "C27",
   "status": "proved",
   "theorems": [
    "Verif.Props.AstTable.C27_first_wins_map"
   ],
   "note": "The sequential table of global declarations, with growth, is a map in which the first insertion wins."
  },
  {
   "property": "C28",
   "status": "partial",
   "theorems": [
    "Verif.Props.AstTableThreads.C28_growth_admits_two_winners",
    "Verif.Props.AstTableThreads.C28_linearizable_below_capacity",
    "Verif.Props.AstTableThreads.C28_linearizable_partial",
    "Verif.Props.AstTableThreads.C28_one_winner_partial"
   ],
   "note": "Concurrent insertions and look-ups are linearizable in all executions in which the table does not grow, which includes all with at most half as many insertions as nodes. C28_growth_admits_two_winners shows that it fails when the table grows at the wrong moment."
  },
  {
   "property": "C29",
   "status": "partial",
   "theorems": [
    "Verif.Props.Sleeper.C29_growth_loses_wakeup",
    "Verif.Props.Sleeper.C29_no_lost_wakeup_few_names",
    "Verif.Props.Sleeper.C29_no_lost_wakeup_partial",
    "Verif.Props.Sleeper.C29_nothing_sleeps_on_declared_partial",
    "Verif.Props.Sleeper.C29_refines_partial",
    "Verif.Props.Sleeper.C29_woken_once_partial"
   ],
   "note": "Proved for all schedules in which the table of sleepers does not grow, which includes all programs with fewer names than half its nodes (C29_no_lost_wakeup_few_names). C29_growth_loses_wakeup shows that a wake-up is lost when the table grows at the wrong moment."
  },
  {
   "property": "C07",
   "status": "proved",
   "theorems": [
    "Verif.IfExpr.C07_garbage_accepted",
    "Verif.IfExpr.C07_never_wrong",
    "Verif.IfExpr.C07_structure",
    "Verif.IfExpr.C07_structure_short",
    "Verif.IfExpr.C07_unambiguous"
   ],
   "note": "For every conditional expression of the C11 grammar, of any length, that nests at most 1023 deep; deeper ones give the right value or an error. Extra tokens after the expression are accepted (C07_garbage_accepted). Character literals and __has_include are not modelled."
  },
  {
   "property": "C08",
   "status": "partial",
   "theorems": [
    "Verif.IfExpr.C08_conditional_type",
    "Verif.IfExpr.C08_largest_is_unsigned",
    "Verif.IfExpr.C08_not_keeps_type",
    "Verif.IfExpr.C08_shift_count_changes_type",
    "Verif.IfExpr.C08_taken_partial",
    "Verif.IfExpr.C08_unevaluated_division",
    "Verif.IfExpr.C08_value_partial"
   ],
   "note": "Proved for the expressions in Plain. The code deviates from C11 for the type of !, of shifts and of ?:, for the literal 2^63-1 and for divisions by zero that C does not evaluate, each with a witness theorem."
  },
  {
   "property": "C09",
   "status": "partial",
   "theorems": [
    "Verif.CondIncl.C09_null_directive_wrong",
    "Verif.CondIncl.C09_selects_partial",
    "Verif.CondIncl.C09_unbalanced_diagnosed"
   ],
   "note": "For all properly nested files of one source file (without #include) in which no line is a lone '#': C09_null_directive_wrong shows that such a line in a disabled block resumes output. Unbalanced files are diagnosed."
  },
  {
   "property": "C10",
   "status": "proved",
   "theorems": [
    "Verif.DefineTable.C10_defined_iff",
    "Verif.DefineTable.C10_latest_definition",
    "Verif.DefineTable.C10_right_name"
   ],
   "note": "For every hash function and all histories. The comparison that decides whether a redefinition replaces the old definition is a parameter, assumed sound in C10_latest_definition; C53 is about the real one."
  },
  {
   "property": "C53",
   "status": "partial",
   "theorems": [
    "Verif.Redefine.C53_diagnosed_iff_partial",
    "Verif.Redefine.C53_first_definition_kept",
    "Verif.Redefine.C53_identical_accepted",
    "Verif.Redefine.C53_pasted_token_ignored",
    "Verif.Redefine.C53_plain_latest",
    "Verif.Redefine.C53_stringified_parameter_ignored"
   ],
   "note": "Proved if one of the definitions has no # and a parameter after each ##. The code ignores which parameter is stringified and which token is pasted (witness theorems), and white space."
  },
  {
   "property": "C61",
   "status": "proved",
   "theorems": [
    "Verif.IntrusiveList.C61_doubly_linked",
    "Verif.IntrusiveList.C61_singly_linked",
    "Verif.IntrusiveList.C61_walk_unique"
   ],
   "note": ""
  },
  {
   "property": "C38",
   "status": "partial",
   "theorems": [
    "Verif.Props.Frame.C38_alignas_char_wrong",
    "Verif.Props.Frame.C38_aligned_partial",
    "Verif.Props.Frame.C38_disjoint",
    "Verif.Props.Frame.C38_overaligned_wrong",
    "Verif.Props.Frame.C38_stack_pointer"
   ],
   "note": "Slots are disjoint and inside the frame. Alignment is proved for alignments up to 16 of variables whose size is a multiple of their alignment; C38_alignas_char_wrong and C38_overaligned_wrong show that _Alignas and alignments above 16 are not honoured."
  },
  {
   "property": "C39",
   "status": "proved",
   "theorems": [
    "Verif.Props.Arena.C39_arena"
   ],
   "note": "Any number of arenas and any growth of the committed range; overflow of 64-bit sizes is not modelled."
  },
  {
   "property": "C43",
   "status": "proved",
   "theorems": [
    "Verif.Props.CommandLine.C43_buffer",
    "Verif.Props.CommandLine.C43_round_trip",
    "Verif.Props.CommandLine.C43_rules"
   ],
   "note": ""
  },
  {
   "property": "C47",
   "status": "partial",
   "theorems": [
    "Verif.Props.Leaf.C47_signed_partial",
    "Verif.Props.Leaf.C47_signed_wrong",
    "Verif.Props.Leaf.C47_unsigned"
   ],
   "note": "All unsigned numbers, and all signed ones from -32768; C47_signed_wrong shows that the leaf of an enumerator below -32768 has a gap in it."
  },
  {
   "property": "C49",
   "status": "proved",
   "theorems": [
    "Verif.Props.Shuffle.C49_permutation"
   ],
   "note": ""
  },
  {
   "property": "C52",
   "status": "proved",
   "theorems": [
    "Verif.Props.Path.C52_canonical",
    "Verif.Props.Path.C52_concatenate",
    "Verif.Props.Path.C52_extension",
    "Verif.Props.Path.C52_same_file",
    "Verif.Props.Path.C52_split"
   ],
   "note": "Concatenation for absolute directories."
  },
  {
   "property": "C05",
   "status": "proved",
   "theorems": [
    "Verif.Props.Tokenize.C05_lossless",
    "Verif.Props.Tokenize.C05_paste_too_many",
    "Verif.Props.Tokenize.C05_tokens_fit"
   ],
   "note": "For all texts. C05_paste_too_many is a finding about token pasting, where the buffer holds only 8 tokens."
  },
  {
   "property": "C06",
   "status": "partial",
   "theorems": [
    "Verif.Props.Tokenize.C06_digraph_wrong",
    "Verif.Props.Tokenize.C06_maximal_munch_partial"
   ],
   "note": "All punctuators except digraphs, which are not recognised (C06_digraph_wrong)."
  },
  {
   "property": "C62",
   "status": "partial",
   "theorems": [
    "Verif.Props.Tokenize.C62_character_literal_wrong",
    "Verif.Props.Tokenize.C62_comment_column_wrong",
    "Verif.Props.Tokenize.C62_line_partial"
   ],
   "note": "All texts without carriage returns that are not followed by a newline, up to the first error and if no character literal contains a spliced newline (C62_character_literal_wrong)."
  },
  {
   "property": "C63",
   "status": "proved",
   "theorems": [
    "Verif.Props.Tokenize.C63_identifier"
   ],
   "note": ""
  },
  {
   "property": "C03",
   "status": "partial",
   "theorems": [
    "Verif.Props.StringLit.C03_splice_wrong",
    "Verif.Props.StringLit.C03_utf16_wrong",
    "Verif.Props.StringLit.C03_utf32",
    "Verif.Props.StringLit.C03_utf8",
    "Verif.Props.StringLit.C03_value_partial"
   ],
   "note": "All literals of the grammar, concatenated, in 8-bit and 32-bit elements (C03_utf8, C03_utf32). With 16-bit elements only code points in Good16: C03_utf16_wrong shows that surrogate pairs are wrong. Splices inside escapes are not removed (C03_splice_wrong)."
  },
  {
   "property": "C04",
   "status": "proved",
   "theorems": [
    "Verif.Props.StringLit.C04_in_bounds",
    "Verif.Props.StringLit.C04_not_past_end",
    "Verif.Props.StringLit.C04_past_end_after_error"
   ],
   "note": "All byte strings. The finding C04_past_end_after_error is an assertion after an already reported error."
  },
  {
   "property": "C64",
   "status": "proved",
   "theorems": [
    "Verif.Props.CharLit.C64_no_garbage",
    "Verif.Props.CharLit.C64_single",
    "Verif.Props.CharLit.C64_three_characters_wrong"
   ],
   "note": "Constants of three, five, six or seven characters depend on uninitialised memory (C64_three_characters_wrong)."
  },
  {
   "property": "C19",
   "status": "partial",
   "theorems": [
    "Verif.CExpr.C19_full_stack_wrong",
    "Verif.CExpr.C19_in_bounds",
    "Verif.CExpr.C19_rejects_partial",
    "Verif.CExpr.C19_sound",
    "Verif.CExpr.C19_struct_cast_wrong",
    "Verif.CExpr.C19_structure",
    "Verif.CExpr.C19_structure_list",
    "Verif.CExpr.C19_structure_short",
    "Verif.CExpr.C19_unambiguous"
   ],
   "note": "All expressions of C11 6.5 (without _Generic) that nest at most 1024 deep, with casts, sizeof, compound literals, calls and the lvalue constraints. Types are not modelled. Conversely everything accepted derives from the grammar with four listed extensions (C19_sound), and the operator stack stays in bounds (C19_in_bounds). C19_full_stack_wrong and C19_struct_cast_wrong are deviations."
  },
  {
   "property": "C60",
   "status": "partial",
   "theorems": [
    "Verif.Returns.C60_case_wrong",
    "Verif.Returns.C60_do_break_wrong",
    "Verif.Returns.C60_do_continue_wrong",
    "Verif.Returns.C60_infinite_loop",
    "Verif.Returns.C60_label_wrong",
    "Verif.Returns.C60_no_fall_off_partial",
    "Verif.Returns.C60_structured_partial"
   ],
   "note": "No execution falls off the end if there is no warning, unless an if, loop or switch that can be jumped into follows code considered dead, or a do loop is left by break/continue while its body is considered to return. Each of these is a real hole: C60_do_break_wrong, C60_do_continue_wrong, C60_label_wrong, C60_case_wrong. _Noreturn calls, __try and __asm are not modelled."
  },
  {
   "property": "C32",
   "status": "partial",
   "theorems": [
    "Verif.Props.Reach.C32_exactly_once_partial",
    "Verif.Props.Roots.C32_exported_after_prototype_wrong",
    "Verif.Props.Roots.C32_exported_inline_asm_wrong",
    "Verif.Props.Reach.C32_imports",
    "Verif.Props.Roots.C32_program_partial"
   ],
   "note": "The search is correct and ends for every finite graph of references, with cycles; C32_program_partial connects it to the declarations of a program. Two holes: exported functions with an earlier declaration are not roots (C32_exported_after_prototype_wrong), exported inline_asm functions are emitted (C32_exported_inline_asm_wrong)."
  },
  {
   "property": "C33",
   "status": "proved",
   "theorems": [
    "Verif.Props.EntryPoint.C33_accepted",
    "Verif.Props.EntryPoint.C33_dll_subsystem_wrong",
    "Verif.Props.EntryPoint.C33_explicit",
    "Verif.Props.EntryPoint.C33_first_candidate",
    "Verif.Props.EntryPoint.C33_no_candidate",
    "Verif.Props.EntryPoint.C33_output_type"
   ],
   "note": "All option combinations and all sets of definitions. C33_dll_subsystem_wrong: DllMain is ignored silently with -dll -subsystem:console, as it is not admissible for that subsystem."
  },
  {
   "property": "C22",
   "status": "proved",
   "theorems": [
    "Verif.Props.TypeSpec.C22_order",
    "Verif.Props.TypeSpec.C22_specifiers",
    "Verif.Props.TypeSpec.C22_unambiguous"
   ],
   "note": "All sequences of type specifier keywords, tag specifiers and qualifiers, any length. Typedef names and _Atomic are not modelled."
  },
  {
   "property": "C57",
   "status": "partial",
   "theorems": [
    "Verif.Props.Imm.C57_binary",
    "Verif.Props.Imm.C57_binary_widened",
    "Verif.Props.Imm.C57_compound",
    "Verif.Props.Imm.C57_compound_widened",
    "Verif.Props.Imm.C57_pointer_increment_partial",
    "Verif.Props.Imm.C57_pointer_increment_wrong",
    "Verif.Props.Imm.C57_store",
    "Verif.Props.Imm.C57_switch"
   ],
   "note": "Binary operations, compound assignments, stores, switch comparisons and pointer increments with all values and sizes. C57_pointer_increment_wrong: incrementing a pointer to a type of 2 GiB or more moves in the wrong direction."
  },
  {
   "property": "C51",
   "status": "proved",
   "theorems": [
    "Verif.Props.RegAlloc.C51_allocate",
    "Verif.Props.RegAlloc.C51_exhausted",
    "Verif.Props.RegAlloc.C51_slots",
    "Verif.Props.RegAlloc.C51_values"
   ],
   "note": "All sequences of the allocator's operations, any length, with spills before jumps and calls. Registers reserved by inline assembly are not modelled; calls with arguments are C70."
  },
  {
   "property": "C48",
   "status": "proved",
   "theorems": [
    "Verif.Props.Chunk.C48_declaration_list_wrong",
    "Verif.Props.Chunk.C48_declarations",
    "Verif.Props.Chunk.C48_partition"
   ],
   "note": "C48_partition: all token streams. C48_declarations: all sequences of external declarations of any length and nesting. #pragma pack is left out; functions in the old style are split wrongly (C48_declaration_list_wrong)."
  },
  {
   "property": "C50",
   "status": "partial",
   "theorems": [
    "Verif.Props.StaticTable.C50_alignas_wrong",
    "Verif.Props.StaticTable.C50_file",
    "Verif.Props.StaticTable.C50_flag_partial",
    "Verif.Props.StaticTable.C50_inline_definition_wrong",
    "Verif.Props.StaticTable.C50_later_declarator_wrong",
    "Verif.Props.StaticTable.C50_table"
   ],
   "note": "The table is right for every hash function and every sequence of declarations (C50_table, C50_file). The flag of a declaration deviates in exactly two cases (C50_flag_partial): C50_later_declarator_wrong, C50_inline_definition_wrong."
  },
  {
   "property": "C26",
   "status": "proved",
   "theorems": [
    "Verif.Props.Scope.C26_lookup",
    "Verif.Props.Scope.C26_unique"
   ],
   "note": "All histories of nested functions, blocks and declarations, all hash functions, with growth of the tables. The table of global declarations is C27."
  },
  {
   "property": "C24",
   "status": "partial",
   "theorems": [
    "Verif.Props.Initializer.C24_char_matrix_wrong",
    "Verif.Props.Initializer.C24_designated_object",
    "Verif.Props.Initializer.C24_designated_size_wrong",
    "Verif.Props.Initializer.C24_first_string_wrong",
    "Verif.Props.Initializer.C24_flat",
    "Verif.Props.Initializer.C24_inside_partial",
    "Verif.Props.Initializer.C24_list_partial",
    "Verif.Props.Initializer.C24_nested_anonymous_wrong",
    "Verif.Props.Initializer.C24_trailing_comma_wrong",
    "Verif.Props.Initializer.C24_union_designator_wrong",
    "Verif.Props.Initializer.C24_unknown_size_designated",
    "Verif.Props.Initializer.C24_unknown_size_partial"
   ],
   "note": "All types and all lists, with designators. C24_list_partial: the writes are exactly those C prescribes, if no array has aggregates of the size of a character as elements (C24_char_matrix_wrong), unnamed members designated through are one level deep and in structures (C24_nested_anonymous_wrong, C24_union_designator_wrong), and no string follows a designator [0] of characters (C24_first_string_wrong). C24_designated_object: designators select the right object in all types. C24_flat: lists without nested braces. C24_inside_partial: bounds. C24_unknown_size_partial, C24_unknown_size_designated: the size of arrays (C24_trailing_comma_wrong, C24_designated_size_wrong: where it is too small). #embed and the conversions of the values are not modelled."
  },
  {
   "property": "C54",
   "status": "partial",
   "theorems": [
    "Verif.Props.ParseOrder.C54_declarations_partial",
    "Verif.Props.ParseOrder.C54_definition_wrong",
    "Verif.Props.ParseOrder.C54_deterministic_partial",
    "Verif.Props.ParseOrder.C54_names_partial",
    "Verif.Props.ParseOrder.C54_progress",
    "Verif.Props.ParseOrder.C54_static_assert_wrong",
    "Verif.Props.ParseOrder.C54_string_array_wrong",
    "Verif.Props.ParseOrder.C54_stuck",
    "Verif.Props.ParseOrder.C54_stuck_iff",
    "Verif.Props.ParseOrder.C54_terminates"
   ],
   "note": "All programs, all numbers of threads and all interleavings of the steps. C54_terminates and C54_progress hold for all programs. That the result does not depend on the order is proved for programs whose static assertions need no names, without arrays initialized by strings, and where definitions come after everything the declaration needs; each exception is a real hole: C54_static_assert_wrong, C54_string_array_wrong, C54_definition_wrong."
  },
  {
   "property": "C11",
   "status": "proved",
   "theorems": [
    "Verif.Props.Macro.C11_object_like",
    "Verif.Props.Macro.C11_unique"
   ],
   "note": "All finite sets of object-like macros, also cyclic ones, and all sources. C11_unique: the rules of C (Spec/Macro.lean, with function-like macros) give at most one result."
  },
  {
   "property": "C65",
   "status": "partial",
   "theorems": [
    "Verif.Props.Macro.C65_argument_wrong",
    "Verif.Props.Macro.C65_diverges_wrong",
    "Verif.Props.Macro.C65_result_partial",
    "Verif.Props.Macro.C65_strict",
    "Verif.Props.Macro.C65_terminates_partial"
   ],
   "note": "C65_result_partial: whenever the rules of C give a result, the code gives it, except if an argument contains the name of a hidden function-like macro that is not followed by '(' in its replacement list (C65_argument_wrong). C65_terminates_partial: expansion ends with a result or an error if the replacement lists have balanced parentheses; C65_diverges_wrong is an endless recursion without that. # and ##, white space and builtin macros are not modelled."
  },
  {
   "property": "C66",
   "status": "partial",
   "theorems": [
    "Verif.Props.Paste.C66_bounds",
    "Verif.Props.Paste.C66_chain_wrong",
    "Verif.Props.Paste.C66_end_wrong",
    "Verif.Props.Paste.C66_fixed_wrong",
    "Verif.Props.Paste.C66_hash_wrong",
    "Verif.Props.Paste.C66_nonempty_partial",
    "Verif.Props.Paste.C66_result_partial"
   ],
   "note": "All replacement lists and arguments, for every tokenizer that gives back single tokens. Left out: ## after an operand that became empty by an earlier ## of the same chain (C66_chain_wrong), ## before # (C66_hash_wrong), names that are not available for replacement (C66_fixed_wrong). The extension that a comma before an empty argument disappears is part of the specification. C66_bounds holds for all lists."
  },
  {
   "property": "C67",
   "status": "partial",
   "theorems": [
    "Verif.Props.Stringize.C67_contents_partial",
    "Verif.Props.Stringize.C67_omitted_wrong",
    "Verif.Props.Stringize.C67_quote_wrong",
    "Verif.Props.Stringize.C67_spelling_partial"
   ],
   "note": "All macros and arguments except an omitted argument for ... (C67_omitted_wrong). The contents of the string are those of C; the spelling too if no literal has a single quote (C67_quote_wrong)."
  },
  {
   "property": "C68",
   "status": "partial",
   "theorems": [
    "Verif.Declarator.C68_declarator",
    "Verif.Declarator.C68_only_declarators",
    "Verif.Declarator.C68_order_wrong"
   ],
   "note": "C68_declarator: every declarator, whatever its size, is parsed as C prescribes or reported. C68_only_declarators: nothing else is accepted (a trailing comma after parameters, (...) and arrays of size 0 are extensions and part of the specification). Both hold for the typedef names known at that time; which are known depends on the order of parsing: C68_order_wrong. Calling conventions, the limit on the size of arrays and types that are not yet known are not modelled."
  },
  {
   "property": "C69",
   "status": "partial",
   "theorems": [
    "Verif.TypeString.C69_denotes_partial",
    "Verif.TypeString.C69_distinct_partial",
    "Verif.TypeString.C69_round_trip_partial",
    "Verif.TypeString.C69_variadic_wrong"
   ],
   "note": "All types without variadic functions; for these ... is missing in the name: C69_variadic_wrong. Bit-fields and the names of the basic types are not modelled."
  },
  {
   "property": "C70",
   "status": "partial",
   "theorems": [
    "Verif.Props.Call.C70_area",
    "Verif.Props.Call.C70_arguments_partial",
    "Verif.Props.Call.C70_convention_partial",
    "Verif.Props.Call.C70_float_in_gpr_wrong",
    "Verif.Props.Call.C70_kept",
    "Verif.Props.Call.C70_result",
    "Verif.Props.Call.C70_target"
   ],
   "note": "All states that the register allocator reaches and all calls whose arguments are values computed before, with any number of arguments. Left out: a float or double argument in the general purpose register with the encoding of its float register (C70_float_in_gpr_wrong), addresses with index and offset, inline assembler functions, and that no assertion fails otherwise."
  },
  {
   "property": "C71",
   "status": "partial",
   "theorems": [
    "Verif.Props.FloatConv.C71_assigned_wrong",
    "Verif.Props.FloatConv.C71_bool_partial",
    "Verif.Props.FloatConv.C71_branch_spill_wrong",
    "Verif.Props.FloatConv.C71_double_to_u64_wrong",
    "Verif.Props.FloatConv.C71_float_to_int_partial",
    "Verif.Props.FloatConv.C71_float_to_unsigned_wrong",
    "Verif.Props.FloatConv.C71_int_to_float",
    "Verif.Props.FloatConv.C71_literal_bool_partial",
    "Verif.Props.FloatConv.C71_literal_partial",
    "Verif.Props.FloatConv.C71_minus_zero_wrong",
    "Verif.Props.FloatConv.C71_nan_wrong",
    "Verif.Props.FloatConv.C71_nearest_unique",
    "Verif.Props.FloatConv.C71_negative_literal_wrong",
    "Verif.Props.FloatConv.C71_registers_partial"
   ],
   "note": "All integer types and both float types. Integers to floats are proved right. The other way fails for large values of unsigned types, for negative literals and for the value of an assignment; conditions fail for -0.0 in memory and for NaN; the cast from u64 loses another value if no register is free (theorems with the suffix _wrong). The proved parts leave exactly these cases out."
  },
  {
   "property": "C72",
   "status": "partial",
   "theorems": [
    "Verif.Props.ExprCode.C72_assignments",
    "Verif.Props.ExprCode.C72_compiles_partial",
    "Verif.Props.ExprCode.C72_compiles_wrong",
    "Verif.Props.ExprCode.C72_condition",
    "Verif.Props.ExprCode.C72_return",
    "Verif.Props.ExprCode.C72_stack_wrong"
   ],
   "note": "All integer types; variables at fixed addresses, pointers, casts, unary and binary operators without side effects, assignments as statements, conditions and return. Proved right for expressions of up to 256 pending operands. Fails for deeper ones (the stack of the compiler overflows), and negating the constant 2^(n-1) of an unsigned type is undefined behaviour in the compiler. Not in the model: assignments within expressions, calls, &&, ||, ?:, members, bit-fields and subscripts (some of them have claims of their own)."
  },
  {
   "property": "C73",
   "status": "proved",
   "theorems": [
    "Verif.Props.FuncCode.C73_emits",
    "Verif.Props.FuncCode.C73_function",
    "Verif.Props.FuncCode.C73_labels",
    "Verif.Props.FuncCode.C73_runs_on"
   ],
   "note": "All functions of the fragment, all executions: also those that do not end (C73_runs_on). The fragment: integer types, variables at fixed addresses and objects reached through pointers, the expressions and assignments of C72, up to 256 pending operands (beyond that C72_stack_wrong). Not in the model: switch, goto, declarations with initializers, calls and the operators that C72 leaves out. Jumps go to nodes; their encoding and patching is C35 and C36."
  },
  {
   "property": "C74",
   "status": "partial",
   "theorems": [
    "Verif.Props.StaticInit.C74_difference_as_index_wrong",
    "Verif.Props.StaticInit.C74_executable_partial",
    "Verif.Props.StaticInit.C74_in_bounds",
    "Verif.Props.StaticInit.C74_number_minus_address_wrong",
    "Verif.Props.StaticInit.C74_object_file_partial",
    "Verif.Props.StaticInit.C74_overridden_address_wrong",
    "Verif.Props.StaticInit.C74_rejects_no_fixed_address",
    "Verif.Props.StaticInit.C74_rejects_values",
    "Verif.Props.StaticInit.C74_shorter_list_wrong",
    "Verif.Props.StaticInit.C74_shorter_string_wrong",
    "Verif.Props.StaticInit.C74_string_offset_wrong",
    "Verif.Props.StaticInit.C74_sum_of_addresses_wrong",
    "Verif.Props.StaticInit.C74_two_addresses_wrong"
   ],
   "note": "For object files (C74_object_file_partial) and executables (C74_executable_partial), for all initializers made of constants in which nothing is overridden except plain values by plain values or addresses. Without these conditions the claim is false: shorter strings and lists do not clear what they replace, replaced addresses come back or are added, addresses inside string literals lose their offset in executables, `5 - &x` and `&x + &x` are accepted, and `&a[&c - &c]` crashes the compiler (the theorems with suffix _wrong). C74_in_bounds, C74_rejects_no_fixed_address and C74_rejects_values hold without those conditions. Bit-fields are in C25."
  },
  {
   "property": "C75",
   "status": "proved",
   "theorems": [
    "Verif.Props.BaseReloc.C75_relocations"
   ],
   "note": "All lists of less than 2^30 patches in images of less than 4 GB; the directory of thread local storage is aligned to 64 bytes, as the writer does."
  },
  {
   "property": "C76",
   "status": "partial",
   "theorems": [
    "Verif.Props.Unwind.C76_body_partial",
    "Verif.Props.Unwind.C76_epilog_partial",
    "Verif.Props.Unwind.C76_frame_size_partial",
    "Verif.Props.Unwind.C76_large_frame_wrong",
    "Verif.Props.Unwind.C76_prolog_partial"
   ],
   "note": "All functions with up to four stores of register arguments of at most 8 bytes of code each and a frame up to 512 KB. For larger frames the property is false: the size is written at a multiple of four, two bytes after the place where Windows reads it (C76_large_frame_wrong). The body is described by what it keeps: rbp, the saved words and the registers that the compiler does not use (C51, C70). The table of exception handlers after the codes and the entries of .pdata are not in the model."
  },
  {
   "property": "C77",
   "status": "partial",
   "theorems": [
    "Verif.Props.TypeEq.C77_accepts_partial",
    "Verif.Props.TypeEq.C77_decides",
    "Verif.Props.TypeEq.C77_kind_wrong",
    "Verif.Props.TypeEq.C77_rejects_partial",
    "Verif.Props.TypeEq.C77_terminates",
    "Verif.Props.TypeEq.C77_unknown_size_wrong",
    "Verif.Props.TypeEq.C77_variadic_wrong"
   ],
   "note": "C77_decides: all types without variadic functions and without arrays of unknown size, if each tag names one structure or union. C77_accepts_partial needs only the former, C77_rejects_partial only the latter, and neither needs that tags are unique. Wrong without these conditions: `...` is ignored (C77_variadic_wrong), an unknown size matches only an unknown size (C77_unknown_size_wrong), pointers to nowhere defined `struct x` and `union x` match (C77_kind_wrong). Qualifiers are not modelled."
  },
  {
   "property": "C78",
   "status": "partial",
   "theorems": [
    "Verif.Props.Archive.C78_absent",
    "Verif.Props.Archive.C78_alternate",
    "Verif.Props.Archive.C78_alternate_cycle_wrong",
    "Verif.Props.Archive.C78_dllimport_object",
    "Verif.Props.Archive.C78_finds_imports",
    "Verif.Props.Archive.C78_finds_objects",
    "Verif.Props.Archive.C78_first_import",
    "Verif.Props.Archive.C78_first_object",
    "Verif.Props.Archive.C78_import_inside",
    "Verif.Props.Archive.C78_lookup_inside_partial",
    "Verif.Props.Archive.C78_parse_inside",
    "Verif.Props.Archive.C78_past_end_wrong",
    "Verif.Props.Archive.C78_search_ends_partial"
   ],
   "note": "All libraries in the format of Microsoft, all files. Reading the index never leaves the file (C78_parse_inside) and neither does reading what an import header says (C78_import_inside), but the lookup of a symbol does if its member extends behind the end of the file (C78_past_end_wrong, C78_lookup_inside_partial). A cycle of alternate names makes the search endless (C78_alternate_cycle_wrong, C78_search_ends_partial). The extraction of constants from object files is not modelled."
  },
  {
   "property": "C79",
   "status": "partial",
   "theorems": [
    "Verif.Props.Image.C79_absolute_partial",
    "Verif.Props.Image.C79_absolute_wrong",
    "Verif.Props.Image.C79_accepted",
    "Verif.Props.Image.C79_bss_aligned_partial",
    "Verif.Props.Image.C79_bss_apart",
    "Verif.Props.Image.C79_bss_disjoint",
    "Verif.Props.Image.C79_bss_zero",
    "Verif.Props.Image.C79_contents",
    "Verif.Props.Image.C79_data_aligned_partial",
    "Verif.Props.Image.C79_data_aligned_wrong",
    "Verif.Props.Image.C79_debug",
    "Verif.Props.Image.C79_disjoint",
    "Verif.Props.Image.C79_entry",
    "Verif.Props.Image.C79_exports",
    "Verif.Props.Image.C79_floats",
    "Verif.Props.Image.C79_floats_aligned",
    "Verif.Props.Image.C79_imports",
    "Verif.Props.Image.C79_relocations",
    "Verif.Props.Image.C79_rip_relative",
    "Verif.Props.Image.C79_section_offset",
    "Verif.Props.Image.C79_strings",
    "Verif.Props.Image.C79_stubs",
    "Verif.Props.Image.C79_tls",
    "Verif.Props.Image.C79_tls_aligned_partial",
    "Verif.Props.Image.C79_tls_aligned_wrong",
    "Verif.Props.Image.C79_unwind",
    "Verif.Props.Image.C79_wide_string_aligned_wrong"
   ],
   "note": "All programs, the whole file. Alignment is proved for initialized objects up to 512 bytes, for uninitialized ones up to 4096 bytes and for variables of threads if the first one has the largest alignment (C79_data_aligned_partial, C79_bss_aligned_partial, C79_tls_aligned_partial); it fails otherwise and for wide string literals (C79_data_aligned_wrong, C79_tls_aligned_wrong, C79_wide_string_aligned_wrong). Stored addresses inside of string literals are wrong (C79_absolute_wrong, C79_absolute_partial). The PDB file itself, resources and the sums of sizes in the header, which nothing reads, are not modelled. That patches are inside of functions and objects is an assumption."
  },
  {
   "property": "C80",
   "status": "partial",
   "theorems": [
    "Verif.Props.Object.C80_absolute_partial",
    "Verif.Props.Object.C80_aligned_wrong",
    "Verif.Props.Object.C80_apart",
    "Verif.Props.Object.C80_code",
    "Verif.Props.Object.C80_debug",
    "Verif.Props.Object.C80_double",
    "Verif.Props.Object.C80_external_function",
    "Verif.Props.Object.C80_external_object",
    "Verif.Props.Object.C80_float",
    "Verif.Props.Object.C80_function",
    "Verif.Props.Object.C80_function_aligned",
    "Verif.Props.Object.C80_function_table",
    "Verif.Props.Object.C80_header",
    "Verif.Props.Object.C80_literal",
    "Verif.Props.Object.C80_literal_aligned_partial",
    "Verif.Props.Object.C80_literal_bytes_partial",
    "Verif.Props.Object.C80_object",
    "Verif.Props.Object.C80_object_aligned_partial",
    "Verif.Props.Object.C80_object_bytes_partial",
    "Verif.Props.Object.C80_rip_relative",
    "Verif.Props.Object.C80_section_offset",
    "Verif.Props.Object.C80_sections",
    "Verif.Props.Object.C80_selectany",
    "Verif.Props.Object.C80_selectany_aligned",
    "Verif.Props.Object.C80_selectany_bytes",
    "Verif.Props.Object.C80_selectany_wrong",
    "Verif.Props.Object.C80_string",
    "Verif.Props.Object.C80_tentative",
    "Verif.Props.Object.C80_tentative_wrong",
    "Verif.Props.Object.C80_thread_local",
    "Verif.Props.Object.C80_thread_local_aligned_partial",
    "Verif.Props.Object.C80_thread_local_bytes",
    "Verif.Props.Object.C80_unwind_partial",
    "Verif.Props.Object.C80_unwind_wrong",
    "Verif.Props.Object.C80_zero",
    "Verif.Props.Object.C80_zero_aligned",
    "Verif.Props.Object.C80_zero_apart"
   ],
   "note": "All programs, the whole file except for the contents of the debug sections, which are parameters. Unwind information is right if that of all functions before has the size that the first one suggests (C80_unwind_partial; otherwise C80_unwind_wrong). Alignment is proved up to 16 bytes for initialized objects (C80_object_aligned_partial, C80_literal_aligned_partial, C80_thread_local_aligned_partial; more: C80_aligned_wrong). If an object with __declspec(selectany) contains addresses, .data is corrupted (C80_selectany_wrong), so contents and addresses are proved for programs without (C80_object_bytes_partial, C80_literal_bytes_partial, C80_absolute_partial). Tentative definitions without bytes look undefined (C80_tentative_wrong). That patches are inside of functions and objects, and names unique, is an assumption."
  },
  {
   "property": "C81",
   "status": "proved",
   "theorems": [
    "Verif.Props.Msf.C81_free",
    "Verif.Props.Msf.C81_header",
    "Verif.Props.Msf.C81_pages",
    "Verif.Props.Msf.C81_streams",
    "Verif.Props.Msf.C81_written"
   ],
   "note": "The whole of write_msf, for all streams. That writing to disk succeeds is an assumption."
  },
  {
   "property": "C82",
   "status": "partial",
   "theorems": [
    "Verif.Props.PdbSymbols.C82_addresses",
    "Verif.Props.PdbSymbols.C82_globals_partial",
    "Verif.Props.PdbSymbols.C82_globals_wrong",
    "Verif.Props.PdbSymbols.C82_public_written",
    "Verif.Props.PdbSymbols.C82_publics",
    "Verif.Props.PdbSymbols.C82_records"
   ],
   "note": "C82_globals_partial: enumerators below -32768 are missing, as they are not found (C82_globals_wrong). Public symbols and the list by address are proved in full."
  },
  {
   "property": "C83",
   "status": "partial",
   "theorems": [
    "Verif.Props.Include.C83_next_partial",
    "Verif.Props.Include.C83_next_wrong",
    "Verif.Props.Include.C83_once_partial",
    "Verif.Props.Include.C83_once_wrong",
    "Verif.Props.Include.C83_quoted",
    "Verif.Props.Include.C83_system",
    "Verif.Props.Include.C83_system_any"
   ],
   "note": "#include is proved in full for directories whose paths are not longer than Windows allows. C83_next_partial: no earlier directory has a path that is the start of the path of the file (C83_next_wrong). C83_once_partial: the file is included with the same path (C83_once_wrong)."
  },
  {
   "property": "C84",
   "status": "proved",
   "theorems": [
    "Verif.Props.Md5.C84_assert",
    "Verif.Props.Md5.C84_digest",
    "Verif.Props.Md5.C84_sines"
   ],
   "note": "Lengths are natural numbers; the length in bits is stored modulo 2^64, as RFC 1321 says."
  },
  {
   "property": "C85",
   "status": "partial",
   "theorems": [
    "Verif.Props.DebugLines.C85_object_partial",
    "Verif.Props.DebugLines.C85_pdb_partial",
    "Verif.Props.DebugLines.C85_sample",
    "Verif.Props.DebugLines.C85_sorted",
    "Verif.Props.DebugLines.C85_total",
    "Verif.Props.DebugLines.C85_wrong"
   ],
   "note": "C85_object_partial and C85_pdb_partial: the first token of the body is in the same file as the brace before it; C85_wrong shows what happens otherwise. The symbols of functions (subsections 0xf1) are given."
  },
  {
   "property": "C86",
   "status": "partial",
   "theorems": [
    "Verif.Props.Assign.C86_accepted_partial",
    "Verif.Props.Assign.C86_bool_quiet",
    "Verif.Props.Assign.C86_bool_wrong",
    "Verif.Props.Assign.C86_floats",
    "Verif.Props.Assign.C86_lossy_partial",
    "Verif.Props.Assign.C86_lossy_wrong",
    "Verif.Props.Assign.C86_negative_wrong",
    "Verif.Props.Assign.C86_pointers_quiet",
    "Verif.Props.Assign.C86_reported",
    "Verif.Props.Assign.C86_total",
    "Verif.Props.Assign.C86_truncation_partial",
    "Verif.Props.Assign.C86_truncation_wrong"
   ],
   "note": "C86_reported has the full statement. C86_accepted_partial: not for pointers that are assigned to bit-fields of type _Bool (C86_bool_wrong) and negative floating constants for _Bool and unsigned types (C86_negative_wrong). C86_truncation_partial: not for constants from 2^63 on in signed types and negative ones in 64-bit unsigned types (C86_truncation_wrong). C86_lossy_partial: types of different sizes (C86_lossy_wrong)."
  },
  {
   "property": "C87",
   "status": "proved",
   "theorems": [
    "Verif.Props.Scopes.C87_elsewhere",
    "Verif.Props.Scopes.C87_total",
    "Verif.Props.Scopes.C87_variables"
   ],
   "note": "For PDB files; in object files the linker writes the positions of the records. Nodes of the intermediate representation are their sizes; where a scope starts or ends is between two nodes."
  },
  {
   "property": "C88",
   "status": "partial",
   "theorems": [
    "Verif.Props.Seh.C88_entries_partial",
    "Verif.Props.Seh.C88_finally_never",
    "Verif.Props.Seh.C88_finally_wrong",
    "Verif.Props.Seh.C88_handlers_partial",
    "Verif.Props.Seh.C88_total_partial"
   ],
   "note": "For functions without __finally; for all others the compiler dereferences a null pointer when it writes the table (C88_finally_wrong; C88_finally_never says: exactly for these). That the handlers are in executables; object files have no relocations for the table."
  },
  {
   "property": "C89",
   "status": "partial",
   "theorems": [
    "Verif.Props.Names.C89_ascii_partial",
    "Verif.Props.Names.C89_found_partial",
    "Verif.Props.Names.C89_found_wrong",
    "Verif.Props.Names.C89_offset_partial",
    "Verif.Props.Names.C89_other_partial"
   ],
   "note": "For names whose hash is not within twice the number of files of 2^32; all names of ASCII characters are such (C89_ascii_partial). For others the sum of the hash and the step wraps at 2^32, and 35 files with such hashes are enough for a name that isn't found (C89_found_wrong)."
  },
  {
   "property": "C90",
   "status": "partial",
   "theorems": [
    "Verif.Props.Print.C90_arguments_partial",
    "Verif.Props.Print.C90_empty_wrong",
    "Verif.Props.Print.C90_flexible_wrong",
    "Verif.Props.Print.C90_reads_partial",
    "Verif.Props.Print.C90_star_wrong",
    "Verif.Props.Print.C90_string"
   ],
   "note": "For types without empty structures and arrays: of an empty array the first element is printed (C90_flexible_wrong), for an empty structure the compiler reads a member that does not exist (C90_empty_wrong). For widths and precisions that are numbers: a * is passed once but read for every member (C90_star_wrong)."
  },
  {
   "property": "C91",
   "status": "partial",
   "theorems": [
    "Verif.Props.Generic.C91_both",
    "Verif.Props.Generic.C91_code_partial",
    "Verif.Props.Generic.C91_code_wrong",
    "Verif.Props.Generic.C91_lost",
    "Verif.Props.Generic.C91_reported",
    "Verif.Props.Generic.C91_type"
   ],
   "note": "The type of the result is always right (C91_type) and a missing association is always reported (C91_reported). The code is right if the selected association is the last one and follows one with another type, or is the only one (C91_code_partial). Otherwise it is not: after an association with another type the parser discards everything from the start of the list, also the selected expression (C91_lost, C91_code_wrong); default directly before the selected association is executed, too (C91_both)."
  },
  {
   "property": "C92",
   "status": "partial",
   "theorems": [
    "Verif.Props.Embed.C92_embed_partial",
    "Verif.Props.Embed.C92_nested_wrong",
    "Verif.Props.Embed.C92_space_wrong",
    "Verif.Props.Embed.C92_unknown_partial"
   ],
   "note": "Proved for parameters without parentheses in them that follow each other directly (C92_embed_partial, C92_unknown_partial). With whitespace between them the parameters after the first one are lost (C92_space_wrong), and a parameter ends at its first closing parenthesis (C92_nested_wrong). Loading the file and limits of the token buffer are not modelled; limit is reported as unsupported."
  },
  {
   "property": "C93",
   "status": "partial",
   "theorems": [
    "Verif.Props.Format.C93_few_partial",
    "Verif.Props.Format.C93_format_partial",
    "Verif.Props.Format.C93_printf_partial",
    "Verif.Props.Format.C93_star_wrong",
    "Verif.Props.Format.C93_text"
   ],
   "note": "Proved for braces that are text because of what follows the word after them, and for options after a colon (C93_format_partial, C93_printf_partial, C93_few_partial); text without % and { is always kept (C93_text). A brace with a * that is not a specifier reads an argument although it is text (C93_star_wrong). The conversions for the values are C90."
  },
  {
   "property": "C94",
   "status": "partial",
   "theorems": [
    "Verif.Props.Define.C94_object",
    "Verif.Props.Define.C94_object_wrong",
    "Verif.Props.Define.C94_parameters",
    "Verif.Props.Define.C94_paste_wrong",
    "Verif.Props.Define.C94_replacement_partial"
   ],
   "note": "The parameters are always right (C94_parameters, C94_object). The replacement list is right if no # or ## follows ## and no # is in an object-like macro (C94_replacement_partial). Object-like macros with # are reported although C allows them (C94_object_wrong); # after ##, as in L ## #x, is pasted itself (C94_paste_wrong). Whitespace in the replacement list is left out of the model; the code eats it after every token."
  },
  {
   "property": "C95",
   "status": "partial",
   "theorems": [
    "Verif.Props.AsmAddress.C95_absolute_wrong",
    "Verif.Props.AsmAddress.C95_index_wrong",
    "Verif.Props.AsmAddress.C95_minus_wrong",
    "Verif.Props.AsmAddress.C95_missing",
    "Verif.Props.AsmAddress.C95_narrow_wrong",
    "Verif.Props.AsmAddress.C95_operand_partial",
    "Verif.Props.AsmAddress.C95_product_wrong",
    "Verif.Props.AsmAddress.C95_registers",
    "Verif.Props.AsmAddress.C95_variable"
   ],
   "note": "Names of registers are always right (C95_registers), words for sizes can be variables (C95_variable). Operands with a base and a constant that is added are right (C95_operand_partial). A constant that is subtracted is added (C95_minus_wrong), every operand with an index is an error (C95_index_wrong), as is a product behind the base (C95_product_wrong), 32-bit registers are taken for 64-bit registers (C95_narrow_wrong), and operands without a base read outside of an array (C95_absolute_wrong). Expressions with variables are not modelled."
  },
  {
   "property": "C96",
   "status": "partial",
   "theorems": [
    "Verif.Props.AsmBytes.C96_block_partial",
    "Verif.Props.AsmBytes.C96_digits_wrong",
    "Verif.Props.AsmBytes.C96_length",
    "Verif.Props.AsmBytes.C96_rep_wrong"
   ],
   "note": "Blocks without rep movsd are right (C96_block_partial), words of a wrong length are reported (C96_length). The prefix of rep movsd is lost (C96_rep_wrong), and words of two characters that are not hexadecimal are accepted (C96_digits_wrong). Labels and instructions with operands are not modelled."
  },
  {
   "property": "C97",
   "status": "partial",
   "theorems": [
    "Verif.Props.AsmCond.C97_comparison_partial",
    "Verif.Props.AsmCond.C97_flag",
    "Verif.Props.AsmCond.C97_greater_wrong",
    "Verif.Props.AsmCond.C97_relation"
   ],
   "note": "Conditions on integers and flags are always right (C97_relation, C97_flag), as are the eight comparisons of floating-point numbers that the processor has (C97_comparison_partial). Those with greater are wrong if an operand is not a number (C97_greater_wrong)."
  },
  {
   "property": "C98",
   "status": "proved",
   "theorems": [
    "Verif.Props.AsmNames.C98_add",
    "Verif.Props.AsmNames.C98_lookup",
    "Verif.Props.AsmNames.C98_twice"
   ],
   "note": "Names and instructions are numbers and the hash function is any. C98_add: all are added; C98_twice: duplicates are noticed; C98_lookup: what is found is exactly what was added."
  }
 ]
}