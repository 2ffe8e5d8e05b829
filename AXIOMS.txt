# Axioms of the theorems in MANIFEST.json, as reported by `#print axioms` (Lean 4.33.0).
Verif.CExpr.C19_full_stack_wrong: propext, Classical.choice, Quot.sound
Verif.CExpr.C19_in_bounds: propext, Quot.sound
Verif.CExpr.C19_rejects_partial: propext, Classical.choice, Quot.sound
Verif.CExpr.C19_sound: propext, Classical.choice, Quot.sound
Verif.CExpr.C19_struct_cast_wrong: propext
Verif.CExpr.C19_structure: propext, Classical.choice, Quot.sound
Verif.CExpr.C19_structure_list: propext, Classical.choice, Quot.sound
Verif.CExpr.C19_structure_short: propext, Classical.choice, Quot.sound
Verif.CExpr.C19_unambiguous: propext, Classical.choice, Quot.sound
Verif.CondIncl.C09_null_directive_wrong: none
Verif.CondIncl.C09_selects_partial: propext, Quot.sound
Verif.CondIncl.C09_unbalanced_diagnosed: propext
Verif.Declarator.C68_declarator: propext, Classical.choice, Quot.sound
Verif.Declarator.C68_only_declarators: propext, Quot.sound
Verif.Declarator.C68_order_wrong: propext, Quot.sound
Verif.DefineTable.C10_defined_iff: propext, Classical.choice, Quot.sound
Verif.DefineTable.C10_latest_definition: propext, Classical.choice, Quot.sound
Verif.DefineTable.C10_right_name: propext, Quot.sound
Verif.IfExpr.C07_garbage_accepted: propext, Quot.sound
Verif.IfExpr.C07_never_wrong: propext, Classical.choice, Quot.sound
Verif.IfExpr.C07_structure: propext, Classical.choice, Quot.sound
Verif.IfExpr.C07_structure_short: propext, Classical.choice, Quot.sound
Verif.IfExpr.C07_unambiguous: propext, Classical.choice, Quot.sound
Verif.IfExpr.C08_conditional_type: propext, Classical.choice, Quot.sound
Verif.IfExpr.C08_largest_is_unsigned: propext, Classical.choice, Quot.sound
Verif.IfExpr.C08_not_keeps_type: propext, Classical.choice, Quot.sound
Verif.IfExpr.C08_shift_count_changes_type: propext, Classical.choice, Quot.sound
Verif.IfExpr.C08_taken_partial: propext, Classical.choice, Quot.sound
Verif.IfExpr.C08_unevaluated_division: propext, Classical.choice, Quot.sound
Verif.IfExpr.C08_value_partial: propext, Classical.choice, Quot.sound
Verif.IntrusiveList.C61_doubly_linked: propext, Classical.choice, Quot.sound
Verif.IntrusiveList.C61_singly_linked: propext, Classical.choice, Quot.sound
Verif.IntrusiveList.C61_walk_unique: propext, Quot.sound
Verif.Props.Align.C46_alignUp64_eq: propext, Classical.choice, Quot.sound
Verif.Props.Align.C46_alignUp64_least: propext, Classical.choice, Quot.sound
Verif.Props.Align.C46_alignUp_least: propext, Classical.choice, Quot.sound
Verif.Props.Align.C46_isPowerOfTwo_iff: propext, Classical.choice, Quot.sound
Verif.Props.Align.C46_roundUp32: propext, Classical.choice, Quot.sound
Verif.Props.Align.C46_roundUp64: propext, Classical.choice, Quot.sound
Verif.Props.Archive.C78_absent: propext, Quot.sound
Verif.Props.Archive.C78_alternate: propext, Classical.choice, Quot.sound
Verif.Props.Archive.C78_alternate_cycle_wrong: none
Verif.Props.Archive.C78_dllimport_object: propext
Verif.Props.Archive.C78_finds_imports: propext, Quot.sound
Verif.Props.Archive.C78_finds_objects: propext, Quot.sound
Verif.Props.Archive.C78_first_import: propext
Verif.Props.Archive.C78_first_object: propext
Verif.Props.Archive.C78_import_inside: propext, Classical.choice, Quot.sound
Verif.Props.Archive.C78_lookup_inside_partial: propext, Classical.choice, Quot.sound
Verif.Props.Archive.C78_parse_inside: propext, Classical.choice, Quot.sound
Verif.Props.Archive.C78_past_end_wrong: propext, Quot.sound
Verif.Props.Archive.C78_search_ends_partial: propext, Quot.sound
Verif.Props.Arena.C39_arena: propext, Classical.choice, Quot.sound
Verif.Props.AsmAddress.C95_absolute_wrong: propext, Quot.sound
Verif.Props.AsmAddress.C95_index_wrong: propext, Quot.sound
Verif.Props.AsmAddress.C95_minus_wrong: propext, Classical.choice, Quot.sound
Verif.Props.AsmAddress.C95_missing: propext
Verif.Props.AsmAddress.C95_narrow_wrong: propext, Quot.sound
Verif.Props.AsmAddress.C95_operand_partial: propext, Quot.sound
Verif.Props.AsmAddress.C95_product_wrong: propext, Quot.sound
Verif.Props.AsmAddress.C95_registers: propext, Quot.sound
Verif.Props.AsmAddress.C95_variable: propext
Verif.Props.AsmBytes.C96_block_partial: propext, Classical.choice, Quot.sound
Verif.Props.AsmBytes.C96_digits_wrong: propext, Classical.choice, Quot.sound
Verif.Props.AsmBytes.C96_length: propext, Classical.choice, Quot.sound
Verif.Props.AsmBytes.C96_rep_wrong: propext, Classical.choice, Quot.sound
Verif.Props.AsmCond.C97_comparison_partial: propext
Verif.Props.AsmCond.C97_flag: propext
Verif.Props.AsmCond.C97_greater_wrong: propext
Verif.Props.AsmCond.C97_relation: propext, Classical.choice, Quot.sound
Verif.Props.AsmNames.C98_add: propext, Classical.choice, Quot.sound
Verif.Props.AsmNames.C98_lookup: propext, Quot.sound
Verif.Props.AsmNames.C98_twice: propext, Quot.sound
Verif.Props.Assign.C86_accepted_partial: propext, Quot.sound
Verif.Props.Assign.C86_bool_quiet: propext, Quot.sound
Verif.Props.Assign.C86_bool_wrong: propext, Quot.sound
Verif.Props.Assign.C86_floats: propext, Quot.sound
Verif.Props.Assign.C86_lossy_partial: propext, Classical.choice, Quot.sound
Verif.Props.Assign.C86_lossy_wrong: propext, Quot.sound
Verif.Props.Assign.C86_negative_wrong: propext, Classical.choice, Quot.sound
Verif.Props.Assign.C86_pointers_quiet: propext, Quot.sound
Verif.Props.Assign.C86_reported: propext, Quot.sound
Verif.Props.Assign.C86_total: propext, Quot.sound
Verif.Props.Assign.C86_truncation_partial: propext, Classical.choice, Quot.sound
Verif.Props.Assign.C86_truncation_wrong: propext, Quot.sound
Verif.Props.AstTable.C27_first_wins_map: propext, Classical.choice, Quot.sound
Verif.Props.AstTableThreads.C28_growth_admits_two_winners: propext
Verif.Props.AstTableThreads.C28_linearizable_below_capacity: propext, Classical.choice, Quot.sound
Verif.Props.AstTableThreads.C28_linearizable_partial: propext, Classical.choice, Quot.sound
Verif.Props.AstTableThreads.C28_one_winner_partial: propext, Classical.choice, Quot.sound
Verif.Props.BaseReloc.C75_relocations: propext, Classical.choice, Quot.sound
Verif.Props.Bitfield.C25_agrees_with_run_time: propext, Classical.choice, Quot.sound
Verif.Props.Bitfield.C25_static_bitfield_partial: propext, Classical.choice, Quot.sound
Verif.Props.Bitfield.C25_unmasked_value_wrong: propext
Verif.Props.Bitfield.C37_load: propext, Classical.choice, Quot.sound
Verif.Props.Bitfield.C37_neighbours: propext, Classical.choice, Quot.sound
Verif.Props.Bitfield.C37_round_trip: propext, Classical.choice, Quot.sound
Verif.Props.Bitfield.C37_store_partial: propext, Classical.choice, Quot.sound
Verif.Props.Bitfield.C37_width_64_host_ub: propext
Verif.Props.Call.C70_area: propext, Classical.choice, Quot.sound
Verif.Props.Call.C70_arguments_partial: propext, Classical.choice, Quot.sound
Verif.Props.Call.C70_convention_partial: propext, Classical.choice, Quot.sound
Verif.Props.Call.C70_float_in_gpr_wrong: propext, Quot.sound
Verif.Props.Call.C70_kept: propext, Classical.choice, Quot.sound
Verif.Props.Call.C70_result: propext, Classical.choice, Quot.sound
Verif.Props.Call.C70_target: propext, Classical.choice, Quot.sound
Verif.Props.Cast.C18_literal_agrees_with_run_time: propext, Classical.choice, Quot.sound
Verif.Props.Cast.C18_memory_cast: propext, Classical.choice, Quot.sound
Verif.Props.Cast.C18_register_cast: propext, Classical.choice, Quot.sound
Verif.Props.CharLit.C64_no_garbage: propext, Quot.sound
Verif.Props.CharLit.C64_single: propext, Classical.choice, Quot.sound
Verif.Props.CharLit.C64_three_characters_wrong: propext
Verif.Props.Chunk.C48_declaration_list_wrong: propext
Verif.Props.Chunk.C48_declarations: propext, Quot.sound
Verif.Props.Chunk.C48_partition: propext, Quot.sound
Verif.Props.CommandLine.C43_buffer: propext, Classical.choice, Quot.sound
Verif.Props.CommandLine.C43_round_trip: propext, Classical.choice, Quot.sound
Verif.Props.CommandLine.C43_rules: propext, Classical.choice, Quot.sound
Verif.Props.Compound.C20_bitfield_partial: propext, Classical.choice, Quot.sound
Verif.Props.Compound.C20_bitfield_shift_wrong: propext
Verif.Props.Compound.C20_division_nonnegative: propext, Classical.choice, Quot.sound
Verif.Props.Compound.C20_division_partial: propext, Classical.choice, Quot.sound
Verif.Props.Compound.C20_division_same_type: propext, Classical.choice, Quot.sound
Verif.Props.Compound.C20_narrow_min_traps: propext
Verif.Props.Compound.C20_narrow_negative_divisor_wrong: propext
Verif.Props.Compound.C20_ring_and_bitwise: propext, Classical.choice, Quot.sound
Verif.Props.Compound.C20_shift: propext, Classical.choice, Quot.sound
Verif.Props.Compound.C20_signed_by_unsigned_wrong: propext
Verif.Props.Compound.C20_small_literal_wrong: propext
Verif.Props.Compound.C20_zero_literal: propext
Verif.Props.Cond.C36_float_compare_partial: propext
Verif.Props.Cond.C36_integer_compare: propext, Classical.choice, Quot.sound
Verif.Props.Cond.C36_nan_correct_iff: propext
Verif.Props.Cond.C36_nan_wrong: propext
Verif.Props.Cond.C36_negate: propext, Quot.sound
Verif.Props.Crc32.C45_crc32: propext, Classical.choice, Quot.sound
Verif.Props.Crc32.C45_poly_injective: propext, Classical.choice, Quot.sound
Verif.Props.DebugLines.C85_object_partial: propext, Classical.choice, Quot.sound
Verif.Props.DebugLines.C85_pdb_partial: propext, Classical.choice, Quot.sound
Verif.Props.DebugLines.C85_sample: propext, Quot.sound
Verif.Props.DebugLines.C85_sorted: propext, Classical.choice, Quot.sound
Verif.Props.DebugLines.C85_total: propext, Classical.choice, Quot.sound
Verif.Props.DebugLines.C85_wrong: propext, Quot.sound
Verif.Props.Define.C94_object: propext, Quot.sound
Verif.Props.Define.C94_object_wrong: propext, Quot.sound
Verif.Props.Define.C94_parameters: propext, Quot.sound
Verif.Props.Define.C94_paste_wrong: propext, Quot.sound
Verif.Props.Define.C94_replacement_partial: propext, Classical.choice, Quot.sound
Verif.Props.Embed.C92_embed_partial: propext, Classical.choice, Quot.sound
Verif.Props.Embed.C92_nested_wrong: propext
Verif.Props.Embed.C92_space_wrong: propext, Classical.choice, Quot.sound
Verif.Props.Embed.C92_unknown_partial: propext, Quot.sound
Verif.Props.Encode.C34_allocatable_bases_supported: propext, Quot.sound
Verif.Props.Encode.C34_memory_operand_partial: propext, Classical.choice, Quot.sound
Verif.Props.Encode.C34_r12_wrong: propext, Quot.sound
Verif.Props.Encode.C34_r13_wrong: propext, Quot.sound
Verif.Props.Encode.C34_register_operands: propext, Quot.sound
Verif.Props.Encode.C34_vex_memory_operand_partial: propext, Classical.choice, Quot.sound
Verif.Props.Encode.C34_vex_register_operands: propext, Quot.sound
Verif.Props.EntryPoint.C33_accepted: propext, Quot.sound
Verif.Props.EntryPoint.C33_dll_subsystem_wrong: propext
Verif.Props.EntryPoint.C33_explicit: propext, Quot.sound
Verif.Props.EntryPoint.C33_first_candidate: propext, Quot.sound
Verif.Props.EntryPoint.C33_no_candidate: propext, Quot.sound
Verif.Props.EntryPoint.C33_output_type: propext, Classical.choice, Quot.sound
Verif.Props.Enum.C23_error_iff_partial: propext, Classical.choice, Quot.sound
Verif.Props.Enum.C23_large_explicit_not_diagnosed: none
Verif.Props.Enum.C23_overflow_not_diagnosed: none
Verif.Props.Enum.C23_values: propext, Classical.choice, Quot.sound
Verif.Props.Enum.C23_values_mod: propext, Classical.choice, Quot.sound
Verif.Props.ErrorOrder.C40_error_order: propext, Classical.choice, Quot.sound
Verif.Props.ErrorOrder.C40_error_strict_weak: propext, Classical.choice, Quot.sound
Verif.Props.ErrorOrder.C40_exports_sorted: propext, Classical.choice, Quot.sound
Verif.Props.ErrorOrder.C40_lex_order: propext, Quot.sound
Verif.Props.ErrorOrder.C40_lex_strict_weak: propext, Quot.sound
Verif.Props.ErrorOrder.C58_report_order: propext, Classical.choice, Quot.sound
Verif.Props.ErrorOrder.C58_same_position_not_deterministic: propext
Verif.Props.ExprCode.C72_assignments: propext, Classical.choice, Quot.sound
Verif.Props.ExprCode.C72_compiles_partial: propext, Classical.choice, Quot.sound
Verif.Props.ExprCode.C72_compiles_wrong: propext
Verif.Props.ExprCode.C72_condition: propext, Classical.choice, Quot.sound
Verif.Props.ExprCode.C72_return: propext, Classical.choice, Quot.sound
Verif.Props.ExprCode.C72_stack_wrong: propext, Quot.sound
Verif.Props.FloatConv.C71_assigned_wrong: propext, Quot.sound
Verif.Props.FloatConv.C71_bool_partial: propext
Verif.Props.FloatConv.C71_branch_spill_wrong: propext
Verif.Props.FloatConv.C71_double_to_u64_wrong: propext, Quot.sound
Verif.Props.FloatConv.C71_float_to_int_partial: propext, Classical.choice, Quot.sound
Verif.Props.FloatConv.C71_float_to_unsigned_wrong: propext, Quot.sound
Verif.Props.FloatConv.C71_int_to_float: propext, Classical.choice, Quot.sound
Verif.Props.FloatConv.C71_literal_bool_partial: propext
Verif.Props.FloatConv.C71_literal_partial: propext, Classical.choice, Quot.sound
Verif.Props.FloatConv.C71_minus_zero_wrong: propext
Verif.Props.FloatConv.C71_nan_wrong: propext
Verif.Props.FloatConv.C71_nearest_unique: propext, Classical.choice, Quot.sound
Verif.Props.FloatConv.C71_negative_literal_wrong: propext, Quot.sound
Verif.Props.FloatConv.C71_registers_partial: propext, Classical.choice, Quot.sound
Verif.Props.FloatFold.C17_correct_iff_true_partial: propext
Verif.Props.FloatFold.C17_false_comparison_wrong: propext
Verif.Props.Fold.C16_bits_determine: propext, Quot.sound
Verif.Props.Fold.C16_bitwise: propext, Classical.choice, Quot.sound
Verif.Props.Fold.C16_bitwise_not: propext, Classical.choice, Quot.sound
Verif.Props.Fold.C16_compare: propext, Classical.choice, Quot.sound
Verif.Props.Fold.C16_error_iff: propext, Classical.choice, Quot.sound
Verif.Props.Fold.C16_host_ub_only_if_source_ub: propext, Classical.choice, Quot.sound
Verif.Props.Fold.C16_logical_not: propext, Classical.choice, Quot.sound
Verif.Props.Fold.C16_min_div_minus_one_host_ub: propext
Verif.Props.Fold.C16_min_result_host_overflow: propext
Verif.Props.Fold.C16_negate_partial: propext, Classical.choice, Quot.sound
Verif.Props.Fold.C16_negate_unsigned_host_ub: propext
Verif.Props.Fold.C16_shift_by_width_host_ub: propext
Verif.Props.Fold.C16_shift_error: propext, Classical.choice, Quot.sound
Verif.Props.Fold.C16_shift_left_signed: propext, Classical.choice, Quot.sound
Verif.Props.Fold.C16_shift_left_unsigned: propext, Classical.choice, Quot.sound
Verif.Props.Fold.C16_shift_right: propext, Classical.choice, Quot.sound
Verif.Props.Fold.C16_signed_arithmetic: propext, Classical.choice, Quot.sound
Verif.Props.Fold.C16_unary_plus: propext, Classical.choice, Quot.sound
Verif.Props.Fold.C16_unsigned_arithmetic: propext, Classical.choice, Quot.sound
Verif.Props.Fold.C16_zero_divisor: propext, Classical.choice, Quot.sound
Verif.Props.Fold.C18_literal_cast: propext, Classical.choice, Quot.sound
Verif.Props.Format.C93_few_partial: propext, Classical.choice, Quot.sound
Verif.Props.Format.C93_format_partial: propext, Classical.choice, Quot.sound
Verif.Props.Format.C93_printf_partial: propext, Classical.choice, Quot.sound
Verif.Props.Format.C93_star_wrong: propext, Quot.sound
Verif.Props.Format.C93_text: propext, Quot.sound
Verif.Props.Frame.C38_alignas_char_wrong: propext, Quot.sound
Verif.Props.Frame.C38_aligned_partial: propext, Classical.choice, Quot.sound
Verif.Props.Frame.C38_disjoint: propext, Classical.choice, Quot.sound
Verif.Props.Frame.C38_overaligned_wrong: propext
Verif.Props.Frame.C38_stack_pointer: propext, Classical.choice, Quot.sound
Verif.Props.FuncCode.C73_emits: propext, Classical.choice, Quot.sound
Verif.Props.FuncCode.C73_function: propext, Classical.choice, Quot.sound
Verif.Props.FuncCode.C73_labels: propext, Classical.choice, Quot.sound
Verif.Props.FuncCode.C73_runs_on: propext, Classical.choice, Quot.sound
Verif.Props.Generic.C91_both: propext, Classical.choice, Quot.sound
Verif.Props.Generic.C91_code_partial: propext, Classical.choice, Quot.sound
Verif.Props.Generic.C91_code_wrong: propext, Quot.sound
Verif.Props.Generic.C91_lost: propext, Classical.choice, Quot.sound
Verif.Props.Generic.C91_reported: propext, Classical.choice, Quot.sound
Verif.Props.Generic.C91_type: propext, Classical.choice, Quot.sound
Verif.Props.Image.C79_absolute_partial: propext, Classical.choice, Quot.sound
Verif.Props.Image.C79_absolute_wrong: propext, Quot.sound
Verif.Props.Image.C79_accepted: propext, Classical.choice, Quot.sound
Verif.Props.Image.C79_bss_aligned_partial: propext, Quot.sound
Verif.Props.Image.C79_bss_apart: propext, Classical.choice, Quot.sound
Verif.Props.Image.C79_bss_disjoint: propext, Quot.sound
Verif.Props.Image.C79_bss_zero: propext, Classical.choice, Quot.sound
Verif.Props.Image.C79_contents: propext, Classical.choice, Quot.sound
Verif.Props.Image.C79_data_aligned_partial: propext, Classical.choice, Quot.sound
Verif.Props.Image.C79_data_aligned_wrong: propext, Quot.sound
Verif.Props.Image.C79_debug: propext, Classical.choice, Quot.sound
Verif.Props.Image.C79_disjoint: propext, Classical.choice, Quot.sound
Verif.Props.Image.C79_entry: propext, Classical.choice, Quot.sound
Verif.Props.Image.C79_exports: propext, Classical.choice, Quot.sound
Verif.Props.Image.C79_floats: propext, Classical.choice, Quot.sound
Verif.Props.Image.C79_floats_aligned: propext, Classical.choice, Quot.sound
Verif.Props.Image.C79_imports: propext, Classical.choice, Quot.sound
Verif.Props.Image.C79_relocations: propext, Classical.choice, Quot.sound
Verif.Props.Image.C79_rip_relative: propext, Classical.choice, Quot.sound
Verif.Props.Image.C79_section_offset: propext, Classical.choice, Quot.sound
Verif.Props.Image.C79_strings: propext, Classical.choice, Quot.sound
Verif.Props.Image.C79_stubs: propext, Classical.choice, Quot.sound
Verif.Props.Image.C79_tls: propext, Classical.choice, Quot.sound
Verif.Props.Image.C79_tls_aligned_partial: propext, Classical.choice, Quot.sound
Verif.Props.Image.C79_tls_aligned_wrong: propext, Quot.sound
Verif.Props.Image.C79_unwind: propext, Classical.choice, Quot.sound
Verif.Props.Image.C79_wide_string_aligned_wrong: propext, Quot.sound
Verif.Props.Imm.C18_immediate_partial: propext, Classical.choice, Quot.sound
Verif.Props.Imm.C18_immediate_wrong: propext
Verif.Props.Imm.C57_binary: propext, Classical.choice, Quot.sound
Verif.Props.Imm.C57_binary_widened: propext, Classical.choice, Quot.sound
Verif.Props.Imm.C57_compound: propext, Classical.choice, Quot.sound
Verif.Props.Imm.C57_compound_widened: propext, Classical.choice, Quot.sound
Verif.Props.Imm.C57_pointer_increment_partial: propext, Classical.choice, Quot.sound
Verif.Props.Imm.C57_pointer_increment_wrong: propext, Classical.choice, Quot.sound
Verif.Props.Imm.C57_store: propext, Classical.choice, Quot.sound
Verif.Props.Imm.C57_switch: propext, Classical.choice, Quot.sound
Verif.Props.Include.C83_next_partial: propext, Quot.sound
Verif.Props.Include.C83_next_wrong: propext, Classical.choice, Quot.sound
Verif.Props.Include.C83_once_partial: propext, Quot.sound
Verif.Props.Include.C83_once_wrong: propext, Classical.choice, Quot.sound
Verif.Props.Include.C83_quoted: propext, Classical.choice, Quot.sound
Verif.Props.Include.C83_system: propext, Classical.choice, Quot.sound
Verif.Props.Include.C83_system_any: propext, Classical.choice, Quot.sound
Verif.Props.Initializer.C24_char_matrix_wrong: propext, Quot.sound
Verif.Props.Initializer.C24_designated_object: propext, Classical.choice, Quot.sound
Verif.Props.Initializer.C24_designated_size_wrong: propext
Verif.Props.Initializer.C24_first_string_wrong: propext
Verif.Props.Initializer.C24_flat: propext, Classical.choice, Quot.sound
Verif.Props.Initializer.C24_inside_partial: propext, Classical.choice, Quot.sound
Verif.Props.Initializer.C24_list_partial: propext, Classical.choice, Quot.sound
Verif.Props.Initializer.C24_nested_anonymous_wrong: propext
Verif.Props.Initializer.C24_trailing_comma_wrong: propext
Verif.Props.Initializer.C24_union_designator_wrong: propext
Verif.Props.Initializer.C24_unknown_size_designated: propext, Classical.choice, Quot.sound
Verif.Props.Initializer.C24_unknown_size_partial: propext, Classical.choice, Quot.sound
Verif.Props.IntLiteral.C01_binary_overflow_iff: propext, Classical.choice, Quot.sound
Verif.Props.IntLiteral.C01_binary_value: propext, Classical.choice, Quot.sound
Verif.Props.IntLiteral.C01_decimal_missed_overflow: propext, Classical.choice, Quot.sound
Verif.Props.IntLiteral.C01_decimal_no_spurious_warning: propext, Classical.choice, Quot.sound
Verif.Props.IntLiteral.C01_decimal_overflow_partial: propext, Classical.choice, Quot.sound
Verif.Props.IntLiteral.C01_decimal_value: propext, Classical.choice, Quot.sound
Verif.Props.IntLiteral.C01_hex_overflow_iff: propext, Classical.choice, Quot.sound
Verif.Props.IntLiteral.C01_hex_value: propext, Classical.choice, Quot.sound
Verif.Props.IntLiteral.C01_octal_classic_value: propext, Classical.choice, Quot.sound
Verif.Props.IntLiteral.C01_octal_overflow_partial: propext, Classical.choice, Quot.sound
Verif.Props.IntLiteral.C01_octal_spurious_overflow_warning: propext, Classical.choice, Quot.sound
Verif.Props.IntLiteral.C01_octal_value: propext, Classical.choice, Quot.sound
Verif.Props.IntLiteral.C02_decimal_type: propext, Classical.choice, Quot.sound
Verif.Props.IntLiteral.C02_explicit_suffix: propext, Classical.choice, Quot.sound
Verif.Props.IntLiteral.C02_other_type: propext, Classical.choice, Quot.sound
Verif.Props.IntLiteral.C02_suffix: propext, Classical.choice, Quot.sound
Verif.Props.IntLiteral.C02_value_in_range: propext, Classical.choice, Quot.sound
Verif.Props.IntType.C15_common_type: propext
Verif.Props.IntType.C15_promotion: propext
Verif.Props.IntType.C15_representation: propext
Verif.Props.IntType.C15_total_and_symmetric: propext
Verif.Props.IntType.C15_value_preserved: propext, Classical.choice, Quot.sound
Verif.Props.Jump.C35_jump_lands: propext, Classical.choice, Quot.sound
Verif.Props.Jump.C35_other_code_unchanged: propext, Quot.sound
Verif.Props.Jump.C35_size: propext, Quot.sound
Verif.Props.Layout.C12_struct_layout: propext, Classical.choice, Quot.sound
Verif.Props.Layout.C12_struct_members: propext, Classical.choice, Quot.sound
Verif.Props.Layout.C12_union_layout: propext, Classical.choice, Quot.sound
Verif.Props.Layout.C13_anonymous_bitfield_assert: propext
Verif.Props.Layout.C13_anonymous_bitfield_overlap: propext
Verif.Props.Layout.C13_bitfields_disjoint_partial: propext, Classical.choice, Quot.sound
Verif.Props.Layout.C13_union_bitfield_not_at_zero: propext
Verif.Props.Leaf.C47_signed_partial: propext, Classical.choice, Quot.sound
Verif.Props.Leaf.C47_signed_wrong: propext, Classical.choice, Quot.sound
Verif.Props.Leaf.C47_unsigned: propext, Classical.choice, Quot.sound
Verif.Props.Macro.C11_object_like: propext, Classical.choice, Quot.sound
Verif.Props.Macro.C11_unique: propext, Classical.choice, Quot.sound
Verif.Props.Macro.C65_argument_wrong: propext, Quot.sound
Verif.Props.Macro.C65_diverges_wrong: propext, Quot.sound
Verif.Props.Macro.C65_result_partial: propext, Classical.choice, Quot.sound
Verif.Props.Macro.C65_strict: propext
Verif.Props.Macro.C65_terminates_partial: propext, Classical.choice, Quot.sound
Verif.Props.Md5.C84_assert: propext, Quot.sound
Verif.Props.Md5.C84_digest: propext, Classical.choice, Quot.sound
Verif.Props.Md5.C84_sines: propext, Classical.choice, Quot.sound
Verif.Props.Msf.C81_free: propext, Classical.choice, Quot.sound
Verif.Props.Msf.C81_header: propext, Classical.choice, Quot.sound
Verif.Props.Msf.C81_pages: propext, Classical.choice, Quot.sound
Verif.Props.Msf.C81_streams: propext, Quot.sound
Verif.Props.Msf.C81_written: propext, Quot.sound
Verif.Props.Names.C89_ascii_partial: propext, Classical.choice, Quot.sound
Verif.Props.Names.C89_found_partial: propext, Classical.choice, Quot.sound
Verif.Props.Names.C89_found_wrong: propext, Classical.choice, Quot.sound
Verif.Props.Names.C89_offset_partial: propext, Classical.choice, Quot.sound
Verif.Props.Names.C89_other_partial: propext, Classical.choice, Quot.sound
Verif.Props.Object.C80_absolute_partial: propext, Classical.choice, Quot.sound
Verif.Props.Object.C80_aligned_wrong: propext, Quot.sound
Verif.Props.Object.C80_apart: propext, Classical.choice, Quot.sound
Verif.Props.Object.C80_code: propext, Classical.choice, Quot.sound
Verif.Props.Object.C80_debug: propext, Classical.choice, Quot.sound
Verif.Props.Object.C80_double: propext, Classical.choice, Quot.sound
Verif.Props.Object.C80_external_function: propext, Quot.sound
Verif.Props.Object.C80_external_object: propext, Quot.sound
Verif.Props.Object.C80_float: propext, Classical.choice, Quot.sound
Verif.Props.Object.C80_function: propext, Classical.choice, Quot.sound
Verif.Props.Object.C80_function_aligned: propext, Classical.choice, Quot.sound
Verif.Props.Object.C80_function_table: propext, Classical.choice, Quot.sound
Verif.Props.Object.C80_header: propext, Quot.sound
Verif.Props.Object.C80_literal: propext, Classical.choice, Quot.sound
Verif.Props.Object.C80_literal_aligned_partial: propext, Classical.choice, Quot.sound
Verif.Props.Object.C80_literal_bytes_partial: propext, Classical.choice, Quot.sound
Verif.Props.Object.C80_object: propext, Classical.choice, Quot.sound
Verif.Props.Object.C80_object_aligned_partial: propext, Classical.choice, Quot.sound
Verif.Props.Object.C80_object_bytes_partial: propext, Classical.choice, Quot.sound
Verif.Props.Object.C80_rip_relative: propext, Classical.choice, Quot.sound
Verif.Props.Object.C80_section_offset: propext, Classical.choice, Quot.sound
Verif.Props.Object.C80_sections: propext, Classical.choice, Quot.sound
Verif.Props.Object.C80_selectany: propext, Classical.choice, Quot.sound
Verif.Props.Object.C80_selectany_aligned: propext, Classical.choice, Quot.sound
Verif.Props.Object.C80_selectany_bytes: propext, Classical.choice, Quot.sound
Verif.Props.Object.C80_selectany_wrong: propext, Quot.sound
Verif.Props.Object.C80_string: propext, Classical.choice, Quot.sound
Verif.Props.Object.C80_tentative: propext, Quot.sound
Verif.Props.Object.C80_tentative_wrong: propext, Quot.sound
Verif.Props.Object.C80_thread_local: propext, Classical.choice, Quot.sound
Verif.Props.Object.C80_thread_local_aligned_partial: propext, Classical.choice, Quot.sound
Verif.Props.Object.C80_thread_local_bytes: propext, Classical.choice, Quot.sound
Verif.Props.Object.C80_unwind_partial: propext, Classical.choice, Quot.sound
Verif.Props.Object.C80_unwind_wrong: propext, Quot.sound
Verif.Props.Object.C80_zero: propext, Classical.choice, Quot.sound
Verif.Props.Object.C80_zero_aligned: propext, Classical.choice, Quot.sound
Verif.Props.Object.C80_zero_apart: propext, Classical.choice, Quot.sound
Verif.Props.Pack.C14_block_restores: propext
Verif.Props.Pack.C14_failed_pop: propext
Verif.Props.Pack.C14_named_pop: propext, Quot.sound
Verif.Props.Pack.C14_pop_value: propext
Verif.Props.Pack.C14_push_value: propext
Verif.Props.Pack.C14_set: propext
Verif.Props.ParseOrder.C54_declarations_partial: propext, Classical.choice, Quot.sound
Verif.Props.ParseOrder.C54_definition_wrong: none
Verif.Props.ParseOrder.C54_deterministic_partial: propext, Classical.choice, Quot.sound
Verif.Props.ParseOrder.C54_names_partial: propext, Classical.choice, Quot.sound
Verif.Props.ParseOrder.C54_progress: propext, Classical.choice, Quot.sound
Verif.Props.ParseOrder.C54_static_assert_wrong: none
Verif.Props.ParseOrder.C54_string_array_wrong: none
Verif.Props.ParseOrder.C54_stuck: propext, Classical.choice, Quot.sound
Verif.Props.ParseOrder.C54_stuck_iff: propext, Classical.choice, Quot.sound
Verif.Props.ParseOrder.C54_terminates: propext, Quot.sound
Verif.Props.Paste.C66_bounds: propext, Quot.sound
Verif.Props.Paste.C66_chain_wrong: propext
Verif.Props.Paste.C66_end_wrong: propext
Verif.Props.Paste.C66_fixed_wrong: propext, Quot.sound
Verif.Props.Paste.C66_hash_wrong: propext
Verif.Props.Paste.C66_nonempty_partial: propext, Classical.choice, Quot.sound
Verif.Props.Paste.C66_result_partial: propext, Classical.choice, Quot.sound
Verif.Props.Path.C52_canonical: propext, Quot.sound
Verif.Props.Path.C52_concatenate: propext, Classical.choice, Quot.sound
Verif.Props.Path.C52_extension: propext, Classical.choice, Quot.sound
Verif.Props.Path.C52_same_file: propext, Classical.choice, Quot.sound
Verif.Props.Path.C52_split: propext, Quot.sound
Verif.Props.PdbSymbols.C82_addresses: propext, Classical.choice, Quot.sound
Verif.Props.PdbSymbols.C82_globals_partial: propext, Classical.choice, Quot.sound
Verif.Props.PdbSymbols.C82_globals_wrong: propext, Classical.choice, Quot.sound
Verif.Props.PdbSymbols.C82_public_written: propext, Classical.choice, Quot.sound
Verif.Props.PdbSymbols.C82_publics: propext, Classical.choice, Quot.sound
Verif.Props.PdbSymbols.C82_records: propext, Classical.choice, Quot.sound
Verif.Props.Pointer.C21_both_literal_partial: propext, Classical.choice, Quot.sound
Verif.Props.Pointer.C21_both_literal_unscaled: propext
Verif.Props.Pointer.C21_difference_partial: propext, Quot.sound
Verif.Props.Pointer.C21_literal_index: propext, Classical.choice, Quot.sound
Verif.Props.Pointer.C21_negative_difference_wrong: none
Verif.Props.Pointer.C21_run_time: propext, Classical.choice, Quot.sound
Verif.Props.Print.C90_arguments_partial: propext, Classical.choice, Quot.sound
Verif.Props.Print.C90_empty_wrong: propext, Classical.choice, Quot.sound
Verif.Props.Print.C90_flexible_wrong: propext, Classical.choice, Quot.sound
Verif.Props.Print.C90_reads_partial: propext, Classical.choice, Quot.sound
Verif.Props.Print.C90_star_wrong: propext, Classical.choice, Quot.sound
Verif.Props.Print.C90_string: propext, Classical.choice, Quot.sound
Verif.Props.Reach.C32_exactly_once_partial: propext, Quot.sound
Verif.Props.Reach.C32_imports: propext, Quot.sound
Verif.Props.RegAlloc.C51_allocate: propext, Classical.choice, Quot.sound
Verif.Props.RegAlloc.C51_exhausted: propext, Classical.choice, Quot.sound
Verif.Props.RegAlloc.C51_slots: propext, Classical.choice, Quot.sound
Verif.Props.RegAlloc.C51_values: propext, Classical.choice, Quot.sound
Verif.Props.Roots.C32_exported_after_prototype_wrong: propext, Quot.sound
Verif.Props.Roots.C32_exported_inline_asm_wrong: propext, Quot.sound
Verif.Props.Roots.C32_program_partial: propext, Classical.choice, Quot.sound
Verif.Props.Scope.C26_lookup: propext, Classical.choice, Quot.sound
Verif.Props.Scope.C26_unique: propext
Verif.Props.Scopes.C87_elsewhere: propext, Quot.sound
Verif.Props.Scopes.C87_total: propext, Quot.sound
Verif.Props.Scopes.C87_variables: propext, Classical.choice, Quot.sound
Verif.Props.Seh.C88_entries_partial: propext, Classical.choice, Quot.sound
Verif.Props.Seh.C88_finally_never: propext, Classical.choice, Quot.sound
Verif.Props.Seh.C88_finally_wrong: propext
Verif.Props.Seh.C88_handlers_partial: propext, Classical.choice, Quot.sound
Verif.Props.Seh.C88_total_partial: propext, Classical.choice, Quot.sound
Verif.Props.ShortCircuit.C56_folded: propext
Verif.Props.ShortCircuit.C56_labels_unique: propext, Classical.choice, Quot.sound
Verif.Props.ShortCircuit.C56_short_circuit: propext, Classical.choice, Quot.sound
Verif.Props.Shuffle.C49_permutation: propext, Classical.choice, Quot.sound
Verif.Props.Sleeper.C29_growth_loses_wakeup: propext, Quot.sound
Verif.Props.Sleeper.C29_no_lost_wakeup_few_names: propext, Classical.choice, Quot.sound
Verif.Props.Sleeper.C29_no_lost_wakeup_partial: propext, Classical.choice, Quot.sound
Verif.Props.Sleeper.C29_nothing_sleeps_on_declared_partial: propext, Classical.choice, Quot.sound
Verif.Props.Sleeper.C29_refines_partial: propext, Classical.choice, Quot.sound
Verif.Props.Sleeper.C29_woken_once_partial: propext, Classical.choice, Quot.sound
Verif.Props.Sort.C40_key_order: propext, Quot.sound
Verif.Props.Sort.C40_sort: propext, Classical.choice, Quot.sound
Verif.Props.Spinlock.C31_fifo: propext, Classical.choice, Quot.sound
Verif.Props.Spinlock.C31_mutual_exclusion: propext, Classical.choice, Quot.sound
Verif.Props.Spinlock.C31_progress: propext, Classical.choice, Quot.sound
Verif.Props.StaticInit.C74_difference_as_index_wrong: propext
Verif.Props.StaticInit.C74_executable_partial: propext, Classical.choice, Quot.sound
Verif.Props.StaticInit.C74_in_bounds: propext, Quot.sound
Verif.Props.StaticInit.C74_number_minus_address_wrong: propext
Verif.Props.StaticInit.C74_object_file_partial: propext, Classical.choice, Quot.sound
Verif.Props.StaticInit.C74_overridden_address_wrong: propext, Quot.sound
Verif.Props.StaticInit.C74_rejects_no_fixed_address: propext, Quot.sound
Verif.Props.StaticInit.C74_rejects_values: propext, Quot.sound
Verif.Props.StaticInit.C74_shorter_list_wrong: propext, Quot.sound
Verif.Props.StaticInit.C74_shorter_string_wrong: propext, Quot.sound
Verif.Props.StaticInit.C74_string_offset_wrong: propext, Quot.sound
Verif.Props.StaticInit.C74_sum_of_addresses_wrong: propext
Verif.Props.StaticInit.C74_two_addresses_wrong: propext, Quot.sound
Verif.Props.StaticTable.C50_alignas_wrong: propext
Verif.Props.StaticTable.C50_file: propext, Classical.choice, Quot.sound
Verif.Props.StaticTable.C50_flag_partial: propext, Quot.sound
Verif.Props.StaticTable.C50_inline_definition_wrong: none
Verif.Props.StaticTable.C50_later_declarator_wrong: none
Verif.Props.StaticTable.C50_table: propext, Classical.choice, Quot.sound
Verif.Props.Stmt.C41_duplicates: propext, Classical.choice, Quot.sound
Verif.Props.Stmt.C41_switch: propext, Classical.choice, Quot.sound
Verif.Props.Stmt.C55_goto: propext, Classical.choice, Quot.sound
Verif.Props.Stmt.C59_accepted_iff: propext, Classical.choice, Quot.sound
Verif.Props.Stmt.C59_never_stuck: propext, Classical.choice, Quot.sound
Verif.Props.Stmt.C59_statements: propext, Classical.choice, Quot.sound
Verif.Props.StringLit.C03_splice_wrong: propext
Verif.Props.StringLit.C03_utf16_wrong: propext, Quot.sound
Verif.Props.StringLit.C03_utf32: propext, Classical.choice, Quot.sound
Verif.Props.StringLit.C03_utf8: propext, Classical.choice, Quot.sound
Verif.Props.StringLit.C03_value_partial: propext, Classical.choice, Quot.sound
Verif.Props.StringLit.C04_in_bounds: propext, Classical.choice, Quot.sound
Verif.Props.StringLit.C04_not_past_end: propext, Classical.choice, Quot.sound
Verif.Props.StringLit.C04_past_end_after_error: propext
Verif.Props.Stringize.C67_contents_partial: propext, Quot.sound
Verif.Props.Stringize.C67_omitted_wrong: propext
Verif.Props.Stringize.C67_quote_wrong: propext
Verif.Props.Stringize.C67_spelling_partial: propext, Quot.sound
Verif.Props.ToU64.C44_accepted_iff_partial: propext, Classical.choice, Quot.sound
Verif.Props.ToU64.C44_colon_accepted: propext, Quot.sound
Verif.Props.ToU64.C44_decimal: propext, Quot.sound
Verif.Props.ToU64.C44_hex: propext, Quot.sound
Verif.Props.ToU64.C44_hex_garbage_accepted: propext
Verif.Props.Tokenize.C05_lossless: propext, Classical.choice, Quot.sound
Verif.Props.Tokenize.C05_paste_too_many: propext, Classical.choice, Quot.sound
Verif.Props.Tokenize.C05_tokens_fit: propext, Classical.choice, Quot.sound
Verif.Props.Tokenize.C06_digraph_wrong: propext, Quot.sound
Verif.Props.Tokenize.C06_maximal_munch_partial: propext, Quot.sound
Verif.Props.Tokenize.C62_character_literal_wrong: propext, Quot.sound
Verif.Props.Tokenize.C62_comment_column_wrong: propext, Quot.sound
Verif.Props.Tokenize.C62_line_partial: propext, Classical.choice, Quot.sound
Verif.Props.Tokenize.C63_identifier: propext, Classical.choice, Quot.sound
Verif.Props.TypeEq.C77_accepts_partial: propext, Quot.sound
Verif.Props.TypeEq.C77_decides: propext, Quot.sound
Verif.Props.TypeEq.C77_kind_wrong: propext
Verif.Props.TypeEq.C77_rejects_partial: propext, Quot.sound
Verif.Props.TypeEq.C77_terminates: propext, Quot.sound
Verif.Props.TypeEq.C77_unknown_size_wrong: propext
Verif.Props.TypeEq.C77_variadic_wrong: propext
Verif.Props.TypeSpec.C22_order: propext, Classical.choice, Quot.sound
Verif.Props.TypeSpec.C22_specifiers: propext, Classical.choice, Quot.sound
Verif.Props.TypeSpec.C22_unambiguous: propext, Classical.choice, Quot.sound
Verif.Props.Unwind.C76_body_partial: propext, Quot.sound
Verif.Props.Unwind.C76_epilog_partial: propext, Quot.sound
Verif.Props.Unwind.C76_frame_size_partial: propext, Quot.sound
Verif.Props.Unwind.C76_large_frame_wrong: propext
Verif.Props.Unwind.C76_prolog_partial: propext, Quot.sound
Verif.Props.Utf16.C42_even_plane_wrong: propext, Classical.choice, Quot.sound
Verif.Props.Utf16.C42_right_iff: propext, Classical.choice, Quot.sound
Verif.Props.Utf16.C42_text_preserved_partial: propext, Classical.choice, Quot.sound
Verif.Props.WorkQueue.C30_at_most_once_partial: propext, Classical.choice, Quot.sound
Verif.Props.WorkQueue.C30_fifo_partial: propext, Classical.choice, Quot.sound
Verif.Props.WorkQueue.C30_none_lost_partial: propext, Classical.choice, Quot.sound
Verif.Props.WorkQueue.C30_progress_partial: propext, Classical.choice, Quot.sound
Verif.Props.WorkQueue.C30_reused_entry_delivered_twice: propext
Verif.Redefine.C53_diagnosed_iff_partial: propext, Classical.choice, Quot.sound
Verif.Redefine.C53_first_definition_kept: propext, Classical.choice, Quot.sound
Verif.Redefine.C53_identical_accepted: propext, Classical.choice, Quot.sound
Verif.Redefine.C53_pasted_token_ignored: propext, Quot.sound
Verif.Redefine.C53_plain_latest: propext, Classical.choice, Quot.sound
Verif.Redefine.C53_stringified_parameter_ignored: propext, Quot.sound
Verif.Returns.C60_case_wrong: propext, Quot.sound
Verif.Returns.C60_do_break_wrong: propext
Verif.Returns.C60_do_continue_wrong: propext
Verif.Returns.C60_infinite_loop: propext
Verif.Returns.C60_label_wrong: propext, Quot.sound
Verif.Returns.C60_no_fall_off_partial: propext, Quot.sound
Verif.Returns.C60_structured_partial: propext, Quot.sound
Verif.TypeString.C69_denotes_partial: propext, Classical.choice, Quot.sound
Verif.TypeString.C69_distinct_partial: propext, Classical.choice, Quot.sound
Verif.TypeString.C69_round_trip_partial: propext, Classical.choice, Quot.sound
Verif.TypeString.C69_variadic_wrong: propext, Classical.choice, Quot.sound
