{"id": "C01", "title": "Integer literal values", "statement": "For every integer literal in base 10, 16, 8 (0-prefixed) or 2, with any number of digits and any placement of ' separators, the value the compiler uses is the mathematical value of the digit string modulo 2^64, and whenever that value does not fit into 64 bits the user gets an overflow diagnostic; a literal that fits gets none.", "quantifier": "all finite digit strings (unbounded length) in each of the four bases, with all separator placements", "why_tests_cant": "There are infinitely many digit strings, and the overflow check goes wrong only for values in narrow bands far from any value a test author writes down.", "anchors": ["src/preprocess.c:parse_base10_literal", "src/preprocess.c:parse_binary_literal", "src/preprocess.c:parse_octal_literal", "src/preprocess.c:parse_hex_literal"]}
{"id": "C02", "title": "Integer literal types", "statement": "Every integer literal gets the first type in the list that C11 6.4.4.1 gives for its base and suffix (with int and long 32 bits, long long 64 bits) that can represent its value, and the type's range always contains the value.", "quantifier": "all 64-bit literal values, all bases, all suffixes", "why_tests_cant": "2^64 values times suffix/base combinations; the boundaries are at type limits.", "anchors": ["src/parse.c:parse_expression (integer literal typing, 4485-4672)", "src/preprocess.c:parse_integer_suffix"]}
{"id": "C03", "title": "Escape sequences and string literal encoding", "statement": "A narrow (u8/plain) string literal is stored as the UTF-8 encoding of its code points, a u\"\" literal as the UTF-16 encoding and a U\"\" literal as the code points themselves; decoding the stored units gives back the code points of the source.", "quantifier": "all source strings (unbounded length), all code points, all string prefixes", "why_tests_cant": "The set of strings is infinite and each encoding has its own boundaries (0x7f, 0x7ff, 0xffff, surrogates).", "anchors": ["src/preprocess.c:escape_and_convert_string_array", "src/preprocess.c:utf8_read_codepoint", "src/preprocess.c:eat_escape_from_string_and_return_codepoint"]}
{"id": "C04", "title": "String conversion never overruns its buffer", "statement": "Converting the tokens of a string literal never writes more units than the buffer sized from the source text can hold.", "quantifier": "all source strings and escape sequences", "why_tests_cant": "A single mis-sized escape sequence would corrupt memory; no finite set of strings covers all mixtures of escapes.", "anchors": ["src/preprocess.c:escape_and_convert_string_array"]}
{"id": "C05", "title": "Tokenizing is lossless", "statement": "For every source file, the spellings of the raw tokens, concatenated in order, are exactly the file's text; every token is non-empty and the tokenizer always terminates.", "quantifier": "all byte sequences a file can contain", "why_tests_cant": "Infinite input space; a dropped or duplicated byte would need exactly the right neighbouring characters.", "anchors": ["src/preprocess.c:tokenize_raw"]}
{"id": "C06", "title": "Punctuators use maximal munch", "statement": "At every punctuator the tokenizer produces the longest C punctuator that is a prefix of the remaining input.", "quantifier": "all remaining inputs after any position", "why_tests_cant": "All continuations of the input, including ones where a shorter operator is also valid.", "anchors": ["src/preprocess.c:tokenize_raw"]}
{"id": "C07", "title": "#if respects C precedence and associativity", "statement": "For every #if controlling expression, the evaluator computes the value of the expression tree that C's grammar assigns to the token sequence.", "quantifier": "all expression trees of any size and nesting, rendered as tokens", "why_tests_cant": "Operator-precedence errors appear only for particular combinations of operators and nesting, of which there are infinitely many.", "anchors": ["src/preprocess.c:static_if_evaluate"]}
{"id": "C08", "title": "#if arithmetic follows C11 6.10.1", "statement": "Operators in #if act on intmax_t/uintmax_t values as C11 says (signedness of the result, comparison signedness, short circuits, division).", "quantifier": "all pairs of 64-bit operands with either signedness and all operators", "why_tests_cant": "2^130 operand pairs per operator.", "anchors": ["src/preprocess.c:static_if_evaluate"]}
{"id": "C09", "title": "Conditional inclusion selects the right groups", "statement": "In every well-nested arrangement of #if/#ifdef/#elif/#else/#endif the tokens that survive are those of the first group whose condition is true in each section (or the #else group), inside selected enclosing groups; unbalanced directives are diagnosed.", "quantifier": "all directive sequences and all condition outcomes, any nesting depth", "why_tests_cant": "Infinite nestings and histories; the state machine must be right for all of them.", "anchors": ["src/preprocess.c:tokenize_and_preprocess (3397-3913, 4781-4825)"]}
{"id": "C10", "title": "Macro table is a map", "statement": "After any sequence of #define and #undef directives a name is a macro exactly if its latest directive was a #define, and its meaning is that latest definition, regardless of hash collisions and table growth.", "quantifier": "all finite histories of #define/#undef/lookup and every hash function", "why_tests_cant": "Histories are unbounded and collisions/growth points depend on them.", "anchors": ["src/preprocess.c:register_define", "src/preprocess.c:lookup_define", "src/preprocess.c:tokenize_and_preprocess (#undef)"]}
{"id": "C11", "title": "Macro expansion terminates and never re-expands a macro in itself", "statement": "Expansion of object-like macros terminates for every set of definitions, including mutually recursive ones, and gives C's rescanning result: a macro's name is not replaced again while its own replacement is being rescanned.", "quantifier": "all macro definition sets (including cyclic ones) and all token sequences", "why_tests_cant": "Termination and recursion blocking over arbitrary, possibly cyclic definitions.", "anchors": ["src/preprocess.c:expand_define", "src/preprocess.c:next_token_raw"]}
{"id": "C12", "title": "Struct layout", "statement": "For every struct without bit-fields, members are placed in order, at offsets that are multiples of their alignment, without overlap and inside the struct, the struct size is a multiple of its alignment; for unions every member is at offset 0 and fits.", "quantifier": "all member lists (any length), all sizes/alignments and packing values", "why_tests_cant": "Infinitely many structs; layout errors depend on combinations of sizes and alignments.", "anchors": ["src/parse.c:parse_type_specifier struct layout (7947-8257)", "src/std.c:align_up"]}
{"id": "C13", "title": "Bit-field layout", "statement": "Distinct bit-fields of a struct occupy disjoint bits and stay inside their storage unit; union bit-fields all start at bit 0.", "quantifier": "all sequences of named and anonymous bit-field widths and base types", "why_tests_cant": "Overlap depends on the running bit position, an unbounded history.", "anchors": ["src/parse.c:parse_type_specifier bit-field layout (8052-8140)"]}
{"id": "C14", "title": "#pragma pack behaves as a stack", "statement": "Any well-nested sequence of pack(push..)/pack(pop) restores the packing in force before it; named pops restore the value saved by the matching push; set/reset behave as documented.", "quantifier": "all sequences of pack directives", "why_tests_cant": "Unbounded directive histories.", "anchors": ["src/parse.c:parse_and_process_pragma_pack"]}
{"id": "C15", "title": "Usual arithmetic conversions", "statement": "For all pairs of arithmetic types the common type is the one C11 6.3.1.8 prescribes for this data model, independent of operand order.", "quantifier": "all pairs of arithmetic types and all operand values", "why_tests_cant": "Needs a value-level argument for all 64-bit operand values, not only the type table.", "anchors": ["src/parse.c:perform_usual_arithmetic_conversions", "src/parse.c:perform_integer_promotions"]}
{"id": "C16", "title": "Integer constant folding", "statement": "Folding an integer operator on two literals gives the value C prescribes (wrapping for unsigned, exact for signed results in range), and division by a zero literal is an error, never a value.", "quantifier": "all operand values of each promoted type and all operators", "why_tests_cant": "2^128 operand pairs per operator.", "anchors": ["src/parse.c:perform_integer_operation"]}
{"id": "C17", "title": "Floating comparison folding", "statement": "Folding a comparison of two floating literals gives 1 exactly if the relation holds.", "quantifier": "all pairs of floating literals and all six relations", "why_tests_cant": "Infinite operand pairs.", "anchors": ["src/parse.c:perform_float_operation"]}
{"id": "C18", "title": "Integer casts", "statement": "Casting an integer literal at compile time gives the value modulo 2^n interpreted in the target type (0/1 for _Bool), and equals what the run-time conversion instruction would compute.", "quantifier": "all values, all pairs of integer types", "why_tests_cant": "64 type pairs times 2^64 values.", "anchors": ["src/parse.c:push_cast", "src/parse.c:ir_kind_for_cast (488-602)"]}
{"id": "C19", "title": "Expression parsing respects precedence", "statement": "Every C expression tree over the binary, prefix, ternary, assignment and comma operators, printed with the parentheses C's grammar needs, parses to the same tree.", "quantifier": "all expression trees of any depth", "why_tests_cant": "Infinite trees; only an induction covers all operator combinations.", "anchors": ["src/parse.c:parse_expression (5405-7532)"]}
{"id": "C20", "title": "Compound assignment", "statement": "E1 op= E2 stores the same value as E1 = (E1) op (E2) for all integer operands.", "quantifier": "all integer types of both operands and all values", "why_tests_cant": "Value-dependent: wrong only for particular signedness/width/value combinations.", "anchors": ["src/parse.c:punt_compound_assignment", "src/parse.c (6997-7246)"]}
{"id": "C21", "title": "Pointer arithmetic", "statement": "p + i addresses element i and p - q of two pointers into the same array gives the element distance, also when negative; constant folding agrees with run time.", "quantifier": "all addresses, indices and element sizes", "why_tests_cant": "2^64 addresses times sizes.", "anchors": ["src/parse.c:handle_pointer_arithmetic", "src/parse.c (6105-6126)", "src/emit_x64.c:IR_divide_u64"]}
{"id": "C22", "title": "Type specifiers combine independently of order", "statement": "A multiset of type specifier keywords denotes the same type in any order, and is accepted exactly if it is one of the combinations the language allows.", "quantifier": "all sequences of specifier keywords", "why_tests_cant": "Unbounded sequences of keywords.", "anchors": ["src/parse.c:parse_type_specifier (8430-8495)"]}
{"id": "C23", "title": "Enumerator values", "statement": "Every enumerator has its explicit value, or one more than the previous one (0 at the start), and a value that cannot be represented is diagnosed.", "quantifier": "all enumerator lists", "why_tests_cant": "Unbounded lists and 64-bit values.", "anchors": ["src/parse.c:parse_type_specifier enum (8267-8352)"]}
{"id": "C24", "title": "Initializer lists write the right places", "statement": "A braced initializer, with or without designators, nested braces, strings and whole-aggregate values, writes the sub-objects C says (without nested braces: the next scalar in declaration order); offsets stay inside the object, an array of unknown size gets the size it needs, and surplus initializers are diagnosed.", "quantifier": "all (nested) aggregate types and all initializer lists", "why_tests_cant": "Infinitely many types.", "anchors": ["src/parse.c:parse_initializer_list"]}
{"id": "C25", "title": "Static bit-field initializers", "statement": "Initializing a bit-field of a static object changes only that bit-field's bits and stores the value truncated to the width.", "quantifier": "all initial memory contents, widths, positions and values", "why_tests_cant": "2^64 values times positions.", "anchors": ["src/main.c:evaluate_static_initializer__internal"]}
{"id": "C26", "title": "Scope lookup finds the innermost, latest declaration", "statement": "For any sequence of declarations and nested scopes, name lookup gives the most recent declaration in the innermost scope that declares the name.", "quantifier": "all declaration histories, all hash functions", "why_tests_cant": "Unbounded histories, collisions and growth.", "anchors": ["src/main.c:parser_register_declaration_in_scope", "src/main.c:lookup_declaration"]}
{"id": "C27", "title": "Global declaration table is a first-wins map", "statement": "For any sequence of insertions and lookups, each name has exactly one entry, the first inserted; later insertions return that entry; lookups succeed exactly for inserted names, also across growth.", "quantifier": "all operation histories, all hash functions", "why_tests_cant": "Unbounded histories, collisions and growth.", "anchors": ["src/main.c:ast_table_add_or_return_previous_entry", "src/main.c:ast_table_get", "src/main.c:ast_table_maybe_grow"]}
{"id": "C28", "title": "Concurrent insertion keeps the table consistent", "statement": "For every interleaving of concurrent insertions (without a growth) each name ends up with exactly one entry and all inserters of the same name get the same entry; an insertion concurrent with a growth is not lost.", "quantifier": "all schedules of any number of threads", "why_tests_cant": "Schedules cannot be enumerated by tests.", "anchors": ["src/main.c:ast_table_add_or_return_previous_entry", "src/main.c:ast_table_maybe_grow"]}
{"id": "C29", "title": "No lost wake-ups", "statement": "A global declaration that goes to sleep on an unresolved name is woken exactly once when the name becomes defined, for every interleaving of sleeping and defining threads.", "quantifier": "all schedules, any number of sleepers and definers", "why_tests_cant": "Lost wake-ups occur only under specific schedules.", "anchors": ["src/main.c:sleeper_table_add", "src/main.c:sleeper_table_delete", "src/main.c:wake_up_sleepers"]}
{"id": "C30", "title": "Work queue delivers each entry exactly once", "statement": "For every interleaving of producers and consumers every queued work item is handed out exactly once, in FIFO order, and none is lost.", "quantifier": "all schedules of any number of threads, all queue lengths", "why_tests_cant": "Schedules cannot be enumerated by tests.", "anchors": ["src/main.c:work_queue_append_list", "src/main.c:work_queue_get_work"]}
{"id": "C31", "title": "Spinlock mutual exclusion", "statement": "At most one thread is inside a ticket-lock critical section at any time, and threads enter in the order they took tickets.", "quantifier": "all schedules, any number of threads", "why_tests_cant": "Schedules cannot be enumerated by tests.", "anchors": ["src/std.c:ticket_spinlock_lock", "src/std.c:ticket_spinlock_unlock"]}
{"id": "C32", "title": "Exactly the reachable functions are emitted, once each", "statement": "The functions queued for code generation are exactly those reachable from the entry point and other roots through the reference graph, each exactly once.", "quantifier": "all reference graphs, including cyclic ones", "why_tests_cant": "Infinitely many graphs.", "anchors": ["src/main.c:main (5416-5593)"]}
{"id": "C33", "title": "Entry point selection", "statement": "The chosen entry point is the first candidate in the documented priority order that is admissible for the requested output and is defined.", "quantifier": "all sets of defined functions and all option combinations", "why_tests_cant": "Exponentially many combinations of definitions and options.", "anchors": ["src/main.c:main (5042-5182)", "src/main.c:get_entry_point_or_error"]}
{"id": "C34", "title": "x64 operand encoding", "statement": "Decoding the ModRM/SIB/REX/displacement bytes emitted for a memory or register operand, as the Intel manual prescribes, gives back the same registers, scale and displacement.", "quantifier": "all registers, scales, 32-bit displacements", "why_tests_cant": "2^32 displacements times 16^3 registers.", "anchors": ["src/emit_x64.c:emit_register_relative__internal", "src/emit_x64.c:emit_prefixes_and_opcode", "src/emit_x64.c:make_modrm", "src/emit_x64.c:make_sib"]}
{"id": "C35", "title": "Jump patching", "statement": "After a jump list is ended, each jump in it, when executed, transfers control to the recorded location, and no other byte of the code changed.", "quantifier": "all code buffers and all jump lists", "why_tests_cant": "Unbounded code and jump positions.", "anchors": ["src/emit_x64.c:jump_context_emit", "src/emit_x64.c:emit_end_jumps_location", "src/emit_x64.c:emit_jump"]}
{"id": "C36", "title": "Condition codes", "statement": "The conditional jump emitted for 'jump if false' is taken exactly when the condition is false, and the one for 'jump if true' exactly when it is true, for all flag values.", "quantifier": "all operand pairs compared, all conditions", "why_tests_cant": "2^128 operand pairs.", "anchors": ["src/emit_x64.c:instruction_from_comp_condition"]}
{"id": "C37", "title": "Run-time bit-field access", "statement": "Storing to a bit-field and loading it back gives the value truncated to the width (sign-extended if signed), and no other bit of the storage unit changes.", "quantifier": "all storage contents, values, positions and widths", "why_tests_cant": "2^128 combinations per layout.", "anchors": ["src/emit_x64.c:emit_load_bitfield", "src/emit_x64.c:emit_store_bitfield"]}
{"id": "C38", "title": "Stack slots do not overlap", "statement": "All local variables and temporaries of a function that are live together are in disjoint, aligned stack slots inside the frame.", "quantifier": "all sequences of local declarations and temporaries", "why_tests_cant": "Unbounded sequences.", "anchors": ["src/main.c:parser_emit_memory_location", "src/emit_x64.c:emit_allocate_temporary_stack_location"]}
{"id": "C39", "title": "Arena allocations are disjoint and aligned", "statement": "All live allocations of an arena are disjoint, aligned as requested and inside the committed range, for any sequence of pushes, temporary-memory scopes and growths; exhaustion is a panic, not an overlap.", "quantifier": "all allocation sequences", "why_tests_cant": "Unbounded histories.", "anchors": ["src/std.c:push_struct_", "src/std.c:grow_arena", "src/std.c:begin_temporary_memory"]}
{"id": "C40", "title": "List sort", "statement": "Sorting a list gives a sorted permutation of it, for every list.", "quantifier": "all lists of any length", "why_tests_cant": "Infinitely many lists.", "anchors": ["src/std.c:sll_sort"]}
{"id": "C41", "title": "switch dispatch", "statement": "The code of a switch jumps to the case whose value equals the controlling expression, otherwise to the default label, otherwise past the switch, wherever the case labels are nested in the body; a duplicate case or default is rejected.", "quantifier": "all bodies, case values and controlling values", "why_tests_cant": "Infinitely many bodies and 2^64 values.", "anchors": ["src/emit_x64.c:IR_switch", "src/parse.c:parse_statement"]}
{"id": "C42", "title": "Command files in UTF-16 are read as the same text", "statement": "Converting a UTF-16LE command file to UTF-8 preserves its code points.", "quantifier": "all code point sequences", "why_tests_cant": "Infinite input space; surrogate boundaries.", "anchors": ["src/std.c:utf16le_to_utf8"]}
{"id": "C43", "title": "Command line splitting", "statement": "Splitting a Windows command line produces the arguments msdn's rules prescribe, quoting an argument list and splitting it gives the list back, and the output never exceeds the buffer.", "quantifier": "all command lines, all argument lists", "why_tests_cant": "Infinite input space with interacting quotes and backslashes.", "anchors": ["src/windows.c:windows_parse_command_line__internal"]}
{"id": "C44", "title": "Decimal option arguments", "statement": "A numeric command-line argument is accepted exactly if it consists of decimal digits, and then denotes its mathematical value (modulo 2^64).", "quantifier": "all strings", "why_tests_cant": "Infinite input space.", "anchors": ["src/std.c:string_to_u64"]}
{"id": "C45", "title": "CRC-32", "statement": "The CRC used for debug information equals the CRC-32 polynomial division of the data.", "quantifier": "all byte sequences", "why_tests_cant": "Infinite input space.", "anchors": ["src/std.c:crc32", "src/std.c:crc32_table"]}
{"id": "C46", "title": "Power-of-two rounding and alignment", "statement": "Aligning up gives the least multiple of the alignment not below the value; rounding up gives the least power of two not below the value.", "quantifier": "all 64-bit values and all power-of-two alignments", "why_tests_cant": "2^64 values.", "anchors": ["src/std.c:align_up", "src/std.c:u32_round_up_to_next_power_of_two", "src/std.c:u64_round_up_to_next_power_of_two"]}
{"id": "C47", "title": "CodeView numeric leaves", "statement": "Decoding a numeric leaf written into debug information gives back the number, and the leaf length is the one reserved.", "quantifier": "all 64-bit numbers", "why_tests_cant": "2^64 values.", "anchors": ["src/obj_writer.c:emit numeric leaf (42-90)", "src/coff_writer.c:74"]}
{"id": "C48", "title": "Top-level chunking partitions the token stream", "statement": "Splitting preprocessed tokens into top-level declarations loses, duplicates or reorders no token; for every sequence of external declarations the chunks are exactly these declarations, and __func__ in a function body becomes the name of that function.", "quantifier": "all token streams", "why_tests_cant": "Infinitely many token streams.", "anchors": ["src/main.c:worker_preprocess_file (2843-3176)", "src/parse.c:skip_until_tokens_are_balanced"]}
{"id": "C49", "title": "The seed option only permutes declarations", "statement": "Shuffling with any seed queues each declaration exactly once.", "quantifier": "all seeds and all declaration lists", "why_tests_cant": "2^64 seeds times unbounded lists.", "anchors": ["src/main.c:worker_preprocess_file (3180-3201)"]}
{"id": "C50", "title": "Linkage of identifiers", "statement": "An identifier is file-local exactly if one of its file-scope declarations is static (or its first is a non-extern inline), for every order of declarations and for every hash function.", "quantifier": "all declaration histories", "why_tests_cant": "Unbounded histories.", "anchors": ["src/main.c:is_token_static", "src/main.c:worker_preprocess_file (2933-3001)"]}
{"id": "C51", "title": "Register allocation", "statement": "A register is never handed out while it is locked, a spilled value is preserved, and exhausting all registers is reported.", "quantifier": "all sequences of allocate/lock/free", "why_tests_cant": "Unbounded histories.", "anchors": ["src/emit_x64.c:allocate_register", "src/emit_x64.c:allocate_specific_register", "src/emit_x64.c:spill_register"]}
{"id": "C52", "title": "Path handling", "statement": "Concatenating a directory and a relative path removes the right number of leading ../ components; slashes are canonical; file name and directory split rejoin to the path.", "quantifier": "all paths", "why_tests_cant": "Infinite input space.", "anchors": ["src/std.c:concatenate_file_paths", "src/std.c:canonicalize_slashes", "src/std.c:strip_file_path", "src/std.c:strip_file_name"]}
{"id": "C53", "title": "Redefinition check of macros", "statement": "A redefinition is silently accepted exactly if the two definitions are equivalent, otherwise it is diagnosed and the new one is used.", "quantifier": "all pairs of macro definitions", "why_tests_cant": "Infinitely many definitions.", "anchors": ["src/preprocess.c (4179-4276)"]}
{"id": "C54", "title": "Deterministic program regardless of declaration order", "statement": "Whether parsing of the global declarations completes, and which names are resolved, does not depend on the order in which they are parsed; it gets stuck exactly when there is an unresolvable or cyclic dependency.", "quantifier": "all dependency graphs and all schedules", "why_tests_cant": "All orders of an unbounded number of declarations.", "anchors": ["src/main.c:worker_parse_global_scope_entry", "src/main.c:sleeper_table_add", "src/main.c:wake_up_sleepers"]}
{"id": "C55", "title": "goto reaches the first matching label", "statement": "Every goto in a function is resolved to the label with its name; a goto without label is diagnosed.", "quantifier": "all functions (lists of labels and gotos)", "why_tests_cant": "Unbounded lists.", "anchors": ["src/main.c:worker_parse_function (3295-3458)"]}
{"id": "C56", "title": "Short circuit of && || ?:", "statement": "The jump code emitted for &&, || and ?: evaluates exactly the operands C says and yields their C value.", "quantifier": "all operand values and all nestings", "why_tests_cant": "Infinite nestings.", "anchors": ["src/parse.c (6559-6866)"]}
{"id": "C57", "title": "Immediate operands mean the intended value", "statement": "An instruction emitted with an immediate operand is executed by the processor with exactly the intended operand value at the operation's width, after the immediate has been shortened to 8 or 32 bits and sign-extended back.", "quantifier": "all operand values and widths", "why_tests_cant": "2^64 values per width.", "anchors": ["src/emit_x64.c:emit_binary_op__internal", "src/emit_x64.c:IR_switch"]}
{"id": "C58", "title": "The order of printed diagnostics does not depend on the schedule", "statement": "After a run the reported errors and warnings are printed in an order that depends only on the reports, not on which thread made them first.", "quantifier": "all interleavings of threads making reports", "why_tests_cant": "Unbounded number of schedules.", "anchors": ["src/diagnostic.c:print_error_stream", "src/std.c:sll_sort"]}
{"id": "C59", "title": "Statements keep their meaning", "statement": "The code of a function body made of expression statements, blocks, if, while, do, for, switch/case/default, break, continue, goto, labels and return terminates exactly when the source does, with the same effects and the same returned value.", "quantifier": "all function bodies, all states, all expression semantics", "why_tests_cant": "Infinitely many nestings and unbounded executions.", "anchors": ["src/parse.c:parse_statement", "src/parse.c:parse_imperative_scope", "src/main.c:worker_parse_function"]}
{"id": "C60", "title": "A function without the missing-return warning cannot fall off its end", "statement": "If no 'must return a value' warning is given for a function, then no execution of its body reaches the closing brace.", "quantifier": "all function bodies and executions", "why_tests_cant": "Infinitely many bodies.", "anchors": ["src/parse.c:parse_statement", "src/main.c:worker_parse_function"]}
{"id": "C61", "title": "Linked lists are sequences", "statement": "After any history of pushing, popping, joining and removing on any number of singly or doubly linked lists, walking along a list visits exactly the nodes put there, in order (backwards in the opposite order), and no null pointer is dereferenced.", "quantifier": "all histories on all numbers of lists, whatever the nodes contained before", "why_tests_cant": "Unbounded histories; pointer corruption shows only later and elsewhere.", "anchors": ["src/std.c:sll_push_back", "src/std.c:sll_push_front", "src/std.c:sll_push_back_list", "src/std.c:sll_push_front_list", "src/std.c:sll_pop_front", "src/std.c:sll_remove", "src/std.c:dll_push_back", "src/std.c:dll_push_front", "src/std.c:dll_push_back_list", "src/std.c:dll_remove"]}
{"id": "C62", "title": "Line numbers of tokens", "statement": "The line given for a token, as it appears in diagnostics and debug information, is one more than the number of newlines before it in the file.", "quantifier": "all texts and all tokens in them", "why_tests_cant": "Infinite input space.", "anchors": ["src/preprocess.c:tokenize_raw"]}
{"id": "C63", "title": "Identifiers", "statement": "A run of identifier characters that does not start with a digit is one identifier token with exactly that spelling, and two occurrences of the same spelling get the same hash, which depends on nothing else.", "quantifier": "all texts and all identifiers in them", "why_tests_cant": "Infinite input space.", "anchors": ["src/preprocess.c:tokenize_raw", "src/std.c:string_djb2_hash"]}
{"id": "C64", "title": "Character constants", "statement": "A character constant with one character or escape sequence has the type and value C gives it (a char converted to int, or an unsigned wide character); one that does not fit is diagnosed.", "quantifier": "all single-element character constants and all memory contents", "why_tests_cant": "Infinitely many spellings; uninitialised bytes differ from run to run.", "anchors": ["src/parse.c (4369-4473)", "src/preprocess.c:handle_escaping"]}
{"id": "C65", "title": "Function-like macros expand as in C", "statement": "Expansion with function-like macros ends, and gives the result of C: arguments are collected over balanced parentheses, expanded completely before substitution, and a macro's name from its own replacement is never replaced again.", "quantifier": "all sets of macros (function-like, variadic, recursive) and all token sequences", "why_tests_cant": "Infinitely many definitions and nestings.", "anchors": ["src/preprocess.c:expand_define", "src/preprocess.c:get_current_token_raw"]}
{"id": "C66", "title": "Token pasting", "statement": "In a macro's replacement list, ## joins the token before it with the token after it, with empty arguments as placemarkers, from left to right, and the tokens produced never exceed the space reserved for them.", "quantifier": "all replacement lists, all arguments and all tokenizations", "why_tests_cant": "Infinitely many chains and arguments.", "anchors": ["src/preprocess.c:expand_define", "src/preprocess.c (3990-4150)"]}
{"id": "C67", "title": "Stringification", "statement": "# and a parameter give a string literal with the spelling of the argument: no white space at the ends, one space for each white space inside, quotes and backslashes in literals escaped.", "quantifier": "all macros and all arguments", "why_tests_cant": "Infinitely many arguments.", "anchors": ["src/preprocess.c:expand_define"]}
{"id": "C68", "title": "Declarators have the types of C", "statement": "A declarator of any size and nesting gives its name the type that C gives it, violations of the constraints (a function returning a function or an array, an array of functions, ...) are reported, and nothing else is accepted.", "quantifier": "all declarators, all sets of known typedef names, all token sequences", "why_tests_cant": "Infinitely many nestings.", "anchors": ["src/parse.c:parse_declarator"]}
{"id": "C69", "title": "Type names in messages denote the types", "statement": "The name of a type printed in a diagnostic denotes that type in C, and two types with the same name are the same.", "quantifier": "all types built from pointers, arrays and functions", "why_tests_cant": "Infinitely many types.", "anchors": ["src/main.c:push_type_string", "src/main.c:push_type_string__inner"]}
{"id": "C70", "title": "Calls pass every argument and keep everything else", "statement": "A compiled call gives the called function the value of every argument in the parameter of the same position, whether it is passed in a register, on the stack or by the address of a copy, and for arguments of `...` too. A call through a pointer goes to the function the pointer had. The value of the call is what the function returned, and every value that is needed after the call is the same as before.", "quantifier": "all states of the register allocator, all numbers, sizes and types of arguments, all return types, all behaviours of the called function", "why_tests_cant": "the arguments compete for registers with each other and with live values, so the moves depend on the whole history; tests only see some of these states", "anchors": ["src/emit_x64.c: emit_code_for_function__internal (IR_function_call), emit_load_into_specific_gpr, emit_load_float_into_specific_register, emit_memcpy, emit_store, prologue"]}
{"id": "C71", "title": "Conversions between integers and floats", "statement": "The compiled conversion of an integer to `float` or `double` gives the nearest value of that type, and between two equally near ones the even one. The conversion of a float to an integer drops the fraction if the result fits. A float is true in a condition exactly if it is not zero. The same holds for conversions of literals. A conversion does not change any other value in use.", "quantifier": "all integers of all types, all floats, all states of the register allocator", "why_tests_cant": "there are 2^64 operands for a single conversion, and whether a register has to be saved depends on all the code before", "anchors": ["src/emit_x64.c: emit_code_for_function__internal (casts, IR_cast_u64_to_f64), emit_compare_to_zero", "src/parse.c: push_cast"]}
{"id": "C72", "title": "Compiled expressions compute the value of C", "statement": "The compiled code of an integer expression computes the value the C standard gives it: promotions, the usual arithmetic conversions, signed and unsigned arithmetic, shifts, comparisons, `!`, `~`, casts, reads through pointers, and constant folding of its parts. A sequence of assignments leaves the memory as C prescribes, a conditional jump is taken as the value of its condition says, and `return` leaves the value in `rax`. This holds however many values have to be spilled.", "quantifier": "all integer expressions of any depth up to 256 pending operands, all types, all memories, all contents of the registers", "why_tests_cant": "expressions nest without bound, and register pressure decides which of many code sequences is emitted", "anchors": ["src/parse.c: parse_expression, push_cast, perform_integer_operation", "src/emit_x64.c: emit_code_for_function__internal, emit_load_gpr, emit_binary_op__internal, emit_divide_or_mod_or_multiply__internal, emit_shift_or_rotate__internal, emit_integer_cast, emit_store, emit_compare_to_zero"]}
{"id": "C73", "title": "Compiled functions do what C prescribes", "statement": "A function built from assignments, expression statements, `if`, `while`, `do`, `for`, `break`, `continue`, blocks and `return` over integer expressions is compiled to code that, whenever the function ends in C, ends with the memory that C prescribes and with the value returned in `rax`, whatever the registers contain at the start; `main` returns 0 if its end is reached. If the function runs forever in C, so does the code. Every jump has its label, no label occurs twice, and the emitter does not fail on such a function.", "quantifier": "all such functions that are compiled without an error, whatever their size and nesting, with at most 256 pending operands in each expression, all memories, all contents of the registers, all executions of any length", "why_tests_cant": "loops run any number of times, and the code of a loop body is emitted once for the register state of its first iteration", "anchors": ["src/parse.c: parse_statement", "src/main.c: worker_parse_function", "src/emit_x64.c: emit_code_for_function__internal"]}
{"id": "C74", "title": "Initialized objects start with the bytes their initializers say", "statement": "In a program that is linked or loaded anywhere, every byte of an object with static storage duration is the one its initializer says: numbers, characters and zeros after them, floating point constants, contents of files, addresses of objects, functions and string literals plus or minus a number, differences of addresses in one object; bytes without initializer are zero, a later initializer for the same part replaces the earlier one; nothing outside of the object is written, and an initializer that needs the address of an object without fixed address is rejected.", "quantifier": "all initializers (any nesting of lists, any expressions), all places where the objects of the program end up, all distances from the preferred load address", "why_tests_cant": "The bytes depend on addresses that are known only when the program is linked and loaded, and on how initializers for the same part interact; there are infinitely many initializers and addresses.", "anchors": ["src/main.c: evaluate_static_initializer, evaluate_static_initializer__internal, emit_patch", "src/coff_writer.c: PATCH_absolute", "src/obj_writer.c: data_patches", "src/parse.c: parse_initializer, handle_pointer_arithmetic"]}
{"id": "C75", "title": "The relocation table of an executable names exactly the stored addresses", "statement": "The table of base relocations is well-formed for the loader of Windows, and it makes the loader adjust every place where an absolute address is stored, once for each patch, the four addresses for thread local storage, and no other place.", "quantifier": "all lists of places (in any order, with any number of places in a page, also twice the same), with and without thread local storage", "why_tests_cant": "A missing or additional entry is visible only if the program is loaded at another address than the preferred one and the particular pointer is used.", "anchors": ["src/coff_writer.c: relocation_blocks, base_relocation_block"]}
{"id": "C76", "title": "Stack frames can be unwound everywhere", "statement": "From every instruction of the prolog and the epilog of a function, and from anywhere in its body, also after `_alloca`, the information for unwinding that is written for it leads Windows to the return address, the stack pointer and the preserved registers of the caller; the size of the frame it describes is the one that is allocated, and the epilog restores the same state.", "quantifier": "all functions (also filters of exception handlers) with any number of arguments and frames of any size below 4 GB, all register contents and memories", "why_tests_cant": "An exception or a debugger can stop a function at any instruction; wrong information shows only then.", "anchors": ["src/emit_x64.c: emit_code_for_function", "src/obj_writer.c: push_unwind_information_for_function"]}
{"id": "C77", "title": "Types match exactly if C says they are compatible", "statement": "Two types are accepted as the same (for redeclarations, assignments, arguments, operands of pointer operators) exactly if they are compatible in C: structures and unions with the same tag, kind and members, pointers to, arrays of and functions over compatible types; the comparison always ends, also for structures that refer to themselves or to each other.", "quantifier": "all types of any depth, all programs including mutually recursive and nowhere defined structures", "why_tests_cant": "Types are graphs of unbounded size with cycles; whether two of them agree is an infinite conjunction.", "anchors": ["src/parse.c: types_are_equal, maybe_resolve_unresolved_type", "src/main.c: lookup_unresolved_type"]}
{"id": "C78", "title": "Names are looked up in import libraries", "statement": "A symbol that an import library lists is found, with the name of its dll, its hint and whether it is imported by number; a symbol that an object file in the library defines is found there; a name that is not listed is not found. Of several libraries the first one that has the symbol is used, alternate names are used for names that no library has. Whatever the bytes of a library are, only bytes of the file are read.", "quantifier": "all libraries with any number of members and symbols, all files of any content, all lists of libraries and alternate names", "why_tests_cant": "The index is searched by bisection over tables of any size at computed offsets; damaged files have unboundedly many forms, and a read behind the buffer is usually not visible.", "anchors": ["src/ar.c: ar_parse_file, ar_lookup_symbol", "src/explain.c: lookup_declaration_in_libraries", "src/std.c: string_compare_lexically, string_strip_whitespace, string_to_u64"]}
{"id": "C79", "title": "The executable loads as the program", "statement": "Windows accepts the executable. When it is loaded, every function, object, string literal and floating point constant is at its address with its content, uninitialized objects are zero, and nothing overlaps. The displacement in an instruction and the address in memory lead to what the program refers to. The loader finds all imported functions, the stub of an imported function jumps to it, who asks for an exported name gets the address of its function, the unwinder finds every function with its unwind information, threads get all variables of threads, the program starts at its entry point, exactly the addresses are corrected if the image is moved, and a debugger finds the debug information. Everything is aligned as the program asks for.", "quantifier": "all programs with any number of functions, objects, literals, imports, exports, variables of threads and references, for images of less than 2 GB", "why_tests_cant": "The addresses depend on the sizes and alignments of everything that was written before; there are unboundedly many programs, and a wrong address corrupts a program only when it is used.", "anchors": ["src/coff_writer.c: print_coff, fill_section_header, make_relative_virtual_address", "src/std.c: push_align, string_djb2_hash"]}
{"id": "C80", "title": "The object file describes the program to the linker", "statement": "A linker accepts the object file. Every function and object that the program defines has a symbol with its name, visible to other objects unless it is static, in a section that may be executed, read or written as it should; what other objects define is undefined; tentative definitions have their size. After linking, wherever the linker puts the sections, every function, object, string literal and floating point constant has its content, uninitialized objects are zero, nothing overlaps, the displacements and addresses lead to what the program refers to, everything is aligned, the function table has the bounds and the unwind information of every function, and the debug information has the addresses of the functions and objects.", "quantifier": "all programs with any number of functions, objects, literals, imports and references, all placements by the linker, for object files of less than 2 GB", "why_tests_cant": "The indices of symbols and the offsets of relocations depend on everything that was written before and on what the linker decides later; a wrong one shows only when the program is linked with others and run.", "anchors": ["src/obj_writer.c: print_obj", "src/std.c: push_align"]}
{"id": "C81", "title": "Streams are found in PDB files", "statement": "The PDB file is a well-formed multistream file: a debugger that follows the list of pages and the table of streams finds stream 0 empty and all other streams in their order with exactly their bytes. The file consists of full pages, every page serves exactly one purpose, and the map of free pages names exactly the pages after the end of the file. Files of less than two terabytes can be written.", "quantifier": "all lists of streams, of any number and of all sizes up to 4 GB - 4096 bytes each, for files of up to 2^44 bytes", "why_tests_cant": "The pages of a stream are interrupted by maps of free pages every 16 MB, and the tables that say where pages are take up pages themselves; the boundaries need files of many sizes, up to terabytes.", "anchors": ["src/coff_writer.c: write_msf"]}
{"id": "C82", "title": "Symbols are found in PDB files by name and by address", "statement": "A debugger that looks up a name in the PDB file finds exactly the functions, objects, enumerators and type names of the program with this name, with their kind, type, position and value. The same holds for public symbols: functions that are not static, imported addresses and their stubs. The list of public symbols by address has each of them once and is sorted by address. Following the lengths of the records reaches all of them.", "quantifier": "all programs with any number of symbols, all names without zero bytes up to 60000 bytes, whatever their hashes, and symbol streams of less than 2 GB", "why_tests_cant": "Which symbols share a bucket of the hash table depends on all names; bits, starts and references must agree for each combination of empty and full buckets. The quicksort must work for all orders of addresses, also with equal ones, without overflowing its stack.", "anchors": ["src/coff_writer.c: pdb_string_hash, global_symbol_stream_hash_table_add, print_coff (symbol records, global symbol stream, public symbol stream)", "src/obj_writer.c: push_f3f2f1_align, push_signed_number_leaf"]}
{"id": "C83", "title": "Include directives find the right file", "statement": "#include <name> includes the file of the first system include directory, in the order of the options, that has a file with this name, whatever the case of letters and the kind of slashes; if there is none the file is not found. #include \"name\" prefers the file in the directory of the file with the directive. #include_next continues with the directories after the one that has the file with the directive. A file with #pragma once is not included again in the same compilation unit.", "quantifier": "all lists of system include directories with any number of files in any depth, all include strings, all hash functions, all histories of includes and #pragma once", "why_tests_cant": "The result depends on the whole content of all directories, on which strings collide in the table and when it grows, and on everything that was included before.", "anchors": ["src/main.c: main (system include table), add_system_include_directory", "src/preprocess.c: get_or_load_file_for_include_string, get_or_load_file_by_walking_system_include_directories, maybe_push_file_to_include_stack", "src/std.c: hacky_canonicalize_file_for_case_insensitivity, concatenate_file_paths"]}
{"id": "C84", "title": "Source files are known by their MD5 digest", "statement": "The digest that is recorded for a source file in object files and PDB files is the MD5 digest (RFC 1321) of the contents of the file. It is computed in the memory that was loaded, without an access outside of it and without a change to the contents.", "quantifier": "all contents of files, of any length", "why_tests_cant": "A digest depends on every byte, and the padding on the length modulo 64; the table of constants is defined by real sines.", "anchors": ["src/std.c: hash_md5_inplace", "src/obj_writer.c: the loop for the checksums (1010-1030)"]}
{"id": "C85", "title": "Debuggers find the source line of the code", "statement": "In object files with debug information, and in PDB files, the bytes before the body of a function belong to the line on which the body opens, and every byte of the body belongs to the line of the statement, in the file of the function, that started last before the code for it was generated. With the line a debugger gets the path of the file (with backslashes) and the MD5 digest of its contents.", "quantifier": "all tables of files, all lists of functions, all sequences of statements and of generated code (also empty code), all prologs and epilogs", "why_tests_cant": "Offsets in the syntax tree are turned into offsets in the code in place, and a reader has to find its way through subsections of any size.", "anchors": ["src/parse.c: function_maybe_add_line_information", "src/emit_x64.c: emit_code_for_function__internal (2571-2616, 4700-4710)", "src/obj_writer.c: codeview_emit_debug_information_for_function (line information), the subsections 0xf3 and 0xf4", "src/coff_writer.c: the module stream (2709-2721)", "src/main.c: worker for functions (3277-3329)"]}
{"id": "C86", "title": "Assignments that C allows are accepted, others are reported", "statement": "For assignments, initializers, arguments and return values: what violates the constraints of C11 6.5.16.1 (without qualifiers) is reported, by an error or a warning; what C allows is not an error, and the value gets the type of the left side. The warning about the truncation of an integer constant is given exactly if the type cannot represent the value. For other integers of a different size the warning is given exactly if some value of the type on the right cannot be represented.", "quantifier": "all types on the left and the right, with pointers of any depth, all constant values", "why_tests_cant": "Types are unbounded, and so are the constants to try.", "anchors": ["src/parse.c: maybe_insert_implicit_assignment_cast_and_check_that_types_match, push_cast", "src/main.c: type_is_signed, type_is_arithmetic"]}
{"id": "C87", "title": "Debuggers see the local variables whose blocks they are in", "statement": "At every byte of the code of every function, the symbols of the PDB file lead a debugger to exactly the variables on the stack that are declared in the function and in the blocks around the byte, from the outermost block to the innermost, each with its name, its offset from rbp and the number of its type. At addresses that are in no function there are none. The assertion on the offsets of scopes never fails.", "quantifier": "all modules of functions whose code does not overlap, all nestings of blocks, all bytes of the code, if the sizes fit into the fields", "why_tests_cant": "Blocks nest arbitrarily; a wrong size or pointer in a record shows up at some byte of some nesting only.", "anchors": ["src/parse.c: parser_push_new_scope, parser_scope_pop", "src/emit_x64.c: emit_code_for_function__internal", "src/obj_writer.c: codeview_emit_debug_information_for_function__recursive, codeview_emit_debug_info_for_function", "src/coff_writer.c: coff_write (module stream)"]}
{"id": "C88", "title": "Exceptions meet the handlers around them, the innermost first", "statement": "For every function with __try statements the executable has a table such that Windows, for an exception at any byte of the body, asks the filters of exactly the __try statements around the byte, the innermost first, until one decides, and then continues with the code after __except of that statement, or with what the filter says. Functions without __try have no table and no flag for it.", "quantifier": "all nestings of __try statements in bodies, filters and handlers' code, all bytes of the code, all verdicts of the filters, if addresses fit into 32 bits", "why_tests_cant": "Statements nest arbitrarily, and the order of the table matters only for exceptions in several of them.", "anchors": ["src/parse.c: parse_statement (TOKEN_seh_try)", "src/emit_x64.c: emit_code_for_function__internal (IR_start_exception_block, IR_end_exception_block)", "src/obj_writer.c: push_unwind_information_for_function"]}
{"id": "C89", "title": "Debuggers find the names of source files in PDB files", "statement": "In every PDB file the table of names has the name of every source file of the program, with backslashes, at the offset that the line information refers to; a search for the name, from the bucket of its hash on, finds it, and a search for any other name finds nothing.", "quantifier": "all lists of source files and all names, if sizes fit into 32 bits", "why_tests_cant": "Which names collide and where the buckets after the hash are free depends on all names together.", "anchors": ["src/coff_writer.c: names_stream, pdb_string_hash"]}
{"id": "C90", "title": "Printlike functions print every part of their arguments, and printf reads what is passed", "statement": "For every argument of a function declared with __declspec(printlike) that is printed with {} or %?, the call passes one argument for each scalar in it (all members, all elements, of a union the first member), in their order, and the format string names each of them by its path and has one conversion for each, such that printf reads exactly the arguments that are passed, each as what it is passed as, with the letter that was asked for.", "quantifier": "all types of arguments, nested in any way, all flags, widths, precisions and letters", "why_tests_cant": "Types nest arbitrarily; a wrong conversion only shows for the members after it.", "anchors": ["src/parse.c: printlike__infer_format_string_and_arguments_for_argument, get_pretty_print_string_for_type, maybe_insert_implicit_nodes_for_varargs_argument", "src/main.c: register_compound_member"]}
{"id": "C91", "title": "_Generic selects the expression for the type", "statement": "For every _Generic expression the result is the expression of the association whose type is compatible with the type of the controlling expression, otherwise that of default; it has its type, and exactly its code is executed, nothing of the other expressions. It is reported if there is none.", "quantifier": "all lists of associations in any order, all types and all expressions in them", "why_tests_cant": "Which associations come before and after the selected one decides what happens to its code.", "anchors": ["src/parse.c: parse_expression (TOKEN_generic)"]}
{"id": "C92", "title": "#embed is replaced by the prefix, the file and the suffix", "statement": "For every #embed directive with prefix, suffix and if_empty parameters in any order and with any whitespace and comments, the directive is replaced by the tokens of prefix, the bytes of the file and the tokens of suffix, or by the tokens of if_empty if the file is empty. A parameter with another name is reported.", "quantifier": "all lists of different parameters, all tokens with matching parentheses in them, all whitespace and comments, all contents of the file", "why_tests_cant": "It depends on the whitespace between the parameters and on the parentheses in them; a lost parameter is only a warning.", "anchors": ["src/preprocess.c: file_tokenize_and_preprocess (DIRECTIVE_embed)"]}
{"id": "C93", "title": "Format strings of printlike functions", "statement": "For every format string of a printlike function, text, braces that do not start a {...} specifier, %% and the conversions of printf are kept as they are; %? and {...} are replaced by the conversion for the value, which is the next argument or the named variable, with the flags, width, precision and type that are written there. Every specifier reads its arguments in order, and it is reported if there are too few.", "quantifier": "all format strings with any number of pieces, all flags, widths, precisions and names, all numbers of arguments", "why_tests_cant": "Text and specifiers can follow each other in any order, and a brace is text or not depending on all that follows it.", "anchors": ["src/parse.c: parse_call_to_printlike_function_arguments", "src/std.c: eat_identifier, string_eat_characters_front, string_front_match_eat"]}
{"id": "C94", "title": "#define reads the macro that is written", "statement": "For every #define, the macro is function-like exactly if a parenthesis directly follows its name; its parameters are those that are written, and two with the same name are reported. In the replacement list # and a parameter is a string, a parameter next to ## is the argument as written, any other parameter the expanded argument, and everything else stands for itself, in order. Exactly the replacement lists that C does not allow are reported.", "quantifier": "all lists of parameters, all replacement lists, all whitespace and comments", "why_tests_cant": "What a token in a replacement list means depends on its neighbours, and the indices of the strings on all of the tokens before.", "anchors": ["src/preprocess.c: file_tokenize_and_preprocess (DIRECTIVE_define), lookup_define_argument"]}
{"id": "C95", "title": "Memory operands of inline assembly are where they say", "statement": "For every memory operand size ptr gs:[base + scale*index + constant] of inline assembly, the instruction accesses the sum of what is written, with the size and the segment that is written; every name of a register stands for the register and the size it is the name of.", "quantifier": "all registers, sizes, scales and constants; all values of the registers", "why_tests_cant": "The parser decides by what follows a number or a register whether it is a base, a scale or a constant, and each combination takes another way through it.", "anchors": ["src/parse_asm_block.c: asm_maybe_parse_memory_operand, asm_maybe_parse_gpr, asm_maybe_parse_expression_operand", "src/emit_inline_asm_block.c: _asm_block_resolve_and_allocate_operand"]}
{"id": "C96", "title": "Inline assembly without operands becomes the right bytes", "statement": "For every block of inline assembly made of instructions without operands, with rep before those that move or store strings, and of bytes { ... }, the code is the encoding of each instruction and exactly the bytes that are written, in order; words in bytes that are not bytes are reported.", "quantifier": "all sequences of such instructions, any number of bytes in any spelling", "why_tests_cant": "Prefixes are carried from one token to another, the meaning of movsd depends on what follows, and the buffer for bytes grows with their number.", "anchors": ["src/parse_asm_block.c: parse_asm_instruction, parse_asm_block, lookup_memonic_from_string", "src/emit_inline_asm_block.c: emit_inline_asm_block", "src/emit_x64.c: emit_prefixes_and_opcode"]}
{"id": "C97", "title": "Conditions in inline assembly hold when their names say", "statement": "For every conditional jump, set and conditional move in inline assembly, and every name of a condition, the instruction that is emitted takes effect after cmp x, y exactly if the relation that is named holds for x and y; for every comparison of floating-point numbers, the result is what its name says, also if an operand is not a number.", "quantifier": "all names of conditions and instructions, all numbers of all sizes, all orders of floating-point numbers", "why_tests_cant": "The number in the opcode comes from the place of a name in an enumeration and from aliases, and whether the condition is right depends on overflow, signs and numbers that are not numbers.", "anchors": ["src/parse_asm_block.c: enum memonic, asm_parse_table", "src/main.c: add_memonic_to_string_to_memonic_table (aliases)", "src/emit_inline_asm_block.c: emit_inline_asm_block"]}
{"id": "C98", "title": "The names of instructions in inline assembly are found", "statement": "For every set of names of instructions, whatever their hashes are, a name in inline assembly is taken as the instruction it was registered with, any other name is not an instruction, all names are registered if they are distinct and there is room, and a name that is registered twice is noticed.", "quantifier": "all hash functions, all capacities, all lists of names and instructions, all names looked up", "why_tests_cant": "Names that collide, wrap around the end of the table or fill it are not met by tests with the few names and the one hash function there are.", "anchors": ["src/parse_asm_block.c: add_memonic_to_string_to_memonic_table, lookup_memonic_from_string", "src/main.c: globals.memonic_table"]}
