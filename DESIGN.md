# Formal model of Headerless-C-Compiler in Lean 4

This directory contains a formal model of parts of the compiler in `/repo/src`
and machine-checked theorems about it. Property ids (C01, ...) refer to
`properties.jsonl`; `MANIFEST.json` maps them to theorem names.

## Layout

| directory | contents |
|---|---|
| `lean/Verif/Model/` | the model: total, computable functions transcribed from the C code, each with a `file:lines` citation and a note about simplifications |
| `lean/Verif/Spec/` | small specifications written without looking at the code (C11 rules, Unicode encodings, Intel decoding rules, abstract maps/queues) |
| `lean/Verif/Lemmas/` | helper lemmas |
| `lean/Verif/Props/` | the property theorems, each with an `example` that meets its hypotheses |
| `seeded/LOG.jsonl` | mutation attempts on the model and which theorems caught them |

## Conventions

* C integers are `Nat`/`Int` where wrap-around cannot happen or is irrelevant
  (the comment says why), `BitVec n` where wrap-around is the point.
* Undefined behaviour of the host program (out-of-bounds access, shift by the
  width or more, signed overflow, null dereference) is a distinct outcome
  (`none`, or an explicit `ub`/`trap` constructor), never a default value.
* Reports to the user (`report_error`, `report_warning`) are explicit outputs.
* Concurrent code is a transition system whose atomic steps are the
  interlocked instructions and plain loads/stores of the C code; theorems
  quantify over all finite interleavings. Sequential consistency is assumed.
* If the code violates a property, the negation is proved with a concrete
  witness (`..._violated`/`..._bug`), the largest true part is proved with the
  suffix `_partial`, and the disagreement is listed under "Findings".

## Trusted base

* Lean 4.33.0's kernel. No axioms are added; theorems depend on at most
  `propext`, `Classical.choice`, `Quot.sound`; `AXIOMS.txt` lists them for every theorem
  in `MANIFEST.json`, as printed by `#print axioms`. No `sorry`, `native_decide`, `bv_decide`.
* The reading of the C code that produced `Model/`: the code was not compiled
  or run. Each definition cites the lines it models.
* The specifications in `Spec/`.
* C semantics of the host compiler for the modelled code (two's complement,
  LLP64), and sequential consistency of interlocked operations.

## Plan per property

| id | modelled | proof |
|---|---|---|
| C01 | the four `parse_*_literal` digit loops incl. overflow tests | induction on digits: value = digits mod 2^64; hex/binary warning iff overflow; decimal/octal: witness of missed / spurious warning and partial ranges |
| C02 | literal typing ladder and suffix parser | case analysis against C11 6.4.4.1 table |
| C03 | escape reader, UTF-8 decoder, encoders | decode(encode cp)=cp for all code points, lifted to strings; UTF-16 surrogate defect as negation |
| C04 | buffer sizing vs. units written | induction over source string |
| C05, C06 | raw tokenizer as a function on byte lists | induction on remaining input; punctuator table against longest-prefix spec |
| C07 | the operand/operator stack machine of `static_if_evaluate` | for all expression trees: run(render e) = eval e by induction on trees with a generalised continuation |
| C08 | operator actions on (u64, is_unsigned) | per-operator equality with C11 spec; deviations as negations |
| C09 | directive state machine | induction on structured sources |
| C10 | chained hash table with growth | refinement to a map over all histories |
| C11 | object-like expansion with `is_disabled` flags and token stack | well-founded measure, refinement to hide-set recursion |
| C65 | `expand_define` with arguments, the two scanning loops and the token stack | refinement to the rescanning rules of C; measure: enabled macros, then tokens, for balanced replacement lists |
| C66 | parsing of replacement lists and the building of token stack nodes | stack refines a list of tokens; induction over chains |
| C67 | the string building in the argument loop | induction over tokens and arguments |
| C68 | `parse_declarator` on tokens | strong induction on the bound of the recursion, in both directions |
| C69 | `push_type_string` on tokens | the string is the tokens of a declarator, then C68 |
| C70 | `IR_function_call` and the prologue, on the register allocator of C51 | each step extends the abstract values of C51 (`Ext`), arguments stay locked until the call; then the slots |
| C71 | the casts between integers and floats in `emit_x64.c` and `push_cast`, floats as sign, mantissa and exponent; the cast from `u64` on the register allocator of C51 | rounding to nearest even as a spec with a uniqueness proof; halving with a sticky bit by arithmetic; `Ext` of C70 for the registers |
| C72 | from the parsed expression to IR (`parse.c`, with constant folding of C16) and from IR to x64 (`emit_x64.c`) on the register allocator of C51; assignments, conditional jumps, `return` | a big-step semantics of C expressions as spec; every emit function is total and keeps an invariant that ties locations to values; induction over the derivation |
| C73 | `parse_statement` with labels and jumps, the end of `main`, and the emitter going once through the nodes; a machine that executes the code of a node each time control reaches it | a big-step semantics of C statements as spec; emission depends only on the allocator, not on contents, and between statements no register is in use, so the code works for any contents; simulation by induction over the run; for endless runs by induction over the number of iterations |
| C74 | `evaluate_static_initializer` as an interpreter of postfix nodes with a stack, the patches it emits, and their application by both writers, the linker and the loader | constant expressions denote a base and an offset, by induction over the tree; an invariant over the parts said so far relates bytes, patches and the specified image; negations for the overriding cases |
| C75 | the blocks of base relocations and the bytes of `.reloc`; the table as the loader reads it | round trip up to permutation, by induction over blocks and patches |
| C76 | the prolog and epilog as instructions on registers and memory, the bytes of `UNWIND_INFO`; the unwinder of Windows as specification | the registers on the stack as an invariant of the instructions; codes of instructions that are not executed yet are skipped, the others undo the pushes |
| C77 | types as a graph, the comparison with fuel; compatibility as the largest relation all whose pairs agree | matching types are a relation of that kind; for types that do not match, no such relation exists, by induction over the calls; a depth that ignores structures shows that it ends |
| C78 | the file as bytes, reads outside of it as an outcome of their own; the format of libraries as a specification by concatenation | every field is located by the lengths of what precedes it; bisection by the order of the names; bounds by the checks of the parser |
| C79 | `print_coff` as pushes with names, and writes through the pointers they returned; the loader as a specification that reads the bytes of the file | the place of every push by induction; writes keep everything they do not cover; every table is decoded by the specification |
| C80 | `print_obj` as pushes with names, and writes through the pointers they returned; the linker as a specification that reads the bytes of the file and applies the relocations | the place of every push by induction; the symbol and relocation tables decoded; relocations that do not overlap are independent |
| C81 | the loop of `write_msf` that writes chunks between the maps of free pages; a reader of multistream files as specification | invariant: data byte x is at its page; the lists of page numbers are the pages of the data in order; bits of the maps |
| C82 | the records, the hash table with its chains, the loop that writes references, bits and starts, and the quicksort; a reader of these streams as specification | invariants of the loops; chains are permutations of the symbols with their hash; partition and stack invariants of the quicksort |
| C83 | the directory walk, the growing hash table, the search, the comparison of paths for #include_next, and the list of files with #pragma once | the table represents the map in which the first directory wins; the walk finds exactly the files of the tree by induction on the number of directories; folds over the history |
| C84 | `hash_md5_inplace` on lists of bytes, the table of shifts and of constants | refinement of the loops to the rounds of RFC 1321; the table by bounds for 2^160 sin n from the exponential series and the addition theorem |
| C85 | the list of lines that the parser builds, the change of its offsets during code generation, the subsections with names, digests and lines | an invariant of the parser's list; the change of offsets by induction on the nodes; a reader of subsections that is inverse to the writer |
| C86 | the decisions of the function that converts the right side, and the error of `push_cast` | case analysis over types, induction over the depth of pointers; linear arithmetic for the ranges |
| C87 | the positions of scopes in the parser, their replacement in the code generator, the records | induction over the nesting: a walk over the records of a scope gives the variables of the open blocks; induction over the list of nodes and scope marks for the replacement |
| C88 | the list of handlers the parser makes, the markers in the code generator, the table | induction over the nesting with the rows in the order of the list; the entries for an address are the statements around it |
| C89 | the string buffer, the loop over its strings, the probing in 32 bit arithmetic, the bytes of the stream | every name has a bucket with no free one before it: induction over the insertions, a free bucket exists by counting; reading the bytes back |
| C90 | the lists of members with those of unnamed structures, the walk with the stack of designators, the conversions | the walk takes a number of steps that is computed from the type and yields the scalars: induction over types; what printf reads: induction over the text |
| C91 | the loop over the associations with the arena of instructions | the arena holds what follows the last association with another type: induction over the list |
| C92 | the loop over the parameters on the tokens of the line | one step of the loop per parameter, induction over the parameters |
| C93 | the loop over the bytes of the format string, with the number of arguments read | one step of the loop per piece: the greedy scans stop where the piece ends; induction over the pieces |
| C94 | the loop over the tokens of the replacement list and the loop over the parameters | what the nodes stand for is a prefix of what the specification says: induction over the steps; stringify indices stay valid as the list grows |
| C95 | the parser over tokens, with constants made of numbers, signs and products | induction over the products and the terms of the constant; case by case for what stands behind the base |
| C96 | the parser over tokens, the buffer that doubles, and the bytes of each instruction | induction over the bytes with the invariant that the buffer holds those before; induction over the instructions; the tables are checked by the kernel |
| C97 | the names, their places and the bytes | the tables are checked by the kernel; that the flags after cmp decide the relations is proved for all sizes |
| C98 | the table with open addressing, adding and looking up | an invariant on the slots before each name, by induction on the names; room by counting the used slots |
| C12, C13 | the member placement loop | invariant over member list; negation witnesses for anonymous and union bit-fields |
| C14 | pack directive state machine | stack-discipline induction |
| C15-C18 | conversion/folding functions over `BitVec` | per-operator proofs for all values |
| C19 | operator-precedence parser with explicit stack and recursive calls | simulation along derivations of the C grammar; converse by an invariant of the parser |
| C20, C21 | lowering of compound assignment and pointer arithmetic | BitVec algebra; negations for `/=`, `%=`, pointer difference, literal pointers |
| C22 | specifier bitmask switch | finite table lifted to all sequences |
| C23 | enumerator loop | induction |
| C24 | initializer list parser: designators, stack of designator nodes | simulation against an inductive specification of C 6.7.9, and the in-order list of scalar leaves |
| C25, C37 | mask/shift sequences | BitVec extensionality |
| C26, C27, C50 | linear probing tables | generic probing theory, refinement to maps over all histories |
| C28-C31, C54 | transition systems | inductive invariants over all schedules; race witnesses |
| C32 | DFS with explicit stack | invariant: visited = reachable, queue has no duplicates |
| C33 | candidate table | decision-logic theorem |
| C34-C36 | byte emitters and an independent decoder | round-trip |
| C38, C39 | bump allocators | invariant |
| C40, C41 | the two quicksorts | permutation + sortedness |
| C42 | converter | round-trip, negation for planes with low bits overlapping |
| C43, C44, C52 | string scanners | induction, round-trip |
| C45 | table-driven CRC | table = 8-fold bitwise step (finite, kernel-checked), lifted to all data |
| C46 | bit tricks | arithmetic |
| C47 | leaf writer | round-trip |
| C48, C49 | chunker, shuffle | induction; permutation |
| C51 | allocator state machine | invariant |
| C53, C55, C56 | small deciders / jump code | induction |
| C57 | choice of immediate encodings | decoded immediate = operand, for all values and sizes |
| C58 | the order of reports | sorted permutation, independent of the arrival order |
| C59 | lowering of statements to jumps | forward simulation of a structured semantics, unbounded runs |
| C60 | the missing-return analysis | soundness for programs without the four holes |
| C61-C64 | intrusive lists, line counting, command-line splitting, character constants | induction |

## What is modelled

Each module of `lean/Verif/Model` and the lines it cites. The header of the module and the comments of its
definitions say what is simplified.

| module | what | lines in `/repo/src` |
|---|---|---|
| `Align` | alignment and power-of-two helpers of `src/std.c` | std.c: 244, 246, 1702-1711, 1713-1723 |
| `Archive` | reading import libraries | ar.c: 21-227, 91-94, 86-128, 193-200, 150-226, 286-304, 352-400, 263-400; explain.c: 312-440, 415-439, 335-352, 369-414, 312-414; std.c: 1780-1787, 1254-1260, 1187-1199, 1128-1138; main.c: 295-312 |
| `Arena` | memory arenas | std.c: 688-945, 688-707, 716, 717, 718-752, 776-782, 806-812, 831-837, 246, 886-887, 829-876, 878-904, 804-822, 709-712, 725, 909-916, 918-936 |
| `AsmAddress` | memory operands of inline assembly | parse_asm_block.c; emit_inline_asm_block.c; parse.c |
| `AsmBytes` | instructions without operands in inline assembly | parse_asm_block.c; emit_inline_asm_block.c; main.c; ast.c; emit_x64.c |
| `AsmCond` | conditions in inline assembly | parse_asm_block.c; main.c; emit_inline_asm_block.c |
| `AsmNames` | the table of the names of instructions | main.c; parse_asm_block.c |
| `Assign` | the conversion of what is assigned | parse.c |
| `AstTable` | the table of global declarations | main.c: 80-247, 95-103, 106-119, 143-149, 139-150, 121-156, 195-216, 158-219, 229-244, 221-247 |
| `AstTableThreads` | threads using the table of global declarations | main.c: 93-247, 160, 222, 163, 168, 123, 126, 128-137, 139-150, 177, 183, 224, 188, 226, 197, 231, 207, 209 |
| `BaseReloc` | base relocations | coff_writer.c |
| `Bitfield` | access to bit-fields | emit_x64.c: 2000-2033, 577-645, 1321-1333, 1294-1320, 2035-2075; main.c: 2471-2487, 2475-2487; parse.c: 651-661 |
| `CExpr` | `parse_expression` | parse.c: 4160-7532, 5419-5474, 5479-5534, 1386-1404, 4168-4175, 4296, 4177-5026, 5034-5413, 3050, 7521-7532, 5558-7256, 7263-7527, 5550-5556, 5478-7260; main.c: 783 |
| `Call` | calls | emit_x64.c: 3352-3638, 3393-3403, 1044-1080, 1161-1165, 1385-1388, 1265-1403, 1410-1416, 1552-1612, 3429-3450, 3452-3480, 3499-3514, 3516-3535, 3424-3536, 3424, 3550, 3561, 3547-3555, 3538-3567, 3600-3637, 3569-3577, 3352-3601, 3603-3620, 3603-3637, 4796-4815, 4762-4779, 4794, 4841, 4850, 4797-4852; parse.c: 105-108 |
| `Cast` | run-time integer conversions | parse.c: 471-605, 488-602, 298-300; emit_x64.c: 2524-2541, 2781-2792, 2836-2904, 2538, 2528-2532; ir.h |
| `CharLit` | character constants | preprocess.c: 884-907; parse.c: 4369-4473, 4405-4458 |
| `Chunk` | splitting a file into top-level declarations | main.c: 2842-3176, 2933-2999, 3057-3067, 3052-3075, 2886-2888, 2916-2918, 3122-3124, 2885-2889, 2891, 2892-2919, 2883-2922, 3005-3029, 2868-2873, 2877-3129, 2855-3176; ast.c; parse.c: 6-32 |
| `CommandLine` | splitting the command line | windows.c: 825-949, 866-870, 853-921, 937-941, 924-949; std.c: 957-969 |
| `Compound` | compound assignment `E1 op= E2` on integers | parse.c: 6997-7246, 7046, 7051, 7111, 7141, 7212, 633-655; emit_x64.c: 4256-4330 |
| `Cond` | comparisons, from the operator to the condition code | parse.c: 6304-6330, 6317-6326; emit_x64.c: 3856-3873, 700-720, 3859-3873, 4180-4192, 1910-1954, 1343-1358; ir.h: 2-19, 512-515 |
| `CondIncl` | the directives for conditional inclusion in `tokenize_and_preprocess` | preprocess.c: 3397-3404, 3637-3913, 4781-4825, 4791-4811, 4784, 3651-3654, 3669-3682, 3694-3731, 3818-3838, 3733-3817, 3839-3886, 3887-3904, 4820-4823 |
| `Crc32` | `crc32` | std.c: 1980-2082, 2008-2041, 2077, 1980-2081 |
| `DebugLines` | line information | parse.c; emit_x64.c; obj_writer.c; ast.c; main.c; preprocess.c; coff_writer.c |
| `Declarator` | `parse_declarator` | parse.c: 9846-10344, 9899-9917, 9892-9920, 6-32, 9991-10028, 9971-10061, 10083-10088, 10249-10318, 10132, 10207-10233, 10167, 10090-10244, 10115-10169, 10116-10165 |
| `Define` | the replacement list of a macro | preprocess.c |
| `DefineTable` | the table of macros (`register_define`, `lookup_define` | preprocess.c: 303-370, 333, 325-337, 319-343, 303-352, 354-370, 4289-4296, 4314, 4150-4297, 4302-4319, 3915-4319, 3885-4540; main.c: 703-708, 2693, 2701-2741 |
| `Embed` | `#embed` | preprocess.c |
| `Encode` | x64 instruction encoding | emit_x64.c: 577-645, 440-470, 486-513, 410, 580-622, 623-643, 669-674, 678-684, 1128-1132, 1176-1192, 1194-1221, 1157-1221 |
| `EntryPoint` | the choice of the entry point | main.c: 4058-4092, 5034-5182, 3561-3612, 355-362, 5079-5083, 3566-3611, 5042-5049, 5049-5062, 4061-4064, 4087-4090, 5104-5112, 4058-4080, 5066-5068, 5083-5096, 5072-5075, 5066-5151, 5064-5152, 5154-5170, 5174-5182, 5357-5405; cli.c: 135-139, 212-217 |
| `Enum` | enumerators | parse.c: 8292-8340, 195-219 |
| `ErrorOrder` | comparison functions used with `sll_sort` | diagnostic.c: 70-118; std.c: 1116-1126; coff_writer.c: 1478-1483 |
| `ExprCode` | the code of integer expressions and assignments | parse.c: 5763-5935, 211-244, 298-605, 6039, 6090, 6196, 6410, 6459, 6508, 6060-6066, 6145-6150, 6238-6241, 6439, 6488, 6537, 6166-6248, 5763-5900, 5908-5935, 6945-6975, 9202, 9532-9543; emit_x64.c: 2560-4414, 734-766, 1273, 1044-1080, 1412, 1265-1369, 1409-1416, 1164-1165, 2098-2106, 2524-2541, 2781-2904, 3228-3246, 1626-1663, 1618-1670, 1745-1752, 1719-1735, 1696-1716, 1678-1804, 2149-2155, 2122-2173, 4160-4168, 4212-4220, 3893, 4199, 2565, 3890-3899, 4196-4205, 4388-4414, 3753-3756, 4175-4178, 2617-4414 |
| `FloatConv` | conversions between integers and floats | emit_x64.c: 2524-2555, 2781-2792, 2900-3225, 4403, 2546-2551, 2906-2985, 2543-2555, 3123-3200, 2988-3225, 3754-3757, 1410-1416, 3172-3174; parse.c: 301-337, 322-328 |
| `FloatFold` | folding comparisons of floating literals | parse.c: 2888-2941 |
| `Fold` | integer literals at compile time, constant folding and literal casts | parse.c: 149-244, 2957-2987, 2947-3029, 2999, 669-683, 5763-5774, 5788-5799, 5829-5836, 5848-5872, 294-420, 6166-6230, 6410-6430, 6459-6479, 6508-6528; ir.h |
| `Format` | the format string of a printlike function | parse.c; std.c |
| `Frame` | the stack frame of a function (`parser_emit_memory_location` | main.c: 2170-2185, 3425, 2178; emit_x64.c: 850-858, 4763-4775, 4727, 4875-4899, 4757-4776, 4792-4840, 4949, 2328-2356 |
| `FuncCode` | the code of functions with control flow | parse.c: 9033-9616, 9603-9616, 9125-9128, 9187, 9070, 9166, 9252, 9325, 9151-9153; main.c: 3425-3436, 3395-3436; emit_x64.c: 2560-4414, 3734-3739, 3692-3696 |
| `Generic` | `_Generic` | parse.c; emit_x64.c |
| `IfExpr` | `static_if_evaluate` | preprocess.c: 2855-3359, 2855-2889, 3089-3133, 3138-3179, 3191-3193, 3195-3268, 2904-2918, 2932-3087, 3308-3357, 3137-3306 |
| `Image` | the writer of executables | coff_writer.c; std.c |
| `Imm` | instructions with immediate operands | emit_x64.c: 1619-1679, 1298-1328, 1651-1660, 1628-1661, 1826-1846, 1597-1607, 3783-3818, 4047-4067, 2524-2541, 2897-2904, 3230-3246 |
| `Include` | include directives | main.c; preprocess.c; std.c |
| `Initializer` | `parse_initializer_list` | parse.c: 2039-2674, 8165-8212, 8193-8207, 8176-8210, 2039-2047, 2049-2060, 2138-2151, 2527-2535, 2537-2543, 2553, 2502, 2525-2601, 2606-2657, 1347-1357, 2214-2372, 2214-2383, 2604, 2479-2498, 2067-2115, 2062-2176, 2062-2674; ast.c: 685-698 |
| `IntLiteral` | integer literals | preprocess.c: 911-936, 910-937, 939-971, 983-999, 976-1012, 1059-1070, 1046-1086, 1107-1126, 1088-1141, 1163-1174, 1158-1181, 1143-1198; parse.c: 4474-4481, 4485-4570, 4572-4671; std.c: 1038-1046 |
| `IntType` | arithmetic types and the usual arithmetic conversions | main.c: 612-618, 540-560; parse.c: 621-630, 699-739 |
| `IntrusiveList` | the list macros | std.c: 254-325, 258-523, 475-523, 309-523, 504-523, 255-523, 255, 258-269, 272-282, 285-292, 296-306, 309-314, 316-325, 475-487, 489-499, 502, 258-325; preprocess.c: 54-57, 96-98 |
| `Jump` | emission and patching of jumps | emit_x64.c: 451-462, 2565, 1962-1965 |
| `Layout` | struct and union layout | parse.c: 7947-8257, 7947-7951, 8142-8150, 8142-8184, 7994-8211 |
| `Leaf` | CodeView numeric leaves | obj_writer.c: 42-90, 42-56, 59-90; coff_writer.c: 74-128; std.c: 755 |
| `Macro` | macro expansion | preprocess.c: 123-200, 1830-2504, 3479-3510, 2240-2299, 2492, 147-148, 142-161, 186-192, 2046-2052, 2201-2203, 1974-1985, 1987-2013, 2058-2135, 2220-2310, 2316-2501, 3488-3510, 2244-2290, 3607-3611; main.c: 717-723 |
| `Md5` | MD5 | std.c; obj_writer.c |
| `Msf` | the writer of multistream files | coff_writer.c |
| `Names` | the table of names in PDB files | coff_writer.c |
| `Object` | the writer of object files | obj_writer.c; std.c |
| `Pack` | `#pragma pack` | parse.c: 1458-1590, 1487-1521, 1474-1479, 1484-1524, 1550-1557, 1528-1589 |
| `ParseOrder` | parsing global declarations in any order | main.c: 3208-3293, 1805-2024, 2060-2168, 2026-2059, 1505-1518, 1454-1503, 1516, 3208-3214, 3223-3228, 3247, 1423-1430, 1835, 1840-2014, 1509, 1510-1517, 2040-2058, 2040-2050, 3252-3292; parse.c: 35-45, 4846, 4848-4851, 2809-2813 |
| `Paste` | the operator `##` | preprocess.c: 3990-4150, 2316-2475, 59-85, 4100-4140, 3998-4150, 3980-3983, 4020, 4046, 4070, 4085, 4125, 2385-2410, 2362-2411, 2413-2430, 2434, 2436-2465, 2326-2468 |
| `Path` | file paths | std.c: 1514-1656, 950-952, 1514-1517, 1523-1528, 1554-1565, 1567-1572, 1577-1579, 1574-1589, 1550-1606, 1609-1615, 1608-1617, 1619-1627, 1630-1636, 1629-1641, 1644-1655 |
| `PdbSymbols` | the symbols in PDB files | coff_writer.c; obj_writer.c |
| `Pointer` | pointer arithmetic | parse.c: 1732-1815, 1779-1794, 1762-1778, 6105-6126 |
| `Print` | arguments of printlike functions | parse.c; ast.c |
| `Reach` | the search for reachable declarations | main.c: 5461-5596, 5549-5563, 5467-5588, 5494-5498, 5465, 5476-5488, 5519-5578, 5491, 5501-5506, 5580-5587, 5465-5593; ast.c: 537-576, 562, 756 |
| `Redefine` | parsing a macro definition and comparing it to the previous one | preprocess.c: 3915-4276, 59-86, 43-52, 4033-4038, 4100-4138, 3996-4148, 3980-3983, 4191-4221, 4185-4240, 4184-4249, 4256-4274, 4179-4276, 3915-4298 |
| `RegAlloc` | the register allocator | emit_x64.c: 766-1125, 941-962, 734-766, 860-924, 926-938, 982-996, 1004, 1011, 965-1024, 768-792, 850-858, 1044-1080, 1026-1042, 4713-4730 |
| `Returns` | the analysis behind "must return a value" | parse.c: 9033-9797, 9219, 9151-9153; main.c: 3425-3452, 3427-3452 |
| `Roots` | which functions become roots | parse.c: 8669-8846, 8826-8845, 4880-4917; main.c: 1833, 1985-2000, 2026-2061, 5404-5413 |
| `Scope` | the scopes of a function | main.c: 1563-1596, 1757-1763, 1743-1766, 1736-1767, 1732-1771, 1776-1800, 1726-1801, 1569-1581, 3332-3333, 1805-1810; parse.c: 818-846, 8784-8788, 818-840, 842-846, 8667 |
| `Scopes` | the scopes of local variables in PDB files | parse.c; main.c; emit_x64.c; coff_writer.c; obj_writer.c; ast.c |
| `Seh` | tables of exception handlers | parse.c; emit_x64.c; obj_writer.c; ast.c |
| `ShortCircuit` | IR of `&&`, `||`, `!`, `?:` and `,` | parse.c: 5787-5825; ir.h: 10-160 |
| `Shuffle` | the order of declarations under `-seed` | main.c: 3179-3201, 3191, 3188-3195, 3198-3200; std.c: 1792-1797, 1809-1813 |
| `Sleeper` | the table of sleeping declarations | main.c: 1325-1518, 3208-3293, 1337, 1339, 1343, 1350, 1353, 1355-1364, 1366-1381, 1387, 1396, 1456, 1401, 1460, 1411-1415, 1469-1481, 1442, 1470, 1444, 1472, 1421, 1433, 1426, 1484, 1491, 1514, 1516, 1375-1380, 3247, 2021, 2167, 1407, 1432; parse.c: 2751 |
| `Sort` | `sll_sort` | std.c: 336-467, 395-421, 360-462 |
| `Spinlock` | the ticket lock | std.c: 1753-1775, 1768, 1753-1756, 1767, 1774; windows.c |
| `StaticInit` | static initializers | main.c; coff_writer.c; obj_writer.c; ir.h; emit_x64.c; parse.c |
| `StaticTable` | which names are local to a file | main.c: 1282-1313, 2937-2999, 383-389, 4890-4892, 2942-2966, 2972, 2969-2999, 1288-1311; parse.c: 8517-8529, 8593-8601, 8564-8601, 8685, 8895 |
| `Stmt` | IR of statements | parse.c: 9033-9797, 9125-9128, 9151-9153; main.c: 3400-3436, 3407-3424, 3398-3436 |
| `StringLit` | string and character literals | preprocess.c: 435-880, 435-465, 499-506, 538-560, 518-536, 468-567, 579-583, 604-613, 570-616, 733-742, 724-769, 789-803, 698-708, 719, 710-775, 650-880, 619-643; parse.c: 4369-4473, 4674-4756, 4698, 4731, 4724; std.c: 1088-1104, 1236-1246, 1332-1338 |
| `Stringize` | the operator `#` | preprocess.c: 2041-2206, 3930-3970, 4066, 2046-2056, 2041-2056, 2069-2076, 2106-2109, 2135-2206, 2058-2133 |
| `ToU64` | `string_to_u64` | std.c: 1667-1686, 983-988 |
| `Tokenize` | `tokenize_raw` | preprocess.c: 1202-1810, 2655-2684, 387-418, 1712-1733, 1653-1687, 1506-1516, 1556-1575, 1599, 1601, 1778-1788, 1307-1330, 1502-1527, 1283-1290, 1652-1741, 1282-1792, 1249-1798, 2693-2704; std.c: 1380, 959-961, 971-973, 975-977 |
| `TypeEq` | comparing types | parse.c; main.c; ast.c |
| `TypeSpec` | type specifiers (`parse_declaration_specifiers` | parse.c: 7548-8530, 8376-8384, 7791-7813, 7566-7583, 7575, 7549-7583, 7782-7813, 7601-8410, 8432-8494, 8415-8496, 7548-8496 |
| `TypeString` | the names of types in messages, `push_type_string` | main.c: 1049-1180, 1122-1125, 1051-1162, 1128-1133, 1166-1180 |
| `Unwind` | prologs and the information for unwinding | emit_x64.c; obj_writer.c; std.c |
| `Utf16` | `utf16le_to_utf8` | std.c: 2161-2210, 2166-2180, 2186-2200 |
| `WorkQueue` | the work queue | main.c: 1202-1275, 1262-1263, 1211, 1216, 1223, 1227, 1249, 1257, 1262, 1263, 1241, 1202-1235, 1245-1267 |

## Simplifications that concern several models

* Memory is sequentially consistent; accesses to single words are atomic. The bound on the number of
  iterations of the probe loops of the hash tables is not modelled (C27-C29).
* The work queue is atomic in the model of sleeping declarations (C29); its own model is C30.
* Assertions are on and are an outcome of their own.
* Memory for arenas and tables does not run out, and 64-bit sizes do not overflow (C39).
* Conditional inclusion is about one file, without `#include` (C09); conditions are without character
  literals and `__has_include` (C07).
* White space in macro definitions is dropped (C53).
* The bytes after the end of a source text are zero (C05).
* Expressions are parsed from classified tokens: whether a name is a type, an object or a constant is
  known before; types are not checked (C19).
* Operands of short-circuit operators and statements are opaque actions on a state (C56, C59, C60).

## Not modelled

Emission of most IR nodes (calls, `memcpy`-like operations, intrinsics, floating-point arithmetic), inline
assembly, structured exception handling, `_Generic`, `#include` lookup and `#embed`, debug information except
numeric leaves and hashes, PE/COFF layout, archives, the file system and the operating system, timing, weak
memory. A property in `properties.jsonl` that has no entry in `MANIFEST.json` has not been modelled yet.

## Findings

Places where the code violates a property. Each is a theorem with a concrete witness.

| property | finding | theorem |
|---|---|---|
| C01 | the overflow test of octal literals uses a wrong mask: correct literals are warned about | `C01_octal_spurious_overflow_warning` |
| C01 | decimal literals above 2^64 can wrap without a warning | `C01_decimal_missed_overflow` |
| C03 | UTF-16: the low surrogate starts at 0xDD00; line splices inside escapes are not removed | `C03_utf16_wrong`, `C03_splice_wrong` |
| C04 | after a reported error the conversion of a string literal can run into an assertion | `C04_past_end_after_error` |
| C05 | pasting `##` of more than eight tokens overruns the token buffer | `C05_paste_too_many` |
| C06 | digraphs are not recognised | `C06_digraph_wrong` |
| C07 | tokens after a complete `#if` condition are accepted | `C07_garbage_accepted` |
| C08 | type of `!`, of shifts and of `?:`, the literal 2^63-1, and unevaluated divisions by zero differ from C11 | `C08_conditional_type`, `C08_not_keeps_type`, `C08_shift_count_changes_type`, `C08_largest_is_unsigned`, `C08_unevaluated_division` |
| C09 | the null directive `#` in a disabled block resumes output | `C09_null_directive_wrong` |
| C13 | anonymous bit-fields can overlap others or fail an assertion; bit-fields in unions are not at offset 0 | `C13_anonymous_bitfield_overlap`, `C13_anonymous_bitfield_assert`, `C13_union_bitfield_not_at_zero` |
| C16 | folding `INT_MIN / -1`, shifts by the width and negations of the minimum is undefined in the compiler itself | `C16_min_div_minus_one_host_ub`, `C16_shift_by_width_host_ub`, `C16_negate_unsigned_host_ub`, `C16_min_result_host_overflow` |
| C17 | folded comparisons of floating literals that are false give 1 | `C17_false_comparison_wrong` |
| C18 | `(int)(unsigned char)(0, 300)` is 300: an immediate that was not folded keeps its value when it is truncated | `C18_immediate_wrong` |
| C19 | an opening bracket at a full operator stack (1024) is parsed without a guard | `C19_full_stack_wrong` |
| C19 | `(struct s)a = b` and `++(struct s)a` are accepted | `C19_struct_cast_wrong` |
| C20 | `/=` and `%=` with mixed signedness, `>>=` on negative bit-fields | `C20_signed_by_unsigned_wrong`, `C20_narrow_negative_divisor_wrong`, `C20_narrow_min_traps`, `C20_small_literal_wrong`, `C20_bitfield_shift_wrong` |
| C21 | a literal pointer plus a literal is not scaled; negative pointer differences divide unsigned | `C21_both_literal_unscaled`, `C21_negative_difference_wrong` |
| C23 | enumerators wrap silently past INT_MAX | `C23_overflow_not_diagnosed`, `C23_large_explicit_not_diagnosed` |
| C25 | static initializers of bit-fields with negative values spill into other fields | `C25_unmasked_value_wrong` |
| C28 | a declaration can be registered twice when the table grows during the insertion | `C28_growth_admits_two_winners` |
| C29 | a wake-up is lost when the table of sleepers grows at the wrong moment | `C29_growth_loses_wakeup` |
| C30 | an entry that is re-used while an old pop is in flight is delivered twice (ABA) | `C30_reused_entry_delivered_twice` |
| C32 | an exported function that has an earlier declaration is not emitted unless it is reached otherwise; an exported `inline_asm` function is emitted | `C32_exported_after_prototype_wrong`, `C32_exported_inline_asm_wrong` |
| C33 | with `-dll -subsystem:console` an existing `DllMain` is ignored without a message | `C33_dll_subsystem_wrong` |
| C34 | memory operands with base r12, and r13 without offset, are encoded wrongly | `C34_r12_wrong`, `C34_r13_wrong` |
| C36 | with a NaN operand `==`, `!=`, `<` and `<=` are wrong | `C36_nan_correct_iff` |
| C37 | a store to a 64-bit wide bit-field shifts by 64 in the compiler | `C37_width_64_host_ub` |
| C38 | `_Alignas` on a small variable and alignments above 16 are not honoured | `C38_alignas_char_wrong`, `C38_overaligned_wrong` |
| C42 | even supplementary planes are converted wrongly: U+20000 becomes U+10000 | `C42_even_plane_wrong` |
| C44 | the empty string, `:` as a digit and anything after `0x` are accepted as numbers | `C44_colon_accepted`, `C44_hex_garbage_accepted` |
| C47 | numeric leaves below -32768 have a gap in them | `C47_signed_wrong` |
| C24 | `int a[][2] = {1, 2, 3,};` makes the array one element too small; `char a[3][1] = {"a", "b", "c"};` is rejected | `C24_trailing_comma_wrong`, `C24_char_matrix_wrong` |
| C24 | After a designator for a member of an unnamed structure in an unnamed union, the next initializer goes to the member after the union, or is rejected in a union | `C24_nested_anonymous_wrong`, `C24_union_designator_wrong` |
| C24 | `struct {int x, y;} a[] = {[5].x = 1, [0].y = 2};` makes an array of 8 bytes and writes at byte 40 | `C24_designated_size_wrong` |
| C24 | `{.a[0] = "abc", 5}` is accepted for `struct {char a[4]; int b;}`, and 5 is written to `a[0]` | `C24_first_string_wrong` |
| C48 | functions in the old style (`int f(a) int a; { }`) are split after the first parameter declaration | `C48_declaration_list_wrong` |
| C50 | `static int f(void); int f(void), g(void);` marks `g` static; an `inline` definition after an external declaration is marked static; names inside `_Alignas(…)` count as declared | `C50_later_declarator_wrong`, `C50_inline_definition_wrong`, `C50_alignas_wrong` |
| C53 | `#a` and `#b`, `a##x` and `a##y` count as the same definition | `C53_stringified_parameter_ignored`, `C53_pasted_token_ignored` |
| C54 | a static assertion that is parsed before a name it needs is silently not checked; `int a = 1, b[sizeof(struct s)];` before `struct s` reports a redefinition of `a`; a declaration that sleeps on the size of `char a[] = "abc";` is never woken up | `C54_static_assert_wrong`, `C54_definition_wrong`, `C54_string_array_wrong` |
| C65 | with `#define f(x) x` and `#define g f( (g)`, the line `g )` makes the compiler recurse without end; with `#define f(x) f` and `#define id(x) x`, `id(f(1)(2))` gives `f` instead of `f(2)` | `C65_diverges_wrong`, `C65_argument_wrong` |
| C66 | `a##b##c` with empty `a` and `b` joins `c` with the token before the chain, or reads outside of the macro; `L ## #x` joins `L` with `#`; `x ## ##` is accepted; pasting with nothing makes a name available for replacement again | `C66_chain_wrong`, `C66_hash_wrong`, `C66_end_wrong`, `C66_fixed_wrong` |
| C67 | `#__VA_ARGS__` without an argument for `...` is an uninitialized string; a single quote in a literal gets a backslash | `C67_omitted_wrong`, `C67_quote_wrong` |
| C68 | the type of a parameter `int (T)` depends on whether a typedef `T` from anywhere in the program has already been parsed | `C68_order_wrong` |
| C69 | the name of a variadic function type lacks `...`, so it denotes another type | `C69_variadic_wrong` |
| C70 | a `double` argument that is in `rcx` when it is expected in `xmm1` (or `rax`/`xmm0`, `rdx`/`xmm2`) is left there: an assertion fails, or without assertions the function reads another value | `C70_float_in_gpr_wrong` |
| C71 | a `float` of 2^31 or more converted to a small unsigned type or a `double` of 2^63 or more converted to `u64` gives another number | `C71_float_to_unsigned_wrong`, `C71_double_to_u64_wrong` |
| C71 | `(int)(y = x)` for floats converts the wrong register: the value of the assignment is in a general purpose register | `C71_assigned_wrong` |
| C71 | `-0.0` in memory is true in a condition; NaN in a float register is false | `C71_minus_zero_wrong`, `C71_nan_wrong` |
| C71 | `(unsigned)-0.5` and `(_Bool)-1.0` with literals are errors | `C71_negative_literal_wrong` |
| C71 | the cast from `u64` takes a register between a jump and its target; the instruction that saves the value in it is skipped for operands below 2^63 | `C71_branch_spill_wrong` |
| C72 | an expression with more than 256 pending operands is written past the end of `emit_location_stack` | `C72_stack_wrong` |
| C72 | `-0x80000000u` negates the smallest `int` in the compiler | `C72_compiles_wrong` |
| C74 | `char *p = &"abc"[1];` points to the `a` in executables | `C74_string_offset_wrong` |
| C74 | `.s = "abcdef", .s = "xy"` leaves `def` in the array; `.s = {1, 2}, .s = {3}` leaves the 2 | `C74_shorter_string_wrong`, `C74_shorter_list_wrong` |
| C74 | `.p = &y, .p = 0` gives `&y`; `.p = &y, .p = &z` adds both addresses in object files | `C74_overridden_address_wrong`, `C74_two_addresses_wrong` |
| C74 | `5 - (long long)&y` and `(long long)&y + (long long)&y` are accepted with wrong values; `&a[&c - &c]` dereferences a null pointer in the compiler | `C74_number_minus_address_wrong`, `C74_sum_of_addresses_wrong`, `C74_difference_as_index_wrong` |
| C77 | `int f(int)` and `int f(int, ...)` match; `int (*)[]` and `int (*)[3]` do not; pointers to a `struct x` and a `union x` that are nowhere defined match | `C77_variadic_wrong`, `C77_unknown_size_wrong`, `C77_kind_wrong` |
| C58 | reports at the same position are printed in the order of the threads | `C58_same_position_not_deterministic` |
| C57 | `p++` with a type of 2 GiB or more moves the pointer backwards | `C57_pointer_increment_wrong` |
| C60 | no warning for functions that fall off the end through `break` or `continue` in `do`, or through labels in code considered dead | `C60_do_break_wrong`, `C60_do_continue_wrong`, `C60_label_wrong`, `C60_case_wrong` |
| C62 | lines are miscounted after a newline in a character literal | `C62_character_literal_wrong` |
| C64 | constants of three, five, six or seven characters read uninitialised memory | `C64_three_characters_wrong` |
| C76 | frames of 512 KB and more are described wrongly: the size is aligned to four bytes and lies two bytes after the place where Windows reads it; functions with frames of 16 MB cannot be unwound | `C76_large_frame_wrong` |
| C78 | the header of 60 bytes is left out of the check that a member ends before the file: in a library that was cut off, up to 60 bytes behind the file are read | `C78_past_end_wrong` |
| C78 | `/ALTERNATENAME:a=b` together with `/ALTERNATENAME:b=a` makes the compiler run forever if neither is defined | `C78_alternate_cycle_wrong` |
| C79 | initialized objects with an alignment of more than 512 bytes are not aligned in executables, as positions in the file are aligned instead of addresses | `C79_data_aligned_wrong` |
| C79 | `_Thread_local char a; _Thread_local int b;`: the copies of `b` can be misaligned, as the storage starts at the alignment of its first variable | `C79_tls_aligned_wrong` |
| C79 | `u""` shares its bytes with `"\0"`, which can be at an odd address | `C79_wide_string_aligned_wrong` |
| C79 | `static char *p = "ABC" + 2;` points to the start of the string (see C74) | `C79_absolute_wrong` |
| C80 | object files: the symbols of unwind information assume that the unwind information of every function has the size of that of the first one; with functions that save different numbers of registers, the unwinder uses the wrong information | `C80_unwind_wrong` |
| C80 | object files: initialized objects with an alignment of more than 16 bytes are not aligned, as positions in the file are aligned instead of offsets in the section | `C80_aligned_wrong` |
| C80 | object files: `__declspec(selectany) int *p = &x;`: the relocation is put into `.data` instead of the section of `p`, so `p` is null and other objects are corrupted | `C80_selectany_wrong` |
| C80 | object files: a tentative definition of an empty structure is written as an undefined symbol | `C80_tentative_wrong` |
| C82 | enumerators below -32768 are not found by name in PDB files: the two bytes skipped before the value (C47) shift the name | `C82_globals_wrong` |
| C83 | `#include_next` compares paths without regard to separators: a file of `C:/inc` is taken for one of `C:/i`, and includes itself | `C83_next_wrong` |
| C83 | a file with `#pragma once` is included again if the directive has another path for it, as `s/../y.h` | `C83_once_wrong` |
| C85 | if the body of a function starts with an include directive, lines of the included file are recorded as lines of the outer file, and the lines of the outer file are not recorded | `C85_wrong` |
| C86 | `char c = 0xffffffffffffffff;` and `unsigned long long u = -1;` give no truncation warning | `C86_truncation_wrong` |
| C86 | a pointer cannot be assigned to a bit-field of type `_Bool` | `C86_bool_wrong` |
| C86 | `_Bool b = -1.0;` and `unsigned u = -0.5;` are errors, though C defines both | `C86_negative_wrong` |
| C88 | a function with `__try`/`__finally` makes the compiler read from a null pointer when it writes the table of handlers | `C88_finally_wrong`, `C88_finally_never` |
| C89 | when many names have hashes close to 2^32, the index wraps at 2^32 and not at the number of buckets; some names are then not found | `C89_found_wrong` |
| C90 | `print("{:*}", 5, s)` passes the width once, but the format string has it for every member of `s` | `C90_star_wrong` |
| C90 | printing a structure with an array without elements reads its first element | `C90_flexible_wrong` |
| C90 | printing an empty structure reads a member that does not exist | `C90_empty_wrong` |
| C91 | `_Generic(1, int: 1, float: 2.0f)` has no code: an association with another type after the selected one discards its instructions | `C91_code_wrong`, `C91_lost` |
| C91 | `_Generic(1, float: a(), default: b(), int: c())` executes `b()` and `c()` | `C91_both` |
| C92 | `#embed "f" prefix(1,) suffix(,0)`: whitespace after a parameter ends the list of parameters, the rest is only a warning about junk | `C92_space_wrong` |
| C92 | `#embed "f" suffix((1))` emits `(1`: a parameter ends at the first closing parenthesis | `C92_nested_wrong` |
| C93 | `print("{*p")` is text, but an argument is read for the `*`: an error if there is none, otherwise a later specifier gets the wrong one | `C93_star_wrong` |
| C94 | `#define HASH #` is an error, although `#` is a token like others in object-like macros | `C94_object_wrong` |
| C94 | `#define WIDE(x) L ## #x` pastes `L` and `#` and expands `x` | `C94_paste_wrong` |
| C95 | `[rax - 8]` in inline assembly is read as `[rax + 8]`: the expression begins at the `-`, and is negated once more | `C95_minus_wrong` |
| C95 | `[rax + 4*rcx]` and `[rax + 4*rcx + 8]` are errors, `[rax + 4*rcx +]` is accepted | `C95_index_wrong` |
| C95 | `[rax + 4*2]` is an error | `C95_product_wrong` |
| C95 | `[eax]` is read as `[rax]` | `C95_narrow_wrong` |
| C95 | `[0x10]` has no base: the code reads `emit_location_map[-1]` | `C95_absolute_wrong` |
| C96 | `rep movsd` in inline assembly is emitted without the prefix: it moves only one dword | `C96_rep_wrong` |
| C96 | `bytes { zz 4g }` is accepted and emits `00 04` | `C96_digits_wrong` |
| C97 | `cmpgeps`, `cmpgtps` and the like are aliases of `cmpnltps` and `cmpnleps`: they are true if an operand is not a number, and `cmpngeps`, `cmpngtps` false | `C97_greater_wrong` |
