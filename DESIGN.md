# Formal model of SourcePawn (VM and compiler core) in Lean 4

Source: /repo (alliedmodders/sourcepawn, pinned).  The code is never built or run; the tie between
model and code is the file/line citation on every definition.

## Layout

* `lean/Verif/Model/*`  – executable definitions, one file per component, each definition citing
  the file and lines it models and every simplification it makes.
* `lean/Verif/Proofs/*` – helper lemmas.
* `lean/Verif/Props/*`  – the property theorems only (one file per group), each with a
  non-vacuity `example` beside it.  Small independent specifications live at the top of these files
  (or in `lean/Verif/Spec/*`).

## Conventions

* A cell is a 32-bit two's complement number.  Where wrap-around matters it is `BitVec 32`; VM
  registers that are used as addresses are `Int` values passed through an explicit `wrap32`.
* Signed overflow in C++ is undefined; the interpreter relies on wrap-around throughout and we model it as
  wrap-around, saying so at each place.  Shifts by a negative or too large amount, accesses
  outside an allocated buffer and reads of uninitialised results are a distinct outcome `ub`.
* An operation returns `ok state`, `fail state error` (the error the code reports together with the
  state it leaves behind) or `ub`.
* Floating point arithmetic, the JIT back ends other than what `Model/Jit` covers, OS services
  (mmap, threads, files), zlib and the hash functions of hash tables are not modelled.

## Trusted base

* Lean 4.33.0's kernel.  No axioms beyond Lean's own `propext`, `Classical.choice` and `Quot.sound`; no compiled evaluation.  The axioms
  each property theorem depends on are listed at the end of this file (from `#print axioms`).
* The reading of the C++ source recorded in the comment of each definition in `Verif/Model`.  Nothing checks it mechanically: the code is
  neither built nor run.
* The statements of the theorems in `Verif/Props` and the specifications in `Verif/Spec`.

## What is modelled

| part of the code | model | used by |
|---|---|---|
| vm/plugin-runtime.cpp, memory operations: heap, stack, frames, heap scopes, tracker, address checks | `Model/Mem` | C01–C06 |
| vm/plugin-runtime.cpp Invoke | `Model/Invoke` | C07 |
| vm/interpreter.cpp, all instructions (float arithmetic as a parameter); vm/pcode-reader.h; include/smx/smx-v1-opcodes.h | `Model/Insn`, `Model/Interp` | C08, C15–C17, C38, C39, C54, C57 |
| vm/plugin-runtime.cpp arrays and strings | `Model/Arrays`, `Model/Strings` | C09–C14 |
| vm/graph-builder.cpp, vm/control-flow.cpp, vm/method-verifier.cpp | `Model/Graph`, `Model/Cfg`, `Model/Verifier` | C18–C25, C58, C60 |
| include/utils/bitset.h | `Model/BitSet` | C26 |
| vm/plugin-runtime.cpp natives, publics | `Model/Runtime` | C27, C28 |
| vm/smx-image.cpp lookups, container validation, section readers; libsmx builder; decompression header logic | `Model/Lookup`, `Model/Smx` | C29–C33, C55 |
| libsmx/smx-encoding.h, compiler/rtti-builder.cpp, vm/rtti.cpp | `Model/Rtti` | C34–C36 |
| vm/x64/assembler-x64.h: operands and all methods without label or address arguments | `Model/X64Asm` | C61, C62 |
| vm/x64/jit_x64.cpp: the code for instructions that fall through and need no host helper | `Model/Jit` | C62 |
| vm/jit.cpp (emit, visitJUMP, error thunks, throw paths), vm/x64/jit_x64.cpp (visitJcmp, visitSWITCH, emitThrowPath); prologue, calls, RETN and handler bodies are a parameter | `Model/JitFlow` | C65 |
| vm/environment.cpp (SwapLoopEdge, PatchAllJumpsForTimeout, UnpatchAllJumpsFromTimeout, for one method), vm/compiled-function.h (LoopEdge), vm/jit.cpp (the stored edges) | `Model/JitEdges` | C66 |
| vm/label.h, vm/x64/assembler-x64.h (labels, rip-relative operands, address table), vm/x64/assembler-x64.cpp | `Model/X64Link` | C64 |
| vm/x64/jit_x64.cpp: emitPrologue, visitCALL, visitRETN; vm/x64/macro-assembler-x64.cpp frames | `Model/JitCall`, on `Spec/X64Frames` | C68 |
| vm/stack-frames.cpp: JitFrameIterator; vm/x64/frames-x64.h; vm/compiled-function.cpp: FindCipByPc; vm/jit.cpp: find_entry_fp | `Model/JitTrace` | C69 |
| compiler/lexer.cpp: HandleDirectives (conditionals, includes, `#endinput`), HandleSkippedSection, HandleEof, PlungeFile, by lines | `Model/Cond` | C63 |
| compiler/semantics.cpp, expressions.cpp, code-generator.cpp for integer expressions, statements and functions | `Model/CodeGen`, `Model/StmtGen` | C37–C39, C57, C60 |
| compiler/label.h, smx-assembly-buffer.h | `Model/Labels` | C40 |
| compiler/array-helpers.cpp, sizes, validation and emission of initialisers | `Model/ArrayInit` | C41 |
| compiler/lexer.cpp literals | `Model/Lexer` | C42–C44, C56 |
| compiler/parser.cpp expressions | `Model/ExprParser` | C59 |
| compiler/source-manager.cpp, source-file.cpp | `Model/Source` | C45 |
| vm/md5/md5.cpp | `Model/Md5` | C46 |
| vm/watchdog_timer.cpp | `Model/Watchdog` | C47 |
| vm/watchdog_timer.cpp, vm/environment.cpp (patching of all methods), vm/jit.cpp (Compile, CompileFromThunk), vm/method-info.cpp (setCompiledFunction) | `Model/TimeoutPatch` | C67 |
| include/sp_callable.h, vm/scripted-invoker.cpp | `Model/CallArgs` | C48 |
| vm/code-allocator.cpp, utils/pool-allocator.h, utils/byte-buffer.h | `Model/Alloc` | C49, C50 |
| vm/environment.cpp error texts and exception scopes | `Model/Errors` | C51, C53 |
| compiler/code-generator.cpp stack usage | `Model/StackUsage` | C52 |
| compiler/name-resolution.cpp, symbols.cpp, sema scopes: variables, constants, enums, functions, statements | `Model/Names` | C70 |
| compiler/name-resolution.cpp: FunctionDecl::EnterNames, CanRedefine | `Model/FunDecl` | C71 |
| compiler/semantics.cpp: CheckReturnStmt, CheckFunctionReturnUsage | `Model/Returns` | C72 |
| compiler/semantics.cpp: DeduceLiveness, DeduceMaybeUsed, TestSymbol (functions); symbols.cpp: markusage | `Model/Liveness` | C73 |
| compiler/type-checker.cpp; expressions.cpp: matchtag (signatures), functag_compare; semantics.cpp: CheckTernaryExpr, array assignment | `Model/Types` | C74, C75 |
| compiler/name-resolution.cpp: EnumStructDecl::EnterNames; types.cpp: CellStorageSize; semantics.cpp: CheckIndexExpr, CheckEnumStructFieldAccessExpr; code-generator.cpp: EmitIndexExpr, EmitFieldAccessExpr | `Model/Storage` | C76 |
| compiler/lexer.cpp: SkimUntilEndOfLine, SkimMacroArgument, PerformMacroSubstitution, EnterMacro, LexSymbolOrKeyword, LexNewToken, HandleEof (macros; the lengths of other tokens and of white space are parameters) | `Model/Macro` | C77 |
| compiler/parser.cpp parse_call, compiler/semantics.cpp CheckCallExpr, CheckArgument (which argument goes where; types are a parameter), compiler/parse-node.cpp FindNamedArg | `Model/Binding` | C78 |
| compiler/code-generator.cpp EmitStmt, EnterHeapScope, LeaveHeapScope, EmitLoopControl and the loops, compiler/semantics.cpp heap ownership and flow types, vm/plugin-runtime.cpp enterHeapScope, leaveHeapScope (code as a tree, expressions as the amounts they take) | `Model/HeapScope` | C79 |
| compiler/code-generator.cpp (EmitVarDecl, EmitGlobalVar, EmitPstruct, the addresses in EmitRvalue and EmitStore), compiler/data-queue.cpp, compiler/smx-assembly-buffer.h (address) | `Model/DataSection` | C80 |
| compiler/code-generator.cpp (EmitExpr, EmitUnary, EmitIncDec, EmitBinary, EmitStore, EmitRvalue, EmitLocalVar, EmitStmt and AcquireTempSlot, for int64), vm/method-info.cpp (BuildLocalOffsetTable) | `Model/Long` | C81 |
| compiler/code-generator.cpp (EmitLocalVar: scalars without a value or with a constant, arrays and enum structs; without `new`) | `Model/LocalVar` | C82 |
| `compiler/errors.cpp`, `compiler/main.cpp` (`RunCompiler`) | `Model/Reports` | C83 |
| `compiler/lexer.cpp` (`FindNextToken`, `LexIntoToken`, `LexSymbolOrKeyword`, `LexFunctionBody`, `LexInjectedToken`) | `Model/Tokens` | C84 |
| `compiler/lexer.cpp` (`lex`, `lexpush`, `lexpop`, `match`, `peek_same_line`, `HandleNewline`, `InjectCachedTokens`) | `Model/Lines` | C85 |
| `compiler/name-resolution.cpp` (`MethodmapDecl`), `compiler/parse-node.cpp` (`FindMember`), `compiler/semantics.cpp` (member access, `new`, `delete`), `compiler/expressions.cpp` (`HasTagOnInheritanceChain`) | `Model/Methodmap` | C86 |
| `compiler/parser.cpp` statements and declarations of variables | `Model/StmtParser`, on `Model/ExprParser` | C87 |
| `compiler/name-resolution.cpp` EnumDecl, ConstDecl; `compiler/parser.cpp` parse_enum | `Model/EnumDecl` | C88 |
| `compiler/code-generator.cpp` EmitFunctionDecl, EmitCall, AddFunctionEntry, AddNativeEntry; `compiler/rtti-builder.cpp` methods and natives; `vm/smx-image.cpp` GetMethodRttiByOffset | `Model/FunTable`, on `Model/Labels`, `Model/Smx` and `Model/Lookup` | C89 |
| `compiler/code-generator.cpp` AutoEnterScope, EnqueueDebugSymbol, AddDebugSymbols, EmitChangeScopeNode; `compiler/rtti-builder.cpp` AddDebugVar, add_method, finish_method; `vm/smx-image.cpp` validateDebugVariables, validateDebugMethods | `Model/DebugVars` | C90 |
| `compiler/semantics.cpp` CheckUnaryExpr, BinaryExprChecker, CheckChainedCompareExpr, BuildSimpleCast; `compiler/coercion-rules.cpp`; `compiler/code-generator.cpp` EmitUnary, EmitIncDec, EmitBinary, EmitChainedCompareExpr, EmitTest, for floats | `Model/FloatExpr` | C91 |
| `compiler/name-resolution.cpp` Bind of names, declarations, blocks, functions and `#pragma unused`; `compiler/semantics.cpp` Analyze, CheckBlockStmt, CheckPragmaUnusedStmt, TestSymbol, TestSymbols | `Model/Unused` | C92 |
| `compiler/semantics.cpp` CheckAssignmentRHS, CheckArgument, CheckReturnStmt, CheckCastExpr, CheckTernaryExpr; `compiler/type-checker.cpp` Check, CheckValueType; `compiler/expressions.cpp` matchtag: the messages about types of values | `Model/Convert` | C93 |
| `compiler/lexer.cpp` PlungeFile, OpenFile, SynthesizeIncludePathToken; `compiler/source-manager.cpp` Open; `compiler/source-file.cpp` Open; `compiler/parser.cpp` (`#include`): which file an include reads; paths as in POSIX, and the file system fixed | `Model/Include` | C94 |

Not modelled: the JIT back ends for x86 and arm64, natives, code stubs and patched call thunks of the x64 one, floating-point arithmetic (an arbitrary interpretation in the
interpreter), the debugger and profiler hooks, files, threads other than the watchdog's two, zlib, hash tables (maps are functions or
association lists), name resolution of types, the type checker beyond what is cited, strings and references in compiled
code, declarations of types and functions in the parser, and everything in the compiler that is only about reporting.

## Where the code does not keep a property

Each line names the theorem that proves it of the model.  The general statement is then proved with the hypothesis that excludes the case
(suffix `_partial`).

* Memory.  `C01_heap_overflow_accepted`: a heap request close to INT_MAX wraps and is granted.  `C01_forged_frame_leaves_memory`: a script that
  overwrites its saved frame pointer makes the VM leave its memory.  `C11_margin_underflow`, `_ub`: the stack margin check of array creation
  underflows.  `C11_legacy_failure_moves_heap`: a failed creation of a legacy array leaves the heap pointer moved.  `C12_unaligned_overrun`:
  INITARRAY at an unaligned address runs up to three bytes past the end of memory.  `C14_one_byte_buffer_corrupts`: a UTF-8 copy
  into a one-byte buffer overwrites the byte in front of it.  `C14_empty_text_reads_before_memory`: copying an empty text to address 0 reads
  the byte in front of plugin memory.
* Watchdog.  `C66_hidden_loop`: a loop whose only way back, in the order of compilation, is a conditional jump that does not jump is accepted by
  the verifier and cannot be stopped once compiled (the same goes for switches); the project's compiler does not write such code.
  `C67_compiled_during_timeout`: a method that is being compiled while a timeout is declared is linked with its loops not redirected, runs for
  ever, and is redirected when the timeout is handled, so that it reports one that nobody declared.  `C67_woken`: after a spurious wakeup the
  next declared timeout undoes the redirection.
* Natives.  `C08_replacement_ignores_count`, `C20_replacement`: a native replaced by an instruction ignores the number of arguments pushed.
* Verifier.  `C18_negative_table`, `C19_negative_table_diverges`, `C58_negative_table_overflows`, `C58_negative_table_leaves`: negative counts in case tables.  `C20_locals_not_counted`, `C20_genarray_below`,
  `C21_break_bug`, `C21_heap_amount`, `C22_unaligned`: accepted methods that break the stack, heap or data discipline.
  `C23_entry_cycle_repeats`: the block order when the entry is a jump target (the graph builder excludes it).
* Files.  `C31_empty_tail_rejected`, `C32_unused_section_unchecked`, `C55_data_offset_unchecked`, `C55_compressed_size_wraps`,
  `C55_short_code_section`, `C55_short_rows`.
* Types.  `C34_overlong_accepted_then_undefined`, `C35_method_signature_misread`, `C35_fifty_arguments_rejected`, `C36_doubled_prefix`,
  `C36_doubled_marks`, `C36_overlong_index`.
* Compiler.  `C37_constant_conditional_rejected`, `C37_conditional_reads_uninitialised`, `C37_compiler_overflow`; `C41_int64_short`,
  `C41_int64_ellipsis`, `C41_char_braces`, `C41_struct_too_many`, `C41_field_char_braces`, `C41_size_wraps`; `C44_overlong`, `C44_beyond`,
  `C45_huge_file`, `C52_other_chain`, `C52_later_entry_first`, `C52_pragma_wraps`, `C56_unicode_throws`, `C56_unicode_dropped`,
  `C56_decimal_overflow`; `C59_named_default`.
* x64 assembler.  `C61_excluded_calls_are_wrong`: `addq(rax, imm)` and its siblings with an immediate beyond a byte lack the REX.W prefix
  (32-bit operation); `movw` lacks the operand size prefix (writes four bytes, used by STRB_I); `movd` from a float register and `xorps`
  exchange destination and source; float instructions drop the high bit of the reg field (xmm8 …); `xchgq` with r8 … r15 and byte
  operations on rsp, rbp, rsi, rdi denote other registers.  The compiler of this commit uses `movw` only; the others are latent.
* x64 compiler against interpreter.  Outside the sandbox: `C62_index_escapes` (IDXADDR is computed in 64 bits, checked in 32),
  `C62_remainder_escapes` (a 64-bit remainder is left in ALT), `C62_reference_escapes`, `C62_blocks_escape` (LREF_S, SREF_S, MOVS, FILL, INITARRAY
  are not checked).  Different results: `C62_heap_straddles`, `C62_heap_underflow`, `C62_test_float`, `C62_store_two_bytes`, `C62_last_cell`,
  `C62_bounds_unsigned`, `C62_overlap`, `C62_bad_address_number` (error 11 instead of 5).  `C62_refused`: opcodes the compiler gives up on (without an error code).
* A local constant sees itself.  `C70_const_sees_itself`: `const int X = X + 1;` in a function binds the inner `X` to the constant that is being
  defined, whose value is not set yet (a variable's name is added after its initialiser; a constant's is added before).
* Function redeclarations.  `C71_two_bodies`: after a forward and its public implementation, a second body without `public` is accepted with a
  warning only, and calls go to it.  `C71_native_ignored`: a native after a function with a body is accepted silently and ignored.
  `C71_two_forwards`: after a public function, any number of forwards is accepted.  The first and the last fail an assertion in debug builds.
* Return checks.  `C72_forward_unchecked`: the implementation of a forward is not checked for a missing return value, because its
  explicit return type is noted on the forward only.  `C72_mixed_unchecked`: in a function without a return type, `return;` after
  `return 1;` is not reported (the other order is an error).
* Array types.  `C74_ternary_char`: `char x[10], a[5], b[10]; x = c ? a : b;` copies ten characters from `a`, because the conditional expression
  has the larger type.  `C74_ternary_unsized`: the same with an `int[]` parameter as one of the arrays.  `C74_char_argument_short`: `char x[5]` is
  accepted for a parameter `char buf[10]`.  `C74_int64_as_any`: `any x[4]` is accepted for `int64 y[4]` and vice versa.  `C74_any_flattens`: `int
  x[3][4]` is accepted for `any y[3]`.
* Callbacks.  `C75_int_return_unchecked`: for a type that returns `void`, the parameters of a function that returns `int` are not compared when it
  is passed as an argument.  `C75_any_takes_reference`, `C75_any_takes_array`, `C75_any_elements`, `C75_sizes_appear`: a function with a reference, an array,
  64-bit elements or a sized array is accepted where the type says `any`, `any[]` or an array without a size.  `C75_recursive_no_answer`: with
  `typedef A = function void(A)` and `B` alike, passing a `B` for an `A` recurses forever.  `C75_assignment_inner_of_int`: assigning `void f(int)` to a
  variable of type `function void(int[])` reads the inner type of `int`, which has none.
* Sizes of enum structs.  `C76_overflow`: the offsets of fields are added in 32-bit signed arithmetic without a check, so that an enum struct
  with very large arrays overflows (undefined behaviour in the compiler).  `C76_open_array`: an index into an array without a size is only checked for its sign.
* Macros.  `C77_endless`: EnterMacro looks whether a macro is in use before it looks for the parenthesis, and looking for the parenthesis may
  enter the same macro; the macro is then entered twice and is out of use after the first of them ends.  After `#define W(%0) (%0) W W (1)` the
  compiler never finishes reading `W W (1)`.  `C77_lost_name`: the name of a macro with parameters at the end of another macro's text is replaced
  by the token that means the end of the file.  `C77_split_literal`: in arguments, escaped quotes end a string, and commas and parentheses in
  character literals count.  `C77_backslash`: in a definition, the quote after `\\` does not end a string, so that parameters after it are not replaced.
* Named default arguments.  `C78_named_default`, `C78_named_default_refused`: the parser drops the name of an argument `.name = _`, and CheckCallExpr takes it for one without a name, but with the position and the declaration out of step.  For `g(int a = 1, int b = 2, int c = 3, int d = 4)` the call `g(.c = 9, .a = _)` passes the default value of `d` for `b`, and `g(.d = 9, .a = _)` is refused.
* Heap scopes.  `C79_continue_leaks`: a block whose last statement returns has the flow type of a return even if a `continue` or `break` inside leaves it, and no heap scope is emitted for it; `while (c) { int a[10]; if (d) continue; return; }` takes 40 more bytes in every round.  `C79_for_leaks`: the condition of `for` belongs to the block around the loop, unlike those of `while` and `do`, so what it takes (the temporary for a reference parameter's default value, an array that is returned) is not released before the loop ends.
* Global variables.  `C80_store_before`, `C80_store_before_read`: a function can use a global variable that is declared after it.  Reading works, since the
  operand is linked through a label; but EmitStore (compiler/code-generator.cpp:1676-1682) writes the raw value of the label, which is not bound yet.  In a release build (without assertions)
  `g = 1` then writes to address 0, or to an address that depends on the position of an earlier read of `g`: other variables are overwritten.
  `C80_int64_array`: a global `int64 x[4]` gets four cells instead of eight, so that its last elements are the variables after it.
  `C80_struct_without_value`: `public Plugin info;` without a value is entered in the table of public variables with the address 0.
* 64-bit integers.  `C81_operand_changed`: an operand that is a variable of type `int64` is kept as the address of the variable while the other operand is
  evaluated, so that `a + (a = 5)` with `a` equal to 1 is 10 (for `int` it is 6); likewise `a + ++a` and `x += (x = 5)`.  `C81_parameter_overwritten`: the cell of a
  parameter of type `int64` holds the address of a copy, and is read so, but EmitStore (compiler/code-generator.cpp:1669-1672) takes the address of the cell: an
  assignment to the parameter writes eight bytes over its cell and the next one, and afterwards the value is taken for an address.
* Local arrays.  `C82_int64_overlap`: `int64 x[4]; int y[2];` in a function: the last two elements of `x` are in the memory of `y`.  `C82_decl_unset`: with the keyword
  `decl` the last elements of an array, 16 cells or more, are what was there before, even if the array has an initialiser.
* Disabled warnings.  `C83_disabled_is_error`: `DeduceErrorType` looks at `-E` before it looks at the
  disabled warnings, so under `-E` a warning disabled with `-w` is an error and the program is not
  compiled.
* Newlines in cached function bodies.  `C85_cached_line_lost`: `peek_same_line` takes the lexer's line
  (`state_.fline`) for the line of the furthest token, but bodies are parsed from the cache after all files have
  been read.  If a statement without a semicolon, in an included file, is on a line with the number of the last line
  of the main file, its newline is not seen and the compiler asks for a semicolon.
* Files included twice.  `C85_included_twice`: tokens in two inclusions of the same file with the same line
  number are taken to be on the same line.
* Constructor and destructor.  `C86_constructor_and_destructor_rejected`: a methodmap cannot declare both;
  they are written with the same name and the second is reported as a duplicate (error 103).
* Exit.  `C87_exit_takes_next`, `C87_exit_value_lost`, `C87_exit_last`, `C87_exit_counterexample`: the test for the semicolon after `exit` is the wrong
  way round (compiler/parser.cpp:1408).  `exit; f();` is read as `exit f();`; `exit 1;` is read as `exit` followed by the
  statement `1;`, and the checker then reads the missing value (compiler/semantics.cpp:2536); `exit;` at the end of a block is an error.
* Names left out.  `C87_name_left_out`: in `int x, [2];` the second variable gets the name of the first, without an error of the parser.
* Constants that mention themselves.  `C88_self`: `const int X = X;` is accepted, and X is whatever memory held where its declaration was put.
  `C88_twice_zero`: in `enum (<<= 1) { A, B, C }`, with no value for the first, every constant is 0 (this is as the property says, but not what the
  notation suggests).
* Public functions of one name.  `C89_same_name`: two bodies of one public function, which the compiler accepts after a forward, both get an entry under
  the same name, and the host only finds the last.
* Debug ranges of variables.  `C90_end`: `include/smx/smx-typeinfo.h` documents the range of a row as closed, but the end that is written is the first
  address after the scope, so with a closed range a variable of a block that has been left is listed.  `C90_unused`: a variable that is not used has no
  row, so a name it hides shows the outer variable.  `C90_late_global`: a global that is declared after a function that uses it is not listed for it.
* Floats as conditions.  `C91_negative_zero`: EmitTest jumps on the bits of a float (compiler/code-generator.cpp:598-601), so
  `if (x)` is taken for -0.0, although `!x` computes `true` for it (with TEST_F32).  `C91_not_of_constant`: `!-0.0` is folded to
  `false` by its bits.  `C91_constant_chain`: a chain of float constants is folded by comparing bits as integers
  (compiler/semantics.cpp:1099-1116), so `-2.0 < -1.0 < 0.0` is `false`.
* `#pragma unused`.  `C92_pragma_unused`: CheckPragmaUnusedStmt (compiler/semantics.cpp:2858-2868) leaves its loop after the first
  variable, so with `#pragma unused a, b` there is still a warning about `b`.
* Conversions.  Assignments use matchtag (compiler/expressions.cpp:251-339), calls and returns TypeChecker
  (compiler/type-checker.cpp:94-189).  `C93_bool_differs`: a number is passed as a `bool` silently, but assigned with a warning.
  `C93_any_differs`: an `any` is assigned to an `int64` or a function silently, but passed with an error, and a function is passed as
  `any` silently, but assigned with an error.  `C93_choice_of_null`: the type of `c ? x : y` is always that of `x`
  (compiler/semantics.cpp:1156-1158), also when the types fit only the other way, so that `c ? null : h` has the type of `null`, and a
  handle gets into a variable of a type of functions, or of an unrelated nullable methodmap, without a message.
* Empty include files.  `C94_empty_file_missed`: `SourceFile::Open` reads with `fread(&data_[0], size, 1, fp) != 1`, and `fread` of no
  bytes returns 0, so an empty file cannot be opened (compiler/source-file.cpp:67-70).  An `#include` of one is an error, or, with
  `C94_empty_file_replaced`, reads another file later in the search order.
* Switch tables.  `C64_shared_case_lost`: an address label can be used once only, but `visitSWITCH` uses the label of a block once per case; when two
  consecutive cases share a block (`case 0, 1:`) one table word keeps the offset 0, so that case jumps to the entry of the method.  A debug build stops
  at an assertion (`C64_shared_case_asserts`).
* Conditional compilation.  `C63_second_else_accepted`: after `#if 1 … #elseif …` any number of further `#else` and `#elseif` is accepted
  without a report.  `C63_unclosed_header_accepted`: a missing `#endif` in an included file is not reported.  `C63_closing_header`,
  `C63_closing_header_keeps`: a stray `#endif` in an included file closes a section of the including file (an assertion fails if compiled in), after
  which text of a part left out can be kept.  `C63_comment_in_skipped_string`: `"/*"` in skipped text hides the `#endif`.
* Compiler against verifier.  `C60_assert_rejected`, `C60_exit_rejected`: the verifier rejects HALT, to which `assert` and `exit` compile.
  `C60_endless_while_rejected`, `C60_endless_do_rejected`: a function that ends in `while (1)` or `do … while (1)` and is left by returning
  keeps the jump out of the loop, which goes behind its last instruction.
* Services.  `C46_huge_chunk`, `C47_stale_timeout`, `C47_switch_loop_unchecked`, `C48_int64_is_used_as_pointer`,
  `C48_no_room_drops_outer_scope`, `C50_rounding_wraps`, `C51_one_past`.

Seen while reading and not stated as theorems: `verifyJoins` runs the break-bug detection for the last block of the method instead of the
block at hand; an error reported with no handler open is dropped; a compressed image that inflates to less than it declares leaves the rest
uninitialised; `encode_signature` with 255 arguments and a hidden one writes a count of 0; an empty source file cannot be opened; a `for`
statement reads `discard()` of its third expression instead of setting it.
Of compiled code: the error path of a prologue is recorded while no instruction is current, with an offset computed from a null pointer, so
a stack error at entry is reported for a wrong line; nothing checks the native stack, so recursion that stays within the plugin's stack can still overrun it; ALT is not kept
across a compiled call, while the interpreter keeps it; the stub by which the host enters compiled code stores the stack pointer with eight
bytes, over the heap top next to it.

## Plan per property

| id | model | proof |
|----|-------|-------|
| C01 | `Model/Mem`: byte memory and the registers hp/sp/frm/stp/hp_scope, all memory operations with wrap-around operands | invariant by induction over operation lists; the unconditional claim is false (heap alloc of a near-INT_MAX amount wraps) – negation witness plus guarded theorem |
| C02 | `Model/Mem` address check and byte-level access with `ub` for out-of-buffer bytes | case analysis + arithmetic; every 32-bit address |
| C03 | byte-level little-endian loads/stores | algebraic laws over bytes |
| C04 | frame enter/leave | round-trip law with an arbitrary intermediate state constrained only by the linkage cells |
| C05 | heap scopes | induction over well-nested operation trees |
| C06 | tracker | induction over balanced trees |
| C07 | `Invoke` with the execution engine as an arbitrary function parameter | case analysis |
| C08 | native call with the native as an arbitrary function parameter | case analysis |
| C09 | absolute indirection vector generator as a memory-writing recursion | induction over dimensions; spec = row-major index arithmetic |
| C10 | relative generator | as C09 |
| C11 | size loop with 32-bit safe-multiply tests | induction over dimensions relating the wrapped accumulators to exact naturals |
| C12 | initArray | loop invariants |
| C13, C14 | string copies over byte lists | list lemmas; C14 has a code defect for tiny buffers – negation witness + partial |
| C15, C16, C17 | interpreter instructions on `BitVec 32/64` | arithmetic |
| C18, C19 | decoder (`PcodeReader`/opcode sizes), prescan, scan, CFG blocks | invariants over the scanning loop; C19 is false for negative case counts – negation witness + partial |
| C20, C21, C22 | verifier's abstract interpretation (stack bytes, heap tracker list, data offsets) against an instruction-level effect semantics | simulation along paths: static state = dynamic balance |
| C23, C24, C25 | iterative DFS, Cooper–Harvey–Kennedy dominators, loop header detection on finite graphs | loop invariants; spec = all paths from entry |
| C26 | words-as-list bit set | refinement to a predicate on Nat |
| C27, C28 | public table ids, native table state machine | decision logic, invariant over histories |
| C29, C30 | binary search loops and linear lookups | loop invariant / list lemmas |
| C31, C32 | SMX writer, container validation over byte lists | round-trip, bounds |
| C33 | interning tables | invariant over add sequences |
| C34, C35, C36 | varint, type descriptor encoder/decoder/validator on byte lists | structural induction, any trailing bytes; C36 is false for a doubled function prefix – witness + partial |
| C37 | `calc` versus the emitted instruction's interpreter semantics | per operator bit-vector equalities; INT_MIN / -1 and oversized shifts are `ub` in both |
| C38, C39 | expression/statement code generator to a resolved instruction list; small-step VM on registers, stack, variables | compiler correctness by structural induction, labels resolved by code position |
| C40 | linked-list labels threaded through the code buffer | invariant over emit/use/bind sequences |
| C41 | array type size computation and compound initialiser emitter | induction over type/initialiser; int64 padding and char-array fields are code defects – witnesses + partial |
| C42, C43, C44 | string-to-cells, number lexer, UTF-8 decode/encode | list induction, positional value, round trip |
| C45 | source location ranges, line extents | sorted range lookup, counting |
| C46 | MD5 buffering with the block transform as the real function | any-chunking law; equality to the one-shot padded fold |
| C47 | watchdog state machine interleaved with script jump steps | invariant over schedules; SWITCH back edges are unchecked – witness + partial |
| C48 | ScriptedInvoker with arbitrary callee | case analysis / list induction |
| C49, C50 | bump allocators with pools, growable buffer | disjointness invariant over request sequences |
| C51 | error table lookup | decision logic; off-by-one is a code defect – witness + partial |
| C52 | ComputeStackUsage over a call-graph map | false for roots not reachable from the first entry – witness + partial |
| C53 | handler scope stack | invariant over histories |
| C54 | instruction encoder and reader, opcode size table | case analysis over all instructions; any code around them |
| C55 | section readers of the image loader, decompression sizes | byte ranges by arithmetic; missing checks are code defects – witnesses + partial |
| C56 | escape sequences in the lexer | per escape; code points that do not exist and long decimal escapes are code defects – witnesses + partial |
| C57 | whole programs: functions of `Model/StmtGen` placed in one code section, run by `Model/Interp` | simulation against the source semantics of `Spec/Lang` by induction on the bound of calls; the bound is shown irrelevant; host calls through `Model/Invoke` |
| C58 | outcome `ub` of `Model/Graph` for reads outside the code, positions before the method and int overflow | invariants of the two scans; false for negative case counts – witnesses + partial |
| C59 | `Model/ExprParser`: the recursive-descent functions on token lists; `Spec/ExprGrammar`: which token lists write which tree | soundness by induction on fuel, completeness by induction on the derivation, termination by token count; witness for `.name = _` |
| C60 | `Model/StmtGen` against `Model/Verifier` and `Model/Graph`; `Spec/Verifiable`: which functions and plugins | certificates (`Proofs/Accept*`): instructions with stack heights that graph builder and verifier follow; `Proofs/Frag` composes them; `Proofs/GenTyped*` give one for every node the code generator builds; false for HALT and endless loops – witnesses + partial |
| C61 | `Model/X64Asm`: every method of the x64 assembler as the bytes it appends; `Spec/X64`: the instruction format of the processor as a decoder; `Spec/X64Calls`: which instruction a method stands for | decoding in stages (prefixes, opcode, ModRM, SIB, displacement, immediate); each stage inverts what the assembler wrote (`Proofs/X64Asm`), then one case per method (`Proofs/X64Calls`) |
| C62 | `Model/Jit`: the assembler calls each `visit*` of the x64 compiler makes; `Spec/X64Exec`: what the processor does with the decoded bytes; `Spec/Jit`: when processor and interpreter agree | one simulation lemma per instruction (`Proofs/JitRegs`, `JitFrame`, `JitPush`, `JitAddr`, `JitArith`, `JitFloat`, `JitInt64`, `JitBlock`, `JitHeap`), errors in `Proofs/JitErr`; false in general – witnesses + partial |
| C63 | `Model/Cond`: the `#if` stack, skipping, `#include`, `#endinput` and end of file, by lines; the loop over skipped text by bytes; `Spec/Cond`: sections as trees and what they keep | simulation by mutual induction on the trees, and on the number of unread files; a decreasing measure; an invariant on the stack for arbitrary lines |
| C64 | `Model/X64Link`: label words, the uses threaded through the code, the address table, relocation and the final image; `Spec/X64Link`: reading the image | an invariant over disjoint lists of waiting uses, and what each later call leaves alone; false when two cases share a block – witness + partial |
| C65 | `Model/JitFlow`: blocks in reverse post order, jumps, switches, error thunks, throw paths, the tables that go with the code; `Spec/X64Run`: a processor that fetches, decodes and executes; `Spec/JitFlow`: the steps of the interpreter inside a method | each block lies where its label was bound (`Proofs/JitEmit`), an induction over the emitted fragment (`JitFrag`), one lemma per kind of jump (`JitSwitch`), then induction over the steps (`JitMethod`) |
| C66 | Model/JitEdges.lean: the edges the compiler stores and their exchange in memory | invariant of the compiler (edges are long jumps, in order), disjointness of the patched bytes, the refinement of C65 with redirected jumps, and a measure (block number, instruction) |
| C67 | `Model/TimeoutPatch`: two threads, the redirection of each linked method, compilation and linking as separate steps | an invariant over all interleavings; the schedules that break the property are given |
| C68 | `Model/JitCall`: prologue, CALL and RETN; `Spec/X64Frames`: a processor with several pieces of code, a native stack with addresses, rbp and rsp | induction over the nesting of calls; each piece run through the bytes of the image; the frame of the plugin shown to hold what the return reads |
| C69 | `Model/JitTrace`: the map from addresses to instructions, the frame iterator, the exit frame; `Spec/JitTrace`: which calls are active | invariant over the calls made so far (the native stack is a list of frames); the map has one entry per return address because each call of the assembler that makes one emits bytes |
| C70 | `Model/Names`: the scope tree with pointers, lazily made scopes, the passes of name resolution; `Spec/Names`: a list of frames | simulation: the chain of scopes from the current one shows the frames (invariant `Sees`), by induction over statements |
| C71 | `Model/FunDecl`: EnterNames and CanRedefine; the rule is `Allowed` in Props/C71 | induction over the sequence, with what the first declaration looks like as the invariant |
| C72 | `Model/Returns`: CheckReturnStmt and CheckFunctionReturnUsage over `Model/Lang`; the flow types are those of C57's generator | induction over statements: a flow type that excludes falling through is sound for the big-step semantics; the state of the checks only grows |
| C73 | `Model/Liveness`: the two traversals, AddReferenceTo, TestSymbol, the test before code is emitted; reachability is the inductive `Reach` in Props/C73 | loop invariant (seen and not in the stack: all references seen) and the measure stack + unseen for termination |
| C74 | `Model/Types`: TypeChecker, CheckTernaryExpr, array assignment; `Fits`, `storage` and `MayBe` in Props/C74 are the specification | induction over dimensions and over conditional expressions |
| C75 | `Model/Types`: CheckFunction and matchfunctags, with the nesting of function types as fuel; `Passing` and `Callable` in Props/C75 are the specification | case analysis of the rules, induction over parameter lists; induction over fuel for the endless case |
| C76 | EnterNames, sizes, index and field access (Model/Storage.lean), run by the interpreter of Model/Interp.lean | induction on the fields for the layout, on the access for the code |
| C77 | macro definitions and their expansion (Model/Macro.lean) | induction on the pieces of a definition, on arguments and on the expansion; a well-founded order on the stack of texts for termination |
| C78 | parse_call and the argument loop of CheckCallExpr with argv, nargs and argidx; specification: position, name or own default | characterisation of the loop state after the positional and the named part by induction; accepted if and only if legal; permutations of named arguments |
| C79 | flow analysis, heap ownership, EmitStmt with heap scopes and EmitLoopControl; big-step execution that can be observed at any point, with the highest and lowest heap address | a specification of every piece of code by the scopes it leaves and the amounts it takes, composed by induction on statements, with a rule for loops |
| C80 | Declarations, uses and literals in the order in which the code generator meets them, over the labels of C40 and the initial data of C41. | Invariant over the items so far: data laid out in order, label lists of C40, table of public variables. |
| C81 | The code generator for expressions and declarations of type int64 with its temporary slots, and the interpreter's instructions of C15. | Induction over expressions: PRI is the address of the value, in a slot of its own or the variable it stands for; slots in use and the stack above are kept. |
| C82 | Declarations of local variables: code and data; the interpreter runs the code | Induction over the declarations; the INITARRAY theorem C12 and the layout theorem C41 give the memory of each array |
| C83 | the report manager with its deferrals, counters and limits, and the phases of RunCompiler as arbitrary work on it | invariant that the counter moves exactly when an error is listed, by induction over the work |
| C84 | the lexer on bytes: the search for the next token, operators, words, numbers, and the cache of function bodies | induction on the text and on the tokens; a simulation between the cache and the text |
| C85 | the buffer of four tokens, the line counters over files, and the test for the same line | the buffer refines a position in the list of tokens (invariant); induction over what is between two tokens |
| C86 | methodmap declarations, their entering and binding, the searches along parents with explicit fuel | acyclicity as an invariant of binding, pigeonhole for the fuel; in accepted programs parents are the declared bases, earlier in the file, and a search is a search along the line |
| C87 | the statement parser on the tokens and expressions of C59; the grammar as an inductive relation with the rule that the branch in front of an else is not open | induction on the fuel (what is read is written), on derivations (what is written is read), bound on the fuel |
| C88 | the global symbols, entering constants and enums in order; expressions are anything that evaluates from the values of the names it mentions, and C37's expressions are shown to be such | symbols only grow and keep their values (induction on the declarations and on the constants of an enum), so each value can be read off the final symbols |
| C89 | functions as lists of cells, calls, uses as values and names, emitted into the label buffer of C40, the name table of C33 and the tables of functions, natives and methods | invariant on the tables and labels (induction on pieces and functions), then linking by C40, lookup by C30 and function ids by C27 |
| C90 | functions as trees of statements with sizes, declarations and scopes; the stacks of symbols, the tables of rows and methods, file scopes; the checks of the loader | induction on statements with the rows that are closed and the variables that are open; invariant over the program; counterexamples by evaluation |
| C91 | The checks of the compiler, the code it emits and the interpreter (`Model/FloatExpr`); float arithmetic is a parameter | induction over expressions: the code refines an evaluator with typed values; the conditional jump is taken iff the condition is true |
| C92 | Binding and checking of names, reduced to which names statements have and which scopes they open (`Model/Unused`) | induction over statements, with what follows in the block: the marks of a variable are exactly the uses of its name in its scope |
| C93 | The checks of assignments, arguments, returns, `view_as` and `? :` for types of values, with their messages (`Model/Convert`) | case analysis of pairs of types; induction over hierarchies of methodmaps and over sequences of conversions |
| C94 | Opening files, the search order, entering and leaving files, and the name in the directive (`Model/Include`); `Spec/Include`: a relation between what has been read before and after each event | refinement by an invariant over sequences of events: opened files are entered, non-empty and distinct |

## How the source language is specified (C38, C39, C57)

`Spec/Lang` gives the meaning of expressions, statements and programs without reference to code: an evaluator over a store of globals and
locals with a bound on call depth and loop rounds, whose results do not depend on the bound once it suffices (`C39_bound_irrelevant`,
`C57_bound_irrelevant`).  `Spec/Compiled` and `Spec/Program` say what it means that a machine state holds such a store and that a code section
holds a program.

## Axioms per theorem

<!-- axioms -->
* none: `C62_error_numbers`, `C90_late_global`, `C90_unused`
* propext: `C11_margin_underflow`, `C11_margin_underflow_ub`, `C23_entry_cycle_repeats`, `C34_overlong_accepted_then_undefined`, `C41_size_wraps`, `C45_huge_file`, `C47_stale_timeout`, `C51_one_past`, `C59_named_default`, `C63_one_answer`, `C67_compiled_during_timeout`, `C67_woken`, `C71_native_ignored`, `C71_two_bodies`, `C71_two_forwards`, `C74_any_flattens`, `C74_char_argument_short`, `C74_enum_struct_argument`, `C74_int64_as_any`, `C74_ternary_char`, `C74_ternary_unsized`, `C75_any_elements`, `C75_any_takes_array`, `C75_any_takes_reference`, `C75_assignment_inner_of_int`, `C75_int_return_unchecked`, `C75_recursive_no_answer`, `C75_sizes_appear`, `C78_named_default`, `C85_cached_line_lost`, `C85_included_twice`, `C87_break`, `C87_no_declaration`, `C90_end`, `C92_pragma_unused`, `C93_any_differs`, `C93_bool_differs`, `C93_choice_of_null`, `C93_upcast`, `C93_void`
* Quot.sound, propext: `C01_forged_frame_leaves_memory`, `C01_fresh_runtime`, `C01_heap_overflow_accepted`, `C08_call`, `C08_replacement_ignores_count`, `C08_unbound`, `C11_legacy_failure_moves_heap`, `C12_unaligned_overrun`, `C14_empty_text_reads_before_memory`, `C14_one_byte_buffer_corrupts`, `C17_order_independent`, `C17_switch`, `C18_negative_table`, `C19_negative_table_diverges`, `C20_genarray_below`, `C20_locals_not_counted`, `C20_replacement`, `C21_break_bug`, `C21_heap_amount`, `C22_unaligned`, `C27_ids_distinct`, `C27_in_bounds`, `C27_null`, `C28_permanent`, `C28_rebind`, `C30_native`, `C30_public`, `C33_names`, `C33_names_stable`, `C33_names_total`, `C33_pool`, `C33_pool_stable`, `C34_prefix_free`, `C34_round_trip`, `C35_fifty_arguments_rejected`, `C35_method_signature_misread`, `C35_signature_partial`, `C35_type`, `C35_type_id`, `C35_typeset_partial`, `C35_view_injective`, `C36_doubled_marks`, `C36_doubled_prefix`, `C36_format_decodes`, `C36_overlong_index`, `C37_compiler_overflow`, `C37_conditional_reads_uninitialised`, `C37_constant_conditional_rejected`, `C38_covers_all`, `C41_char_braces`, `C41_field_char_braces`, `C41_int64_ellipsis`, `C41_int64_short`, `C41_struct_too_many`, `C44_beyond`, `C44_char_partial`, `C44_malformed`, `C44_overlong`, `C44_string_partial`, `C46_finalized`, `C47_backward_jumps`, `C47_no_second_iteration`, `C47_switch_loop_unchecked`, `C48_emptied`, `C48_no_room_drops_outer_scope`, `C50_buffer`, `C50_rounding_wraps`, `C51_distinct`, `C52_later_entry_first`, `C52_other_chain`, `C52_pragma_wraps`, `C53_nothing_left`, `C53_try_catch`, `C54_case_table`, `C54_declared_size`, `C54_round_trip`, `C55_decompress_partial`, `C56_decimal_overflow`, `C56_letters`, `C56_unicode_dropped`, `C56_unicode_throws`, `C57_one_result`, `C58_negative_table_leaves`, `C58_negative_table_overflows`, `C61_rsp_index_is_dropped`, `C62_blocks_escape`, `C62_bounds_unsigned`, `C62_heap_straddles`, `C62_heap_underflow`, `C62_index_escapes`, `C62_last_cell`, `C62_overlap`, `C62_reference_escapes`, `C62_refused`, `C62_remainder_escapes`, `C62_store_two_bytes`, `C62_test_float`, `C63_closing_header`, `C63_closing_header_keeps`, `C63_endinput_in_main`, `C63_second_else_accepted`, `C63_second_else_reported`, `C63_skipped_lines`, `C63_unclosed_header_accepted`, `C64_release`, `C64_shared_case_asserts`, `C68_caller_restored`, `C70_const_sees_itself`, `C71_accepted`, `C71_one_definition_partial`, `C72_forward_unchecked`, `C72_mixed_unchecked`, `C72_void`, `C73_emitted`, `C73_nothing_missing`, `C73_unused_reports`, `C74_argument_fits_partial`, `C74_copy_fits_left`, `C74_copy_within_source_partial`, `C75_argument_partial`, `C76_open_array`, `C76_overflow`, `C77_argument_count`, `C77_block_comment`, `C77_line_comment`, `C78_named_default_refused`, `C79_continue_leaks`, `C79_for_leaks`, `C80_int64_array`, `C80_store_before`, `C80_store_before_read`, `C80_struct_without_value`, `C81_operand_changed`, `C81_parameter_overwritten`, `C81_slots`, `C82_decl_unset`, `C82_int64_overlap`, `C83_disabled_is_error`, `C83_exit_codes`, `C83_written`, `C85_buffer`, `C85_end`, `C85_needed`, `C85_semicolon`, `C88_self`, `C89_generates`, `C91_constant_chain`, `C91_negative_zero`, `C91_not_of_constant`, `C93_named`, `C94_start`
* Classical.choice, Quot.sound, propext: `C01_layout_any_state`, `C01_layout_partial`, `C02_frame_confined`, `C02_load_confined`, `C02_local_to_phys`, `C02_store_confined`, `C03_other_reads_unchanged`, `C03_push_pop`, `C03_read_own_write`, `C04_call_return`, `C04_callee_never_ub`, `C05_scope_restores`, `C06_balanced_restores_heap`, `C06_never_below_data`, `C06_tracker_frees_exactly`, `C07_invoke`, `C07_registers_restored`, `C08_combined_call`, `C08_replaced_call`, `C09_direct_arrays`, `C09_genarray_instruction`, `C10_relative_arrays`, `C11_one_dimension`, `C11_refused_only_if_too_big`, `C11_size_exact_partial`, `C12_init_array`, `C13_string_copy`, `C14_utf8_copy_partial`, `C15_sdiv`, `C15_sdiv_i32`, `C15_sdiv_i64`, `C16_bounds`, `C18_boundaries_partial`, `C19_scan_terminates_partial`, `C20_balance_partial`, `C21_heap_partial`, `C22_globals_partial`, `C23_acyclic`, `C23_order`, `C24_dominators`, `C25_built`, `C25_reducible`, `C26_bitset`, `C26_for_each`, `C27_only_handed_out`, `C27_round_trip`, `C28_answer`, `C28_binding`, `C28_builtins_permanent`, `C28_call`, `C28_isolated`, `C29_compiled_file`, `C29_compiled_line`, `C29_file`, `C29_line`, `C31_distinct`, `C31_empty_tail_rejected`, `C31_round_trip`, `C32_confined_partial`, `C32_section_names`, `C32_unused_section_unchecked`, `C36_partial`, `C36_validator_safe`, `C37_constant_expressions`, `C37_division_by_zero`, `C37_folding_agrees`, `C37_required_constants`, `C37_undefined_operands`, `C38_condition`, `C38_condition_error`, `C38_effects`, `C38_error`, `C38_value`, `C39_bound_irrelevant`, `C39_break_inside`, `C39_error`, `C39_follows`, `C39_runs_forever`, `C40_linking`, `C41_element`, `C41_row_partial`, `C41_size_partial`, `C41_struct_partial`, `C42_cells`, `C43_fits`, `C43_sound`, `C43_too_large`, `C45_distinct_partial`, `C45_line_and_column`, `C45_lines_make_up_file`, `C45_positions_partial`, `C46_chunks_partial`, `C46_digest_partial`, `C46_huge_chunk`, `C47_declared_when_stuck`, `C47_reports_partial`, `C47_watchdog_lives`, `C48_call_partial`, `C48_int64_is_used_as_pointer`, `C48_pending`, `C49_chunks`, `C49_request`, `C50_arena_partial`, `C51_text_partial`, `C52_chain_fits_partial`, `C52_terminates`, `C55_compressed_size_wraps`, `C55_data_offset_unchecked`, `C55_partial`, `C55_short_code_section`, `C55_short_rows`, `C56_decimal`, `C56_hex`, `C56_unicode_partial`, `C57_bound_irrelevant`, `C57_error`, `C57_host_call`, `C57_host_error`, `C57_returns`, `C57_runs_forever`, `C58_scan_defined_partial`, `C59_parse`, `C59_precedence`, `C59_read_is_written`, `C59_terminates`, `C59_unambiguous`, `C60_accepted_partial`, `C60_assert_rejected`, `C60_endless_do_rejected`, `C60_endless_while_rejected`, `C60_exit_rejected`, `C60_program_partial`, `C60_returns_partial`, `C61_assembler_partial`, `C61_excluded_calls_are_wrong`, `C62_bad_address_number`, `C62_compiled_error_partial`, `C62_compiled_instruction_partial`, `C63_comment_in_skipped_string`, `C63_ends`, `C63_keeps_what_holds`, `C63_mismatch_reported`, `C64_bind_total`, `C64_const`, `C64_jump`, `C64_raw`, `C64_shared_case_lost`, `C64_table`, `C65_entry`, `C65_error_partial`, `C65_method_partial`, `C66_exchange`, `C66_follow_partial`, `C66_hidden_loop`, `C66_stops_partial`, `C67_reaches_all_partial`, `C68_calls_partial`, `C68_invocation_partial`, `C68_same_frame`, `C68_same_return`, `C68_stack_low_partial`, `C69_trace_partial`, `C70_names_partial`, `C72_returns_value_partial`, `C75_assignment_partial`, `C76_code_partial`, `C76_disjoint`, `C76_fields`, `C76_names`, `C77_arguments`, `C77_backslash`, `C77_endless`, `C77_ends_objects`, `C77_ends_partial`, `C77_expansion_partial`, `C77_lost_name`, `C77_meaning_unique`, `C77_split_literal`, `C77_substitution`, `C78_arguments_partial`, `C78_order_partial`, `C78_own_parameter_partial`, `C79_body_scopes`, `C79_bounded_partial`, `C79_flow`, `C79_kept`, `C79_paired`, `C79_released_partial`, `C80_initial`, `C80_literals`, `C80_own_storage`, `C80_public_partial`, `C80_reads`, `C80_size_partial`, `C80_struct`, `C80_writes_partial`, `C81_condition_partial`, `C81_statements_partial`, `C81_value_partial`, `C82_element`, `C82_values_partial`, `C83_disabled_partial`, `C83_exit`, `C83_options`, `C83_sorted`, `C83_told`, `C83_true`, `C83_warnings`, `C84_body`, `C84_cached`, `C84_cached_all`, `C84_longest`, `C84_tokens`, `C84_unique`, `C85_cached_partial`, `C85_newline_partial`, `C86_base`, `C86_call`, `C86_construct`, `C86_constructor_and_destructor_rejected`, `C86_delete`, `C86_ends`, `C86_line`, `C86_member`, `C86_no_member`, `C86_nullable`, `C86_once`, `C86_static_call`, `C87_body_partial`, `C87_else_partial`, `C87_exit_counterexample`, `C87_exit_last`, `C87_exit_takes_next`, `C87_exit_value_lost`, `C87_name_left_out`, `C87_read_partial`, `C87_terminates`, `C87_unambiguous_partial`, `C88_before_use`, `C88_const_partial`, `C88_distinct`, `C88_enum`, `C88_run`, `C88_size`, `C88_twice_zero`, `C89_functions`, `C89_same_name`, `C89_value`, `C90_accepted`, `C90_all`, `C90_global`, `C90_locals_partial`, `C90_method`, `C90_name_partial`, `C90_outside`, `C90_static`, `C91_condition_partial`, `C91_constant_partial`, `C91_value_partial`, `C92_no_warnings_partial`, `C92_warnings_partial`, `C93_agree_partial`, `C93_choice_partial`, `C93_functions`, `C93_kind_partial`, `C93_view`, `C93_view_kind`, `C94_determined`, `C94_empty_file_missed`, `C94_empty_file_replaced`, `C94_name`, `C94_once`, `C94_search`, `C94_search_partial`
<!-- /axioms -->
