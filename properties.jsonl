{"id": "C01", "title": "Heap and stack never cross", "statement": "While a plugin runs, the plugin heap always starts at or above the end of its data section, never grows past the current stack pointer, and the stack pointer never exceeds the plugin's memory size. Whether a VM operation (push, pop, stack adjust, heap alloc/free, tracker push/pop, heap scope enter/leave, frame enter/leave, array creation) succeeds or is refused with an error, the three regions data / heap / stack stay disjoint and inside the plugin's memory.", "quantifier": "every memory size, data size and register state satisfying the layout, and every sequence of VM memory operations with arbitrary 32-bit operands", "why_tests_cant": "operands are 32-bit values chosen by script code, sequences are unbounded; boundary conditions (margins, wrap-around) sit at isolated values", "anchors": ["vm/plugin-runtime.cpp: pushStack, popStack, addStack, heapAllocEx, pushTracker, popTrackerAndSetHeap, enterHeapScope, leaveHeapScope, pushAmxFrame, popAmxFrame, generateArray"]}
{"id": "C02", "title": "Pointer loads and stores are confined to script memory", "statement": "A load or store through a script-supplied address either is refused with an invalid-address error and changes nothing, or touches only bytes inside the plugin's memory, and its first byte is outside the unused gap between heap top and stack top.", "quantifier": "every 32-bit address, every register state, every value", "why_tests_cant": "all 2^32 addresses times all register states; the failing addresses are the last three before the end of memory", "anchors": ["vm/plugin-runtime.cpp: throwIfBadAddress, getCellValue, setCellValue, getFrameValue, setFrameValue, LocalToPhysAddr"]}
{"id": "C03", "title": "Read-after-write on script memory", "statement": "After a successful cell store to an address, a cell load from the same address returns the stored value, and a load from any address at least four bytes away returns what it returned before; stack push followed by pop returns the pushed value and restores the stack pointer.", "quantifier": "every memory contents, address, value and register state", "why_tests_cant": "universally quantified over memory contents and pairs of addresses", "anchors": ["vm/plugin-runtime.cpp: getCellValue, setCellValue, pushStack, popStack"]}
{"id": "C04", "title": "Function call frames nest", "statement": "Entering a script function and returning from it, with any intervening stack/heap activity that leaves the caller-visible linkage cells intact, restores the caller's frame pointer, heap pointer and heap scope, and removes exactly the pushed arguments and argument count from the stack.", "quantifier": "every caller state, argument count, callee stack and heap usage", "why_tests_cant": "callee behaviour is an arbitrary unbounded execution", "anchors": ["vm/plugin-runtime.cpp: pushAmxFrame, popAmxFrame", "vm/interpreter.cpp: run, visitRETN, visitCALL"]}
{"id": "C05", "title": "Heap scopes restore the heap", "statement": "For any well-nested sequence of heap-scope enter / leave and heap allocations inside them, leaving a scope returns the heap pointer and the current-scope register to exactly their values at the matching enter, provided the script did not overwrite the scope's own bookkeeping cell.", "quantifier": "every well-nested sequence of any depth and length", "why_tests_cant": "unbounded nesting depth and allocation amounts", "anchors": ["vm/plugin-runtime.cpp: enterHeapScope, leaveHeapScope, heapAllocEx", "vm/interpreter.cpp: visitHEAP_SAVE, visitHEAP_RESTORE"]}
{"id": "C06", "title": "Heap tracker frees exactly what it recorded", "statement": "In legacy (tracker) mode, popping a tracker entry after a balanced sequence frees exactly the number of bytes the matching push recorded plus the entry itself; popping never moves the heap below the data section.", "quantifier": "every balanced sequence of tracker pushes, heap allocations and pops", "why_tests_cant": "unbounded sequences and amounts", "anchors": ["vm/plugin-runtime.cpp: pushTracker, popTrackerAndSetHeap"]}
{"id": "C07", "title": "Calling into a plugin restores its registers", "statement": "When the host invokes a plugin function, then whether the call succeeds, is refused, or raises an error at any depth, the plugin's stack pointer, heap pointer, frame pointer and heap scope after the call equal their values before it; the arguments the callee sees are exactly the ones passed, in order, preceded by their count.", "quantifier": "every function behaviour (arbitrary final registers and outcome), every argument list, every initial state", "why_tests_cant": "the callee is arbitrary code ending in an arbitrary state at an arbitrary point", "anchors": ["vm/plugin-runtime.cpp: Invoke"]}
{"id": "C08", "title": "Native calls cannot disturb the script stack", "statement": "Whatever a bound native does to the plugin's stack and heap pointers (nested calls, heap allocations), after the native call instruction the stack pointer and heap pointer are what they were before the call (minus exactly the arguments removed by the combined call instruction); a native the VM replaces by a built-in instruction removes exactly that instruction's operands; an unbound native raises an invalid-native error.", "quantifier": "every native behaviour, argument count and register state", "why_tests_cant": "native is arbitrary host code", "anchors": ["vm/interpreter.cpp: invokeNative, visitSYSREQ_C, visitSYSREQ_N"]}
{"id": "C09", "title": "Multi-dimensional array creation is row-major, disjoint and in bounds (direct arrays)", "statement": "Creating a dynamic array with dimensions d1..dn on success returns a base such that following the row pointers for any in-range index tuple reaches a distinct cell inside the newly allocated block, distinct tuples reach distinct cells, rows of the last dimension are contiguous in row-major order, row-pointer cells never overlap element cells, and the block lies entirely between the old and the new heap top.", "quantifier": "every number of dimensions and every positive dimension sizes, every heap position", "why_tests_cant": "unbounded number of dimensions and sizes; recursion writes interleaved vectors", "anchors": ["vm/plugin-runtime.cpp: generateArray, generateFullArray, GenerateAbsoluteIndirectionVectors"]}
{"id": "C10", "title": "Legacy relative indirection vectors address the same layout", "statement": "In legacy (relative) array mode the row vectors written by array creation, followed with base + offset arithmetic, reach the same row-major, disjoint, in-bounds elements.", "quantifier": "every dimension list with two or more dimensions", "why_tests_cant": "unbounded dimensions; offsets are self-relative", "anchors": ["vm/plugin-runtime.cpp: GenerateArrayIndirectionVectors, GenerateInnerArrayIndirectionVectors, calc_indirection"]}
{"id": "C11", "title": "Array creation size arithmetic never wraps", "statement": "Creating an array never allocates fewer bytes than its dimensions require: if the exact (mathematical) size does not fit, the call fails with an error and the heap pointer is unchanged.", "quantifier": "every dimension list of 32-bit values", "why_tests_cant": "overflow only occurs at specific 32-bit products", "anchors": ["vm/plugin-runtime.cpp: generateFullArray, generateArray"]}
{"id": "C12", "title": "Array initialisation copies template faithfully", "statement": "Initialising an array from a data template relocates each template row pointer by the array base, copies the data cells verbatim, fills the requested tail with the fill value, and changes no other memory; sizes that would run past memory or template data are refused.", "quantifier": "every template, sizes, array address (cell aligned)", "why_tests_cant": "all sizes and addresses", "anchors": ["vm/plugin-runtime.cpp: initArray", "vm/interpreter.cpp: visitINITARRAY"]}
{"id": "C13", "title": "String copy to script memory truncates safely", "statement": "Copying a host string into a script buffer of n>0 bytes writes at most n bytes, always leaves a NUL terminator inside the buffer, the stored string is a prefix of the source, and equals the source when it fits.", "quantifier": "every source string, buffer size and destination", "why_tests_cant": "all lengths around the boundary", "anchors": ["vm/plugin-runtime.cpp: StringToLocal"]}
{"id": "C14", "title": "UTF-8 aware string copy never splits a character", "statement": "Copying a valid UTF-8 string with the UTF-8 aware copy yields valid UTF-8: the result is the longest prefix of whole characters that fits (at most n-1 bytes), NUL terminated, and the reported byte count is its length.", "quantifier": "every sequence of Unicode scalar values and every buffer size", "why_tests_cant": "every truncation point of every multi-byte sequence", "anchors": ["vm/plugin-runtime.cpp: StringToLocalUTF8, __CheckValidChar"]}
{"id": "C15", "title": "Integer division is exact or refused", "statement": "Script 32-bit and 64-bit division and modulo produce the truncating quotient and remainder with dividend = quotient*divisor + remainder, except that a zero divisor raises divide-by-zero and MIN/-1 raises integer-overflow; no other operand pair raises an error.", "quantifier": "every pair of operands", "why_tests_cant": "2^64 (2^128) operand pairs; the exceptions are single points", "anchors": ["vm/interpreter.cpp: visitSDIV, visitSDIV_ALT_I32, visitSMOD_ALT_I32", "vm/runtime-helpers.cpp: Int64Div, Int64Mod"]}
{"id": "C16", "title": "Array bounds instruction", "statement": "The bounds-check instruction passes exactly the indices 0..limit inclusive (as signed numbers) and raises an array-bounds error for every other index including every negative one.", "quantifier": "every 32-bit index and every limit", "why_tests_cant": "2^64 pairs", "anchors": ["vm/interpreter.cpp: visitBOUNDS", "vm/runtime-helpers.cpp: ReportOutOfBoundsError"]}
{"id": "C17", "title": "Switch dispatch selects the first matching case", "statement": "A switch transfers control to the address of the case entry equal to the value, or the default address if none is equal; with the compiler's sorted duplicate-free table the result is independent of table order.", "quantifier": "every case table and value", "why_tests_cant": "unbounded table sizes", "anchors": ["vm/interpreter.cpp: visitSWITCH", "compiler/code-generator.cpp: EmitSwitchStmt"]}
{"id": "C18", "title": "Every jump in verified code lands on an instruction boundary of the same method", "statement": "If a method passes control-flow construction, every branch and switch target executed from it lies inside the method, strictly after its entry, and is the start of an instruction of the method's linear decoding; execution never runs past the end of the code.", "quantifier": "every code image accepted by the graph builder, every execution", "why_tests_cant": "all byte images and all paths", "anchors": ["vm/graph-builder.cpp: build, prescan, scan, prescan_jump_target, prescan_casetable, scanFlow, scanSwitchFlow"]}
{"id": "C19", "title": "Scanning a method terminates", "statement": "Validating a method always terminates, for every code image.", "quantifier": "every code image", "why_tests_cant": "non-termination witnesses are specially crafted images", "anchors": ["vm/graph-builder.cpp: prescan", "vm/opcodes.cpp: GetCaseTableSize, NextInstruction"]}
{"id": "C20", "title": "Verified methods have a balanced stack", "statement": "In a method accepted by the verifier, the number of bytes pushed minus popped since method entry is the same for every path reaching an instruction, is never negative, never exceeds the verifier's computed maximum, and pops performed by instructions never remove cells below the frame's own area.", "quantifier": "every accepted method and every path through it", "why_tests_cant": "unbounded paths (loops)", "anchors": ["vm/method-verifier.cpp: verify, verifyOp, pushStack, popStack, verifyJoin, handleJoins"]}
{"id": "C21", "title": "Verified methods have balanced heap usage", "statement": "In an accepted method in tracker/heap mode the statically tracked heap usage at each instruction is path independent and never pops what it did not push.", "quantifier": "every accepted method and every path", "why_tests_cant": "unbounded paths", "anchors": ["vm/method-verifier.cpp: pushHeap, popHeap, mergeTracker, handleJoins, verifyJoins"]}
{"id": "C22", "title": "Verified global accesses never fault", "statement": "In an accepted method every instruction that names a global data address directly accesses a cell inside the data section, so it never raises an invalid-address error at run time while the heap starts above the data section.", "quantifier": "every accepted instruction and every run-time state", "why_tests_cant": "all operands and states", "anchors": ["vm/method-verifier.cpp: verifyDatOffset, verifyOp"]}
{"id": "C23", "title": "Basic block order is a reverse postorder of the reachable blocks", "statement": "The block order computed for a method lists exactly the blocks reachable from the entry, each once, with the entry first, and every block that is not a loop-back target precedes its successors.", "quantifier": "every finite control-flow graph", "why_tests_cant": "all graphs", "anchors": ["vm/control-flow.cpp: computeOrdering"]}
{"id": "C24", "title": "Computed dominators are the dominators", "statement": "The immediate dominator assigned to each block is its true immediate dominator (every path from entry passes through it), and the constant-time dominates query answers true exactly when every path from the entry to the block passes through the other block.", "quantifier": "every finite control-flow graph with an entry", "why_tests_cant": "all graphs; fixpoint algorithm correctness", "anchors": ["vm/control-flow.cpp: computeDominance, IntersectDominators, dominates"]}
{"id": "C25", "title": "Accepted methods have reducible loops only", "statement": "If loop detection accepts a graph then every retreating edge targets a block that dominates its source, and that block is marked a loop header; a graph with an irreducible retreating edge is rejected.", "quantifier": "every finite control-flow graph", "why_tests_cant": "all graphs", "anchors": ["vm/control-flow.cpp: computeLoopHeaders"]}
{"id": "C26", "title": "Bit set behaves as a set", "statement": "The bit set used for block worklists behaves exactly as a finite set of naturals under set, unset, test, union and take-any, for indexes of any size.", "quantifier": "every sequence of operations with any indexes", "why_tests_cant": "unbounded indexes and sequences", "anchors": ["include/utils/bitset.h"]}
{"id": "C27", "title": "Function ids round trip", "statement": "The function id handed out for a public function resolves back to the same function; ids that were never handed out (even ids, out-of-range ids, the null function value) do not resolve to a function.", "quantifier": "every public count and every 32-bit id", "why_tests_cant": "all ids", "anchors": ["vm/plugin-runtime.cpp: GetPublicByIndex, GetFunctionById, GetNullFunctionValue, GetFunctionByIdOrNull", "compiler/code-generator.cpp: AddFunctionEntry"]}
{"id": "C28", "title": "Native binding state machine", "statement": "A native never runs unless bound; binding replaces the callback atomically, a bound ephemeral/optional native can be rebound or unbound as documented, and binding one native never affects another.", "quantifier": "every sequence of bind/unbind/call operations", "why_tests_cant": "unbounded histories", "anchors": ["vm/plugin-runtime.cpp: UpdateNativeBinding, UpdateNativeBindingObject, GetNativeReplacement"]}
{"id": "C29", "title": "Debug line lookup finds the last entry at or before an address", "statement": "For debug tables sorted by address, looking up the line (file) of a code address returns the entry with the greatest address not exceeding it, and fails exactly when every entry's address is greater.", "quantifier": "every sorted table and every address", "why_tests_cant": "unbounded table sizes; binary search boundaries", "anchors": ["vm/smx-image.cpp: LookupLine, LookupFile", "compiler/rtti-builder.cpp: build_debuginfo"]}
{"id": "C30", "title": "Public/native name lookup", "statement": "Looking up a public variable/function/native by name succeeds exactly when the name is present, and returns an index whose entry has that name.", "quantifier": "every table and every name", "why_tests_cant": "unbounded tables", "anchors": ["vm/smx-image.cpp: FindNative, FindPublic, FindPubvar"]}
{"id": "C31", "title": "SMX container round trip", "statement": "A file produced by the SMX writer from any list of named sections is accepted by the container validation, and each section's bytes are found unchanged under its name.", "quantifier": "every list of sections with distinct NUL-free names and arbitrary contents (at most 255 sections, total under 2^32)", "why_tests_cant": "all section lists and contents", "anchors": ["libsmx/smx-builder.cpp: SmxBuilder::write", "vm/smx-image.cpp: validate, findSection"]}
{"id": "C32", "title": "SMX container validation confines section accesses", "statement": "After an uncompressed file passes container validation, every section's byte range and every section name lies inside the buffer and every name is NUL terminated inside the string table.", "quantifier": "every byte sequence", "why_tests_cant": "all byte sequences", "anchors": ["vm/smx-image.cpp: validate, validateSection"]}
{"id": "C33", "title": "Name table and data pool interning", "statement": "Adding a string to the SMX name table (or bytes to the type data pool) returns an offset at which the final table holds exactly that string (those bytes); adding the same contents again returns the same offset; different names get different offsets; earlier offsets stay valid as the table grows.", "quantifier": "every sequence of additions", "why_tests_cant": "unbounded sequences", "anchors": ["libsmx/smx-builder.h: SmxNameTable::add", "libsmx/smx-builder.cpp: SmxNameTable::write", "libsmx/data-pool.cpp: DataPool::add", "utils/string-pool.h"]}
{"id": "C34", "title": "Compact integer encoding round trip", "statement": "Every unsigned 32-bit integer encoded by the compiler's compact encoding decodes to itself in the VM, consuming exactly the bytes written, regardless of what follows; the encoding is at most five bytes and prefix free.", "quantifier": "every 32-bit value and every trailing byte string", "why_tests_cant": "2^32 values times arbitrary trailing bytes", "anchors": ["libsmx/smx-encoding.h: CompactEncodeUint32", "vm/rtti.cpp: decodeUint32, tryDecodeUint32, ReadCompactUint32"]}
{"id": "C35", "title": "Type descriptors round trip", "statement": "Every type the compiler can encode into the type-information blob is accepted by the VM's validator and decoded back to the same type, whatever bytes surround it.", "quantifier": "every type expression of any depth", "why_tests_cant": "unbounded nesting", "anchors": ["compiler/rtti-builder.cpp: encode_type_into, encode_signature_into, to_typeid", "vm/rtti.cpp: decode, decodeFunction, validate"]}
{"id": "C36", "title": "Type validation makes decoding safe", "statement": "If the VM's type validator accepts a descriptor, decoding it never reads outside the blob and yields a type.", "quantifier": "every byte sequence and offset", "why_tests_cant": "all byte sequences", "anchors": ["vm/rtti.cpp: validate, validateFunction, decode, decodeFunction, FastRtti"]}
{"id": "C37", "title": "Constant folding agrees with run time", "statement": "Folding a binary operator on two constants at compile time produces the same 32-bit value the VM computes at run time for the instruction sequence the compiler would otherwise emit, for every pair of constants for which run time raises no error.", "quantifier": "every operator and every pair of 32-bit constants", "why_tests_cant": "2^64 pairs per operator", "anchors": ["compiler/expressions.cpp: calc", "compiler/code-generator.cpp: EmitBinaryOp, GetInt32BinaryOp", "vm/interpreter.cpp"]}
{"id": "C38", "title": "Compiled integer expressions compute their value", "statement": "Running the code emitted for an integer expression (constants, variables, unary, binary, comparison, logical and/or with short circuit, ternary, chained comparison, comma, assignment) leaves the expression's value in the primary register, leaves the stack pointer as it was, performs the assignments of evaluated sub-expressions in order, and raises exactly the error the source semantics prescribes.", "quantifier": "every expression of any depth, every variable valuation", "why_tests_cant": "unbounded expression trees and valuations", "anchors": ["compiler/code-generator.cpp: EmitExpr, EmitBinary, EmitBinaryInner, EmitTest, EmitLogicalExpr, EmitLogicalExprTest, EmitBinaryExprTest, EmitChainedCompareExpr, EmitTernaryExpr", "vm/interpreter.cpp"]}
{"id": "C39", "title": "Compiled control flow follows the source", "statement": "Running the code emitted for if / while / do / for / switch / break / continue / return statements performs the source-level behaviour: same variable updates in the same order, same termination, same result.", "quantifier": "every statement of any nesting, every terminating execution", "why_tests_cant": "unbounded programs and executions", "anchors": ["compiler/code-generator.cpp: EmitIfStmt, EmitDoWhileStmt, EmitForStmt, EmitLoopControl, EmitSwitchStmt, EmitReturnStmt"]}
{"id": "C40", "title": "Label linking resolves every use", "statement": "After a label is bound, every instruction that referenced it, before or after binding, holds the bound address, and no other byte of the code stream is changed.", "quantifier": "every interleaving of emits, label uses and binds for any number of labels", "why_tests_cant": "unbounded chains threaded through the code buffer", "anchors": ["compiler/label.h", "compiler/smx-assembly-buffer.h: bind_to, encodeAbsoluteAddress", "vm/label.h", "vm/assembler.h"]}
{"id": "C41", "title": "Compile-time array layout equals declared size", "statement": "For every array type and initialiser accepted by the compiler, the emitted row vectors plus data plus zero fill occupy exactly the number of cells the type's storage size declares, row vectors point to the start of their sub-array, and each initialised element is found at its row-major position.", "quantifier": "every array type (any rank, sizes) and initialiser tree", "why_tests_cant": "unbounded ranks and sizes", "anchors": ["compiler/array-helpers.cpp: CompoundEmitter, CalcArraySize, BuildCompoundInitializer"]}
{"id": "C42", "title": "String literals become NUL-terminated little-endian cells", "statement": "A string literal of n bytes is emitted as n/4+1 cells whose little-endian bytes are the string followed by one to four NUL bytes.", "quantifier": "every byte string", "why_tests_cant": "all lengths modulo 4, all contents", "anchors": ["compiler/lexer-inl.h: StringToCells", "compiler/lexer.cpp: litadd_str", "compiler/data-queue.cpp: Add"]}
{"id": "C43", "title": "Integer literals denote their positional value", "statement": "A decimal, hexadecimal, octal or binary literal (with digit separators) that is lexed without error has the positional value of its digits, as a 32-bit cell when it fits and as a 64-bit literal otherwise; literals above 64 bits are diagnosed.", "quantifier": "every digit string", "why_tests_cant": "unbounded digit strings; overflow thresholds", "anchors": ["compiler/lexer.cpp: lex_number"]}
{"id": "C44", "title": "UTF-8 literals round trip", "statement": "A source character outside ASCII in a string literal, decoded by the lexer and re-encoded into the string, yields the same bytes.", "quantifier": "every code point encodable in the accepted length range", "why_tests_cant": "whole code point space", "anchors": ["compiler/lexer.cpp: get_utf8_char, litchar, packedstring_char", "compiler/sci18n.cpp: UnicodeCodepointToUtf8"]}
{"id": "C45", "title": "Source positions map back to file, line and column", "statement": "For any set of files added to the source manager in any order, any recorded source position maps back to the file it came from, and its line number equals one plus the number of line breaks before it.", "quantifier": "every set of files, contents and every offset", "why_tests_cant": "unbounded files", "anchors": ["compiler/source-manager.cpp: TrackExtents, FindLocRangeSlow, GetLineAndCol", "compiler/source-file.cpp"]}
{"id": "C46", "title": "MD5 streaming is chunking independent", "statement": "The MD5 digest used to identify plugin code and data does not depend on how the input is split across update calls, and equals the specified digest of the concatenated input.", "quantifier": "every byte sequence and every split into chunks", "why_tests_cant": "unbounded inputs and splits", "anchors": ["vm/md5/md5.cpp: update, finalize, transform"]}
{"id": "C47", "title": "Watchdog stops runaway scripts at backward jumps", "statement": "Once the watchdog fires, every loop iteration taken through a jump or conditional jump is stopped with a timeout error before the jump is taken; a script without a fired watchdog is never stopped by it; a timeout is reported at most once per firing.", "quantifier": "every interleaving of watchdog ticks and script steps", "why_tests_cant": "unbounded schedules", "anchors": ["vm/interpreter.cpp: visitJUMP, visitJcmp", "vm/watchdog_timer.cpp: Run, NotifyTimeoutReceived, HandleInterrupt", "vm/environment.cpp: enterInvoke, leaveInvoke"]}
{"id": "C48", "title": "Call arguments are marshalled and copied back", "statement": "Calling a function through the function-call API passes cells unchanged, passes copies of arrays and strings, and after a successful call copies back exactly the by-reference, copy-back arguments; after a failed call nothing is copied back; in every case the plugin heap is restored and the pending argument list is emptied.", "quantifier": "every argument list and callee behaviour", "why_tests_cant": "unbounded argument lists, arbitrary callee", "anchors": ["vm/scripted-invoker.cpp: PushCell, PushArray, PushStringEx, Invoke, Execute"]}
{"id": "C49", "title": "Executable code allocations never overlap", "statement": "Blocks handed out by the executable-code allocator are disjoint, aligned to 16 bytes, inside their pool, whatever the sequence of allocation sizes.", "quantifier": "every sequence of requests", "why_tests_cant": "unbounded sequences", "anchors": ["vm/code-allocator.cpp: Allocate, findPool, AllocateFor, CodePool::allocate"]}
{"id": "C50", "title": "Pool allocator and byte buffer", "statement": "Compiler pool allocations are pointer-aligned and pairwise disjoint; the growable byte buffer always holds exactly the concatenation of everything successfully written, across any number of reallocations.", "quantifier": "every sequence of requests / writes", "why_tests_cant": "unbounded sequences", "anchors": ["utils/pool-allocator.h", "utils/pool-allocator.cpp", "utils/byte-buffer.h"]}
{"id": "C51", "title": "Error code text lookup is total", "statement": "Asking for the text of any error code returns a message of the table for valid codes and a null/unknown result otherwise, never reading outside the table.", "quantifier": "every integer error code", "why_tests_cant": "all 32-bit codes; failing point is one code", "anchors": ["vm/environment.cpp: GetErrorString, sErrorMsgTable"]}
{"id": "C52", "title": "Stack usage estimate covers every call chain", "statement": "The memory size the compiler records for a plugin is at least the sum of the local usage along every non-recursive call chain of the program.", "quantifier": "every acyclic call graph and usage assignment", "why_tests_cant": "unbounded graphs", "anchors": ["compiler/code-generator.cpp: ComputeStackUsage, DynamicMemorySize"]}
{"id": "C53", "title": "Exception handling scopes nest", "statement": "Errors raised inside an exception-handling scope are delivered to the innermost open scope that can see them, are not fatal to outer scopes, and leaving scopes in reverse order of entering restores the previous handler chain; a pending exception is cleared exactly by the handlers that catch it.", "quantifier": "every nesting of scopes and raise points", "why_tests_cant": "unbounded nesting", "anchors": ["vm/environment.cpp: EnterExceptionHandlingScope, LeaveExceptionHandlingScope, DispatchReport, enterInvoke, leaveInvoke"]}
{"id": "C54", "title": "Instruction encoding and reader agree", "statement": "Every instruction encoded as opcode plus operand cells is read back by the VM as the same instruction, whatever surrounds it, and the reader stops exactly behind it; for every instruction read, the number of cells consumed is the size declared in the public instruction table; a case table is skipped as a whole.", "quantifier": "every instruction with 32-bit operands, every surrounding code, every code image", "why_tests_cant": "The opcode set, operand values and surrounding code are unbounded; a single mismatch between the declared size and the reader desynchronises validation and execution only for particular byte sequences.", "anchors": ["include/smx/smx-v1-opcodes.h: OPCODE_LIST", "vm/pcode-reader.h: PcodeReader::visitOp", "compiler/smx-assembly-buffer.h: emit"]}
{"id": "C55", "title": "Loading a file never reads outside it", "statement": "Whatever bytes are passed to the plugin loader, validation either accepts or rejects them; it never reads a byte outside the file (or outside the decompressed image).", "quantifier": "every byte string", "why_tests_cant": "Fuzzing samples byte strings; a missing bound on one of the dozens of offsets shows only for particular combinations of offsets, sizes and file lengths.", "anchors": ["vm/smx-image.cpp: SmxImage::validate, validateRtti, validateDebugInfo", "vm/rtti.cpp: RttiData::validateType"]}
{"id": "C56", "title": "Escape sequences denote the documented bytes", "statement": "In a string literal, \\a \\b \\e \\f \\n \\r \\t \\v \\' \\\" \\% and the doubled control character denote one byte each; \\x with two hexadecimal digits denotes the byte with that value; a control character with decimal digits denotes the byte with that value and is diagnosed above 255 or with more than three digits; \\u and \\U denote the UTF-8 encoding of the code point written, and code points that do not exist are diagnosed.", "quantifier": "every escape sequence, every control character, every following text", "why_tests_cant": "the digits, the text that follows and the control character are arbitrary; overflow and out-of-range code points are rare values", "anchors": ["compiler/lexer.cpp: litchar, packedstring_char", "compiler/sci18n.cpp: UnicodeCodepointToUtf8"]}
{"id": "C57", "title": "Compiled programs do what the source says", "statement": "Calling a function of a compiled program with integer arguments returns the value the source prescribes, with the global variables the source prescribes; if the source run ends in an error the machine stops with that error and those globals; if the source does not terminate the machine does not return. The only exceptions are the documented resource limits: stack exhaustion and the watchdog.", "quantifier": "every program of functions with scalar parameters, locals and globals (any statements, recursion and mutual recursion), every argument list, every state of the globals", "why_tests_cant": "unbounded programs, inputs, recursion depths and run lengths", "anchors": ["compiler/code-generator.cpp: EmitFunctionDecl, EmitCallExpr, EmitStmt", "vm/interpreter.cpp: Run, visitCALL, visitRETN", "vm/plugin-runtime.cpp: pushAmxFrame, popAmxFrame, addStack"]}
{"id": "C58", "title": "Validating a method is memory safe", "statement": "Building the control-flow graph of a method reads only inside the code image, never moves to a position in front of the method, and does no signed arithmetic that overflows, whether the method is accepted or rejected.", "quantifier": "every code image, every method position in it", "why_tests_cant": "all byte images, including ones no compiler produces", "anchors": ["vm/graph-builder.cpp: prescan, prescan_casetable, scan, scanFlow, scanSwitchFlow", "vm/opcodes.h: NextInstruction"]}
{"id": "C59", "title": "Expressions are read by the grammar", "statement": "Reading an expression ends on every input. It gives a tree exactly if the tokens are written according to the language's grammar of levels (suffixes, prefix operators, ten levels of binary operators grouping to the left, chained comparisons, conditional and assignment grouping to the right), and no text has two trees; of two neighbouring operators the tighter one takes the operand between them.", "quantifier": "every sequence of tokens, with and without mandatory semicolons, where tags are allowed and where not", "why_tests_cant": "all nestings of all operators; absence of a second reading", "anchors": ["compiler/parser.cpp: parse_expr, hier14, hier13, plnge, plnge_rel, nextop, hier2, hier1, primary, parse_call, parse_view_as"]}
{"id": "C60", "title": "The verifier accepts what the compiler emits", "statement": "A plugin the compiler accepts can be run: when the virtual machine is about to run one of its functions, its verifier accepts the code the compiler emitted for it, so the function does what the source says and is not refused.", "quantifier": "every function the compiler accepts, at every position of the code and in every program", "why_tests_cant": "all nestings of all statements and expressions, and all ways a statement can end; the verifier follows every path of the emitted code", "anchors": ["compiler/code-generator.cpp: EmitFunctionDecl, EmitStmt, EmitDoWhileStmt, EmitForStmt, EmitSwitchStmt, EmitExpr, EmitTest", "compiler/semantics.cpp: CheckStmt, CheckDoWhileStmt", "vm/method-verifier.cpp: verify, verifyOp", "vm/graph-builder.cpp: prescan, scan"]}
{"id": "C61", "title": "The machine code assembler emits the instruction it is asked for", "statement": "When a plugin is compiled to machine code, every instruction the compiler asks the x64 assembler for is written as bytes that the processor reads as exactly that instruction, whichever registers, memory operands, displacements and immediates it has and whatever bytes follow.", "quantifier": "every assembler method, every register, operand, displacement and immediate, every continuation", "why_tests_cant": "sixteen registers in every operand position with special cases for four of them, all 32- and 64-bit displacements and immediates; a wrong prefix or field gives another valid instruction, not a crash", "anchors": ["vm/x64/assembler-x64.h: Operand, Assembler, emit1_64, emit1, emit2, emit3_sse, alu_imm_64, shift_imm_32, emit_modrm", "vm/assembler.h: writeInt32"]}
{"id": "C62", "title": "Compiled code does what the interpreter does", "statement": "Whether a plugin is interpreted or compiled to machine code makes no difference to it: the machine code compiled for an instruction changes the plugin's memory, stack, heap and registers exactly as the interpreter does, reports the same errors in the same circumstances, and touches nothing of the host's memory outside the plugin's block.", "quantifier": "every instruction with every operand, every content of memory and registers, every place of the plugin's block in the host's address space", "why_tests_cant": "the differences lie in corner values of 32- and 64-bit arithmetic, in addresses beyond the block and in where the operating system places it; a test sees one placement and a few values", "anchors": ["vm/x64/jit_x64.cpp: Compiler::visit*, emitCheckAddress, jumpOnError", "vm/interpreter.cpp: Interpreter::visit*", "vm/x64/constants-x64.h", "vm/x64/assembler-x64.h"]}
{"id": "C63", "title": "Conditional compilation keeps exactly what holds", "statement": "Of the text between #if, #elseif, #else and #endif the compiler sees exactly the part under the first condition that holds, or the #else part when none does, in order; conditions are judged with the definitions in force where they stand; a section inside a part that is left out is left out whole; an included file is read once and #endinput ends only the file it stands in; reading ends whatever the files contain; and directives that do not match are reported.", "quantifier": "every source text, every nesting of sections, every set of files and includes among them (circular ones too), every truth of every condition, every effect of text on later conditions", "why_tests_cant": "the state is a stack of open sections with flags, shared between files; errors show only for particular nestings, orders of directives and places of #include, of which there are unboundedly many", "anchors": ["compiler/lexer.cpp: Lexer::HandleDirectives, HandleSkippedSection, HandleEof, PlungeFile", "compiler/lexer.h: IsSkipping, SKIPMODE, PARSEMODE, HANDLED_ELSE", "compiler/parser.cpp: Parser::Parse (tINCLUDE)"]}
{"id": "C64", "title": "Jumps and switch tables of compiled code lead where they should", "statement": "In the code the JIT links, every jump, conditional jump and call to a label leads to the place where that label was bound, whichever of the two was emitted first, however far apart they are and however many jumps share the label; every word of a switch table is the absolute address of the block of its case; a call of a fixed address finds that address; and no other byte of the emitted code is changed.", "quantifier": "every sequence of calls of the assembler, every order of uses and bindings, every number of labels, tables and constants, every load address", "why_tests_cant": "uses of a label are threaded through the code bytes themselves and patched later, and table words are counted backwards from the code; whether two of these collide depends on the whole sequence of calls", "anchors": ["vm/label.h: Label, CodeLabelBase", "vm/x64/assembler-x64.h: bind, jmp, j, call, lea, emit_absolute_address, emitJumpTarget, emitRipRelativeConstant", "vm/x64/assembler-x64.cpp: emitToExecutableMemory", "vm/x64/jit_x64.cpp: visitSWITCH"]}
{"id": "C65", "title": "A compiled method runs as the interpreter would run it", "statement": "Once a method has been compiled and its code linked, the processor that fetches and decodes those bytes follows the interpreter from instruction to instruction, through jumps, conditional jumps, switches and loops, with the same plugin memory, registers and stack at each instruction; and when the interpreter would refuse an instruction, the processor reaches the code that reports the error, with the number of the error and a return address from which the failing instruction can be found.", "quantifier": "every method the graph builder accepts, every order and shape of its blocks, every path through it of any length, every state of the plugin, every load address", "why_tests_cant": "the paths through a method are unbounded in number and length, and where the code of a block lies, which jumps are short, and which tables exist depend on the whole method", "anchors": ["vm/jit.cpp: CompilerBase::emit, visitJUMP, emitErrorThunk, emitThrowPathIfNeeded", "vm/x64/jit_x64.cpp: visitJcmp, visitSWITCH, emitThrowPath", "vm/jit.h: isNextBlock, isBackedge, emitCipMapping", "vm/control-flow.cpp: ControlFlowGraph", "vm/pcode-reader.h: PcodeReader"]}
{"id": "C66", "title": "The watchdog can stop compiled code", "statement": "When a timeout is declared, compiled code that loops gets to the code that reports the timeout after a bounded number of instructions, whatever it was doing; the timeout is attributed to the instruction at which the loop was left; until then, and while only some of the jumps have been redirected, the code behaves as the interpreter does; and undoing the redirection restores the code exactly.", "quantifier": "every compiled method, every path through it, every state of the plugin, every moment at which the jumps are redirected and every subset of them that has been redirected so far, every load address", "why_tests_cant": "a test sees a few loops stopped at a few moments; which jumps must be redirected depends on the shape and the order of the blocks of the whole method, and the bytes patched lie in the middle of running code", "anchors": ["vm/environment.cpp: SwapLoopEdge, PatchAllJumpsForTimeout, UnpatchAllJumpsFromTimeout", "vm/compiled-function.h: LoopEdge", "vm/jit.cpp: CompilerBase::emit, visitJUMP", "vm/x64/jit_x64.cpp: visitJcmp, visitSWITCH, emitErrorHandlers", "vm/jit.h: isBackedge"]}
{"id": "C67", "title": "A timeout reaches all compiled code, and only once", "statement": "However the watchdog thread and the main thread interleave, once a timeout has been declared every loop of every compiled method reports it when it next goes around; handling it leaves all code as compiled and the watchdog at work; no loop reports a timeout when none is pending; and each timeout is reported at most once.", "quantifier": "every interleaving of the two threads, every number of methods, every moment at which methods are compiled, linked, called and destroyed", "why_tests_cant": "the interleavings that matter are windows of a few instructions between two threads, for instance a timeout declared while a method is being compiled", "anchors": ["vm/watchdog_timer.cpp: WatchdogTimer::Run, NotifyTimeoutReceived, HandleInterrupt", "vm/environment.cpp: PatchAllJumpsForTimeout, UnpatchAllJumpsFromTimeout, Invoke", "vm/jit.cpp: CompilerBase::Compile, CompileFromThunk, InvokeReportTimeout", "vm/method-info.cpp: setCompiledFunction", "vm/plugin-runtime.cpp: Invoke"]}
{"id": "C68", "title": "Compiled functions call each other and return as the plugin's calls do", "statement": "A compiled function that calls others, to any depth the native stack has room for, runs to the same state as the plugin's own call discipline prescribes: each call makes a frame on the plugin's stack with the caller's frame and heap top in it, checks once that the stack it may need is there, and each return takes the frame and the arguments away, gives the caller back its frame, heap top and stack pointer, and hands over the result; the native stack and the registers the caller of compiled code relies on are as before. A call that finds too little stack raises the stack error and nothing else happens.", "quantifier": "every compiled method, every nesting and number of calls, every state of plugin memory, every placement of the code", "why_tests_cant": "each nesting of calls is a different native stack; an off-by-one in the frame only shows when some caller far up resumes", "anchors": ["vm/x64/jit_x64.cpp: Compiler::emitPrologue, visitCALL, visitRETN", "vm/x64/macro-assembler-x64.cpp: enterFrame, leaveFrame", "vm/plugin-runtime.cpp: pushAmxFrame, popAmxFrame"]}
{"id": "C69", "title": "A stack trace of compiled code lists the calls that have not returned", "statement": "When an instruction of a compiled function fails with a run-time error, the stack trace that the host makes shows that function with the failing instruction, then every caller that has not returned, innermost first, each with the call instruction it is at, and nothing else; and the error return finds the frame by which the host entered the plugin.", "quantifier": "every compiled method, every history of calls and returns before the error, every depth the native stack has room for, every placement of the code", "why_tests_cant": "each history of calls leaves a different native stack and each instruction a different return address; a wrong offset in a frame or a duplicate in the address map only shows for some of them", "anchors": ["vm/stack-frames.cpp: JitFrameIterator", "vm/x64/frames-x64.h: FrameLayout", "vm/compiled-function.cpp: CompiledFunction::FindCipByPc", "vm/jit.cpp: find_entry_fp, emitThrowPath", "vm/x64/macro-assembler-x64.cpp: enterExitFrame"]}
{"id": "C70", "title": "A name refers to the innermost declaration in scope", "statement": "In every plugin of the modelled language, each name that is used refers to what the scoping rules say: the latest declaration before it in the innermost block that has one, then the parameters, then the file's static names, then the globals; the name of a variable is not in scope in its own initialiser; static names of one file are not seen in another; functions and globals are seen in all bodies, whatever the order. A duplicate in the same block is an error, and a local that hides a variable of an outer scope is reported.", "quantifier": "every sequence of files, globals, constants, enums and functions with arbitrarily nested statements and expressions", "why_tests_cant": "scopes are made only when a name is added and are linked by pointers, so which scope a name lands in depends on everything around it; tests see a few nestings", "anchors": ["compiler/name-resolution.cpp: SymbolExpr::Bind, VarDeclBase::Bind, BlockStmt::Bind, ForStmt::Bind, FunctionDecl::Bind", "compiler/scopes.h, compiler/symbols.cpp: SymbolScope, FindSymbol, CheckNameRedefinition, DefineSymbol", "compiler/sema.h, compiler/semantics.cpp: AutoCreateScope, AutoEnterScope"]}
{"id": "C71", "title": "A function has one definition", "statement": "The compiler accepts a name that is declared as a function in several places only if the declarations are a forward and one public implementation of it (in either order); everything else is an error. Uses of the name then refer to the implementation.", "quantifier": "every sequence of declarations of a name, of every kind: natives, forwards, functions with any modifiers, with and without a body", "why_tests_cant": "the check looks at the first declaration and the new one only, so what is accepted depends on the sequence; tests try pairs", "anchors": ["compiler/name-resolution.cpp: FunctionDecl::EnterNames, FunctionDecl::CanRedefine", "compiler/parse-node.cpp: FunctionDecl::impl, FunctionDecl::canonical", "compiler/parser.cpp: Parser::parse_function"]}
{"id": "C72", "title": "A function with a return type returns a value", "statement": "A function that is declared with a return type other than void, and that compiles without a diagnostic, never runs off its end: every call that ends normally ends at a return with a value. A return with a value in a void function is always reported.", "quantifier": "every function of the source language modelled (all statements, nested in any way), every state of the variables, every behaviour of the functions it calls, any number of rounds of its loops", "why_tests_cant": "the check is a flow analysis over arbitrary nesting of loops, switches, breaks and constant conditions; tests try single constructs", "anchors": ["compiler/semantics.cpp: Semantics::CheckReturnStmt, Semantics::CheckFunctionReturnUsage, Semantics::CheckFunctionDeclImpl", "compiler/name-resolution.cpp: FunctionDecl::Bind", "compiler/parse-node.cpp: FunctionDecl::MustReturnValue"]}
{"id": "C73", "title": "Exactly the functions that are needed get code", "statement": "A function is in the compiled plugin exactly if it has a body and is public or can be reached from a public function through mentions in bodies; so no function that is called or taken as a callback is missing. A function is reported as unused exactly if it has a body, is not public, stock or native, and can be reached neither from a public function nor from a stock function or method.", "quantifier": "every program: any number of functions, any reference graph, with cycles", "why_tests_cant": "the graph is arbitrary; the traversal must end and be complete on cyclic graphs of any size", "anchors": ["compiler/semantics.cpp: Semantics::DeduceLiveness, Semantics::DeduceMaybeUsed, Semantics::TestSymbol", "compiler/symbols.cpp: markusage", "compiler/parse-node.cpp: FunctionDecl::AddReferenceTo", "compiler/code-generator.cpp: CodeGenerator::EmitFunctionDecl"]}
{"id": "C74", "title": "Arrays that are passed and assigned fit", "statement": "An array assignment that compiles copies no more than the array on the left holds and no more than the array on the right has. An array that is accepted for a parameter of an array type has as many dimensions as the parameter says, the sizes it says, and elements of the same width; an enum struct is accepted only for an array of any without a size or with its size.", "quantifier": "every pair of types, with any number of dimensions and any sizes, every nesting of conditional expressions", "why_tests_cant": "the rules combine sizes, element types, contexts and flags; tests try some pairs", "anchors": ["compiler/type-checker.cpp: TypeChecker::CheckArrays, TypeChecker::CheckImpl, TypeChecker::Check", "compiler/semantics.cpp: BinaryExprChecker::CheckAssignmentLHS, BinaryExprChecker::CheckAssignmentRHS, Semantics::CheckTernaryExpr, Semantics::CheckArgument", "compiler/array-helpers.cpp: CalcArraySize"]}
{"id": "C75", "title": "A callback takes what its type says it is given", "statement": "If the compiler accepts a function where a function type is expected, in an argument or in an assignment, then one of the signatures of this type has as many parameters as the function, and each is passed in the way that the function takes it: a value of so many cells, an address, or an array of the same sizes and element width. The compiler always comes to an answer.", "quantifier": "every function type with any signatures, every function, types of parameters nested to any depth", "why_tests_cant": "signatures are arbitrary and function types may contain function types; there are two implementations of the comparison", "anchors": ["compiler/type-checker.cpp: TypeChecker::CheckFunction, TypeChecker::CheckFunctionSignature, TypeChecker::CheckValueType", "compiler/expressions.cpp: matchfunctags, functag_compare, funcarg_compare, matchtag", "compiler/name-resolution.cpp: TypedefDecl::EnterNames, TypedefDecl::Bind"]}
{"id": "C76", "title": "Fields and elements do not share storage", "statement": "For every program the compiler accepts, an enum struct has exactly the fields written in it, each with its own storage inside the struct; two parts of one variable (fields, array elements, characters, reached through any sequence of indices and field names), neither of which contains the other, have no byte in common and lie within the variable; and the code of an access such as b[i].items[2].name[j] computes the address of exactly that part, or stops with an array bounds error if an index is out of range.", "quantifier": "all sequences of enum struct declarations of any nesting, all variables of them or of arrays of them, all access expressions with constant and computed indices, all index values, all memory states", "why_tests_cant": "The number of declarations, nesting depths, access paths and index values is unbounded; a test shows a few offsets.", "anchors": ["compiler/name-resolution.cpp: EnumStructDecl::EnterNames", "compiler/types.cpp: Type::CellStorageSize", "compiler/array-helpers.cpp: CalcArraySize", "compiler/semantics.cpp: CheckIndexExpr, CheckEnumStructFieldAccessExpr", "compiler/code-generator.cpp: EmitIndexExpr, EmitFieldAccessExpr", "compiler/symbols.cpp: FindEnumStructField"]}
{"id": "C77", "title": "Macros stand for their text", "statement": "Wherever the name of a macro is used, the compiler reads the text of its definition in its place, with each parameter %n replaced by the text of the argument (#%n by the argument as a string), where arguments are separated by the commas outside of parentheses and strings; the replaced text is read again for further macros, except that a macro is not replaced within its own text; a macro with parameters whose name is not followed by a parenthesis is an ordinary name; and whatever the definitions are, reading the program comes to an end.", "quantifier": "all tables of definitions, with and without parameters, referring to each other in any way; all program texts; all nesting depths and argument texts", "why_tests_cant": "The definitions, the texts and the depth of replacements are unbounded, and termination cannot be observed by a test.", "anchors": ["compiler/lexer.cpp: EnterMacro, SkimMacroArgument, PerformMacroSubstitution, SkimUntilEndOfLine, LexNewToken, LexSymbolOrKeyword, HandleEof, FindMacro, lexpush, match", "compiler/lexer.h: MacroEntry, macros_in_use_"]}
{"id": "C78", "title": "Arguments reach the parameters they are written for", "statement": "In a call, the arguments without names go to the parameters in their order (after the object of a method call), an argument .name = e goes to the parameter with that name, every parameter without an argument, or whose argument is _, gets its own default value, and what is left goes to '...'; every argument is type-checked as the parameter that gets it; the order of named arguments does not matter; and a call is refused exactly if an unnamed argument follows a named one, a name is unknown or its parameter already has an argument, there are too many arguments, or a parameter has neither an argument that fits it nor a default value.", "quantifier": "all functions with any number of parameters, defaults and with or without '...', all argument lists mixing positions, names and _, and all type rules", "why_tests_cant": "The combinations of signatures and argument lists are unbounded, and an argument at the wrong parameter is silent when its type fits.", "anchors": ["compiler/semantics.cpp: CheckCallExpr, CheckArgument", "compiler/parser.cpp: parse_call", "compiler/parse-node.cpp: FindNamedArg"]}
{"id": "C79", "title": "What a block takes from the heap is released when it is left", "statement": "Local arrays and temporaries are released when the block they belong to is left, at its end, by break, by continue or by returning, and not while they are in scope: on every path through a function, every restoring of the heap has its saving, nothing is released that was taken before, each round of a loop starts with the heap as the round before, and the heap a function takes is bounded by what is written in it, however often its loops go round.", "quantifier": "all functions built from expressions and declarations that take any amounts of heap, blocks, if, while, do, for, switch, break, continue and return, nested in any way; all paths; all points of the execution, finished or not", "why_tests_cant": "The paths and the numbers of rounds are unbounded; a missing release only shows when the heap is exhausted, and a release too many as overwritten data.", "anchors": ["compiler/code-generator.cpp: EmitStmt, EnterHeapScope, LeaveHeapScope, EmitLoopControl, EmitDoWhileStmt, EmitForStmt", "compiler/semantics.cpp: CheckStmt, CheckBlockStmt, CheckDoWhileStmt, CheckForStmt, NeedsHeapAlloc, AssignHeapOwnership", "vm/plugin-runtime.cpp: enterHeapScope, leaveHeapScope"]}
{"id": "C80", "title": "Global and static variables and literals have storage of their own", "statement": "In a compiled program each global or static variable and each literal has cells of its own in the data section, as many as its type has, that hold its initial value when the program starts. Code that reads, writes or passes a variable names the storage of that variable, wherever in the source it is declared, and the table of public variables lists the public variables with their storage.", "quantifier": "every sequence of declarations, uses and literals, of any types and initialisers, in any order", "why_tests_cant": "unboundedly many variables and uses before and after the declarations; an address that is wrong by one variable goes unnoticed if the other variable is not looked at", "anchors": ["compiler/code-generator.cpp: EmitVarDecl, EmitGlobalVar, EmitPstruct, EmitRvalue, EmitStore", "compiler/data-queue.cpp", "compiler/smx-assembly-buffer.h: address", "compiler/label.h", "compiler/name-resolution.cpp: VarDeclBase::EnterNames"]}
{"id": "C81", "title": "64-bit integer expressions compute their value", "statement": "The code compiled for expressions and declarations of type int64 computes what they mean: operands are evaluated from left to right and count with the value they have at that time, the operators calculate in 64 bits with sign, dividing by zero and overflowing division end in a run time error, assignments, compound assignments, ++ and -- change the variable they name and no other, whether it is local, global, a parameter or behind a reference, conversions from and to int and comparisons agree with the numbers, and intermediate results do not disturb each other or the variables.", "quantifier": "all sequences of statements and declarations, nested blocks and expressions of type int64 and int built from literals, variables, operators, assignments, ++ and --, conversions, comparisons and comma; all values of the variables; all positions of frames and variables in memory that do not overlap", "why_tests_cant": "Expressions are unbounded and their temporaries are taken from a list of slots that are used again; an overlap needs a particular shape of the expression and particular values to be seen.", "anchors": ["compiler/code-generator.cpp: EmitExpr, EmitUnary, EmitIncDec, EmitBinary, EmitBinaryInner, EmitBinaryOp, EmitStore, EmitRvalue, EmitLocalVar, AcquireTempSlot, EmitNumber64Expr, EmitSimpleCastExpr", "compiler/smx-assembly-buffer.h: address", "vm/interpreter.cpp: visitMOVE_I64 and the other int64 instructions", "vm/method-info.cpp: BuildLocalOffsetTable"]}
{"id": "C82", "title": "Local variables start with the values they are declared with", "statement": "Each time control comes to declarations of local variables, afterwards a scalar without a value is 0 and one with a constant has that value, and every element of an array or enum struct, reached by indexing through any number of dimensions, is what the initialiser says, or 0 where it gives nothing, whatever was in memory before. Each array has memory of its own, from the top of the heap on; the data of the program and all other memory and registers are unchanged. The only run time error is that the heap has no room for the arrays.", "quantifier": "all sequences of declarations of scalars, arrays of any number and size of dimensions and enum structs, with any accepted initialisers; all contents of the data, heap and stack; all positions of heap and frame", "why_tests_cant": "What is in memory before depends on everything that ran; arrays of all shapes and sizes are split in different ways between row vectors, copied data and filled zeros.", "anchors": ["compiler/code-generator.cpp: EmitLocalVar", "compiler/array-helpers.cpp: CompoundEmitter, BuildCompoundInitializer", "compiler/rtti-builder.cpp: AddLocalSlot", "vm/interpreter.cpp: visitHEAP, visitINITARRAY, visitSTOR_S", "vm/plugin-runtime.cpp: initArray, heapAlloc"]}
{"id": "C83", "title": "A program with an error is not compiled, and the user is told", "statement": "The compiler exits with code 0 exactly when every phase succeeds and none raises an error. It writes the output file exactly when it exits with code 0 and a file was wanted. When it exits with code 1 it has printed at least one error. When it exits with code 0 it has printed every warning raised, except those given up with a failed attempt and those the user disabled, each as often as it was raised. It prints nothing that was not raised. Disabled warnings are not printed and do not stop the compilation.", "quantifier": "every sequence of errors and warnings raised by the phases of the compiler, in any order, inside any nesting of attempts that are kept or given up, with any set of disabled warnings, with and without warnings as errors", "why_tests_cant": "Errors are swallowed after the first one in a statement, held back while an overload or conversion is tried, and counted in three places. A test compiles some programs with some errors; an error lost in one interleaving would produce a broken binary with exit code 0.", "anchors": ["compiler/errors.cpp: ReportManager::ReportError, DeduceErrorType, AutoDeferReports, AutoCountErrors, DumpErrorReport, EnableWarning", "compiler/main.cpp: RunCompiler", "compiler/code-generator.cpp: CodeGenerator::Generate", "compiler/assembler.cpp: splat_to_binary"]}
{"id": "C84", "title": "A program's text is read as the tokens it is written with", "statement": "Names, keywords, integers, operators and signs are read as the tokens they are written with, in order, whatever white space, comments and continued lines stand between them. Where several operators could be read, the longest is. A text can be taken apart in only one way. The body of a function is set aside up to the brace that closes it, and reading it back later gives the same tokens as reading the text, for every choice the parser makes on whether a name and a colon are a tag.", "quantifier": "every sequence of tokens of any length, every white space and comment between them, every nesting of braces, and every sequence of the parser's choices on tags; outside directives, macros, strings, characters and floats", "why_tests_cant": "There are unboundedly many texts, and whether two neighbouring tokens run together depends on both. Bodies are lexed once and parsed later from a cache, with the meaning of a colon decided only then. A test tries some texts and some choices.", "anchors": ["compiler/lexer.cpp: Lexer::FindNextToken, LexIntoToken, LexSymbolOrKeyword, LexKeyword, LexSymbol, SkipLineComment, HandleComment, LexFunctionBody, LexInjectedToken, InjectCachedTokens"]}
{"id": "C85", "title": "Tokens given back are read again, and a newline ends a statement", "statement": "However the parser reads tokens and gives them back, at most three at a time, the current token is the last one read and the next one is the one after it in the text. Where semicolons are optional, a statement is ended by a semicolon, by the end of the files, and by exactly those newlines that are not continued with a backslash; the token on the next line stays to be read. Where semicolons are needed nothing else ends a statement. The same holds in function bodies, which are set aside and parsed after all files have been read.", "quantifier": "every program of any number of files, lines and tokens, every sequence of reads and give-backs, every position in the text", "why_tests_cant": "The test for the same line compares line numbers of tokens with the line the lexer is at, which depends on how far it has read, in which file, and on whether the tokens come from the text or from the cache. A test tries some layouts.", "anchors": ["compiler/lexer.cpp: Lexer::lex, lexpush, lexpop, match, peek_same_line, IsSameSourceFile, HandleNewline, InjectCachedTokens", "compiler/parser.cpp: Parser::Parse"]}
{"id": "C86", "title": "A methodmap has the members of the maps it extends, nearest first", "statement": "Whatever methodmaps a program declares, also maps that extend themselves through others, name resolution ends, no map is left above itself, and every search through the maps another extends ends. In an accepted program: every map has one line of bases, all declared before it; x.name means the member of that name declared in the nearest map of the line, and no map declares a name twice; delete calls the destructor of the nearest map that has one; a value is taken for the type of exactly the maps on its line; a map is nullable exactly when the last map of its line is, new is for those and a plain call for the others, and both call the map's own constructor; the object is passed to a method exactly when the method takes one.", "quantifier": "every list of methodmap declarations of any length, with any names, bases, properties and methods; every map of it; every name", "why_tests_cant": "Bases are tied one by one while others are not yet tied, and the searches have no bound of their own; that they end and find the nearest member depends on all declarations together. A test tries some hierarchies.", "anchors": ["compiler/name-resolution.cpp: MethodmapDecl::EnterNames, MethodmapDecl::Bind", "compiler/parse-node.cpp: MethodmapDecl::FindMember, LookupMethodmap", "compiler/semantics.cpp: CheckFieldAccessExpr, BindCallTarget, BindNewTarget, CheckDeleteStmt", "compiler/expressions.cpp: HasTagOnInheritanceChain", "compiler/parser.cpp: parse_methodmap, parse_methodmap_method"]}
{"id": "C87", "title": "Statements are read as the grammar says", "statement": "With #pragma semicolon 1, reading a statement ends for every sequence of tokens, and reads a statement exactly if the tokens start with a way of writing it: if, while, do, for, switch with its cases, blocks, return, break, continue, assert, delete, exit, declarations of variables and expressions. An else belongs to the nearest if. No sequence of tokens is a way of writing two statements. A declaration is not taken as a branch or body; default is last in a switch; break and continue are taken in loops only; a name in front of the colon of a case is a value and not a tag. The body of a function goes to the brace that closes it. exit e ends with its semicolon.", "quantifier": "every sequence of tokens of any length, in or outside loops; every statement of any depth", "why_tests_cant": "The parser tells declarations from expressions by looking a few tokens ahead and nests without bound; that it takes exactly the grammar depends on every sequence of tokens and every nesting. A test tries some programs.", "anchors": ["compiler/parser.cpp: Parser::parse_stmt, parse_compound, parse_if, parse_for, parse_switch, parse_case, parse_local_decl, parse_var, parse_new_decl, reparse_new_decl, parse_post_dims"]}
{"id": "C88", "title": "Constants and enum constants have the values they are written with", "statement": "In a program that compiles, a constant at the top level has the value of its expression, in the values the names in it have in the whole program. A constant of an enum has the value written for it; without one it is 0 if it is the first, and otherwise one more than the constant in front of it, or twice that under (<<= 1), so the k-th constant after a written one is k more, or 2^k times as much, modulo 2^32. The name of an enum, used as the size of an array, is the value the next constant would have, 0 for an empty enum. No name is declared twice, and every name in such an expression is a constant declared before, at the top level or further up in the same enum.", "quantifier": "every sequence of declarations of constants, enums (named or not, with and without (<<= 1), with any number of constants) and other names; every constant expression; every position of the declaration in the program", "why_tests_cant": "the value of a constant depends on every declaration in front of it through names, runs of constants without values and redefinitions; tests check a few enums", "anchors": ["compiler/name-resolution.cpp EnumDecl::EnterNames, ConstDecl::EnterNames, ConstDecl::Bind", "compiler/parser.cpp Parser::parse_enum", "compiler/array-helpers.cpp ArrayTypeResolver::ResolveDimExpr", "compiler/semantics.cpp Expr::EvalConst"]}
{"id": "C89", "title": "The compiled file says the truth about functions", "statement": "In the file the compiler writes for a program, the code of every live function is at an address of its own, and functions do not overlap. Every call in it has the address of the function that is called; every call of a native has the place, in the table of natives, of an entry with that native's name, and that table has one entry for each native that is called and no other. Every function is in the table of functions with its address; a host that looks up the name of a public function gets that function's entry, whatever was looked up before, and finds no other function by a name that does not start with a dot. A function used as a value, given to a host, gives the host that same entry. An address inside the code of a function gives the name of that function, and any other address gives none.", "quantifier": "every list of functions, natives and forwards with any bodies, calls, uses as values and visibility; every other name in the file; every history of lookups and every address", "why_tests_cant": "addresses, places and names come from labels bound before and after their uses and from tables filled while code is written; that they agree must hold for every order of functions and calls", "anchors": ["compiler/code-generator.cpp CodeGenerator::EmitFunctionDecl, EmitCall, AddFunctionEntry, AddNativeEntry, EmitSymbolExpr", "compiler/rtti-builder.cpp RttiBuilder::add_method, finish_method, add_native", "vm/smx-image.cpp SmxImage::FindPublic, GetMethodRttiByOffset", "vm/plugin-runtime.cpp PluginRuntime::GetFunctionByName, GetFunctionById"]}
{"id": "C90", "title": "Debug information says which variables are in scope", "statement": "For every address in the body of a function, the variables that the debug tables of the compiled file list for that address are the used variables in scope there, innermost first, with their names, storage classes and addresses; a name found there is the variable the program means by it. Global variables are listed from their declaration to the end of the code and static variables of a file until the file is left, each once, and the loader accepts the tables.", "quantifier": "every program (functions with nested blocks of any depth, included files), every function and every address in it", "why_tests_cant": "nesting of scopes, number of functions and files and addresses are unbounded", "anchors": ["compiler/code-generator.cpp: AutoEnterScope, EnqueueDebugSymbol, AddDebugSymbols, EmitChangeScopeNode, EmitFunctionDecl, Generate", "compiler/rtti-builder.cpp: AddDebugVar, add_method, finish_method", "vm/smx-image.cpp: validateDebugVariables, validateSymbolAddress, validateDebugMethods", "include/smx/smx-typeinfo.h: smx_rtti_debug_method, smx_rtti_debug_var"]}
{"id": "C91", "title": "Float expressions compute their value", "statement": "The code of an expression of floats, or of floats mixed with integers and booleans (arithmetic, comparisons and chains of them, negation, `!`, assignments, compound assignments, `++` and `--`, `float()`), leaves its value: an operand that is not a float is converted if the other one is, operands are evaluated once and from left to right, every variable (local, by reference, or global) has the value the expression gives it, and the stack is as before; division of integers by zero is a run time error. An expression that is replaced by a constant has that value. The jump of a condition is taken exactly if the condition is true.", "quantifier": "every expression, every frame layout, every value of every variable, and every float arithmetic with commutative addition, multiplication and equality", "why_tests_cant": "expressions nest without bound and each operator depends on constants, order and types of its operands", "anchors": ["compiler/code-generator.cpp: EmitUnary, EmitIncDec, EmitBinary, EmitBinaryInner, EmitBinaryOp, EmitChainedCompareExpr, EmitTest, EmitBinaryExprTest, EmitSimpleCastExpr, EmitFloatBuiltin, EmitRvalue, EmitStore", "compiler/semantics.cpp: CheckUnaryExpr, BinaryExprChecker, CheckChainedCompareExpr, BuildSimpleCast", "compiler/coercion-rules.cpp: FindBinaryCoercionRule", "vm/interpreter.cpp: visitADD_F32 and the other instructions on floats"]}
{"id": "C92", "title": "Warnings about unused variables", "statement": "The compiler warns about a local variable, a constant in a function, an argument or a global variable exactly if nothing reads it: 203 if nothing assigns to it either, 204 if something does. A name counts as a use of the innermost variable of that name that has been declared before it. Public variables, stock variables of included files, global constants, references, arguments of public functions and of callbacks, and variables in `#pragma unused` are not warned about.", "quantifier": "every program: any global variables, any functions with any nesting of blocks, declarations and expressions, with any names reused in any scopes", "why_tests_cant": "names are hidden and reused in unboundedly many nested scopes, and marks are set in two passes over the whole program", "anchors": ["compiler/name-resolution.cpp: Bind, BindLval, FunctionDecl::Bind, PragmaUnusedStmt::Bind", "compiler/semantics.cpp: Analyze, CheckBlockStmt, CheckPragmaUnusedStmt, TestSymbol, TestSymbols", "compiler/symbols.cpp: markusage"]}
{"id": "C93", "title": "Values are converted to other types by rules, or there is a message", "statement": "If a value is assigned, passed or returned without a message, then, unless a variable of type `any` is involved, it stays what it is: a float stays a float, a function a function, an enum struct the same enum struct, and a number or handle a number or handle, or becomes an int64. A variable of an enum or methodmap type gets only values of that type, of a methodmap that extends it, or null if it is nullable. A variable of a function type gets only null and functions that fit it, and the result of a function without a value is never a value. Assignments, calls and returns convert the same types without a message. view_as is accepted exactly between types of one cell, between the two widths of numbers, for null, and for functions that fit. The two values of c ? x : y have the same type, or types that fit.", "quantifier": "every pair of types, every hierarchy of methodmaps, and every sequence of assignments, calls and returns", "why_tests_cant": "hierarchies and sequences of conversions are unbounded, and three different places check types by their own rules", "anchors": ["compiler/semantics.cpp: CheckAssignmentRHS, CheckArgument, CheckReturnStmt, CheckCastExpr, CheckTernaryExpr, IsValidIntWidthChange, CanPromoteToInt64", "compiler/type-checker.cpp: CheckValueType, CheckFunction", "compiler/expressions.cpp: matchtag, matchobjecttags, HasTagOnInheritanceChain"]}
{"id": "C94", "title": "An include reads the first file in the search order, once", "statement": "`#include \"name\"` reads the first file among: the name as given, the name in the directory of the including file, the name in each include path in order, where at each place the name alone and then with .inc, .p and .pawn is tried. `#include <name>` looks only in the include paths, and an absolute name is not looked for there. A file is read at most once in a compilation, by whatever paths it is included, so files that include each other do no harm, and after it the including file goes on. If there is no file, `#include` stops the compilation with an error and `#tryinclude` does nothing. The name is the text between the quotes or brackets without spaces around it.", "quantifier": "every file system with any links, every list of include paths, and every sequence of includes and ends of files, nested to any depth", "why_tests_cant": "which file is found depends on the whole file system and on everything included before", "anchors": ["compiler/lexer.cpp: PlungeFile, PlungeQualifiedFile, OpenFile, EnterFile, HandleEof, SynthesizeIncludePathToken", "compiler/source-manager.cpp: SourceManager::Open", "compiler/source-file.cpp: SourceFile::Open", "compiler/parser.cpp: Parser::Parse"]}
