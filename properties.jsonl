{"id": "C01", "title": "UTF-8 encode/decode round trip", "statement": "Encoding any Unicode code point up to U+10FFFF yields the UTF-8 sequence of 1 to 4 bytes for it, decoding that sequence (whatever bytes follow) gives back the same code point and consumes exactly those bytes; code points above U+10FFFF and destination buffers that are too small are refused without writing.", "quantifier": "every 32-bit code point value, every buffer size, every continuation of the byte string", "why_tests_cant": "There are over a million code points times arbitrary following bytes; tests sample a few per length class and miss boundary values and mask mistakes.", "anchors": ["src/lib/utils/utf8.c: utf8_sequence_from_utf32_codepoint, utf8_sequence_to_utf32_codepoint"]}
{"id": "C02", "title": "Character count of text", "statement": "For every text, the character count reported for its UTF-8 bytes equals the number of code points it was built from, and it never exceeds the number of bytes; the empty text has count 0.", "quantifier": "every finite sequence of code points / every byte string", "why_tests_cant": "Strings are unbounded; a unit test fixes a handful of strings.", "anchors": ["src/lib/utils/utf8.c: utf8_strlen", "src/lib/objects/o_string.c: Object_FromString, count"]}
{"id": "C03", "title": "Character indexing of strings", "statement": "s[i] for 0 <= i < count(s) is the one-character string holding the i-th code point of s, concatenating s[0], s[1], ... gives s back, and any other index (negative, too large, non-integer) is an error that never touches memory outside the string.", "quantifier": "every string built from code points, every integer index", "why_tests_cant": "Ranges over all strings and all indices, including mixes of 1..4 byte characters.", "anchors": ["src/lib/objects/o_string.c: select, char_index_to_offset", "src/lib/utils/utf8.c: utf8_strlen, utf8_sequence_to_utf32_codepoint"]}
{"id": "C04", "title": "UTF-8 routines never read outside the given buffer", "statement": "For every byte buffer and length, counting, decoding and stepping through the buffer only reads bytes at offsets smaller than the length.", "quantifier": "every byte buffer, including truncated and malformed ones, every offset", "why_tests_cant": "An out-of-bounds read is usually invisible to a test; malformed inputs are unbounded in number.", "anchors": ["src/lib/utils/utf8.c: utf8_strlen, utf8_sequence_to_utf32_codepoint, utf8_prev, utf8_next, utf8_curr"]}
{"id": "C05", "title": "Backward stepping undoes forward stepping", "statement": "In a well-formed UTF-8 text, stepping forward one character from a character boundary and then backward returns to that boundary and reports the same code point.", "quantifier": "every text built from code points and every character boundary in it", "why_tests_cant": "Needs every adjacent pair of character widths at every position.", "anchors": ["src/lib/utils/utf8.c: utf8_prev, utf8_next"]}
{"id": "C06", "title": "Appended bytes come back in order", "statement": "A growable byte buffer (bucket list) returns, when copied out, exactly the concatenation of everything appended, in order, and its size is the sum of the appended lengths, whatever the mix of sizes and of copying and in-place appends; the offset at which a piece was appended (the size just before) stays valid forever.", "quantifier": "every sequence of append operations of every length", "why_tests_cant": "Behaviour depends on how appends straddle 4096-byte buckets; tests cannot cover all interleavings.", "anchors": ["src/lib/utils/bucketlist.c: BucketList_Append, BucketList_Append2, BucketList_Copy, BucketList_Size"]}
{"id": "C07", "title": "Arena allocations never overlap", "statement": "Every block handed out by the arena allocator is 8-byte aligned, lies inside memory the arena owns and is disjoint from every other block handed out since the arena was created; a failed system allocation makes the request fail and corrupts nothing; what fits into the memory the arena has is served from it; freeing the arena gives back every chunk that it took from the system, each once, and nothing else.", "quantifier": "every sequence of request sizes and every pattern of system allocation failures", "why_tests_cant": "Overlap shows up only for particular size sequences and chunk boundaries.", "anchors": ["src/lib/utils/bpalloc.c: BPAlloc_Init, BPAlloc_Init2, BPAlloc_Init3, BPAlloc_Malloc, BPAlloc_Free"]}
{"id": "C08", "title": "Promises deliver exactly once to every subscriber", "statement": "Once a promise is resolved, every location subscribed to it, before or after the resolution and in any order, holds the resolved value, its callback has run exactly once, and no location is written before the resolution.", "quantifier": "every interleaving of subscriptions and the resolution", "why_tests_cant": "Histories are unbounded; order-dependent list handling bugs escape fixed scripts.", "anchors": ["src/lib/utils/promise.c: Promise_New, Promise_Resolve, Promise_Subscribe2"]}
{"id": "C09", "title": "Labels are identified by name", "statement": "In the assembler two uses of a label denote the same target exactly when the names are equal byte strings, and the number of unresolved labels is exactly the number of distinct names mentioned but never defined.", "quantifier": "every sequence of label mentions and definitions", "why_tests_cant": "Unbounded sets of names, including prefixes of each other.", "anchors": ["src/lib/utils/labellist.c: LabelList_SetLabel, LabelList_GetLabel, LabelList_GetUnresolvedCount"]}
{"id": "C10", "title": "The value stack is a bounded LIFO", "statement": "Pushes fail exactly when the stack holds its capacity, pops of n fail exactly when fewer than n values are present, peeking at depth k returns the k-th most recently pushed and not yet popped value, and failed operations change nothing.", "quantifier": "every sequence of push/pop/peek operations and every capacity", "why_tests_cant": "Sequences are unbounded.", "anchors": ["src/lib/utils/stack.c: Stack_New, Stack_Push, Stack_Pop, Stack_Top"]}
{"id": "C11", "title": "What is appended to an executable is what is fetched", "statement": "If building an executable succeeds, fetching instruction i returns the i-th appended opcode with its operands: integers, floats and strings unchanged, and every label operand replaced by the value the label was given, whether it was given before or after the instruction was appended. Finalising succeeds exactly when every label used has been given a value.", "quantifier": "every sequence of appended instructions and label resolutions", "why_tests_cant": "Needs all interleavings of forward and backward references and of string operands.", "anchors": ["src/lib/executable.c: ExeBuilder_Append, ExeBuilder_Finalize, Executable_Fetch, promise_callback", "src/lib/utils/promise.c"]}
{"id": "C12", "title": "Equal keys hash equally", "statement": "Whenever two values of a hashable kind compare equal with ==, they have the same hash.", "quantifier": "every pair of hashable values", "why_tests_cant": "A quantification over all pairs of values; failures sit at special values (negative zero, embedded NUL).", "anchors": ["src/lib/objects/o_int.c, o_float.c, o_string.c, o_bool.c, o_none.c: hash, op_eql", "src/lib/utils/hash.c: hashbytes"]}
{"id": "C13", "title": "Lists behave as sequences", "statement": "Starting from an empty list, after any history of insertions: inserting at an existing index replaces that element only, inserting at index count appends, any other index or key is an error that leaves the list unchanged, reading index i returns the element last stored there, and count is the number of elements. Capacity growth is never observable.", "quantifier": "every history of insert/select/count on lists with keys in the 32-bit range", "why_tests_cant": "Histories and sizes are unbounded; growth boundaries are data dependent.", "anchors": ["src/lib/objects/o_list.c: select, insert, grow, count, Object_NewList"]}
{"id": "C14", "title": "List and buffer indices are not truncated", "statement": "A read or write at an integer index succeeds only if that integer itself is in range.", "quantifier": "every 64-bit integer index", "why_tests_cant": "The failing indices are beyond 2^31 and no test tries them.", "anchors": ["src/lib/objects/o_list.c: select, insert", "src/lib/objects/o_buffer.c: select, insert", "src/lib/objects/o_string.c: select"]}
{"id": "C15", "title": "Maps behave as finite maps", "statement": "For any history of insertions into a map whose keys hash consistently, reading key k returns the value most recently inserted under a key equal to k, and nothing if none was; inserting under one key never changes what other keys read; count is the number of distinct keys; keys are listed in order of first insertion.", "quantifier": "every history of insertions and lookups, every hash function consistent with equality (hashes possibly colliding)", "why_tests_cant": "Collision patterns and growth points are unbounded in number.", "anchors": ["src/lib/objects/o_map.c: Object_NewMap, select, insert, grow, count, keysof"]}
{"id": "C16", "title": "Map lookups and insertions terminate", "statement": "Every lookup in, and insertion into, a map finishes, whatever keys are present and however their hashes collide.", "quantifier": "every reachable map and key", "why_tests_cant": "Termination for all inputs cannot be observed by running finitely many.", "anchors": ["src/lib/objects/o_map.c: select, insert, grow"]}
{"id": "C17", "title": "Growing a map keeps every entry", "statement": "When a map grows, every entry stored before is still found afterwards, also when hashes are negative.", "quantifier": "every map and every set of key hashes, negative ones included", "why_tests_cant": "Loss appears only after several collisions of negative hashes.", "anchors": ["src/lib/objects/o_map.c: grow, select"]}
{"id": "C18", "title": "Buffer bytes", "statement": "A new buffer of size n reads as n zero bytes; writing byte v (0..255) at i < n makes index i read v and leaves all others unchanged; writes of non-integers or out-of-range values, and accesses outside the buffer, are errors that change nothing. No access ever leaves the allocated payload.", "quantifier": "every buffer size, every history of reads and writes, every index in the 32-bit range", "why_tests_cant": "Unbounded histories and sizes.", "anchors": ["src/lib/objects/o_buffer.c: Object_NewBuffer, select, insert, count"]}
{"id": "C19", "title": "Buffer slices are windows on the buffer they were cut from", "statement": "Slicing buffer b at offset o with length n succeeds exactly when the window lies within b; index i of the slice is index o+i of b, for reads and writes, forever; slicing a slice composes.", "quantifier": "every buffer, every nesting of slices, every offset and length", "why_tests_cant": "Nested slices and overflowing offset+length combinations are not enumerated by tests.", "anchors": ["src/lib/objects/o_buffer.c: Object_SliceBuffer, select, insert, count"]}
{"id": "C20", "title": "Buffer memory is released exactly once, after its last user", "statement": "The memory shared by a buffer and its slices is released exactly once, at the moment the last of them is destroyed, in whatever order they are created and destroyed.", "quantifier": "every history of creating buffers, slicing and destroying", "why_tests_cant": "Orders of destruction are unbounded; use-after-free often passes tests.", "anchors": ["src/lib/objects/o_buffer.c: Object_SliceBuffer, buffer_free"]}
{"id": "C21", "title": "String equality is byte equality", "statement": "Two strings compare equal exactly when they contain the same bytes.", "quantifier": "every pair of strings, embedded NUL included", "why_tests_cant": "All pairs of strings.", "anchors": ["src/lib/objects/o_string.c: op_eql"]}
{"id": "C22", "title": "Equality is an equivalence", "statement": "== on values for which it is defined is reflexive (except NaN), symmetric and transitive, is false between different types, and none equals only none.", "quantifier": "all triples of values", "why_tests_cant": "Quantifies over all triples.", "anchors": ["src/lib/objects/objects.c: Object_Compare", "src/lib/objects/o_*.c: op_eql"]}
{"id": "C23", "title": "Type assertions mean what the documentation says", "statement": "istypeof(T, v) holds exactly when: T is a type and v has that type; T is any; T is ?U and v is none or satisfies U; T is U|V and v satisfies U or V; T is a list and v is a list of the same length whose items satisfy the corresponding items of T; T is a map and v is a map with the same number of entries in which every key of T is present with a value satisfying T[key].", "quantifier": "every (arbitrarily nested) type value and every value", "why_tests_cant": "Nested type values are unbounded.", "anchors": ["src/lib/objects/objects.c: istypeof, Object_IsTypeOf", "src/lib/objects/o_any.c, o_nullable.c, o_sum.c, o_list.c, o_map.c: istypeof"]}
{"id": "C24", "title": "Printing terminates on cyclic data", "statement": "Printing any value terminates, also when lists and maps contain themselves; acyclic values are printed in full and printing leaves the data unchanged (printing again gives the same text).", "quantifier": "every finite object graph, cyclic or not", "why_tests_cant": "Termination over all graphs.", "anchors": ["src/lib/objects/objects.c: Object_Print", "src/lib/objects/o_list.c: print", "src/lib/objects/o_map.c: print"]}
{"id": "C25", "title": "Map keys are insulated from later changes", "statement": "Using a list or map as a key stores a deep copy of it: later changes to the original never change which entries the map holds.", "quantifier": "every nested key and every later mutation", "why_tests_cant": "Aliasing bugs need particular mutation histories.", "anchors": ["src/lib/objects/o_map.c: insert, copy", "src/lib/objects/o_list.c: copy", "src/lib/objects/objects.c: Object_Copy"]}
{"id": "C26", "title": "Garbage collection is invisible to the program", "statement": "After a successful collection, everything reachable from the roots has the same contents and the same sharing and cycle structure as before: the reachable object graph is isomorphic to the old one.", "quantifier": "every object graph, with sharing, cycles and static objects, every set of roots", "why_tests_cant": "Graph shapes are unbounded; a moved-twice or missed reference appears only in some of them.", "anchors": ["src/lib/objects/heap.c: Heap_StartCollection, Heap_CollectReference, Heap_StopCollection", "src/lib/runtime.c: Runtime_CollectGarbage"]}
{"id": "C27", "title": "Finalizers run exactly for dead objects", "statement": "A successful collection runs the finalizer of each unreachable object that has one exactly once and never again, and of no reachable object; destroying the heap finalizes each remaining object exactly once.", "quantifier": "every object graph, every sequence of collections", "why_tests_cant": "Multi-collection histories over arbitrary graphs.", "anchors": ["src/lib/objects/heap.c: callDestructors, Heap_StopCollection, Heap_Free, Heap_Malloc"]}
{"id": "C28", "title": "A collection never runs out of room", "statement": "If the live objects, each of their blocks rounded up to a multiple of 8 bytes, fit in the configured heap size, a collection succeeds and uses no more memory than they take up.", "quantifier": "every heap content", "why_tests_cant": "Depends on exact byte accounting of every object and its extension.", "anchors": ["src/lib/objects/heap.c: Heap_RawMalloc, Heap_CollectReference, Heap_CollectExtension", "src/lib/objects/o_list.c: walkexts", "src/lib/objects/o_map.c: walkexts"]}
{"id": "C29", "title": "Heap blocks do not overlap", "statement": "Between collections, every block obtained from the garbage-collected heap is 8-byte aligned and disjoint from all other live blocks, whether it comes from the main area or from overflow memory.", "quantifier": "every sequence of allocations", "why_tests_cant": "Unbounded sequences of sizes.", "anchors": ["src/lib/objects/heap.c: Heap_RawMalloc, Heap_Malloc"]}
{"id": "C30", "title": "Integer arithmetic is exact or refused", "statement": "For 64-bit integers, a+b, a-b, a*b, a/b, -a give the exact mathematical result (division truncating toward zero); division by zero is a runtime error; results that do not fit are never silently wrong (the documentation promises an abort).", "quantifier": "all pairs of 64-bit integers", "why_tests_cant": "2^128 operand pairs.", "anchors": ["src/lib/run.c: do_math_op, runInstruction (NEG, MOD)"]}
{"id": "C31", "title": "Remainder", "statement": "a % b on integers is the remainder with the sign of a such that (a/b)*b + a%b = a, non-integers are an error, and a zero divisor is a runtime error rather than a crash.", "quantifier": "all pairs of 64-bit integers and all operand types", "why_tests_cant": "2^128 operand pairs; the zero case kills the process.", "anchors": ["src/lib/run.c: runInstruction (MOD)"]}
{"id": "C32", "title": "Ordering operators", "statement": "a < b, a <= b, a > b, a >= b on integers and floats agree with the numeric order (in particular a<b iff b>a, and on integers exactly one of <, ==, > holds); other operand types are errors.", "quantifier": "all pairs of values", "why_tests_cant": "All pairs.", "anchors": ["src/lib/run.c: do_relational_op"]}
{"id": "C33", "title": "Variable scoping", "statement": "Reading a variable yields the innermost binding: the function's own, then those of the lexically enclosing functions from inside out, then the builtins; an undefined variable is an error. Assignment always writes the current function's own scope and no other.", "quantifier": "every nesting of scopes and every history of assignments", "why_tests_cant": "Unbounded nesting and histories.", "anchors": ["src/lib/runtime.c: Runtime_GetVariable, Runtime_SetVariable", "src/lib/objects/o_closure.c: closure_select", "src/lib/run.c: PUSHFUN"]}
{"id": "C34", "title": "Calls: missing arguments are none, extra ones are dropped, results are padded or cut", "statement": "A function with n parameters called with m arguments sees the first min(n,m) in order and none for the rest; a call expecting k results gets the first k returned values, padded with none, in order, with nothing else left on the evaluation stack.", "quantifier": "all argument and result counts", "why_tests_cant": "Count combinations are unbounded.", "anchors": ["src/lib/run.c: func_call, native_func_call, CALL, RETURN, runExecutableAtIndex", "src/lib/compiler/codegen.c: emitInstrForFuncCallNode, emitInstrForAssignmentNode"]}
{"id": "C35", "title": "Frame limits are errors, never corruption", "statement": "At every moment of every execution no frame holds more than its limit of values, the number of nested frames does not exceed the limit, and the values on the shared stack are exactly those of the live frames; exceeding a limit is a reported error.", "quantifier": "every sequence of frame and stack operations", "why_tests_cant": "Every execution.", "anchors": ["src/lib/runtime.c: Runtime_Push, Runtime_Pop, Runtime_PushFrame, Runtime_PopFrame, Runtime_PushNativeFrame, Runtime_PushFailedFrame"]}
{"id": "C36", "title": "Calls do not disturb the caller", "statement": "When a function returns, the caller's evaluation stack is what it was before the call, minus callee and arguments, plus the results; the caller's instruction position, locals and closure are unchanged except through shared data.", "quantifier": "every function body and every call site", "why_tests_cant": "Every body.", "anchors": ["src/lib/run.c: runExecutableAtIndex, CALL", "src/lib/runtime.c: Runtime_PopFrame"]}
{"id": "C37", "title": "An error stops execution", "statement": "After a runtime error no further instruction is executed and no further output produced; the error is reported to the caller and control unwinds completely.", "quantifier": "every program and error point", "why_tests_cant": "Every program.", "anchors": ["src/lib/run.c: runInstructionsUntilSomethingHappens, runExecutableAtIndex"]}
{"id": "C38", "title": "Interrupts stop the program promptly", "statement": "If an interrupt is requested (or the periodic callback asks to stop) at any moment, at most the instruction in progress completes before the program ends with an error.", "quantifier": "every program and every interruption point", "why_tests_cant": "Every schedule of the asynchronous request.", "anchors": ["src/lib/run.c: runInstructionsUntilSomethingHappens", "src/lib/runtime.c: Runtime_Interrupt, Runtime_WasInterrupted"]}
{"id": "C39", "title": "Stack traces are finite", "statement": "After any history of failed compilations and failed runs on one runtime, printing the stack trace and freeing the runtime terminate.", "quantifier": "every sequence of runs", "why_tests_cant": "Needs two failures in a row in one runtime.", "anchors": ["src/lib/runtime.c: Runtime_PushFailedFrame, Runtime_PrintStackTrace, Runtime_Free"]}
{"id": "C40", "title": "Compiled programs keep the evaluation stack balanced", "statement": "In code generated for any program, every expression leaves exactly one value and every statement leaves none on the evaluation stack, on every path including breaks, so the stack depth at each instruction is the same no matter how it is reached and never negative.", "quantifier": "every syntax tree", "why_tests_cant": "Programs are unbounded; imbalance shows only on some paths.", "anchors": ["src/lib/compiler/codegen.c: emitInstrForNode and friends"]}
{"id": "C41", "title": "Every jump of a compiled program lands inside it", "statement": "For every program the compiler accepts, all jump and function-entry targets are resolved and are indices of existing instructions, and execution never runs past the last instruction.", "quantifier": "every syntax tree", "why_tests_cant": "Programs are unbounded.", "anchors": ["src/lib/compiler/codegen.c", "src/lib/executable.c: ExeBuilder_Finalize"]}
{"id": "C42", "title": "Compilation preserves meaning", "statement": "Running the bytecode compiled from a program has the same outcome (printed output, final variables, returned values, error or not) as evaluating the program's syntax tree according to the language rules, up to the documented resource limits.", "quantifier": "every syntax tree and every initial state", "why_tests_cant": "Programs are unbounded; this is compiler correctness.", "anchors": ["src/lib/compiler/codegen.c", "src/lib/run.c: runInstruction, func_call, runExecutableAtIndex"]}
{"id": "C43", "title": "and/or short-circuit", "statement": "`a and b` evaluates b only if a is true and `a or b` only if a is false; the result is the boolean conjunction/disjunction; a non-boolean operand that is evaluated is an error.", "quantifier": "every pair of operand expressions", "why_tests_cant": "Operands are arbitrary expressions with effects.", "anchors": ["src/lib/compiler/codegen.c: emitInstrForExprNode (AND, OR)", "src/lib/run.c: JUMPIFANDPOP, JUMPIFNOTANDPOP"]}
{"id": "C44", "title": "break leaves exactly the innermost loop", "statement": "break ends the innermost enclosing while or do-while loop and continues right after it; outside any loop it is rejected at compile time.", "quantifier": "every nesting of loops and other statements", "why_tests_cant": "Unbounded nesting.", "anchors": ["src/lib/compiler/codegen.c: emitInstrForNode (BREAK), emitInstrForWhileLoopNode, emitInstrForDoWhileLoopNode"]}
{"id": "C45", "title": "Default arguments and type assertions", "statement": "On entry each parameter that received none and has a default takes the value of the default expression; then, if it has a type annotation, the (possibly defaulted) value must satisfy it or the call fails naming the argument; each parameter is bound to its own argument, the last one first, and the evaluation stack is empty when the body starts.", "quantifier": "every parameter list and every argument list", "why_tests_cant": "Unbounded parameter lists.", "anchors": ["src/lib/compiler/codegen.c: emitInstrForArgumentNode, emitInstrForFuncExprNode", "src/lib/run.c: CHECKTYPE, PUSHTYP"]}
{"id": "C46", "title": "Multiple assignment", "statement": "a1, ..., an = f(...) gives the i-th target the i-th returned value (none if f returns fewer), for variable and indexed targets, and evaluates to a single value; left-hand sides that are not assignable are rejected.", "quantifier": "every number and kind of targets", "why_tests_cant": "Unbounded target lists.", "anchors": ["src/lib/compiler/codegen.c: emitInstrForAssignmentNode, flattenTupleTree"]}
{"id": "C50", "title": "Tokens partition the source", "statement": "For every source text the tokenizer accepts, the tokens appear in source order, do not overlap, are non-empty, and what lies between them is only whitespace and comments.", "quantifier": "every source text", "why_tests_cant": "All strings.", "anchors": ["src/lib/compiler/parse.c: tokenize"]}
{"id": "C51", "title": "Operators are recognised wherever they are adjacent", "statement": "Adjacent operators are split into the longest valid operators, so that e.g. x<=-1 reads as x <= -1.", "quantifier": "every run of operator characters", "why_tests_cant": "Runs are unbounded; only some runs are mis-split.", "anchors": ["src/lib/compiler/parse.c: tokenize (operator case)"]}
{"id": "C52", "title": "Precedence and associativity", "statement": "Parsing the textual form of any binary-operator expression tree, written with the minimal parentheses required by the precedence table (= lowest and right associative, then |, or, and, comparisons, + -, * / %, and , highest; all others left associative), yields that tree.", "quantifier": "every expression tree", "why_tests_cant": "Trees are unbounded.", "anchors": ["src/lib/compiler/parse.c: parse_expression, parse_expression_2, precedenceof, isrightassoc, isbinop"]}
{"id": "C53", "title": "Integer literals are exact or refused", "statement": "An integer literal denotes exactly the number written; if it does not fit in 64 bits the program is rejected.", "quantifier": "every digit string", "why_tests_cant": "All digit strings; boundary at 2^63.", "anchors": ["src/lib/compiler/parse.c: parse_primary_expresion (TINT)", "src/lib/assembler/assemble.c: parseIntegerOperand"]}
{"id": "C54", "title": "String literals", "statement": "Writing any text as a quoted literal with the documented escapes and parsing it gives the text back, up to the documented maximal length; longer literals are refused.", "quantifier": "every text", "why_tests_cant": "All strings and all positions of escapes.", "anchors": ["src/lib/compiler/parse.c: parse_string_primary_expression", "src/lib/assembler/assemble.c: parseStringOperand"]}
{"id": "C55", "title": "Reported line numbers", "statement": "The line number shown for a position in a source is one plus the number of newlines before that position.", "quantifier": "every source and position", "why_tests_cant": "All sources.", "anchors": ["src/lib/runtime.c: printFrame"]}
{"id": "C57", "title": "Assembler integers", "statement": "parsing an integer operand of the assembler yields exactly the decimal value of the digits, or an overflow error if it exceeds 2^63-1.", "quantifier": "every digit string", "why_tests_cant": "All digit strings.", "anchors": ["src/lib/assembler/assemble.c: parseIntegerOperand"]}
{"id": "C58", "title": "Assembler round trip", "statement": "Printing any instruction list in assembly notation with labels for jump targets and assembling it gives an executable equivalent to the original.", "quantifier": "every instruction list", "why_tests_cant": "Unbounded programs.", "anchors": ["src/lib/assembler/assemble.c: assemble", "src/lib/executable.c: Executable_Equiv"]}
{"id": "C59", "title": "Program equivalence check is sound", "statement": "Two executables judged equivalent have the same instructions with the same operands.", "quantifier": "every pair of executables", "why_tests_cant": "All pairs.", "anchors": ["src/lib/executable.c: Executable_Equiv"]}
{"id": "C60", "title": "string.toInt", "statement": "string.toInt of a string of decimal digits returns exactly the number if it fits in 64 bits and (none, message) otherwise; any other string gives (none, message).", "quantifier": "every string", "why_tests_cant": "All strings.", "anchors": ["src/lib/builtins/string.c: bin_toInt", "src/lib/builtins/utils.c: returnValuesVA"]}
{"id": "C61", "title": "string.cat", "statement": "string.cat of any strings is their concatenation; its character count is the sum of theirs; a non-string argument is an error.", "quantifier": "every list of arguments", "why_tests_cant": "Unbounded argument lists.", "anchors": ["src/lib/builtins/string.c: bin_cat"]}
{"id": "C62", "title": "string.slice", "statement": "string.slice(s, o, n) returns the n bytes of s from byte o (to the end when n is omitted) exactly when 0 <= o, 0 <= n and o+n <= length; otherwise it is an error; it never reads outside s.", "quantifier": "every string and every pair of 64-bit integers", "why_tests_cant": "All pairs of integers.", "anchors": ["src/lib/builtins/string.c: bin_slice"]}
{"id": "C63", "title": "string.trim", "statement": "string.trim(s) is s without its leading and trailing spaces and never reads outside s.", "quantifier": "every string", "why_tests_cant": "All strings.", "anchors": ["src/lib/builtins/string.c: bin_trim"]}
{"id": "C64", "title": "string.ord and string.chr are inverse", "statement": "string.ord(string.chr(n)) = n for 0 <= n <= 0x10FFFF, and chr rejects every other integer.", "quantifier": "every 64-bit integer", "why_tests_cant": "All integers.", "anchors": ["src/lib/builtins/string.c: bin_ord, bin_chr"]}
{"id": "C65", "title": "Builtin arity", "statement": "A builtin only reads the arguments it was given: calling any builtin with any number of arguments never makes it read past the argument array.", "quantifier": "every builtin and every argument count", "why_tests_cant": "The read past the end is silent.", "anchors": ["src/lib/builtins/math.c: bins_math (pow, atan2)", "src/lib/run.c: native_func_call"]}
{"id": "C66", "title": "Looking up a name in a builtin namespace terminates within its table", "statement": "Selecting any name from a builtin namespace (math, string, buffer, ...) returns its entry or none and only examines entries of that table.", "quantifier": "every namespace and every name", "why_tests_cant": "The overrun is silent for present names.", "anchors": ["src/lib/o_staticmap.c: select", "src/lib/builtins/string.c: bins_string", "src/lib/builtins/buffer.c: bins_buffer"]}
{"id": "C67", "title": "I/O never overruns buffers", "statement": "files.read, files.write, net.recv and net.send transfer at most the requested count and never more bytes than the buffer (or slice) holds; negative counts are refused.", "quantifier": "every buffer, every count argument", "why_tests_cant": "All counts, including those beyond 32 bits.", "anchors": ["src/lib/builtins/files.c: bin_read, bin_write", "src/lib/builtins/net.c: bin_recv, bin_send"]}
{"id": "C68", "title": "Argument validation", "statement": "A builtin declared with an argument format runs only if every argument has the declared type (or is none where optional); otherwise the call is a runtime error.", "quantifier": "every format and every argument list", "why_tests_cant": "All argument lists.", "anchors": ["src/lib/builtins/utils.c: parseArgs"]}
{"id": "C69", "title": "Integer to text", "statement": "toString(n) for a non-negative integer is its decimal representation.", "quantifier": "every non-negative 64-bit integer", "why_tests_cant": "2^63 inputs.", "anchors": ["src/lib/builtins/start.noja: toString, stringFromInteger, getIntegerMagnitude"]}
{"id": "C70", "title": "Iterators visit everything once", "statement": "Repeatedly calling next on makeIterator(c) yields each (value, key) of the collection exactly once, in key order, then none forever.", "quantifier": "every list or map without its own iter method", "why_tests_cant": "Unbounded collections.", "anchors": ["src/lib/builtins/start.noja: makeGenericIterator, makeIterator"]}
{"id": "C71", "title": "Buffer/string conversions", "statement": "buffer.toString(buffer.fromString(s)) = s for every string s, and buffer.toString of bytes that are not valid UTF-8 returns (none, message).", "quantifier": "every string / every byte sequence", "why_tests_cant": "All strings.", "anchors": ["src/lib/builtins/buffer.c: bin_toString, bin_fromString", "src/lib/objects/o_buffer.c: Object_NewBufferFromString"]}
{"id": "C72", "title": "Absolute paths", "statement": "Making a path absolute returns the path itself if it starts with / and otherwise the working directory, a /, and the path, exactly when the result fits the destination; the destination is never overrun.", "quantifier": "every path, working directory and destination size", "why_tests_cant": "All sizes and paths.", "anchors": ["src/lib/utils/path.c: Path_MakeAbsolute"]}
{"id": "C73", "title": "Earlier builtins win", "statement": "Plugging an additional set of builtins never changes what an already available builtin name means.", "quantifier": "every sequence of plugged builtin sets", "why_tests_cant": "All histories.", "anchors": ["src/lib/runtime.c: Runtime_plugBuiltins", "src/lib/objects/o_closure.c: closure_select"]}
{"id": "C74", "title": "Shared sources and executables are freed exactly once", "statement": "A source or executable is released exactly when the last holder releases it, for every interleaving of copies and releases.", "quantifier": "every history of copy/free", "why_tests_cant": "All histories.", "anchors": ["src/lib/utils/source.c: Source_Copy, Source_Free", "src/lib/executable.c: Executable_Copy, Executable_Free", "src/lib/utils/stack.c: Stack_Copy, Stack_Free"]}
{"id": "C75", "title": "Profiling totals", "statement": "The profile reports for each function the number of completed calls and the sum of their durations; entries never mix. The profile that is written has one line for each function that was called, in the order of creation, with these numbers.", "quantifier": "every history of function creations and calls", "why_tests_cant": "All histories.", "anchors": ["src/lib/timing.c: TimingTable_newEntry, TimingTable_sumCallTime, TimingTable_getSummary", "src/lib/runtime.c: Runtime_SerializeProfilingResultsToStream"]}
{"id": "C76", "title": "No stale references", "statement": "A pointer to an object that was saved before a collection and is not known to the collector is never followed after it.", "quantifier": "every call of a function of the language or a native function, any number of collections during the call", "why_tests_cant": "A collection must happen at one particular moment, and reading freed memory often goes unnoticed.", "anchors": ["src/lib/run.c: func_call, native_func_call, runExecutableAtIndex, runInstruction", "src/lib/runtime.c: Runtime_CollectGarbage"]}
{"id": "C77", "title": "The assembler stays within its text", "statement": "On every text, whatever byte lies after its end, the assembler ends with an executable or an error and reads nothing beyond the text.", "quantifier": "every text and every byte after it", "why_tests_cant": "All texts; a read one byte beyond the end usually goes unnoticed.", "anchors": ["src/lib/assembler/assemble.c: assemble, parseOperands", "src/lib/utils/source.c: Source_FromString"]}
{"id": "C78", "title": "No executable from a text with errors", "statement": "When the assembler returns an executable it has reported no error.", "quantifier": "every text", "why_tests_cant": "All texts.", "anchors": ["src/lib/assembler/assemble.c: parseLabelAndOpcode"]}
{"id": "C79", "title": "The parser stays within its tokens", "statement": "On every text the parser ends with a syntax tree or an error, and never follows a pointer beyond its last token.", "quantifier": "every text, every byte after it", "why_tests_cant": "All texts; most texts that end too early are refused properly.", "anchors": ["src/lib/compiler/parse.c: parse, next, parse_map_primary_expression"]}
{"id": "C80", "title": "The parser accepts exactly the grammar", "statement": "A text is accepted exactly if its words are a program of the grammar of the language, and the tree built, with the position of every node, is the one the grammar gives; no text has two trees.", "quantifier": "every text and every tree", "why_tests_cant": "All texts and trees; both directions.", "anchors": ["src/lib/compiler/parse.c: parse, parse_statement, parse_expression, parse_postfix_expression, parse_primary_expresion"]}
{"id": "C81", "title": "Every program can be written down and read back", "statement": "Writing a syntax tree as text, with parentheses only where they are needed, and parsing the text gives the tree back except for the positions; and every tree the parser makes is one that can be so written.", "quantifier": "every syntax tree that a program can have; every text the parser accepts", "why_tests_cant": "All trees and texts.", "anchors": ["src/lib/compiler/parse.c: parse, tokenize, parse_statement, parse_expression, parse_postfix_expression, parse_primary_expresion"]}
{"id": "C82", "title": "The line of an error is that of the instruction that failed", "statement": "When an instruction fails, the line shown in the stack trace for the frame of the program is the line of that instruction.", "quantifier": "every program and every state of its execution in which an instruction fails", "why_tests_cant": "All programs and executions.", "anchors": ["src/lib/run.c: runInstruction", "src/lib/runtime.c: printFrame, getFrameOffset, Runtime_SetInstructionIndex"]}
{"id": "C83", "title": "Positions of expressions", "statement": "The position of an expression in the syntax tree is its text: from the start of its first token to the end of its last.", "quantifier": "every expression of every text", "why_tests_cant": "All texts.", "anchors": ["src/lib/compiler/parse.c: parse_primary_expresion, parse_string_primary_expression, parse_postfix_expression, parse_expression_2"]}
{"id": "C84", "title": "From the text to the code", "statement": "A text is compiled exactly if its words are a program of the grammar and the tree meets the conditions of the code generator; the instructions, operands and strings found in the executable are then exactly the code of that program.", "quantifier": "every text", "why_tests_cant": "All texts.", "anchors": ["src/lib/compiler/compile.c: compile", "src/lib/compiler/codegen.c: codegen", "src/lib/executable.c: Executable_Fetch"]}
{"id": "C85", "title": "input returns the line", "statement": "The builtin `input` returns the text of the line that comes next on the standard input, without its newline, and reads nothing else; a last line that ends with the stream is returned too.", "quantifier": "every stream of bytes; lines of any length", "why_tests_cant": "Lines of any length, with and without a newline at the end.", "anchors": ["src/lib/builtins/basic.c: bin_input"]}
{"id": "C86", "title": "import opens the file of that name next to the script", "statement": "A file that is imported is the one with the given name if the name is absolute, and otherwise the one of that name in the folder of the script that is running (the working directory if the program is not in a file). Exactly the paths that do not fit in the buffer are refused, and the buffer is never overrun.", "quantifier": "every name, script, working directory and stack of frames", "why_tests_cant": "All names and paths, in particular at the size of the buffer.", "anchors": ["src/lib/run.c: makePathRelativeToScript, runFileRelativeToScript", "src/lib/runtime.c: Runtime_GetCurrentScriptFolder, Runtime_GetCurrentScriptAbsolutePath, Runtime_GetMostRecentExecutable", "src/lib/builtins/basic.c: bin_import, bin_getCurrentScriptDirectory"]}
{"id": "C87", "title": "Error messages are kept whole and freed", "statement": "However errors are reported and freed, the message is the whole text of the last report (cut, and marked as such, only if there is no memory), no memory is touched that is not allocated, and nothing but the message stays allocated.", "quantifier": "every sequence of reports and frees, messages of any length", "why_tests_cant": "Sequences of any length.", "anchors": ["src/lib/utils/error.c: _Error_Report2, Error_Free, Error_Init"]}
{"id": "C88", "title": "The kind of error shown is the kind reported", "statement": "An error is shown with the name of its kind, and one of unspecified kind with the name of the kind given as a default.", "quantifier": "every kind, default and message", "why_tests_cant": "All kinds and messages.", "anchors": ["src/lib/utils/error.c: Error_Print", "src/lib/utils/error.h: ErrorType"]}
{"id": "C89", "title": "The diagram of a program draws its syntax tree", "statement": "The nodes and arrows written by --diagram-ast are a tree, all nodes have labels, and it is the syntax tree of the program with its labels and the order of the children; the labels of strings read as the strings.", "quantifier": "every program", "why_tests_cant": "All syntax trees.", "anchors": ["src/lib/compiler/graphviz.c: graphviz, nodeToGraphViz, exprToGraphViz, childToGraphViz, funcExprToGraphViz, flattenTupleTree"]}
{"id": "C90", "title": "Programs do what the manual of the language says", "statement": "What a program writes, whether it ends, with an error or with which values, is what the meaning of the language says: integers are integers, floating point numbers are compared as the numbers they stand for, texts are sequences of characters, lists, maps and buffers are shared, functions see the variables around them and, around those, what start.noja returns and the builtins, an error stops the program.", "quantifier": "every program and every text that compiles", "why_tests_cant": "All programs; any depth, any length of execution.", "anchors": ["src/lib/run.c: runInstruction, runInstructionsUntilSomethingHappens", "src/lib/compiler/codegen.c: codegen", "src/lib/objects/o_list.c", "src/lib/objects/o_map.c", "src/lib/objects/o_string.c", "src/lib/objects/o_buffer.c", "src/lib/builtins/basic.c", "src/lib/builtins/string.c", "src/lib/builtins/math.c", "src/lib/builtins/buffer.c"]}
{"id": "C91", "title": "Garbage collections cannot be noticed", "statement": "A collection between two instructions is defined and, if it succeeds, the program goes on as it would have without it: the same output, the same way of ending, results that are printed the same; the interpreter has the objects it would have had at other places.", "quantifier": "every state of the interpreter, every arrangement of objects and extensions in memory, every sequence of instructions and collections", "why_tests_cant": "Collections happen when the heap is full: tests of ordinary size have none, and the places of objects cannot be chosen by a test.", "anchors": ["src/lib/runtime.c: Runtime_CollectGarbage", "src/lib/run.c: runInstructionsUntilSomethingHappens", "src/lib/objects/heap.c: Heap_StartCollection, Heap_CollectReference, Heap_StopCollection", "src/lib/objects/o_list.c: walkexts"]}
{"id": "C92", "title": "Random numbers are between their bounds", "statement": "random.generate(a, b) is defined and gives a number between a and b.", "quantifier": "all bounds, every value of rand(), every way of rounding", "why_tests_cant": "The bounds are 64 bits wide and the random number cannot be chosen by a test.", "anchors": ["src/lib/builtins/random.c: bin_generate", "src/lib/utils.c: returnValuesVA"]}
{"id": "C93", "title": "The command line does what its options say", "statement": "Whatever options stand in front of the file name, in whatever order and spelling, the interpreter does what they say: of options that contradict each other the last one counts, and what follows the file name has no influence.", "quantifier": "every list of options, file names and numbers, and everything that may follow", "why_tests_cant": "Command lines of any length.", "anchors": ["src/cli/main.c: main"]}
{"id": "C94", "title": "Test files are read as their fields", "statement": "Of every text, parseTest gives the fields it begins with, by name and body, or says what is wrong: a missing @, a missing name, a name that occurs twice. queryTest then gives the body of the field with a name, or nothing if there is none.", "quantifier": "every text, any number of fields, names and bodies of any length", "why_tests_cant": "Texts of any length; that pointers go into an array that no longer exists is often not noticed when it happens.", "anchors": ["src/test/test.c: parseTest, queryTest, growFieldsArray", "src/test/field.c: parseField, parseFieldBody, findField", "src/test/scanner.c"]}
{"id": "C95", "title": "Test files are freed", "statement": "Everything that parseTest allocates is freed exactly once, by freeTest or, if the text is wrong, by parseTest itself, and nothing else is freed.", "quantifier": "every text, any number of fields, names and bodies of any length", "why_tests_cant": "Leaks are not noticed by tests, and whether a wrong free is depends on the allocator.", "anchors": ["src/test/test.c: parseTest, freeTest, growFieldsArray", "src/test/field.c: freeField, setFieldName, setFieldBody"]}
{"id": "C96", "title": "Handles are closed or given to the program", "statement": "files.openFile is defined for every mode, and every stream, directory and socket that the builtins open is in the end either closed exactly once (by a finalizer or by the builtin) or has been given to the program as a number.", "quantifier": "every sequence of openFile, openDir, socket and accept calls with any outcome, and of allocations, writes and collections in between", "why_tests_cant": "A handle is lost only if something fails between opening it and storing it, which tests cannot bring about, and the loss of a handle has no immediate effect.", "anchors": ["src/lib/builtins/files.c: bin_openFile, bin_openDir", "src/lib/builtins/net.c: bin_socket, bin_accept", "src/lib/objects/o_file.c: Object_FromStream, file_free", "src/lib/objects/o_dir.c: Object_FromDIR, dir_free"]}
{"id": "C97", "title": "Ports and addresses", "statement": "net.bind binds the port it is given, and net.accept gives the port of the other side and its address in a form from which it can be told.", "quantifier": "all 64-bit arguments, all ports and addresses", "why_tests_cant": "There are 65536 ports and 2^32 addresses, and the port of the other side cannot be chosen by a test of the library alone.", "anchors": ["src/lib/builtins/net.c: bin_bind, bin_accept", "src/lib/builtins/utils.c: parseArgs, returnValuesVA"]}
{"id": "C98", "title": "Sources have the text they are made of", "statement": "Source_FromFile and Source_FromString either refuse or give a source whose name is the one given and whose text is that of the file (if it does not change meanwhile), of the string, or as much of it as asked for; they do not write outside their memory.", "quantifier": "every file content, every string, name and size, with and without memory", "why_tests_cant": "The failures are at sizes of several gigabytes.", "anchors": ["src/lib/utils/source.c: Source_FromFile, Source_FromString, Source_GetName, Source_GetBody, Source_GetSize"]}
{"id": "C99", "title": "math.floor and math.ceil", "statement": "math.floor gives the greatest whole number that is not greater than the float, math.ceil the least that is not less.", "quantifier": "all floats, including NaN and the infinite ones", "why_tests_cant": "There are 2^64 floats, and what happens to those that do not fit depends on the machine.", "anchors": ["src/lib/builtins/math.c: bin_floor, bin_ceil"]}
{"id": "C100", "title": "The text of a diagram is the labels followed by the arrows", "statement": "For any lines written while the syntax tree is visited (each to the head or to the body, each shorter than INT_MAX), `graphviz` returns `digraph G {`, all the lines of the head in order, an empty line, all the lines of the body in order and `}`, ended by one zero byte, and stores the length of that text; or, if memory for twice the text is not available, an error. Buffers grow as needed: nothing is written or read outside them, no line is cut, no unwritten byte is copied and NULL is never given to memcpy.", "quantifier": "all lists of lines, all line lengths below INT_MAX, all amounts of memory below 2^63", "why_tests_cant": "Whether a line is cut or a byte is lost depends on how the lengths of the lines fall relative to the doubling capacities, and on where memory runs out; tests see a few diagrams with memory to spare.", "anchors": ["src/lib/compiler/graphviz.c:54-182", "src/lib/compiler/graphviz.c:524-544"]}
{"id": "C101", "title": "The listing of a program tells the program", "statement": "What `Executable_Dump` writes for an executable determines its instructions and operands: two executables with the same listing have the same instructions with the same operands, in the same order; each instruction is one line of the listing.", "quantifier": "all executables whose operands have the types that their instructions ask for", "why_tests_cant": "Two programs with the same listing need not look special; a test compares listings of programs it already has.", "anchors": ["src/lib/executable.c: Executable_Dump"]}
{"id": "C102", "title": "The names of files and directories arrive unchanged", "statement": "A program that calls `files.nextDirItem` until it returns nothing gets the names of all entries of the directory, unchanged and in the order of the system, and `getCurrentWorkingDirectory` returns the path of the directory the program is in, whatever they are.", "quantifier": "all lists of entries, all names and paths without zero bytes", "why_tests_cant": "Names on the system are arbitrary bytes; tests have directories with a few plain names.", "anchors": ["src/lib/builtins/files.c: bin_nextDirItem", "src/lib/builtins/basic.c: bin_getCurrentWorkingDirectory", "src/lib/builtins/utils.c: returnValuesVA"]}
{"id": "C103", "title": "What a session holds is freed once and not used afterwards", "statement": "While a program runs, after it has failed and while the stack trace or the profile is written, no source and no executable is used after it was freed; when the runtime is freed, each source and each executable has been freed exactly once and no frame is left; and every array made for the missing arguments of a call has been freed.", "quantifier": "all sequences and nestings of definitions, calls, calls of native functions, imports (of files that can or cannot be read or compiled), collections that keep any functions, and failures at any place; with and without profiling", "why_tests_cant": "Who is the last to hold a source depends on the order of calls, imports, collections and failures; tests run a few programs that mostly succeed, and a leak is not seen by them.", "anchors": ["src/lib/run.c: func_free, func_call, native_func_call, runExecutableAtIndex, runSource, runFile", "src/lib/runtime.c: Runtime_PushFrame, Runtime_PushFailedFrame, Runtime_PopFrame, Runtime_Free", "src/lib/timing.c: TimingTable_newEntry, TimingTable_free", "src/lib/executable.c: Executable_Copy, Executable_Free", "src/lib/utils/source.c: Source_Copy, Source_Free"]}
{"id": "C104", "title": "A test is judged by what its fields say", "statement": "A test is judged by the routine of the type that its field `type` names, from the bodies of the fields that the type asks for, in that order; if the text is no test, or names no known type, or lacks a field, then it is aborted; a warning tells the number of fields that are not used; and everything that was allocated for the test is freed. The file of a test is read whole.", "quantifier": "all texts, all sets of test types with up to eight fields each, all files", "why_tests_cant": "Whether memory is lost or freed wrongly depends on the number and length of the fields, and is not seen in the verdict.", "anchors": ["src/test/run.c: runTestString, findTestType, getStreamData", "src/test/test.c: parseTest, queryTest, freeTest"]}
{"id": "C105", "title": "All tests in a directory are run and counted", "statement": "The tests in a directory and in the directories below it, except hidden ones, are each run once and counted by their verdicts, or else the batch is aborted; the totals are the sums over the arguments; and the exit status is zero exactly if all batches were run and all tests passed.", "quantifier": "all directory trees of any depth, with all kinds of entries and names, and all verdicts", "why_tests_cant": "Directories of any depth and paths of any length; a test that is passed over leaves no trace.", "anchors": ["src/test/run.c: runTestDirectory, getExtension", "src/test/main.c: main"]}
{"id": "C106", "title": "A test passes exactly if what is expected happens", "statement": "A runtime test passes exactly if the program writes the expected output and nothing else, a compiler test exactly if the compiler gives exactly the expected instructions; a test is aborted if there is no memory or one of the programs is not accepted.", "quantifier": "all programs, outputs of any length and content, all expected outputs, all pairs of executables", "why_tests_cant": "Tests of the test tool would be judged by the tool itself, and a test that passes wrongly is not noticed.", "anchors": ["src/test/main.c: runRuntimeTest, runCompilerTest", "src/lib/executable.c: Executable_Equiv"]}
{"id": "C107", "title": "The command does what it is asked for, or says that it has not", "statement": "Whatever the arguments ask for (help, a diagram, running a program, a profile) is done: help, the diagram or what the program writes is on the output stream or in the named file, a profile is where it is asked for, no other file is touched, and the exit status is 0. Otherwise the status is not 0, there is a message on the error stream, no file is touched and only what the program wrote before it failed is on the output stream. What a program writes, and whether it fails, is what the manual of the language says.", "quantifier": "all lists of arguments, all programs and texts, all behaviours of the library and the file system", "why_tests_cant": "Tests run the command on a few programs and a few options and look at its output; a status or an emptied file in combination with an option is not noticed.", "anchors": ["src/cli/main.c: main", "src/lib/runtime.c: Runtime_SerializeProfilingResultsToFile, Runtime_SerializeProfilingResultsToStream", "src/lib/run.c: runFile, runString, runBytecodeFile, runBytecodeString"]}
{"id": "C108", "title": "Programs get the sockets that they ask for and know it", "statement": "net.socket, net.bind, net.listen, net.accept and net.close ask the system for exactly what the program asks for, with the same numbers and in this order, until something is refused; a program which looks at as many values as success gives can tell success from failure and is told why (net.close: only that) something was refused; and it is told every descriptor that the system gives out, unless it has been given back.", "quantifier": "all arguments, all answers of the system", "why_tests_cant": "Tests run against a network that works; refused options, addresses of another family and descriptors above 2^31 do not come up.", "anchors": ["src/lib/builtins/net.c: bin_socket, bin_bind, bin_listen, bin_accept, bin_close"]}
{"id": "C109", "title": "Stack traces show the calls that are being performed", "statement": "When a program fails, the stack trace is one line for each call that is being performed, from the innermost to the outermost and counted from 0, with the name of the text that it is in and the line of the instruction that failed or that waits for the result of the call.", "quantifier": "all programs, all executions and all states in which they fail", "why_tests_cant": "Tests of the interpreter look at what programs write and not at traces; calls that span lines do not come up.", "anchors": ["src/lib/runtime.c: Runtime_PrintStackTrace, printFrame, getFrameOffset, getFrameSource, Runtime_PushFrame, Runtime_PushNativeFrame, Runtime_PopFrame", "src/lib/run.c: runInstruction"]}
{"id": "C110", "title": "The text of a diagram is a graph that pictures the program", "statement": "For every program that the parser accepts, what --diagram-ast writes is a graph in DOT which can be read in one way only; it has no byte NUL; the tree that a reader sees below its first node, by the last label of every node and the order of the arrows, is the syntax tree of the program; and there is nothing else in the graph.", "quantifier": "all texts of the grammar, with all names, numbers and strings", "why_tests_cant": "Tests would compare a few diagrams; a string with a quote or a backslash before the end of a label makes a text that cannot be read, or that reads as another graph.", "anchors": ["src/lib/compiler/graphviz.c: graphviz, GraphViz_Complete, generateName, childToGraphViz, exprToGraphViz", "src/lib/diagram.c: diagramSourceAST, diagramFileAST, diagramStringAST"]}
{"id": "C111", "title": "A signal ends the program, and what it has written is a beginning of what it writes", "statement": "A SIGINT or SIGTERM that reaches the command while a program runs ends it before its next instruction, with a message and a stack trace and the exit status 255; what is on the output stream is a beginning of what the program writes without the signal. If the program has ended by itself before, the signal changes nothing. At no time does a signal do anything undefined.", "quantifier": "all programs, all moments at which signals come, all numbers of signals, wherever collections happen", "why_tests_cant": "Tests do not send signals; a signal in the short time between the end of the program and that of the process is hardly ever sent.", "anchors": ["src/cli/main.c: signalHandler, main", "src/lib/runtime.c: Runtime_Interrupt, Runtime_WasInterrupted, Runtime_Free", "src/lib/run.c: runInstructionsUntilSomethingHappens"]}
{"id": "C112", "title": "error and assert say what is wrong", "statement": "After error(s) the line on the error stream is 'Runtime Error: ', s and a dot. assert lets the program go on exactly if all its arguments are true; otherwise the line says that the assertion failed, or the number of the argument that is no boolean, for the first argument that is not true.", "quantifier": "all strings, all numbers of arguments, with and without memory for the message", "why_tests_cant": "Tests use short messages and never run out of memory; strings with zero bytes do not come up.", "anchors": ["src/lib/builtins/basic.c: bin_error, bin_assert", "src/lib/utils/error.c: _Error_Report2, Error_Print"]}
{"id": "C113", "title": "A program that gets no memory fails", "statement": "Whoever asks the heap for memory and gets none finds an error that has been reported, so that a program for whose objects there is no memory stops with an error: a program that ends well has written what it writes if there is memory.", "quantifier": "all programs, all moments at which the C library has no block for an object that does not fit into the heap, all call depths, and all heaps, sizes and objects with or without destructors", "why_tests_cant": "A test would have to make malloc fail at a chosen moment; the run then looks like a normal one, with status 0 and without a message.", "anchors": ["src/lib/objects/heap.c: Heap_Malloc, Heap_RawMalloc", "src/lib/run.c: runInstruction, runInstructionsUntilSomethingHappens, runExecutableAtIndex, native_func_call"]}
{"id": "C114", "title": "There is a collection when more is in use than the heap has", "statement": "After an instruction there is a collection exactly if more bytes are in use than the heap has; so before each instruction no more is in use than the heap has.", "quantifier": "all sizes of heaps that the command takes, all numbers of bytes in use, all sequences of instructions, allocations and collections", "why_tests_cant": "The percentage is rounded twice; tests with heaps of a few sizes do not meet the numbers for which that matters.", "anchors": ["src/lib/objects/heap.c: Heap_GetUsagePercentage, Heap_RawMalloc, Heap_StartCollection, Heap_StopCollection", "src/lib/run.c: runInstructionsUntilSomethingHappens"]}
{"id": "C115", "title": "Random numbers can be had again", "statement": "After random.seed(n) the numbers that random.generate gives are determined by n and by the bounds that are asked for, whatever the program has done before; the k-th call takes the k-th number of the series of n. Two different 64-bit seeds have different series, unless the C library has the same for all.", "quantifier": "all seeds, all sequences of calls of random.seed and random.generate with all arguments, all C libraries that keep what the standard says about srand and rand", "why_tests_cant": "Tests of random numbers try a few small seeds; seeds that differ above bit 31 do not come up.", "anchors": ["src/lib/builtins/random.c: bin_seed, bin_generate"]}
