#!/usr/bin/env python3
# Generates properties.jsonl (one JSON object per line).
import json
P=[]
def p(id,title,statement,quantifier,why,anchors):
    P.append(dict(id=id,title=title,statement=statement,quantifier=quantifier,why_tests_cant=why,anchors=anchors))
L='src/lib/'
# ---- UTF-8
p('C01','UTF-8 encode/decode round trip',
 'Encoding any Unicode code point up to U+10FFFF yields the UTF-8 sequence of 1 to 4 bytes for it, decoding that sequence (whatever bytes follow) gives back the same code point and consumes exactly those bytes; code points above U+10FFFF and destination buffers that are too small are refused without writing.',
 'every 32-bit code point value, every buffer size, every continuation of the byte string',
 'There are over a million code points times arbitrary following bytes; tests sample a few per length class and miss boundary values and mask mistakes.',
 [L+'utils/utf8.c: utf8_sequence_from_utf32_codepoint, utf8_sequence_to_utf32_codepoint'])
p('C02','Character count of text',
 'For every text, the character count reported for its UTF-8 bytes equals the number of code points it was built from, and it never exceeds the number of bytes; the empty text has count 0.',
 'every finite sequence of code points / every byte string',
 'Strings are unbounded; a unit test fixes a handful of strings.',
 [L+'utils/utf8.c: utf8_strlen', L+'objects/o_string.c: Object_FromString, count'])
p('C03','Character indexing of strings',
 's[i] for 0 <= i < count(s) is the one-character string holding the i-th code point of s, concatenating s[0], s[1], ... gives s back, and any other index (negative, too large, non-integer) is an error that never touches memory outside the string.',
 'every string built from code points, every integer index',
 'Ranges over all strings and all indices, including mixes of 1..4 byte characters.',
 [L+'objects/o_string.c: select, char_index_to_offset', L+'utils/utf8.c: utf8_strlen, utf8_sequence_to_utf32_codepoint'])
p('C04','UTF-8 routines never read outside the given buffer',
 'For every byte buffer and length, counting, decoding and stepping through the buffer only reads bytes at offsets smaller than the length.',
 'every byte buffer, including truncated and malformed ones, every offset',
 'An out-of-bounds read is usually invisible to a test; malformed inputs are unbounded in number.',
 [L+'utils/utf8.c: utf8_strlen, utf8_sequence_to_utf32_codepoint, utf8_prev, utf8_next, utf8_curr'])
p('C05','Backward stepping undoes forward stepping',
 'In a well-formed UTF-8 text, stepping forward one character from a character boundary and then backward returns to that boundary and reports the same code point.',
 'every text built from code points and every character boundary in it',
 'Needs every adjacent pair of character widths at every position.',
 [L+'utils/utf8.c: utf8_prev, utf8_next'])
# ---- utils containers
p('C06','Appended bytes come back in order',
 'A growable byte buffer (bucket list) returns, when copied out, exactly the concatenation of everything appended, in order, and its size is the sum of the appended lengths, whatever the mix of sizes and of copying and in-place appends; the offset at which a piece was appended (the size just before) stays valid forever.',
 'every sequence of append operations of every length',
 'Behaviour depends on how appends straddle 4096-byte buckets; tests cannot cover all interleavings.',
 [L+'utils/bucketlist.c: BucketList_Append, BucketList_Append2, BucketList_Copy, BucketList_Size'])
p('C07','Arena allocations never overlap',
 'Every block handed out by the arena allocator is 8-byte aligned, lies inside memory the arena owns and is disjoint from every other block handed out since the arena was created; a failed system allocation makes the request fail and corrupts nothing; what fits into the memory the arena has is served from it; freeing the arena gives back every chunk that it took from the system, each once, and nothing else.',
 'every sequence of request sizes and every pattern of system allocation failures',
 'Overlap shows up only for particular size sequences and chunk boundaries.',
 [L+'utils/bpalloc.c: BPAlloc_Init, BPAlloc_Init2, BPAlloc_Init3, BPAlloc_Malloc, BPAlloc_Free'])
p('C08','Promises deliver exactly once to every subscriber',
 'Once a promise is resolved, every location subscribed to it, before or after the resolution and in any order, holds the resolved value, its callback has run exactly once, and no location is written before the resolution.',
 'every interleaving of subscriptions and the resolution',
 'Histories are unbounded; order-dependent list handling bugs escape fixed scripts.',
 [L+'utils/promise.c: Promise_New, Promise_Resolve, Promise_Subscribe2'])
p('C09','Labels are identified by name',
 'In the assembler two uses of a label denote the same target exactly when the names are equal byte strings, and the number of unresolved labels is exactly the number of distinct names mentioned but never defined.',
 'every sequence of label mentions and definitions',
 'Unbounded sets of names, including prefixes of each other.',
 [L+'utils/labellist.c: LabelList_SetLabel, LabelList_GetLabel, LabelList_GetUnresolvedCount'])
p('C10','The value stack is a bounded LIFO',
 'Pushes fail exactly when the stack holds its capacity, pops of n fail exactly when fewer than n values are present, peeking at depth k returns the k-th most recently pushed and not yet popped value, and failed operations change nothing.',
 'every sequence of push/pop/peek operations and every capacity',
 'Sequences are unbounded.',
 [L+'utils/stack.c: Stack_New, Stack_Push, Stack_Pop, Stack_Top'])
p('C11','What is appended to an executable is what is fetched',
 'If building an executable succeeds, fetching instruction i returns the i-th appended opcode with its operands: integers, floats and strings unchanged, and every label operand replaced by the value the label was given, whether it was given before or after the instruction was appended. Finalising succeeds exactly when every label used has been given a value.',
 'every sequence of appended instructions and label resolutions',
 'Needs all interleavings of forward and backward references and of string operands.',
 [L+'executable.c: ExeBuilder_Append, ExeBuilder_Finalize, Executable_Fetch, promise_callback', L+'utils/promise.c'])
# ---- objects
p('C12','Equal keys hash equally',
 'Whenever two values of a hashable kind compare equal with ==, they have the same hash.',
 'every pair of hashable values',
 'A quantification over all pairs of values; failures sit at special values (negative zero, embedded NUL).',
 [L+'objects/o_int.c, o_float.c, o_string.c, o_bool.c, o_none.c: hash, op_eql', L+'utils/hash.c: hashbytes'])
p('C13','Lists behave as sequences',
 'Starting from an empty list, after any history of insertions: inserting at an existing index replaces that element only, inserting at index count appends, any other index or key is an error that leaves the list unchanged, reading index i returns the element last stored there, and count is the number of elements. Capacity growth is never observable.',
 'every history of insert/select/count on lists with keys in the 32-bit range',
 'Histories and sizes are unbounded; growth boundaries are data dependent.',
 [L+'objects/o_list.c: select, insert, grow, count, Object_NewList'])
p('C14','List and buffer indices are not truncated',
 'A read or write at an integer index succeeds only if that integer itself is in range.',
 'every 64-bit integer index',
 'The failing indices are beyond 2^31 and no test tries them.',
 [L+'objects/o_list.c: select, insert', L+'objects/o_buffer.c: select, insert', L+'objects/o_string.c: select'])
p('C15','Maps behave as finite maps',
 'For any history of insertions into a map whose keys hash consistently, reading key k returns the value most recently inserted under a key equal to k, and nothing if none was; inserting under one key never changes what other keys read; count is the number of distinct keys; keys are listed in order of first insertion.',
 'every history of insertions and lookups, every hash function consistent with equality (hashes possibly colliding)',
 'Collision patterns and growth points are unbounded in number.',
 [L+'objects/o_map.c: Object_NewMap, select, insert, grow, count, keysof'])
p('C16','Map lookups and insertions terminate',
 'Every lookup in, and insertion into, a map finishes, whatever keys are present and however their hashes collide.',
 'every reachable map and key',
 'Termination for all inputs cannot be observed by running finitely many.',
 [L+'objects/o_map.c: select, insert, grow'])
p('C17','Growing a map keeps every entry',
 'When a map grows, every entry stored before is still found afterwards, also when hashes are negative.',
 'every map and every set of key hashes, negative ones included',
 'Loss appears only after several collisions of negative hashes.',
 [L+'objects/o_map.c: grow, select'])
p('C18','Buffer bytes',
 'A new buffer of size n reads as n zero bytes; writing byte v (0..255) at i < n makes index i read v and leaves all others unchanged; writes of non-integers or out-of-range values, and accesses outside the buffer, are errors that change nothing. No access ever leaves the allocated payload.',
 'every buffer size, every history of reads and writes, every index in the 32-bit range',
 'Unbounded histories and sizes.',
 [L+'objects/o_buffer.c: Object_NewBuffer, select, insert, count'])
p('C19','Buffer slices are windows on the buffer they were cut from',
 'Slicing buffer b at offset o with length n succeeds exactly when the window lies within b; index i of the slice is index o+i of b, for reads and writes, forever; slicing a slice composes.',
 'every buffer, every nesting of slices, every offset and length',
 'Nested slices and overflowing offset+length combinations are not enumerated by tests.',
 [L+'objects/o_buffer.c: Object_SliceBuffer, select, insert, count'])
p('C20','Buffer memory is released exactly once, after its last user',
 'The memory shared by a buffer and its slices is released exactly once, at the moment the last of them is destroyed, in whatever order they are created and destroyed.',
 'every history of creating buffers, slicing and destroying',
 'Orders of destruction are unbounded; use-after-free often passes tests.',
 [L+'objects/o_buffer.c: Object_SliceBuffer, buffer_free'])
p('C21','String equality is byte equality',
 'Two strings compare equal exactly when they contain the same bytes.',
 'every pair of strings, embedded NUL included',
 'All pairs of strings.',
 [L+'objects/o_string.c: op_eql'])
p('C22','Equality is an equivalence',
 '== on values for which it is defined is reflexive (except NaN), symmetric and transitive, is false between different types, and none equals only none.',
 'all triples of values',
 'Quantifies over all triples.',
 [L+'objects/objects.c: Object_Compare', L+'objects/o_*.c: op_eql'])
p('C23','Type assertions mean what the documentation says',
 'istypeof(T, v) holds exactly when: T is a type and v has that type; T is any; T is ?U and v is none or satisfies U; T is U|V and v satisfies U or V; T is a list and v is a list of the same length whose items satisfy the corresponding items of T; T is a map and v is a map with the same number of entries in which every key of T is present with a value satisfying T[key].',
 'every (arbitrarily nested) type value and every value',
 'Nested type values are unbounded.',
 [L+'objects/objects.c: istypeof, Object_IsTypeOf', L+'objects/o_any.c, o_nullable.c, o_sum.c, o_list.c, o_map.c: istypeof'])
p('C24','Printing terminates on cyclic data',
 'Printing any value terminates, also when lists and maps contain themselves; acyclic values are printed in full and printing leaves the data unchanged (printing again gives the same text).',
 'every finite object graph, cyclic or not',
 'Termination over all graphs.',
 [L+'objects/objects.c: Object_Print', L+'objects/o_list.c: print', L+'objects/o_map.c: print'])
p('C25','Map keys are insulated from later changes',
 'Using a list or map as a key stores a deep copy of it: later changes to the original never change which entries the map holds.',
 'every nested key and every later mutation',
 'Aliasing bugs need particular mutation histories.',
 [L+'objects/o_map.c: insert, copy', L+'objects/o_list.c: copy', L+'objects/objects.c: Object_Copy'])
# ---- heap/gc
p('C26','Garbage collection is invisible to the program',
 'After a successful collection, everything reachable from the roots has the same contents and the same sharing and cycle structure as before: the reachable object graph is isomorphic to the old one.',
 'every object graph, with sharing, cycles and static objects, every set of roots',
 'Graph shapes are unbounded; a moved-twice or missed reference appears only in some of them.',
 [L+'objects/heap.c: Heap_StartCollection, Heap_CollectReference, Heap_StopCollection', L+'runtime.c: Runtime_CollectGarbage'])
p('C27','Finalizers run exactly for dead objects',
 'A successful collection runs the finalizer of each unreachable object that has one exactly once and never again, and of no reachable object; destroying the heap finalizes each remaining object exactly once.',
 'every object graph, every sequence of collections',
 'Multi-collection histories over arbitrary graphs.',
 [L+'objects/heap.c: callDestructors, Heap_StopCollection, Heap_Free, Heap_Malloc'])
p('C28','A collection never runs out of room',
 'If the live objects, each of their blocks rounded up to a multiple of 8 bytes, fit in the configured heap size, a collection succeeds and uses no more memory than they take up.',
 'every heap content',
 'Depends on exact byte accounting of every object and its extension.',
 [L+'objects/heap.c: Heap_RawMalloc, Heap_CollectReference, Heap_CollectExtension', L+'objects/o_list.c: walkexts', L+'objects/o_map.c: walkexts'])
p('C29','Heap blocks do not overlap',
 'Between collections, every block obtained from the garbage-collected heap is 8-byte aligned and disjoint from all other live blocks, whether it comes from the main area or from overflow memory.',
 'every sequence of allocations',
 'Unbounded sequences of sizes.',
 [L+'objects/heap.c: Heap_RawMalloc, Heap_Malloc'])
# ---- vm
p('C30','Integer arithmetic is exact or refused',
 'For 64-bit integers, a+b, a-b, a*b, a/b, -a give the exact mathematical result (division truncating toward zero); division by zero is a runtime error; results that do not fit are never silently wrong (the documentation promises an abort).',
 'all pairs of 64-bit integers',
 '2^128 operand pairs.',
 [L+'run.c: do_math_op, runInstruction (NEG, MOD)'])
p('C31','Remainder',
 'a % b on integers is the remainder with the sign of a such that (a/b)*b + a%b = a, non-integers are an error, and a zero divisor is a runtime error rather than a crash.',
 'all pairs of 64-bit integers and all operand types',
 '2^128 operand pairs; the zero case kills the process.',
 [L+'run.c: runInstruction (MOD)'])
p('C32','Ordering operators',
 'a < b, a <= b, a > b, a >= b on integers and floats agree with the numeric order (in particular a<b iff b>a, and on integers exactly one of <, ==, > holds); other operand types are errors.',
 'all pairs of values',
 'All pairs.',
 [L+'run.c: do_relational_op'])
p('C33','Variable scoping',
 'Reading a variable yields the innermost binding: the function\'s own, then those of the lexically enclosing functions from inside out, then the builtins; an undefined variable is an error. Assignment always writes the current function\'s own scope and no other.',
 'every nesting of scopes and every history of assignments',
 'Unbounded nesting and histories.',
 [L+'runtime.c: Runtime_GetVariable, Runtime_SetVariable', L+'objects/o_closure.c: closure_select', L+'run.c: PUSHFUN'])
p('C34','Calls: missing arguments are none, extra ones are dropped, results are padded or cut',
 'A function with n parameters called with m arguments sees the first min(n,m) in order and none for the rest; a call expecting k results gets the first k returned values, padded with none, in order, with nothing else left on the evaluation stack.',
 'all argument and result counts',
 'Count combinations are unbounded.',
 [L+'run.c: func_call, native_func_call, CALL, RETURN, runExecutableAtIndex', L+'compiler/codegen.c: emitInstrForFuncCallNode, emitInstrForAssignmentNode'])
p('C35','Frame limits are errors, never corruption',
 'At every moment of every execution no frame holds more than its limit of values, the number of nested frames does not exceed the limit, and the values on the shared stack are exactly those of the live frames; exceeding a limit is a reported error.',
 'every sequence of frame and stack operations',
 'Every execution.',
 [L+'runtime.c: Runtime_Push, Runtime_Pop, Runtime_PushFrame, Runtime_PopFrame, Runtime_PushNativeFrame, Runtime_PushFailedFrame'])
p('C36','Calls do not disturb the caller',
 'When a function returns, the caller\'s evaluation stack is what it was before the call, minus callee and arguments, plus the results; the caller\'s instruction position, locals and closure are unchanged except through shared data.',
 'every function body and every call site',
 'Every body.',
 [L+'run.c: runExecutableAtIndex, CALL', L+'runtime.c: Runtime_PopFrame'])
p('C37','An error stops execution',
 'After a runtime error no further instruction is executed and no further output produced; the error is reported to the caller and control unwinds completely.',
 'every program and error point',
 'Every program.',
 [L+'run.c: runInstructionsUntilSomethingHappens, runExecutableAtIndex'])
p('C38','Interrupts stop the program promptly',
 'If an interrupt is requested (or the periodic callback asks to stop) at any moment, at most the instruction in progress completes before the program ends with an error.',
 'every program and every interruption point',
 'Every schedule of the asynchronous request.',
 [L+'run.c: runInstructionsUntilSomethingHappens', L+'runtime.c: Runtime_Interrupt, Runtime_WasInterrupted'])
p('C39','Stack traces are finite',
 'After any history of failed compilations and failed runs on one runtime, printing the stack trace and freeing the runtime terminate.',
 'every sequence of runs',
 'Needs two failures in a row in one runtime.',
 [L+'runtime.c: Runtime_PushFailedFrame, Runtime_PrintStackTrace, Runtime_Free'])
# ---- compiler
p('C40','Compiled programs keep the evaluation stack balanced',
 'In code generated for any program, every expression leaves exactly one value and every statement leaves none on the evaluation stack, on every path including breaks, so the stack depth at each instruction is the same no matter how it is reached and never negative.',
 'every syntax tree',
 'Programs are unbounded; imbalance shows only on some paths.',
 [L+'compiler/codegen.c: emitInstrForNode and friends'])
p('C41','Every jump of a compiled program lands inside it',
 'For every program the compiler accepts, all jump and function-entry targets are resolved and are indices of existing instructions, and execution never runs past the last instruction.',
 'every syntax tree',
 'Programs are unbounded.',
 [L+'compiler/codegen.c', L+'executable.c: ExeBuilder_Finalize'])
p('C42','Compilation preserves meaning',
 'Running the bytecode compiled from a program has the same outcome (printed output, final variables, returned values, error or not) as evaluating the program\'s syntax tree according to the language rules, up to the documented resource limits.',
 'every syntax tree and every initial state',
 'Programs are unbounded; this is compiler correctness.',
 [L+'compiler/codegen.c', L+'run.c: runInstruction, func_call, runExecutableAtIndex'])
p('C43','and/or short-circuit',
 '`a and b` evaluates b only if a is true and `a or b` only if a is false; the result is the boolean conjunction/disjunction; a non-boolean operand that is evaluated is an error.',
 'every pair of operand expressions',
 'Operands are arbitrary expressions with effects.',
 [L+'compiler/codegen.c: emitInstrForExprNode (AND, OR)', L+'run.c: JUMPIFANDPOP, JUMPIFNOTANDPOP'])
p('C44','break leaves exactly the innermost loop',
 'break ends the innermost enclosing while or do-while loop and continues right after it; outside any loop it is rejected at compile time.',
 'every nesting of loops and other statements',
 'Unbounded nesting.',
 [L+'compiler/codegen.c: emitInstrForNode (BREAK), emitInstrForWhileLoopNode, emitInstrForDoWhileLoopNode'])
p('C45','Default arguments and type assertions',
 'On entry each parameter that received none and has a default takes the value of the default expression; then, if it has a type annotation, the (possibly defaulted) value must satisfy it or the call fails naming the argument; each parameter is bound to its own argument, the last one first, and the evaluation stack is empty when the body starts.',
 'every parameter list and every argument list',
 'Unbounded parameter lists.',
 [L+'compiler/codegen.c: emitInstrForArgumentNode, emitInstrForFuncExprNode', L+'run.c: CHECKTYPE, PUSHTYP'])
p('C46','Multiple assignment',
 'a1, ..., an = f(...) gives the i-th target the i-th returned value (none if f returns fewer), for variable and indexed targets, and evaluates to a single value; left-hand sides that are not assignable are rejected.',
 'every number and kind of targets',
 'Unbounded target lists.',
 [L+'compiler/codegen.c: emitInstrForAssignmentNode, flattenTupleTree'])
# ---- parser
p('C50','Tokens partition the source',
 'For every source text the tokenizer accepts, the tokens appear in source order, do not overlap, are non-empty, and what lies between them is only whitespace and comments.',
 'every source text',
 'All strings.',
 [L+'compiler/parse.c: tokenize'])
p('C51','Operators are recognised wherever they are adjacent',
 'Adjacent operators are split into the longest valid operators, so that e.g. x<=-1 reads as x <= -1.',
 'every run of operator characters',
 'Runs are unbounded; only some runs are mis-split.',
 [L+'compiler/parse.c: tokenize (operator case)'])
p('C52','Precedence and associativity',
 'Parsing the textual form of any binary-operator expression tree, written with the minimal parentheses required by the precedence table (= lowest and right associative, then |, or, and, comparisons, + -, * / %, and , highest; all others left associative), yields that tree.',
 'every expression tree',
 'Trees are unbounded.',
 [L+'compiler/parse.c: parse_expression, parse_expression_2, precedenceof, isrightassoc, isbinop'])
p('C53','Integer literals are exact or refused',
 'An integer literal denotes exactly the number written; if it does not fit in 64 bits the program is rejected.',
 'every digit string',
 'All digit strings; boundary at 2^63.',
 [L+'compiler/parse.c: parse_primary_expresion (TINT)', L+'assembler/assemble.c: parseIntegerOperand'])
p('C54','String literals',
 'Writing any text as a quoted literal with the documented escapes and parsing it gives the text back, up to the documented maximal length; longer literals are refused.',
 'every text',
 'All strings and all positions of escapes.',
 [L+'compiler/parse.c: parse_string_primary_expression', L+'assembler/assemble.c: parseStringOperand'])
p('C55','Reported line numbers',
 'The line number shown for a position in a source is one plus the number of newlines before that position.',
 'every source and position',
 'All sources.',
 [L+'runtime.c: printFrame'])
# ---- assembler
p('C57','Assembler integers',
 'parsing an integer operand of the assembler yields exactly the decimal value of the digits, or an overflow error if it exceeds 2^63-1.',
 'every digit string',
 'All digit strings.',
 [L+'assembler/assemble.c: parseIntegerOperand'])
p('C58','Assembler round trip',
 'Printing any instruction list in assembly notation with labels for jump targets and assembling it gives an executable equivalent to the original.',
 'every instruction list',
 'Unbounded programs.',
 [L+'assembler/assemble.c: assemble', L+'executable.c: Executable_Equiv'])
p('C59','Program equivalence check is sound',
 'Two executables judged equivalent have the same instructions with the same operands.',
 'every pair of executables',
 'All pairs.',
 [L+'executable.c: Executable_Equiv'])
# ---- builtins
p('C60','string.toInt',
 'string.toInt of a string of decimal digits returns exactly the number if it fits in 64 bits and (none, message) otherwise; any other string gives (none, message).',
 'every string',
 'All strings.',
 [L+'builtins/string.c: bin_toInt', L+'builtins/utils.c: returnValuesVA'])
p('C61','string.cat',
 'string.cat of any strings is their concatenation; its character count is the sum of theirs; a non-string argument is an error.',
 'every list of arguments',
 'Unbounded argument lists.',
 [L+'builtins/string.c: bin_cat'])
p('C62','string.slice',
 'string.slice(s, o, n) returns the n bytes of s from byte o (to the end when n is omitted) exactly when 0 <= o, 0 <= n and o+n <= length; otherwise it is an error; it never reads outside s.',
 'every string and every pair of 64-bit integers',
 'All pairs of integers.',
 [L+'builtins/string.c: bin_slice'])
p('C63','string.trim',
 'string.trim(s) is s without its leading and trailing spaces and never reads outside s.',
 'every string',
 'All strings.',
 [L+'builtins/string.c: bin_trim'])
p('C64','string.ord and string.chr are inverse',
 'string.ord(string.chr(n)) = n for 0 <= n <= 0x10FFFF, and chr rejects every other integer.',
 'every 64-bit integer',
 'All integers.',
 [L+'builtins/string.c: bin_ord, bin_chr'])
p('C65','Builtin arity',
 'A builtin only reads the arguments it was given: calling any builtin with any number of arguments never makes it read past the argument array.',
 'every builtin and every argument count',
 'The read past the end is silent.',
 [L+'builtins/math.c: bins_math (pow, atan2)', L+'run.c: native_func_call'])
p('C66','Looking up a name in a builtin namespace terminates within its table',
 'Selecting any name from a builtin namespace (math, string, buffer, ...) returns its entry or none and only examines entries of that table.',
 'every namespace and every name',
 'The overrun is silent for present names.',
 [L+'o_staticmap.c: select', L+'builtins/string.c: bins_string', L+'builtins/buffer.c: bins_buffer'])
p('C67','I/O never overruns buffers',
 'files.read, files.write, net.recv and net.send transfer at most the requested count and never more bytes than the buffer (or slice) holds; negative counts are refused.',
 'every buffer, every count argument',
 'All counts, including those beyond 32 bits.',
 [L+'builtins/files.c: bin_read, bin_write', L+'builtins/net.c: bin_recv, bin_send'])
p('C68','Argument validation',
 'A builtin declared with an argument format runs only if every argument has the declared type (or is none where optional); otherwise the call is a runtime error.',
 'every format and every argument list',
 'All argument lists.',
 [L+'builtins/utils.c: parseArgs'])
p('C69','Integer to text',
 'toString(n) for a non-negative integer is its decimal representation.',
 'every non-negative 64-bit integer',
 '2^63 inputs.',
 [L+'builtins/start.noja: toString, stringFromInteger, getIntegerMagnitude'])
p('C70','Iterators visit everything once',
 'Repeatedly calling next on makeIterator(c) yields each (value, key) of the collection exactly once, in key order, then none forever.',
 'every list or map without its own iter method',
 'Unbounded collections.',
 [L+'builtins/start.noja: makeGenericIterator, makeIterator'])
p('C71','Buffer/string conversions',
 'buffer.toString(buffer.fromString(s)) = s for every string s, and buffer.toString of bytes that are not valid UTF-8 returns (none, message).',
 'every string / every byte sequence',
 'All strings.',
 [L+'builtins/buffer.c: bin_toString, bin_fromString', L+'objects/o_buffer.c: Object_NewBufferFromString'])
p('C72','Absolute paths',
 'Making a path absolute returns the path itself if it starts with / and otherwise the working directory, a /, and the path, exactly when the result fits the destination; the destination is never overrun.',
 'every path, working directory and destination size',
 'All sizes and paths.',
 [L+'utils/path.c: Path_MakeAbsolute'])
p('C73','Earlier builtins win',
 'Plugging an additional set of builtins never changes what an already available builtin name means.',
 'every sequence of plugged builtin sets',
 'All histories.',
 [L+'runtime.c: Runtime_plugBuiltins', L+'objects/o_closure.c: closure_select'])
p('C74','Shared sources and executables are freed exactly once',
 'A source or executable is released exactly when the last holder releases it, for every interleaving of copies and releases.',
 'every history of copy/free',
 'All histories.',
 [L+'utils/source.c: Source_Copy, Source_Free', L+'executable.c: Executable_Copy, Executable_Free', L+'utils/stack.c: Stack_Copy, Stack_Free'])
p('C75','Profiling totals',
 'The profile reports for each function the number of completed calls and the sum of their durations; entries never mix. The profile that is written has one line for each function that was called, in the order of creation, with these numbers.',
 'every history of function creations and calls',
 'All histories.',
 [L+'timing.c: TimingTable_newEntry, TimingTable_sumCallTime, TimingTable_getSummary',L+'runtime.c: Runtime_SerializeProfilingResultsToStream'])
p('C76','No stale references',
 'A pointer to an object that was saved before a collection and is not known to the collector is never followed after it.',
 'every call of a function of the language or a native function, any number of collections during the call',
 'A collection must happen at one particular moment, and reading freed memory often goes unnoticed.',
 [L+'run.c: func_call, native_func_call, runExecutableAtIndex, runInstruction', L+'runtime.c: Runtime_CollectGarbage'])
p('C77','The assembler stays within its text',
 'On every text, whatever byte lies after its end, the assembler ends with an executable or an error and reads nothing beyond the text.',
 'every text and every byte after it',
 'All texts; a read one byte beyond the end usually goes unnoticed.',
 [L+'assembler/assemble.c: assemble, parseOperands', L+'utils/source.c: Source_FromString'])
p('C78','No executable from a text with errors',
 'When the assembler returns an executable it has reported no error.',
 'every text',
 'All texts.',
 [L+'assembler/assemble.c: parseLabelAndOpcode'])
p('C79','The parser stays within its tokens',
 'On every text the parser ends with a syntax tree or an error, and never follows a pointer beyond its last token.',
 'every text, every byte after it',
 'All texts; most texts that end too early are refused properly.',
 [L+'compiler/parse.c: parse, next, parse_map_primary_expression'])
p('C80','The parser accepts exactly the grammar',
 'A text is accepted exactly if its words are a program of the grammar of the language, and the tree built, with the position of every node, is the one the grammar gives; no text has two trees.',
 'every text and every tree',
 'All texts and trees; both directions.',
 [L+'compiler/parse.c: parse, parse_statement, parse_expression, parse_postfix_expression, parse_primary_expresion'])
p('C81','Every program can be written down and read back',
 'Writing a syntax tree as text, with parentheses only where they are needed, and parsing the text gives the tree back except for the positions; and every tree the parser makes is one that can be so written.',
 'every syntax tree that a program can have; every text the parser accepts',
 'All trees and texts.',
 [L+'compiler/parse.c: parse, tokenize, parse_statement, parse_expression, parse_postfix_expression, parse_primary_expresion'])
p('C82','The line of an error is that of the instruction that failed',
 'When an instruction fails, the line shown in the stack trace for the frame of the program is the line of that instruction.',
 'every program and every state of its execution in which an instruction fails',
 'All programs and executions.',
 [L+'run.c: runInstruction', L+'runtime.c: printFrame, getFrameOffset, Runtime_SetInstructionIndex'])
p('C83','Positions of expressions',
 'The position of an expression in the syntax tree is its text: from the start of its first token to the end of its last.',
 'every expression of every text',
 'All texts.',
 [L+'compiler/parse.c: parse_primary_expresion, parse_string_primary_expression, parse_postfix_expression, parse_expression_2'])
p('C84','From the text to the code',
 'A text is compiled exactly if its words are a program of the grammar and the tree meets the conditions of the code generator; the instructions, operands and strings found in the executable are then exactly the code of that program.',
 'every text',
 'All texts.',
 [L+'compiler/compile.c: compile', L+'compiler/codegen.c: codegen', L+'executable.c: Executable_Fetch'])
p('C85','input returns the line',
 'The builtin `input` returns the text of the line that comes next on the standard input, without its newline, and reads nothing else; a last line that ends with the stream is returned too.',
 'every stream of bytes; lines of any length',
 'Lines of any length, with and without a newline at the end.',
 [L+'builtins/basic.c: bin_input'])
p('C86','import opens the file of that name next to the script',
 'A file that is imported is the one with the given name if the name is absolute, and otherwise the one of that name in the folder of the script that is running (the working directory if the program is not in a file). Exactly the paths that do not fit in the buffer are refused, and the buffer is never overrun.',
 'every name, script, working directory and stack of frames',
 'All names and paths, in particular at the size of the buffer.',
 [L+'run.c: makePathRelativeToScript, runFileRelativeToScript', L+'runtime.c: Runtime_GetCurrentScriptFolder, Runtime_GetCurrentScriptAbsolutePath, Runtime_GetMostRecentExecutable', L+'builtins/basic.c: bin_import, bin_getCurrentScriptDirectory'])
p('C87','Error messages are kept whole and freed',
 'However errors are reported and freed, the message is the whole text of the last report (cut, and marked as such, only if there is no memory), no memory is touched that is not allocated, and nothing but the message stays allocated.',
 'every sequence of reports and frees, messages of any length',
 'Sequences of any length.',
 [L+'utils/error.c: _Error_Report2, Error_Free, Error_Init'])
p('C88','The kind of error shown is the kind reported',
 'An error is shown with the name of its kind, and one of unspecified kind with the name of the kind given as a default.',
 'every kind, default and message',
 'All kinds and messages.',
 [L+'utils/error.c: Error_Print', L+'utils/error.h: ErrorType'])
p('C89','The diagram of a program draws its syntax tree',
 'The nodes and arrows written by --diagram-ast are a tree, all nodes have labels, and it is the syntax tree of the program with its labels and the order of the children; the labels of strings read as the strings.',
 'every program',
 'All syntax trees.',
 [L+'compiler/graphviz.c: graphviz, nodeToGraphViz, exprToGraphViz, childToGraphViz, funcExprToGraphViz, flattenTupleTree'])
p('C90','Programs do what the manual of the language says',
 'What a program writes, whether it ends, with an error or with which values, is what the meaning of the language says: integers are integers, floating point numbers are compared as the numbers they stand for, texts are sequences of characters, lists, maps and buffers are shared, functions see the variables around them and, around those, what start.noja returns and the builtins, an error stops the program.',
 'every program and every text that compiles',
 'All programs; any depth, any length of execution.',
 [L+'run.c: runInstruction, runInstructionsUntilSomethingHappens', L+'compiler/codegen.c: codegen', L+'objects/o_list.c', L+'objects/o_map.c', L+'objects/o_string.c', L+'objects/o_buffer.c', L+'builtins/basic.c', L+'builtins/string.c', L+'builtins/math.c', L+'builtins/buffer.c'])
p('C91','Garbage collections cannot be noticed',
 'A collection between two instructions is defined and, if it succeeds, the program goes on as it would have without it: the same output, the same way of ending, results that are printed the same; the interpreter has the objects it would have had at other places.',
 'every state of the interpreter, every arrangement of objects and extensions in memory, every sequence of instructions and collections',
 'Collections happen when the heap is full: tests of ordinary size have none, and the places of objects cannot be chosen by a test.',
 [L+'runtime.c: Runtime_CollectGarbage', L+'run.c: runInstructionsUntilSomethingHappens', L+'objects/heap.c: Heap_StartCollection, Heap_CollectReference, Heap_StopCollection', L+'objects/o_list.c: walkexts'])
p('C92','Random numbers are between their bounds',
 'random.generate(a, b) is defined and gives a number between a and b.',
 'all bounds, every value of rand(), every way of rounding',
 'The bounds are 64 bits wide and the random number cannot be chosen by a test.',
 [L+'builtins/random.c: bin_generate', L+'utils.c: returnValuesVA'])
p('C93','The command line does what its options say',
 'Whatever options stand in front of the file name, in whatever order and spelling, the interpreter does what they say: of options that contradict each other the last one counts, and what follows the file name has no influence.',
 'every list of options, file names and numbers, and everything that may follow',
 'Command lines of any length.',
 ['src/cli/main.c: main'])
p('C94','Test files are read as their fields',
 'Of every text, parseTest gives the fields it begins with, by name and body, or says what is wrong: a missing @, a missing name, a name that occurs twice. queryTest then gives the body of the field with a name, or nothing if there is none.',
 'every text, any number of fields, names and bodies of any length',
 'Texts of any length; that pointers go into an array that no longer exists is often not noticed when it happens.',
 ['src/test/test.c: parseTest, queryTest, growFieldsArray', 'src/test/field.c: parseField, parseFieldBody, findField', 'src/test/scanner.c'])
p('C95','Test files are freed',
 'Everything that parseTest allocates is freed exactly once, by freeTest or, if the text is wrong, by parseTest itself, and nothing else is freed.',
 'every text, any number of fields, names and bodies of any length',
 'Leaks are not noticed by tests, and whether a wrong free is depends on the allocator.',
 ['src/test/test.c: parseTest, freeTest, growFieldsArray', 'src/test/field.c: freeField, setFieldName, setFieldBody'])
p('C96','Handles are closed or given to the program',
 'files.openFile is defined for every mode, and every stream, directory and socket that the builtins open is in the end either closed exactly once (by a finalizer or by the builtin) or has been given to the program as a number.',
 'every sequence of openFile, openDir, socket and accept calls with any outcome, and of allocations, writes and collections in between',
 'A handle is lost only if something fails between opening it and storing it, which tests cannot bring about, and the loss of a handle has no immediate effect.',
 [L+'builtins/files.c: bin_openFile, bin_openDir', L+'builtins/net.c: bin_socket, bin_accept', L+'objects/o_file.c: Object_FromStream, file_free', L+'objects/o_dir.c: Object_FromDIR, dir_free'])
p('C97','Ports and addresses',
 'net.bind binds the port it is given, and net.accept gives the port of the other side and its address in a form from which it can be told.',
 'all 64-bit arguments, all ports and addresses',
 'There are 65536 ports and 2^32 addresses, and the port of the other side cannot be chosen by a test of the library alone.',
 [L+'builtins/net.c: bin_bind, bin_accept', L+'builtins/utils.c: parseArgs, returnValuesVA'])
p('C98','Sources have the text they are made of',
 'Source_FromFile and Source_FromString either refuse or give a source whose name is the one given and whose text is that of the file (if it does not change meanwhile), of the string, or as much of it as asked for; they do not write outside their memory.',
 'every file content, every string, name and size, with and without memory',
 'The failures are at sizes of several gigabytes.',
 [L+'utils/source.c: Source_FromFile, Source_FromString, Source_GetName, Source_GetBody, Source_GetSize'])
p('C99','math.floor and math.ceil',
 'math.floor gives the greatest whole number that is not greater than the float, math.ceil the least that is not less.',
 'all floats, including NaN and the infinite ones',
 'There are 2^64 floats, and what happens to those that do not fit depends on the machine.',
 [L+'builtins/math.c: bin_floor, bin_ceil'])
p("C100","The text of a diagram is the labels followed by the arrows",
 "For any lines written while the syntax tree is visited (each to the head or to the body, each shorter than INT_MAX), `graphviz` returns `digraph G {`, all the lines of the head in order, an empty line, all the lines of the body in order and `}`, ended by one zero byte, and stores the length of that text; or, if memory for twice the text is not available, an error. Buffers grow as needed: nothing is written or read outside them, no line is cut, no unwritten byte is copied and NULL is never given to memcpy.",
 "all lists of lines, all line lengths below INT_MAX, all amounts of memory below 2^63",
 "Whether a line is cut or a byte is lost depends on how the lengths of the lines fall relative to the doubling capacities, and on where memory runs out; tests see a few diagrams with memory to spare.",
 [L+"compiler/graphviz.c:54-182",L+"compiler/graphviz.c:524-544"])

p("C101","The listing of a program tells the program",
 "What `Executable_Dump` writes for an executable determines its instructions and operands: two executables with the same listing have the same instructions with the same operands, in the same order; each instruction is one line of the listing.",
 "all executables whose operands have the types that their instructions ask for",
 "Two programs with the same listing need not look special; a test compares listings of programs it already has.",
 [L+"executable.c: Executable_Dump"])

p("C102","The names of files and directories arrive unchanged",
 "A program that calls `files.nextDirItem` until it returns nothing gets the names of all entries of the directory, unchanged and in the order of the system, and `getCurrentWorkingDirectory` returns the path of the directory the program is in, whatever they are.",
 "all lists of entries, all names and paths without zero bytes",
 "Names on the system are arbitrary bytes; tests have directories with a few plain names.",
 [L+"builtins/files.c: bin_nextDirItem",L+"builtins/basic.c: bin_getCurrentWorkingDirectory",L+"builtins/utils.c: returnValuesVA"])

p("C103","What a session holds is freed once and not used afterwards",
 "While a program runs, after it has failed and while the stack trace or the profile is written, no source and no executable is used after it was freed; when the runtime is freed, each source and each executable has been freed exactly once and no frame is left; and every array made for the missing arguments of a call has been freed.",
 "all sequences and nestings of definitions, calls, calls of native functions, imports (of files that can or cannot be read or compiled), collections that keep any functions, and failures at any place; with and without profiling",
 "Who is the last to hold a source depends on the order of calls, imports, collections and failures; tests run a few programs that mostly succeed, and a leak is not seen by them.",
 [L+"run.c: func_free, func_call, native_func_call, runExecutableAtIndex, runSource, runFile",L+"runtime.c: Runtime_PushFrame, Runtime_PushFailedFrame, Runtime_PopFrame, Runtime_Free",L+"timing.c: TimingTable_newEntry, TimingTable_free",L+"executable.c: Executable_Copy, Executable_Free",L+"utils/source.c: Source_Copy, Source_Free"])

p("C104","A test is judged by what its fields say",
 "A test is judged by the routine of the type that its field `type` names, from the bodies of the fields that the type asks for, in that order; if the text is no test, or names no known type, or lacks a field, then it is aborted; a warning tells the number of fields that are not used; and everything that was allocated for the test is freed. The file of a test is read whole.",
 "all texts, all sets of test types with up to eight fields each, all files",
 "Whether memory is lost or freed wrongly depends on the number and length of the fields, and is not seen in the verdict.",
 ["src/test/run.c: runTestString, findTestType, getStreamData","src/test/test.c: parseTest, queryTest, freeTest"])

p("C105","All tests in a directory are run and counted",
 "The tests in a directory and in the directories below it, except hidden ones, are each run once and counted by their verdicts, or else the batch is aborted; the totals are the sums over the arguments; and the exit status is zero exactly if all batches were run and all tests passed.",
 "all directory trees of any depth, with all kinds of entries and names, and all verdicts",
 "Directories of any depth and paths of any length; a test that is passed over leaves no trace.",
 ["src/test/run.c: runTestDirectory, getExtension","src/test/main.c: main"])

p("C106","A test passes exactly if what is expected happens",
 "A runtime test passes exactly if the program writes the expected output and nothing else, a compiler test exactly if the compiler gives exactly the expected instructions; a test is aborted if there is no memory or one of the programs is not accepted.",
 "all programs, outputs of any length and content, all expected outputs, all pairs of executables",
 "Tests of the test tool would be judged by the tool itself, and a test that passes wrongly is not noticed.",
 ["src/test/main.c: runRuntimeTest, runCompilerTest",L+"executable.c: Executable_Equiv"])

p("C107","The command does what it is asked for, or says that it has not",
 "Whatever the arguments ask for (help, a diagram, running a program, a profile) is done: help, the diagram or what the program writes is on the output stream or in the named file, a profile is where it is asked for, no other file is touched, and the exit status is 0. Otherwise the status is not 0, there is a message on the error stream, no file is touched and only what the program wrote before it failed is on the output stream. What a program writes, and whether it fails, is what the manual of the language says.",
 "all lists of arguments, all programs and texts, all behaviours of the library and the file system",
 "Tests run the command on a few programs and a few options and look at its output; a status or an emptied file in combination with an option is not noticed.",
 ["src/cli/main.c: main",L+"runtime.c: Runtime_SerializeProfilingResultsToFile, Runtime_SerializeProfilingResultsToStream",L+"run.c: runFile, runString, runBytecodeFile, runBytecodeString"])

p("C108","Programs get the sockets that they ask for and know it",
 "net.socket, net.bind, net.listen, net.accept and net.close ask the system for exactly what the program asks for, with the same numbers and in this order, until something is refused; a program which looks at as many values as success gives can tell success from failure and is told why (net.close: only that) something was refused; and it is told every descriptor that the system gives out, unless it has been given back.",
 "all arguments, all answers of the system",
 "Tests run against a network that works; refused options, addresses of another family and descriptors above 2^31 do not come up.",
 [L+"builtins/net.c: bin_socket, bin_bind, bin_listen, bin_accept, bin_close"])

p("C109","Stack traces show the calls that are being performed",
 "When a program fails, the stack trace is one line for each call that is being performed, from the innermost to the outermost and counted from 0, with the name of the text that it is in and the line of the instruction that failed or that waits for the result of the call.",
 "all programs, all executions and all states in which they fail",
 "Tests of the interpreter look at what programs write and not at traces; calls that span lines do not come up.",
 [L+"runtime.c: Runtime_PrintStackTrace, printFrame, getFrameOffset, getFrameSource, Runtime_PushFrame, Runtime_PushNativeFrame, Runtime_PopFrame",L+"run.c: runInstruction"])

p("C110","The text of a diagram is a graph that pictures the program",
 "For every program that the parser accepts, what --diagram-ast writes is a graph in DOT which can be read in one way only; it has no byte NUL; the tree that a reader sees below its first node, by the last label of every node and the order of the arrows, is the syntax tree of the program; and there is nothing else in the graph.",
 "all texts of the grammar, with all names, numbers and strings",
 "Tests would compare a few diagrams; a string with a quote or a backslash before the end of a label makes a text that cannot be read, or that reads as another graph.",
 [L+"compiler/graphviz.c: graphviz, GraphViz_Complete, generateName, childToGraphViz, exprToGraphViz",L+"diagram.c: diagramSourceAST, diagramFileAST, diagramStringAST"])

p("C111","A signal ends the program, and what it has written is a beginning of what it writes",
 "A SIGINT or SIGTERM that reaches the command while a program runs ends it before its next instruction, with a message and a stack trace and the exit status 255; what is on the output stream is a beginning of what the program writes without the signal. If the program has ended by itself before, the signal changes nothing. At no time does a signal do anything undefined.",
 "all programs, all moments at which signals come, all numbers of signals, wherever collections happen",
 "Tests do not send signals; a signal in the short time between the end of the program and that of the process is hardly ever sent.",
 ["src/cli/main.c: signalHandler, main",L+"runtime.c: Runtime_Interrupt, Runtime_WasInterrupted, Runtime_Free",L+"run.c: runInstructionsUntilSomethingHappens"])

p("C112","error and assert say what is wrong",
 "After error(s) the line on the error stream is 'Runtime Error: ', s and a dot. assert lets the program go on exactly if all its arguments are true; otherwise the line says that the assertion failed, or the number of the argument that is no boolean, for the first argument that is not true.",
 "all strings, all numbers of arguments, with and without memory for the message",
 "Tests use short messages and never run out of memory; strings with zero bytes do not come up.",
 [L+"builtins/basic.c: bin_error, bin_assert",L+"utils/error.c: _Error_Report2, Error_Print"])

p("C113","A program that gets no memory fails",
"Whoever asks the heap for memory and gets none finds an error that has been reported, so that a program for whose objects there is no memory stops with an error: a program that ends well has written what it writes if there is memory.",
"all programs, all moments at which the C library has no block for an object that does not fit into the heap, all call depths, and all heaps, sizes and objects with or without destructors",
"A test would have to make malloc fail at a chosen moment; the run then looks like a normal one, with status 0 and without a message.",
[L+"objects/heap.c: Heap_Malloc, Heap_RawMalloc",L+"run.c: runInstruction, runInstructionsUntilSomethingHappens, runExecutableAtIndex, native_func_call"])

p("C114","There is a collection when more is in use than the heap has",
 "After an instruction there is a collection exactly if more bytes are in use than the heap has; so before each instruction no more is in use than the heap has.",
 "all sizes of heaps that the command takes, all numbers of bytes in use, all sequences of instructions, allocations and collections",
 "The percentage is rounded twice; tests with heaps of a few sizes do not meet the numbers for which that matters.",
 [L+"objects/heap.c: Heap_GetUsagePercentage, Heap_RawMalloc, Heap_StartCollection, Heap_StopCollection",L+"run.c: runInstructionsUntilSomethingHappens"])

p("C115","Random numbers can be had again",
"After random.seed(n) the numbers that random.generate gives are determined by n and by the bounds that are asked for, whatever the program has done before; the k-th call takes the k-th number of the series of n. Two different 64-bit seeds have different series, unless the C library has the same for all.",
"all seeds, all sequences of calls of random.seed and random.generate with all arguments, all C libraries that keep what the standard says about srand and rand",
"Tests of random numbers try a few small seeds; seeds that differ above bit 31 do not come up.",
[L+"builtins/random.c: bin_seed, bin_generate"])

import os
with open(os.path.join(os.path.dirname(__file__),'..','properties.jsonl'),'w') as f:
    for o in P: f.write(json.dumps(o,ensure_ascii=False)+'\n')
print(len(P))
