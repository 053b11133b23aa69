# Formal model of Noja (C interpreter) in Lean 4

Source: `/repo` (cozis/Noja, pinned; read as text, never built or run).
Model and proofs: `/verif/lean/Verif`. Properties: `properties.jsonl`.
Status of each claim and the theorems that carry it: `MANIFEST.json`.
Tests of the theorems against wrong programs: `seeded/LOG.jsonl`.

## Conventions

* A component is modelled function by function. Each model definition cites
  the file and lines of the C code; the header of each file says what is
  simplified. Specifications are written without the helpers of the model.
* The build modelled is the default one (`make`, release: `-DNDEBUG`, `DEBUG`
  undefined): `ASSERT`, `assert` and `UNREACHABLE` do nothing.
* Outcomes (`Verif/Exec.lean`): `ok`, `err` (an error reported through the
  API), `ub` (undefined behaviour of C: access out of bounds, signed overflow,
  division by zero, freed memory) and `diverge`. A theorem about a function
  says when `ub` cannot happen; "hangs" is `∀ fuel, … = .diverge`.
* Integers: `int` 32 bit, `long long` and `size_t` 64 bit, two's complement,
  x86-64 Linux; `char` is signed where it matters.
* Loops are structural recursion or recursion on fuel. For fuelled functions a
  theorem shows that the fuel is enough, or running out of it is an outcome of
  its own.
* Beside a theorem an `example` shows that a case that is not trivial meets the
  hypotheses.

## Violated properties

Where the C code violates a property, the negation is proved with a witness
(`…_violated`), and what remains true as `…_partial`, as weak a restriction as
could be found. The full statement stays as `def …Statement : Prop`.

## Components

| files | C code | claims |
|-------|--------|--------|
| `Utf8/`, `Str/` | utils/utf8.c, objects/o_string.c | C01–C05, C12, C21 |
| `Util/BucketList, Arena, Promise, Labels, Stack` | utils/bucketlist.c, bpalloc.c, promise.c, labellist.c, stack.c | C06–C10 |
| `Util/TestFile` | src/test/scanner.c, field.c, test.c | C94, C95 |
| `Builtin/Handles` | builtins/files.c `bin_openFile`, `bin_openDir`, net.c `bin_socket`, `bin_accept`, o_file.c, o_dir.c | C96 |
| `Builtin/Dir` | builtins/files.c `bin_nextDirItem`, basic.c `bin_getCurrentWorkingDirectory` | C102 |
| `VM/Trace` | runtime.c:143-228 stack traces, over the machine | C109 |
| `VM/Ledger` | who holds sources and executables: run.c, runtime.c frames and `Runtime_Free`, timing.c, cli/main.c | C103 |
| `Util/TestRun`, `VM/TestCompile`, `VM/Book/TestRuntime` | the test tool: src/test/run.c, main.c; tests from their text to their verdict | C104–C106 |
| `Builtin/Net` | builtins/net.c ports and addresses | C97 |
| `Builtin/Socket` | builtins/net.c sockets: what the system is asked for and what the program is told | C108 |
| `Builtin/Say` | builtins/basic.c `bin_error`, `bin_assert`; the line of `Error_Print` | C112 |
| `Gc/Usage` | objects/heap.c `Heap_GetUsagePercentage`, run.c:1092-1101 when there is a collection; rounding of doubles and floats | C114 |
| `Builtin/Seed` | builtins/random.c `bin_seed`, series of calls of `bin_generate`; the state of `srand` and `rand` is hidden, as in the C standard | C115 |
| `Examples` | cases that meet the hypotheses of theorems of other modules | |
| `VM/Starve`, `VM/StarveNative`, `VM/StarveAfter`, `VM/StarveNames` | objects/heap.c `Heap_Malloc`; runtime.c `Runtime_SetVariable`, `Runtime_GetVariable`; run.c `runInstruction`, `runInstructionsUntilSomethingHappens`, `runExecutableAtIndex`, `native_func_call` if there is no memory for an object | C113 |
| `Builtin/Round` | builtins/math.c `bin_floor`, `bin_ceil` | C99 |
| `Util/Source` | utils/source.c | C98 |
| `Util/TextBuf` | compiler/graphviz.c `Buffer`, `GraphViz_*`, `graphviz` | C100 |
| `Util/Command`, `VM/Book/Command`, `VM/Move/Command`, `VM/Move/TraceCommand` | the command: src/cli/main.c from the arguments to what is written and the status; the same, runtime tests, and traces, on the machine with tables and collections | C91, C106, C107, C109 |
| `Util/Signals`, `VM/Grow`, `VM/Move/Interrupt` | main.c:71-78, 209-258 the handler of signals; that nothing which has been written is taken back; interrupted programs, on the machine with tables and collections | C111 |
| `Util/Path, Script, RefCount, Timing, Error, Cli` | utils/path.c, source.c, error.c, timing.c; parts of runtime.c and run.c; src/cli/main.c | C72, C74, C75, C86–C88, C93 |
| `Exe/` | executable.c | C11, C59 |
| `Hash`, `Obj/` | utils/hash.c, objects/o_map.c, o_list.c, o_buffer.c | C12–C20 |
| `Graph/` | objects.c and the methods `hash`, `copy`, `print`, `istypeof`, `op_eql` of all types | C12, C22–C25 |
| `Gc/` | objects/heap.c; places where a reference outlives a collection | C26–C29, C76 |
| `Num/` | arithmetic and ordering of run.c; doubles as bits | C30–C32 |
| `VM/Scope, ScopeLost` | o_closure.c, variables of runtime.c | C33 |
| `VM/Layer, Machine, Objects` | run.c, runtime.c: the machine over an interface to the objects, and the objects | C34–C39 with `Invariant`, `Depth`, `Frames`, `Nested`, `Failed`, `Errors` |
| `VM/Ast, Compile, Source` | the code as a function of the tree; the meaning of a tree over the same interface | |
| `VM/Sim*`, `Trans`, `Mono` | the machine on the code does what the tree means (simulation, both ways, including not ending) | C42–C46 |
| `VM/Raw, Codegen*`, `Balance` | codegen.c on the trees of the parser, instruction by instruction, emits that code or refuses | C40, C41 |
| `Parse/` | compiler/parse.c: tokens, parser, against a grammar | C50–C54, C79–C81, C83 |
| `VM/Entry, Lang, Lines` | compile.c, execution from the text, stack traces | C45, C55, C82, C84 |
| `VM/Diagram` | compiler/graphviz.c | C89 |
| `VM/DiagramText` | the text that compiler/graphviz.c writes, diagram.c | C110 |
| `Asm/` | assembler/assemble.c; `Dump`: `Executable_Dump` of executable.c | C57, C58, C77, C78, C101 |
| `Builtin/` | builtins/*.c: arguments, texts, buffers, files, tables of functions, input, random numbers | C60–C68, C71, C73, C85, C92 |
| `VM/Natives, Names, Records, Logic, Start/` | native functions within the machine; start.noja as the program it is, run from its syntax tree | C69, C70 |
| `VM/Uncalled` | a program does not depend on native functions that it does not call, nor on operators it does not use | |
| `VM/Book/` | the language as a manual would describe it, and that the interpreter does it | C90 |
| `VM/Refine, Tables*`, `Obj/MapTable` | the same interpreter with the hash tables of o_map.c, and when it does the same | C90 |
| `VM/Move/` | the interpreter with collections of garbage between instructions | C91 |

### How the parts fit together

A text is compiled exactly if the grammar has it (`C80_parse`), the tree meets
the conditions of `codegen.c` (`codegen_accepts`, `codegen_rejects`), and what
is fetched from the executable is `compile p` (`C84`). The machine running
`compile p` does what `p` means over the interface `Layer` (`mean_run`,
`mean_unique`), for every implementation of the interface; `VM/Objects.lean`
is the implementation with objects on a heap. `VM/Book/Main.lean` shows that
this meaning, in turn, is the one of `VM/Book/Sem.lean`, which knows nothing
of objects, references, hash tables, C strings or closures as objects.
What the sum, difference, product and quotient of two floating point numbers
is, and how such a number is written, is left open there (`class Floats`): the
theorems hold for any choice, the interpreter being given the same. They are
compared as the numbers they stand for (`worth`). The same goes for the
functions of the mathematical library; only `math.floor` and `math.ceil` are
described by what a number stands for, and only where the result has 64 bits
(the conversion in C is undefined otherwise). A buffer is a shared list of
bytes; `buffer.sliceUp` and `math.pow` are off the manual. As `start.noja` does no
arithmetic, what it leaves does not depend on the choice
(`VM/Uncalled.lean`).
`VM/Book/End.lean` puts all of it together for the machine: `start.noja` is
itself a program with such a meaning; the map it returns becomes the scope
around the program that runs next, in the meaning (`startUp`) and, as proved
there (`startUp_inv`), on the heap.

### Where the components are not connected

* A map in the graph of objects is the list of its entries; what is left of
  the hash table there is the parameter `hit k k'` ("the probe sequence of `k`
  gets to the slot of `k'`"). The table is modelled and proved or refuted in
  `Obj/Map*.lean`. C69, C70 and `C90_partial` suppose that maps find what is
  in them (`Conf`); for the tables that start.noja makes this is checked
  (`VM/Start/Boot.lean`, last section). `VM/Tables.lean` is the interface of
  the objects with the tables of o_map.c. It is there twice: as it is, and
  *watched*, that is undefined as soon as a growth of a table puts a key where
  it is not found. The watched one refines both the real one (`watched`) and
  the one with lists of entries (`tables_ref`); so what is proved with lists
  holds for the real tables unless they lose a key (`C90_tables_partial`), and
  `C90_tables_violated` is a program with six variables where they do. A growth
  loses a key only if the key's hash is negative, so programs whose maps and
  scopes stay below five keys or have only keys with other hashes keep all of
  them. `VM/Book/Roomy.lean` states this for values of the language, without
  tables (`roomy`); `VM/Guard.lean` is the interface with lists of entries
  that is undefined otherwise, `guarded_tables` that the tables do what it
  says, and `C90_roomy_partial` the result. `runIf_run`: the meaning under
  the condition is the meaning. Keys
  that are lists or maps are not modelled there.
* The machine's heap only grows, as a heap of enough size would. `VM/Move/`
  adds collections: a run in which the collector of `Gc/` works between any
  instructions, any number of times, cannot be told apart from the one without
  (C91). For this all operations on objects are shown to commute with renaming
  references. `VM/Move/Table*.lean` do the same for the machine with the tables
  of o_map.c, which a collection copies as they are. Objects have references in the model and addresses in C, so an
  object that has been moved gets the number of its place in the new memory;
  what is left over is filled with objects that nothing refers to. Collections
  that fail are not part of it, nor is the memory that objects take (`Shape`
  is arbitrary), so it is not said when collections happen; the places where
  code holds on to a reference across one are C76.
* Allocation failure is modelled where the code handles it (`Exe`, `Arena`,
  `BucketList`, `Buffer`, `Error`) and nowhere else.
* The depth of the C stack is not limited in recursive functions (parser,
  code generator, collector, printing).
* Texts, lists and tables of 2^31 and more elements are not modelled except
  where a theorem says so.
* Not modelled: `o_dir.c`, `o_file.c` beyond what the builtins need, `net`
  beyond sockets, ports and addresses, `time`, and of the test programs all
  but the scanner and the fields of test files.

## Trusted base

* The Lean 4.33.0 kernel; axioms at most `propext`, `Classical.choice` and
  `Quot.sound` (`tools/manifest.py` writes a file that prints them for every
  theorem of the manifest).
* The correspondence between the model and the cited C lines: read by hand,
  nothing is extracted.
* The C compiler and the C library, in particular: `malloc` returns aligned
  memory that does not overlap with what is allocated; `vsnprintf`, `strtoll`,
  `getc`, `fread`, `fwrite`, `ftell`, `getcwd`, `strncpy`, `htons`, `floor`,
  `ceil` do as specified; the functions of
  `ctype.h` are those of the C locale and say no for negative characters; `strtod` and the
  formatting of doubles are parameters without any assumption; so are the
  results of adding, subtracting, multiplying and dividing doubles, except in
  C92, where these are monotone roundings of the exact results that leave
  numbers of 53 bits alone, and `RAND_MAX` is 2^31 - 1 (C115 supposes of `srand` and
  `rand` what the C standard says about their state), and in C114, where
  quotients of doubles and conversions to float are rounded to the nearest
  number of 53 and 24 bits, ties to the even one.
