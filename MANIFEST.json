{
 "claims": [
  {
   "property": "C01",
   "status": "proved",
   "theorems": [
    "Noja.Utf8.C01_encode",
    "Noja.Utf8.C01_spec_is_utf8",
    "Noja.Utf8.C01_roundtrip"
   ],
   "note": "Refused encodings return before any store; the model's err result carries no bytes."
  },
  {
   "property": "C02",
   "status": "proved",
   "theorems": [
    "Noja.Utf8.C02_count",
    "Noja.Utf8.C02_count_le",
    "Noja.Utf8.C02_count_empty"
   ],
   "note": ""
  },
  {
   "property": "C03",
   "status": "partial",
   "theorems": [
    "Noja.Str.C03_fromString",
    "Noja.Str.C03_select_partial",
    "Noja.Str.C03_concat",
    "Noja.Str.C03_select_any",
    "Noja.Str.C03_violated"
   ],
   "note": "Violated for indices outside 32 bits (truncation); proved for all other keys."
  },
  {
   "property": "C04",
   "status": "partial",
   "theorems": [
    "Noja.Utf8.C04_reads_in_bounds_partial",
    "Noja.Utf8.C04_violated"
   ],
   "note": "Violated by utf8_next at the end of a buffer; proved for all other routines."
  },
  {
   "property": "C05",
   "status": "proved",
   "theorems": [
    "Noja.Utf8.C05_step_back",
    "Noja.Utf8.C05_back_from_end"
   ],
   "note": ""
  },
  {
   "property": "C06",
   "status": "proved",
   "theorems": [
    "Noja.BucketList.C06_contents",
    "Noja.BucketList.C06_offset_stable",
    "Noja.BucketList.C06_address_stable"
   ],
   "note": "Histories without allocation failure; a failed copying append leaves bytes behind (C06_note_failed_append_leaves_bytes)."
  },
  {
   "property": "C07",
   "status": "proved",
   "theorems": [
    "Noja.Arena.C07_blocks",
    "Noja.Arena.C07_served",
    "Noja.Arena.C07_room",
    "Noja.Arena.C07_free",
    "Noja.Arena.linked_exists"
   ],
   "note": "The system allocator's contract is the premise Fresh."
  },
  {
   "property": "C08",
   "status": "proved",
   "theorems": [
    "Noja.Promise.C08_delivery",
    "Noja.Promise.C08_once"
   ],
   "note": ""
  },
  {
   "property": "C09",
   "status": "proved",
   "theorems": [
    "Noja.Labels.C09_labels"
   ],
   "note": "Names are NUL-free, as the assembler's identifiers are."
  },
  {
   "property": "C10",
   "status": "proved",
   "theorems": [
    "Noja.Stack.C10_bounded_lifo",
    "Noja.Stack.C10_failure_changes_nothing"
   ],
   "note": ""
  },
  {
   "property": "C11",
   "status": "proved",
   "theorems": [
    "Noja.Exe.C11_fetch",
    "Noja.Exe.C11_positions",
    "Noja.Exe.C11_finalize"
   ],
   "note": "Strings are C strings; every label is given a value at most once, as codegen.c and assemble.c do."
  },
  {
   "property": "C12",
   "status": "partial",
   "theorems": [
    "Noja.Graph.C12_equal_hash_partial",
    "Noja.Graph.C12_violated",
    "Noja.Str.C12_string_partial",
    "Noja.Str.C12_string_violated",
    "Noja.Graph.C12_list",
    "Noja.Graph.C12_order",
    "Noja.Graph.C12_map",
    "Noja.Graph.C12_map_ub",
    "Noja.Graph.C12_list_violated",
    "Noja.VM.Demo.C12_program_undefined",
    "Noja.Graph.C12_last",
    "Noja.Graph.C12_minus_one",
    "Noja.Graph.C12_constants"
   ],
   "note": "Violated by 0.0 and -0.0 and by strings with NUL characters; proved for all other values. C12_list, C12_map: the hash of a list or map is the sum of the hashes of what is in it as long as the sums are ints, in any order (C12_order); otherwise the behaviour is undefined, as for [4, 4, 4] (C12_list_violated) and {8: 8} (C12_map_ub), and so for a program that uses [4, 4, 4] as a key (C12_program_undefined). C12_last: texts that differ in their last character only have different hashes, unless these are -2."
  },
  {
   "property": "C13",
   "status": "partial",
   "theorems": [
    "Noja.LObj.C13_sequence_partial",
    "Noja.LObj.C13_violated"
   ],
   "note": "Violated for keys outside 32 bits, which are truncated; proved for all histories of 32-bit keys."
  },
  {
   "property": "C14",
   "status": "partial",
   "theorems": [
    "Noja.LObj.C14_list_partial",
    "Noja.LObj.C14_list_violated",
    "Noja.Buffer.C14_buffer_violated"
   ],
   "note": "Violated: 64-bit indices are truncated to 32 bits by lists and buffers; proved for 32-bit indices."
  },
  {
   "property": "C15",
   "status": "partial",
   "theorems": [
    "Noja.Map.C15_finite_map_partial",
    "Noja.Map.int_consistent",
    "Noja.Map.C17_violated"
   ],
   "note": "Violated when a key with a negative hash is present at growth; proved for all histories of keys with non-negative hashes."
  },
  {
   "property": "C16",
   "status": "partial",
   "theorems": [
    "Noja.Map.C16_lookup_ends",
    "Noja.Map.C16_insert_ends_partial",
    "Noja.Map.C16_hangs",
    "Noja.Map.C16_violated"
   ],
   "note": "Lookups always end; insertions can hang forever when a key with a negative hash is rehashed."
  },
  {
   "property": "C17",
   "status": "partial",
   "theorems": [
    "Noja.Map.C17_lost",
    "Noja.Map.C17_violated",
    "Noja.Map.C15_finite_map_partial"
   ],
   "note": "Violated for negative hashes (an entry is lost); proved for non-negative hashes."
  },
  {
   "property": "C18",
   "status": "partial",
   "theorems": [
    "Noja.Buffer.C18_C19_windows_partial",
    "Noja.Buffer.C18_violated"
   ],
   "note": "Violated for negative sizes and indices outside 32 bits; proved for all other histories."
  },
  {
   "property": "C19",
   "status": "partial",
   "theorems": [
    "Noja.Buffer.C18_C19_windows_partial",
    "Noja.Buffer.C19_slice_is_window_partial",
    "Noja.Buffer.C19_violated_nested",
    "Noja.Buffer.C19_violated_negative",
    "Noja.Buffer.C19_violated_empty"
   ],
   "note": "Violated by slices of slices, negative offsets and the empty slice at the end; proved otherwise."
  },
  {
   "property": "C20",
   "status": "proved",
   "theorems": [
    "Noja.Buffer.C20_freed_once",
    "Noja.Buffer.C20_destroy_safe"
   ],
   "note": ""
  },
  {
   "property": "C21",
   "status": "partial",
   "theorems": [
    "Noja.Str.C21_eq_partial",
    "Noja.Str.C21_same_bytes_equal",
    "Noja.Str.C21_violated"
   ],
   "note": "Violated for strings containing NUL characters; proved for all others."
  },
  {
   "property": "C22",
   "status": "proved",
   "theorems": [
    "Noja.Graph.C22_reflexive",
    "Noja.Graph.C22_nan",
    "Noja.Graph.C22_symmetric",
    "Noja.Graph.C22_transitive",
    "Noja.Graph.C22_different_types",
    "Noja.Graph.C22_none",
    "Noja.Graph.C22_values"
   ],
   "note": ""
  },
  {
   "property": "C23",
   "status": "partial",
   "theorems": [
    "Noja.Graph.C23_istypeof_partial",
    "Noja.Graph.C23_terminates",
    "Noja.Graph.C23_violated",
    "Noja.Graph.C23_short_list_error",
    "Noja.Graph.C23_map_extra_entries",
    "Noja.Graph.C23_cyclic_diverges"
   ],
   "note": "Violated by lists longer than the type; proved when the sizes agree and the type is acyclic."
  },
  {
   "property": "C24",
   "status": "partial",
   "theorems": [
    "Noja.Graph.C24_terminates",
    "Noja.Graph.C24_full_text_partial",
    "Noja.Graph.C24_violated"
   ],
   "note": "Termination proved for every heap; the full text is cut at NUL characters of strings, proved otherwise."
  },
  {
   "property": "C25",
   "status": "proved",
   "theorems": [
    "Noja.Graph.C25_key_copied",
    "Noja.Graph.C25_insert_changes_only_map"
   ],
   "note": ""
  },
  {
   "property": "C26",
   "status": "partial",
   "theorems": [
    "Noja.Gc.C26_partial",
    "Noja.Gc.C26_violated"
   ],
   "note": "Violated for lists whose items are in overflow memory: o_list.c takes items to be 16 bytes, and copying them reads past the block. Proved when the extensions of reachable objects can be read at the size the collector uses. The C stack of the recursion is not limited in the model."
  },
  {
   "property": "C27",
   "status": "partial",
   "theorems": [
    "Noja.Gc.C27_collection",
    "Noja.Gc.C27_partial",
    "Noja.Gc.C27_violated"
   ],
   "note": "Violated after a collection that failed for lack of room: it runs the finalizer of a live object, which is run again when the heap is destroyed. Proved for all histories without failed collections."
  },
  {
   "property": "C28",
   "status": "partial",
   "theorems": [
    "Noja.Gc.C28_partial",
    "Noja.Gc.C28_no_lists",
    "Noja.Gc.C28_violated"
   ],
   "note": "Violated by lists, whose items the collector takes to be twice as large as they are. Proved with lists counted at that size, and without reachable lists."
  },
  {
   "property": "C29",
   "status": "proved",
   "theorems": [
    "Noja.Gc.C29_blocks",
    "Noja.Gc.C29_total",
    "Noja.Gc.C29_defined"
   ],
   "note": "Given the contract of malloc; sizes in the range of int."
  },
  {
   "property": "C30",
   "status": "partial",
   "theorems": [
    "Noja.Num.C30_exact_partial",
    "Noja.Num.C30_never_wrong",
    "Noja.Num.C30_violated",
    "Noja.Num.C30_violated_more",
    "Noja.Num.C30_non_numeric",
    "Noja.Num.C30_float"
   ],
   "note": "Violated: results outside 64 bits and division by zero are undefined behaviour; proved whenever the mathematical result fits."
  },
  {
   "property": "C31",
   "status": "partial",
   "theorems": [
    "Noja.Num.C31_remainder_partial",
    "Noja.Num.C31_violated"
   ],
   "note": "Violated: remainder by zero (and INT64_MIN % -1) is undefined behaviour; proved otherwise."
  },
  {
   "property": "C32",
   "status": "partial",
   "theorems": [
    "Noja.Num.C32_order_partial",
    "Noja.Num.C32_mirror",
    "Noja.Num.C32_trichotomy",
    "Noja.Num.C32_violated"
   ],
   "note": "Violated for an integer beside a float when the integer is rounded; proved for pairs of the same kind and integers that convert exactly."
  },
  {
   "property": "C33",
   "status": "partial",
   "theorems": [
    "Noja.VM.C33_read_partial",
    "Noja.VM.C33_write_partial",
    "Noja.VM.C33_closure",
    "Noja.VM.C33_scope_partial",
    "Noja.VM.C33_lost",
    "Noja.VM.C33_violated"
   ],
   "note": "Proved for scopes in which probing reaches equal names; maps lose keys with negative hashes when they grow (C17), and so do scopes."
  },
  {
   "property": "C34",
   "status": "partial",
   "theorems": [
    "Noja.VM.C34_arguments",
    "Noja.VM.C34_native",
    "Noja.VM.C34_results_partial",
    "Noja.VM.C34_violated"
   ],
   "note": "Violated when more than eight results are returned and wanted: the ninth is read past an array of eight. Proved otherwise."
  },
  {
   "property": "C35",
   "status": "proved",
   "theorems": [
    "Noja.VM.C35_frames"
   ],
   "note": "For the frames and the stack of the interpreter model; failed frames are C39."
  },
  {
   "property": "C36",
   "status": "proved",
   "theorems": [
    "Noja.VM.C36_call"
   ],
   "note": ""
  },
  {
   "property": "C37",
   "status": "partial",
   "theorems": [
    "Noja.VM.C37_partial",
    "Noja.VM.C37_only",
    "Noja.VM.C37_nested",
    "Noja.VM.C37_flat",
    "Noja.VM.C37_violated"
   ],
   "note": "Violated by type checks that report an error but return normally: the program goes on until the next return. Proved for operations that report errors by failing."
  },
  {
   "property": "C38",
   "status": "proved",
   "theorems": [
    "Noja.VM.C38_interrupt"
   ],
   "note": ""
  },
  {
   "property": "C39",
   "status": "partial",
   "theorems": [
    "Noja.VM.Failed.C39_partial",
    "Noja.VM.Failed.C39_hangs",
    "Noja.VM.Failed.C39_violated"
   ],
   "note": "Violated by any second failed compilation in one runtime, which makes the frame list circular. Proved for at most one."
  },
  {
   "property": "C40",
   "status": "proved",
   "theorems": [
    "Noja.VM.C40_depth",
    "Noja.VM.C40_needs",
    "Noja.VM.C40_expr",
    "Noja.VM.C40_stmt",
    "Noja.VM.C40_running"
   ],
   "note": ""
  },
  {
   "property": "C41",
   "status": "proved",
   "theorems": [
    "Noja.VM.C41_executable",
    "Noja.VM.C41_targets",
    "Noja.VM.C41_inside",
    "Noja.VM.C41_running"
   ],
   "note": "Strings of the program must not contain NUL, at which C strings end."
  },
  {
   "property": "C42",
   "status": "partial",
   "theorems": [
    "Noja.VM.C42_run_is_meaning",
    "Noja.VM.C42_divergence",
    "Noja.VM.mean_run",
    "Noja.VM.mean_unique",
    "Noja.VM.codegen_accepts",
    "Noja.VM.codegen_rejects",
    "Noja.VM.C42_violated"
   ],
   "note": "Violated by programs that want more than eight results of a call, the ninth of which is read past an array. Source.lean is the meaning of a tree. No claim for runs in which an operation reports an error but returns normally, more than eight results are wanted, or an imported program does not compile. Trees that codegen.c should refuse make it write through an unset pointer (codegen_rejects)."
  },
  {
   "property": "C43",
   "status": "proved",
   "theorems": [
    "Noja.VM.C43_and",
    "Noja.VM.C43_or"
   ],
   "note": ""
  },
  {
   "property": "C44",
   "status": "partial",
   "theorems": [
    "Noja.VM.C44_while",
    "Noja.VM.C44_doWhile",
    "Noja.VM.C44_outside",
    "Noja.VM.C44_violated"
   ],
   "note": "Inside loops proved. A break outside a loop is noticed but reported through an uninitialised pointer."
  },
  {
   "property": "C45",
   "status": "proved",
   "theorems": [
    "Noja.VM.C45_entry",
    "Noja.VM.C45_names",
    "Noja.VM.C45_check",
    "Noja.VM.C45_refused",
    "Noja.VM.bound_iff"
   ],
   "note": "For the meaning of default and type expressions see C42; error messages themselves are not modelled."
  },
  {
   "property": "C46",
   "status": "partial",
   "theorems": [
    "Noja.VM.C46_assign",
    "Noja.VM.C46_only",
    "Noja.VM.C46_bad",
    "Noja.VM.C46_violated"
   ],
   "note": "Assignments proved. A left side that cannot be assigned to is noticed but reported through an uninitialised pointer."
  },
  {
   "property": "C50",
   "status": "proved",
   "theorems": [
    "Noja.Parse.C50_tokens",
    "Noja.Parse.C50_order",
    "Noja.Parse.C50_ends",
    "Noja.Parse.C50_classes"
   ],
   "note": ""
  },
  {
   "property": "C51",
   "status": "partial",
   "theorems": [
    "Noja.Parse.C51_partial",
    "Noja.Parse.C51_violated"
   ],
   "note": "Violated by x<=-1. Proved exactly when it holds: only the last of the longest operators of a run has two characters."
  },
  {
   "property": "C52",
   "status": "proved",
   "theorems": [
    "Noja.Parse.C52_precedence"
   ],
   "note": "Trees whose leaves are variables and integers; words separated by spaces."
  },
  {
   "property": "C53",
   "status": "proved",
   "theorems": [
    "Noja.Parse.C53_integers",
    "Noja.Asm.C57_integers"
   ],
   "note": "strtoll follows its specification."
  },
  {
   "property": "C54",
   "status": "partial",
   "theorems": [
    "Noja.Parse.C54_partial",
    "Noja.Parse.C54_exact",
    "Noja.Parse.C54_violated",
    "Noja.Asm.C54_assembler",
    "Noja.Parse.C54_escapes"
   ],
   "note": "Violated by texts with a NUL byte, which are cut there. Proved for all others."
  },
  {
   "property": "C55",
   "status": "proved",
   "theorems": [
    "Noja.VM.C55_line",
    "Noja.VM.C55_none",
    "Noja.VM.C55_compiled",
    "Noja.VM.C55_mono",
    "Noja.VM.C55_beyond"
   ],
   "note": "Positions inside the source; for every compiled text those of all instructions are (C55_compiled). Behind the end printFrame reads outside of the text (C55_beyond)."
  },
  {
   "property": "C57",
   "status": "proved",
   "theorems": [
    "Noja.Asm.C57_integers"
   ],
   "note": ""
  },
  {
   "property": "C58",
   "status": "partial",
   "theorems": [
    "Noja.Asm.C58_partial",
    "Noja.Asm.C58_violated",
    "Noja.Parse.C58_classes"
   ],
   "note": "Violated: no text gives the smallest integer. Proved for integers other than it, strings up to 1024 bytes and the floating-point numbers that some decimal fraction is read as."
  },
  {
   "property": "C59",
   "status": "partial",
   "theorems": [
    "Noja.Exe.C59_violated",
    "Noja.Exe.C59_partial",
    "Noja.Exe.C59_shape",
    "Noja.Exe.C59_complete"
   ],
   "note": "Violated for integer operands that differ beyond 32 bits and for zeros of different sign; proved otherwise."
  },
  {
   "property": "C60",
   "status": "partial",
   "theorems": [
    "Noja.Builtin.C60_toInt_partial",
    "Noja.Builtin.toInt_spec",
    "Noja.Builtin.toInt_exact",
    "Noja.Builtin.C60_violated"
   ],
   "note": "Violated: results are cut to 32 bits on return; proved for numbers below 2^31 and for everything that must be refused."
  },
  {
   "property": "C61",
   "status": "partial",
   "theorems": [
    "Noja.Builtin.C61_cat_partial",
    "Noja.Builtin.C61_violated"
   ],
   "note": "Violated for totals of 2^32 bytes (buffer overrun); proved for results below 2^31 bytes."
  },
  {
   "property": "C62",
   "status": "partial",
   "theorems": [
    "Noja.Builtin.C62_slice_partial",
    "Noja.Builtin.C62_violated"
   ],
   "note": "Violated: a slice that cuts a character is refused; proved otherwise."
  },
  {
   "property": "C63",
   "status": "partial",
   "theorems": [
    "Noja.Builtin.C63_trim_partial",
    "Noja.Builtin.C63_leading",
    "Noja.Builtin.C63_violated"
   ],
   "note": "Violated for every string with leading spaces and something else; proved for the rest."
  },
  {
   "property": "C64",
   "status": "partial",
   "theorems": [
    "Noja.Builtin.C64_ord_chr_partial",
    "Noja.Builtin.chr_spec",
    "Noja.Builtin.C64_violated"
   ],
   "note": "Violated outside of 32 bits; proved for 32-bit integers."
  },
  {
   "property": "C65",
   "status": "partial",
   "theorems": [
    "Noja.Builtin.C65_arity_partial",
    "Noja.Builtin.C65_violated",
    "Noja.Builtin.C65_exact_partial",
    "Noja.Builtin.C65_exact_violated"
   ],
   "note": "Violated by math.pow; proved for every other builtin, also that each is registered with exactly the number of arguments it takes."
  },
  {
   "property": "C66",
   "status": "partial",
   "theorems": [
    "Noja.Builtin.C66_lookup_partial",
    "Noja.Builtin.C66_missing",
    "Noja.Builtin.C66_violated"
   ],
   "note": "Violated by the tables of string and buffer, which have no end marker; proved for the others."
  },
  {
   "property": "C67",
   "status": "partial",
   "theorems": [
    "Noja.Builtin.C67_transfer_partial",
    "Noja.Builtin.C67_violated",
    "Noja.Builtin.C67_violated_write"
   ],
   "note": "Violated for counts outside of 32 bits and for files.write of buffers of 2 GB; proved otherwise."
  },
  {
   "property": "C68",
   "status": "proved",
   "theorems": [
    "Noja.Builtin.C68_arguments"
   ],
   "note": ""
  },
  {
   "property": "C69",
   "status": "partial",
   "theorems": [
    "Noja.VM.Start.C69_partial",
    "Noja.VM.Start.C69_program_partial",
    "Noja.VM.Start.C69_machine_partial",
    "Noja.VM.Start.C69_overflow",
    "Noja.VM.Start.C69_negative",
    "Noja.VM.Start.C69_violated"
   ],
   "note": "Violated from 10^18 on (signed overflow in getIntegerMagnitude); proved below 10^18, for the parsed text of start.noja run by the modelled machine."
  },
  {
   "property": "C70",
   "status": "partial",
   "theorems": [
    "Noja.VM.Start.C70_partial",
    "Noja.VM.Start.C70_violated"
   ],
   "note": "Violated by maps with a NaN key; proved for lists and for maps each of whose keys equals itself, in every state in which the builtins of start.noja are there, if maps find what is in them (C17)."
  },
  {
   "property": "C71",
   "status": "partial",
   "theorems": [
    "Noja.Builtin.C71_conversions_partial",
    "Noja.Builtin.bufToString_spec",
    "Noja.Builtin.C71_violated"
   ],
   "note": "The round trip is proved for every string; refusal is violated for byte sequences the lax decoder takes."
  },
  {
   "property": "C72",
   "status": "proved",
   "theorems": [
    "Noja.Path.C72_makeAbsolute",
    "Noja.Path.C72_no_cwd"
   ],
   "note": ""
  },
  {
   "property": "C73",
   "status": "proved",
   "theorems": [
    "Noja.Builtin.C73_earlier_wins",
    "Noja.Builtin.C73_first_wins"
   ],
   "note": ""
  },
  {
   "property": "C74",
   "status": "proved",
   "theorems": [
    "Noja.RefCount.C74_freed_once"
   ],
   "note": ""
  },
  {
   "property": "C75",
   "status": "proved",
   "theorems": [
    "Noja.Timing.C75_totals",
    "Noja.Timing.C75_others",
    "Noja.Timing.C75_written"
   ],
   "note": "Failed calls count as completed, as in the code."
  },
  {
   "property": "C76",
   "status": "partial",
   "theorems": [
    "Noja.Gc.Stale.C76_collect",
    "Noja.Gc.Stale.C76_func",
    "Noja.Gc.Stale.C76_call",
    "Noja.Gc.Stale.C76_native_partial",
    "Noja.Gc.Stale.C76_violated"
   ],
   "note": "Violated by import: native_func_call reads the function object after the call. Proved for functions of the language and for native functions during which no collection happens."
  },
  {
   "property": "C77",
   "status": "partial",
   "theorems": [
    "Noja.Asm.C77_partial",
    "Noja.Asm.C77_ends",
    "Noja.Asm.C77_violated"
   ],
   "note": "Violated for sources made from strings when the text ends in a comma. Proved for files."
  },
  {
   "property": "C78",
   "status": "partial",
   "theorems": [
    "Noja.Asm.C78_statement",
    "Noja.Asm.C78_violated"
   ],
   "note": "Violated by a label that does not begin with a letter. Proved for each statement without such a label."
  },
  {
   "property": "C79",
   "status": "partial",
   "theorems": [
    "Noja.Parse.C79_partial",
    "Noja.Parse.C79_ends",
    "Noja.Parse.C79_map_end",
    "Noja.Parse.C79_violated"
   ],
   "note": "Violated by texts that end after a comma in a map. Proved for texts without more opening than closing braces, and that the parser ends on all texts."
  },
  {
   "property": "C80",
   "status": "proved",
   "theorems": [
    "Noja.Parse.C80_parse",
    "Noja.Parse.C80_unambiguous"
   ],
   "note": ""
  },
  {
   "property": "C81",
   "status": "proved",
   "theorems": [
    "Noja.Parse.C81_print",
    "Noja.Parse.C81_parsed",
    "Noja.Parse.C81_reparse"
   ],
   "note": ""
  },
  {
   "property": "C82",
   "status": "partial",
   "theorems": [
    "Noja.VM.C82_partial",
    "Noja.VM.C82_violated"
   ],
   "note": "Violated: the index is advanced before the instruction runs, so the line shown is that of the next instruction."
  },
  {
   "property": "C83",
   "status": "partial",
   "theorems": [
    "Noja.Parse.C83_partial",
    "Noja.Parse.C83_exact_partial",
    "Noja.Parse.C83_violated"
   ],
   "note": "Violated for none, true, false, strings, calls and parentheses; proved that the position lies between the start of the expression and the end of the token after it, and is exact for numbers, names, lists and maps."
  },
  {
   "property": "C84",
   "status": "proved",
   "theorems": [
    "Noja.VM.C84_compiled",
    "Noja.VM.C84_only",
    "Noja.VM.C84_past"
   ],
   "note": ""
  },
  {
   "property": "C85",
   "status": "partial",
   "theorems": [
    "Noja.Builtin.Input.C85_partial",
    "Noja.Builtin.Input.C85_refuted",
    "Noja.Builtin.Input.C85_violated"
   ],
   "note": "Violated: a line of more than 255 bytes makes the function reallocate an array on the stack, and at the end of the stream it never ends. Proved for lines of up to 255 bytes that end with a newline."
  },
  {
   "property": "C86",
   "status": "partial",
   "theorems": [
    "Noja.Script.C86_partial",
    "Noja.Script.C86_directory",
    "Noja.Script.C86_no_directory",
    "Noja.Script.C86_violated"
   ],
   "note": "Violated by names with a NUL, of which only the part before it is used; proved for all others."
  },
  {
   "property": "C87",
   "status": "partial",
   "theorems": [
    "Noja.Err.C87_partial",
    "Noja.Err.C87_violated"
   ],
   "note": "Violated by two reports without a free in between (checked only in debug builds), as after a failed instruction that goes on (C37); proved for reports that are freed before the next one."
  },
  {
   "property": "C88",
   "status": "partial",
   "theorems": [
    "Noja.Err.C88_partial",
    "Noja.Err.C88_unspecified",
    "Noja.Err.C88_violated"
   ],
   "note": "Violated: the default is computed and not used, and the value of the unspecified kind is that of syntax errors, so such errors (a missing file) are all shown as syntax errors. Proved for the other kinds."
  },
  {
   "property": "C89",
   "status": "partial",
   "theorems": [
    "Noja.VM.Diagram.C89_partial",
    "Noja.VM.Diagram.C89_overflow",
    "Noja.VM.Diagram.C89_violated"
   ],
   "note": "Violated by tuples outside of return (a node without a label, and its items are not drawn), return with more than 32 items (stack overrun) and numbers of more than 32 bits; proved for all other programs."
  },
  {
   "property": "C90",
   "status": "partial",
   "theorems": [
    "Noja.VM.Book.C90_partial",
    "Noja.VM.Book.C90_program_partial",
    "Noja.VM.Book.C90_endless",
    "Noja.VM.Book.C90_violated",
    "Noja.VM.Book.C90_tables_partial",
    "Noja.VM.Book.C90_tables_text_partial",
    "Noja.VM.Book.C90_tables_violated",
    "Noja.VM.Book.C90_roomy_partial",
    "Noja.VM.Book.C90_roomy_text_partial",
    "Noja.VM.Book.C90_roomy_run_partial",
    "Noja.VM.Book.runIf_run",
    "Noja.VM.Book.roomy_few",
    "Noja.VM.guarded_tables",
    "Noja.VM.tables_ref",
    "Noja.VM.watched",
    "Noja.VM.Refine.mean_refine"
   ],
   "note": "Violated by programs that meet the limits of the interpreter (16 values on the stack of a call, 16 nested calls, 32 arguments). Proved for all other programs, from the text to the output, including programs that do not end. What adding, subtracting, multiplying and dividing floating point numbers gives, what the functions of the C library (sin, sqrt and the like) make of them, and how they are written, is left open (any functions will do); how they are compared and rounded is described by the numbers they stand for. Not described by the meaning (nothing is claimed then): floating point numbers that are zero or no numbers as keys, rounding what does not fit in 64 bits, pow, parts of buffers that share their bytes (sliceUp), buffers with other bytes that are no texts as texts (those that end inside a character or have a too large one are described, and cannot be made texts), files, import, the text of unions of things that are no types, types nested more than 64 deep, lists shorter than the list type they are compared with, trim of texts that begin with a space, slices that begin inside a character and end at the end of one, toInt of numbers from 2^31 on, texts with NUL characters, keys that are lists or maps, results beyond 64 bits and indices beyond 32 bits. The functions of start.noja are described by the meaning of start.noja itself, and the theorem covers both runs. In C90_partial maps are lists of entries that find what is in them. In C90_tables_partial they are the tables of o_map.c, which grow, and the theorem holds for all programs during which no growth misplaces a key; C90_tables_violated is a program with six variables one of which the interpreter loses (see C33). In C90_roomy_partial this condition on the run of the interpreter is replaced by one on the meaning of the program: each map and each scope has less than five different keys, or only keys whose hash is not negative, when it is written to."
  },
  {
   "property": "C91",
   "status": "partial",
   "theorems": [
    "Noja.VM.Move.C91_partial",
    "Noja.VM.Move.C91_machine_partial",
    "Noja.VM.Move.C91_book_partial",
    "Noja.VM.Move.C91_tables_partial",
    "Noja.VM.Move.C91_tables_book_partial",
    "Noja.VM.Move.C91_roomy_partial",
    "Noja.VM.Move.C91_trace_partial",
    "Noja.VM.Move.sessionT_exists",
    "Noja.VM.Move.collected",
    "Noja.VM.Move.collects_exists",
    "Noja.VM.Move.session_exists",
    "Noja.VM.Move.C91_violated"
   ],
   "note": "Violated where the items of a list are a block of memory of their own: the collector reads beyond its end (C26). Proved for all programs, from the start of the interpreter on, if what the collector copies of every extension is within its block, whenever collections happen and wherever objects are. In C91_partial maps are lists of entries, in C91_tables_partial they are the tables of o_map.c. C91_trace_partial: the stack trace is the same, too. Collections that fail are not considered, and references in C variables are C76."
  },
  {
   "property": "C92",
   "status": "partial",
   "theorems": [
    "Noja.Builtin.Random.C92_partial",
    "Noja.Builtin.Random.C92_narrow_partial",
    "Noja.Builtin.Random.C92_violated",
    "Noja.Builtin.Random.C92_default",
    "Noja.Builtin.Random.C92_negative",
    "Noja.Builtin.Random.C92_apart"
   ],
   "note": "Violated: the result is cut to 32 bits, and without arguments the largest random number gives a sum that is no 64-bit integer. Proved for bounds of 32 bits if the upper one is not negative or they are at most 2^22 apart (then both ends are reached). Violated for some wide ranges of negative numbers, too, where rounding to nearest gives a number above the upper bound."
  },
  {
   "property": "C93",
   "status": "partial",
   "theorems": [
    "Noja.Cli.C93_partial",
    "Noja.Cli.C93_no_file",
    "Noja.Cli.C93_usage",
    "Noja.Cli.C93_no_heap",
    "Noja.Cli.C93_violated"
   ],
   "note": "Violated by heap sizes that are no int, for which atoi is undefined; proved for all others. File names that are options and output names that begin with a dash cannot be given."
  },
  {
   "property": "C94",
   "status": "partial",
   "theorems": [
    "Noja.TestFile.C94_partial",
    "Noja.TestFile.covered",
    "Noja.TestFile.C94_violated",
    "Noja.TestFile.C94_violated_syntax",
    "Noja.TestFile.C94_never"
   ],
   "note": "Violated: when the array of fields grows, the pointers in the fields stay those into the old array, which realloc frees (16 fields); and with eight fields before a syntax error the parser frees pointers into it. Proved for texts with fewer than eight fields before the error, or fewer than 16 if there is none or a name occurs twice. malloc does not fail in the model."
  },
  {
   "property": "C95",
   "status": "partial",
   "theorems": [
    "Noja.TestFile.C95_partial",
    "Noja.TestFile.C95_never",
    "Noja.TestFile.C95_violated",
    "Noja.TestFile.C95_violated_twice"
   ],
   "note": "Violated by every correct text with 8 to 15 fields that has a short name or body among the first eight (C95_never), and by long names or bodies if a name occurs twice, which are never freed. Proved for texts with fewer than eight fields in which no name occurs twice. malloc does not fail in the model."
  },
  {
   "property": "C96",
   "status": "partial",
   "theorems": [
    "Noja.Handles.C96_partial",
    "Noja.Handles.C96_mode",
    "Noja.Handles.C96_opened",
    "Noja.Handles.C96_violated",
    "Noja.Handles.C96_violated_socket",
    "Noja.Handles.C96_violated_mode"
   ],
   "note": "Violated: a stream is lost if the heap has no room for its object, a socket if its option cannot be set or there is no room for the number, and fopen gets a null mode for numbers other than 0 to 3. Proved for all sequences of calls in which nothing fails between opening and storing (directories may) and no collection fails; C96_mode: the modes for which opening is defined, exactly."
  },
  {
   "property": "C97",
   "status": "partial",
   "theorems": [
    "Noja.Net.C97_partial",
    "Noja.Net.C97_bind",
    "Noja.Net.C97_accept",
    "Noja.Net.C97_address",
    "Noja.Net.C97_violated",
    "Noja.Net.C97_violated_accept"
   ],
   "note": "Violated: ports outside 0 to 65535 are bound modulo 65536 rather than refused, and the port given by accept has its two bytes exchanged (no ntohs). Proved: exactly the ports from 0 to 65535 are bound as given, the port of the other side is right exactly if its two bytes are equal, and addresses can be told apart."
  },
  {
   "property": "C98",
   "status": "partial",
   "theorems": [
    "Noja.Source.C98_partial",
    "Noja.Source.C98_file",
    "Noja.Source.C98_room",
    "Noja.Source.C98_violated",
    "Noja.Source.C98_violated_zero",
    "Noja.Source.C98_violated_long"
   ],
   "note": "Violated: the size of a file is taken as an int, so that of a file with 2^32 + 1 bytes only the first is read; with an explicit size the text is cut at its first zero byte; strings of 2^31 bytes and more can be written outside the block. Proved for files and strings below 2^31 bytes; C98_file says for every file what becomes of it, also if it changes between asking for its size and reading."
  },
  {
   "property": "C99",
   "status": "partial",
   "theorems": [
    "Noja.Round.C99_partial",
    "Noja.Round.C99_floor",
    "Noja.Round.C99_ceil",
    "Noja.Round.C99_int",
    "Noja.Round.C99_violated",
    "Noja.Round.C99_violated_infinite"
   ],
   "note": "Violated: converting floats outside the range of long long is undefined. Proved for the others, exactly (C99_floor, C99_ceil). floor and ceil of the C library are trusted."
  },
  {
   "property": "C100",
   "status": "proved",
   "theorems": [
    "Noja.TextBuf.C100_text",
    "Noja.TextBuf.C100_defined",
    "Noja.TextBuf.C100_enough"
   ],
   "note": "What vsnprintf makes of a format and its arguments is a parameter; how it stores it, and the growth of the buffers, is modelled."
  },
  {
   "property": "C101",
   "status": "partial",
   "theorems": [
    "Noja.Asm.C101_partial",
    "Noja.Asm.C101_exact_partial",
    "Noja.Asm.C101_lines",
    "Noja.Asm.C101_violated",
    "Noja.Asm.C101_violated_float"
   ],
   "note": "Violated: strings are written as they are, so that one with a line end can imitate further instructions, and %f writes six digits, so that different floating point numbers look alike. Proved for all programs whose strings have no line ends: the listings are equal only if the programs are, up to floating point numbers that are written alike."
  },
  {
   "property": "C102",
   "status": "partial",
   "theorems": [
    "Noja.Builtin.Dir.C102_partial",
    "Noja.Builtin.Dir.C102_exact",
    "Noja.Builtin.Dir.C102_violated",
    "Noja.Builtin.Dir.C102_violated_long"
   ],
   "note": "Violated by names that are not UTF-8, at which the program stops, so that the entries after them cannot be had, and by working directories of more than 1023 bytes. Proved for all others; C102_exact: what a program gets is never something else."
  },
  {
   "property": "C103",
   "status": "partial",
   "theorems": [
    "Noja.Ledger.C103_partial",
    "Noja.Ledger.C103_one_failed",
    "Noja.Ledger.C103_violated"
   ],
   "note": "Violated by the array for missing arguments when a native function is refused at the limit of nested calls (16): it is not freed. Proved in full for sources, executables and frames; at most one such array is lost in a session, and none when nothing fails."
  },
  {
   "property": "C104",
   "status": "partial",
   "theorems": [
    "Noja.TestRun.C104_partial",
    "Noja.TestRun.C104_file",
    "Noja.TestRun.C104_file_only",
    "Noja.TestRun.C104_verdict",
    "Noja.TestRun.C104_violated",
    "Noja.TestRun.C104_violated_eight"
   ],
   "note": "Violated: a test without a type, of an unknown type or without one of its fields is not freed, and after a test with eight fields memory is freed that was not allocated (C95). Proved for texts with fewer than eight fields in which no name occurs twice, freeing for those that are judged or have a syntax error. C104_file: files are read whole if there is memory for about four times their size; C104_file_only: never in part."
  },
  {
   "property": "C105",
   "status": "partial",
   "theorems": [
    "Noja.TestRun.C105_partial",
    "Noja.TestRun.C105_reached",
    "Noja.TestRun.C105_summary",
    "Noja.TestRun.C105_violated_status",
    "Noja.TestRun.C105_violated_closed",
    "Noja.TestRun.C105_violated_long",
    "Noja.TestRun.C105_violated_unknown"
   ],
   "note": "Violated: the exit status is 0 also if tests fail, tests in directories that cannot be opened are passed over in silence, a path of 1024 bytes is written beyond the end of an array, and the tool ends at entries whose type the file system does not tell. Proved for all other directories, of any depth and size (but for the exit status)."
  },
  {
   "property": "C106",
   "status": "partial",
   "theorems": [
    "Noja.TestRun.C106_runtime_partial",
    "Noja.TestRun.C106_compiler_partial",
    "Noja.TestRun.C106_text",
    "Noja.TestRun.C106_compiler_text",
    "Noja.TestRun.C106_runtime_text",
    "Noja.TestRun.C106_collected",
    "Noja.TestRun.C106_violated_full",
    "Noja.TestRun.C106_violated_long",
    "Noja.TestRun.C106_violated_zero",
    "Noja.TestRun.C106_violated_memory",
    "Noja.TestRun.C106_violated_operand"
   ],
   "note": "Violated by output of 1024 bytes or more (of which the first 1023 are compared, or what follows the array in memory as well), output with zero bytes (compared up to the first), missing memory for the second source (the first is asked again) and operands that Executable_Equiv takes for equal (C59). Proved for all others, from the text of the test, through the compiler, the assembler and the interpreter, to the verdict (C106_compiler_text, C106_runtime_text: a runtime test with the code of a program passes exactly if the manual of C90 says that the program writes what is expected)."
  },
  {
   "property": "C107",
   "status": "partial",
   "theorems": [
    "Noja.Cli.C107_partial",
    "Noja.Cli.C107_status",
    "Noja.Cli.C107_runs",
    "Noja.Cli.C107_text",
    "Noja.Cli.C107_collected",
    "Noja.Cli.C107_trace",
    "Noja.Cli.C107_trace_collected",
    "Noja.Cli.C107_unready",
    "Noja.Cli.C107_refused",
    "Noja.Cli.C107_missing",
    "Noja.Cli.C107_diagram",
    "Noja.Cli.C107_diagram_refused",
    "Noja.Cli.C107_violated",
    "Noja.Cli.C107_violated_emptied"
   ],
   "note": "Violated: if the file for a profile cannot be opened there is no profile and the status is 0 all the same (C107_violated), and a file that is named without asking for a profile is emptied (C107_violated_emptied). Proved for all other arguments. C107_text: for a program of the grammar, in a file or in the argument, as text or as code, the command writes what the manual of C90 says that the program writes and its status says whether the program stops with an error; it does not end if the program does not (unless a limit of the interpreter is met). C107_collected: the same on the machine with tables and collections, for programs whose maps and scopes are roomy. C107_trace: what the trace of a program that fails says; C107_trace_collected: with tables and collections. C107_refused: texts outside the grammar; C107_missing: files that are not there."
  },
  {
   "property": "C108",
   "status": "partial",
   "theorems": [
    "Noja.Socket.C108_partial",
    "Noja.Socket.C108_told",
    "Noja.Socket.C108_why",
    "Noja.Socket.C108_bind_refused",
    "Noja.Socket.C108_violated",
    "Noja.Socket.C108_violated_descriptor",
    "Noja.Socket.C108_violated_bind"
   ],
   "note": "Violated: the descriptor of a socket which cannot be given the option to reuse addresses is lost (C108_violated); descriptors are cut to 32 bits, so that another one is closed (C108_violated_descriptor); the first value of a net.bind that is refused for its address is that of one that succeeded (C108_violated_bind, C108_bind_refused). Proved for arguments in their ranges and systems that grant the option."
  },
  {
   "property": "C109",
   "status": "partial",
   "theorems": [
    "Noja.VM.Trace.C109_partial",
    "Noja.VM.Trace.C109_bottom",
    "Noja.Cli.C107_trace",
    "Noja.VM.Move.C109_collected",
    "Noja.Cli.C107_trace_collected",
    "Noja.VM.Trace.C109_unique",
    "Noja.VM.Trace.C109_violated"
   ],
   "note": "Violated: the line shown for a call that is being performed is that of the instruction after the call, which can be in another line (C109_violated: in a call whose argument is a call in the next line, the line of the outer one is shown). Proved for all programs and states: one line for each frame from the innermost on, counted from 0, at most 16, with the name of the text and the line of the next instruction of the frame, and all frames but the innermost wait for a call; the text can be read in one way only (C109_unique, for names without line breaks and colons)."
  },
  {
   "property": "C110",
   "status": "partial",
   "theorems": [
    "Noja.VM.Diagram.C110_partial",
    "Noja.VM.Diagram.C110_reads",
    "Noja.VM.Diagram.C110_unique",
    "Noja.VM.Diagram.C110_buffer",
    "Noja.VM.Diagram.C110_alike",
    "Noja.VM.Diagram.C110_violated"
   ],
   "note": "Violated where C89 is: tuples outside of return (C110_violated), more than 32 items in return, numbers of more than 32 bits. Proved for all other programs; that the text is a graph in one way and has no NUL, for all programs (C110_reads). What %g writes is a parameter without quotes, backslashes and NULs. A picture does not tell a name from a string (C110_alike)."
  },
  {
   "property": "C111",
   "status": "partial",
   "theorems": [
    "Noja.Cli.C111_partial",
    "Noja.Cli.C111_manual",
    "Noja.VM.Move.C111_sessions",
    "Noja.Cli.Signals.C111_signals_partial",
    "Noja.Cli.Signals.C111_flag",
    "Noja.Cli.Signals.C111_late",
    "Noja.Cli.Signals.C111_always",
    "Noja.Cli.Signals.C111_signals_violated"
   ],
   "note": "Violated: the handlers stay installed and the pointer that they look at stays set after Runtime_Free, so that a signal between that and the end of the process writes into freed memory (C111_late, C111_always). Proved for all signals before that: nothing undefined happens and the flag is set exactly if a signal came (C111_flag); the command ends with what has been written up to the instruction at which the flag is seen, a beginning of what is written without the signal, wherever collections happen (C111_partial), and of what the manual says (C111_manual). While a built-in function runs the flag is not looked at."
  },
  {
   "property": "C112",
   "status": "partial",
   "theorems": [
    "Noja.Say.C112_partial",
    "Noja.Say.C112_assert",
    "Noja.Say.C112_exact",
    "Noja.Say.C112_unique",
    "Noja.Say.C112_violated",
    "Noja.Say.C112_violated_long"
   ],
   "note": "Violated by strings with zero bytes, of which the part in front of the first is shown (C112_violated), and by strings of 512 bytes and more if there is no memory, of which 511 bytes are shown without a mark (C112_violated_long). Proved for all others; C112_exact says what is shown for all strings. assert in full, for fewer than 2^31 arguments."
  },
  {
   "property": "C113",
   "status": "partial",
   "theorems": [
    "Noja.VM.C113_partial",
    "Noja.VM.C113_same",
    "Noja.VM.C113_never",
    "Noja.VM.C113_outermost",
    "Noja.VM.C113_ends",
    "Noja.Cli.C113_command",
    "Noja.Gc.C113_silent",
    "Noja.Gc.C113_reported",
    "Noja.Gc.C113_slots",
    "Noja.VM.C113_native",
    "Noja.VM.C113_native_forever",
    "Noja.VM.C113_native_same",
    "Noja.Gc.C113_allocator_violated",
    "Noja.VM.C113_violated",
    "Noja.VM.C113_native_violated",
    "Noja.VM.C113_name",
    "Noja.VM.C113_name_same",
    "Noja.VM.C113_name_violated"
   ],
   "note": "Violated: Heap_RawMalloc reports nothing if the C library has no block (C113_allocator_violated), and an instruction that stops without an error looks like a return, so that a function goes on with what happens to be on its stack (C113_violated: print(f(4)) with f(x) = x + 1 writes 4) and the outermost function ends well (C113_command: status 0, no message, a beginning of the output). C113_silent, C113_reported: exactly when there is a report and when there is none; C113_slots: the array of destructors always has room; C113_never: a refusal never is an error. C113_partial: up to the first refusal all is as ever. C113_native: a built-in function that is refused memory leaves its frame behind, so that the function that called it goes on in the place of its own caller and the outermost function is never continued (C113_native_forever, in all later states; C113_native_violated: a program ends well before its last statement). C113_name: without memory for the name of a variable an instruction stops before anything is looked up, so that a missing variable is not reported and a function that assigns returns what it was about to assign (C113_name_violated). Refusals when a map of variables grows, for items of collections and in programs with imports are not modelled."
  },
  {
   "property": "C114",
   "status": "partial",
   "theorems": [
    "Noja.Gc.C114_partial",
    "Noja.Gc.C114_exact",
    "Noja.Gc.C114_near",
    "Noja.Gc.C114_bounded",
    "Noja.Gc.rounded_best",
    "Noja.Gc.rounded_bits",
    "Noja.Gc.C114_violated",
    "Noja.Gc.C114_violated_most"
   ],
   "note": "Violated by heaps of 25 MiB and more, in which up to 81 bytes more can be in use, since the percentage is a float. Proved for all smaller heaps; C114_exact: when there is a collection, for all heaps; C114_bounded: what is in use before each instruction, in all runs. That doubles and floats are rounded to nearest with 53 and 24 bits is trusted (rounded_best, rounded_bits: the model does that)."
  },
  {
   "property": "C115",
   "status": "partial",
   "theorems": [
    "Noja.Builtin.Random.C115_again",
    "Noja.Builtin.Random.C115_series",
    "Noja.Builtin.Random.C115_numbers",
    "Noja.Builtin.Random.C115_unseeded",
    "Noja.Builtin.Random.C115_same",
    "Noja.Builtin.Random.C115_partial",
    "Noja.Builtin.Random.C115_refused",
    "Noja.Builtin.Random.C115_omitted",
    "Noja.Builtin.Random.C115_violated"
   ],
   "note": "Violated by seeds that differ above bit 31 only, since srand takes 32 bits: C115_same says exactly which seeds cannot be told apart. The other half, that a seed determines what follows, is proved for all histories (C115_again) and C115_series says which numbers they are."
  }
 ]
}