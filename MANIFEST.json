{
 "claims": [
  {
   "property": "C01",
   "status": "proved",
   "theorems": [
    "Hush.Props.lexer_terminates",
    "Hush.Props.lexer_positions",
    "Hush.Props.lexer_in_bounds"
   ],
   "note": "Full lexer automaton modelled."
  },
  {
   "property": "C02",
   "status": "partial",
   "theorems": [
    "Hush.Props.lexer_never_aborts_violated",
    "Hush.Props.lexer_never_aborts_partial",
    "Hush.Props.lexer_accepts_written_partial"
   ],
   "note": "Violated: todo!() at '[' and '{' in unquoted arguments. The partial theorem shows these are the only aborts."
  },
  {
   "property": "C03",
   "status": "proved",
   "theorems": [
    "Hush.Props.string_literal_roundtrip",
    "Hush.Props.string_literal_roundtrip'"
   ],
   "note": ""
  },
  {
   "property": "C04",
   "status": "proved",
   "theorems": [
    "Hush.Props.int_literal_exact"
   ],
   "note": ""
  },
  {
   "property": "C05",
   "status": "proved",
   "theorems": [
    "Hush.Props.layout_irrelevant",
    "Hush.Props.filler_insertion"
   ],
   "note": ""
  },
  {
   "property": "C06",
   "status": "proved",
   "theorems": [
    "Hush.Props.single_quoted_literal"
   ],
   "note": ""
  },
  {
   "property": "C07",
   "status": "partial",
   "theorems": [
    "Hush.Props.pipe_separates_violated",
    "Hush.Props.pipe_separates_partial"
   ],
   "note": "Violated: a pipe directly after an unquoted word is a word character."
  },
  {
   "property": "C08",
   "status": "proved",
   "theorems": [
    "Hush.Props.expression_roundtrip",
    "Hush.Props.grammar_accepted",
    "Hush.Props.grammar_unambiguous"
   ],
   "note": "Trees over literals, identifiers, prefix, binary and postfix operators, calls and accesses; grammar_accepted covers the whole language."
  },
  {
   "property": "C09",
   "status": "partial",
   "theorems": [
    "Hush.Props.statements_kept_violated",
    "Hush.Props.statements_kept_partial",
    "Hush.Props.statements_kept_without_return"
   ],
   "note": "The code violates the property: the loop in Parser::parse overwrites the block after a top-level return. Proved: a witness, exactly what is lost, and the full property for sources without the keyword return."
  },
  {
   "property": "C10",
   "status": "proved",
   "theorems": [
    "Hush.Props.parser_terminates",
    "Hush.Props.parser_in_order"
   ],
   "note": ""
  },
  {
   "property": "C11",
   "status": "proved",
   "theorems": [
    "Hush.Props.slots_in_frame",
    "Hush.Props.slots_of_declarations",
    "Hush.Props.source_slots"
   ],
   "note": "For syntax trees as produced from source text (WrittenRule, source_is_written). slots_of_declarations is the strong form: every occurrence has the slot of the innermost enclosing declaration."
  },
  {
   "property": "C12",
   "status": "proved",
   "theorems": [
    "Hush.Props.control_flow_placed",
    "Hush.Props.placement_reports",
    "Hush.Props.proper_placement_not_reported",
    "Hush.Props.source_is_written",
    "Hush.Props.accepted_source",
    "Hush.Props.analysis_total",
    "Hush.Props.rejected_has_error"
   ],
   "note": "On syntax trees as produced from source text without syntax errors (WrittenRule; source_is_written shows every such source gives one)."
  },
  {
   "property": "C13",
   "status": "partial",
   "theorems": [
    "Hush.Props.undeclared_rejected_violated",
    "Hush.Props.undeclared_rejected_partial",
    "Hush.Props.scope_reports",
    "Hush.Props.accepted_iff_rules"
   ],
   "note": "Violated: the environment assignments of builtin commands are never analysed, so { x=$y cd } is accepted with y undeclared. Proved: the witness, and the property for programs without such assignments, with the converse."
  },
  {
   "property": "C14",
   "status": "partial",
   "theorems": [
    "Hush.Props.duplicate_keys_violated",
    "Hush.Props.duplicate_keys_rejected_partial",
    "Hush.Props.duplicate_keys_reports_partial"
   ],
   "note": "Violated both ways by nested dict literals (one shared key set, cleared by the inner literal). Proved: both witnesses and the property for literals that contain no other dict literal."
  },
  {
   "property": "C15",
   "status": "partial",
   "theorems": [
    "Hush.Props.variables_partial",
    "Hush.Props.captured_shared",
    "Hush.Props.failed_import_violated"
   ],
   "note": "Executions agree with a semantics in which every variable is an object shared between a function and its closures; violated after a caught panic of a module (failed_import_violated)."
  },
  {
   "property": "C16",
   "status": "partial",
   "theorems": [
    "Hush.Props.no_internal_crash_partial",
    "Hush.Props.crash_origin_partial",
    "Hush.Props.task_crash_origin_partial",
    "Hush.Props.no_arith_crash",
    "Hush.Props.crash_witnesses",
    "Hush.Props.no_crash_violated"
   ],
   "note": "Proved: no missing slot and no impossible control flow in any execution of an accepted source; every other Rust panic comes from one of a list of causes (Spec/Crash.lean), each of which occurs (crash_witnesses); none of arithmetic without overflow checks. Violated as stated: d[d] = 1 is a Rust panic (double borrow)."
  },
  {
   "property": "C17",
   "status": "partial",
   "theorems": [
    "Hush.Props.calls_balanced_partial",
    "Hush.Props.calls_balanced_violated"
   ],
   "note": "Proved for every call performed in every execution, if every module loaded during the call is completed; slots are only ever added on top. Violated when a failed import is caught: its slots stay on the stack."
  },
  {
   "property": "C18",
   "status": "partial",
   "theorems": [
    "Hush.Props.failed_import_violated",
    "Hush.Props.calls_balanced_partial"
   ],
   "note": "Violated: after a caught failed import the variables of the importer are displaced."
  },
  {
   "property": "C19",
   "status": "partial",
   "theorems": [
    "Hush.Props.tail_calls_partial",
    "Hush.Props.countdown_total",
    "Hush.Props.tail_calls_violated"
   ],
   "note": "Chains of tail calls of any length keep the stack at its height; violated for a call that is last in a branch of an if (tail_calls_violated). Not covered: executions in which a module loaded between the calls fails; the native stack of the interpreter, on which every call nests, is not modelled."
  },
  {
   "property": "C20",
   "status": "proved",
   "theorems": [
    "Hush.Props.budget_irrelevant",
    "Hush.Props.program_deterministic"
   ],
   "note": ""
  },
  {
   "property": "C21",
   "status": "partial",
   "theorems": [
    "Hush.Props.integers_exact",
    "Hush.Props.negate_exact_partial",
    "Hush.Props.negate_violated"
   ],
   "note": "Binary operators proved in full. Violated by unary minus of -2^63: wraps in release builds, Rust panic in debug builds; proved for all other operands."
  },
  {
   "property": "C22",
   "status": "proved",
   "theorems": [
    "Hush.Props.short_circuit",
    "Hush.Props.operands_in_order",
    "Hush.Props.items_in_order",
    "Hush.Props.arguments_in_order"
   ],
   "note": ""
  },
  {
   "property": "C23",
   "status": "partial",
   "theorems": [
    "Hush.Props.equality_equivalence_partial",
    "Hush.Props.equality_contents_partial",
    "Hush.Props.equal_contents",
    "Hush.Props.equal_same_key_partial",
    "Hush.Props.equal_self_violated",
    "Hush.Props.recursive_function_violated",
    "Hush.Props.equal_same_key_violated",
    "Hush.Props.equal_dicts_violated"
   ],
   "note": "Equivalence proved for all finite values (dicts with distinct keys), violated by the float that is not a number and by recursive functions. Equal values are proved to be the same key if they do not contain -0.0 or a dict with a function in a key; violated by 0.0 and -0.0, and by dicts that have functions from the same place as keys."
  },
  {
   "property": "C24",
   "status": "partial",
   "theorems": [
    "Hush.Props.sort_sorts_partial",
    "Hush.Props.order_total_partial",
    "Hush.Props.order_usual",
    "Hush.Props.order_contents_partial",
    "Hush.Props.order_functions",
    "Hush.Props.order_equal_partial",
    "Hush.Props.order_dicts_partial",
    "Hush.Props.order_equal_violated",
    "Hush.Props.order_violated"
   ],
   "note": "Proved for all finite arrays without a float that is not a number. slice::sort is trusted to be a stable sort for a total order."
  },
  {
   "property": "C25",
   "status": "partial",
   "theorems": [
    "Hush.Props.array_read",
    "Hush.Props.array_write",
    "Hush.Props.string_read",
    "Hush.Props.read_element_types",
    "Hush.Props.write_element_types",
    "Hush.Props.dict_read_partial",
    "Hush.Props.dict_write_partial",
    "Hush.Props.dict_read_key_partial",
    "Hush.Props.dict_write_key_partial",
    "Hush.Props.nan_key_violated",
    "Hush.Props.dict_own_key_violated"
   ],
   "note": "Arrays and strings proved in full; dicts for all finite keys without NaN and -0.0 in them, whose dicts (if any) have no functions in their keys, and which do not have the dict itself in them (see Spec.GoodKey, Spec.Avoids). Violated by NaN keys and by the dict as its own key."
  },
  {
   "property": "C26",
   "status": "proved",
   "theorems": [
    "Hush.Props.errors_immutable",
    "Hush.Props.assign_readonly"
   ],
   "note": ""
  },
  {
   "property": "C27",
   "status": "proved",
   "theorems": [
    "Hush.Props.catch_result",
    "Hush.Props.catch_never_panics"
   ],
   "note": "std.exit and Rust panics are not caught, as in the code."
  },
  {
   "property": "C28",
   "status": "proved",
   "theorems": [
    "Hush.Props.try_value",
    "Hush.Props.try_returns",
    "Hush.Props.try_result",
    "Hush.Props.panic_passes"
   ],
   "note": ""
  },
  {
   "property": "C29",
   "status": "partial",
   "theorems": [
    "Hush.Props.for_array",
    "Hush.Props.for_string",
    "Hush.Props.for_dict",
    "Hush.Props.for_range_partial",
    "Hush.Props.array_elements",
    "Hush.Props.string_elements",
    "Hush.Props.range_elements",
    "Hush.Props.dict_elements",
    "Hush.Props.dict_entry",
    "Hush.Props.range_violated"
   ],
   "note": "Proved in full for arrays, strings and dicts; for ranges provided that the limit plus the step is a number of 64 bits. Violated by ranges that end near the largest number. The iterator is made in the loop head; the theorems are equivalences, so they also say when the loop does not end."
  },
  {
   "property": "C30",
   "status": "proved",
   "theorems": [
    "Hush.Props.scalar_variable_as_literal",
    "Hush.Props.scalar_variable_one_argument",
    "Hush.Props.scalar_variable_in_product"
   ],
   "note": ""
  },
  {
   "property": "C31",
   "status": "partial",
   "theorems": [
    "Hush.Props.empty_string_argument_violated",
    "Hush.Props.quoted_argument_partial",
    "Hush.Props.empty_text_disappears"
   ],
   "note": "Violated: build_arg drops empty literals, so { echo \"\" } passes no argument (proved from the source text). Proved: arguments of quoted and plain text whose text is not empty are exactly one argument."
  },
  {
   "property": "C32",
   "status": "partial",
   "theorems": [
    "Hush.Props.expansion_product_violated",
    "Hush.Props.expansion_product_partial",
    "Hush.Props.expansion_count_partial",
    "Hush.Props.expansion_has_alternatives",
    "Hush.Props.combos_are_choices",
    "Hush.Props.combos_distinct"
   ],
   "note": "Violated for arrays without elements: they contribute nothing instead of no combination. Proved for pieces with at least one alternative."
  },
  {
   "property": "C33",
   "status": "partial",
   "theorems": [
    "Hush.Props.glob_text_literal_partial",
    "Hush.Props.glob_only_literal_partial",
    "Hush.Props.glob_variable_literal_partial",
    "Hush.Props.glob_text_literal_violated"
   ],
   "note": "Over a trusted model of the glob crate. Violated by an empty variable between two stars: they become the recursive wildcard, with which *$x*/b matches b, or an invalid pattern. Proved for words without adjacent stars, and, for the direction of the property, for words without / in their texts. Character classes cannot be written in source text."
  },
  {
   "property": "C34",
   "status": "partial",
   "theorems": [
    "Hush.Props.arity_count_violated",
    "Hush.Props.arity_count_partial",
    "Hush.Props.arity_zero_partial"
   ],
   "note": "Violated: for two or more items the panic reports one item less. Proved: the exact number reported for every expansion."
  },
  {
   "property": "C35",
   "status": "partial",
   "theorems": [
    "Hush.Props.block_in_sequence_partial",
    "Hush.Props.block_nil_partial",
    "Hush.Props.block_outcome",
    "Hush.Props.guarded_start_violated"
   ],
   "note": "Proved for every block of which no process fails to start; block_outcome describes all other outcomes too. Violated then: a command guarded by ? which cannot be started ends the block."
  },
  {
   "property": "C36",
   "status": "partial",
   "theorems": [
    "Hush.Props.failures_reported_partial",
    "Hush.Props.failures_captured_partial",
    "Hush.Props.block_outcome",
    "Hush.Props.failures_lost_violated"
   ],
   "note": "Proved for every block of which no process fails to start, both for plain and for capture blocks; block_outcome describes all other outcomes too. Violated then: when a process cannot be started the earlier failures are discarded."
  },
  {
   "property": "C37",
   "status": "proved",
   "theorems": [
    "Hush.Props.pipeline_connects",
    "Hush.Props.neighbours_connected"
   ],
   "note": ""
  },
  {
   "property": "C38",
   "status": "partial",
   "theorems": [
    "Hush.Props.last_stage_captured_partial",
    "Hush.Props.stage_stderr_violated"
   ],
   "note": "Proved for the last command of every pipeline. Violated for the other commands of a pipeline, whose standard error is inherited."
  },
  {
   "property": "C39",
   "status": "proved",
   "theorems": [
    "Hush.Props.redirections_in_order",
    "Hush.Props.last_redirection_fd",
    "Hush.Props.last_redirection_file"
   ],
   "note": ""
  },
  {
   "property": "C40",
   "status": "partial",
   "theorems": [
    "Hush.Props.here_string_partial",
    "Hush.Props.here_string_violated"
   ],
   "note": "Proved for texts which fit into a pipe. Violated for longer ones: the shell blocks before the command is started."
  },
  {
   "property": "C41",
   "status": "proved",
   "theorems": [
    "Hush.Props.success_iff",
    "Hush.Props.codes_distinct",
    "Hush.Props.signals_distinct"
   ],
   "note": ""
  },
  {
   "property": "C42",
   "status": "proved",
   "theorems": [
    "Hush.Props.async_started",
    "Hush.Props.join_returns",
    "Hush.Props.join_panics",
    "Hush.Props.join_once",
    "Hush.Props.joined_once"
   ],
   "note": "The thread itself is that of the world: its result is an answer of the world."
  },
  {
   "property": "C43",
   "status": "partial",
   "theorems": [
    "Hush.Props.executed_iff_checked",
    "Hush.Props.exit_code_partial",
    "Hush.Props.exit_code_violated"
   ],
   "note": "What is executed is settled by executed_iff_checked. The exit code part is violated: when the lexer aborts (e.g. on `{ ls [ab]* }`) the process dies by a Rust panic; exit_code_partial gives the code in all other cases. Command line parsing itself (clap) is trusted."
  },
  {
   "property": "C44",
   "status": "partial",
   "theorems": [
    "Hush.Props.split_parts",
    "Hush.Props.substr_partial",
    "Hush.Props.substr_violated"
   ],
   "note": "Proved in full for split, and for substr in builds without overflow checks. Violated by substr in builds with overflow checks: a negative length or position is a Rust panic. bstr's split_str is trusted to be as modelled."
  },
  {
   "property": "C45",
   "status": "proved",
   "theorems": [
    "Hush.Props.int_roundtrip"
   ],
   "note": ""
  },
  {
   "property": "C46",
   "status": "proved",
   "theorems": [
    "Hush.Props.encodings_roundtrip"
   ],
   "note": "Over trusted models of the crates hex and base64."
  },
  {
   "property": "C47",
   "status": "proved",
   "theorems": [
    "Hush.Props.type_names",
    "Hush.Props.typecheck_decides"
   ],
   "note": ""
  },
  {
   "property": "C48",
   "status": "partial",
   "theorems": [
    "Hush.Props.evaluated_once_partial",
    "Hush.Props.import_returns",
    "Hush.Props.evaluated_once_violated"
   ],
   "note": "Violated for modules that import themselves while being evaluated; proved otherwise, for whole executions."
  },
  {
   "property": "C49",
   "status": "proved",
   "theorems": [
    "Hush.Props.unreferenced_unchanged"
   ],
   "note": ""
  },
  {
   "property": "C50",
   "status": "proved",
   "theorems": [
    "Hush.Props.no_dangling_init",
    "Hush.Props.no_dangling",
    "Hush.Props.program_no_dangling"
   ],
   "note": "The second theorem covers every task of the interpreter, the third the state after a whole program."
  },
  {
   "property": "C51",
   "status": "proved",
   "theorems": [
    "Hush.Props.parseArgs_script",
    "Hush.Props.script_unique",
    "Hush.Props.executed_iff_checked",
    "Hush.Props.script_arguments",
    "Hush.Props.same_arguments"
   ],
   "note": ""
  },
  {
   "property": "C52",
   "status": "proved",
   "theorems": [
    "Hush.Props.replace_all",
    "Hush.Props.split_parts"
   ],
   "note": "bstr's replace is trusted to be as modelled."
  },
  {
   "property": "C53",
   "status": "proved",
   "theorems": [
    "Hush.Props.push_pop"
   ],
   "note": ""
  },
  {
   "property": "C54",
   "status": "proved",
   "theorems": [
    "Hush.Props.contains_decides"
   ],
   "note": ""
  },
  {
   "property": "C55",
   "status": "proved",
   "theorems": [
    "Hush.Props.has_error_decides"
   ],
   "note": "A value that contains itself makes the function recurse without end."
  },
  {
   "property": "C56",
   "status": "proved",
   "theorems": [
    "Hush.Props.typecheck_decides"
   ],
   "note": ""
  },
  {
   "property": "C57",
   "status": "partial",
   "theorems": [
    "Hush.Props.library_arity",
    "Hush.Props.library_types_partial",
    "Hush.Props.library_accepts_partial",
    "Hush.Props.contains_types",
    "Hush.Props.read_types",
    "Hush.Props.substr_types_violated",
    "Hush.Props.randint_types_violated"
   ],
   "note": "violated by std.substr (two wrong types are reported as a wrong number) and std.randint (reports the first argument when the second is wrong); the functions answered by the world are modelled up to the checks"
  },
  {
   "property": "C58",
   "status": "partial",
   "theorems": [
    "Hush.Props.operand_types",
    "Hush.Props.comparisons_decide",
    "Hush.Props.equality_decides_partial",
    "Hush.Props.concat_joins",
    "Hush.Props.unary_types",
    "Hush.Props.comparison_nan_violated"
   ],
   "note": "Types and results proved for all operators; equality for finite values whose dicts have keys without -0.0 and without dicts that have functions in their keys (as C23); violated by floats that are not numbers, which are less than all floats. The results of arithmetic on floats are those of an oracle; for integers see C21."
  },
  {
   "property": "C59",
   "status": "proved",
   "theorems": [
    "Hush.Props.if_branches",
    "Hush.Props.while_loops",
    "Hush.Props.block_sequence",
    "Hush.Props.while_exit"
   ],
   "note": ""
  },
  {
   "property": "C60",
   "status": "proved",
   "theorems": [
    "Hush.Props.call_rule",
    "Hush.Props.parameters_bound"
   ],
   "note": ""
  },
  {
   "property": "C61",
   "status": "proved",
   "theorems": [
    "Hush.Props.trim_trims",
    "Hush.Props.trim_idempotent"
   ],
   "note": "Over a trusted model of the trimming of the crate bstr."
  },
  {
   "property": "C62",
   "status": "partial",
   "theorems": [
    "Hush.Props.int_of_text",
    "Hush.Props.int_of_float_partial",
    "Hush.Props.int_of_nan_violated"
   ],
   "note": "Proved for strings and for floats that are numbers. Violated: a NaN gives 0 instead of a panic."
  },
  {
   "property": "C63",
   "status": "partial",
   "theorems": [
    "Hush.Props.json_roundtrip_partial",
    "Hush.Props.json_depth_violated",
    "Hush.Props.json_kinds_violated",
    "Hush.Props.encode_refuses",
    "Hush.Props.decode_never_panics"
   ],
   "note": "Round trip proved for data nested at most 127 deep, of nil, booleans, integers, texts, lists, records with distinct keys, and floats that the trusted conversions keep. Violated: lists nested 128 deep are written but not read; a byte comes back as a string, NaN as nil, invalid UTF-8 as replacement characters."
  },
  {
   "property": "C64",
   "status": "proved",
   "theorems": [
    "Hush.Props.stack_bounded",
    "Hush.Props.overflow_reported"
   ],
   "note": "The stack of variables of the interpreter (mem::Stack). The native stack of the process is not modelled."
  },
  {
   "property": "C65",
   "status": "partial",
   "theorems": [
    "Hush.Props.script_block_partial",
    "Hush.Props.script_capture_partial",
    "Hush.Props.script_block_outcome",
    "Hush.Props.script_capture_outcome",
    "Hush.Props.script_arguments_first",
    "Hush.Props.script_history"
   ],
   "note": "The full statement is proved for blocks of which no call to the operating system fails (`_partial`). For all other blocks that do not wait forever, `script_block_outcome` and `script_capture_outcome` state what happens: the failures of the commands before a failed call are lost (as in C36, where this is proved as a violation). Asynchronous blocks are executed by other threads, whose calls are not recorded."
  },
  {
   "property": "C66",
   "status": "partial",
   "theorems": [
    "Hush.Props.text_reads_back_partial",
    "Hush.Props.text_distinguishes_partial",
    "Hush.Props.text_of_string",
    "Hush.Props.text_least_violated",
    "Hush.Props.text_return_violated",
    "Hush.Props.text_record_violated",
    "Hush.Props.text_byte_violated",
    "Hush.Props.text_float_violated"
   ],
   "note": "Proved for nil, booleans, integers but the least, strings of characters that are printed as they are or have an escape of the language, floats of which the text is a number of the language, and lists of such. Violated by -2^63, by carriage returns, by dicts (quoted keys), by bytes (no quotes) and by floats like 1e-7 and NaN."
  },
  {
   "property": "C67",
   "status": "partial",
   "theorems": [
    "Hush.Props.ast_reads_back_partial",
    "Hush.Props.ast_text_stable",
    "Hush.Props.ast_text_determines",
    "Hush.Props.ast_call_violated",
    "Hush.Props.ast_semicolon_violated",
    "Hush.Props.ast_thenend_violated",
    "Hush.Props.ast_field_violated",
    "Hush.Props.ast_escape_violated",
    "Hush.Props.ast_command_violated",
    "Hush.Props.ast_float_violated"
   ],
   "note": "Proved for the trees described by PrintsBlock. The full claim is false: the theorems ending in _violated give sources whose printed tree is another program or no program (statements that begin with an operation, inline blocks of several statements or none, fields of integers, carriage returns and bytes outside ASCII, command blocks, floats without a fractional part)."
  },
  {
   "property": "C68",
   "status": "proved",
   "theorems": [
    "Hush.Props.unique_keys",
    "Hush.Props.unique_distinct",
    "Hush.Props.block_value_distinct",
    "Hush.Props.unique_keys_violated"
   ],
   "note": "For keys that are nil, booleans, bytes, integers, strings or floats that are numbers, at every moment of every execution. The values that native functions which are not modelled, commands and threads return are assumed to have no repeated keys; for command blocks this is proved of their execution. For keys that are arrays the claim does not hold (unique_keys_violated: changing an array that is a key)."
  },
  {
   "property": "C69",
   "status": "partial",
   "theorems": [
    "Hush.Props.source_semantics_partial",
    "Hush.Props.source_semantics_violated",
    "Hush.Props.lexical_only",
    "Hush.Props.caught_only"
   ],
   "note": "Violated: after a failed import that is caught, the interpreter reads the variables of another frame, and gives a value that the text does not have by names. Proved for executions in which all loaded modules are completed (as C15). lexical_only shows for one text that the semantics by names admits only the lexical result."
  },
  {
   "property": "C70",
   "status": "partial",
   "theorems": [
    "Hush.Props.reaped_partial",
    "Hush.Props.reaped_without_pipelines",
    "Hush.Props.reaped_all_ok",
    "Hush.Props.started_before_waiting",
    "Hush.Props.script_waits",
    "Hush.Props.script_reaped",
    "Hush.Props.reaped_violated"
   ],
   "note": "Proved for blocks without pipelines and for blocks without failing calls; reaped_partial says which processes are left behind otherwise. Violated: when a stage of a pipeline cannot be started, the stages after it were started and are never waited for."
  },
  {
   "property": "C71",
   "status": "proved",
   "theorems": [
    "Hush.Props.handles_same_calls",
    "Hush.Props.handles_released",
    "Hush.Props.handles_closed_once",
    "Hush.Props.handles_while_waiting",
    "Hush.Props.nothing_held_while_waiting",
    "Hush.Props.one_writer",
    "Hush.Props.captured_after_closing"
   ],
   "note": "About Model/Handles, which refines Model/Exec (handles_same_calls). That a process gets only its three standard handles (O_CLOEXEC) is assumed."
  },
  {
   "property": "C72",
   "status": "partial",
   "theorems": [
    "Hush.Props.lexical_errors_placed",
    "Hush.Props.marks_in_text",
    "Hush.Props.syntax_errors_placed",
    "Hush.Props.semantic_errors_placed_partial",
    "Hush.Props.panics_placed",
    "Hush.Props.commands_placed",
    "Hush.Props.failures_placed",
    "Hush.Props.block_panics_placed",
    "Hush.Props.semantic_errors_placed_violated"
   ],
   "note": "Proved except for semantic errors of texts with syntax errors. Violated there: a missing identifier after `let` is declared as a variable, so `let 1 let 2` also reports a duplicate variable at 0:0. Positions in the model have no path: which text a panic belongs to is not part of the position. Panics of library functions that are not modelled are left to the world."
  },
  {
   "property": "C73",
   "status": "partial",
   "theorems": [
    "Hush.Props.lexical_errors_in_order",
    "Hush.Props.syntax_errors_in_order",
    "Hush.Props.errors_reported_partial",
    "Hush.Props.left_out_violated",
    "Hush.Props.reported_once_violated",
    "Hush.Props.rejected_iff_reported",
    "Hush.Props.reported_exit_status",
    "Hush.Props.place_readable"
   ],
   "note": "Violated: the number of errors left out is always given as 20, and a malformed escape in a command argument is reported once for every following character. The order is proved for the errors of the lexer and for those of the parser; how the two lists are interleaved is left open (the theorems hold for every interleaving)."
  },
  {
   "property": "C74",
   "status": "partial",
   "theorems": [
    "Hush.Props.reports_printable_partial",
    "Hush.Props.printable_violated",
    "Hush.Props.printable_identifier_violated"
   ],
   "note": "Proved for all errors but malformed escapes and identifiers, whose reports are printable exactly when the malformed piece is. Violated for both, as they are printed raw."
  },
  {
   "property": "C75",
   "status": "partial",
   "theorems": [
    "Hush.Props.printed_complete",
    "Hush.Props.output_in_order_partial",
    "Hush.Props.lines_in_order",
    "Hush.Props.printed_text",
    "Hush.Props.output_in_order_violated",
    "Hush.Props.printed_lost_violated"
   ],
   "note": "Violated by std.print before a command: commands are started, and the shell is replaced by exec, without flushing the buffer. Proved if the script is at the beginning of a line whenever commands write, in particular for executions without std.print. The LineWriter of the standard library is trusted to be as modelled; output of asynchronous blocks is not covered."
  },
  {
   "property": "C76",
   "status": "proved",
   "theorems": [
    "Hush.Props.capture_no_deadlock",
    "Hush.Props.capture_ends",
    "Hush.Props.capture_finishes",
    "Hush.Props.capture_complete",
    "Hush.Props.pipeline_in_order",
    "Hush.Props.pipeline_all_received"
   ],
   "note": "Pipes of the operating system are trusted to be as modelled. The shell keeps no end of the pipes while it waits by C71. Processes are assumed not to leave other processes behind that hold the pipes, and to start."
  },
  {
   "property": "C77",
   "status": "partial",
   "theorems": [
    "Hush.Props.panic_reported_partial",
    "Hush.Props.panic_overflows_iff",
    "Hush.Props.panic_readable",
    "Hush.Props.panic_arguments_readable",
    "Hush.Props.panic_printable_partial",
    "Hush.Props.panic_reported_violated",
    "Hush.Props.panic_printable_violated",
    "Hush.Props.panic_cause_violated"
   ],
   "note": "Proved for panics about values that are not part of themselves, and (control characters) that contain no bytes. Violated by values that are part of themselves (the report overflows the native stack), by bytes (written raw), and by patterns refused by the crate glob, which are reported to be invalid UTF-8."
  },
  {
   "property": "C78",
   "status": "partial",
   "theorems": [
    "Hush.Props.programs_as_written",
    "Hush.Props.process_texts_partial",
    "Hush.Props.variables_inherited",
    "Hush.Props.last_assignment",
    "Hush.Props.assignments_dropped_violated"
   ],
   "note": "Violated by assignments before builtin commands, which are accepted and dropped. programs_as_written describes all words, with patterns as answered by the operating system; process_texts_partial gives the words from the program to the process for words without wildcards. That process::Command passes them on and inherits the variables of the shell is trusted; keys that contain = are not described."
  },
  {
   "property": "C79",
   "status": "proved",
   "theorems": [
    "Hush.Props.programs_in_directory",
    "Hush.Props.directory_after",
    "Hush.Props.directory_kept",
    "Hush.Props.failed_cd_ends"
   ],
   "note": "The directory is given by the successful calls to change it, in order. Threads of asynchronous blocks share the directory of the shell and are not covered."
  },
  {
   "property": "C80",
   "status": "partial",
   "theorems": [
    "Hush.Props.variables_changed_by_export",
    "Hush.Props.export_sets",
    "Hush.Props.env_reads",
    "Hush.Props.export_refuses_partial",
    "Hush.Props.exports_reach_programs_partial",
    "Hush.Props.home_exported",
    "Hush.Props.export_empty_violated"
   ],
   "note": "Violated by the empty name, for which the interpreter aborts instead of giving an error value. All else is proved, for worlds that keep variables as set_var and var_os do (KeepsVariables); std.env of names that contain = is not described. Asynchronous blocks are not covered by exports_reach_programs_partial."
  },
  {
   "property": "C81",
   "status": "partial",
   "theorems": [
    "Hush.Props.import_path",
    "Hush.Props.import_file",
    "Hush.Props.modules_absolute",
    "Hush.Props.import_fixed_partial",
    "Hush.Props.import_moves_violated"
   ],
   "note": "Violated for imports in a script that was given by a relative path, after a change of the directory. Proved for imports in modules and in scripts with absolute paths; canonicalize is taken from the operating system (FindsModules)."
  },
  {
   "property": "C82",
   "status": "proved",
   "theorems": [
    "Hush.Props.symbols_are_texts",
    "Hush.Props.intern_resolves"
   ],
   "note": "The table of the crate intaglio is modelled as a map and a list. This justifies that symbols are their texts in all other parts of the model."
  },
  {
   "property": "C83",
   "status": "partial",
   "theorems": [
    "Hush.Props.own_directory_partial",
    "Hush.Props.async_directory_violated"
   ],
   "note": "Violated: all threads share the directory of the process, so that cd in an asynchronous block moves the script, and the other way round. Proved for threads beside which no other thread has a cd command."
  },
  {
   "property": "C84",
   "status": "partial",
   "theorems": [
    "Hush.Props.program_text_determines_partial",
    "Hush.Props.program_text_reads_back",
    "Hush.Props.program_text_never_aborts",
    "Hush.Props.program_text_pattern_violated",
    "Hush.Props.program_text_mark_violated",
    "Hush.Props.program_text_float_violated"
   ],
   "note": "Violated for command blocks (a pattern and a quoted star have the same text; the mark of built-in commands is inverted) and for floats without a fractional part. Proved for all other programs, with nonnegative integer literals and with strings and bytes without other control characters than tabs, line feeds and NUL; the path in the first line is not modelled."
  },
  {
   "property": "C85",
   "status": "proved",
   "theorems": [
    "Hush.Props.renaming_same_program",
    "Hush.Props.renaming_names",
    "Hush.Props.renaming_swap"
   ],
   "note": "Renaming all variables of a name together, for all syntax trees (also ill-formed ones)."
  },
  {
   "property": "C86",
   "status": "proved",
   "theorems": [
    "Hush.Props.alpha_same_program",
    "Hush.Props.alpha_names"
   ],
   "note": "For programs whose uses are all declared and whose scopes declare no name twice; other errors (such as misplaced returns) are covered."
  },
  {
   "property": "C87",
   "status": "proved",
   "theorems": [
    "Hush.Props.layout_parse",
    "Hush.Props.layout_analysis",
    "Hush.Props.layout_same_program",
    "Hush.Props.layout_written",
    "Hush.Props.filler_same_program",
    "Hush.Props.layout_check"
   ],
   "note": "The dynamic part (that positions influence execution only through the texts and values of panics) is not covered."
  },
  {
   "property": "C88",
   "status": "proved",
   "theorems": [
    "Hush.Props.ast_text_places",
    "Hush.Props.program_text_places",
    "Hush.Props.layout_dumps",
    "Hush.Props.written_dumps"
   ],
   "note": ""
  },
  {
   "property": "C89",
   "status": "proved",
   "theorems": [
    "Hush.Props.length_counts",
    "Hush.Props.empty_without_elements",
    "Hush.Props.bytes_of_string",
    "Hush.Props.hex_length",
    "Hush.Props.base64_length",
    "Hush.Props.dict_grows"
   ],
   "note": "The crates hex and base64 are trusted to be as modelled."
  },
  {
   "property": "C90",
   "status": "proved",
   "theorems": [
    "Hush.Props.spent_stays",
    "Hush.Props.finished_forever",
    "Hush.Props.spent_loop",
    "Hush.Props.array_iterator_resumes"
   ],
   "note": "The integers of a range are those of the model of arithmetic (wrapping or aborting on overflow)."
  }
 ]
}