import Verif.Props.Lexer
import Verif.Props.Parser
import Verif.Props.Semantic
import Verif.Props.Args
import Verif.Props.Binding
import Verif.Props.Interp
import Verif.Props.Eval
import Verif.Props.Loops
import Verif.Props.Values
import Verif.Props.Exec
import Verif.Props.Async
import Verif.Props.Main
import Verif.Props.Library
import Verif.Props.Tail
import Verif.Props.Variables
import Verif.Props.Signatures
import Verif.Props.Structure
import Verif.Props.Operators
import Verif.Props.Calls
import Verif.Props.Text
import Verif.Props.Json
import Verif.Props.Stack
import Verif.Props.Shell
import Verif.Props.Show
import Verif.Props.AstFmt
import Verif.Props.Keys
import Verif.Props.Unique
import Verif.Props.Crash
import Verif.Props.Source
import Verif.Props.Reaping
import Verif.Props.Handles
import Verif.Props.Script
import Verif.Props.Places
import Verif.Props.Reports
import Verif.Props.Output
import Verif.Props.Capture
import Verif.Props.PanicText
import Verif.Props.Launch
import Verif.Props.Environ
import Verif.Props.ModulePath
import Verif.Props.Symbols
import Verif.Props.Threads
import Verif.Props.ProgramFmt
import Verif.Props.Rename
import Verif.Props.Alpha
import Verif.Props.Layout
import Verif.Props.Dumps
import Verif.Props.Sizes
import Verif.Props.Iterators

/-!
The axioms every property theorem depends on; only `propext`, `Classical.choice` and `Quot.sound` may appear.
-/

#print axioms Hush.Props.lexer_terminates
#print axioms Hush.Props.lexer_positions
#print axioms Hush.Props.lexer_in_bounds
#print axioms Hush.Props.lexer_never_aborts_violated
#print axioms Hush.Props.lexer_never_aborts_partial
#print axioms Hush.Props.lexer_accepts_written_partial
#print axioms Hush.Props.string_literal_roundtrip
#print axioms Hush.Props.string_literal_roundtrip'
#print axioms Hush.Props.int_literal_exact
#print axioms Hush.Props.layout_irrelevant
#print axioms Hush.Props.filler_insertion
#print axioms Hush.Props.single_quoted_literal
#print axioms Hush.Props.pipe_separates_violated
#print axioms Hush.Props.pipe_separates_partial
#print axioms Hush.Props.expression_roundtrip
#print axioms Hush.Props.grammar_accepted
#print axioms Hush.Props.grammar_unambiguous
#print axioms Hush.Props.statements_kept_violated
#print axioms Hush.Props.statements_kept_partial
#print axioms Hush.Props.statements_kept_without_return
#print axioms Hush.Props.parser_terminates
#print axioms Hush.Props.parser_in_order
#print axioms Hush.Props.slots_in_frame
#print axioms Hush.Props.slots_of_declarations
#print axioms Hush.Props.source_slots
#print axioms Hush.Props.control_flow_placed
#print axioms Hush.Props.placement_reports
#print axioms Hush.Props.proper_placement_not_reported
#print axioms Hush.Props.source_is_written
#print axioms Hush.Props.accepted_source
#print axioms Hush.Props.analysis_total
#print axioms Hush.Props.rejected_has_error
#print axioms Hush.Props.undeclared_rejected_violated
#print axioms Hush.Props.undeclared_rejected_partial
#print axioms Hush.Props.scope_reports
#print axioms Hush.Props.accepted_iff_rules
#print axioms Hush.Props.duplicate_keys_violated
#print axioms Hush.Props.duplicate_keys_rejected_partial
#print axioms Hush.Props.duplicate_keys_reports_partial
#print axioms Hush.Props.variables_partial
#print axioms Hush.Props.captured_shared
#print axioms Hush.Props.failed_import_violated
#print axioms Hush.Props.no_internal_crash_partial
#print axioms Hush.Props.crash_origin_partial
#print axioms Hush.Props.task_crash_origin_partial
#print axioms Hush.Props.no_arith_crash
#print axioms Hush.Props.crash_witnesses
#print axioms Hush.Props.no_crash_violated
#print axioms Hush.Props.calls_balanced_partial
#print axioms Hush.Props.calls_balanced_violated
#print axioms Hush.Props.tail_calls_partial
#print axioms Hush.Props.countdown_total
#print axioms Hush.Props.tail_calls_violated
#print axioms Hush.Props.budget_irrelevant
#print axioms Hush.Props.program_deterministic
#print axioms Hush.Props.integers_exact
#print axioms Hush.Props.negate_exact_partial
#print axioms Hush.Props.negate_violated
#print axioms Hush.Props.short_circuit
#print axioms Hush.Props.operands_in_order
#print axioms Hush.Props.items_in_order
#print axioms Hush.Props.arguments_in_order
#print axioms Hush.Props.equality_equivalence_partial
#print axioms Hush.Props.equality_contents_partial
#print axioms Hush.Props.equal_contents
#print axioms Hush.Props.equal_same_key_partial
#print axioms Hush.Props.equal_self_violated
#print axioms Hush.Props.recursive_function_violated
#print axioms Hush.Props.equal_same_key_violated
#print axioms Hush.Props.equal_dicts_violated
#print axioms Hush.Props.sort_sorts_partial
#print axioms Hush.Props.order_total_partial
#print axioms Hush.Props.order_usual
#print axioms Hush.Props.order_contents_partial
#print axioms Hush.Props.order_functions
#print axioms Hush.Props.order_equal_partial
#print axioms Hush.Props.order_dicts_partial
#print axioms Hush.Props.order_equal_violated
#print axioms Hush.Props.order_violated
#print axioms Hush.Props.array_read
#print axioms Hush.Props.array_write
#print axioms Hush.Props.string_read
#print axioms Hush.Props.read_element_types
#print axioms Hush.Props.write_element_types
#print axioms Hush.Props.dict_read_partial
#print axioms Hush.Props.dict_write_partial
#print axioms Hush.Props.dict_read_key_partial
#print axioms Hush.Props.dict_write_key_partial
#print axioms Hush.Props.nan_key_violated
#print axioms Hush.Props.dict_own_key_violated
#print axioms Hush.Props.errors_immutable
#print axioms Hush.Props.assign_readonly
#print axioms Hush.Props.catch_result
#print axioms Hush.Props.catch_never_panics
#print axioms Hush.Props.try_value
#print axioms Hush.Props.try_returns
#print axioms Hush.Props.try_result
#print axioms Hush.Props.panic_passes
#print axioms Hush.Props.for_array
#print axioms Hush.Props.for_string
#print axioms Hush.Props.for_dict
#print axioms Hush.Props.for_range_partial
#print axioms Hush.Props.array_elements
#print axioms Hush.Props.string_elements
#print axioms Hush.Props.range_elements
#print axioms Hush.Props.dict_elements
#print axioms Hush.Props.dict_entry
#print axioms Hush.Props.range_violated
#print axioms Hush.Props.scalar_variable_as_literal
#print axioms Hush.Props.scalar_variable_one_argument
#print axioms Hush.Props.scalar_variable_in_product
#print axioms Hush.Props.empty_string_argument_violated
#print axioms Hush.Props.quoted_argument_partial
#print axioms Hush.Props.empty_text_disappears
#print axioms Hush.Props.expansion_product_violated
#print axioms Hush.Props.expansion_product_partial
#print axioms Hush.Props.expansion_count_partial
#print axioms Hush.Props.expansion_has_alternatives
#print axioms Hush.Props.combos_are_choices
#print axioms Hush.Props.combos_distinct
#print axioms Hush.Props.glob_text_literal_partial
#print axioms Hush.Props.glob_only_literal_partial
#print axioms Hush.Props.glob_variable_literal_partial
#print axioms Hush.Props.glob_text_literal_violated
#print axioms Hush.Props.arity_count_violated
#print axioms Hush.Props.arity_count_partial
#print axioms Hush.Props.arity_zero_partial
#print axioms Hush.Props.block_in_sequence_partial
#print axioms Hush.Props.block_nil_partial
#print axioms Hush.Props.block_outcome
#print axioms Hush.Props.guarded_start_violated
#print axioms Hush.Props.failures_reported_partial
#print axioms Hush.Props.failures_captured_partial
#print axioms Hush.Props.failures_lost_violated
#print axioms Hush.Props.pipeline_connects
#print axioms Hush.Props.neighbours_connected
#print axioms Hush.Props.last_stage_captured_partial
#print axioms Hush.Props.stage_stderr_violated
#print axioms Hush.Props.redirections_in_order
#print axioms Hush.Props.last_redirection_fd
#print axioms Hush.Props.last_redirection_file
#print axioms Hush.Props.here_string_partial
#print axioms Hush.Props.here_string_violated
#print axioms Hush.Props.success_iff
#print axioms Hush.Props.codes_distinct
#print axioms Hush.Props.signals_distinct
#print axioms Hush.Props.async_started
#print axioms Hush.Props.join_returns
#print axioms Hush.Props.join_panics
#print axioms Hush.Props.join_once
#print axioms Hush.Props.joined_once
#print axioms Hush.Props.executed_iff_checked
#print axioms Hush.Props.exit_code_partial
#print axioms Hush.Props.exit_code_violated
#print axioms Hush.Props.split_parts
#print axioms Hush.Props.substr_partial
#print axioms Hush.Props.substr_violated
#print axioms Hush.Props.int_roundtrip
#print axioms Hush.Props.encodings_roundtrip
#print axioms Hush.Props.type_names
#print axioms Hush.Props.typecheck_decides
#print axioms Hush.Props.evaluated_once_partial
#print axioms Hush.Props.import_returns
#print axioms Hush.Props.evaluated_once_violated
#print axioms Hush.Props.unreferenced_unchanged
#print axioms Hush.Props.no_dangling_init
#print axioms Hush.Props.no_dangling
#print axioms Hush.Props.program_no_dangling
#print axioms Hush.Props.parseArgs_script
#print axioms Hush.Props.script_unique
#print axioms Hush.Props.script_arguments
#print axioms Hush.Props.same_arguments
#print axioms Hush.Props.replace_all
#print axioms Hush.Props.push_pop
#print axioms Hush.Props.contains_decides
#print axioms Hush.Props.has_error_decides
#print axioms Hush.Props.library_arity
#print axioms Hush.Props.library_types_partial
#print axioms Hush.Props.library_accepts_partial
#print axioms Hush.Props.contains_types
#print axioms Hush.Props.read_types
#print axioms Hush.Props.substr_types_violated
#print axioms Hush.Props.randint_types_violated
#print axioms Hush.Props.operand_types
#print axioms Hush.Props.comparisons_decide
#print axioms Hush.Props.equality_decides_partial
#print axioms Hush.Props.concat_joins
#print axioms Hush.Props.unary_types
#print axioms Hush.Props.comparison_nan_violated
#print axioms Hush.Props.if_branches
#print axioms Hush.Props.while_loops
#print axioms Hush.Props.block_sequence
#print axioms Hush.Props.while_exit
#print axioms Hush.Props.call_rule
#print axioms Hush.Props.parameters_bound
#print axioms Hush.Props.trim_trims
#print axioms Hush.Props.trim_idempotent
#print axioms Hush.Props.int_of_text
#print axioms Hush.Props.int_of_float_partial
#print axioms Hush.Props.int_of_nan_violated
#print axioms Hush.Props.json_roundtrip_partial
#print axioms Hush.Props.json_depth_violated
#print axioms Hush.Props.json_kinds_violated
#print axioms Hush.Props.encode_refuses
#print axioms Hush.Props.decode_never_panics
#print axioms Hush.Props.stack_bounded
#print axioms Hush.Props.overflow_reported
#print axioms Hush.Props.script_block_partial
#print axioms Hush.Props.script_capture_partial
#print axioms Hush.Props.script_block_outcome
#print axioms Hush.Props.script_capture_outcome
#print axioms Hush.Props.script_arguments_first
#print axioms Hush.Props.script_history
#print axioms Hush.Props.text_reads_back_partial
#print axioms Hush.Props.text_distinguishes_partial
#print axioms Hush.Props.text_of_string
#print axioms Hush.Props.text_least_violated
#print axioms Hush.Props.text_return_violated
#print axioms Hush.Props.text_record_violated
#print axioms Hush.Props.text_byte_violated
#print axioms Hush.Props.text_float_violated
#print axioms Hush.Props.ast_reads_back_partial
#print axioms Hush.Props.ast_text_stable
#print axioms Hush.Props.ast_text_determines
#print axioms Hush.Props.ast_call_violated
#print axioms Hush.Props.ast_semicolon_violated
#print axioms Hush.Props.ast_thenend_violated
#print axioms Hush.Props.ast_field_violated
#print axioms Hush.Props.ast_escape_violated
#print axioms Hush.Props.ast_command_violated
#print axioms Hush.Props.ast_float_violated
#print axioms Hush.Props.unique_keys
#print axioms Hush.Props.unique_distinct
#print axioms Hush.Props.block_value_distinct
#print axioms Hush.Props.unique_keys_violated
#print axioms Hush.Props.source_semantics_partial
#print axioms Hush.Props.source_semantics_violated
#print axioms Hush.Props.lexical_only
#print axioms Hush.Props.caught_only
#print axioms Hush.Props.reaped_partial
#print axioms Hush.Props.reaped_without_pipelines
#print axioms Hush.Props.reaped_all_ok
#print axioms Hush.Props.started_before_waiting
#print axioms Hush.Props.script_waits
#print axioms Hush.Props.script_reaped
#print axioms Hush.Props.reaped_violated
#print axioms Hush.Props.handles_same_calls
#print axioms Hush.Props.handles_released
#print axioms Hush.Props.handles_closed_once
#print axioms Hush.Props.handles_while_waiting
#print axioms Hush.Props.nothing_held_while_waiting
#print axioms Hush.Props.one_writer
#print axioms Hush.Props.captured_after_closing
#print axioms Hush.Props.lexical_errors_placed
#print axioms Hush.Props.marks_in_text
#print axioms Hush.Props.syntax_errors_placed
#print axioms Hush.Props.semantic_errors_placed_partial
#print axioms Hush.Props.panics_placed
#print axioms Hush.Props.commands_placed
#print axioms Hush.Props.failures_placed
#print axioms Hush.Props.block_panics_placed
#print axioms Hush.Props.semantic_errors_placed_violated
#print axioms Hush.Props.lexical_errors_in_order
#print axioms Hush.Props.syntax_errors_in_order
#print axioms Hush.Props.errors_reported_partial
#print axioms Hush.Props.left_out_violated
#print axioms Hush.Props.reported_once_violated
#print axioms Hush.Props.rejected_iff_reported
#print axioms Hush.Props.reported_exit_status
#print axioms Hush.Props.place_readable
#print axioms Hush.Props.reports_printable_partial
#print axioms Hush.Props.printable_violated
#print axioms Hush.Props.printable_identifier_violated
#print axioms Hush.Props.printed_complete
#print axioms Hush.Props.output_in_order_partial
#print axioms Hush.Props.lines_in_order
#print axioms Hush.Props.printed_text
#print axioms Hush.Props.output_in_order_violated
#print axioms Hush.Props.printed_lost_violated
#print axioms Hush.Props.capture_no_deadlock
#print axioms Hush.Props.capture_ends
#print axioms Hush.Props.capture_finishes
#print axioms Hush.Props.capture_complete
#print axioms Hush.Props.pipeline_in_order
#print axioms Hush.Props.pipeline_all_received
#print axioms Hush.Props.panic_reported_partial
#print axioms Hush.Props.panic_overflows_iff
#print axioms Hush.Props.panic_readable
#print axioms Hush.Props.panic_arguments_readable
#print axioms Hush.Props.panic_printable_partial
#print axioms Hush.Props.panic_reported_violated
#print axioms Hush.Props.panic_printable_violated
#print axioms Hush.Props.panic_cause_violated
#print axioms Hush.Props.programs_as_written
#print axioms Hush.Props.process_texts_partial
#print axioms Hush.Props.variables_inherited
#print axioms Hush.Props.last_assignment
#print axioms Hush.Props.assignments_dropped_violated
#print axioms Hush.Props.programs_in_directory
#print axioms Hush.Props.directory_after
#print axioms Hush.Props.directory_kept
#print axioms Hush.Props.failed_cd_ends
#print axioms Hush.Props.variables_changed_by_export
#print axioms Hush.Props.export_sets
#print axioms Hush.Props.env_reads
#print axioms Hush.Props.export_refuses_partial
#print axioms Hush.Props.exports_reach_programs_partial
#print axioms Hush.Props.home_exported
#print axioms Hush.Props.export_empty_violated
#print axioms Hush.Props.import_path
#print axioms Hush.Props.import_file
#print axioms Hush.Props.modules_absolute
#print axioms Hush.Props.import_fixed_partial
#print axioms Hush.Props.import_moves_violated
#print axioms Hush.Props.symbols_are_texts
#print axioms Hush.Props.intern_resolves
#print axioms Hush.Props.own_directory_partial
#print axioms Hush.Props.async_directory_violated
#print axioms Hush.Props.program_text_determines_partial
#print axioms Hush.Props.program_text_reads_back
#print axioms Hush.Props.program_text_never_aborts
#print axioms Hush.Props.program_text_pattern_violated
#print axioms Hush.Props.program_text_mark_violated
#print axioms Hush.Props.program_text_float_violated
#print axioms Hush.Props.renaming_same_program
#print axioms Hush.Props.renaming_names
#print axioms Hush.Props.renaming_swap
#print axioms Hush.Props.alpha_same_program
#print axioms Hush.Props.alpha_names
#print axioms Hush.Props.layout_parse
#print axioms Hush.Props.layout_analysis
#print axioms Hush.Props.layout_same_program
#print axioms Hush.Props.layout_written
#print axioms Hush.Props.filler_same_program
#print axioms Hush.Props.layout_check
#print axioms Hush.Props.ast_text_places
#print axioms Hush.Props.program_text_places
#print axioms Hush.Props.layout_dumps
#print axioms Hush.Props.written_dumps
#print axioms Hush.Props.length_counts
#print axioms Hush.Props.empty_without_elements
#print axioms Hush.Props.bytes_of_string
#print axioms Hush.Props.hex_length
#print axioms Hush.Props.base64_length
#print axioms Hush.Props.dict_grows
#print axioms Hush.Props.spent_stays
#print axioms Hush.Props.finished_forever
#print axioms Hush.Props.spent_loop
#print axioms Hush.Props.array_iterator_resumes
