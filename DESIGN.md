# Formal model of hush: design

The subject is the Rust source in /repo (hush-shell/hush at the pinned commit). The model is written in Lean 4
(`lean/Verif`), function by function; every model definition cites the file and lines it follows.

* `lean/Verif/Model/*`: the model of the code.
* `lean/Verif/Spec/*`: specifications, written without the functions of the model whose behaviour they specify (they use its
  data types: tokens, trees, values, states).
* `lean/Verif/Props/*`: the property theorems, each with an example that meets its hypotheses.
* `lean/Verif/Lemmas/*`: proofs.
* `lean/Verif/Audit.lean`: `#print axioms` for every theorem of MANIFEST.json (generated from it).
* `seeded/LOG.jsonl`: mutations of the model that were tried against the theorems.

A place where the code violates a property is a theorem with a concrete witness, named `..._violated`; what remains true is
proved as `..._partial`, with what is missing in its comment. The section "Findings" lists the violations.

## Trusted base

* The Lean 4.33.0 kernel. The axioms of each theorem are in the last section; they are a subset of `propext`,
  `Classical.choice` and `Quot.sound`. No own axioms, `sorry`, `native_decide`, `bv_decide`.
* The correspondence between the Rust text and the Lean definitions, which is by reading. Each definition says what it
  simplifies. Nothing was compiled or run.
* Models of crates whose source is not in /repo, from their documentation: `glob` 0.3 patterns and escaping (`Model/Glob`),
  `hex` and `base64` (`Model/Lib`), `bstr` splitting, replacing and trimming (`Model/Lib`, `Model/Text`), `serde_json` and its
  treatment of strings, depth and duplicate keys (`Model/Json`; the text of floats is a parameter), `slice::sort` (a stable sort for a total order),
  `str::parse::<i64>`, integer formatting, `clap` (its result is
  a parameter of `Model/Main`).

## Modelling conventions

* Bytes are `UInt8`, byte strings are `List UInt8`; symbols (interned identifiers) are their byte strings (the
  interner is modelled on its own, in Model/Symbols; C82 justifies this).
* A Rust `Result` is an explicit result; a Hush panic is an error value; a Rust panic (`panic!`, `unreachable!`, `todo!`,
  index out of bounds, `unwrap`, double borrow, arithmetic overflow in builds with checks) is a separate explicit outcome `crash`,
  so that its absence can be a theorem.
* `&mut self` is a state passed and returned. Loops are structural recursion, or recursion on a budget whose
  exhaustion is a separate outcome `timeout`. Theorems quantify over every budget, or speak of `Ends` (some budget suffices; by C20
  every larger budget gives the same outcome and state).
* i64 is `Int` with explicit range checks where Rust has `checked_*`. Where Rust has plain arithmetic, `World.checks` says
  whether the build has overflow checks (debug) or wraps (release); theorems hold for both unless they say otherwise.
* f64 is its 64 bits; comparison, equality and hash are defined on them; float arithmetic is a parameter.
* Garbage collected objects are addresses into a heap which only grows. Nothing is freed.
* Recursion into cyclic data (equality, order, printing, `has_error`), which overflows the native stack, is `timeout`.
* The environment of the interpreter is a parameter, `World`: files, text of floats and of paths, which characters beyond ASCII are printed as they are, float arithmetic, results of commands, and all
  library functions that are not modelled. Its answers may depend on everything that happened before (the trace of events). A
  world answers with a tree of fresh values, a panic, an exit or a crash. Theorems hold for every world.
* For command blocks themselves (`Model/Exec`) the operating system is a parameter, `Os`; every call is recorded in a trace. Theorems
  about the interpreter hold for any result of a command; those of C65 are about worlds which execute commands as in `Model/Exec` (`Spec/Shell`).
* The state of the interpreter records what it did (`trace`: modules loaded, commands run, library calls answered by the world, joins).

## Model files

| file | models |
|---|---|
| Model/Bytes, Model/Token | character classes; syntax/lexer/token, syntax/lexer/error |
| Model/Lexer | syntax/lexer: cursor and all states of the automaton |
| Model/Ast, Model/Parser | syntax/ast, syntax/parser incl. error recovery and the command parser |
| Model/Frontend | syntax/mod.rs: lexing, parsing, errors of a source |
| Model/Program, Model/Scope, Model/Analyzer | semantic/program, semantic/scope.rs, semantic/mod.rs |
| Model/Value, Model/Heap | runtime/value (values, equality, hash, order, dict lookup), runtime/panic.rs |
| Model/World | what is not computed by the model; integer arithmetic |
| Model/Show | runtime/value/fmt.rs, with `escape_debug` of the standard library |
| Model/AstFmt | syntax/ast/fmt.rs (the text of syntax trees, `--ast`), without colours |
| Model/ProgramFmt | semantic/program/fmt.rs, semantic/program/mem/fmt.rs (the text of analysed programs, `--program`), without colours and without the first line (the path) |
| Model/Text | UTF-8: validity, replacement of invalid text, encoding; white space |
| Model/Json | runtime/lib/json.rs and the crate serde_json: writing and reading |
| Model/Lib | runtime/lib: assert, args, bind, bytes, contains, error, exit, has_error, hex, base64, int, is_empty, iter, len, panic, pop, push, range, replace, sort, split, substr, to_string, trim, type, typecheck, json; of env, export, cd, cwd, float, glob, rand, read, regex, sleep the checks of arguments |
| Model/Interp | runtime/mod.rs, runtime/mem.rs, runtime/flow.rs, runtime/command/mod.rs (`eval_command_block`), runtime/lib/{catch,bind,import}.rs, join |
| Model/Args, Model/Glob | runtime/command/arg.rs and the `build_*` functions of runtime/command/mod.rs; patterns of the crate glob |
| Model/Exec | runtime/command/exec: blocks, pipelines, redirections, capture, errors and statuses |
| Model/Handles | the same functions with the handles that the shell owns and closes (drop) |
| Model/Main | main.rs, args.rs: script selection, checks, exit code |
| Model/Report | syntax/error/fmt.rs, semantic/error/fmt.rs, syntax/lexer/error/fmt.rs, syntax/parser/error/fmt.rs, syntax/lexer/token/fmt.rs: reports of errors |
| Model/Launch | runtime/command/exec/mod.rs:292-301: the environment of a started process |
| Model/Environ | runtime/lib/env.rs:19-71, runtime/command/mod.rs:402: the environment variables of the shell (`set_var`, `var_os`) |
| Model/ModulePath | runtime/lib/import.rs:53-77: the path of an import (`PathBuf::pop`, `push`), with `canonicalize` an oracle |
| Model/Symbols | symbol/mod.rs, symbol/fmt.rs and the table of the crate intaglio |
| Model/Threads | runtime/command/mod.rs:121-142: the calls of the threads of asynchronous blocks and of the shell, in any interleaving |
| Model/PanicText | runtime/panic.rs (texts), main.rs:182-191: reports of panics |
| Model/Output | runtime/lib/print.rs, println.rs, read.rs: the standard output, with the `LineWriter` of the standard library |
| Model/Capture | runtime/command/mod.rs, runtime/command/exec/mod.rs: capture blocks and pipelines as concurrent processes with pipes of limited capacity (a transition system) |

Sources, from their bytes to the final state, can be evaluated in the kernel through `lex`, `parse`, `analyze` and `runProgram`; the
examples and witnesses do so (`decide +kernel` on a concrete program, never as the proof of a general statement).

## Not modelled

Terminal colours, GC internals, the native call stack (recursion deeper
than the host allows), real time, the threads of asynchronous commands (their result is an answer of the world; only the order of their calls is modelled, in Model/Threads), regular expressions,
floats as text, reading (answers of the world), argument
parsing by clap, interactive use, performance. In `Model/Exec`: the order in which a child is given its file descriptors within one
`Command::spawn`, and signals to the shell itself.

Simplifications of note: the entries of a dict are iterated in the order of insertion (the code: hash order); a module is read through
the world; the stack of variables has the bound that the world gives (`World.limit`); when a computation times out in a function body
the frame is not popped (there is no state "after" it); positions are lines and columns, without the path of the file.

## Findings

| property | violation |
|---|---|
| C02, C43 | `todo!()` in the lexer at `[` or `{` in an unquoted argument: `{ ls [ab]* }` kills the process, also with `--check` |
| C07 | `\|` directly after an unquoted word belongs to the word |
| C09 | a top-level `return` discards the statements before it (`Parser::parse` overwrites the block) |
| C13 | environment assignments of builtin commands are never analysed: `{ x=$y cd }` is accepted with `y` undeclared |
| C14 | nested dict literals share one set of keys, cleared by the inner literal: duplicates are missed and distinct keys rejected |
| C16 | `d[d] = 1` is a double borrow (Rust panic); so is sorting an array that contains itself. `std.export("", "x")`, `std.randint(1, 0)`, importing a file on which the lexer aborts, and with overflow checks `-x` for the least integer, `std.substr` with negative numbers and some ranges are Rust panics too; there is no other |
| C15, C17, C18 | a module that panics leaves its slots on the stack; when the panic is caught, the importer's variables are displaced |
| C19 | a call at the end of an `if` branch is not a tail call |
| C21 | unary minus of -2^63 wraps (release) or is a Rust panic (debug); -2^63 / -1 is reported as division by zero |
| C23, C24, C25, C58 | NaN is not equal to itself, yet less than itself and all floats, so keys and sorting break; 0.0 and -0.0 are equal but different keys; recursive functions compare without end |
| C23, C24 | functions from the same place of the source compare as equal in the order of values, whatever they captured; so the hash and the order of a dict that has such functions as keys depend on the order of its entries in memory, and equal dicts can be different keys |
| C68 | changing an array that is a key of a dict can give the dict two entries with equal keys |
| C25 | `d[d] = 1` is a Rust panic |
| C29 | `std.range` overflows after the last number when the limit is close to 2^63 |
| C31 | the argument `""` is dropped |
| C32 | an empty array inside a word contributes nothing instead of no word |
| C33 | an empty variable between two stars makes them the recursive wildcard `**` of the crate glob: with `x` empty, `*$x*/b` matches the file `b`, and `a*$x*` is an invalid pattern (a panic) instead of matching `ab` (src/runtime/command/arg.rs, `push_pattern`) |
| C34 | the number of items reported for a redirection target is one too small |
| C35, C36 | a command that cannot be started ends the block even if guarded by `?`, and the failures before it are forgotten |
| C70 | when a stage of a pipeline cannot be started, the stages after it, which are started first, are never waited for |
| C38 | the standard error of all but the last command of a captured pipeline is not captured |
| C40 | a here-string larger than the capacity of a pipe blocks the shell before the command is started |
| C44 | `std.substr` with a negative number is a Rust panic in builds with overflow checks |
| C57 | `std.substr` with two arguments of wrong types reports "3 arguments" for 3; `std.randint(1, "x")` reports the argument 1 |
| C48 | a module that imports itself (indirectly) is evaluated again |
| C62 | `std.int` of NaN is 0 |
| C63 | arrays nested 128 deep are encoded as JSON but not decoded; bytes come back as strings, NaN as nil, invalid UTF-8 as replacement characters |
| C66 | the text of -2^63, of strings with carriage returns or characters that are not printed, of dicts, bytes, NaN and small floats is no expression; a byte has the text of an integer |
| C67 | the printed tree of `let x = a` and `foo()?` is one call; inline blocks of several statements are separated by `;`; `if c then end` inline is written `thenend`; `(1).foo` becomes `1.foo`; `1.0` becomes `1`; arguments of commands are quoted |
| C69 | After a failed import that is caught, a variable of the script has the value of another one (the frame of the module is not removed, as C18): no execution by names of `let x = 5 std.catch(function() std.import("m") end) x` gives that value |
| C72 | missing identifiers after `let` are declared as variables: for `let 1 let 2` a duplicate variable is reported at 0:0, besides the syntax errors (`for` tests for this; the comment of `Analyzer::analyze` promises no errors for ill-formed parts) |
| C73 | with more than 20 errors the report says that 20 more were suppressed, whatever the number is; a malformed escape in a command argument is reported again for each character after it (`{ date \day }`: three errors) (src/syntax/error/fmt.rs:38, src/semantic/error/fmt.rs:87, src/syntax/lexer/automata/argument.rs:63-67) |
| C74 | malformed escapes (and identifiers in `${...}`) are printed raw in the report, with control characters and line ends; everything else is escaped (src/syntax/lexer/error/fmt.rs:17-31) |
| C75 | text printed by `std.print` without a line end appears after the output of following commands, and is lost if the shell is then replaced by `exec`: the buffer is not flushed (src/runtime/lib/print.rs:52, src/runtime/command/exec/mod.rs:215) |
| C77 | the report of a panic about an array that contains itself overflows the native stack, and the exit status is not 127 (src/runtime/value/fmt.rs:48-63, src/main.rs:187); bytes are written raw (src/runtime/value/fmt.rs:129); a pattern that is valid UTF-8 but refused, like `***`, is reported to have invalid UTF-8 (src/runtime/command/exec/mod.rs:97-99) |
| C78 | environment assignments before builtin commands are accepted and dropped: in `{ x=1 spawn0 a b }` the process does not get `x` (src/semantic/mod.rs:563-590) |
| C80 | `std.export("", "x")` aborts the interpreter (src/runtime/lib/env.rs:57; `std::env::set_var` is a Rust panic for the empty name) instead of giving an error value as for other names that are not allowed |
| C81 | a script started by a relative path (`hush dir/s.hsh`) that changes the directory imports files relative to the new directory: `resolve_path` (src/runtime/lib/import.rs:58-69) joins the path as given on the command line and `canonicalize` reads it from the current directory |
| C83 | `cd` in an asynchronous block changes the directory of the whole shell, at any time, and `cd` in the script that of its asynchronous blocks: the block is executed by a thread (src/runtime/command/mod.rs:126) and `set_current_dir` is for the process (src/runtime/command/exec/mod.rs:185) |
| C84 | `hush --program` writes `?` behind a built-in command that has none, and none behind one that has it (src/semantic/program/fmt.rs:592); a pattern and a quoted star have the same text; the float `1.0` has the text of the integer `1` |

Also seen, without a property of their own: `1e-5` is not a number for the lexer and -2^63 cannot be written; a first argument which is not a
file makes hush read the script from standard input; `alias` is `todo!()`; an unsupported redirection opens its target before it panics; `*$x*` with
 an empty `x` becomes the pattern `**`; the thread of an asynchronous block expands its patterns and starts its commands in the directory of the shell at that
moment, so a later `cd` of the script moves it; in `$k=v cmd` the value of `k` may contain `=`, and then the process sees another variable.

## How the proofs go

* C01, C02: a lexicographic measure (bytes left, rank of the state) decreases at every step of the automaton.
* C03-C07: induction on the text of the token; runs of the automaton are composed.
* C08-C10: a grammar (`Spec/Grammar`) with one rule per construct; every derivation is parsed to its tree, by induction on derivations; an
  independent printer with a precedence table; the budget of the parser suffices by a measure on the tokens.
* C11-C14: induction over syntax trees, with an invariant of the scope stack; `Spec/Binding` relates tree and program.
* C16-C18, C26, C42, C48-C51: invariants preserved by every action of the interpreter, closed by induction on the budget; `Performed` (the tasks
  performed in an execution) is defined by a probe that turns a task into a crash.
* C61-C63: byte-level characterisations of the library (`Spec/Trim`, `Spec/Numerals`, `Spec/Json`); UTF-8 decoding of encoded text is the identity;
  reading what was written by induction on the data.
* C64: `stack.length ≤ limit` is preserved by every action and holds at every performed task (`Lemmas/Bound`).
* C68: the same for the absence of repeated keys; tasks that collect the entries of a dict literal carry entries without repeated keys (`Lemmas/Unique`, `Lemmas/UniqueRun`).
* C16 (origin of Rust panics): every computation of the interpreter crashes only by itself, as listed in `Spec/Crash`, or because a task it starts crashes (`Tame`, `Lemmas/Crash`, `Lemmas/CrashRun`); induction on the budget.
* C66: every piece of the text is a token (as in C06), the tokens derive an expression (C08), whose evaluation builds the contents again (C22). C67: the same for
  statements and blocks; parentheses make every operation a primary expression.
* C65: the trace of the interpreter is replayed on the operating system (`Spec/Shell.history`); the theorems of C35-C38 apply to each block.
* C15: `Spec/Variables` is a second semantics of programs in which every variable is an object of its own and nothing is moved; the
  interpreter with its stack of slots is related to it by a simulation (`Lemmas/Var*`): a renaming of cells, and a window of slots that are
  variables of the running function. It assumes that answers of the world do not depend on the contents of captured variables
  (`Blind`; functions are printed by position only, runtime/value/fmt.rs:17-34). Variables belong to a call, not to a turn of a loop.
* C69: `Spec/Source` executes the syntax tree by names. It is a relation: addresses of new variables, stack overflow and the representation of functions in
  memory are left open. `Lemmas/SourceRun` (`run_ref`) proves that the semantics of C15 refines it, by induction on the budget, from the correctness of the
  translation (C11): the variable of the slot of a name is the variable of the name. The states are the same except that a function is its text with the
  variables visible at the literal. `lexical_only` derives all outcomes of one text, to show that the relation is not too wide.
* C19: the outcome of a chain of tail calls is that of the last call, by induction on the chain.
* C20: budget monotonicity of all actions. C21, C22, C25, C27-C29: equations of `Ends`, in both directions.
* C23, C24: `EquivOn`/order laws on values of bounded depth, by induction on the depth.
* C30-C34: the argument builder computes a product specification; escaped text is matched only by itself.
* C35-C41: the executor is related to a specification on the trace of calls; invariants on pipes and open ends.
* C70: induction over the commands of a block, with every way of stopping (`Spec/Reaping`).
* C71: `Model/Handles` erases to `Model/Exec` (`Lemmas/Handles`); each part of it takes over some handles and leaves some to its caller (`Keeps`), with rules
  for sequence, early return and unused handles (`Lemmas/HandlesHeld`).
* C72: an invariant of the lexer on stored positions (`Lemmas/LexPlaces`), one pass over the parser including error recovery
  (`Lemmas/PlacesParse`), over the analyser (`Lemmas/Places`), over the interpreter (`Lemmas/PlacesEval`, `PlacesRun`: closures and commands hold positions of texts
  loaded before), and over the executor of commands (`Lemmas/PlacesExec`).
* C73: the pass over the parser of C72 is generic in what is kept of the state (`Walk`); here it keeps that errors are at increasing indices of tokens
  (`Lemmas/ErrorOrder`). For the lexer, positions kept for later errors are not before errors already reported (`Lemmas/LexOrder`).
* C74: `escape_debug` gives printable text, and so all texts of tokens (`Lemmas/Reports`); malformed numbers are digits by an invariant of the lexer, and lossy conversion keeps control characters (`Lemmas/LexDigits`).
* C75: what is written, followed by what is in the buffer, is the sequential output as long as commands only write when the buffer is empty; the buffer ends like the printed text and never with a line end (`Lemmas/Output`).
* C76: a number that decreases with every step; the last process that has not exited can go on, or waits for one before it, by induction (`Lemmas/Capture`). The order of what is sent through a pipe: what was received, followed by what is in the pipe, is what was sent.
* C77: a value has a text exactly if it is not part of itself, by induction both ways; no beginning of a message is a prefix of another (`Lemmas/PanicText`).
* C78, C79: a predicate of all programs started by a computation, with the calls before, composed along the code for every result (`Lemmas/Launch`).
* C80: every computation of the interpreter only adds events, and of `std.export` only accepted ones (`Lemmas/Trace`, for any predicate of events); the variables are a fold over them; the programs started by a block come from C78.
* C81: `popPath`/`pushPath` against the ways to write a path; the files of a state are absolute but for the first one in every state reached (`Lemmas/Files`: two ways to perform tasks that agree where the files are such agree altogether, applied to the probe of `Starts`).
* C82: the map is the inverse of the list of texts (invariant); a simulation between sessions with symbols and with texts, for any code as a strategy.
* C83: a fold over an interleaving is the fold over one thread if the others contribute nothing; that blocks without `cd` contribute nothing is C79.
* C84: a reader of the texts (mutual recursion with `partial_fixpoint`, in Lemmas/ProgramRead) undoes the printing, by mutual induction over programs; conversely the text does not see positions. No panic: from the frames of C11.
* C85: every step of the analyser commutes with the renaming of its state; names of captures (`x@closed`) are renamed with `x`, and `@` keeps them apart (`Lemmas/Rename`).
* C86: two runs of the analyser are followed together; a joint state has both names of every variable and of every capture, and names that mean the same declaration form a partial bijection (`Lemmas/Alpha`).
* C87: every function of the parser and of the analyser commutes with a change of positions (`Lemmas/MoveParse`, `Lemmas/MoveAnalyze`); two texts with the same tokens have the same tokens after all positions are replaced by one (`Spec/Layout`: `flat`).
* C88: by induction on trees (`Lemmas/MoveText`), and C87.
* C89: by cases of the collection; by induction on the string for the encodings and on the entries for dicts.
* C90: an invariant of the interpreter, proved for every task and library function (`Lemmas/Spent.lean`).
* C57: a table of signatures; one lemma per library function.
* C43-C47, C51-C56: decision logic and induction on strings.

## Theorems and their axioms

P = `propext`, C = `Classical.choice`, Q = `Quot.sound`; all theorems are in `Hush.Props`. Notes on what is missing in partial properties are in MANIFEST.json.

| property | status | theorems (axioms) |
|---|---|---|
| C01 | proved | `lexer_terminates` (PCQ), `lexer_positions` (PCQ), `lexer_in_bounds` (PCQ) |
| C02 | partial | `lexer_never_aborts_violated` (PCQ), `lexer_never_aborts_partial` (PCQ), `lexer_accepts_written_partial` (PCQ) |
| C03 | proved | `string_literal_roundtrip` (PCQ), `string_literal_roundtrip'` (PCQ) |
| C04 | proved | `int_literal_exact` (PCQ) |
| C05 | proved | `layout_irrelevant` (PCQ), `filler_insertion` (PCQ) |
| C06 | proved | `single_quoted_literal` (PCQ) |
| C07 | partial | `pipe_separates_violated` (PCQ), `pipe_separates_partial` (PCQ) |
| C08 | proved | `expression_roundtrip` (PCQ), `grammar_accepted` (PCQ), `grammar_unambiguous` (PCQ) |
| C09 | partial | `statements_kept_violated` (PCQ), `statements_kept_partial` (PCQ), `statements_kept_without_return` (PCQ) |
| C10 | proved | `parser_terminates` (PCQ), `parser_in_order` (PCQ) |
| C11 | proved | `slots_in_frame` (PCQ), `slots_of_declarations` (PCQ), `source_slots` (PCQ) |
| C12 | proved | `control_flow_placed` (PCQ), `placement_reports` (PCQ), `proper_placement_not_reported` (PCQ), `source_is_written` (PCQ), `accepted_source` (PCQ), `analysis_total` (PCQ), `rejected_has_error` (PCQ) |
| C13 | partial | `undeclared_rejected_violated` (PCQ), `undeclared_rejected_partial` (PCQ), `scope_reports` (PCQ), `accepted_iff_rules` (PCQ) |
| C14 | partial | `duplicate_keys_violated` (P), `duplicate_keys_rejected_partial` (PCQ), `duplicate_keys_reports_partial` (PCQ) |
| C15 | partial | `variables_partial` (PCQ), `captured_shared` (P), `failed_import_violated` (PCQ) |
| C16 | partial | `no_internal_crash_partial` (PCQ), `crash_origin_partial` (PCQ), `task_crash_origin_partial` (PCQ), `no_arith_crash` (PCQ), `crash_witnesses` (PCQ), `no_crash_violated` (PCQ) |
| C17 | partial | `calls_balanced_partial` (PCQ), `calls_balanced_violated` (PCQ) |
| C18 | partial | `failed_import_violated` (PCQ), `calls_balanced_partial` (PCQ) |
| C19 | partial | `tail_calls_partial` (PCQ), `countdown_total` (PCQ), `tail_calls_violated` (PCQ) |
| C20 | proved | `budget_irrelevant` (PCQ), `program_deterministic` (PCQ) |
| C21 | partial | `integers_exact` (PCQ), `negate_exact_partial` (PCQ), `negate_violated` (PCQ) |
| C22 | proved | `short_circuit` (PCQ), `operands_in_order` (PCQ), `items_in_order` (PCQ), `arguments_in_order` (PCQ) |
| C23 | partial | `equality_equivalence_partial` (PCQ), `equality_contents_partial` (PCQ), `equal_contents` (PCQ), `equal_same_key_partial` (PCQ), `equal_self_violated` (P), `recursive_function_violated` (PCQ), `equal_same_key_violated` (P), `equal_dicts_violated` (PQ) |
| C24 | partial | `sort_sorts_partial` (PCQ), `order_total_partial` (PCQ), `order_usual` (PQ), `order_contents_partial` (PCQ), `order_functions` (PQ), `order_equal_partial` (PCQ), `order_dicts_partial` (PCQ), `order_equal_violated` (P), `order_violated` (P) |
| C25 | partial | `array_read` (PCQ), `array_write` (PCQ), `string_read` (PCQ), `read_element_types` (PCQ), `write_element_types` (PCQ), `dict_read_partial` (PCQ), `dict_write_partial` (PCQ), `dict_read_key_partial` (PCQ), `dict_write_key_partial` (PCQ), `nan_key_violated` (PCQ), `dict_own_key_violated` (PCQ) |
| C26 | proved | `errors_immutable` (PCQ), `assign_readonly` (PCQ) |
| C27 | proved | `catch_result` (PCQ), `catch_never_panics` (PCQ) |
| C28 | proved | `try_value` (PCQ), `try_returns` (PCQ), `try_result` (PCQ), `panic_passes` (PCQ) |
| C29 | partial | `for_array` (PCQ), `for_string` (PCQ), `for_dict` (PCQ), `for_range_partial` (PCQ), `array_elements` (PCQ), `string_elements` (PCQ), `range_elements` (PCQ), `dict_elements` (PCQ), `dict_entry` (PCQ), `range_violated` (PCQ) |
| C30 | proved | `scalar_variable_as_literal` (PCQ), `scalar_variable_one_argument` (PCQ), `scalar_variable_in_product` (PCQ) |
| C31 | partial | `empty_string_argument_violated` (PCQ), `quoted_argument_partial` (PCQ), `empty_text_disappears` (PCQ) |
| C32 | partial | `expansion_product_violated` (PCQ), `expansion_product_partial` (PCQ), `expansion_count_partial` (PCQ), `expansion_has_alternatives` (PCQ), `combos_are_choices` (PQ), `combos_distinct` (PQ) |
| C33 | partial | `glob_text_literal_partial` (PQ), `glob_only_literal_partial` (PQ), `glob_variable_literal_partial` (PCQ), `glob_text_literal_violated` (PCQ) |
| C34 | partial | `arity_count_violated` (PCQ), `arity_count_partial` (PCQ), `arity_zero_partial` (PCQ) |
| C35 | partial | `block_in_sequence_partial` (PCQ), `block_nil_partial` (PCQ), `block_outcome` (PCQ), `guarded_start_violated` (PCQ) |
| C36 | partial | `failures_reported_partial` (PCQ), `failures_captured_partial` (PCQ), `block_outcome` (PCQ), `failures_lost_violated` (PCQ) |
| C37 | proved | `pipeline_connects` (PCQ), `neighbours_connected` (PCQ) |
| C38 | partial | `last_stage_captured_partial` (PCQ), `stage_stderr_violated` (PCQ) |
| C39 | proved | `redirections_in_order` (PCQ), `last_redirection_fd` (PCQ), `last_redirection_file` (PCQ) |
| C40 | partial | `here_string_partial` (PCQ), `here_string_violated` (PCQ) |
| C41 | proved | `success_iff` (PCQ), `codes_distinct` (PCQ), `signals_distinct` (PCQ) |
| C42 | proved | `async_started` (PCQ), `join_returns` (PCQ), `join_panics` (PCQ), `join_once` (PCQ), `joined_once` (PCQ) |
| C43 | partial | `executed_iff_checked` (PCQ), `exit_code_partial` (PCQ), `exit_code_violated` (PCQ) |
| C44 | partial | `split_parts` (PCQ), `substr_partial` (PCQ), `substr_violated` (PCQ) |
| C45 | proved | `int_roundtrip` (PCQ) |
| C46 | proved | `encodings_roundtrip` (PCQ) |
| C47 | proved | `type_names` (PCQ), `typecheck_decides` (PCQ) |
| C48 | partial | `evaluated_once_partial` (PCQ), `import_returns` (PCQ), `evaluated_once_violated` (PCQ) |
| C49 | proved | `unreferenced_unchanged` (PCQ) |
| C50 | proved | `no_dangling_init` (PCQ), `no_dangling` (PCQ), `program_no_dangling` (PCQ) |
| C51 | proved | `parseArgs_script` (PCQ), `script_unique` (PCQ), `executed_iff_checked` (PCQ), `script_arguments` (PCQ), `same_arguments` (PCQ) |
| C52 | proved | `replace_all` (PCQ), `split_parts` (PCQ) |
| C53 | proved | `push_pop` (PCQ) |
| C54 | proved | `contains_decides` (PCQ) |
| C55 | proved | `has_error_decides` (PCQ) |
| C56 | proved | `typecheck_decides` (PCQ) |
| C57 | partial | `library_arity` (PCQ), `library_types_partial` (PCQ), `library_accepts_partial` (PCQ), `contains_types` (PCQ), `read_types` (PCQ), `substr_types_violated` (PCQ), `randint_types_violated` (PCQ) |
| C58 | partial | `operand_types` (PCQ), `comparisons_decide` (PCQ), `equality_decides_partial` (PCQ), `concat_joins` (PCQ), `unary_types` (PCQ), `comparison_nan_violated` (PCQ) |
| C59 | proved | `if_branches` (PCQ), `while_loops` (PCQ), `block_sequence` (PCQ), `while_exit` (PCQ) |
| C60 | proved | `call_rule` (PCQ), `parameters_bound` (PCQ) |
| C61 | proved | `trim_trims` (PCQ), `trim_idempotent` (PCQ) |
| C62 | partial | `int_of_text` (PCQ), `int_of_float_partial` (PCQ), `int_of_nan_violated` (PCQ) |
| C63 | partial | `json_roundtrip_partial` (PCQ), `json_depth_violated` (PCQ), `json_kinds_violated` (PCQ), `encode_refuses` (PCQ), `decode_never_panics` (PCQ) |
| C64 | proved | `stack_bounded` (PCQ), `overflow_reported` (PCQ) |
| C65 | partial | `script_block_partial` (PCQ), `script_capture_partial` (PCQ), `script_block_outcome` (PCQ), `script_capture_outcome` (PCQ), `script_arguments_first` (PCQ), `script_history` (PCQ) |
| C66 | partial | `text_reads_back_partial` (PCQ), `text_distinguishes_partial` (PCQ), `text_of_string` (PCQ), `text_least_violated` (PCQ), `text_return_violated` (PCQ), `text_record_violated` (PCQ), `text_byte_violated` (PCQ), `text_float_violated` (PCQ) |
| C67 | partial | `ast_reads_back_partial` (PCQ), `ast_text_stable` (PCQ), `ast_text_determines` (PCQ), `ast_call_violated` (PCQ), `ast_semicolon_violated` (PCQ), `ast_thenend_violated` (PCQ), `ast_field_violated` (PCQ), `ast_escape_violated` (PCQ), `ast_command_violated` (PCQ), `ast_float_violated` (PCQ) |
| C68 | proved | `unique_keys` (PCQ), `unique_distinct` (PCQ), `block_value_distinct` (PCQ), `unique_keys_violated` (PCQ) |
| C69 | partial | `source_semantics_partial` (PCQ), `source_semantics_violated` (PCQ), `lexical_only` (PCQ), `caught_only` (PCQ) |
| C70 | partial | `reaped_partial` (PCQ), `reaped_without_pipelines` (PCQ), `reaped_all_ok` (PCQ), `started_before_waiting` (PCQ), `script_waits` (PCQ), `script_reaped` (PCQ), `reaped_violated` (PCQ) |
| C71 | proved | `handles_same_calls` (PCQ), `handles_released` (PCQ), `handles_closed_once` (PCQ), `handles_while_waiting` (PCQ), `nothing_held_while_waiting` (PCQ), `one_writer` (PCQ), `captured_after_closing` (PCQ) |
| C72 | partial | `lexical_errors_placed` (PCQ), `marks_in_text` (PCQ), `syntax_errors_placed` (PCQ), `semantic_errors_placed_partial` (PCQ), `panics_placed` (PCQ), `commands_placed` (PCQ), `failures_placed` (PCQ), `block_panics_placed` (PCQ), `semantic_errors_placed_violated` (PCQ) |
| C73 | partial | `lexical_errors_in_order` (PCQ), `syntax_errors_in_order` (PCQ), `errors_reported_partial` (PCQ), `left_out_violated` (PCQ), `reported_once_violated` (PCQ), `rejected_iff_reported` (PCQ), `reported_exit_status` (PCQ), `place_readable` (PCQ) |
| C74 | partial | `reports_printable_partial` (PCQ), `printable_violated` (PCQ), `printable_identifier_violated` (PCQ) |
| C75 | partial | `printed_complete` (PCQ), `output_in_order_partial` (PQ), `lines_in_order` (PCQ), `printed_text` (PCQ), `output_in_order_violated` (PCQ), `printed_lost_violated` (PCQ) |
| C76 | proved | `capture_no_deadlock` (PCQ), `capture_ends` (PCQ), `capture_finishes` (PCQ), `capture_complete` (PCQ), `pipeline_in_order` (PCQ), `pipeline_all_received` (PCQ) |
| C77 | partial | `panic_reported_partial` (PCQ), `panic_overflows_iff` (PCQ), `panic_readable` (PCQ), `panic_arguments_readable` (PCQ), `panic_printable_partial` (PCQ), `panic_reported_violated` (PCQ), `panic_printable_violated` (PCQ), `panic_cause_violated` (PCQ) |
| C78 | partial | `programs_as_written` (PCQ), `process_texts_partial` (PCQ), `variables_inherited` (PCQ), `last_assignment` (PCQ), `assignments_dropped_violated` (PCQ) |
| C79 | proved | `programs_in_directory` (PCQ), `directory_after` (PCQ), `directory_kept` (PCQ), `failed_cd_ends` (PCQ) |
| C80 | partial | `variables_changed_by_export` (PCQ), `export_sets` (PCQ), `env_reads` (PCQ), `export_refuses_partial` (PCQ), `exports_reach_programs_partial` (PCQ), `home_exported` (PCQ), `export_empty_violated` (PCQ) |
| C81 | partial | `import_path` (PCQ), `import_file` (PCQ), `modules_absolute` (PCQ), `import_fixed_partial` (PCQ), `import_moves_violated` (PCQ) |
| C82 | proved | `symbols_are_texts` (PCQ), `intern_resolves` (PCQ) |
| C83 | partial | `own_directory_partial` (PCQ), `async_directory_violated` (PCQ) |
| C84 | partial | `program_text_determines_partial` (PCQ), `program_text_reads_back` (PCQ), `program_text_never_aborts` (PCQ), `program_text_pattern_violated` (PCQ), `program_text_mark_violated` (PCQ), `program_text_float_violated` (PCQ) |
| C85 | proved | `renaming_same_program` (PCQ), `renaming_names` (P), `renaming_swap` (PCQ) |
| C86 | proved | `alpha_same_program` (PCQ), `alpha_names` (P) |
| C87 | proved | `layout_parse` (PCQ), `layout_analysis` (PQ), `layout_same_program` (PCQ), `layout_written` (PCQ), `filler_same_program` (PCQ), `layout_check` (PCQ) |
| C88 | proved | `ast_text_places` (PCQ), `program_text_places` (PCQ), `layout_dumps` (PCQ), `written_dumps` (PCQ) |
| C89 | proved | `length_counts` (PCQ), `empty_without_elements` (PCQ), `bytes_of_string` (PCQ), `hex_length` (PCQ), `base64_length` (PCQ), `dict_grows` (PCQ) |
| C90 | proved | `spent_stays` (PCQ), `finished_forever` (PCQ), `spent_loop` (PCQ), `array_iterator_resumes` (PCQ) |
