{"id": "C01", "title": "The lexer always finishes and only moves forward", "statement": "Lexing any byte sequence ends after finitely many tokens and errors; each produced token starts strictly after the previous one and inside the input, and lexing never reads past the end of the input.", "quantifier": "every byte string used as source code", "why_tests_cant": "the set of inputs is infinite and the lexer has a rollback transition, so a loop could hide behind any particular prefix", "anchors": ["src/syntax/lexer/automata/mod.rs Automata::next", "src/syntax/lexer/automata/expansion.rs Expansion::visit", "src/syntax/lexer/cursor.rs Cursor::step"]}
{"id": "C02", "title": "The lexer never aborts the interpreter", "statement": "No source text makes the lexer abort the process: every input yields tokens and lexical errors only.", "quantifier": "every byte string used as source code", "why_tests_cant": "an aborting input may be any member of an infinite set", "anchors": ["src/syntax/lexer/automata/expansion.rs Expansion::visit", "src/syntax/lexer/automata/symbol.rs Symbol::visit"]}
{"id": "C03", "title": "String literals denote exactly the bytes that were quoted", "statement": "For every byte string s, writing s between double quotes with quote, backslash, newline, tab and NUL escaped is lexed as exactly one string literal whose value is s, and lexing resumes right after the closing quote.", "quantifier": "every byte string s and every following source text", "why_tests_cant": "there are infinitely many strings; round trips must hold for each, including invalid UTF-8", "anchors": ["src/syntax/lexer/automata/string.rs StringLiteral::visit", "src/syntax/lexer/automata/string.rs validate_escape"]}
{"id": "C04", "title": "Integer literals are exact or rejected", "statement": "A run of decimal digits is lexed to the integer it denotes when that integer fits in 64 signed bits, and to a lexical error otherwise; it is never truncated or wrapped.", "quantifier": "every non-empty digit string of any length and every following non-digit text", "why_tests_cant": "overflow is a boundary in an unbounded space of digit strings", "anchors": ["src/syntax/lexer/automata/number.rs NumberLiteral::visit", "src/syntax/lexer/automata/number.rs NumberLiteral::parse"]}
{"id": "C05", "title": "Comments and whitespace do not change the program", "statement": "Inserting whitespace, or a comment running to the end of its line, between two tokens of ordinary (non-command) code leaves the sequence of token kinds unchanged, whatever the comment contains.", "quantifier": "every comment text without newline, every whitespace run and every following source text", "why_tests_cant": "comment contents are arbitrary bytes, including quotes, braces and keywords", "anchors": ["src/syntax/lexer/automata/comment.rs Comment::visit", "src/syntax/lexer/automata/root.rs Root::visit"]}
{"id": "C06", "title": "Single-quoted command arguments are literal", "statement": "Inside a command block, any byte string written in single quotes (with quote, backslash and control characters escaped) is lexed as one literal piece equal to that byte string: no variable, glob, home, comment, pipe or separator is recognised inside.", "quantifier": "every byte string and every following source text", "why_tests_cant": "the claim is about absence of special treatment for all bytes in all positions", "anchors": ["src/syntax/lexer/automata/argument.rs SingleQuoted", "src/syntax/lexer/automata/argument.rs Word::visit"]}
{"id": "C07", "title": "A pipe character separates commands", "statement": "In a command block an unquoted, unescaped '|' separates two commands of a pipeline wherever it occurs, with or without surrounding whitespace.", "quantifier": "every pair of command texts around the pipe", "why_tests_cant": "the tests only write pipes surrounded by spaces", "anchors": ["src/syntax/lexer/automata/argument.rs Argument::is_word", "src/syntax/lexer/automata/symbol.rs CommandSymbolChar::from_first"]}
{"id": "C08", "title": "Operator precedence and associativity", "statement": "Every expression tree over the operators, written out with parentheses wherever the documented precedence (or < and < == < relational < ++ < additive < multiplicative < prefix < postfix) and left associativity need them, is parsed back to the same tree.", "quantifier": "every expression tree over literals, identifiers, unary and binary operators, calls and accesses", "why_tests_cant": "trees are unbounded; a table mistake can show only in a particular nesting", "anchors": ["src/syntax/parser/mod.rs Parser::parse_expression", "src/syntax/parser/mod.rs Parser::parse_binop", "src/syntax/parser/mod.rs Parser::parse_postfix"]}
{"id": "C09", "title": "Accepted source keeps all of its statements", "statement": "When a source file is parsed without a syntax error, the program contains every top-level statement of the source, in source order; nothing is dropped.", "quantifier": "every token sequence that is accepted without errors", "why_tests_cant": "dropping can depend on an arbitrary position of a statement in an arbitrary program", "anchors": ["src/syntax/parser/mod.rs Parser::parse", "src/syntax/parser/mod.rs Parser::parse_block"]}
{"id": "C10", "title": "The parser always finishes", "statement": "Parsing any token sequence terminates, whatever errors it contains, and only ever consumes tokens in order.", "quantifier": "every finite token sequence", "why_tests_cant": "error recovery can loop on inputs no test contains", "anchors": ["src/syntax/parser/mod.rs Parser::parse", "src/syntax/parser/sync.rs Strategy::synchronized"]}
{"id": "C11", "title": "Accepted programs only touch variables of their own frame", "statement": "When a program passes static analysis, every variable access in it refers to a storage slot that exists in the frame of the function (or module) executing it, and parameters are exactly the first slots in order.", "quantifier": "every syntax tree accepted by the analyser", "why_tests_cant": "programs are unbounded nestings of scopes and closures", "anchors": ["src/semantic/mod.rs Analyzer::analyze", "src/semantic/scope.rs Stack::resolve", "src/semantic/scope.rs Frame::declare"]}
{"id": "C12", "title": "Misplaced control flow is rejected statically", "statement": "A program is accepted only if every break is inside a loop of the same function, and every return, try operator and self is inside a function; conversely such placements are never reported.", "quantifier": "every syntax tree", "why_tests_cant": "placement must hold for every nesting of functions, loops, conditionals and expressions", "anchors": ["src/semantic/mod.rs Analyzer::analyze_statement", "src/semantic/mod.rs Analyzer::analyze_expr"]}
{"id": "C13", "title": "Undeclared and duplicate variables are rejected", "statement": "A program is accepted only if each variable reference is in the scope of a declaration of that name, and no scope declares the same name twice.", "quantifier": "every syntax tree accepted by the analyser", "why_tests_cant": "scoping is a property of all nestings", "anchors": ["src/semantic/scope.rs Stack::resolve", "src/semantic/scope.rs Scope::declare"]}
{"id": "C14", "title": "Duplicate keys in dictionary literals", "statement": "A dictionary literal is reported as having a duplicate key exactly when two of its own keys are equal, regardless of what its values contain.", "quantifier": "every dictionary literal, including nested ones", "why_tests_cant": "the only test is one flat literal", "anchors": ["src/semantic/mod.rs Analyzer::analyze_literal"]}
{"id": "C15", "title": "Variables are lexically scoped and captured by reference", "statement": "Running an accepted program accesses, at every variable occurrence, the variable introduced by the innermost enclosing declaration of that name; a closure and its enclosing function share the variable, so a write by either is seen by the other.", "quantifier": "every accepted program and every execution of it", "why_tests_cant": "depends on all interleavings of calls, captures and writes", "anchors": ["src/semantic/scope.rs Stack::resolve", "src/runtime/mem.rs Stack::capture", "src/runtime/mod.rs Runtime::call"]}
{"id": "C16", "title": "Accepted programs never crash the interpreter core", "statement": "Evaluating an accepted program ends in a value or in a language-level panic, or keeps running; it never reaches an internal assertion (invalid control flow, missing variable slot).", "quantifier": "every accepted program, every behaviour of the library functions and commands it calls, and every number of execution steps", "why_tests_cant": "executions are unbounded", "anchors": ["src/runtime/mod.rs Runtime::eval", "src/runtime/mod.rs Runtime::call", "src/runtime/mem.rs Stack::fetch"]}
{"id": "C17", "title": "Calls are balanced", "statement": "After any function call, whether it returned or panicked, the variable stack has the same height as before the call, all variables of the caller's frames are intact except for assignments made through captured variables, and no pending call arguments are left behind once the panic is caught.", "quantifier": "every call made in every execution, including panics at any point caught by std.catch", "why_tests_cant": "panics may occur at any point of any nested evaluation", "anchors": ["src/runtime/mod.rs Runtime::call", "src/runtime/mem.rs Stack::shrink", "src/runtime/lib/catch.rs"]}
{"id": "C18", "title": "A failed import leaves the importer's variables intact", "statement": "If importing a module panics and the panic is caught, the variables of the importing code keep their values.", "quantifier": "every importing program and every module that panics", "why_tests_cant": "requires a panic at an arbitrary point of an arbitrary module", "anchors": ["src/runtime/mod.rs Runtime::eval", "src/runtime/lib/import.rs"]}
{"id": "C19", "title": "Tail calls run in constant variable-stack space", "statement": "A call in tail position reuses the caller's frame: a function that keeps calling in tail position never overflows the language stack, for any number of iterations.", "quantifier": "every number of iterations and every stack limit that admits one activation", "why_tests_cant": "no finite iteration count shows the absence of growth", "anchors": ["src/runtime/mod.rs Runtime::eval_tail_expr", "src/runtime/mod.rs Runtime::call"]}
{"id": "C20", "title": "Evaluation does not depend on the step budget", "statement": "An evaluation that finishes has one result: running the same program from the same state with more time gives the same value, panic, output and final state.", "quantifier": "every program, state and pair of step budgets", "why_tests_cant": "determinism over all programs", "anchors": ["src/runtime/mod.rs Runtime::eval_tail_expr", "src/runtime/mod.rs Runtime::eval_tail_statement"]}
{"id": "C21", "title": "Integer arithmetic never wraps", "statement": "+, -, *, / and % on integers produce the mathematically exact 64-bit result or a panic (overflow, division by zero); unary minus likewise.", "quantifier": "every pair of 64-bit integers", "why_tests_cant": "2^128 pairs; overflow boundaries", "anchors": ["src/runtime/mod.rs Runtime::arithmetic_op", "src/runtime/mod.rs Runtime::unary_op"]}
{"id": "C22", "title": "Logical operators short-circuit and evaluation is left to right", "statement": "`a and b` evaluates b only if a is true, `a or b` only if a is false; operands, call arguments and array items are evaluated left to right; a non-boolean operand is a panic.", "quantifier": "all operand expressions and all states", "why_tests_cant": "requires all sub-expressions with all side effects", "anchors": ["src/runtime/mod.rs Runtime::binary_op", "src/runtime/mod.rs Runtime::eval_tail_expr"]}
{"id": "C23", "title": "Value equality is an equivalence and agrees with dictionary lookup", "statement": "== is reflexive, symmetric and transitive on values, and equal values are the same dictionary key.", "quantifier": "all pairs and triples of values", "why_tests_cant": "values are unbounded trees over floats, functions and containers", "anchors": ["src/runtime/value/float.rs", "src/runtime/value/function.rs", "src/runtime/value/mod.rs Value"]}
{"id": "C24", "title": "Sorting sorts", "statement": "std.sort leaves an array that is a permutation of the original and ordered: no later element is less than an earlier one; elements that compare equal keep their order.", "quantifier": "every array of values", "why_tests_cant": "requires the order to be total on all values", "anchors": ["src/runtime/lib/sort.rs", "src/runtime/value/float.rs Ord"]}
{"id": "C25", "title": "Array and dictionary element access", "statement": "Reading an element right after writing it yields the written value, other elements are unaffected, and indexing outside 0..len (including negative) is a panic and changes nothing.", "quantifier": "every array or dictionary, index and value", "why_tests_cant": "all containers and indices", "anchors": ["src/runtime/value/array.rs", "src/runtime/value/dict.rs", "src/runtime/mod.rs Runtime::eval_tail_statement"]}
{"id": "C26", "title": "Strings and errors' descriptions are immutable", "statement": "No statement changes the contents of an existing string, or the fields of an existing error: assigning to an element of a string or to a field of an error is a panic that leaves it unchanged.", "quantifier": "every assignment statement in every state", "why_tests_cant": "all executions", "anchors": ["src/runtime/mod.rs Runtime::eval_tail_statement", "src/runtime/value/error.rs"]}
{"id": "C27", "title": "Caught panics become error values and nothing else", "statement": "std.catch(f) returns f's result when f returns, and an error value when f panics; it never panics itself for a function of no parameters, and effects f made before the panic are kept.", "quantifier": "every function and every execution of it", "why_tests_cant": "panics at any point", "anchors": ["src/runtime/lib/catch.rs"]}
{"id": "C28", "title": "The try operator propagates exactly errors", "statement": "`e?` yields the value of e when it is not an error; when it is an error, the enclosing function returns that same error at once, evaluating nothing else.", "quantifier": "every expression, context and state", "why_tests_cant": "all contexts", "anchors": ["src/runtime/mod.rs Runtime::eval_tail_expr"]}
{"id": "C29", "title": "For loops visit every element once, in order", "statement": "A for loop over std.iter(array) (or string) executes its body once for each element in index order when the body does not resize the array, and a for loop over std.range(a,b,s) runs for exactly a, a+s, a+2s, ... below (or above) b.", "quantifier": "every array, every range of integers and every loop body", "why_tests_cant": "lengths are unbounded", "anchors": ["src/runtime/lib/iter.rs", "src/runtime/lib/range.rs", "src/runtime/mod.rs Runtime::eval_tail_statement"]}
{"id": "C30", "title": "A string variable is one argument", "statement": "In a command, $x where x holds a string (or number, bool, byte) contributes exactly its bytes to exactly one argument: it is never split into words and its bytes are never treated as glob characters, wherever it occurs in the argument.", "quantifier": "every string value and every surrounding argument text", "why_tests_cant": "injection safety is a claim about all strings", "anchors": ["src/runtime/command/mod.rs Runtime::build_argument", "src/runtime/command/arg.rs Args"]}
{"id": "C31", "title": "Quoted empty strings are arguments", "statement": "Writing \"\" or '' as a command argument passes one empty argument to the program.", "quantifier": "every command and argument position", "why_tests_cant": "the behaviour results from the composition of lexer, parser and expansion", "anchors": ["src/syntax/parser/command.rs Parser::build_arg", "src/runtime/command/mod.rs Runtime::build_argument"]}
{"id": "C32", "title": "Argument expansion is the cartesian product", "statement": "An argument made of several pieces expands to every combination of one alternative per piece, each exactly once, where an array contributes one alternative per element; the number of arguments is the product of the numbers of alternatives.", "quantifier": "every sequence of pieces", "why_tests_cant": "unbounded numbers of pieces and elements", "anchors": ["src/runtime/command/arg.rs Args::push_literals", "src/runtime/command/arg.rs Args::push_literal"]}
{"id": "C33", "title": "Literal text next to a glob stays literal", "statement": "When an argument mixes literal text or variables with glob characters, a file name matches only if the literal parts match byte for byte: glob metacharacters coming from literals or variables match only themselves.", "quantifier": "every literal/variable contents and every file name", "why_tests_cant": "all strings including ones made of metacharacters", "anchors": ["src/runtime/command/arg.rs Args::pattern_escape", "src/runtime/command/arg.rs Args::push_pattern"]}
{"id": "C34", "title": "Arity errors report the right count", "statement": "When a program name, environment value or redirection target expands to a number of items other than one, the reported panic states that number of items.", "quantifier": "every argument and every expansion size", "why_tests_cant": "all sizes", "anchors": ["src/runtime/command/mod.rs Runtime::build_single_argument"]}
{"id": "C35", "title": "Command blocks run in order and stop at the first unguarded failure", "statement": "The commands of a block run one after the other in source order; a failing command without ? ends the block and one with ? does not; the block's value is nil exactly when every command that ran succeeded.", "quantifier": "every block and every combination of exit statuses", "why_tests_cant": "unbounded blocks and statuses", "anchors": ["src/runtime/command/exec/mod.rs Block::_exec", "src/runtime/command/exec/mod.rs Command::exec"]}
{"id": "C36", "title": "All failures of a block are reported", "statement": "The error value of a block contains the failure of every command that failed before the block ended, in order.", "quantifier": "every block, every combination of exit statuses and failures to start", "why_tests_cant": "mixes of failures in any position", "anchors": ["src/runtime/command/exec/mod.rs Block::exec"]}
{"id": "C37", "title": "Pipelines connect neighbours", "statement": "In a pipeline of n commands, the standard output of each command is the standard input of the next; the first reads the shell's input and the last writes to the block's output.", "quantifier": "every pipeline length", "why_tests_cant": "any number of stages", "anchors": ["src/runtime/command/exec/mod.rs Command::exec"]}
{"id": "C38", "title": "Capture blocks collect the error output of every command", "statement": "A capture block's stderr field contains what every command of the block without its own redirection wrote to standard error.", "quantifier": "every block of pipelines", "why_tests_cant": "depends on the position in a pipeline", "anchors": ["src/runtime/command/exec/mod.rs Command::exec", "src/runtime/command/mod.rs Runtime::eval_command_block"]}
{"id": "C39", "title": "Redirections apply left to right", "statement": "Each redirection acts on the descriptors as left by the previous ones: after n>m descriptor n denotes what m denoted at that point; redirecting to a file affects only the named descriptor.", "quantifier": "every list of redirections", "why_tests_cant": "all orders and combinations", "anchors": ["src/runtime/command/exec/mod.rs BasicCommand::spawn", "src/runtime/command/exec/mod.rs BasicCommand::resolve_target"]}
{"id": "C40", "title": "Here-strings are delivered whole", "statement": "A command with << text starts and reads exactly the text followed by a newline, for text of any length.", "quantifier": "every text length", "why_tests_cant": "depends on the capacity of a pipe", "anchors": ["src/runtime/command/exec/mod.rs BasicCommand::spawn"]}
{"id": "C41", "title": "Exit statuses distinguish outcomes", "statement": "A command is successful exactly when it exits with code 0; different exit codes give different statuses, and termination by a signal is never reported as an exit code or as success.", "quantifier": "every exit code and signal number", "why_tests_cant": "all codes", "anchors": ["src/runtime/command/exec/mod.rs ErrorStatus::wait_child"]}
{"id": "C42", "title": "Asynchronous commands can be joined exactly once", "statement": "The first join of an asynchronous block returns the block's result; every later join panics.", "quantifier": "every number of joins", "why_tests_cant": "all histories", "anchors": ["src/runtime/command/exec/join.rs Join"]}
{"id": "C43", "title": "Nothing runs unless static checks pass", "statement": "The script is executed only if neither syntax nor semantic errors were found and checking-only mode is off; the process exit code is 0, 1, 2 or 127 according to success, bad arguments, static errors and panic.", "quantifier": "every source, option set and run outcome", "why_tests_cant": "all combinations", "anchors": ["src/main.rs run", "src/main.rs main"]}
{"id": "C44", "title": "Substring, split and join agree", "statement": "std.substr(s, i, n) is the n bytes from position i, or nil when they do not exist; joining the parts of std.split(s, p) with p gives back s.", "quantifier": "all strings, patterns, positions and lengths", "why_tests_cant": "all strings", "anchors": ["src/runtime/lib/substr.rs", "src/runtime/lib/split.rs"]}
{"id": "C45", "title": "Number conversions round-trip", "statement": "std.int(std.to_string(n)) is n for every integer n.", "quantifier": "every 64-bit integer", "why_tests_cant": "2^64 integers", "anchors": ["src/runtime/lib/int.rs", "src/runtime/lib/to_string.rs"]}
{"id": "C46", "title": "Hex and base64 encodings round-trip", "statement": "std.hex.decode(std.hex.encode(s)) and std.base64.decode(std.base64.encode(s)) are s.", "quantifier": "every byte string", "why_tests_cant": "all strings", "anchors": ["src/runtime/lib/hex.rs", "src/runtime/lib/base64.rs"]}
{"id": "C47", "title": "Type names round-trip", "statement": "std.type(v) is a name of v's type that is distinct for distinct types, and every type name accepted by the type parser prints back to itself.", "quantifier": "all values and strings", "why_tests_cant": "all strings", "anchors": ["src/runtime/value/mod.rs Type"]}
{"id": "C48", "title": "Modules are evaluated once", "statement": "Importing the same file repeatedly evaluates its module body once, provided that it succeeded, and each import returns the same value.", "quantifier": "every sequence of imports", "why_tests_cant": "all import histories", "anchors": ["src/runtime/lib/import.rs"]}
{"id": "C49", "title": "Objects are reached only through references", "statement": "An array, dict or native function object that is referred to by no variable, captured cell, pending argument, module value or other object is not read or changed by anything the program does, and the program can never get a reference to it.", "quantifier": "every state, every unreferenced object, every task of the interpreter, every behaviour of the environment", "why_tests_cant": "absence of aliasing has to hold for every path of the interpreter and the library", "anchors": ["src/runtime/mod.rs Runtime", "src/runtime/mem.rs", "src/runtime/lib.rs"]}
{"id": "C50", "title": "No dangling references", "statement": "In every state that a program reaches, every reference held by a variable, cell, argument, object or result is a reference to an object that exists.", "quantifier": "every program, every execution", "why_tests_cant": "all executions", "anchors": ["src/runtime/mod.rs Runtime", "src/runtime/mem.rs"]}
{"id": "C51", "title": "Script arguments are passed through", "statement": "std.args() returns, throughout an execution, one and the same array; at the start it holds exactly the command line arguments that follow the script path, byte for byte and in order.", "quantifier": "every command line, program and execution", "why_tests_cant": "all command lines and all points of all executions", "anchors": ["src/args.rs parse", "src/main.rs run", "src/runtime/lib/args.rs"]}
{"id": "C52", "title": "Replacing is splitting and joining", "statement": "std.replace(s, p, r), for a non-empty p, replaces exactly the occurrences of p found from left to right without overlap, and changes nothing else.", "quantifier": "all strings", "why_tests_cant": "all strings", "anchors": ["src/runtime/lib/replace.rs"]}
{"id": "C53", "title": "Arrays are stacks", "statement": "std.push appends one element, std.pop removes and returns the last one (so that it undoes push) and panics on an empty array, std.len counts; no other object changes.", "quantifier": "every memory state, array and value", "why_tests_cant": "all states", "anchors": ["src/runtime/lib/push.rs", "src/runtime/lib/pop.rs", "src/runtime/lib/length.rs"]}
{"id": "C54", "title": "contains agrees with equality", "statement": "std.contains(a, v) is true iff some element of the array equals v in the sense of ==; for a string and a byte, iff the byte occurs.", "quantifier": "every memory state, all finite values and strings", "why_tests_cant": "all states", "anchors": ["src/runtime/lib/contains.rs"]}
{"id": "C55", "title": "has_error finds every nested error", "statement": "std.has_error(v), for v not containing itself, is true iff v is an error or an error occurs, at any depth, in the elements of its arrays or the keys and values of its dicts.", "quantifier": "every memory state and value", "why_tests_cant": "arbitrary nesting", "anchors": ["src/runtime/lib/has_error.rs"]}
{"id": "C56", "title": "typecheck decides the type", "statement": "std.typecheck(v, name) returns v iff name is what std.type(v) returns; it is a type error for the name of another type and a value error for any other string.", "quantifier": "all values and strings", "why_tests_cant": "all strings", "anchors": ["src/runtime/lib/typecheck.rs", "src/runtime/lib/type_.rs"]}
{"id": "C57", "title": "Library functions check their arguments", "statement": "Every library function called with a number of arguments other than it takes panics with invalid-args and both numbers; with the right number but an argument of a type it does not take, it panics with a type error naming the first such argument and the types expected; nothing else happens. Arguments of the right number and types are not rejected as such.", "quantifier": "every library function with a fixed parameter list, all argument lists, every state", "why_tests_cant": "all functions times all argument lists", "anchors": ["src/runtime/lib/", "src/runtime/panic.rs"]}
{"id": "C58", "title": "Operators check their operands and compute what they say", "statement": "Arithmetic, comparison and concatenation operators accept exactly their documented types, with both operands of the same type, and reject any other operand with a type error that names it, the left one first. Comparisons follow the usual order of integers, bytes, floats and strings; == and != tell whether the contents are the same; ++ joins; not negates.", "quantifier": "every operator, all pairs of operand values, every state", "why_tests_cant": "operators times all pairs of types times unbounded values", "anchors": ["src/runtime/mod.rs Runtime::unary_op", "src/runtime/mod.rs Runtime::binary_op", "src/runtime/mod.rs Runtime::arithmetic_op", "src/runtime/mod.rs Runtime::ord_op"]}
{"id": "C59", "title": "Conditionals, loops and blocks execute the right statements", "statement": "A block executes its statements in order up to one that returns, breaks or panics and has the value of the last one; if executes exactly the block selected by its condition; while executes its body exactly as long as the condition is true, break leaves the innermost loop, return and panics pass through; a condition that is no boolean is a panic.", "quantifier": "every block, conditional and while loop, in every state", "why_tests_cant": "unbounded nesting and iteration counts", "anchors": ["src/runtime/mod.rs Runtime::eval_tail_expr", "src/runtime/mod.rs Runtime::eval_tail_statement", "src/runtime/mod.rs Runtime::eval_tail_block"]}
{"id": "C60", "title": "Calls bind parameters, self and captured variables", "statement": "A call of a Hush function requires exactly as many arguments as parameters (otherwise an invalid-arguments panic with both numbers) and room for its variables (otherwise a stack-overflow panic). Its body is executed once with parameter i bound to argument i, self to the object it was accessed from, captured variables shared with the creating function and all other variables nil. The value is the returned one or that of the last statement; afterwards the variables of the function are gone.", "quantifier": "every call performed in any execution of any accepted source", "why_tests_cant": "all functions, frame layouts, argument lists and stack heights", "anchors": ["src/runtime/mod.rs Runtime::call", "src/runtime/mem.rs Stack::extend", "src/runtime/mem.rs Stack::shrink"]}
{"id": "C61", "title": "std.trim removes exactly the white space at the ends", "statement": "The result of std.trim is the one text r such that the argument is white space characters, r, white space characters, and r neither begins nor ends with a white space character (Unicode White_Space in UTF-8; bytes that are no characters are kept). Trimming twice is trimming once.", "quantifier": "all byte strings, valid UTF-8 or not", "why_tests_cant": "unbounded strings with multi-byte and invalid sequences at both ends", "anchors": ["src/runtime/lib/trim.rs Trim::call"]}
{"id": "C62", "title": "std.int reads exactly the decimal numerals and rounds floats towards zero", "statement": "std.int of a string is the integer it denotes in decimal with an optional sign if that is a 64-bit integer, and a value error panic for every other string. std.int of a float is the float rounded towards zero, or the nearest 64-bit integer if that is out of range; a float that is no number is a panic.", "quantifier": "all byte strings and all 2^64 floats", "why_tests_cant": "unbounded strings and 2^64 floats", "anchors": ["src/runtime/lib/int.rs Int::call", "src/runtime/value/float.rs"]}
{"id": "C63", "title": "JSON text is read back as the data that was written", "statement": "For every acyclic value made of nil, booleans, bytes, integers, floats, strings, arrays and dicts with string keys, std.json.encode gives a text, and std.json.decode of that text is a value with the same contents. Every other acyclic value is refused with a value error panic; decode never panics on a string: what it cannot read is an error value with the string as context.", "quantifier": "all values in all heaps, of any size and nesting", "why_tests_cant": "unbounded nesting, all strings with all escapes, all integers; the violations need nesting beyond 127 or special floats and invalid UTF-8", "anchors": ["src/runtime/lib/json.rs Encode::call, Decode::call, encode, decode, ValueVisitor"]}
{"id": "C64", "title": "The variable stack never exceeds its limit; overflow is a panic at the call", "statement": "At no moment of the execution of a program does the stack of variables hold more slots than its limit. A call for whose variables there is no room is a stack overflow panic at the position of the call and leaves the variables as they were; a call for which there is room never is one, except through calls made by its own body.", "quantifier": "all programs, all worlds, all limits, all states reached in executions", "why_tests_cant": "all programs and every moment of unbounded executions, including recursion through closures, module loading and failing calls", "anchors": ["src/runtime/mem.rs Stack::extend", "src/runtime/mod.rs call"]}
{"id": "C65", "title": "Command blocks of scripts are executed as they stand in the script, with the variables of that moment", "statement": "A block { ... } or ${ ... } of a script is executed with the arguments made from the values of the variables at that moment; its commands run in sequence after all calls to the operating system that earlier blocks of the script made. The value of { ... } is nil if all its processes succeeded and otherwise an error with the failures; the value of ${ ... } is a new dict with stdout and stderr if nothing failed and otherwise an error. If an argument cannot be made, nothing is started. The variables are as before.", "quantifier": "all scripts, all blocks, all states, all behaviours of the operating system", "why_tests_cant": "all scripts against all operating system behaviours and histories", "anchors": ["src/runtime/command/mod.rs eval_command_block", "src/runtime/command/exec/mod.rs Block::exec, Block::capture"]}
{"id": "C66", "title": "The text of a value is an expression that denotes the same value", "statement": "The text that std.to_string gives for a value made of nil, booleans, integers, floats, bytes, strings, arrays and dicts (other than a string at top level, which is given as it is) is accepted as a program, and the value of that program has the same contents; hence values with different contents have different texts.", "quantifier": "all values of any size and nesting, in all heaps", "why_tests_cant": "unbounded nesting and all strings; the escapes of the standard library must agree with those of the lexer for every character", "anchors": ["src/runtime/lib/to_string.rs ToString::call", "src/runtime/value/fmt.rs Display for Value, Array, Dict, Str", "src/syntax/lexer/automata/string.rs validate_escape"]}
{"id": "C67", "title": "The printed syntax tree is a source of the same program", "statement": "What `hush --ast` prints for a source without errors (below its heading) is itself a source without lexical and syntactic errors, and the syntax tree of that source is the same as the one printed, apart from positions. So printing is stable, and trees that differ have different texts.", "quantifier": "for all syntax trees (of any size and nesting)", "why_tests_cant": "Whether a text is read back as the same tree depends on every combination of adjacent statements, nesting of inline and indented notation, operators, literals and escape sequences; there are infinitely many trees.", "anchors": ["src/syntax/ast/fmt.rs:67", "src/syntax/ast/fmt.rs:92", "src/syntax/ast/fmt.rs:222", "src/syntax/ast/fmt.rs:333", "src/syntax/ast/fmt.rs:618"]}
{"id": "C68", "title": "A dict has at most one entry for a key", "statement": "At every moment of every execution of an accepted script, no dict in memory - made by a literal, by assignment to new keys, by decoding JSON, by iteration, by the library or by a command block - has two entries with the same key, for keys that are nil, booleans, bytes, integers, strings or floats that are numbers. So when all keys are such values, no two keys of a dict are the same for lookups, and reading, writing, len and iteration agree on the entries. (Keys that are arrays can be made equal afterwards by changing them.)", "quantifier": "for all accepted scripts, all worlds whose answers have no repeated keys, all moments of all executions", "why_tests_cant": "It is an invariant of all reachable memories: every way to make or change a dict, in any order and interleaved with calls, errors and modules, has to preserve it.", "anchors": ["src/runtime/value/dict.rs:59", "src/runtime/mod.rs:214", "src/runtime/mod.rs:447", "src/runtime/lib/json.rs:154", "src/runtime/command/mod.rs:94"]}
{"id": "C69", "title": "A script does what its text says, by names", "statement": "Running an accepted source gives a result that is one of the outcomes of executing its syntax tree directly by names, without slots, frames, captures or a stack: a name means its innermost declaration visible at that place of the text, a function sees the variables that were visible where it was created, every call has new variables for its parameters and declarations, and a module sees only std. Result or panic, effects, values of modules and all arrays, dicts and errors are the same. The semantics by names leaves open only the addresses of new variables, at which depth the stack is full, and which of its visible variables a function is compared by.", "quantifier": "for all accepted sources, all worlds, all executions", "why_tests_cant": "It composes parser, analyser and interpreter: it depends on every nesting of blocks, functions and captures and on every interleaving of calls and assignments.", "anchors": ["src/semantic/mod.rs", "src/semantic/scope.rs", "src/runtime/mod.rs", "src/runtime/mem.rs"]}
{"id": "C70", "title": "Every process started by a block is waited for exactly once", "statement": "Whatever happens in a command block, each process that it started is waited for exactly once before the block ends, only processes started by the block are waited for, and the parts of a pipeline are all started before one of them is waited for.", "quantifier": "for all blocks, all kinds of blocks, all behaviours of the operating system including failing calls, all scripts", "why_tests_cant": "It depends on which of the calls of a block fails; each of them can fail at any place of any pipeline.", "anchors": ["src/runtime/command/exec/mod.rs:465-546", "src/runtime/command/exec/mod.rs:566-629"]}
{"id": "C71", "title": "The shell leaks no handle and keeps no end of a pipe open while it waits", "statement": "When a command block has ended, in whatever way, the shell holds exactly the handles (files, pipe ends, duplicates) that it held before, and no handle is closed twice. While the shell waits for the processes of a command it holds no handle made for that command, and the write end of each pipe of a pipeline was given to the stage before the pipe only, so every stage sees the end of its input when that stage has ended. The write ends of the pipes of a capture block are closed before what was captured is received.", "quantifier": "for all blocks, all kinds of blocks, all behaviours of the operating system including failing calls", "why_tests_cant": "Handles are closed by the scopes of variables on every path, including each early return; a leak on one of them is a blocked pipeline or an exhausted process much later.", "anchors": ["src/runtime/command/exec/mod.rs:280-423", "src/runtime/command/exec/mod.rs:465-629", "src/runtime/command/mod.rs:25-146"]}
{"id": "C72", "title": "Errors point at a place in a source that is executed", "statement": "The position of a lexical error is in the text; a syntax error is about a token of the text; a semantic error is at a token of the text, or at a variable in a command argument. A panic is at a token of the script or of a module loaded in the execution (never at a made-up position, nor at one of another text), and the errors of commands are at the commands of the block that was executed. Only the end of a text, and variables that do not fit on the stack, are reported without a line.", "quantifier": "for all texts, all scripts and modules, all executions, all behaviours of the operating system", "why_tests_cant": "Every node of the syntax tree and of the program has a position, which must survive parsing (also error recovery), analysis, closures, imports, and the building of commands; a test sees the positions of one error.", "anchors": ["src/syntax/lexer/cursor.rs:60-110", "src/syntax/ast/mod.rs:33-75", "src/semantic/mod.rs:110-224", "src/runtime/mod.rs:91-600", "src/runtime/panic.rs:1-130", "src/runtime/command/exec/error.rs:107-136"]}
{"id": "C73", "title": "Whatever is rejected is reported, in order and completely", "statement": "A script is rejected before execution exactly if a report is printed, and then the exit status is 2. The report lists the errors in the order of their places in the text, up to twenty of them; the place of an error can be read from its report. If there are more than twenty errors, the report says how many were left out. Each mistake is reported once.", "quantifier": "for all texts, all paths, all numbers of errors, all orders in which the errors of the lexer and of the parser are found", "why_tests_cant": "The errors come from three passes with error recovery over texts that are wrong in arbitrary ways; that an analysis fails without an error, or that recovery goes back, shows only for particular texts.", "anchors": ["src/syntax/error/fmt.rs:22-58", "src/semantic/error/fmt.rs:59-104", "src/syntax/mod.rs:33-69", "src/main.rs:96-150", "src/syntax/lexer/automata/argument.rs:55-97"]}
{"id": "C74", "title": "Reports of errors contain no control characters", "statement": "The text of a script and its path cannot put control characters into the reports of errors: every report of an error is one line of printable text, whatever names, literals and malformed tokens are in the script. (A script that is checked before use must not be able to drive the terminal, or to fake or hide reports.)", "quantifier": "for all texts, all paths, all errors of the lexer, the parser and the analyser", "why_tests_cant": "Reports contain pieces of the script of every kind of token; one place that prints a piece without escaping suffices.", "anchors": ["src/syntax/lexer/error/fmt.rs:8-46", "src/syntax/parser/error/fmt.rs:10-48", "src/syntax/lexer/token/fmt.rs:21-226", "src/semantic/error/fmt.rs:20-66", "src/symbol/fmt.rs:11-30"]}
{"id": "C75", "title": "Output appears in the order of the script", "statement": "What a script prints (std.print, std.println, the prompt of std.read) and what the commands of its blocks write to the standard output appear in the order in which the script prints and runs the commands, and nothing of it is lost.", "quantifier": "for all executions, all printed values and the pieces in which their texts are written, all outputs of commands, all fill levels of the buffer", "why_tests_cant": "The shell writes through a buffer and commands write to the file directly; the order depends on line ends in printed texts, on their lengths relative to the buffer, and on what comes next. A test of a single function cannot see it.", "anchors": ["src/runtime/lib/print.rs:22-57", "src/runtime/lib/println.rs:22-57", "src/runtime/lib/read.rs:34-58", "src/runtime/command/exec/mod.rs:163-219"]}
{"id": "C76", "title": "Capture blocks never deadlock and capture everything", "statement": "However much the processes of a capture block write to their standard output and standard error, in whatever order, and whatever they read in pipelines: the block does not get stuck while its processes could go on; if the processes end, the block ends, and the captured texts are exactly what was written to the two streams, in order. Between the processes of a pipeline, everything arrives in the order in which it was sent, and who gets the end of the file has received everything.", "quantifier": "for all blocks of pipelines of processes with any behaviour of finitely many steps (depending on what they read), all interleavings of the processes and of the threads of the shell, all capacities of pipes", "why_tests_cant": "Deadlocks of processes and threads over pipes of limited capacity show for particular amounts of output and particular interleavings only.", "anchors": ["src/runtime/command/mod.rs:43-119", "src/runtime/command/exec/mod.rs:482-545", "src/runtime/command/exec/mod.rs:586-629"]}
{"id": "C77", "title": "Panics are reported with place, cause and value", "statement": "When a script panics, the process writes one report that tells the place of the panic, its cause and the value it is about, and ends with the exit status 127. Panics at different places or with different causes have different reports, and the report contains no control characters, so it is on one line and does not disturb the terminal.", "quantifier": "for all scripts, all panics, all values (however nested), all paths, all heaps", "why_tests_cant": "There are unboundedly many values, places and messages; values may contain themselves, and bytes may be any of 256.", "anchors": ["src/runtime/panic.rs:225-366", "src/main.rs:182-191", "src/runtime/value/fmt.rs:120-138", "src/runtime/source.rs:75-87", "src/runtime/command/exec/mod.rs:86-116"]}
{"id": "C78", "title": "A process gets the arguments and environment variables written for it", "statement": "Every program started by a command block, whatever the result of the block is, gets exactly the words that the arguments of its command stand for, in the order in which they are written, and the environment variables of the shell together with those assigned before the command, of which the last assignment counts.", "quantifier": "for all blocks, all kinds of blocks, all results including panics and failed calls, all behaviours of the operating system, all values of variables", "why_tests_cant": "A test shows the arguments of a few commands; words may contain any bytes, expand to any number of words, and commands may stand anywhere in pipelines and blocks that fail at any call.", "anchors": ["src/runtime/command/exec/mod.rs:280-379", "src/runtime/command/exec/mod.rs:162-236", "src/runtime/command/mod.rs:205-274", "src/semantic/mod.rs:560-602"]}
{"id": "C79", "title": "Commands run in the directory that cd has reached", "statement": "Every program started by a block is started in the directory reached by the cd commands before it in the block, in order; nothing else in a block changes the directory; if cd fails, nothing is executed after it and the block reports the failure.", "quantifier": "for all blocks, all results, all behaviours of the operating system (any call may fail at any moment)", "why_tests_cant": "Which calls fail, and after how many commands, cannot be enumerated; a test sees one directory on one machine.", "anchors": ["src/runtime/command/exec/mod.rs:162-220", "src/runtime/command/exec/mod.rs:566-629"]}
{"id": "C80", "title": "Exported variables are seen by the script and by the programs it starts", "statement": "After std.export(name, text), std.env(name) gives the text, programs started by later command blocks have the variable with that text unless the command assigns it, and ~ follows HOME; nothing else a script does changes a variable, the last export of a name counts, and names or texts that the operating system does not allow are refused with an error value.", "quantifier": "for all scripts and all tasks of their execution, all names and texts, all initial environments, all values of the other parts of the world", "why_tests_cant": "The variables are global state of the process; that no sequence of calls, imports, panics and command blocks changes them otherwise, and that every program started later sees them, is a statement about all executions.", "anchors": ["src/runtime/lib/env.rs:19-71", "src/runtime/command/mod.rs:400-413", "src/runtime/command/exec/mod.rs:292-301"]}
{"id": "C81", "title": "An import names a file relative to the file that contains it", "statement": "std.import(path) means the file seen from the directory of the file that contains the call (absolute paths mean themselves); if there is no such file it panics, if it was imported before the same module is given, otherwise this file is loaded. Which file that is does not depend on the working directory at the time.", "quantifier": "for all scripts, modules and import paths, all states reached in executions, all file systems and all changes of the working directory", "why_tests_cant": "The working directory may be changed by std.cd, by cd in a command block, or by an imported module, at any time before the import; a test fixes one sequence and one layout of files.", "anchors": ["src/runtime/lib/import.rs:31-77", "src/runtime/lib/import.rs:80-130"]}
{"id": "C82", "title": "Symbols of names and paths are as good as their texts", "statement": "Identifiers and paths are interned as numbers. Whatever the code does with them (obtain, compare, use as keys, resolve, show), it sees what it would see if they were texts: two symbols are equal exactly if their texts are, a symbol resolves to its text for ever, and is shown as it (except the one dummy text); it aborts only when 2^32 symbols are used up.", "quantifier": "for all code that uses symbols (any strategy choosing its next use by what it has seen), all texts, any number of uses", "why_tests_cant": "A confusion of two names would need a particular history of interned texts; the statement is about all histories and all later comparisons.", "anchors": ["src/symbol/mod.rs:1-83", "src/symbol/fmt.rs:11-30"]}
{"id": "C83", "title": "Asynchronous blocks do not disturb the directory of the script, nor the script theirs", "statement": "A program is started in the directory chosen by the cd commands that its own thread (the script, or the asynchronous block) has executed before, whatever other threads do at the same time.", "quantifier": "for all numbers of asynchronous blocks, all their commands, all interleavings of the calls of the threads, all answers of the operating system", "why_tests_cant": "The order of calls of different threads is up to the operating system; a test sees one of the interleavings.", "anchors": ["src/runtime/command/mod.rs:121-142", "src/runtime/command/exec/mod.rs:173-190"]}
{"id": "C84", "title": "The text of an analysed program tells which program it is", "statement": "The text that hush --program prints for a script determines the analysed program: two programs have the same text exactly if they agree in everything but positions in the source and the order of captures. Printing an accepted program never panics.", "quantifier": "for all programs (statements, expressions, literals, frames, nesting), and for all accepted sources", "why_tests_cant": "Tests compare the texts of single programs; that no two different programs share a text is a statement about all pairs of programs of any nesting.", "anchors": ["src/semantic/program/fmt.rs:64-674", "src/semantic/program/mem/fmt.rs:10-74"]}
{"id": "C85", "title": "The names of variables do not matter", "statement": "When the variables of a script are renamed consistently (different names for different names, `std` kept), in declarations, parameters, loop variables, uses and `$x` in commands, but not in keys, fields and strings, then the script is analysed to the very same program, so that it does the same in every execution; if it is rejected, it is rejected with the same errors at the same places, with the new names.", "quantifier": "for all syntax trees and all renamings", "why_tests_cant": "Names are used in many places: nested scopes, shadowing, captures over several functions (under invented names), arguments of commands; a mistake needs the right clash of names to show.", "anchors": ["src/semantic/scope.rs:13-285", "src/semantic/mod.rs:63-877"]}
{"id": "C86", "title": "The name of every variable can be chosen independently", "statement": "Two scripts that differ only in the choice of names (declarations are in the same places, and every use means the same declaration: the innermost visible one, also across functions; two variables can share a name in one script and have different names in the other) are analysed to the same program, or rejected with the same errors; so renaming a single variable never changes what a script does, as long as no use changes its declaration.", "quantifier": "for all pairs of syntax trees related by the choice of names", "why_tests_cant": "The claim is about every pair of programs and every pattern of shadowing and of captures over any number of functions; the analyser records captures under invented names in the scopes of variables, and a clash shows only for particular nestings.", "anchors": ["src/semantic/scope.rs:13-285", "src/semantic/mod.rs:63-877"]}
{"id": "C87", "title": "The layout of a script does not matter", "statement": "Two scripts with the same tokens and lexical errors, at any places (with other whitespace, line breaks and comments), have the same syntax tree, the same syntax errors, and the same program or the same semantic errors, apart from positions; in check mode the exit code is the same. More generally, the parser and the static analysis commute with every change of positions.", "quantifier": "for all pairs of texts with the same tokens, all token lists, all syntax trees, all changes of positions that keep the position marking ill-formed items apart", "why_tests_cant": "The parser copies positions into every node and both stages also inspect syntax trees for the special position of ill-formed items; tests compare a few layouts.", "anchors": ["src/syntax/parser/mod.rs", "src/syntax/parser/command.rs", "src/syntax/mod.rs:33-69", "src/semantic/mod.rs:63-877", "src/main.rs:96-152"]}
{"id": "C88", "title": "The dumps of a script do not depend on its layout", "statement": "What --ast and --program print (below the heading with the path) is the same for two scripts with the same tokens, whatever whitespace, line breaks and comments are between them; the printed text of a syntax tree or of an analysed program does not depend on positions at all.", "quantifier": "for all pairs of texts with the same tokens and lexical errors (also with syntax errors), all syntax trees and programs, all changes of positions that keep the position marking ill-formed items apart", "why_tests_cant": "Printing looks at the position of every argument to recognise ill-formed ones, and the trees it prints contain the positions of the whole layout; tests compare a few layouts.", "anchors": ["src/syntax/ast/fmt.rs:60-668", "src/semantic/program/fmt.rs", "src/syntax/mod.rs:33-63", "src/main.rs:110-152"]}
{"id": "C89", "title": "Lengths count elements", "statement": "std.len of a string, array or dict is the number of its bytes, elements or entries, and std.is_empty tells whether that number is 0. std.bytes gives a new array with exactly the bytes of the string, in order, and of the same length. std.hex.encode gives a text twice as long, std.base64.encode one of four bytes for every three, rounded up. Assigning an entry of a dict makes it longer by one if the key (nil, a boolean, byte, integer, string, or float that is a number) is new, and leaves the length otherwise.", "quantifier": "for all strings, arrays and dicts of all sizes, in all memories, all simple keys and all expressions yielding the dict, key and value", "why_tests_cant": "The three kinds of collections have separate implementations of each function, and the laws are about all sizes; tests try a few small collections.", "anchors": ["src/runtime/lib/length.rs:20-28", "src/runtime/lib/is_empty.rs:20-31", "src/runtime/lib/bytes.rs:20-35", "src/runtime/lib/hex.rs:23-30", "src/runtime/lib/base64.rs:23-30", "src/runtime/value/dict.rs:60-92", "src/runtime/mod.rs:447-465"]}
{"id": "C90", "title": "Exhausted iterators stay exhausted", "statement": "Once a call of an iterator made by std.iter from a string or a dict, or of a range made by std.range, has returned a dict with finished = true, every later call returns exactly that again, and the state of the iterator never changes again, whatever the interpreter executes in between, including executions that panic. In particular a for loop over it has no turn, and assigns nothing. Iterators over arrays are different: one that has told that it is finished yields the element that std.push adds to the array afterwards.", "quantifier": "for all strings, dicts, integer and float ranges (any step, NaN included), all states, all sequences of executed tasks in between and all behaviours of the outside world", "why_tests_cant": "The property is about everything that can be executed between two calls, by any code holding or not holding the iterator; tests call an iterator once or twice after its end.", "anchors": ["src/runtime/lib/iter.rs:58-139", "src/runtime/lib/range.rs:50-105", "src/runtime/lib/push.rs:20-30", "src/runtime/mod.rs:505-560"]}
