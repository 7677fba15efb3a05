import Verif.Model.Heap

/-!
What the interpreter does not compute itself: the environment, the library functions that are not modelled, floating
point arithmetic and the text of values. All of it is a parameter (`World`); theorems hold for every world.
-/

namespace Hush

/-- What a program does to the outside, in order; answers may depend on all that happened before.
(For the unmodelled parts of src/runtime/lib/*.rs and src/runtime/command/exec/mod.rs.) -/
inductive Event where
  | native (name : Bytes) (args : List Value)
  | command (kind : Ast.BlockKind) (b : ExBlock)
  | join (thread : Nat)
  | load (path : Sym)
  /-- A ghost: an import of the module returned the value. -/
  | imported (path : Sym) (v : Value)
deriving DecidableEq

/-- A value made by the outside: it consists of new objects and of the arguments of the call.
(For the unmodelled parts of src/runtime/lib/*.rs and src/runtime/command/exec/mod.rs.) -/
inductive Tree where
  | arg (i : Nat)
  | nil
  | bool (b : Bool)
  | byte (b : UInt8)
  | int (i : Int)
  | float (bits : UInt64)
  | string (s : Bytes)
  | array (items : List Tree)
  | dict (entries : List (Tree × Tree))
  | native (name : Bytes) (data : Bytes)
  | error (description : Bytes) (context : Tree)

/-- The outcome of something done by the outside. (For the unmodelled parts of src/runtime/lib/*.rs and src/runtime/command/exec/mod.rs.) -/
inductive Reply where
  | value (t : Tree)
  | panic (p : Panic)
  | crash
  | exit (code : Nat)

/-- See the head of the file. (Environment of src/runtime/mod.rs.) -/
structure World where
  /-- Whether arithmetic overflow is checked (debug build) or wraps (release build). -/
  checks : Bool
  /-- `max_size` of the stack, src/runtime/mem.rs:106-130. -/
  limit : Nat
  fneg : UInt64 → UInt64
  fadd : UInt64 → UInt64 → UInt64
  fsub : UInt64 → UInt64 → UInt64
  fmul : UInt64 → UInt64 → UInt64
  fdiv : UInt64 → UInt64 → UInt64
  frem : UInt64 → UInt64 → UInt64
  /-- `i64 as f64`. -/
  ofInt : Int → UInt64
  /-- The value of a float literal. -/
  parseFloat : Bytes → UInt64
  /-- The text of a float of the language, src/runtime/value/fmt.rs:38-42 (`{:#?}` of the `f64`). -/
  floatText : UInt64 → Bytes
  /-- `f64::to_string`. -/
  floatDisplay : UInt64 → Bytes
  /-- The JSON text of a float that is a number (crate `ryu`). -/
  jsonFloat : UInt64 → Bytes
  /-- The float denoted by a JSON number that is not an integer, or is too large for one; `none` if it is out of range. -/
  jsonNumber : Bytes → Option UInt64
  /-- The text of the error of a library function that fails for a text. -/
  errorText : Bytes → Bytes → Bytes
  /-- Whether `escape_debug` leaves a character beyond ASCII as it is, at the beginning of a text or elsewhere. -/
  plain : Bool → Bytes → Bool
  /-- The text of the path of a module, src/symbol/fmt.rs:11-30. -/
  pathText : Nat → Bytes
  /-- The text of a panic, src/runtime/panic.rs:225-366. -/
  showPanic : Heap → Panic → Bytes
  /-- Native functions that are not modelled. -/
  native : List Event → Bytes → NState → List Value → Heap → Reply
  /-- Execution of a command block. -/
  command : List Event → Ast.BlockKind → ExBlock → Reply
  /-- The result of the thread of an asynchronous block. -/
  joined : List Event → Nat → Reply
  /-- The environment variable `HOME`. -/
  home : List Event → Option Bytes
  /-- `resolve_path`, src/runtime/lib/import.rs:53-77: the canonical path of a module as seen from the given file. -/
  resolve : List Event → Sym → Bytes → Except Bytes Sym
  /-- The contents of a file. -/
  readFile : List Event → Sym → Except Bytes Bytes

mutual
/-- Build a value from a tree, left to right. (For the unmodelled parts of src/runtime/lib/*.rs.) -/
def Tree.build (args : List Value) (h : Heap) : Tree → Value × Heap
  | .arg i => (args.getD i .nil, h)
  | .nil => (.nil, h)
  | .bool b => (.bool b, h)
  | .byte b => (.byte b, h)
  | .int i => (.int i, h)
  | .float f => (.float f, h)
  | .string s => (.string s, h)
  | .array items =>
    let r := Tree.buildList args h items
    r.2.newArray r.1
  | .dict entries =>
    let r := Tree.buildEntries args h entries
    r.2.newDict r.1
  | .native name data => h.newNative name (.other data)
  | .error d c =>
    let r := Tree.build args h c
    r.2.newError d r.1
/-- The items of an array. (For the unmodelled parts of src/runtime/lib/*.rs.) -/
def Tree.buildList (args : List Value) (h : Heap) : List Tree → List Value × Heap
  | [] => ([], h)
  | t :: ts =>
    let r := Tree.build args h t
    let rs := Tree.buildList args r.2 ts
    (r.1 :: rs.1, rs.2)
/-- The entries of a dict. (For the unmodelled parts of src/runtime/lib/*.rs.) -/
def Tree.buildEntries (args : List Value) (h : Heap) : List (Tree × Tree) → List (Value × Value) × Heap
  | [] => ([], h)
  | (k, v) :: ts =>
    let rk := Tree.build args h k
    let rv := Tree.build args rk.2 v
    let rs := Tree.buildEntries args rv.2 ts
    ((rk.1, rv.1) :: rs.1, rs.2)
end

/-! ### Integers -/

/-- Whether an integer is an `i64`. (For src/runtime/mod.rs:797-829.) -/
def isI64 (i : Int) : Bool := decide (-9223372036854775808 ≤ i ∧ i ≤ 9223372036854775807)

/-- Two's complement wrapping to 64 bits. (For src/runtime/mod.rs:653-676.) -/
def wrap64 (i : Int) : Int := (i + 9223372036854775808) % 18446744073709551616 - 9223372036854775808

/-- The operator `+` of Rust on `i64` (or unary minus): in a build with overflow checks overflow is a Rust panic, in others
the result wraps. (As in src/runtime/mod.rs:653-676 and src/runtime/lib/range.rs:70-105.) -/
def World.arith (w : World) (i : Int) : Except Stop Int :=
  if isI64 i then .ok i else if w.checks then .error (.crash .arith) else .ok (wrap64 i)

/-- `i64::checked_add` and the like: `none` if the result is not an `i64`. (Called at src/runtime/mod.rs:797-829.) -/
def checked (i : Int) : Option Int := if isI64 i then some i else none

/-- `i64::checked_div`. (Called at src/runtime/mod.rs:818.) -/
def checkedDiv (a b : Int) : Option Int := if b = 0 then none else checked (a.tdiv b)

/-- `i64::checked_rem`; the remainder of the one overflowing division is rejected as well. (Called at src/runtime/mod.rs:824.) -/
def checkedRem (a b : Int) : Option Int :=
  if b = 0 then none else if isI64 (a.tdiv b) then some (a.tmod b) else none

end Hush
