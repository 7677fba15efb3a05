import Verif.Model.Program

/-!
Run-time values: src/runtime/value/*.rs, and language-level panics: src/runtime/panic.rs.

Arrays, dicts, error contexts, captured variables and function objects are garbage collected references in the
source (`Gc<..>`); here they are addresses into a heap (`Verif/Model/Heap.lean`). Garbage collection is not
modelled: nothing is ever freed.
-/

namespace Hush

/-- `Function`, src/runtime/value/function.rs:23-26. A Hush function (66-76) is the address of a function object.
A native function (`RustFun`, 205-206) is its name (`NativeFun::name`, 196-199) and the address of its private
state, which matters only for the functions that have one (iterators, ranges, bound functions, joins). -/
inductive Fn where
  | hush (addr : Nat)
  | native (name : Bytes) (state : Nat)
deriving DecidableEq, Repr

/-- `Value`, src/runtime/value/mod.rs:104-118. An `i64` is an integer (kept in range by the operations); a float
is its bit pattern; a string (src/runtime/value/string.rs:16-18) is its bytes, since strings are immutable; an
error (src/runtime/value/error.rs:12-19) is its description and the address of its context. -/
inductive Value where
  | nil
  | bool (b : Bool)
  | byte (b : UInt8)
  | int (i : Int)
  | float (bits : UInt64)
  | string (s : Bytes)
  | array (addr : Nat)
  | dict (addr : Nat)
  | function (f : Fn)
  | error (description : Bytes) (context : Nat)
deriving DecidableEq, Repr

/-- Technical: Lean wants some element of the type; not part of src/. -/
instance : Inhabited Value := ⟨.nil⟩

/-- `Type`, src/runtime/value/mod.rs:35-47. -/
inductive VType where
  | nil | bool | byte | int | float | string | array | dict | function | error
deriving DecidableEq, Repr

/-- `Type::parse`, src/runtime/value/mod.rs:52-69. -/
def VType.parse (s : Bytes) : Option VType :=
  if s = [110, 105, 108] then some .nil
  else if s = [98, 111, 111, 108] then some .bool
  else if s = [105, 110, 116] then some .int
  else if s = [102, 108, 111, 97, 116] then some .float
  else if s = [99, 104, 97, 114] then some .byte
  else if s = [115, 116, 114, 105, 110, 103] then some .string
  else if s = [97, 114, 114, 97, 121] then some .array
  else if s = [100, 105, 99, 116] then some .dict
  else if s = [102, 117, 110, 99, 116, 105, 111, 110] then some .function
  else if s = [101, 114, 114, 111, 114] then some .error
  else none

/-- `Type::display`, src/runtime/value/mod.rs:73-86. -/
def VType.display : VType → Bytes
  | .nil => [110, 105, 108]
  | .bool => [98, 111, 111, 108]
  | .byte => [99, 104, 97, 114]
  | .int => [105, 110, 116]
  | .float => [102, 108, 111, 97, 116]
  | .string => [115, 116, 114, 105, 110, 103]
  | .array => [97, 114, 114, 97, 121]
  | .dict => [100, 105, 99, 116]
  | .function => [102, 117, 110, 99, 116, 105, 111, 110]
  | .error => [101, 114, 114, 111, 114]

/-- `Value::get_type`, src/runtime/value/mod.rs:140-153. -/
def Value.type : Value → VType
  | .nil => .nil
  | .bool _ => .bool
  | .byte _ => .byte
  | .int _ => .int
  | .float _ => .float
  | .string _ => .string
  | .array _ => .array
  | .dict _ => .dict
  | .function _ => .function
  | .error _ _ => .error

/-- The constructors of `Panic`, src/runtime/panic.rs:14-96, without the position. -/
inductive PanicKind where
  | stackOverflow
  | integerOverflow
  | divisionByZero
  | indexOutOfBounds (index : Value)
  | emptyCollection
  | invalidCall (function : Value)
  | invalidArgs (supplied expected : Nat)
  | invalidCondition (value : Value)
  | typeError (value : Value) (expected : Bytes)
  | valueError (value : Value) (message : Bytes)
  | assignToReadonlyField (field : Value)
  | invalidCommandArgs (object : Bytes) (items : Nat)
  | io (error : Bytes)
  | unsupportedFd (fd : Nat)
  | invalidPattern (pattern : Bytes)
  | assertionFailed
  | importFailed (path : Sym)
  | invalidJoin
  | user (context : Value)
deriving DecidableEq, Repr

/-- `Panic`, src/runtime/panic.rs:14-96. Simplified: a position (src/runtime/source.rs:14-20) is a line and a column
without the path of the file. -/
structure Panic where
  kind : PanicKind
  pos : Pos
deriving DecidableEq, Repr

/-- Decimal digits of a natural number, most significant first (Rust `to_string`).
(Standard library, trusted; called by src/runtime/value/fmt.rs:120-138 and src/runtime/command/mod.rs:456-474.) -/
def natDigits (n : Nat) : Bytes :=
  if n < 10 then [UInt8.ofNat (48 + n)]
  else natDigits (n / 10) ++ [UInt8.ofNat (48 + n % 10)]

/-- Rust `i64::to_string`.
(Standard library, trusted; called by src/runtime/value/fmt.rs:120-138 and src/runtime/command/mod.rs:456-474.) -/
def intText (i : Int) : Bytes :=
  if i < 0 then cMinus :: natDigits i.natAbs else natDigits i.natAbs

/-- Rust `bool::to_string`.
(Standard library, trusted; called by src/runtime/value/fmt.rs:120-138 and src/runtime/command/mod.rs:456-474.) -/
def boolText (b : Bool) : Bytes :=
  if b then [116, 114, 117, 101] else [102, 97, 108, 115, 101]

end Hush
