import Verif.Model.Report

/-!
The reports of panics: src/runtime/panic.rs:225-366 and src/main.rs:182-191. Simplified: without colours (src/term/color.rs:9-27: there are none unless both
output streams are terminals); the path of a position, which the positions of the model do not contain, is a parameter.
-/

namespace Hush.PanicText
open Hush

/-- `Display for SourcePos`, src/runtime/source.rs:75-87. -/
def located (w : World) (path : Bytes) (p : Pos) : Bytes :=
  AstFmt.symbol w path ++ bs " (line " ++ natDigits p.line ++ bs ", column " ++ natDigits p.column ++ bs ")"

/-- What follows the position, src/runtime/panic.rs:231-364; `none` if there is a value whose text is never finished (with `n` levels of recursion at most).
`debug` is `Debug for OsString` of the standard library. -/
def cause (w : World) (debug : Bytes → Bytes) (h : Heap) (n : Nat) : PanicKind → Option Bytes
  | .stackOverflow => some (bs "stack overflow")
  | .integerOverflow => some (bs "integer overflow")
  | .divisionByZero => some (bs "division by zero")
  | .indexOutOfBounds v => (Show.value w h n v).map fun t => bs "index (" ++ t ++ bs ") out of bounds"
  | .emptyCollection => some (bs "collection is empty")
  | .invalidCall v => (Show.value w h n v).map fun t => bs "attempt to call (" ++ t ++ bs "), which is not a function"
  | .invalidArgs supplied expected =>
    some (bs "incorrect amount of function parameters -- supplied " ++ natDigits supplied ++ bs ", expected " ++ natDigits expected)
  | .invalidCondition v => (Show.value w h n v).map fun t => bs "condition (" ++ t ++ bs ") is not a boolean"
  | .typeError v expected => (Show.value w h n v).map fun t => bs "value (" ++ t ++ bs ") has unexpected type, expected " ++ expected
  | .valueError v message => (Show.value w h n v).map fun t => bs "invalid value (" ++ t ++ bs "), expected " ++ message
  | .invalidCommandArgs object items => some (object ++ bs " expansion resulted in " ++ natDigits items ++ bs " items")
  | .io error => some error
  | .unsupportedFd fd => some (bs "unsupported file descriptor (" ++ natDigits fd ++ bs ")")
  | .invalidPattern p => some (bs "pattern (" ++ debug p ++ bs ") has invalid UTF-8")
  | .assignToReadonlyField v => (Show.value w h n v).map fun t => bs "attempt to assign field (" ++ t ++ bs "), which is readonly"
  | .assertionFailed => some (bs "assertion failed")
  | .importFailed path => some (bs "failed to import module (" ++ AstFmt.symbol w path ++ bs ")")
  | .invalidJoin => some (bs "attempt to call join more than once")
  | .user v => (Show.value w h n v).map fun t => bs "std.panic(" ++ t ++ bs ")"

/-- `Display for Panic`, src/runtime/panic.rs:225-366. -/
def text (w : World) (debug : Bytes → Bytes) (h : Heap) (n : Nat) (path : Bytes) (p : Panic) : Option Bytes :=
  (cause w debug h n p.kind).map fun t => bs "Panic in " ++ located w path p.pos ++ bs ": " ++ t

/-- The end of a process whose script panics, src/main.rs:184-190: what it writes to the standard error stream, and how it ends. If the text of the panic is never
finished, the native stack overflows, which is the end of the process; how much was written then is left open. -/
inductive Closes (w : World) (debug : Bytes → Bytes) (h : Heap) (path : Bytes) (p : Panic) : Bytes → Main.Ending → Prop where
  | reported {n t} : text w debug h n path p = some t → Closes w debug h path p (t ++ [10]) (.exited Main.ExitStatus.panic.code)
  | overflow {out} : (∀ n, text w debug h n path p = none) → Closes w debug h path p out .crashed

end Hush.PanicText
