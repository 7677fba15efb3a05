import Verif.Model.Value
import Verif.Spec.Reports

/-!
Specification for C77: what the report of a panic has to tell.
-/

namespace Hush.Spec
open Hush

/-- The value, and whatever is in its elements, entries and contexts, satisfies `P`; and there is no end of going deeper: the value is not part of itself. -/
inductive AllThrough (P : Value → Prop) (h : Heap) : Value → Prop
  | plain {v} : P v → (∀ a, v ≠ .array a) → (∀ d, v ≠ .dict d) → (∀ x c, v ≠ .error x c) → AllThrough P h v
  | array {a} : P (.array a) → (∀ v ∈ h.array a, AllThrough P h v) → AllThrough P h (.array a)
  | dict {d} : P (.dict d) → (∀ e ∈ h.dict d, AllThrough P h e.1) → (∀ e ∈ h.dict d, AllThrough P h e.2) → AllThrough P h (.dict d)
  | error {x c} : P (.error x c) → AllThrough P h (h.context c) → AllThrough P h (.error x c)

/-- The value is not part of itself. -/
def NotCyclic (h : Heap) (v : Value) : Prop := AllThrough (fun _ => True) h v

/-- The value that a panic is about. -/
def aboutValue : PanicKind → Option Value
  | .indexOutOfBounds v => some v
  | .invalidCall v => some v
  | .invalidCondition v => some v
  | .typeError v _ => some v
  | .valueError v _ => some v
  | .assignToReadonlyField v => some v
  | .user v => some v
  | _ => none

/-- The words with which a report tells the cause of the panic. -/
def heading : PanicKind → String
  | .stackOverflow => "stack overflow"
  | .integerOverflow => "integer overflow"
  | .divisionByZero => "division by zero"
  | .indexOutOfBounds _ => "index ("
  | .emptyCollection => "collection is empty"
  | .invalidCall _ => "attempt to call ("
  | .invalidArgs _ _ => "incorrect amount of function parameters"
  | .invalidCondition _ => "condition ("
  | .typeError _ _ => "value ("
  | .valueError _ _ => "invalid value ("
  | .invalidCommandArgs _ _ => " expansion resulted in "
  | .io _ => ""
  | .unsupportedFd _ => "unsupported file descriptor ("
  | .invalidPattern _ => "pattern ("
  | .assignToReadonlyField _ => "attempt to assign field ("
  | .assertionFailed => "assertion failed"
  | .importFailed _ => "failed to import module ("
  | .invalidJoin => "attempt to call join more than once"
  | .user _ => "std.panic("

/-- The things whose expansion is reported, src/runtime/command/mod.rs:213-325 and src/runtime/command/exec/mod.rs:162-398. -/
def expanded : List String := ["program", "env", "redirection", "env variable", "argument", "arg0"]

/-- A panic that is raised by Hush itself, not one that passes on a message of the operating system. -/
def OfHush : PanicKind → Prop
  | .io _ => False
  | .invalidCommandArgs object _ => ∃ o ∈ expanded, object = bs o
  | _ => True

/-- A value that is written without control characters: no byte, and no native function with such a name. -/
def Mild : Value → Prop
  | .byte _ => False
  | .function (.native name _) => Printable name
  | _ => True

/-- The messages in a panic are free of control characters. -/
def MildMessage : PanicKind → Prop
  | .typeError _ expected => Printable expected
  | .valueError _ message => Printable message
  | .invalidCommandArgs object _ => Printable object
  | .io error => Printable error
  | _ => True

end Hush.Spec
