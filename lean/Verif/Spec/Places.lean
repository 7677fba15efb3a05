import Verif.Spec.Execution
import Verif.Spec.SourcePos

/-!
Places in source texts: where errors may point to.
-/

namespace Hush.Spec
open Hush

/-- The position of a byte of the text, or of its end. -/
def InText (src : Bytes) (p : Pos) : Prop := ∃ k, k ≤ src.length ∧ p = lineCol src k

/-- The position of a `$name`. -/
def unitMarks : ArgUnit → List Pos
  | .literal _ => []
  | .dollar _ p => [p]

/-- The positions of the `$name`s in an expansion. -/
def expansionMarks : ArgExpansion → List Pos
  | .collection us => us.flatMap unitMarks
  | _ => []

/-- The positions of the `$name`s in a part of an argument. -/
def partMarks : ArgPart → List Pos
  | .unquoted u => unitMarks u
  | .doubleQuoted us => us.flatMap unitMarks
  | .expansion e => expansionMarks e
  | _ => []

/-- The positions of the `$name`s in a token. -/
def dollarMarks : TokenKind → List Pos
  | .argument ps => ps.flatMap partMarks
  | _ => []

/-- The position of a token, and those of the `$name`s in it. -/
def tokenMarks (t : Token) : List Pos := t.pos :: dollarMarks t.kind

/-- A token of the text is there, or a `$name` within a token. -/
def Mark (src : Bytes) (p : Pos) : Prop := ∃ outs t, lex src = .done outs ∧ .ok t ∈ outs ∧ p ∈ tokenMarks t

/-- The texts that are executed: the script, and the modules loaded so far. -/
inductive TextOf (w : World) (src : Bytes) (tr : List Event) : Bytes → Prop
  | script : TextOf w src tr src
  | module {pre path post text} : tr = pre ++ .load path :: post → w.readFile pre path = .ok text → TextOf w src tr text

/-- A place in one of the texts that are executed. -/
def Somewhere (w : World) (src : Bytes) (tr : List Event) (p : Pos) : Prop := ∃ text, TextOf w src tr text ∧ Mark text p

/-- The outside (a command, a library function that is not modelled) reports the panic when this is done to it. -/
inductive Answers (w : World) (tr : List Event) : Event → Panic → Prop
  | native {name args st h p} : w.native tr name st args h = .panic p → Answers w tr (.native name args) p
  | command {kind b p} : w.command tr kind b = .panic p → Answers w tr (.command kind b) p
  | join {t p} : w.joined tr t = .panic p → Answers w tr (.join t) p

/-- The panic comes from the outside. -/
def FromOutside (w : World) (tr : List Event) (p : Panic) : Prop := ∃ pre e post, tr = pre ++ e :: post ∧ Answers w pre e p

/-- The positions kept for the execution of a command: those of its parts in a pipeline. -/
def commandMarks : ExCommand → List Pos
  | .builtin _ _ _ p => [p]
  | .external h t => h.pos :: t.map (·.pos)

/-- The positions kept for the execution of a command block. -/
def blockMarks (b : ExBlock) : List Pos := (b.head :: b.tail).flatMap commandMarks

end Hush.Spec
