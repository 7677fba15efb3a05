import Verif.Model.Report
import Verif.Spec.Execution

/-!
What is expected of the reports of errors.
-/

namespace Hush.Spec
open Hush Report

/-- The error of the lexer that this is. -/
def ofLexer : SyntaxError → Option LexError
  | .lexer e => some e
  | .parser _ => none

/-- The error of the parser that this is. -/
def ofParser : SyntaxError → Option ParseError
  | .lexer _ => none
  | .parser e => some e

/-- The errors of an analysis in one list, as they were found: those of the parser, and those of the lexer (up to where the parser stopped to read, which it
only does at an error), each in their order. -/
structure Found (a : SyntaxAnalysis) (es : List SyntaxError) : Prop where
  parser : es.filterMap ofParser = a.parseErrors
  lexer : es.filterMap ofLexer <+: a.lexErrors
  all : a.parseErrors = [] → es.filterMap ofLexer = a.lexErrors

/-- Where an error is; the report of an unexpected end does not say. -/
def placeOf : SyntaxError → Option Pos
  | .lexer e => some e.pos
  | .parser (.unexpected t _) => some t.pos
  | .parser (.emptyCommandBlock p) => some p
  | .parser .unexpectedEof => none

/-- One line for each text. -/
def errorLines (ts : List Bytes) : Bytes := ts.flatMap fun t => bs "Error: " ++ t ++ bs "\n"

/-- A text without control characters of ASCII; in particular it is on one line. -/
def Printable (s : Bytes) : Prop := ∀ b ∈ s, 32 ≤ b ∧ b ≠ 127

end Hush.Spec
