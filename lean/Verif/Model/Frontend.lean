import Verif.Model.Lexer
import Verif.Model.Parser
import Verif.Model.Analyzer

/-!
Syntax analysis of a source: src/syntax/mod.rs.
-/

namespace Hush

/-- `Analysis`, src/syntax/mod.rs:23-29; the errors of the lexer and of the parser are kept apart (in the code they are
interleaved in one list). -/
structure SyntaxAnalysis where
  ast : Ast.Block
  lexErrors : List LexError
  parseErrors : List ParseError

/-- `Ok(token) => Some(token)` in src/syntax/mod.rs:44. -/
def okToken : Output → Option Token
  | .ok t => some t
  | .error _ => none

/-- `Err(error) => errors.push(..)` in src/syntax/mod.rs:45-48. -/
def errOutput : Output → Option LexError
  | .ok _ => none
  | .error e => some e

/-- `Analysis::analyze`, src/syntax/mod.rs:33-63; `none` when the lexer aborts (the other outcomes that give `none` are
proved impossible). Simplification: the code pulls tokens one at a time, so that after a stray block terminator at top
level, where the parser stops reading, the rest of the source is not lexed at all; here it is. -/
def syntaxAnalysis (src : Bytes) : Option SyntaxAnalysis :=
  match lex src with
  | .done outs =>
    match parse (outs.filterMap okToken) with
    | .ok b st => some ⟨b, outs.filterMap errOutput, st.errors.reverse⟩
    | _ => none
  | _ => none

/-- `Analysis::is_ok`, src/syntax/mod.rs:67-69. -/
def SyntaxAnalysis.isOk (a : SyntaxAnalysis) : Bool := a.lexErrors.isEmpty && a.parseErrors.isEmpty

end Hush
